import Mathlib.Data.List.Lex
import Verif.Types.Props
/-
The isospin multiplets (C80).
-/
namespace Verif.Types
open Verif.Text (Str)

theorem key_inj {a b : Str} : key a = key b ↔ a = b := by
  unfold key
  constructor
  · intro h
    exact (List.map_injective_iff.2 fun x y h => UInt8.toNat_inj.1 h) h
  · rintro rfl; rfl

theorem isoFind_some {isos : List Iso} (hs : isos.Pairwise fun a b => key a.name < key b.name)
    (nm : Str) (j : Nat) : isoFind isos nm = some j ↔ ∃ x, isos[j]? = some x ∧ x.name = nm := by
  have key_eq : ∀ x : Iso, (isos[j]? = some x ∧ x.name = nm) ↔
      (j = lowerBound (fun l : Iso => decide (key l.name < key nm)) isos ∧ isos[j]? = some x ∧
        x.name = nm) := by
    intro x
    have := search_spec (fun x : Iso => key x.name) hs (key nm)
      (p := fun l : Iso => decide (key l.name < key nm)) (by simp) j x
    simpa only [key_inj] using this
  unfold isoFind
  generalize lowerBound (fun l : Iso => decide (key l.name < key nm)) isos = r at *
  dsimp only
  constructor
  · intro h
    split at h
    · cases h
    · rename_i x hx
      split_ifs at h with hn
      cases h
      exact ⟨x, hx, hn⟩
  · rintro ⟨x, hx⟩
    obtain ⟨rfl, h1, h2⟩ := (key_eq x).1 hx
    rw [h1]
    simp [h2]

theorem isoFind_none {isos : List Iso} (hs : isos.Pairwise fun a b => key a.name < key b.name)
    (nm : Str) : isoFind isos nm = none ↔ ∀ x ∈ isos, x.name ≠ nm := by
  constructor
  · intro h x hx hn
    obtain ⟨j, hj⟩ := List.mem_iff_getElem?.1 hx
    have := (isoFind_some hs nm j).2 ⟨x, hj, hn⟩
    rw [h] at this; cases this
  · intro h
    cases hc : isoFind isos nm with
    | none => rfl
    | some j =>
      obtain ⟨x, h1, h2⟩ := (isoFind_some hs nm j).1 hc
      exact absurd h2 (h x (List.mem_of_getElem? h1))

/-- The name of the multiplet of the type at a position. -/
def nameAt (types : List PType) (i : Nat) : Option Str :=
  types[i]?.map fun t => multipletName t.name

/-- The positions below `k` that belong to a multiplet. -/
def members (types : List PType) (k : Nat) (nm : Str) : List Nat :=
  (List.range k).filter fun i => decide (nameAt types i = some nm)

/-- The multiplets after `k` types. -/
structure IsoInv (types : List PType) (k : Nat) (isos : List Iso) : Prop where
  sorted : isos.Pairwise fun a b => key a.name < key b.name
  states : ∀ x ∈ isos, x.states = members types k x.name
  nonempty : ∀ x ∈ isos, x.states ≠ []
  all : ∀ i < k, ∃ x ∈ isos, nameAt types i = some x.name

theorem sortIsos_perm (l : List Iso) : (sortIsos l).Perm l := List.perm_insertionSort _ _

theorem sortIsos_sorted {l : List Iso} (hn : (l.map Iso.name).Nodup) :
    (sortIsos l).Pairwise fun a b => key a.name < key b.name := by
  have h1 : (sortIsos l).Pairwise fun a b => key a.name ≤ key b.name := by
    have : Std.Total fun a b : Iso => key a.name ≤ key b.name := ⟨fun a b => le_total _ _⟩
    have : IsTrans Iso fun a b : Iso => key a.name ≤ key b.name := ⟨fun a b c => le_trans⟩
    exact List.pairwise_insertionSort _ l
  have h2 : ((sortIsos l).map Iso.name).Nodup := ((sortIsos_perm l).map _).nodup_iff.2 hn
  have h3 : (sortIsos l).Pairwise fun a b => a.name ≠ b.name := by
    have := List.nodup_iff_pairwise_ne.1 h2
    rwa [List.pairwise_map] at this
  exact (h1.and h3).imp fun ⟨h, h'⟩ => lt_of_le_of_ne h fun e => h' (key_inj.1 e)

theorem nodup_of_sorted {l : List Iso} (h : l.Pairwise fun a b => key a.name < key b.name) :
    (l.map Iso.name).Nodup := by
  rw [List.nodup_iff_pairwise_ne, List.pairwise_map]
  exact h.imp fun h e => by rw [e] at h; exact lt_irrefl _ h

theorem modify_eq_map {l : List Iso} (hn : (l.map Iso.name).Nodup) {j : Nat} {x : Iso}
    (hx : l[j]? = some x) (f : Iso → Iso) :
    l.modify j f = l.map fun y => if y.name = x.name then f y else y := by
  apply List.ext_getElem?
  intro i
  rw [List.getElem?_modify, List.getElem?_map]
  cases hi : l[i]? with
  | none => simp
  | some y =>
    simp only [Option.map_some, Option.map_eq_map]
    by_cases hij : j = i
    · subst hij
      rw [hx] at hi; cases hi
      simp
    · rw [if_neg hij, if_neg]
      intro he
      apply hij
      obtain ⟨h1, h1'⟩ := List.getElem?_eq_some_iff.1 hx
      obtain ⟨h2, h2'⟩ := List.getElem?_eq_some_iff.1 hi
      have := (List.nodup_iff_injective_getElem.1 hn) (a₁ := ⟨j, by simpa using h1⟩)
        (a₂ := ⟨i, by simpa using h2⟩) (by simp [h1', h2', he])
      simpa using this

/-- Adding a state of the type at position `k`. -/
theorem create_finish {types : List PType} {k : Nat} {t : PType} (ht : types[k]? = some t)
    {l : List Iso} (hn : (l.map Iso.name).Nodup)
    (hst : ∀ x ∈ l, x.states = members types k x.name)
    (hne : ∀ x ∈ l, x.name ≠ multipletName t.name → x.states ≠ [])
    (hall : ∀ i < k, ∃ x ∈ l, nameAt types i = some x.name)
    (hnm : ∃ x ∈ l, x.name = multipletName t.name) :
    ∃ j, isoFind (sortIsos l) (multipletName t.name) = some j ∧
      IsoInv types (k + 1) ((sortIsos l).modify j fun x => x.addState k) := by
  have hs := sortIsos_sorted hn
  have hp := sortIsos_perm l
  obtain ⟨x, hx, hxn⟩ := hnm
  obtain ⟨j, hj⟩ := List.mem_iff_getElem?.1 (hp.mem_iff.2 hx)
  refine ⟨j, (isoFind_some hs _ j).2 ⟨x, hj, hxn⟩, ?_⟩
  have hn' : ((sortIsos l).map Iso.name).Nodup := nodup_of_sorted hs
  rw [modify_eq_map hn' hj, hxn]
  have hname : ∀ y : Iso, (if y.name = multipletName t.name then y.addState k else y).name = y.name := by
    intro y; split_ifs <;> rfl
  have hat : nameAt types k = some (multipletName t.name) := by simp [nameAt, ht]
  constructor
  · rw [List.pairwise_map]
    simpa only [hname] using hs
  · intro z hz
    obtain ⟨y, hy, rfl⟩ := List.mem_map.1 hz
    have h1 := hst y (hp.mem_iff.1 hy)
    rw [hname]
    unfold members at h1 ⊢
    rw [List.range_succ, List.filter_append, ← h1]
    by_cases hyn : y.name = multipletName t.name
    · simp [hyn, hat, Iso.addState]
    · simp [hyn, hat, Ne.symm hyn]
  · intro z hz
    obtain ⟨y, hy, rfl⟩ := List.mem_map.1 hz
    by_cases hyn : y.name = multipletName t.name
    · simp [hyn, Iso.addState]
    · simpa [hyn] using hne y (hp.mem_iff.1 hy) hyn
  · intro i hi
    rcases Nat.lt_succ_iff_lt_or_eq.1 hi with h | rfl
    · obtain ⟨y, hy, hyn⟩ := hall i h
      exact ⟨_, List.mem_map.2 ⟨y, hp.mem_iff.2 hy, rfl⟩, by rw [hname]; exact hyn⟩
    · exact ⟨_, List.mem_map.2 ⟨x, hp.mem_iff.2 hx, rfl⟩, by rw [hname, hxn, hat]⟩

theorem createMultiplet_inv {types : List PType} {k : Nat} {isos : List Iso}
    (hI : IsoInv types k isos) {t : PType} (ht : types[k]? = some t)
    (hsp : ∃ s, Verif.Pdg.spin t.code = .ok s) :
    ∃ isos', createMultiplet isos k t = .ok isos' ∧ IsoInv types (k + 1) isos' := by
  obtain ⟨s, hs⟩ := hsp
  simp only [createMultiplet]
  cases hf : isoFind isos (multipletName t.name) with
  | some j0 =>
    dsimp only
    obtain ⟨x, hx, hxn⟩ := (isoFind_some hI.sorted _ _).1 hf
    obtain ⟨j, hj, hinv⟩ := create_finish ht (nodup_of_sorted hI.sorted) hI.states
      (fun x hx _ => hI.nonempty x hx) hI.all ⟨x, List.mem_of_getElem? hx, hxn⟩
    rw [hj]
    exact ⟨_, rfl, hinv⟩
  | none =>
    rw [hs]
    dsimp only
    have hno := (isoFind_none hI.sorted _).1 hf
    obtain ⟨j, hj, hinv⟩ := create_finish (l := isos ++ [⟨multipletName t.name, t.mass, t.width, s,
        t.parity, []⟩]) ht (by
        rw [List.map_append, List.nodup_append]
        refine ⟨nodup_of_sorted hI.sorted, by simp, ?_⟩
        intro a ha b hb
        obtain ⟨x, hx, rfl⟩ := List.mem_map.1 ha
        simp only [List.map_cons, List.map_nil, List.mem_singleton] at hb
        subst hb
        exact hno x hx) (by
        intro x hx
        rcases List.mem_append.1 hx with hx | hx
        · exact hI.states x hx
        · rw [List.mem_singleton] at hx
          subst hx
          dsimp only
          symm
          unfold members
          rw [List.filter_eq_nil_iff]
          intro i hi
          obtain ⟨y, hy, hyn⟩ := hI.all i (List.mem_range.1 hi)
          rw [hyn]
          simpa using hno y hy) (by
        intro x hx hxn
        rcases List.mem_append.1 hx with hx | hx
        · exact hI.nonempty x hx
        · rw [List.mem_singleton] at hx; subst hx; exact absurd rfl hxn) (by
        intro i hi
        obtain ⟨y, hy, h⟩ := hI.all i hi
        exact ⟨y, List.mem_append_left _ hy, h⟩) ⟨_, List.mem_append_right _ (List.mem_singleton.2 rfl), rfl⟩
    rw [hj]
    exact ⟨_, rfl, hinv⟩

theorem createMultiplets_inv {types : List PType} {k : Nat} {isos : List Iso} {ts : List PType}
    (hI : IsoInv types k isos) (hts : types.drop k = ts)
    (hsp : ∀ t ∈ types, ∃ s, Verif.Pdg.spin t.code = .ok s) :
    ∃ isos', createMultiplets k isos ts = .ok isos' ∧ IsoInv types types.length isos' := by
  induction ts generalizing k isos with
  | nil =>
    rw [List.drop_eq_nil_iff] at hts
    refine ⟨isos, rfl, hI.sorted, ?_, hI.nonempty, fun i hi => hI.all i (by omega)⟩
    intro x hx
    rw [hI.states x hx]
    unfold members
    rw [show k = types.length + (k - types.length) by omega, List.range_add, List.filter_append]
    simp only [List.append_right_eq_self, List.filter_eq_nil_iff, List.mem_map]
    rintro i ⟨a, -, rfl⟩
    simp [nameAt]
  | cons t ts ih =>
    rw [createMultiplets]
    have ht : types[k]? = some t := by
      have := congrArg (·[0]?) hts
      simpa using this
    obtain ⟨isos', h1, h2⟩ := createMultiplet_inv hI ht (hsp t (List.mem_of_getElem? ht))
    rw [h1]
    exact ih h2 (by rw [← List.tail_drop, hts]; rfl)

theorem IsoInv.init (types : List PType) : IsoInv types 0 [] :=
  ⟨List.Pairwise.nil, by simp, by simp, by omega⟩

end Verif.Types
