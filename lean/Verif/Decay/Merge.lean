import Verif.Decay.Model
import Mathlib.Tactic.Linarith
import Mathlib.Tactic.SplitIfs
import Mathlib.Tactic.NormNum
import Mathlib.Tactic.Ring
import Mathlib.Tactic.Positivity
import Mathlib.Algebra.BigOperators.Group.List.Basic
/-! C37: merging of decay modes and normalisation. -/
namespace Verif.Decay

/-! ### Matching is equality of the daughters up to order -/

theorem sortL_perm (l : List Nat) : (sortL l).Perm l := List.mergeSort_perm _ _

theorem sortL_sorted (l : List Nat) : (sortL l).Pairwise (· ≤ ·) := by
  have := List.pairwise_mergeSort (le := fun a b : Nat => decide (a ≤ b))
    (fun a b c h1 h2 => by simp only [decide_eq_true_eq] at *; exact h1.trans h2)
    (fun a b => by simp only [Bool.or_eq_true, decide_eq_true_eq]; exact le_total a b) l
  exact this.imp (by simp)

theorem sortL_congr {l l' : List Nat} (h : l.Perm l') : sortL l = sortL l' :=
  List.Perm.eq_of_pairwise (fun _ _ _ _ h1 h2 => le_antisymm h1 h2) (sortL_sorted l) (sortL_sorted l')
    (((sortL_perm l).trans h).trans (sortL_perm l').symm)

/-- Lists of daughters as `newType` stores them. -/
def Stored (l : List Nat) : Prop := l.length = 2 ∨ (l.length = 3 ∧ l.Pairwise (· ≤ ·))

theorem perm_pair (a b c d : Nat) : [c, d].Perm [a, b] ↔ (a = c ∧ b = d) ∨ (a = d ∧ b = c) := by
  constructor
  · intro h
    have hc : c ∈ [a, b] := h.subset (by simp)
    have hd : d ∈ [a, b] := h.subset (by simp)
    have ha : a ∈ [c, d] := h.symm.subset (by simp)
    have hb : b ∈ [c, d] := h.symm.subset (by simp)
    simp only [List.mem_cons, List.not_mem_nil, or_false] at *
    omega
  · rintro (⟨rfl, rfl⟩ | ⟨rfl, rfl⟩)
    · exact List.Perm.refl _
    · exact List.Perm.swap _ _ _

theorem hasParticles_iff {s l : List Nat} (hs : Stored s) : hasParticles s l = true ↔ l.Perm s := by
  match s, hs with
  | [a, b], _ =>
    unfold hasParticles
    match l with
    | [c, d] => simp only [Bool.or_eq_true, Bool.and_eq_true, beq_iff_eq]; rw [perm_pair]
    | [] => simp
    | [_] => simp only [Bool.false_eq_true, false_iff]; intro h; have := h.length_eq; simp at this
    | _ :: _ :: _ :: _ =>
      simp only [Bool.false_eq_true, false_iff]; intro h; have := h.length_eq; simp at this
  | [a, b, c], h =>
    have hsort : [a, b, c].Pairwise (· ≤ ·) := by
      rcases h with h | h
      · simp at h
      · exact h.2
    unfold hasParticles
    simp only
    split_ifs with hl
    · simp only [beq_iff_eq]
      constructor
      · intro h; rw [← h]; exact (sortL_perm l).symm
      · intro h
        exact List.Perm.eq_of_pairwise (fun _ _ _ _ h1 h2 => le_antisymm h1 h2) (sortL_sorted l) hsort
          ((sortL_perm l).trans h)
    · simp only [Bool.false_eq_true, false_iff]
      intro h
      have := h.length_eq
      simp only [List.length_cons, List.length_nil] at this
      simp [this] at hl
  | [], h => rcases h with h | h <;> simp at h
  | [_], h => rcases h with h | h <;> simp at h
  | _ :: _ :: _ :: _ :: _, h => rcases h with h | h <;> simp at h

/-- Two requests describe the same decay. -/
def Same (p p' : List Nat) (L L' : Int) : Prop := p.Perm p' ∧ L = L'

instance (p p' : List Nat) (L L' : Int) : Decidable (Same p p' L L') := by unfold Same; infer_instance

theorem matches_congr {t : DType} (ht : Stored t.parts) {m : Nat} {p p' : List Nat} {L L' : Int}
    (h : Same p p' L L') : t.matches m p L = t.matches m p' L' := by
  unfold DType.matches
  obtain ⟨h1, rfl⟩ := h
  have : hasParticles t.parts p = hasParticles t.parts p' := by
    rw [Bool.eq_iff_iff, hasParticles_iff ht, hasParticles_iff ht]
    exact ⟨fun h => h1.symm.trans h, fun h => h1.trans h⟩
  rw [this]

theorem matches_same {t : DType} (ht : Stored t.parts) {m : Nat} {p : List Nat} {L : Int}
    (h : t.matches m p L = true) : Same p t.parts L t.L := by
  unfold DType.matches at h
  simp only [Bool.and_eq_true, beq_iff_eq] at h
  exact ⟨(hasParticles_iff ht).1 h.1.2, h.2.symm⟩

theorem newType_spec {W : World} {m : Nat} {p : List Nat} {L : Int} {t : DType}
    (h : newType W m p L = .ok t) : Stored t.parts ∧ t.matches m p L = true ∧ p.Perm t.parts ∧ t.L = L := by
  have fin (mo : Option Nat) (q : List Nat) (hs : Stored q) (hq : p.Perm q)
      (hmo : mo = none ∨ mo = some m) :
      Stored (⟨mo, q, L⟩ : DType).parts ∧ (⟨mo, q, L⟩ : DType).matches m p L = true ∧
        p.Perm (⟨mo, q, L⟩ : DType).parts ∧ (⟨mo, q, L⟩ : DType).L = L := by
    refine ⟨hs, ?_, hq, rfl⟩
    unfold DType.matches
    have hp := (hasParticles_iff hs (l := p)).2 hq
    rcases hmo with rfl | rfl <;> simp [hp]
  unfold newType at h
  split_ifs at h with h1 h2 h3
  · cases h; exact fin _ _ (.inl h1) (List.Perm.refl _) (.inl rfl)
  · cases h
    exact fin _ _ (.inr ⟨by rw [(sortL_perm p).length_eq]; exact h2, sortL_sorted p⟩)
      (sortL_perm _).symm (.inr rfl)
  · cases h
    exact fin _ _ (.inr ⟨by rw [(sortL_perm p).length_eq]; exact h2, sortL_sorted p⟩)
      (sortL_perm _).symm (.inl rfl)

/-- Position of the decay type found for a request. -/
def idx (types : List DType) (m : Nat) (p : List Nat) (L : Int) : Option Nat :=
  types.findIdx? (fun t => t.matches m p L)

def TypesOk (types : List DType) : Prop := ∀ t ∈ types, Stored t.parts

theorem idx_congr {types : List DType} (h : TypesOk types) {m : Nat} {p p' : List Nat} {L L' : Int}
    (hs : Same p p' L L') : idx types m p L = idx types m p' L' := by
  unfold idx
  induction types with
  | nil => rfl
  | cons t ts ih =>
    rw [List.findIdx?_cons, List.findIdx?_cons, matches_congr (h t (by simp)) hs,
      ih (fun t ht => h t (by simp [ht]))]

theorem idx_append {types : List DType} {m : Nat} {p : List Nat} {L : Int} {i : Nat}
    (h : idx types m p L = some i) (t : DType) : idx (types ++ [t]) m p L = some i := by
  unfold idx at *
  rw [List.findIdx?_append, h]; rfl

/-- What `getDecayType` does. -/
theorem getDecayType_spec {W : World} {types types' : List DType} {m : Nat} {p : List Nat} {L : Int}
    {i : Nat} (ht : TypesOk types) (h : getDecayType W types m p L = .ok (types', i)) :
    TypesOk types' ∧ (∃ ext, types' = types ++ ext) ∧ idx types' m p L = some i := by
  unfold getDecayType at h
  cases hi : types.findIdx? (fun t => t.matches m p L) with
  | some j =>
    rw [hi] at h; cases h
    exact ⟨ht, ⟨[], by simp⟩, hi⟩
  | none =>
    rw [hi] at h
    simp only at h
    cases hn : newType W m p L with
    | error e => rw [hn] at h; cases h
    | ok t =>
      rw [hn] at h; cases h
      obtain ⟨h1, h2, -, -⟩ := newType_spec hn
      refine ⟨?_, ⟨[t], rfl⟩, ?_⟩
      · intro s hs
        rcases List.mem_append.1 hs with h | h
        · exact ht s h
        · rw [List.mem_singleton.1 h]; exact h1
      · unfold idx
        rw [List.findIdx?_append, hi]
        simp [h2]

theorem idx_ext {types : List DType} {m : Nat} {p : List Nat} {L : Int} {i : Nat}
    (h : idx types m p L = some i) (ext : List DType) : idx (types ++ ext) m p L = some i := by
  unfold idx at *
  rw [List.findIdx?_append, h]; rfl

theorem idx_spec {types : List DType} {m : Nat} {p : List Nat} {L : Int} {i : Nat} (ht : TypesOk types)
    (h : idx types m p L = some i) : ∃ t, types[i]? = some t ∧ Same p t.parts L t.L := by
  unfold idx at h
  obtain ⟨hlt, hm, -⟩ := List.findIdx?_eq_some_iff_getElem.1 h
  exact ⟨types[i], by simp [hlt], matches_same (ht _ (List.getElem_mem _)) hm⟩

/-! ### Histories of `add_mode` -/

/-- A call of `add_mode`. -/
structure Call where
  (mother : Nat) (r : ℚ) (L : Int) (parts : List Nat)

/-- Any sequence of calls, starting from nothing. -/
def addAll (W : World) (calls : List Call) : Except Err DB :=
  calls.foldlM (fun db c => addMode W db c.mother c.r c.L c.parts) ⟨[], fun _ => []⟩

/-- Specification: the ratios added for one decay (mother, daughters up to order, L). -/
def ratioOf (calls : List Call) (m : Nat) (p : List Nat) (L : Int) : ℚ :=
  ((calls.filter fun c => decide (c.mother = m ∧ Same c.parts p c.L L)).map Call.r).sum

theorem ratioOf_append (calls : List Call) (c : Call) (m : Nat) (p : List Nat) (L : Int) :
    ratioOf (calls ++ [c]) m p L = ratioOf calls m p L +
      if c.mother = m ∧ Same c.parts p c.L L then c.r else 0 := by
  unfold ratioOf
  rw [List.filter_append, List.map_append, List.sum_append]
  by_cases h : c.mother = m ∧ Same c.parts p c.L L
  · rw [if_pos h]; simp [h]
  · rw [if_neg h]; simp [h]

structure Inv (calls : List Call) (db : DB) : Prop where
  types : TypesOk db.types
  nodup : ∀ m, ((db.modes m).map Mode.ty).Nodup
  key : ∀ m, ∀ d ∈ db.modes m, ∃ t, db.types[d.ty]? = some t ∧ idx db.types m t.parts t.L = some d.ty ∧
    d.w = ratioOf calls m t.parts t.L
  all : ∀ c ∈ calls, ∃ i, idx db.types c.mother c.parts c.L = some i ∧
    i ∈ (db.modes c.mother).map Mode.ty
  only : ∀ m, ∀ d ∈ db.modes m, ∃ c ∈ calls, c.mother = m ∧ idx db.types m c.parts c.L = some d.ty

theorem addToModes_ty (i : Nat) (r : ℚ) (ms : List Mode) :
    (addToModes i r ms).map Mode.ty =
      if i ∈ ms.map Mode.ty then ms.map Mode.ty else ms.map Mode.ty ++ [i] := by
  induction ms with
  | nil => rfl
  | cons m ms ih =>
    rw [addToModes]
    by_cases h : m.ty = i
    · rw [if_pos h, if_pos (by simp [h])]; rfl
    · rw [if_neg h, List.map_cons, ih]
      have : i ∈ (m :: ms).map Mode.ty ↔ i ∈ ms.map Mode.ty := by
        simp [Ne.symm h]
      by_cases h2 : i ∈ ms.map Mode.ty
      · rw [if_pos h2, if_pos (this.2 h2)]; rfl
      · rw [if_neg h2, if_neg (fun h => h2 (this.1 h))]; rfl

theorem addToModes_mem {i : Nat} {r : ℚ} {ms : List Mode} (hn : (ms.map Mode.ty).Nodup) {d : Mode}
    (h : d ∈ addToModes i r ms) :
    (d.ty ≠ i ∧ d ∈ ms) ∨ (d.ty = i ∧ ((∃ d0 ∈ ms, d0.ty = i ∧ d.w = d0.w + r) ∨
      (i ∉ ms.map Mode.ty ∧ d.w = r))) := by
  induction ms with
  | nil =>
    rw [addToModes, List.mem_singleton] at h
    subst h
    exact .inr ⟨rfl, .inr ⟨by simp, rfl⟩⟩
  | cons m ms ih =>
    rw [addToModes] at h
    rw [List.map_cons, List.nodup_cons] at hn
    by_cases hm : m.ty = i
    · rw [if_pos hm] at h
      rcases List.mem_cons.1 h with h | h
      · subst h; exact .inr ⟨hm, .inl ⟨m, by simp, hm, rfl⟩⟩
      · left
        refine ⟨fun e => hn.1 ?_, by simp [h]⟩
        rw [hm, ← e]; exact List.mem_map_of_mem h
    · rw [if_neg hm] at h
      rcases List.mem_cons.1 h with h | h
      · subst h; exact .inl ⟨hm, by simp⟩
      · rcases ih hn.2 h with h | ⟨h1, h2 | h2⟩
        · exact .inl ⟨h.1, by simp [h.2]⟩
        · obtain ⟨d0, h3, h4⟩ := h2
          exact .inr ⟨h1, .inl ⟨d0, by simp [h3], h4⟩⟩
        · refine .inr ⟨h1, .inr ⟨?_, h2.2⟩⟩
          rw [List.map_cons, List.mem_cons, not_or]
          exact ⟨fun e => hm e.symm, h2.1⟩

theorem Same.symm {p p' : List Nat} {L L' : Int} (h : Same p p' L L') : Same p' p L' L :=
  ⟨h.1.symm, h.2.symm⟩
theorem Same.trans {p p' p'' : List Nat} {L L' L'' : Int} (h : Same p p' L L') (h' : Same p' p'' L' L'') :
    Same p p'' L L'' := ⟨h.1.trans h'.1, h.2.trans h'.2⟩

theorem ratioOf_zero {calls : List Call} {m : Nat} {p : List Nat} {L : Int}
    (h : ∀ c ∈ calls, ¬(c.mother = m ∧ Same c.parts p c.L L)) : ratioOf calls m p L = 0 := by
  unfold ratioOf
  rw [List.filter_eq_nil_iff.2 (by intro c hc; simpa using h c hc)]
  rfl

theorem addMode_inv {W : World} {calls : List Call} {db db' : DB} {c : Call} (I : Inv calls db)
    (h : addMode W db c.mother c.r c.L c.parts = .ok db') : Inv (calls ++ [c]) db' := by
  unfold addMode at h
  cases hg : getDecayType W db.types c.mother c.parts c.L with
  | error e => rw [hg] at h; cases h
  | ok r =>
    obtain ⟨types, i⟩ := r
    rw [hg] at h; cases h
    obtain ⟨g1, ⟨ext, g2⟩, g3⟩ := getDecayType_spec I.types hg
    have hlook {j : Nat} {t : DType} (hj : db.types[j]? = some t) : types[j]? = some t := by
      have hlt := (List.getElem?_eq_some_iff.1 hj).1
      rw [g2, List.getElem?_append_left hlt]; exact hj
    have hidx {m : Nat} {p : List Nat} {L : Int} {j : Nat} (hj : idx db.types m p L = some j) :
        idx types m p L = some j := by rw [g2]; exact idx_ext hj _
    obtain ⟨ti, ti1, ti2⟩ := idx_spec g1 g3
    have ti3 : idx types c.mother ti.parts ti.L = some i := by
      rw [idx_congr g1 ti2.symm]; exact g3
    refine ⟨g1, ?_, ?_, ?_, ?_⟩
    · intro m
      simp only
      split_ifs with hm
      · rw [addToModes_ty]
        split_ifs with h1
        · exact I.nodup m
        · refine List.nodup_append.2 ⟨I.nodup m, by simp, ?_⟩
          intro a ha b hb e
          rw [List.mem_singleton.1 hb] at e
          exact h1 (e ▸ ha)
      · exact I.nodup m
    · intro m d hd
      simp only at hd
      split_ifs at hd with hm
      · subst hm
        rcases addToModes_mem (I.nodup _) hd with ⟨h1, h2⟩ | ⟨h1, h2⟩
        · obtain ⟨t, t1, t2, t3⟩ := I.key _ d h2
          refine ⟨t, hlook t1, hidx t2, ?_⟩
          rw [ratioOf_append, if_neg, add_zero]
          · exact t3
          · rintro ⟨-, hs⟩
            have := idx_congr g1 hs (m := c.mother)
            rw [g3, hidx t2] at this
            exact h1 (Option.some.inj this).symm
        · refine ⟨ti, by rw [h1]; exact ti1, by rw [h1]; exact ti3, ?_⟩
          rw [ratioOf_append, if_pos ⟨rfl, ti2⟩]
          rcases h2 with ⟨d0, e1, e2, e3⟩ | ⟨e1, e2⟩
          · obtain ⟨t, t1, t2, t3⟩ := I.key _ d0 e1
            have : t = ti := by
              have := hlook t1; rw [e2, ti1] at this; exact (Option.some.inj this).symm
            subst this
            rw [e3, t3]
          · rw [e2, ratioOf_zero, zero_add]
            rintro c' hc' ⟨hm, hs⟩
            obtain ⟨j, j1, j2⟩ := I.all c' hc'
            have h3 := hidx j1
            rw [idx_congr g1 hs, hm, ti3] at h3
            cases h3
            rw [hm] at j2
            exact e1 j2
      · obtain ⟨t, t1, t2, t3⟩ := I.key m d hd
        refine ⟨t, hlook t1, hidx t2, ?_⟩
        rw [ratioOf_append, if_neg (fun h => hm h.1.symm), add_zero]
        exact t3
    · intro c' hc'
      rcases List.mem_append.1 hc' with hc' | hc'
      · obtain ⟨j, j1, j2⟩ := I.all c' hc'
        refine ⟨j, hidx j1, ?_⟩
        simp only
        split_ifs with hm
        · rw [addToModes_ty]
          split_ifs
          · exact j2
          · exact List.mem_append_left _ j2
        · exact j2
      · rw [List.mem_singleton.1 hc']
        refine ⟨i, g3, ?_⟩
        simp only [if_true]
        rw [addToModes_ty]
        split_ifs with h1
        · exact h1
        · simp
    · intro m d hd
      simp only at hd
      split_ifs at hd with hm
      · subst hm
        rcases addToModes_mem (I.nodup _) hd with ⟨h1, h2⟩ | ⟨h1, h2⟩
        · obtain ⟨c', c1, c2, c3⟩ := I.only _ d h2
          exact ⟨c', by simp [c1], c2, hidx c3⟩
        · exact ⟨c, by simp, rfl, by rw [h1]; exact g3⟩
      · obtain ⟨c', c1, c2, c3⟩ := I.only m d hd
        exact ⟨c', by simp [c1], c2, hidx c3⟩

theorem foldlM_append_ok {α β ε : Type} {f : β → α → Except ε β} {l : List α} {a : α} {b b' : β}
    (h : (l ++ [a]).foldlM f b = .ok b') : ∃ b1, l.foldlM f b = .ok b1 ∧ f b1 a = .ok b' := by
  rw [List.foldlM_append] at h
  cases h1 : l.foldlM f b with
  | error e => rw [h1] at h; cases h
  | ok b1 =>
    rw [h1] at h
    refine ⟨b1, rfl, ?_⟩
    have h' : ([a].foldlM f b1) = .ok b' := h
    rw [List.foldlM_cons] at h'
    cases h2 : f b1 a with
    | error e => rw [h2] at h'; cases h'
    | ok b2 => rw [h2] at h'; cases h'; rfl

theorem addAll_inv (W : World) (calls : List Call) (db : DB) (h : addAll W calls = .ok db) :
    Inv calls db := by
  induction calls using List.reverseRecOn generalizing db with
  | nil =>
    cases h
    refine ⟨?_, ?_, ?_, ?_, ?_⟩ <;> simp [TypesOk]
  | append_singleton l c ih =>
    obtain ⟨db1, h1, h2⟩ := foldlM_append_ok h
    exact addMode_inv (ih db1 h1) h2

/-- **C37** (merging). After any sequence of `add_mode` calls for any particles: the modes of a
particle are pairwise different decays (different daughters up to order, or different L); every
call is represented by a mode; and the weight of a mode is the sum of all ratios added for this
particle and this decay. -/
theorem C37_merge (W : World) (calls : List Call) (db : DB) (h : addAll W calls = .ok db) (m : Nat) :
    (∀ d ∈ db.modes m, ∃ t, db.types[d.ty]? = some t ∧ d.w = ratioOf calls m t.parts t.L ∧
      ∃ c ∈ calls, c.mother = m ∧ Same c.parts t.parts c.L t.L) ∧
    (∀ c ∈ calls, c.mother = m → ∃ d ∈ db.modes m, ∃ t, db.types[d.ty]? = some t ∧
      Same c.parts t.parts c.L t.L) ∧
    (db.modes m).Pairwise (fun d d' => ∀ t t', db.types[d.ty]? = some t → db.types[d'.ty]? = some t' →
      ¬Same t.parts t'.parts t.L t'.L) := by
  have I := addAll_inv W calls db h
  refine ⟨?_, ?_, ?_⟩
  · intro d hd
    obtain ⟨t, t1, t2, t3⟩ := I.key m d hd
    obtain ⟨c, c1, c2, c3⟩ := I.only m d hd
    obtain ⟨t', e1, e2⟩ := idx_spec I.types c3
    rw [t1] at e1; cases e1
    exact ⟨t, t1, t3, c, c1, c2, e2⟩
  · intro c hc hm
    obtain ⟨i, i1, i2⟩ := I.all c hc
    obtain ⟨t, t1, t2⟩ := idx_spec I.types i1
    rw [hm] at i2
    obtain ⟨d, d1, d2⟩ := List.mem_map.1 i2
    exact ⟨d, d1, t, by rw [d2]; exact t1, t2⟩
  · have hn := I.nodup m
    rw [List.Nodup, List.pairwise_map] at hn
    refine List.Pairwise.imp_of_mem ?_ hn
    intro d d' hd hd' hne t t' ht ht' hs
    obtain ⟨u, u1, u2, -⟩ := I.key m d hd
    obtain ⟨u', v1, v2, -⟩ := I.key m d' hd'
    rw [ht] at u1; cases u1
    rw [ht'] at v1; cases v1
    rw [idx_congr I.types hs, v2] at u2
    exact hne (Option.some.inj u2).symm

/-- `add_mode` fails only for a wrong number of daughters. -/
theorem C37_add_mode_defined (W : World) (db : DB) (m : Nat) (r : ℚ) (L : Int) (p : List Nat)
    (hp : p.length = 2 ∨ p.length = 3) : ∃ db', addMode W db m r L p = .ok db' := by
  unfold addMode getDecayType newType
  cases db.types.findIdx? (fun t => t.matches m p L) with
  | some i => exact ⟨_, rfl⟩
  | none =>
    rcases hp with hp | hp
    · rw [if_pos hp]; exact ⟨_, rfl⟩
    · rw [if_neg (by omega), if_pos hp]
      split_ifs <;> exact ⟨_, rfl⟩

/-- A wrong number of daughters of a new decay is rejected. -/
theorem C37_add_mode_rejects (W : World) (calls : List Call) (db : DB) (h : addAll W calls = .ok db)
    (m : Nat) (r : ℚ) (L : Int) (p : List Nat) (h2 : p.length ≠ 2) (h3 : p.length ≠ 3) :
    addMode W db m r L p = .error .invalidDecay := by
  have I := addAll_inv W calls db h
  unfold addMode getDecayType newType
  cases hi : db.types.findIdx? (fun t => t.matches m p L) with
  | some i =>
    exfalso
    obtain ⟨t, t1, t2⟩ := idx_spec (m := m) I.types hi
    have hl := t2.1.length_eq
    rcases I.types t (List.mem_of_getElem? t1) with h | h <;> omega
  | none => rw [if_neg h2, if_neg h3]; rfl

/-! ### Normalisation -/

theorem sumW_map (ms : List Mode) (f : ℚ) : sumW (ms.map fun m => ⟨m.ty, m.w / f⟩) = sumW ms / f := by
  unfold sumW
  induction ms with
  | nil => simp
  | cons m ms ih =>
    simp only [List.map_cons, List.sum_cons] at *
    rw [ih, add_div]

theorem sumW_pos (ms : List Mode) (hne : ms ≠ []) (h : ∀ d ∈ ms, 0 < d.w) : 0 < sumW ms := by
  unfold sumW
  induction ms with
  | nil => exact absurd rfl hne
  | cons m ms ih =>
    rw [List.map_cons, List.sum_cons]
    have h1 := h m (by simp)
    by_cases he : ms = []
    · subst he; simpa using h1
    · have := ih he (fun d hd => h d (by simp [hd])); linarith

/-- **C37** (normalisation). For a non-empty list of modes with positive weights `renormalize`
keeps the decays and their relative sizes, all weights stay positive and their sum is 1 up to
`10⁻⁶`; the sum is exactly 1 if it was not that close before. It reports `true` exactly if the sum
deviated by more than 1%. -/
theorem C37_renormalize (ms : List Mode) (hne : ms ≠ []) (hpos : ∀ d ∈ ms, 0 < d.w) :
    ∃ ms' large, renormalize ms = .ok (ms', large) ∧
      ms'.map Mode.ty = ms.map Mode.ty ∧
      (∀ d ∈ ms', 0 < d.w) ∧
      |(ms'.map Mode.w).sum - 1| < 1 / 1000000 ∧
      (1 / 1000000 ≤ |(ms.map Mode.w).sum - 1| → (ms'.map Mode.w).sum = 1) ∧
      (∃ k : ℚ, 0 < k ∧ ms'.map Mode.w = ms.map (fun d => k * d.w)) ∧
      (large = true ↔ 1 / 100 < |(ms.map Mode.w).sum - 1|) := by
  have hs := sumW_pos ms hne hpos
  have hrs : reallySmall = 1 / 1000000 := rfl
  unfold renormalize
  simp only
  by_cases h : |sumW ms - 1| < reallySmall
  · rw [if_pos h]
    refine ⟨ms, false, rfl, rfl, hpos, by rw [hrs] at h; exact h, ?_, ⟨1, one_pos, by simp⟩, ?_⟩
    · intro h'; rw [hrs] at h; exact absurd h (not_lt.2 h')
    · constructor
      · intro h; exact absurd h (by simp)
      · intro h'
        rw [hrs] at h
        exfalso
        have : |sumW ms - 1| < 1 / 1000000 := h
        have h' : 1 / 100 < |sumW ms - 1| := h'
        linarith
  · rw [if_neg h, if_neg (fun h => hs.ne' h.1)]
    have hsum : sumW (ms.map fun m => ⟨m.ty, m.w / sumW ms⟩) = 1 := by
      rw [sumW_map, div_self hs.ne']
    refine ⟨_, _, rfl, by simp, ?_, ?_, fun _ => hsum, ⟨1 / sumW ms, by positivity, ?_⟩, ?_⟩
    · intro d hd
      obtain ⟨d0, h1, rfl⟩ := List.mem_map.1 hd
      exact div_pos (hpos d0 h1) hs
    · have : (List.map Mode.w (ms.map fun m => (⟨m.ty, m.w / sumW ms⟩ : Mode))).sum = 1 := hsum
      rw [this]; norm_num
    · simp only [List.map_map]
      apply List.map_congr_left
      intro d _
      simp only [Function.comp]
      ring
    · simp only [decide_eq_true_eq]
      exact Iff.rfl

/-- Two modes, 1/2 and 3/4. -/
example : renormalize [⟨0, 1/2⟩, ⟨1, 3/4⟩] = .ok ([⟨0, 2/5⟩, ⟨1, 3/5⟩], true) := by
  decide +kernel

/-- The hypotheses of `C37_merge` are met: the same decay given twice, with the daughters swapped. -/
example (W : World) : ∃ db, addAll W [⟨7, 1/2, 1, [1, 2]⟩, ⟨7, 1/4, 1, [2, 1]⟩] = .ok db ∧
    db.modes 7 = [⟨0, 1/2 + 1/4⟩] := ⟨_, rfl, rfl⟩

end Verif.Decay
