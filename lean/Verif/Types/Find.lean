import Verif.Types.Iso
/-
The particle types that are found are exactly those of the file (C57), and the multiplets group
them by name (C80).
-/
namespace Verif.Types
open Verif.Text (Str)
open Verif.Pdg (hasAntiparticle ofString spin isNucleus A C15_involution C15_opposite hasAnti_getAnti)

theorem sortTypes_perm (l : List PType) : (sortTypes l).Perm l := List.perm_insertionSort _ _

theorem sortTypes_sorted (l : List PType) : (sortTypes l).Pairwise fun a b => a.code ≤ b.code := by
  have : Std.Total fun a b : PType => a.code ≤ b.code := ⟨fun a b => le_total _ _⟩
  have : IsTrans PType fun a b : PType => a.code ≤ b.code := ⟨fun a b c => le_trans⟩
  exact List.pairwise_insertionSort _ l

theorem duplicate_false {prev : Nat} {l : List PType} (hs : l.Pairwise fun a b => a.code ≤ b.code)
    (hp : ∀ t ∈ l, prev ≤ t.code) :
    duplicate prev l = false ↔ (l.map PType.code).Nodup ∧ prev ∉ l.map PType.code := by
  induction l generalizing prev with
  | nil => simp [duplicate]
  | cons t ts ih =>
    rw [List.pairwise_cons] at hs
    have h1 := ih (prev := t.code) hs.2 hs.1
    simp only [duplicate, Bool.or_eq_false_iff, beq_eq_false_iff_ne, h1, List.map_cons, List.nodup_cons,
      List.mem_cons, not_or]
    constructor
    · rintro ⟨h2, h3, h4⟩
      refine ⟨⟨h4, h3⟩, Ne.symm h2, ?_⟩
      intro hm
      obtain ⟨u, hu, rfl⟩ := List.mem_map.1 hm
      have := hs.1 u hu
      have := hp t (by simp)
      omega
    · rintro ⟨⟨h2, h3⟩, h4, h5⟩
      exact ⟨Ne.symm h4, h3, h2⟩

theorem strict_sorted {l : List PType} (hs : l.Pairwise fun a b => a.code ≤ b.code)
    (hn : (l.map PType.code).Nodup) : l.Pairwise fun a b => a.code < b.code := by
  rw [List.nodup_iff_pairwise_ne, List.pairwise_map] at hn
  exact (hs.and hn).imp fun ⟨h, h'⟩ => lt_of_le_of_ne h h'

theorem lines_codes {ls : List Line} {tss : List (List PType)} (h : List.Forall₂ LineAdds ls tss) :
    tss.flatten.map PType.code = fileCodes ls :=
  forall2_flatten h fun _ _ _ hts => hts.codes

/-- The types a line adds are those it declares. -/
theorem LineAdds.mem {l : Line} {ts : List PType} (h : LineAdds l ts) {t : PType} :
    t ∈ ts → Declares l t := by
  obtain ⟨m, w, p, ds, tss, hm, hw, hp, -, hd, -, h2, rfl⟩ := h
  intro ht
  obtain ⟨d, hd1, ts, hA, htt⟩ := mem_forall2_flatten h2 ht
  obtain ⟨s, hs, hsd⟩ := forall2_mem_left (parseCodes_ok.1 hd) hd1
  have hp := parity_iff.1 hp
  obtain ⟨f, -, ⟨-, rfl⟩ | ⟨ha, u, hu, rfl⟩⟩ := hA
  · rw [List.mem_singleton] at htt
    subst htt
    exact ⟨s, hs, d, hsd, hm, hw, Or.inl ⟨rfl, hp⟩⟩
  · rcases List.mem_cons.1 htt with rfl | htt
    · exact ⟨s, hs, d, hsd, hm, hw, Or.inl ⟨rfl, hp⟩⟩
    · rw [List.mem_singleton] at htt
      subst htt
      obtain ⟨j, h1, -, h3, h4, h5, h6⟩ := antiType_ok.1 hu
      refine ⟨s, hs, d, hsd, by rw [h3]; exact hm, by rw [h4]; exact hw, Or.inr ⟨ha, h6, j, h1, ?_⟩⟩
      rw [h5, hp]
      rcases Nat.mod_two_eq_zero_or_one j with h | h <;> simp [h]

/-- Every type a line declares is added, up to the name. -/
theorem LineAdds.mem_of {l : Line} {ts : List PType} (h : LineAdds l ts) {t : PType}
    (ht : Declares l t) : ∃ nm, ({ t with name := nm } : PType) ∈ ts := by
  obtain ⟨m, w, p, ds, tss, hm, hw, hp, -, hd, -, h2, rfl⟩ := h
  obtain ⟨s, hs, d, hsd, hm', hw', hc⟩ := ht
  have hp := parity_iff.1 hp
  rw [hm] at hm'; rw [hw] at hw'
  cases hm'; cases hw'
  obtain ⟨d', hd', hsd'⟩ := forall2_mem_right (parseCodes_ok.1 hd) hs
  rw [hsd] at hsd'; cases hsd'
  obtain ⟨ts, hA, hsub⟩ := mem_flatten_forall2 h2 hd'
  have pinj : ∀ {a b : Bool}, (if a = true then [(43 : UInt8)] else [45]) = (if b = true then [43] else [45]) →
      a = b := by intro a b; cases a <;> cases b <;> simp
  obtain ⟨f, hf, hA⟩ := hA
  rcases hc with ⟨rfl, hpar⟩ | ⟨ha, hcode, j, hj, hpar⟩
  · refine ⟨f, hsub _ ?_⟩
    rw [hp] at hpar
    have := pinj hpar
    subst this
    rcases hA with ⟨-, rfl⟩ | ⟨-, u, -, rfl⟩ <;> simp
  · rcases hA with ⟨hna, -⟩ | ⟨-, u, hu, rfl⟩
    · rw [ha] at hna; cases hna
    · obtain ⟨j', h1, -, h3, h4, h5, h6⟩ := antiType_ok.1 hu
      dsimp only at h1 h3 h4 h5 h6
      rw [hj] at h1; cases h1
      refine ⟨u.name, hsub _ ?_⟩
      have : ({ t with name := u.name } : PType) = u := by
        obtain ⟨n1, m1, w1, p1, c1⟩ := t
        obtain ⟨n2, m2, w2, p2, c2⟩ := u
        dsimp only at h3 h4 h5 h6 hpar hcode ⊢
        rw [hp] at hpar
        have hpp := pinj hpar
        rw [h3, h4, h6, hcode, h5, hpp]
        rcases Nat.mod_two_eq_zero_or_one j with h | h <;> simp [h]
      rw [this]
      simp

theorem spin_of_lineAdds {l : Line} {ts : List PType} (h : LineAdds l ts) {t : PType} (ht : t ∈ ts) :
    ∃ s, spin t.code = .ok s := by
  have hok := lineAdds_ok.1 ⟨ts, h⟩
  obtain ⟨s, hs, d, hsd, -, -, hc⟩ := h.mem ht
  obtain ⟨d', h1, h2⟩ := hok.2.2.2 s hs
  rw [hsd] at h1; cases h1
  have := spin_ok.2 h2.2.1
  rcases hc with ⟨h, -⟩ | ⟨-, h, -⟩
  · rw [h]; exact this
  · rw [h, (C15_opposite d).2.2.2.2.2.2.1]; exact this

/-- What a successful call leaves. -/
structure Loaded (lines : List Line) (st : Store) : Prop where
  built : st.built = true
  adds : ∃ tss, List.Forall₂ LineAdds lines tss ∧ st.types.Perm tss.flatten
  sorted : st.types.Pairwise fun a b => a.code < b.code
  isos : IsoInv st.types st.types.length st.isos

theorem create_none {lines : List Line} {st st' : Store} (hb : st.built = false) (hi : st.isos = []) :
    create lines st = (st', none) → Loaded lines st' := by
  intro h
  unfold create at h
  rcases ha : addLines [] lines with ⟨l, _ | e⟩
  · rw [ha] at h
    dsimp only at h
    split_ifs at h with hd hb'
    · simp at h
    · rw [hb] at hb'; cases hb'
    · have hd : duplicate 0 (sortTypes l) = false := by simpa using hd
      obtain ⟨tss, ht, hl⟩ := addLines_none.1 ha
      rw [List.nil_append] at hl
      have hdup := (duplicate_false (sortTypes_sorted l) (by simp)).1 hd
      obtain ⟨isos', hm, hinv⟩ := createMultiplets_inv (IsoInv.init (sortTypes l)) rfl (by
        intro t ht'
        have := (sortTypes_perm l).mem_iff.1 ht'
        rw [hl] at this
        obtain ⟨ln, -, ts, hA, htt⟩ := mem_forall2_flatten ht this
        exact spin_of_lineAdds hA htt)
      rw [hi] at h
      rw [List.drop_zero] at hm
      rw [hm] at h
      dsimp only at h
      cases h
      exact ⟨rfl, ⟨tss, ht, by rw [← hl]; exact sortTypes_perm l⟩,
        strict_sorted (sortTypes_sorted l) hdup.1, hinv⟩
  · rw [ha] at h; simp at h

/-! ### C57 -/

/-- **C57.** Loading a file succeeds exactly if every line is well-formed and no code appears twice
(a particle also standing for its antiparticle), nor the code zero. -/
theorem C57_created {lines : List Line} {st : Store} (hb : st.built = false) (hi : st.isos = []) :
    (create lines st).2 = none ↔
      (∀ l ∈ lines, LineOk l) ∧ (fileCodes lines).Nodup ∧ 0 ∉ fileCodes lines := by
  constructor
  · intro h
    unfold create at h
    rcases ha : addLines [] lines with ⟨l, _ | e⟩
    · rw [ha] at h
      dsimp only at h
      obtain ⟨tss, ht, hl⟩ := addLines_none.1 ha
      rw [List.nil_append] at hl
      split_ifs at h with hd hb'
      have hd : duplicate 0 (sortTypes l) = false := by simpa using hd
      have hdup := (duplicate_false (sortTypes_sorted l) (by simp)).1 hd
      rw [((sortTypes_perm l).map _).nodup_iff, ((sortTypes_perm l).map _).mem_iff, hl,
        lines_codes ht] at hdup
      refine ⟨?_, hdup⟩
      intro ln hln
      exact lineAdds_ok.1 (by
        obtain ⟨ts, h1, -⟩ := mem_flatten_forall2 ht hln
        exact ⟨ts, h1⟩)
    · rw [ha] at h; simp at h
  · rintro ⟨hok, hn, h0⟩
    obtain ⟨tss, ht⟩ := exists_forall2.2 fun l hl => lineAdds_ok.2 (hok l hl)
    have ha : addLines [] lines = (tss.flatten, none) := addLines_none.2 ⟨tss, ht, by simp⟩
    unfold create
    rw [ha]
    dsimp only
    have hd : duplicate 0 (sortTypes tss.flatten) = false := by
      rw [duplicate_false (sortTypes_sorted _) (by simp), ((sortTypes_perm _).map _).nodup_iff,
        ((sortTypes_perm _).map _).mem_iff, lines_codes ht]
      exact ⟨hn, h0⟩
    rw [hd, hb]
    simp only [Bool.false_eq_true, if_false]
    obtain ⟨isos', hm, -⟩ := createMultiplets_inv (IsoInv.init (sortTypes tss.flatten)) rfl (by
        intro t ht'
        have := (sortTypes_perm _).mem_iff.1 ht'
        obtain ⟨ln, -, ts, hA, htt⟩ := mem_forall2_flatten ht this
        exact spin_of_lineAdds hA htt)
    rw [List.drop_zero] at hm
    rw [hi, hm]

/-- **C57.** After loading, every type is declared in the file; and every type declared in the file
is there, with its mass, width, parity and code. -/
theorem C57_contents {lines : List Line} {st st' : Store} (hb : st.built = false) (hi : st.isos = [])
    (h : create lines st = (st', none)) :
    (∀ t ∈ st'.types, ∃ l ∈ lines, Declares l t) ∧
    (∀ l ∈ lines, ∀ t, Declares l t → ∃ nm, ({ t with name := nm } : PType) ∈ st'.types) := by
  obtain ⟨-, ⟨tss, ht, hp⟩, -, -⟩ := create_none hb hi h
  constructor
  · intro t htt
    obtain ⟨l, hl, ts, hA, hm⟩ := mem_forall2_flatten ht (hp.mem_iff.1 htt)
    exact ⟨l, hl, hA.mem hm⟩
  · intro l hl t htd
    obtain ⟨ts, hA, hsub⟩ := mem_flatten_forall2 ht hl
    obtain ⟨nm, hm⟩ := hA.mem_of htd
    exact ⟨nm, hp.mem_iff.2 (hsub _ hm)⟩

/-- The look-up in a loaded store. -/
theorem tryFind_spec {lines : List Line} {st : Store} (h : Loaded lines st)
    (hlen : st.types.length ≤ 0xffff) (d : Nat) :
    ∃ r, st.tryFind d = .ok r ∧ ∀ i, r = some i ↔ ∃ t, st.types[i]? = some t ∧ t.code = d := by
  have hs := fun i x => search_spec PType.code h.sorted d
    (p := fun t : PType => decide (t.code < d)) (by simp) i x
  unfold Store.tryFind
  rw [if_pos h.built]
  generalize lowerBound (fun t : PType => decide (t.code < d)) st.types = r at *
  dsimp only
  cases hr : st.types[r]? with
  | none =>
    refine ⟨none, rfl, ?_⟩
    intro i
    simp only [reduceCtorEq, false_iff]
    rintro ⟨t, ht⟩
    obtain ⟨rfl, h2, -⟩ := (hs i t).1 ht
    rw [hr] at h2; cases h2
  | some t =>
    dsimp only
    split_ifs with hd
    · have hlt : r < st.types.length := (List.getElem?_eq_some_iff.1 hr).1
      refine ⟨some r, ?_, ?_⟩
      · unfold addressOf
        rw [if_pos (by omega)]; rfl
      · intro i
        constructor
        · intro e; cases e; exact ⟨t, hr, hd⟩
        · rintro ⟨u, hu⟩
          rw [((hs i u).1 hu).1]
    · refine ⟨none, rfl, ?_⟩
      intro i
      simp only [reduceCtorEq, false_iff]
      rintro ⟨u, hu⟩
      obtain ⟨rfl, h2, h3⟩ := (hs i u).1 hu
      rw [hr] at h2; cases h2
      exact hd h3

theorem length_fileCodes {lines : List Line} {st : Store} (h : Loaded lines st) :
    st.types.length = (fileCodes lines).length := by
  obtain ⟨tss, ht, hp⟩ := h.adds
  rw [hp.length_eq, ← lines_codes ht, List.length_map]

/-- **C57.** `find(code)` returns the type with that code if there is one, and reports that it was
not found exactly if there is none; `exists(code)` tells which; and no two types have the same code.
(More than 65535 types do not fit the index of a type: the assertion in particletype.cc:64.) -/
theorem C57_find {lines : List Line} {st st' : Store} (hb : st.built = false) (hi : st.isos = [])
    (h : create lines st = (st', none)) (hlen : (fileCodes lines).length ≤ 0xffff) (d : Nat) :
    (∀ t, st'.find d = .ok t ↔ t ∈ st'.types ∧ t.code = d) ∧
    (st'.find d = .error .notFound ↔ ∀ t ∈ st'.types, t.code ≠ d) ∧
    (∃ b, st'.exists d = .ok b ∧ (b = true ↔ ∃ t ∈ st'.types, t.code = d)) ∧
    (∀ t ∈ st'.types, ∀ u ∈ st'.types, t.code = u.code → t = u) := by
  have hL := create_none hb hi h
  obtain ⟨r, hr, hspec⟩ := tryFind_spec hL (by rw [length_fileCodes hL]; exact hlen) d
  have huniq : ∀ t ∈ st'.types, ∀ u ∈ st'.types, t.code = u.code → t = u := by
    have hn : (st'.types.map PType.code).Nodup := by
      rw [List.nodup_iff_pairwise_ne, List.pairwise_map]
      exact hL.sorted.imp fun h => ne_of_lt h
    intro t ht u hu e
    exact List.inj_on_of_nodup_map hn ht hu e
  unfold Store.find Store.exists
  rw [hr]
  cases r with
  | none =>
    have hno : ∀ t ∈ st'.types, t.code ≠ d := by
      intro t ht hd
      obtain ⟨i, hi⟩ := List.mem_iff_getElem?.1 ht
      have := (hspec i).2 ⟨t, hi, hd⟩
      cases this
    refine ⟨?_, ?_, ⟨false, rfl, ?_⟩, huniq⟩
    · intro t
      simp only [reduceCtorEq, false_iff, not_and]
      exact hno t
    · simpa using hno
    · simp only [Bool.false_eq_true, false_iff, not_exists, not_and]
      exact hno
  | some i =>
    obtain ⟨t, ht, hd⟩ := (hspec i).1 rfl
    have htm := List.mem_of_getElem? ht
    dsimp only
    rw [ht]
    dsimp only
    refine ⟨?_, ?_, ⟨true, rfl, ?_⟩, huniq⟩
    · intro u
      simp only [Except.ok.injEq]
      constructor
      · rintro rfl; exact ⟨htm, hd⟩
      · rintro ⟨h1, h2⟩; exact huniq t htm u h1 (by rw [hd, h2])
    · simp only [reduceCtorEq, false_iff, not_forall, not_not]
      exact ⟨t, htm, hd⟩
    · simp only [true_iff]; exact ⟨t, htm, hd⟩

/-- **C57.** Every loaded type that has an antiparticle finds it: the antiparticle is loaded, has
the same mass and width, the opposite code, the opposite parity exactly for fermions, and its
antiparticle is the type itself. -/
theorem C57_antiparticle {lines : List Line} {st st' : Store} (hb : st.built = false)
    (hi : st.isos = []) (h : create lines st = (st', none))
    (hlen : (fileCodes lines).length ≤ 0xffff) {t : PType} (ht : t ∈ st'.types)
    (ha : hasAntiparticle t.code = true) :
    ∃ u ∈ st'.types, st'.getAntiparticle t = .ok u ∧ st'.getAntiparticle u = .ok t ∧
      u.mass = t.mass ∧ u.width = t.width ∧ u.code = Verif.Pdg.getAntiparticle t.code ∧
      ∃ j, spin t.code = .ok j ∧ (u.parity = t.parity ↔ j % 2 = 0) := by
  have hL := create_none hb hi h
  obtain ⟨h1, h2⟩ := C57_contents hb hi h
  obtain ⟨l, hl, s, hs, d, hsd, hm, hw, hc⟩ := h1 t ht
  obtain ⟨j, hj⟩ : ∃ j, spin t.code = .ok j := by
    obtain ⟨tss, hts, hp⟩ := hL.adds
    obtain ⟨l, hl, ts, hA, hm⟩ := mem_forall2_flatten hts (hp.mem_iff.1 ht)
    exact spin_of_lineAdds hA hm
  have hsp : ∀ e, spin (Verif.Pdg.getAntiparticle e) = spin e := fun e =>
    (C15_opposite e).2.2.2.2.2.2.1
  have hf := fun d => C57_find hb hi h hlen d
  -- the antiparticle is declared on the same line
  have hex : ∃ u ∈ st'.types, u.mass = t.mass ∧ u.width = t.width ∧
      u.code = Verif.Pdg.getAntiparticle t.code ∧ (u.parity = t.parity ↔ j % 2 = 0) := by
    rcases hc with ⟨hcd, hpar⟩ | ⟨hda, hcd, j', hj', hpar⟩
    · obtain ⟨nm, hu⟩ := h2 l hl
        ⟨t.name, t.mass, t.width, if j % 2 = 1 then !t.parity else t.parity,
          Verif.Pdg.getAntiparticle d⟩ ⟨s, hs, d, hsd, hm, hw, Or.inr ⟨hcd ▸ ha, rfl, j, hcd ▸ hj, by
            rw [hpar]
            rcases Nat.mod_two_eq_zero_or_one j with h | h <;> simp [h]⟩⟩
      refine ⟨_, hu, rfl, rfl, by rw [hcd], ?_⟩
      rcases Nat.mod_two_eq_zero_or_one j with h | h <;> simp [h]
    · have hjj : j = j' := by
        rw [hcd, hsp, hj'] at hj
        cases hj; rfl
      subst hjj
      obtain ⟨nm, hu⟩ := h2 l hl
        ⟨t.name, t.mass, t.width, if j % 2 = 1 then !t.parity else t.parity, d⟩
        ⟨s, hs, d, hsd, hm, hw, Or.inl ⟨rfl, hpar⟩⟩
      refine ⟨_, hu, rfl, rfl, by rw [hcd, C15_involution], ?_⟩
      rcases Nat.mod_two_eq_zero_or_one j with h | h <;> simp [h]
  obtain ⟨u, hu, e1, e2, e3, e4⟩ := hex
  refine ⟨u, hu, ?_, ?_, e1, e2, e3, j, hj, e4⟩
  · unfold Store.getAntiparticle
    rw [if_pos ha]
    exact ((hf _).1 u).2 ⟨hu, e3⟩
  · unfold Store.getAntiparticle
    rw [e3, hasAnti_getAnti, if_pos ha, C15_involution]
    exact ((hf _).1 t).2 ⟨ht, rfl⟩

/-! ### C80 -/

/-- **C80.** After loading, every type belongs to exactly one multiplet, namely the one with its
name without the charge; a multiplet is found by its name exactly if it has a type, it has no other
states, and every state once. -/
theorem C80_multiplets {lines : List Line} {st st' : Store} (hb : st.built = false)
    (hi : st.isos = []) (h : create lines st = (st', none)) (nm : Str) :
    (∀ x, st'.findMultiplet nm = .ok x → x.name = nm ∧ x ∈ st'.isos ∧ x.states ≠ [] ∧
      x.states.Nodup ∧
      ∀ i, i ∈ x.states ↔ ∃ t, st'.types[i]? = some t ∧ multipletName t.name = nm) ∧
    (st'.findMultiplet nm = .error .notFound ↔ ∀ t ∈ st'.types, multipletName t.name ≠ nm) ∧
    (∀ x ∈ st'.isos, ∀ y ∈ st'.isos, ∀ i ∈ x.states, i ∈ y.states → x = y) := by
  have hI := (create_none hb hi h).isos
  have hmem : ∀ x ∈ st'.isos, ∀ i, i ∈ x.states ↔
      ∃ t, st'.types[i]? = some t ∧ multipletName t.name = x.name := by
    intro x hx i
    rw [hI.states x hx]
    unfold members nameAt
    rw [List.mem_filter, List.mem_range]
    simp only [decide_eq_true_eq, Option.map_eq_some_iff]
    constructor
    · rintro ⟨-, h⟩; exact h
    · rintro ⟨t, ht⟩
      exact ⟨(List.getElem?_eq_some_iff.1 ht.1).1, t, ht⟩
  refine ⟨?_, ?_, ?_⟩
  · intro x hx
    unfold Store.findMultiplet at hx
    cases hf : isoFind st'.isos nm with
    | none => rw [hf] at hx; cases hx
    | some j =>
      rw [hf] at hx
      dsimp only at hx
      obtain ⟨y, hy, hyn⟩ := (isoFind_some hI.sorted nm j).1 hf
      rw [hy] at hx
      cases hx
      have hm := List.mem_of_getElem? hy
      refine ⟨hyn, hm, hI.nonempty x hm, ?_, fun i => by rw [hmem x hm, hyn]⟩
      rw [hI.states x hm]
      exact List.nodup_range.filter _
  · unfold Store.findMultiplet
    constructor
    · intro hx t ht hn
      cases hf : isoFind st'.isos nm with
      | none =>
        obtain ⟨i, hi'⟩ := List.mem_iff_getElem?.1 ht
        obtain ⟨x, hx', hxn⟩ := hI.all i (List.getElem?_eq_some_iff.1 hi').1
        have : multipletName t.name = x.name := by simpa [nameAt, hi'] using hxn
        exact (isoFind_none hI.sorted nm).1 hf x hx' (by rw [← this, hn])
      | some j =>
        rw [hf] at hx
        dsimp only at hx
        obtain ⟨y, hy, -⟩ := (isoFind_some hI.sorted nm j).1 hf
        rw [hy] at hx; cases hx
    · intro hno
      have : isoFind st'.isos nm = none := by
        rw [isoFind_none hI.sorted]
        intro x hx hn
        obtain ⟨i, hi'⟩ := List.exists_mem_of_ne_nil _ (hI.nonempty x hx)
        obtain ⟨t, ht, htn⟩ := (hmem x hx i).1 hi'
        exact hno t (List.mem_of_getElem? ht) (by rw [htn, hn])
      rw [this]
  · intro x hx y hy i hix hiy
    obtain ⟨t, ht, htx⟩ := (hmem x hx i).1 hix
    obtain ⟨u, hu, huy⟩ := (hmem y hy i).1 hiy
    rw [ht] at hu; cases hu
    exact List.inj_on_of_nodup_map (nodup_of_sorted hI.sorted) hx hy (by rw [← htx, huy])

/-- **C80.** A state is found by its full name exactly if there is a type with that name, and what
is found has that name. -/
theorem C80_states {lines : List Line} {st st' : Store} (hb : st.built = false)
    (hi : st.isos = []) (h : create lines st = (st', none)) (nm : Str) :
    (∀ i, st'.findState nm = .ok i → ∃ t, st'.types[i]? = some t ∧ t.name = nm) ∧
    ((∃ i, st'.findState nm = .ok i) ↔ ∃ t ∈ st'.types, t.name = nm) ∧
    (st'.existsName nm = .ok true ↔ ∃ t ∈ st'.types, t.name = nm) := by
  obtain ⟨h1, h2, -⟩ := C80_multiplets hb hi h (multipletName nm)
  have hbuilt := (create_none hb hi h).built
  have key : ∀ i, st'.findState nm = .ok i → ∃ t, st'.types[i]? = some t ∧ t.name = nm := by
    intro i hf
    unfold Store.findState at hf
    cases hm : st'.findMultiplet (multipletName nm) with
    | error e => rw [hm] at hf; cases hf
    | ok x =>
      rw [hm] at hf
      dsimp only at hf
      cases hx : x.states.find? fun i => decide ((st'.types[i]?.map PType.name) = some nm) with
      | none => rw [hx] at hf; cases hf
      | some j =>
        rw [hx] at hf; cases hf
        have := List.find?_some hx
        simpa [Option.map_eq_some_iff] using this
  refine ⟨key, ⟨?_, ?_⟩, ?_⟩
  · rintro ⟨i, hf⟩
    obtain ⟨t, ht, hn⟩ := key i hf
    exact ⟨t, List.mem_of_getElem? ht, hn⟩
  · rintro ⟨t, ht, hn⟩
    unfold Store.findState
    cases hm : st'.findMultiplet (multipletName nm) with
    | error e =>
      exfalso
      have he : e = .notFound := by
        unfold Store.findMultiplet at hm
        cases hf : isoFind st'.isos (multipletName nm) with
        | none => rw [hf] at hm; cases hm; rfl
        | some j =>
          rw [hf] at hm
          dsimp only at hm
          split at hm <;> cases hm
          rfl
      subst he
      exact h2.1 hm t ht (by rw [hn])
    | ok x =>
      dsimp only
      obtain ⟨-, -, -, -, hst⟩ := h1 x hm
      obtain ⟨i, hi'⟩ := List.mem_iff_getElem?.1 ht
      have hix := (hst i).2 ⟨t, hi', by rw [hn]⟩
      cases hx : x.states.find? fun i => decide ((st'.types[i]?.map PType.name) = some nm) with
      | none =>
        have := List.find?_eq_none.1 hx i hix
        simp [hi', hn] at this
      | some j => exact ⟨j, rfl⟩
  · unfold Store.existsName
    rw [if_pos hbuilt]
    simp

/-! ### A second call -/

def pionLine : Line := ⟨[0xCF, 0x80], some (138 / 1000), some 0, [45], ["111".toList, "211".toList]⟩
def nucleonLine : Line := ⟨[78], some (938 / 1000), some 0, [43], ["2212".toList, "2112".toList]⟩

/-- Hypotheses are met: a file with pions and nucleons is loaded; it has seven types, the
antiproton "N̅⁻" is among them, and there are the multiplets N, N̅ and π. -/
example : (create [pionLine, nucleonLine] Store.init).2 = none ∧
    ((create [pionLine, nucleonLine] Store.init).1.types.map fun t => (t.code, t.parity)) =
      [(0x111, false), (0x211, false), (0x2112, true), (0x2212, true), (0x80000211, false),
       (0x80002112, false), (0x80002212, false)] ∧
    ((create [pionLine, nucleonLine] Store.init).1.isos.map fun x => (x.name, x.states)) =
      [([78], [2, 3]), ([78, 0xCC, 0x85], [5, 6]), ([0xCF, 0x80], [0, 1, 4])] ∧
    (fileCodes [pionLine, nucleonLine]).length ≤ 0xffff ∧
    ((create [pionLine, nucleonLine] Store.init).1.types.map PType.name)[6]? =
      some ([78, 0xCC, 0x85] ++ minus) := by decide +kernel

/-- A second call is refused, but only after it has replaced the types: a code that was found before
is not found any more afterwards. -/
theorem C57_second_call_false : ∃ st st', create [pionLine, nucleonLine] Store.init = (st, none) ∧
    create [pionLine] st = (st', some .alreadyBuilt) ∧
    (∃ t, st.find 0x2212 = .ok t) ∧ st'.find 0x2212 = .error .notFound := by
  refine ⟨(create [pionLine, nucleonLine] Store.init).1,
    (create [pionLine] (create [pionLine, nucleonLine] Store.init).1).1, ?_, ?_, ?_, ?_⟩
  · exact Prod.ext rfl (by decide +kernel)
  · exact Prod.ext rfl (by decide +kernel)
  · have : ((create [pionLine, nucleonLine] Store.init).1.find 0x2212).toOption.isSome = true := by
      decide +kernel
    revert this
    cases (create [pionLine, nucleonLine] Store.init).1.find 0x2212 with
    | error e => simp [Except.toOption]
    | ok t => simp
  · decide +kernel

end Verif.Types
