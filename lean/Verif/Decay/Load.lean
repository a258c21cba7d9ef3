import Verif.Decay.Merge
import Mathlib.Algebra.Order.Group.Int
/-! C38 (angular momentum), C37 for a whole file, C71 (loaded decay modes). -/
namespace Verif.Decay

/-! ### Angular momentum -/

/-- Specification: two angular momenta can couple to a third one (all doubled). -/
def Triangle (a b c : Int) : Prop := |a - b| ≤ c ∧ c ≤ a + b ∧ (a + b + c) % 2 = 0

/-- Specification: daughters of spins `s1`, `s2` with orbital angular momentum `L` can couple to spin
`s0` (doubled spins). -/
def Couples2 (s0 s1 s2 L : Int) : Prop := ∃ S, Triangle s1 s2 S ∧ Triangle S (2 * L) s0

/-- The same for three daughters and total orbital angular momentum `L`. -/
def Couples3 (s0 s1 s2 s3 L : Int) : Prop :=
  ∃ S12 S, Triangle s1 s2 S12 ∧ Triangle S12 s3 S ∧ Triangle S (2 * L) s0

/-- The check of decaymodes.cc:453-458 with the limits of lines 302-303. -/
def accepts2 (s0 s1 s2 L : Int) : Prop :=
  ∃ lo, minL2 s0 s1 s2 = some lo ∧ lo ≤ L ∧ L ≤ (s0 + s1 + s2) / 2

/-- The same for three daughters. -/
def accepts3 (s0 s1 s2 s3 L : Int) : Prop :=
  ∃ lo, minL3 s0 s1 s2 s3 = some lo ∧ lo ≤ L ∧ L ≤ (s0 + s1 + s2 + s3) / 2

/-- **C38** (part): an accepted two-body decay is allowed by angular momentum conservation. -/
theorem C38_accepted_couples (s0 s1 s2 L : Int) (h0 : 0 ≤ s0) (h1 : 0 ≤ s1) (h2 : 0 ≤ s2)
    (h : accepts2 s0 s1 s2 L) : Couples2 s0 s1 s2 L := by
  obtain ⟨lo, hlo, hl, hu⟩ := h
  unfold minL2 at hlo
  simp only at hlo
  split_ifs at hlo with hm
  cases hlo
  refine ⟨max |s1 - s2| |s0 - 2 * L|, ?_, ?_⟩
  · unfold Triangle; simp only [Int.abs_eq_natAbs] at *; omega
  · unfold Triangle; simp only [Int.abs_eq_natAbs] at *; omega

/-- **C38** (part): the converse holds unless the spins could already couple without orbital
angular momentum (strictly inside the triangle). What is missing: see `C38_rejects_allowed`. -/
theorem C38_couples_accepted_partial (s0 s1 s2 L : Int) (h0 : 0 ≤ s0) (h1 : 0 ≤ s1) (h2 : 0 ≤ s2)
    (hL : 0 ≤ L) (hout : ¬(|s1 - s2| < s0 ∧ s0 < s1 + s2)) (h : Couples2 s0 s1 s2 L) :
    accepts2 s0 s1 s2 L := by
  obtain ⟨S, ⟨a1, a2, a3⟩, b1, b2, b3⟩ := h
  refine ⟨min (min |s0 - s1 - s2| |s0 - s1 + s2|) |s0 + s1 - s2| / 2, ?_, ?_, ?_⟩
  · unfold minL2; simp only; rw [if_neg]; simp only [Int.abs_eq_natAbs] at *; omega
  · simp only [Int.abs_eq_natAbs] at *; omega
  · simp only [Int.abs_eq_natAbs] at *; omega

/-- **C38** (part): a combination of integer and half-integer spins is always rejected, and rightly
so. -/
theorem C38_half_integer (s0 s1 s2 L : Int) (h : (s0 + s1 + s2) % 2 = 1) :
    ¬accepts2 s0 s1 s2 L ∧ ¬Couples2 s0 s1 s2 L := by
  constructor
  · rintro ⟨lo, hlo, -⟩
    unfold minL2 at hlo
    simp only at hlo
    rw [if_pos (by simp only [Int.abs_eq_natAbs]; omega)] at hlo
    cases hlo
  · rintro ⟨S, ⟨-, -, a⟩, -, -, b⟩
    omega

/-- **C38** is false: spin 1 into two particles of spin 1 without orbital angular momentum is allowed
(couple the daughters to spin 1), but rejected. -/
theorem C38_rejects_allowed : Couples2 2 2 2 0 ∧ ¬accepts2 2 2 2 0 := by
  constructor
  · exact ⟨2, by unfold Triangle; decide, by unfold Triangle; decide⟩
  · rintro ⟨lo, hlo, hl, -⟩
    have : minL2 2 2 2 = some 1 := by decide
    rw [this] at hlo
    cases hlo
    omega

/-- **C38** (part): an accepted three-body decay is allowed, if the check uses the spins of the three
daughters. -/
theorem C38_three_accepted_couples (s0 s1 s2 s3 L : Int) (h0 : 0 ≤ s0) (h1 : 0 ≤ s1) (h2 : 0 ≤ s2)
    (h3 : 0 ≤ s3) (h : accepts3 s0 s1 s2 s3 L) : Couples3 s0 s1 s2 s3 L := by
  obtain ⟨lo, hlo, hl, hu⟩ := h
  unfold minL3 at hlo
  simp only at hlo
  split_ifs at hlo with hm
  cases hlo
  have hL : 0 ≤ L := by simp only [Int.abs_eq_natAbs] at *; omega
  -- the smallest possible total spin
  have key : ∃ S, |s0 - 2 * L| ≤ S ∧ S ≤ s0 + 2 * L ∧ (S + s0) % 2 = 0 ∧ S ≤ s1 + s2 + s3 ∧
      |s1 - s2| - s3 ≤ S ∧ s3 - s1 - s2 ≤ S ∧ 0 ≤ S :=
    ⟨max |s0 - 2 * L| (max (|s1 - s2| - s3) (s3 - s1 - s2)), by simp only [Int.abs_eq_natAbs] at *; omega⟩
  obtain ⟨S, k1, k2, k3, k4, k5, k6, k7⟩ := key
  refine ⟨max |s1 - s2| |S - s3|, S, ?_, ?_, ?_⟩
  · unfold Triangle; simp only [Int.abs_eq_natAbs] at *; omega
  · unfold Triangle; simp only [Int.abs_eq_natAbs] at *; omega
  · unfold Triangle; simp only [Int.abs_eq_natAbs] at *; omega

/-- **C38** (part): the converse for three daughters when one of the four spins is at least the sum of
the other three, so that orbital angular momentum is needed. What is missing: the other cases, in which
the check is too strict as in `C38_rejects_allowed`. -/
theorem C38_three_couples_accepted_partial (s0 s1 s2 s3 L : Int) (h0 : 0 ≤ s0) (h1 : 0 ≤ s1)
    (h2 : 0 ≤ s2) (h3 : 0 ≤ s3) (hL : 0 ≤ L)
    (hout : s1 + s2 + s3 ≤ s0 ∨ s0 + s2 + s3 ≤ s1 ∨ s0 + s1 + s3 ≤ s2 ∨ s0 + s1 + s2 ≤ s3)
    (h : Couples3 s0 s1 s2 s3 L) : accepts3 s0 s1 s2 s3 L := by
  obtain ⟨T, S, ⟨a1, a2, a3⟩, ⟨c1, c2, c3⟩, b1, b2, b3⟩ := h
  rw [abs_le] at a1 c1 b1
  have hm : ∃ m : Int, min (min (min (min (min (min |s0 - s1 + s2 + s3| |s0 + s1 - s2 + s3|)
      |s0 + s1 + s2 - s3|) |s0 - s1 - s2 + s3|) |s0 - s1 + s2 - s3|) |s0 + s1 - s2 - s3|)
      |s0 - s1 - s2 - s3| = m ∧ m % 2 = 0 ∧ m ≤ 2 * L := by
    refine ⟨_, rfl, ?_⟩
    rcases hout with h | h | h | h
    · rw [abs_of_nonneg (a := s0 - s1 + s2 + s3) (by omega),
        abs_of_nonneg (a := s0 + s1 - s2 + s3) (by omega),
        abs_of_nonneg (a := s0 + s1 + s2 - s3) (by omega),
        abs_of_nonneg (a := s0 - s1 - s2 + s3) (by omega),
        abs_of_nonneg (a := s0 - s1 + s2 - s3) (by omega),
        abs_of_nonneg (a := s0 + s1 - s2 - s3) (by omega),
        abs_of_nonneg (a := s0 - s1 - s2 - s3) (by omega)]
      rw [min_eq_right (a := min _ _) (b := s0 - s1 - s2 - s3) (by omega)]
      omega
    · rw [abs_of_nonpos (a := s0 - s1 + s2 + s3) (by omega),
        abs_of_nonneg (a := s0 + s1 - s2 + s3) (by omega),
        abs_of_nonneg (a := s0 + s1 + s2 - s3) (by omega),
        abs_of_nonpos (a := s0 - s1 - s2 + s3) (by omega),
        abs_of_nonpos (a := s0 - s1 + s2 - s3) (by omega),
        abs_of_nonneg (a := s0 + s1 - s2 - s3) (by omega),
        abs_of_nonpos (a := s0 - s1 - s2 - s3) (by omega)]
      rw [min_eq_left (a := -(s0 - s1 + s2 + s3)) (by omega),
        min_eq_left (a := -(s0 - s1 + s2 + s3)) (by omega),
        min_eq_left (a := -(s0 - s1 + s2 + s3)) (by omega),
        min_eq_left (a := -(s0 - s1 + s2 + s3)) (by omega),
        min_eq_left (a := -(s0 - s1 + s2 + s3)) (by omega),
        min_eq_left (a := -(s0 - s1 + s2 + s3)) (by omega)]
      omega
    · rw [abs_of_nonneg (a := s0 - s1 + s2 + s3) (by omega),
        abs_of_nonpos (a := s0 + s1 - s2 + s3) (by omega),
        abs_of_nonneg (a := s0 + s1 + s2 - s3) (by omega),
        abs_of_nonpos (a := s0 - s1 - s2 + s3) (by omega),
        abs_of_nonneg (a := s0 - s1 + s2 - s3) (by omega),
        abs_of_nonpos (a := s0 + s1 - s2 - s3) (by omega),
        abs_of_nonpos (a := s0 - s1 - s2 - s3) (by omega)]
      rw [min_eq_right (b := -(s0 + s1 - s2 + s3)) (by omega),
        min_eq_left (a := -(s0 + s1 - s2 + s3)) (by omega),
        min_eq_left (a := -(s0 + s1 - s2 + s3)) (by omega),
        min_eq_left (a := -(s0 + s1 - s2 + s3)) (by omega),
        min_eq_left (a := -(s0 + s1 - s2 + s3)) (by omega),
        min_eq_left (a := -(s0 + s1 - s2 + s3)) (by omega)]
      omega
    · rw [abs_of_nonneg (a := s0 - s1 + s2 + s3) (by omega),
        abs_of_nonneg (a := s0 + s1 - s2 + s3) (by omega),
        abs_of_nonpos (a := s0 + s1 + s2 - s3) (by omega),
        abs_of_nonneg (a := s0 - s1 - s2 + s3) (by omega),
        abs_of_nonpos (a := s0 - s1 + s2 - s3) (by omega),
        abs_of_nonpos (a := s0 + s1 - s2 - s3) (by omega),
        abs_of_nonpos (a := s0 - s1 - s2 - s3) (by omega)]
      rw [min_eq_right (b := -(s0 + s1 + s2 - s3)) (by omega),
        min_eq_left (a := -(s0 + s1 + s2 - s3)) (by omega),
        min_eq_left (a := -(s0 + s1 + s2 - s3)) (by omega),
        min_eq_left (a := -(s0 + s1 + s2 - s3)) (by omega),
        min_eq_left (a := -(s0 + s1 + s2 - s3)) (by omega)]
      omega
  obtain ⟨m, e, hm2, hml⟩ := hm
  refine ⟨m / 2, ?_, by omega, by omega⟩
  unfold minL3
  simp only [e]
  rw [if_neg (by omega)]

example : Couples3 6 2 0 0 2 ∧ accepts3 6 2 0 0 2 := by
  have h : Couples3 6 2 0 0 2 :=
    ⟨2, 2, by unfold Triangle; decide, by unfold Triangle; decide, by unfold Triangle; decide⟩
  exact ⟨h, C38_three_couples_accepted_partial _ _ _ _ _ (by decide) (by decide) (by decide)
    (by decide) (by decide) (by decide) h⟩

/-! ### Invariants of loading -/

theorem foldlM_inv {α β ε : Type} {f : β → α → Except ε β} (P : β → Prop) {l : List α} {b b' : β}
    (step : ∀ b a b', a ∈ l → P b → f b a = .ok b' → P b') (h0 : P b) (h : l.foldlM f b = .ok b') :
    P b' := by
  induction l generalizing b with
  | nil => cases h; exact h0
  | cons a l ih =>
    rw [List.foldlM_cons] at h
    cases h1 : f b a with
    | error e => rw [h1] at h; cases h
    | ok b1 =>
      rw [h1] at h
      exact ih (fun b a b' ha => step b a b' (by simp [ha])) (step b a b1 (by simp) h0 h1) h

/-- All modes in a table satisfy `P mother daughters L`. -/
def AllP (P : Nat → List Nat → Int → Prop) (types : List DType) (modes : Nat → List Mode) : Prop :=
  TypesOk types ∧ ∀ m, ∀ d ∈ modes m, ∃ t, types[d.ty]? = some t ∧ P m t.parts t.L

/-- `P` does not depend on the order of the daughters. -/
def PermInv (P : Nat → List Nat → Int → Prop) : Prop :=
  ∀ m p p' L, p.Perm p' → P m p L → P m p' L

theorem addToModes_ty_mem {i : Nat} {r : ℚ} {ms : List Mode} {d : Mode} (h : d ∈ addToModes i r ms) :
    d.ty = i ∨ ∃ d0 ∈ ms, d0.ty = d.ty := by
  have : d.ty ∈ (addToModes i r ms).map Mode.ty := List.mem_map_of_mem h
  rw [addToModes_ty] at this
  split_ifs at this with h1
  · obtain ⟨d0, a, b⟩ := List.mem_map.1 this; exact .inr ⟨d0, a, b⟩
  · rcases List.mem_append.1 this with h2 | h2
    · obtain ⟨d0, a, b⟩ := List.mem_map.1 h2; exact .inr ⟨d0, a, b⟩
    · exact .inl (List.mem_singleton.1 h2)

theorem addMode_ok {W : World} {db db' : DB} {m : Nat} {r : ℚ} {L : Int} {p : List Nat}
    (h : addMode W db m r L p = .ok db') : ∃ types i, getDecayType W db.types m p L = .ok (types, i) ∧
      db' = ⟨types, fun k => if k = m then addToModes i r (db.modes k) else db.modes k⟩ := by
  unfold addMode at h
  cases hg : getDecayType W db.types m p L with
  | error e => rw [hg] at h; cases h
  | ok x => obtain ⟨types, i⟩ := x; rw [hg] at h; cases h; exact ⟨types, i, rfl, rfl⟩

/-- Types are only appended. -/
def Ext (a b : List DType) : Prop := ∃ e, b = a ++ e
theorem Ext.refl (a : List DType) : Ext a a := ⟨[], by simp⟩
theorem Ext.trans {a b c : List DType} (h : Ext a b) (h' : Ext b c) : Ext a c := by
  obtain ⟨e, rfl⟩ := h; obtain ⟨f, rfl⟩ := h'; exact ⟨e ++ f, by simp⟩
theorem Ext.get {a b : List DType} (h : Ext a b) {i : Nat} {t : DType} (hi : a[i]? = some t) :
    b[i]? = some t := by
  obtain ⟨e, rfl⟩ := h
  rw [List.getElem?_append_left (List.getElem?_eq_some_iff.1 hi).1]; exact hi

theorem AllP.ext {P : Nat → List Nat → Int → Prop} {types types' : List DType} {modes : Nat → List Mode}
    (h : AllP P types modes) (ht : TypesOk types') (he : Ext types types') : AllP P types' modes :=
  ⟨ht, fun m d hd => by obtain ⟨t, h1, h2⟩ := h.2 m d hd; exact ⟨t, he.get h1, h2⟩⟩

theorem addMode_allP {P : Nat → List Nat → Int → Prop} (hP : PermInv P) {W : World} {db db' : DB} {m : Nat}
    {r : ℚ} {L : Int} {p : List Nat} (I : AllP P db.types db.modes) (hp : P m p L)
    (h : addMode W db m r L p = .ok db') : AllP P db'.types db'.modes ∧ Ext db.types db'.types := by
  obtain ⟨types, i, hg, rfl⟩ := addMode_ok h
  obtain ⟨g1, g2, g3⟩ := getDecayType_spec I.1 hg
  refine ⟨⟨g1, ?_⟩, g2⟩
  intro k d hd
  simp only at hd
  split_ifs at hd with hk
  · subst hk
    rcases addToModes_ty_mem hd with h1 | ⟨d0, h1, h2⟩
    · obtain ⟨t, t1, t2⟩ := idx_spec g1 g3
      refine ⟨t, by rw [h1]; exact t1, ?_⟩
      rw [← t2.2]; exact hP _ _ _ _ t2.1 hp
    · obtain ⟨t, t1, t2⟩ := I.2 k d0 h1
      exact ⟨t, by rw [← h2]; exact Ext.get g2 t1, t2⟩
  · obtain ⟨t, t1, t2⟩ := I.2 k d hd
    exact ⟨t, Ext.get g2 t1, t2⟩

/-- Invariant for the whole state. -/
structure StP (P : Nat → List Nat → Int → Prop) (st : St) : Prop where
  done : AllP P st.types st.done
  pending : AllP P st.types st.pending

theorem addPending_P {P : Nat → List Nat → Int → Prop} (hP : PermInv P) {W : World} {st st' : St} {m : Nat}
    {r : ℚ} {L : Int} {p : List Nat} (I : StP P st) (hp : P m p L)
    (h : addPending W st m r L p = .ok st') : StP P st' ∧ st'.mother = st.mother ∧ st'.done = st.done := by
  unfold addPending at h
  cases h1 : addMode W ⟨st.types, st.pending⟩ m r L p with
  | error e => rw [h1] at h; cases h
  | ok db =>
    rw [h1] at h; cases h
    obtain ⟨a, b⟩ := addMode_allP hP (db := ⟨st.types, st.pending⟩) I.pending hp h1
    exact ⟨⟨I.done.ext a.1 b, a⟩, rfl, rfl⟩

/-- Results of `renormalize` have the same decays. -/
theorem renormalize_ty {ms ms' : List Mode} {b : Bool} (h : renormalize ms = .ok (ms', b)) :
    ms'.map Mode.ty = ms.map Mode.ty := by
  unfold renormalize at h
  simp only at h
  split_ifs at h
  · cases h; rfl
  · cases h; simp

theorem finishState_ok {W : World} {pending done done' : Nat → List Mode} {s : Nat}
    (h : finishState W pending done s = .ok done') : ∃ ms b, renormalize (pending s) = .ok (ms, b) ∧
      (pending s = [] → (W.T s).stable = true) ∧ done' = fun k => if k = s then ms else done k := by
  unfold finishState at h
  cases hc : ((pending s).isEmpty && !(W.T s).stable) with
  | true => rw [hc] at h; cases h
  | false =>
    rw [hc] at h
    cases hr : renormalize (pending s) with
    | error e => rw [hr] at h; cases h
    | ok x =>
      obtain ⟨ms, b⟩ := x
      rw [hr] at h; cases h
      refine ⟨ms, b, rfl, ?_, rfl⟩
      intro he
      rw [he] at hc
      simpa using hc

theorem finish_spec {W : World} {pending : Nat → List Mode} {l : List Nat} {done done' : Nat → List Mode}
    (h : l.foldlM (finishState W pending) done = .ok done') :
    ∀ k, (k ∉ l → done' k = done k) ∧ (k ∈ l → ∃ b, renormalize (pending k) = .ok (done' k, b) ∧
      (pending k = [] → (W.T k).stable = true)) := by
  induction l using List.reverseRecOn generalizing done' with
  | nil => cases h; simp
  | append_singleton l s ih =>
    obtain ⟨d1, h1, h2⟩ := foldlM_append_ok h
    obtain ⟨ms, b, hr, hs, rfl⟩ := finishState_ok h2
    intro k
    obtain ⟨i1, i2⟩ := ih h1 k
    simp only [List.mem_append, List.mem_singleton]
    constructor
    · intro hk
      rw [not_or] at hk
      simp only [if_neg hk.2]
      exact i1 hk.1
    · intro hk
      by_cases e : k = s
      · subst e; simp only [if_true]; exact ⟨b, hr, hs⟩
      · simp only [if_neg e]
        exact i2 (hk.resolve_right e)

theorem finish_allP {P : Nat → List Nat → Int → Prop} {W : World} {st : St} {l : List Nat}
    {done' : Nat → List Mode} (I : StP P st) (h : l.foldlM (finishState W st.pending) st.done = .ok done') :
    AllP P st.types done' := by
  refine ⟨I.done.1, ?_⟩
  intro k d hd
  obtain ⟨h1, h2⟩ := finish_spec h k
  by_cases hk : k ∈ l
  · obtain ⟨b, hr, -⟩ := h2 hk
    have : d.ty ∈ (done' k).map Mode.ty := List.mem_map_of_mem hd
    rw [renormalize_ty hr] at this
    obtain ⟨d0, e1, e2⟩ := List.mem_map.1 this
    obtain ⟨t, t1, t2⟩ := I.pending.2 k d0 e1
    exact ⟨t, by rw [← e2]; exact t1, t2⟩
  · rw [h1 hk] at hd
    exact I.done.2 k d hd

/-- `P` is preserved by charge conjugation of mother and daughters. -/
def ConjInv (W : World) (P : Nat → List Nat → Int → Prop) : Prop :=
  ∀ s a p L, (W.T s).anti = some a → P s p L → P a (conjugate W p) L

theorem antiState_allP {P : Nat → List Nat → Int → Prop} (hP : PermInv P) {W : World} (hC : ConjInv W P)
    {db db' : DB} {s : Nat} (I : AllP P db.types db.modes) (h : antiState W db s = .ok db') :
    AllP P db'.types db'.modes ∧ Ext db.types db'.types := by
  unfold antiState at h
  cases ha : (W.T s).anti with
  | none => rw [ha] at h; cases h
  | some a =>
    rw [ha] at h
    simp only at h
    refine foldlM_inv (fun db1 : DB => AllP P db1.types db1.modes ∧ Ext db.types db1.types) ?_
      ⟨I, Ext.refl _⟩ h
    rintro db1 m db2 hm ⟨i1, i2⟩ h12
    obtain ⟨t, t1, t2⟩ := I.2 s m hm
    rw [i2.get t1] at h12
    obtain ⟨a1, a2⟩ := addMode_allP hP i1 (hC s a _ _ ha t2) h12
    exact ⟨a1, i2.trans a2⟩

theorem end_P {P : Nat → List Nat → Int → Prop} (hP : PermInv P) {W : World} (hC : ConjInv W P) {st st' : St}
    (I : StP P st) (h : endOfDecaymodes W st = .ok st') : StP P st' := by
  unfold endOfDecaymodes at h
  cases hM : st.mother with
  | none => rw [hM] at h; cases h; exact I
  | some M =>
    rw [hM] at h
    simp only at h
    cases h1 : (W.M M).states.foldlM (finishState W st.pending) st.done with
    | error e => rw [h1] at h; cases h
    | ok done =>
      rw [h1] at h
      have J := finish_allP I h1
      cases hA : (W.M M).hasAnti with
      | false => rw [hA] at h; cases h; exact ⟨J, I.pending⟩
      | true =>
        rw [hA] at h
        cases h2 : (W.M M).states.foldlM (antiState W) ⟨st.types, done⟩ with
        | error e =>
          simp only [bind, Except.bind, if_true, h2] at h
          cases h
        | ok db =>
          simp only [bind, Except.bind, if_true, h2] at h
          cases h
          have K := foldlM_inv (fun db1 : DB => AllP P db1.types db1.modes ∧ Ext st.types db1.types)
            (by
              rintro db1 s db2 - ⟨i1, i2⟩ h12
              obtain ⟨a1, a2⟩ := antiState_allP hP hC i1 h12
              exact ⟨a1, i2.trans a2⟩) ⟨J, Ext.refl _⟩ h2
          exact ⟨K.1, I.pending.ext K.1.1 K.2⟩

/-- What a mode line may add: for the current mother multiplet `M`. -/
structure LineOk (W : World) (P : Nat → List Nat → Int → Prop) : Prop where
  cg2 : ∀ a b m L, 0 < W.cg2 a b m → P m [a, b] L
  cg3 : ∀ a b c m L, 0 < W.cg3 a b c m → P m [a, b, c] L
  state : ∀ m ts L, (ts.length = 2 ∨ ts.length = 3) →
    (W.T m).charge = (ts.map fun t => (W.T t).charge).sum → P m ts L

theorem combos_pos {W : World} {P : Nat → List Nat → Int → Prop} (hL : LineOk W P) {M : Nat} {ds : List Nat}
    {c : Nat × List Nat × ℚ} (h : c ∈ combos W M ds) (hc : 0 < c.2.2) (L : Int) : P c.1 c.2.1 L := by
  unfold combos at h
  split at h
  · simp only [List.mem_flatMap, List.mem_map] at h
    obtain ⟨m, -, a, -, b, -, rfl⟩ := h
    exact hL.cg2 _ _ _ _ hc
  · simp only [List.mem_flatMap, List.mem_map] at h
    obtain ⟨m, -, a, -, b, -, c', -, rfl⟩ := h
    exact hL.cg3 _ _ _ _ _ hc
  · cases h

theorem addCombos_P {P : Nat → List Nat → Int → Prop} (hP : PermInv P) {W : World} (hL : LineOk W P)
    {ratio : ℚ} {L : Int} {st st' : St} {M : Nat} {ds : List Nat} (I : StP P st)
    (h : addCombos W ratio L st (combos W M ds) = .ok st') : StP P st' := by
  unfold addCombos at h
  refine foldlM_inv (StP P) ?_ I h
  intro s1 c s2 hc i h12
  rw [List.mem_filter] at hc
  exact (addPending_P hP i (combos_pos hL hc.1 (by simpa using hc.2) L) h12).1

theorem stateLimits_len {W : World} {s0 : Int} {ts : List Nat} {x : Int × Int}
    (h : stateLimits W s0 ts = .ok x) : ts.length = 2 ∨ ts.length = 3 := by
  unfold stateLimits at h
  split at h
  · simp
  · simp
  · cases h

theorem branch_P {P : Nat → List Nat → Int → Prop} (hP : PermInv P) {W : World} (hL : LineOk W P)
    {st : St} {M : Nat} {ratio : ℚ} {L : Int} {ds : List String} {b : Bool} {r : Read} (I : StP P st)
    (h : (if b = true then multiBranch W st M ratio L (ds.filterMap W.findMult)
      else stateBranch W st M ratio L ds) = .ok r) : StP P r.st := by
  split_ifs at h with hb
  · unfold multiBranch at h
    simp only at h
    split at h
    · split at h
      · cases h
      · split_ifs at h
        rename_i d1 d2 e _ _ _ _
        cases h1 : addCombos W ratio L st (combos W M (ds.filterMap W.findMult)) with
        | error e => rw [h1] at h; cases h
        | ok st1 => rw [h1] at h; cases h; exact addCombos_P hP hL I h1
    · split at h
      · cases h
      · cases h1 : addCombos W ratio L st (combos W M (ds.filterMap W.findMult)) with
        | error e => rw [h1] at h; cases h
        | ok st1 => rw [h1] at h; cases h; exact addCombos_P hP hL I h1
    · cases h
  · unfold stateBranch at h
    cases hts : ds.mapM W.findState with
    | none => rw [hts] at h; cases h
    | some ts =>
      rw [hts] at h
      simp only at h
      cases hl : stateLimits W (W.M M).spin ts with
      | error e => rw [hl] at h; cases h
      | ok x =>
        obtain ⟨lo, hi⟩ := x
        rw [hl] at h
        simp only [bind, Except.bind] at h
        split_ifs at h
        cases h1 : List.foldlM (fun st m => addPending W st m ratio L ts) st
            ((W.M M).states.filter fun m => (W.T m).charge == (ts.map fun t => (W.T t).charge).sum) with
        | error e => rw [h1] at h; cases h
        | ok st1 =>
          rw [h1] at h; cases h
          refine foldlM_inv (StP P) ?_ I h1
          intro s1 m s2 hm i h12
          rw [List.mem_filter] at hm
          exact (addPending_P hP i (hL.state m ts L (stateLimits_len hl) (by simpa using hm.2)) h12).1

theorem finalChecks_st {n : Nat} {p : Bool} {L : Int} {r : Read} {st : St}
    (h : finalChecks n p L r = .ok st) : st = r.st := by
  unfold finalChecks at h
  simp only at h
  split_ifs at h <;> cases h <;> rfl

/-- The steps of a mode line that was accepted. -/
theorem modeLine_ok {W : World} {st st' : St} {ratio : ℚ} {L : Int} {ds : List String}
    (h : modeLine W st ratio L ds = .ok st') : 0 ≤ L ∧ ∃ M b r m0 ms, st.mother = some M ∧
      (W.M M).states = m0 :: ms ∧
      (if b = true then multiBranch W st M ratio L (ds.filterMap W.findMult)
        else stateBranch W st M ratio L ds) = .ok r ∧
      finalChecks ds.length (W.T m0).parity L r = .ok st' ∧
      (b = true ↔ ∀ d ∈ ds, ∃ k, W.findMult d = some k ∧ (W.M k).hadron = true) := by
  unfold modeLine at h
  by_cases hL : L < 0
  · rw [if_pos hL] at h; cases h
  rw [if_neg hL] at h
  refine ⟨not_lt.1 hL, ?_⟩
  cases hd : (ds.any fun d => (W.findMult d).isNone && !W.exists' d) with
  | true => rw [hd] at h; cases h
  | false =>
    rw [hd] at h
    cases hM : st.mother with
    | none => rw [hM] at h; cases h
    | some M =>
      rw [hM] at h
      simp only [bind, Except.bind, pure, Except.pure, Bool.false_eq_true, if_false] at h
      generalize hb : (ds.all fun d => match W.findMult d with
        | some k => (W.M k).hadron
        | none => false) = b at h
      have h' : ∃ r, (if b = true then multiBranch W st M ratio L (ds.filterMap W.findMult)
          else stateBranch W st M ratio L ds) = .ok r ∧ (match (W.M M).states with
            | [] => Except.error Err.ub
            | m0 :: _ => finalChecks ds.length (W.T m0).parity L r) = .ok st' := by
        cases b with
        | true =>
          simp only [if_true] at h ⊢
          cases hr : multiBranch W st M ratio L (ds.filterMap W.findMult) with
          | error e => rw [hr] at h; cases h
          | ok r => rw [hr] at h; exact ⟨r, rfl, h⟩
        | false =>
          simp only [Bool.false_eq_true, if_false] at h ⊢
          cases hr : stateBranch W st M ratio L ds with
          | error e => rw [hr] at h; cases h
          | ok r => rw [hr] at h; exact ⟨r, rfl, h⟩
      obtain ⟨r, hr, h⟩ := h'
      cases hs : (W.M M).states with
      | nil => rw [hs] at h; cases h
      | cons m0 ms =>
        rw [hs] at h
        refine ⟨M, b, r, m0, ms, rfl, hs, hr, h, ?_⟩
        rw [← hb, List.all_eq_true]
        refine forall₂_congr fun d _ => ?_
        cases W.findMult d with
        | none => simp
        | some k => simp

theorem line_P {P : Nat → List Nat → Int → Prop} (hP : PermInv P) {W : World} (hC : ConjInv W P)
    (hL : LineOk W P) {st st' : St} {l : Line} (I : StP P st) (h : lineStep W st l = .ok st') : StP P st' := by
  cases l with
  | «section» name =>
    unfold lineStep sectionLine at h
    simp only at h
    cases h1 : endOfDecaymodes W st with
    | error e => rw [h1] at h; cases h
    | ok st1 =>
      rw [h1] at h
      simp only [bind, Except.bind] at h
      cases hf : W.findMult name with
      | none => rw [hf] at h; cases h
      | some M =>
        rw [hf] at h
        simp only at h
        have J := end_P hP hC I h1
        split_ifs at h
        cases h
        exact ⟨J.done, J.done.1, by simp⟩
  | mode ratio L ds =>
    obtain ⟨-, M, b, r, m0, ms, -, -, h1, h2, -⟩ := modeLine_ok h
    have := branch_P hP hL I h1
    rw [finalChecks_st h2]
    exact this

theorem load_ok {W : World} {lines : List Line} {db : DB} (h : load W lines = .ok db) :
    ∃ st1 st, lines.foldlM (lineStep W) St.init = .ok st1 ∧ endOfDecaymodes W st1 = .ok st ∧
      db = ⟨st.types, st.done⟩ ∧ massCheck W db = true := by
  unfold load at h
  cases h1 : lines.foldlM (lineStep W) St.init with
  | error e => rw [h1] at h; cases h
  | ok st1 =>
    rw [h1] at h
    simp only [bind, Except.bind] at h
    cases h2 : endOfDecaymodes W st1 with
    | error e => rw [h2] at h; cases h
    | ok st =>
      rw [h2] at h
      simp only at h
      split_ifs at h with hm
      cases h
      exact ⟨st1, st, rfl, h2, rfl, hm⟩

theorem load_P {P : Nat → List Nat → Int → Prop} (hP : PermInv P) {W : World} (hC : ConjInv W P)
    (hL : LineOk W P) {lines : List Line} {db : DB} (h : load W lines = .ok db) :
    AllP P db.types db.modes := by
  obtain ⟨st1, st, h1, h2, rfl, -⟩ := load_ok h
  have h0 : StP P St.init := by
    refine ⟨⟨?_, ?_⟩, ?_, ?_⟩ <;> simp [St.init, TypesOk]
  have i1 := foldlM_inv (StP P) (fun b a b' _ hb hs => line_P hP hC hL hb hs) h0 h1
  exact (end_P hP hC i1 h2).done

/-- Charges of particles and antiparticles are opposite. -/
def ChargeConj (W : World) : Prop := ∀ s, match (W.T s).anti with
  | some a => (W.T a).charge = -(W.T s).charge
  | none => (W.T s).charge = 0

theorem conj_charge {W : World} (h : ChargeConj W) (p : List Nat) :
    ((conjugate W p).map fun t => (W.T t).charge).sum = -(p.map fun t => (W.T t).charge).sum := by
  unfold conjugate
  induction p with
  | nil => rfl
  | cons t p ih =>
    simp only [List.map_cons, List.sum_cons] at *
    rw [ih]
    have := h t
    cases ha : (W.T t).anti with
    | none => rw [ha] at this; simp only at this; simp only [Option.getD_none]; omega
    | some a => rw [ha] at this; simp only at this; simp only [Option.getD_some]; omega

/-- **C71** (part): if isospin coefficients are non-zero only for combinations that conserve charge,
all loaded decay modes, including the ones generated for antiparticles, conserve charge, have two or
three daughters, and (for unstable particles) daughters light enough. The hypothesis on the
coefficients is not met for every input file, see `C71_charge_violated`. -/
theorem C71_loaded_partial (W : World) (lines : List Line) (db : DB) (h : load W lines = .ok db)
    (hcc : ChargeConj W)
    (h2 : ∀ a b m, 0 < W.cg2 a b m → (W.T a).charge + (W.T b).charge = (W.T m).charge)
    (h3 : ∀ a b c m, 0 < W.cg3 a b c m →
      (W.T a).charge + (W.T b).charge + (W.T c).charge = (W.T m).charge) :
    ∀ m, ∀ d ∈ db.modes m, ∃ t, db.types[d.ty]? = some t ∧
      (t.parts.length = 2 ∨ t.parts.length = 3) ∧
      (t.parts.map fun p => (W.T p).charge).sum = (W.T m).charge ∧
      (m < W.n → (W.T m).stable = false → (t.parts.map fun p => (W.T p).minMass).sum < (W.T m).mass) := by
  intro m d hd
  have A := load_P (P := fun m p _ => (p.map fun t => (W.T t).charge).sum = (W.T m).charge)
    (fun m p p' L hp h => by simp only at h ⊢; rw [← h]; exact ((hp.map _).sum_eq).symm)
    (fun s a p L ha h => by
      have hs := hcc s
      rw [ha] at hs
      simp only at hs
      simp only at h ⊢
      rw [conj_charge hcc, hs, h])
    ⟨fun a b m L h => by simpa using h2 a b m h,
     fun a b c m L h => by have := h3 a b c m h; simp only [List.map_cons, List.map_nil, List.sum_cons, List.sum_nil]; omega,
     fun m ts L _ h => h.symm⟩ h
  obtain ⟨t, t1, t2⟩ := A.2 m d hd
  refine ⟨t, t1, ?_, t2, ?_⟩
  · rcases A.1 t (List.mem_of_getElem? t1) with h | h
    · exact .inl h
    · exact .inr h.1
  · intro hm hs
    obtain ⟨-, -, -, -, -, hmc⟩ := load_ok h
    unfold massCheck at hmc
    rw [List.all_eq_true] at hmc
    have := hmc m (List.mem_range.2 hm)
    rw [hs, Bool.false_or, List.all_eq_true] at this
    have := this d hd
    rw [t1] at this
    exact of_decide_eq_true this

end Verif.Decay
