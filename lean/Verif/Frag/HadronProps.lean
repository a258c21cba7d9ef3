import Verif.Frag.Hadron
import Verif.Frag.Ends
import Mathlib.Algebra.Order.AbsoluteValue.Basic
import Mathlib.Tactic.NormNum
import Mathlib.Tactic.Positivity
import Mathlib.Tactic.FieldSimp
import Mathlib.Tactic.Ring
/-
C87, C88, C90: hadrons from string ends, scaling factors of string fragments, mapping to PYTHIA's
beam particles.
-/
set_option linter.unusedSimpArgs false
set_option linter.unnecessarySeqFocus false
set_option linter.unusedVariables false
namespace Verif.Frag

/-! ### C87 -/

/-- A hadron carries the same conserved charges as a set of quarks with these net numbers:
isospin projection, strangeness, charm and bottom. -/
def Carries (q : Fin 5 → Int) (d : Nat) : Prop :=
  Pdg.netQuark d 2 - Pdg.netQuark d 1 = q 1 - q 0 ∧ Pdg.netQuark d 3 = q 2 ∧
  Pdg.netQuark d 4 = q 3 ∧ Pdg.netQuark d 5 = q 4

theorem sameFlavour_iff (q : Fin 5 → Int) (d : Nat) : sameFlavour q d = true ↔ Carries q d := by
  unfold sameFlavour Carries Pdg.isospin3 Pdg.strangeness Pdg.charmness Pdg.bottomness
  simp only [Bool.and_eq_true, beq_iff_eq]
  constructor
  · rintro ⟨⟨⟨h1, h2⟩, h3⟩, h4⟩; exact ⟨h1, by omega, h3, by omega⟩
  · rintro ⟨h1, h2, h3, h4⟩; exact ⟨⟨⟨h1, by omega⟩, h3⟩, by omega⟩

theorem endsNet_eq {a b : Int} (ha : Parton a) (hb : Parton b) (j : Fin 5) :
    endsNet a b j = net [a, b] j := by
  rw [net_cons]
  unfold endsNet net
  rw [nQuarks_eq ha, nQuarks_eq hb, quarks_single, antiquarks_single, quarks_single, antiquarks_single]
  unfold q1 a1
  split_ifs <;> omega

theorem good_parton {e : Int × Int} (h : GoodEnds e) : Parton e.1 ∧ Parton e.2 := by
  unfold GoodEnds IsDiquark at h
  unfold Parton
  obtain ⟨h1 | h1, h2 | h2⟩ := h
  · exact ⟨Or.inr (Or.inl (by omega)), Or.inr (Or.inl (by omega))⟩
  · exact ⟨Or.inr (Or.inl (by omega)), Or.inr (Or.inr (by omega))⟩
  · exact ⟨Or.inr (Or.inr (by omega)), Or.inr (Or.inl (by omega))⟩
  · exact ⟨Or.inr (Or.inr (by omega)), Or.inr (Or.inr (by omega))⟩

theorem closest_mem (mass : Rat) : ∀ (l : List PType) (best : PType) (diff : Rat),
    closest mass best diff l = best ∨ closest mass best diff l ∈ l := by
  intro l
  induction l with
  | nil => intro b d; exact Or.inl rfl
  | cons t l ih =>
    intro b d
    simp only [closest]
    split_ifs
    · rcases ih t (mass - t.mass) with h | h
      · right; rw [h]; exact List.mem_cons_self ..
      · right; exact List.mem_cons_of_mem _ h
    · rcases ih b d with h | h
      · exact Or.inl h
      · right; exact List.mem_cons_of_mem _ h

/-- The net number of quarks of two ends. -/
theorem baryonType_eq {e : Int × Int} (he : GoodEnds e) :
    baryonType e.1 + baryonType e.2 = ∑ j, net [e.1, e.2] j := by
  have one : ∀ a, (1 ≤ a.natAbs ∧ a.natAbs ≤ 5) ∨ IsDiquark a.natAbs → baryonType a = ∑ j, net [a] j := by
    intro a ha
    have hs : ∑ j, net [a] j = (if a > 0 then 1 else -1) * ∑ j : Fin 5, ((constituents a).count (j.val + 1) : Int) := by
      rw [Finset.mul_sum]
      apply Finset.sum_congr rfl
      intro j _
      unfold net
      rw [quarks_single, antiquarks_single]
      unfold q1 a1
      split_ifs <;> omega
    rw [hs]
    rcases ha with ha | ha
    · have hq : isQuark a = true := by unfold isQuark; simp; omega
      unfold baryonType
      rw [if_pos hq, Finset.sum_congr rfl fun j _ => cnt_quark ha j, tot_unit a ha]
      split_ifs <;> rfl
    · unfold IsDiquark at ha
      have h1 : isQuark a = false := by unfold isQuark; simp; omega
      have h2 : isDiquark a = true := by unfold isDiquark; simp; omega
      have hd : 1000 < a.natAbs ∧ a.natAbs < 10000 ∧ a.natAbs / 10 % 10 = 0 := by omega
      have u1 := tot_unit ((a.natAbs / 1000 : Nat) : Int) (by rw [Int.natAbs_natCast]; omega)
      have u2 := tot_unit ((a.natAbs / 100 % 10 : Nat) : Int) (by rw [Int.natAbs_natCast]; omega)
      unfold unit at u1 u2
      simp only [Int.natAbs_natCast] at u1 u2
      unfold baryonType
      rw [if_neg (by simp [h1]), if_pos h2, Finset.sum_congr rfl fun j _ => cnt_diquark hd j,
        Finset.sum_add_distrib, u1, u2]
      split_ifs <;> rfl
  have e1 : ∑ j, net [e.1, e.2] j = ∑ j, net [e.1] j + ∑ j, net [e.2] j := by
    rw [← Finset.sum_add_distrib]
    exact Finset.sum_congr rfl fun j _ => net_cons ..
  rw [e1, one e.1, one e.2]
  · rcases he.2 with h | h
    · exact Or.inl (by omega)
    · exact Or.inr h.2
  · rcases he.1 with h | h
    · exact Or.inl (by omega)
    · exact Or.inr h.2

theorem stringBaryon_iff {e : Int × Int} (he : GoodEnds e) (b : Int) :
    stringBaryon e.1 e.2 = some b ↔ (0 < e.1 ∨ e.2 < 0) ∧ 3 * b = ∑ j, net [e.1, e.2] j := by
  rw [← baryonType_eq he]
  obtain ⟨h1, h2⟩ := he
  unfold IsDiquark at h1 h2
  unfold stringBaryon baryonType
  rcases h1 with h1 | h1 <;> rcases h2 with h2 | h2
  · have a1 : isQuark e.1 = true := by unfold isQuark; simp; omega
    have a2 : isQuark e.2 = true := by unfold isQuark; simp; omega
    rw [if_pos ⟨by omega, a1⟩, if_pos ⟨by omega, a2⟩, if_pos a1, if_pos a2, if_pos (by omega), if_neg (by omega)]
    simp only [Option.some.injEq]
    omega
  · have a1 : isQuark e.1 = true := by unfold isQuark; simp; omega
    have a2 : isQuark e.2 = false := by unfold isQuark; simp; omega
    have a3 : isDiquark e.2 = true := by unfold isDiquark; simp; omega
    have g1 : e.1 > 0 := by omega
    have g2 : e.2 > 0 := h2.1
    simp only [a1, a2, a3, g1, g2, and_true, and_false, if_true, if_false, Bool.false_eq_true, Option.some.injEq,
      true_or, true_and]
    omega
  · have a1 : isQuark e.1 = false := by unfold isQuark; simp; omega
    have a2 : isDiquark e.1 = true := by unfold isDiquark; simp; omega
    have a3 : isQuark e.2 = true := by unfold isQuark; simp; omega
    rw [if_neg (by simp [a1]), if_pos ⟨by omega, a2⟩, if_pos ⟨by omega, a3⟩, if_neg (by simp [a1]), if_pos a2,
      if_pos a3, if_neg (by omega), if_neg (by omega)]
    simp only [Option.some.injEq]
    omega
  · have a1 : isQuark e.1 = false := by unfold isQuark; simp; omega
    have a2 : isDiquark e.1 = true := by unfold isDiquark; simp; omega
    have a3 : isQuark e.2 = false := by unfold isQuark; simp; omega
    rw [if_neg (by simp [a1]), if_pos ⟨by omega, a2⟩, if_neg (by simp [a3])]
    simp only [reduceCtorEq, false_iff, not_and]
    omega

/-- The resonances a string with these ends and mass may turn into: at least one of the ends is a single quark
or antiquark, and the resonance has the net number of quarks and the flavour of the ends. -/
def Admissible (types : List PType) (e : Int × Int) (mass : Rat) (t : PType) : Prop :=
  t ∈ types ∧ Pdg.isHadron t.code = true ∧ t.stable = false ∧ t.minMass ≤ mass ∧
  (0 < e.1 ∨ e.2 < 0) ∧ 3 * Pdg.baryonNumber t.code = ∑ j, net [e.1, e.2] j ∧ Carries (net [e.1, e.2]) t.code

theorem mem_candidates {types : List PType} {e : Int × Int} (he : GoodEnds e) {b : Int} {mass : Rat}
    (hb : stringBaryon e.1 e.2 = some b) {t : PType} :
    t ∈ candidates types b (endsNet e.1 e.2) mass ↔ Admissible types e mass t := by
  obtain ⟨p1, p2⟩ := good_parton he
  have hq : endsNet e.1 e.2 = net [e.1, e.2] := funext fun j => endsNet_eq p1 p2 j
  unfold candidates Admissible
  obtain ⟨b1, b2⟩ := (stringBaryon_iff he b).1 hb
  rw [List.mem_filter, hq, ← b2]
  simp only [Bool.and_eq_true, sameFlavour_iff, beq_iff_eq, Bool.not_eq_true', decide_eq_false_iff_not, not_lt]
  constructor
  · rintro ⟨h1, ⟨⟨⟨h2, h3⟩, h4⟩, h5⟩, h6⟩; exact ⟨h1, h2, h3, h5, b1, by omega, h6⟩
  · rintro ⟨h1, h2, h3, h5, -, h4, h6⟩; exact ⟨h1, ⟨⟨⟨h2, h3⟩, by omega⟩, h5⟩, h6⟩

/-- C87: a string turned into a resonance gives a resonance with the baryon number and the flavour of
the ends whose threshold is not above the mass. -/
theorem C87_resonance {pion : Rat} {types : List PType} {e : Int × Int} {mass : Rat} {t : PType}
    (he : GoodEnds e) (h : resonance pion types e.1 e.2 mass = some t) : Admissible types e mass t := by
  unfold resonance at h
  split_ifs at h
  obtain ⟨b, hb, h⟩ := Option.bind_eq_some_iff.mp h
  have hm : ∀ t, t ∈ candidates types b (endsNet e.1 e.2) mass → Admissible types e mass t :=
    fun t ht => (mem_candidates he hb).mp ht
  cases hc : candidates types b (endsNet e.1 e.2) mass with
  | nil => rw [hc] at h; simp at h
  | cons c l =>
    rw [hc] at h hm
    simp only [Option.some.injEq] at h
    subst h
    rcases closest_mem mass l c |mass - c.mass| with h | h
    · rw [h]; exact hm c (List.mem_cons_self ..)
    · exact hm _ (List.mem_cons_of_mem _ h)

/-- C87: a resonance is found exactly when there is one, for every mass from the pion mass on. -/
theorem C87_found {pion : Rat} {types : List PType} {e : Int × Int} {mass : Rat} (he : GoodEnds e) :
    (∃ t, resonance pion types e.1 e.2 mass = some t) ↔
      pion ≤ mass ∧ ∃ t, Admissible types e mass t := by
  constructor
  · rintro ⟨t, ht⟩
    refine ⟨?_, t, C87_resonance he ht⟩
    unfold resonance at ht
    split_ifs at ht with h
    exact not_lt.mp h
  · rintro ⟨hm, t, ht⟩
    have hb := (stringBaryon_iff he (Pdg.baryonNumber t.code)).2 ⟨ht.2.2.2.2.1, ht.2.2.2.2.2.1⟩
    have hmem := (mem_candidates he hb).mpr ht
    unfold resonance
    rw [if_neg (not_lt.mpr hm), hb, Option.bind_some]
    cases hc : candidates types (Pdg.baryonNumber t.code) (endsNet e.1 e.2) mass with
    | nil => rw [hc] at hmem; simp at hmem
    | cons c l => exact ⟨_, rfl⟩

theorem closest_spec (mass : Rat) : ∀ (l : List PType) (best : PType),
    (∀ t ∈ l, t.mass ≤ mass) →
    |mass - (closest mass best |mass - best.mass| l).mass| ≤ |mass - best.mass| ∧
    ∀ t ∈ l, |mass - (closest mass best |mass - best.mass| l).mass| ≤ |mass - t.mass| := by
  intro l
  induction l with
  | nil => intro b _; exact ⟨le_refl _, by simp⟩
  | cons t l ih =>
    intro b h
    simp only [closest]
    by_cases hc : |mass - t.mass| < |mass - b.mass|
    · rw [if_pos hc]
      have ht : mass - t.mass = |mass - t.mass| :=
        (abs_of_nonneg (sub_nonneg.mpr (h t (List.mem_cons_self ..)))).symm
      obtain ⟨h1, h2⟩ := ih t (fun x hx => h x (List.mem_cons_of_mem _ hx))
      rw [show closest mass t (mass - t.mass) l = closest mass t |mass - t.mass| l by rw [← ht]]
      refine ⟨le_trans h1 (le_of_lt hc), ?_⟩
      intro x hx
      rcases List.mem_cons.mp hx with rfl | hx
      · exact h1
      · exact h2 x hx
    · rw [if_neg hc]
      obtain ⟨h1, h2⟩ := ih b (fun x hx => h x (List.mem_cons_of_mem _ hx))
      refine ⟨h1, ?_⟩
      intro x hx
      rcases List.mem_cons.mp hx with rfl | hx
      · exact le_trans h1 (not_lt.mp hc)
      · exact h2 x hx

/-- C87, partial: the resonance is the one with the closest pole mass, provided that no admissible
pole mass is above the mass of the string. -/
theorem C87_closest_partial {pion : Rat} {types : List PType} {e : Int × Int} {mass : Rat} {t : PType}
    (he : GoodEnds e) (h : resonance pion types e.1 e.2 mass = some t)
    (hall : ∀ s, Admissible types e mass s → s.mass ≤ mass) :
    ∀ s, Admissible types e mass s → |mass - t.mass| ≤ |mass - s.mass| := by
  intro s hs
  unfold resonance at h
  split_ifs at h
  obtain ⟨b, hb, h⟩ := Option.bind_eq_some_iff.mp h
  have hm : ∀ t, t ∈ candidates types b (endsNet e.1 e.2) mass ↔ Admissible types e mass t :=
    fun t => mem_candidates he hb
  cases hc : candidates types b (endsNet e.1 e.2) mass with
  | nil => rw [hc] at h; simp at h
  | cons c l =>
    rw [hc] at h hm
    simp only [Option.some.injEq] at h
    subst h
    obtain ⟨h1, h2⟩ := closest_spec mass l c (fun t ht => hall t ((hm t).mp (List.mem_cons_of_mem _ ht)))
    rcases List.mem_cons.mp ((hm s).mpr hs) with rfl | hs
    · exact h1
    · exact h2 s hs

/-- Excited nucleons: N(1440), N(1680), N(1535) of charge 1 with u and ud as ends. -/
def nStars : List PType :=
  [⟨0x12212, false, 1, 0, true⟩, ⟨0x12216, false, 17 / 10, 0, true⟩, ⟨0x22212, false, 31 / 20, 0, true⟩]

/-- C87 is false in general: once a resonance above the string mass has been the closest so far, no
later one is considered. Here the pole masses are 1, 1.7 and 1.55, the mass is 1.5 and 1.7 is chosen. -/
theorem C87_closest_false : ∃ types e mass t s, GoodEnds e ∧
    resonance (138 / 1000) types e.1 e.2 mass = some t ∧ Admissible types e mass s ∧
    |mass - s.mass| < |mass - t.mass| := by
  have he : GoodEnds (2, 2101) := by unfold GoodEnds; decide
  have hc : candidates nStars 1 (endsNet 2 2101) (3 / 2) = nStars := by
    unfold nStars; decide +kernel
  have hb : stringBaryon 2 2101 = some 1 := by decide
  refine ⟨nStars, (2, 2101), 3 / 2, ⟨0x12216, false, 17 / 10, 0, true⟩, ⟨0x22212, false, 31 / 20, 0, true⟩,
    he, ?_, (mem_candidates (e := (2, 2101)) he hb).mp (by rw [hc]; simp [nStars]), ?_⟩
  · unfold resonance
    rw [if_neg (by norm_num), hb, Option.bind_some, hc]
    simp only [nStars, closest]
    rw [if_pos (by norm_num [abs_lt, lt_abs]), if_neg]
    norm_num [abs_lt]
  · norm_num [abs_lt, lt_abs]

example : ∃ t, resonance (138 / 1000) (nStars.take 1) 2 2101 (3 / 2) = some t := by
  refine ⟨⟨0x12212, false, 1, 0, true⟩, ?_⟩
  have hc : candidates (nStars.take 1) 1 (endsNet 2 2101) (3 / 2) = nStars.take 1 := by
    unfold nStars; decide +kernel
  have hb : stringBaryon 2 2101 = some 1 := by decide
  unfold resonance
  rw [if_neg (by norm_num), hb, Option.bind_some, hc]
  rfl

theorem select_mem (w : PType → Rat) (u : Rat) : ∀ (l : List PType) (s : Rat) (t : PType),
    selectByWeight w u s l = some t → t ∈ l := by
  intro l
  induction l with
  | nil => intro s t h; simp [selectByWeight] at h
  | cons a l ih =>
    intro s t h
    simp only [selectByWeight] at h
    split_ifs at h
    · simp only [Option.some.injEq] at h; rw [h]; exact List.mem_cons_self ..
    · exact List.mem_cons_of_mem _ (ih _ _ h)

theorem select_some (w : PType → Rat) (u : Rat) : ∀ (l : List PType) (s : Rat), s ≤ u →
    u < s + (l.map w).sum → ∃ t, selectByWeight w u s l = some t := by
  intro l
  induction l with
  | nil => intro s h1 h2; simp at h2; exact absurd h1 (not_le.mpr h2)
  | cons a l ih =>
    intro s h1 h2
    simp only [selectByWeight]
    by_cases h : s ≤ u ∧ u < s + w a
    · rw [if_pos h]; exact ⟨_, rfl⟩
    · rw [if_neg h]
      refine ih _ (not_lt.mp fun hc => h ⟨h1, hc⟩) ?_
      rw [List.map_cons, List.sum_cons] at h2
      linarith

/-- C87: the leading hadron made from two ends without PYTHIA's help has their net number of quarks
(three times its baryon number) and their flavour; one is found whenever the random number is below the
sum of the weights. -/
theorem C87_leading {deg : PType → Rat} {types : List PType} {e : Int × Int} (he : GoodEnds e) (u : Rat) :
    (∀ t, hadronType deg types e.1 e.2 u = some t → t ∈ types ∧ Pdg.isHadron t.code = true ∧
      3 * Pdg.baryonNumber t.code = ∑ j, net [e.1, e.2] j ∧ Carries (net [e.1, e.2]) t.code) ∧
    (0 ≤ u → u < ((possible types e.1 e.2).map fun t => deg t / t.mass).sum →
      ∃ t, hadronType deg types e.1 e.2 u = some t) := by
  obtain ⟨p1, p2⟩ := good_parton he
  have hq : endsNet e.1 e.2 = net [e.1, e.2] := funext fun j => endsNet_eq p1 p2 j
  refine ⟨fun t ht => ?_, fun h0 h1 => select_some _ _ _ _ h0 (by simpa using h1)⟩
  have := select_mem _ _ _ _ _ ht
  unfold possible at this
  rw [List.mem_filter, hq] at this
  simp only [Bool.and_eq_true, sameFlavour_iff, beq_iff_eq] at this
  obtain ⟨h1, ⟨⟨h2, -⟩, h3⟩, h4⟩ := this
  exact ⟨h1, h2, by rw [← h3, baryonType_eq he], h4⟩

/-! ### C88 -/

theorem first_spec (n : Int) : ∀ l : List Kind, (∃ k ∈ l, enough k n = true) →
    ∃ k, l[firstIndex n l]? = some k ∧ enough k n = true ∧
      ∀ (i : Nat) k', i < firstIndex n l → l[i]? = some k' → enough k' n = false := by
  intro l
  induction l with
  | nil => rintro ⟨k, hk, -⟩; simp at hk
  | cons a l ih =>
    rintro ⟨k, hk, he⟩
    simp only [firstIndex]
    by_cases h : enough a n = true
    · rw [if_pos h]
      exact ⟨a, rfl, h, fun i k' hi => absurd hi (by omega)⟩
    · rw [if_neg h]
      rcases List.mem_cons.mp hk with rfl | hk
      · exact absurd he h
      · obtain ⟨k1, h1, h2, h3⟩ := ih ⟨k, hk, he⟩
        refine ⟨k1, by simpa using h1, h2, ?_⟩
        intro i k' hi hk'
        cases i with
        | zero => simp at hk'; rw [← hk']; simpa using h
        | succ i => exact h3 i k' (by omega) (by simpa using hk')

/-- The sum of the baryon numbers of the fragments. -/
def totalBaryon (l : List Kind) : Int := (l.map Kind.number).sum

theorem exists_number {l : List Kind} (h : totalBaryon l ≠ 0) :
    (0 < totalBaryon l → Kind.baryon ∈ l) ∧ (totalBaryon l < 0 → Kind.antibaryon ∈ l) := by
  clear h
  induction l with
  | nil => constructor <;> intro h <;> simp [totalBaryon] at h
  | cons a l ih =>
    have e : totalBaryon (a :: l) = a.number + totalBaryon l := by simp [totalBaryon]
    cases a with
    | baryon =>
      refine ⟨fun _ => List.mem_cons_self .., fun h => List.mem_cons_of_mem _ (ih.2 ?_)⟩
      rw [e] at h; simp [Kind.number] at h; omega
    | antibaryon =>
      refine ⟨fun h => List.mem_cons_of_mem _ (ih.1 ?_), fun _ => List.mem_cons_self ..⟩
      rw [e] at h; simp [Kind.number] at h; omega
    | meson =>
      refine ⟨fun h => List.mem_cons_of_mem _ (ih.1 ?_), fun h => List.mem_cons_of_mem _ (ih.2 ?_)⟩ <;>
        (rw [e] at h; simpa [Kind.number] using h)

/-- In a mesonic string there is a fragment for a quark and one for an antiquark. -/
theorem exists_meson {l : List Kind} (hne : l ≠ []) (h : totalBaryon l = 0) :
    (∃ k ∈ l, enough k 1 = true) ∧ ∃ k ∈ l, enough k (-1) = true := by
  cases l with
  | nil => exact absurd rfl hne
  | cons a l =>
    have e : totalBaryon (a :: l) = a.number + totalBaryon l := by simp [totalBaryon]
    rw [e] at h
    cases a with
    | meson => exact ⟨⟨_, List.mem_cons_self .., rfl⟩, ⟨_, List.mem_cons_self .., rfl⟩⟩
    | baryon =>
      simp [Kind.number] at h
      exact ⟨⟨_, List.mem_cons_self .., rfl⟩,
        ⟨_, List.mem_cons_of_mem _ ((exists_number (by omega)).2 (by omega)), rfl⟩⟩
    | antibaryon =>
      simp [Kind.number] at h
      exact ⟨⟨_, List.mem_cons_of_mem _ ((exists_number (by omega)).1 (by omega)), rfl⟩,
        ⟨_, List.mem_cons_self .., rfl⟩⟩

/-- Position `i` holds the first fragment, position `k` the last, that can contain the given numbers of
the string's quarks. -/
structure Leading (kinds : List Kind) (n m : Int) (i k : Nat) : Prop where
  first : ∃ a, kinds[i]? = some a ∧ enough a n = true
  before : ∀ (x : Nat) a, x < i → kinds[x]? = some a → enough a n = false
  last : ∃ a, kinds[k]? = some a ∧ enough a m = true
  after : ∀ (x : Nat) a, k < x → kinds[x]? = some a → enough a m = false

theorem leading_spec {kinds : List Kind} {n m : Int} (hn : ∃ k ∈ kinds, enough k n = true)
    (hm : ∃ k ∈ kinds, enough k m = true) :
    ∃ i k : Nat, findLeading n m kinds = ((i : Int), (k : Int)) ∧ Leading kinds n m i k := by
  obtain ⟨a, h1, h2, h3⟩ := first_spec n kinds hn
  obtain ⟨b, g1, g2, g3⟩ := first_spec m kinds.reverse (by
    obtain ⟨k, hk, he⟩ := hm; exact ⟨k, List.mem_reverse.mpr hk, he⟩)
  have hlt : firstIndex m kinds.reverse < kinds.length := by
    have := (List.getElem?_eq_some_iff.mp g1).1
    rwa [List.length_reverse] at this
  refine ⟨firstIndex n kinds, kinds.length - 1 - firstIndex m kinds.reverse, ?_, ⟨a, h1, h2⟩, h3, ?_, ?_⟩
  · unfold findLeading
    refine Prod.ext rfl ?_
    dsimp only
    omega
  · refine ⟨b, ?_, g2⟩
    rw [List.getElem?_reverse hlt] at g1
    exact g1
  · intro x c hx hc
    have hxl := (List.getElem?_eq_some_iff.mp hc).1
    refine g3 (kinds.length - 1 - x) c (by omega) ?_
    rw [List.getElem?_reverse (by omega), show kinds.length - 1 - (kinds.length - 1 - x) = x by omega]
    exact hc

/-- The numbers of quarks at the two ends of a string. -/
def endNumbers (b n m : Int) : Prop :=
  (b = 0 ∧ (n = -1 ∧ m = 1 ∨ n = 1 ∧ m = -1)) ∨ (b = 1 ∧ n = 2 ∧ m = 1) ∨ (b = -1 ∧ n = -2 ∧ m = -1)

/-- The fraction of the cross section a leading fragment starts with: the share of its valence quarks
that come from the string end. -/
def share (k : Kind) (n : Int) : Rat := if k = Kind.meson then 1 / 2 else (n.natAbs : Rat) / 3

theorem scaling_share {k : Kind} {n : Int} (h : enough k n = true) (s : Rat) :
    scaling n k s = s * share k n := by
  cases k
  · simp [scaling, share, Kind.number]; ring
  · unfold enough at h; simp at h
    rcases h with rfl | rfl <;> simp [scaling, share, Kind.number] <;> ring
  · unfold enough at h; simp at h
    rcases h with rfl | rfl <;> simp [scaling, share, Kind.number] <;> ring

theorem assign_eq {n m : Int} {s : Rat} {kinds : List Kind} {i k : Nat} (h : Leading kinds n m i k) :
    ∃ a b, kinds[i]? = some a ∧ kinds[k]? = some b ∧
    (assign n s kinds i (List.replicate kinds.length 0)).bind (assign m s kinds k) =
      some (((List.replicate kinds.length 0).set i (s * share a n)).set k (s * share b m)) := by
  obtain ⟨a, ha, ha'⟩ := h.first
  obtain ⟨b, hb, hb'⟩ := h.last
  refine ⟨a, b, ha, hb, ?_⟩
  unfold assign
  have hi : (0 : Int) ≤ (i : Int) := by omega
  have hk : (0 : Int) ≤ (k : Int) := by omega
  simp only [if_pos hi, if_pos hk, Int.toNat_natCast, ha, hb, Option.map_some, Option.bind_some, scaling_share ha',
    scaling_share hb']

/-- C88: for every string of baryon number 0, 1 or -1 and every list of hadrons with that total baryon
number, exactly the two leading fragments (sorted along the string) get a non-zero cross section factor:
the first and the last that can contain the quarks of the end; it is the suppression factor times the share
of their valence quarks; if both are the same fragment the second end counts. -/
theorem C88_leading {b : Int} (hb : b = 0 ∨ b = 1 ∨ b = -1) {kinds : List Kind} (hne : kinds ≠ [])
    (ht : totalBaryon kinds = b) (s : Rat) :
    ∃ n m i k a c, endNumbers b n m ∧ Leading kinds n m i k ∧ kinds[i]? = some a ∧ kinds[k]? = some c ∧
      assignAll b kinds s = some (some
        (((List.replicate kinds.length 0).set i (s * share a n)).set k (s * share c m))) := by
  unfold assignAll
  rcases hb with rfl | rfl | rfl
  · obtain ⟨h1, h2⟩ := exists_meson hne ht
    obtain ⟨i, k, e1, l1⟩ := leading_spec h2 h1
    obtain ⟨i', k', e2, l2⟩ := leading_spec h1 h2
    simp only [if_true, Option.map_some, true_and]
    rw [e1, e2]
    dsimp only
    by_cases hc : (k : Int) - i < k' - i'
    · rw [if_pos hc]
      obtain ⟨a, c, ha, hc', hs⟩ := assign_eq (s := s) l2
      exact ⟨1, -1, i', k', a, c, Or.inl ⟨rfl, Or.inr ⟨rfl, rfl⟩⟩, l2, ha, hc', by rw [hs]⟩
    · rw [if_neg hc]
      obtain ⟨a, c, ha, hc', hs⟩ := assign_eq (s := s) l1
      exact ⟨-1, 1, i, k, a, c, Or.inl ⟨rfl, Or.inl ⟨rfl, rfl⟩⟩, l1, ha, hc', by rw [hs]⟩
  · have hm : Kind.baryon ∈ kinds := (exists_number (by rw [ht]; decide)).1 (by rw [ht]; decide)
    obtain ⟨i, k, e1, l1⟩ := leading_spec (n := 2) (m := 1) ⟨_, hm, rfl⟩ ⟨_, hm, rfl⟩
    obtain ⟨a, c, ha, hc', hs⟩ := assign_eq (s := s) l1
    refine ⟨2, 1, i, k, a, c, Or.inr (Or.inl ⟨rfl, rfl, rfl⟩), l1, ha, hc', ?_⟩
    simp only [one_ne_zero, if_false, if_true, Option.map_some, false_and]
    rw [e1]
    dsimp only
    rw [hs]
  · have hm : Kind.antibaryon ∈ kinds := (exists_number (by rw [ht]; decide)).2 (by rw [ht]; decide)
    obtain ⟨i, k, e1, l1⟩ := leading_spec (n := -2) (m := -1) ⟨_, hm, rfl⟩ ⟨_, hm, rfl⟩
    obtain ⟨a, c, ha, hc', hs⟩ := assign_eq (s := s) l1
    refine ⟨-2, -1, i, k, a, c, Or.inr (Or.inr ⟨rfl, rfl, rfl⟩), l1, ha, hc', ?_⟩
    rw [if_neg (by decide), if_neg (by decide), if_pos rfl, Option.map_some]
    dsimp only
    rw [if_neg (fun h => absurd h.1 (by decide)), e1]
    dsimp only
    rw [hs]

/-- C88: for a mesonic string the ends are distributed such that the leading fragments are as far apart
as possible. -/
theorem C88_distance {kinds : List Kind} (hne : kinds ≠ []) (ht : totalBaryon kinds = 0) (s : Rat)
    {i k i' k' : Nat} (h : Leading kinds (-1) 1 i k) (h' : Leading kinds 1 (-1) i' k') :
    ∃ f, assignAll 0 kinds s = some (some f) ∧
      if (k : Int) - i < k' - i' then ∃ a c, kinds[i']? = some a ∧ kinds[k']? = some c ∧
        f = ((List.replicate kinds.length 0).set i' (s * share a 1)).set k' (s * share c (-1))
      else ∃ a c, kinds[i]? = some a ∧ kinds[k]? = some c ∧
        f = ((List.replicate kinds.length 0).set i (s * share a (-1))).set k (s * share c 1) := by
  have uniq : ∀ {n m : Int} {i k i' k' : Nat}, Leading kinds n m i k → Leading kinds n m i' k' →
      i = i' ∧ k = k' := by
    intro n m i k i' k' g g'
    obtain ⟨a, a1, a2⟩ := g.first
    obtain ⟨a', a1', a2'⟩ := g'.first
    obtain ⟨c, c1, c2⟩ := g.last
    obtain ⟨c', c1', c2'⟩ := g'.last
    constructor
    · rcases Nat.lt_trichotomy i i' with hl | hl | hl
      · have := g'.before i a hl a1; rw [a2] at this; cases this
      · exact hl
      · have := g.before i' a' hl a1'; rw [a2'] at this; cases this
    · rcases Nat.lt_trichotomy k k' with hl | hl | hl
      · have := g.after k' c' hl c1'; rw [c2'] at this; cases this
      · exact hl
      · have := g'.after k c hl c1; rw [c2] at this; cases this
  obtain ⟨h1, h2⟩ := exists_meson hne ht
  obtain ⟨j, l, e1, l1⟩ := leading_spec h2 h1
  obtain ⟨j', l', e2, l2⟩ := leading_spec h1 h2
  obtain ⟨rfl, rfl⟩ := uniq h l1
  obtain ⟨rfl, rfl⟩ := uniq h' l2
  unfold assignAll
  simp only [if_true, Option.map_some, true_and]
  rw [e1, e2]
  dsimp only
  by_cases hc : (k : Int) - i < k' - i'
  · simp only [if_pos hc]
    obtain ⟨a, c, ha, hc', hs⟩ := assign_eq (s := s) l2
    exact ⟨_, by rw [hs], a, c, ha, hc', rfl⟩
  · simp only [if_neg hc]
    obtain ⟨a, c, ha, hc', hs⟩ := assign_eq (s := s) l1
    exact ⟨_, by rw [hs], a, c, ha, hc', rfl⟩

/-- C88: the factors are between 0 and the suppression factor. -/
theorem C88_range {b : Int} (hb : b = 0 ∨ b = 1 ∨ b = -1) {kinds : List Kind} (hne : kinds ≠ [])
    (ht : totalBaryon kinds = b) {s : Rat} (hs : 0 ≤ s) {f : List Rat}
    (h : assignAll b kinds s = some (some f)) : f.length = kinds.length ∧ ∀ x ∈ f, 0 ≤ x ∧ x ≤ s := by
  obtain ⟨n, m, i, k, a, c, hn, hl, ha, hc, he⟩ := C88_leading hb hne ht s
  rw [h] at he
  simp only [Option.some.injEq] at he
  subst he
  refine ⟨by simp, ?_⟩
  have hsh : ∀ (a : Kind) (n : Int), n.natAbs ≤ 2 → 0 ≤ s * share a n ∧ s * share a n ≤ s := by
    intro a n hn
    have h1 : 0 ≤ share a n ∧ share a n ≤ 1 := by
      unfold share
      split_ifs
      · norm_num
      · have : ((n.natAbs : Nat) : Rat) ≤ 2 := by exact_mod_cast hn
        refine ⟨by positivity, ?_⟩
        rw [div_le_one (by norm_num)]; linarith
    exact ⟨mul_nonneg hs h1.1, mul_le_of_le_one_right hs h1.2⟩
  have hnm : n.natAbs ≤ 2 ∧ m.natAbs ≤ 2 := by unfold endNumbers at hn; omega
  intro x hx
  rcases List.mem_or_eq_of_mem_set hx with hx | rfl
  · rcases List.mem_or_eq_of_mem_set hx with hx | rfl
    · rw [(List.mem_replicate.mp hx).2]; exact ⟨le_refl _, hs⟩
    · exact hsh _ _ hnm.1
  · exact hsh _ _ hnm.2

example : totalBaryon [.meson, .baryon, .meson, .antibaryon, .baryon] = 1 ∧
    assignAll 1 [.meson, .baryon, .meson, .antibaryon, .baryon] 1 =
      some (some [0, 2 / 3, 0, 0, 1 / 3]) := by
  refine ⟨rfl, ?_⟩
  have e : Int.toNat 4 = 4 := rfl
  norm_num [e, assignAll, findLeading, firstIndex, enough, assign, scaling, Kind.number, List.replicate]

/-! ### C90 -/

/-- Numbers of quarks and antiquarks in a quark content. -/
def numbers (c : Int × Int × Int) : Int × Int := (∑ j, nq c j, ∑ j, na c j)

theorem numbers_eq {c : Int × Int × Int} (h : FiveFlavours c) : numbers c =
    ((if c.1 > 0 then 1 else 0) + (if c.2.1 > 0 then 1 else 0) + (if c.2.2 > 0 then 1 else 0),
     (if c.1 < 0 then 1 else 0) + (if c.2.1 < 0 then 1 else 0) + (if c.2.2 < 0 then 1 else 0)) := by
  have one : ∀ q : Int, q.natAbs ≤ 5 → (∑ j : Fin 5, if q = (j : Int) + 1 then (1 : Int) else 0) =
      if q > 0 then 1 else 0 := by
    intro q hq
    have : -5 ≤ q ∧ q ≤ 5 := by omega
    obtain ⟨h1, h2⟩ := this
    interval_cases q <;> decide
  have two : ∀ q : Int, q.natAbs ≤ 5 → (∑ j : Fin 5, if q = -((j : Int) + 1) then (1 : Int) else 0) =
      if q < 0 then 1 else 0 := by
    intro q hq
    have : -5 ≤ q ∧ q ≤ 5 := by omega
    obtain ⟨h1, h2⟩ := this
    interval_cases q <;> decide
  unfold numbers
  simp only [nq_eq, na_eq, Finset.sum_add_distrib, one _ h.1, one _ h.2.1, one _ h.2.2, two _ h.1,
    two _ h.2.1, two _ h.2.2]

theorem content_five {d : Nat} (h : Light d) : FiveFlavours (Pdg.quarkContent d) := by
  by_cases hb : Pdg.nq1 d = 0
  · obtain ⟨h0, hm⟩ := content_meson h hb
    unfold FiveFlavours
    rw [h0]
    rcases hm with hm | hm <;> (refine ⟨by decide, ?_, ?_⟩ <;> omega)
  · obtain ⟨⟨a1, a2, a3, a4, -⟩, ⟨-, -, b3, b4, -⟩⟩ := content_baryon h hb
    exact ⟨a2, a4, b4⟩

theorem numbers_meson {d : Nat} (h : Light d) (hb : Pdg.nq1 d = 0) :
    numbers (Pdg.quarkContent d) = (1, 1) := by
  rw [numbers_eq (content_five h)]
  obtain ⟨h0, hm⟩ := content_meson h hb
  rw [h0]
  generalize Pdg.quarkContent d = q at hm ⊢
  refine Prod.ext ?_ ?_ <;> dsimp only <;> split_ifs <;> omega

theorem numbers_baryon {d : Nat} (h : Light d) (hb : Pdg.nq1 d ≠ 0) :
    numbers (Pdg.quarkContent d) = if Pdg.anti d then (0, 3) else (3, 0) := by
  rw [numbers_eq (content_five h)]
  have := h.pos
  unfold Pdg.quarkContent
  rw [if_pos h.hadron]
  dsimp only
  rw [if_pos hb]
  by_cases ha : Pdg.anti d = true
  · rw [if_pos ha, if_pos ha]
    dsimp only
    rw [if_neg (by omega), if_neg (by omega), if_neg (by omega), if_pos (by omega), if_pos (by omega),
      if_pos (by omega)]; rfl
  · rw [if_neg ha, if_neg ha]
    dsimp only
    rw [if_pos (by omega), if_pos (by omega), if_pos (by omega), if_neg (by omega), if_neg (by omega),
      if_neg (by omega)]; rfl

/-- C90: the hadron handed to PYTHIA instead of a hadron is a nucleon, antinucleon or charged pion with
the same numbers of quarks and of antiquarks, so that the excesses add up to zero. -/
theorem C90_numbers {d : Nat} (h : Light d) :
    ∃ m, mapForPythia d = some m ∧ Light m ∧
      (m = 0x2212 ∨ m = 0x2112 ∨ m = 0x80002212 ∨ m = 0x80002112 ∨ m = 0x211 ∨ m = 0x80000211) ∧
      Pdg.baryonNumber m = Pdg.baryonNumber d ∧
      SameNumbers (Pdg.quarkContent d) (Pdg.quarkContent m) := by
  have same : ∀ m, numbers (Pdg.quarkContent d) = numbers (Pdg.quarkContent m) →
      SameNumbers (Pdg.quarkContent d) (Pdg.quarkContent m) := by
    intro m hm
    unfold numbers at hm
    simp only [Prod.mk.injEq] at hm
    exact hm
  have tab : Light 0x2212 ∧ Light 0x2112 ∧ Light 0x80002212 ∧ Light 0x80002112 ∧ Light 0x211 ∧
      Light 0x80000211 := by
    refine ⟨⟨?_, ?_, ?_, ?_⟩, ⟨?_, ?_, ?_, ?_⟩, ⟨?_, ?_, ?_, ?_⟩, ⟨?_, ?_, ?_, ?_⟩, ⟨?_, ?_, ?_, ?_⟩,
      ⟨?_, ?_, ?_, ?_⟩⟩ <;> decide +kernel
  have tabB : Pdg.baryonNumber 0x2212 = 1 ∧ Pdg.baryonNumber 0x2112 = 1 ∧
      Pdg.baryonNumber 0x80002212 = -1 ∧ Pdg.baryonNumber 0x80002112 = -1 ∧
      Pdg.baryonNumber 0x211 = 0 ∧ Pdg.baryonNumber 0x80000211 = 0 := by decide +kernel
  have tabN : numbers (Pdg.quarkContent 0x2212) = (3, 0) ∧ numbers (Pdg.quarkContent 0x2112) = (3, 0) ∧
      numbers (Pdg.quarkContent 0x80002212) = (0, 3) ∧ numbers (Pdg.quarkContent 0x80002112) = (0, 3) ∧
      numbers (Pdg.quarkContent 0x211) = (1, 1) ∧ numbers (Pdg.quarkContent 0x80000211) = (1, 1) := by
    decide +kernel
  obtain ⟨t1, t2, t3, t4, t5, t6⟩ := tab
  obtain ⟨b1, b2, b3, b4, b5, b6⟩ := tabB
  obtain ⟨n1, n2, n3, n4, n5, n6⟩ := tabN
  have hbn := Pdg.baryon_hadron h.hadron
  unfold mapForPythia
  by_cases hb : Pdg.nq1 d = 0
  · rw [if_neg (by simp [hb])] at hbn
    have hn := numbers_meson h hb
    rw [if_neg (by rw [hbn]; decide), if_neg (by rw [hbn]; decide), if_pos h.hadron, hbn]
    by_cases hc : Pdg.charge d ≥ 0
    · rw [if_pos hc]; exact ⟨_, rfl, t5, by tauto, b5, same _ (by rw [hn, n5])⟩
    · rw [if_neg hc]; exact ⟨_, rfl, t6, by tauto, b6, same _ (by rw [hn, n6])⟩
  · rw [if_pos hb] at hbn
    have hn := numbers_baryon h hb
    unfold Pdg.antiparticleSign at hbn
    by_cases ha : Pdg.anti d = true
    · rw [if_pos ha] at hn hbn
      rw [if_neg (by rw [hbn]; decide), if_pos hbn, hbn]
      by_cases hc : Pdg.charge d < 0
      · rw [if_pos hc]; exact ⟨_, rfl, t3, by tauto, b3, same _ (by rw [hn, n3])⟩
      · rw [if_neg hc]; exact ⟨_, rfl, t4, by tauto, b4, same _ (by rw [hn, n4])⟩
    · rw [if_neg ha] at hn hbn
      rw [if_pos hbn, hbn]
      by_cases hc : Pdg.charge d > 0
      · rw [if_pos hc]; exact ⟨_, rfl, t1, by tauto, b1, same _ (by rw [hn, n1])⟩
      · rw [if_neg hc]; exact ⟨_, rfl, t2, by tauto, b2, same _ (by rw [hn, n2])⟩

/-- C90: together: for two incoming hadrons and an event of PYTHIA with the net flavour of the mapped
hadrons, the restored partons have the net flavour of the incoming hadrons. -/
theorem C90_flavour {d0 d1 m0 m1 : Nat} (h0 : Light d0) (h1 : Light d1) (e0 : mapForPythia d0 = some m0)
    (e1 : mapForPythia d1 = some m1) (o : Nat → Oracle × Oracle) (fuel : Nat) (split : Bool)
    {ps ps' : List Int} (hp : ∀ id ∈ ps, Parton id) {x : Excess × Excess}
    (hx : excesses (Pdg.quarkContent d0) (Pdg.quarkContent m0) (Pdg.quarkContent d1)
      (Pdg.quarkContent m1) = some x)
    (hnet : ∀ j, net ps j = net [(makeStringEnds m0 ⟨true, 0, true, 0⟩).1,
        (makeStringEnds m0 ⟨true, 0, true, 0⟩).2] j +
      net [(makeStringEnds m1 ⟨true, 0, true, 0⟩).1, (makeStringEnds m1 ⟨true, 0, true, 0⟩).2] j)
    (hr : restore o fuel split ps x = some (some (some ps'))) (c0 c1 : Choice) (j : Fin 5) :
    net ps' j = net [(makeStringEnds d0 c0).1, (makeStringEnds d0 c0).2] j +
      net [(makeStringEnds d1 c1).1, (makeStringEnds d1 c1).2] j := by
  obtain ⟨n0, f0, l0, -, -, s0⟩ := C90_numbers h0
  obtain ⟨n1, f1, l1, -, -, s1⟩ := C90_numbers h1
  rw [e0] at f0
  rw [e1] at f1
  simp only [Option.some.injEq] at f0 f1
  subst f0 f1
  have := (C86_restored o fuel split hp ⟨content_five h0, content_five l0, content_five h1,
    content_five l1⟩ hx s0 s1 (fun j => by
      have := hnet j
      rw [(C85_ends l0 _).2, (C85_ends l1 _).2] at this
      exact this) hr).2.2 j
  rw [(C85_ends h0 _).2, (C85_ends h1 _).2]
  exact this

/-- C90: leptons are mapped to an electron or a positron; the only other particles, such as photons and
nuclei with more than one nucleon, are refused. -/
theorem C90_others {d : Nat} (h : Pdg.isHadron d = false) (hn : Pdg.isNucleus d = false) :
    mapForPythia d = if Pdg.isLepton d then
      some (if Pdg.charge d < 0 then 0x11 else 0x80000011) else none := by
  have hb : Pdg.baryonNumber d = 0 := by unfold Pdg.baryonNumber; simp [h, hn]
  unfold mapForPythia
  rw [hb, if_neg (by decide), if_neg (by decide), h]
  simp

/-- C90: the charge of the mapped hadron never has the opposite sign, and neutral baryons are mapped to
neutral ones. -/
theorem C90_sign {d m : Nat} (h : Light d) (e : mapForPythia d = some m) :
    0 ≤ Pdg.charge d * Pdg.charge m ∧
    (Pdg.baryonNumber d ≠ 0 → Pdg.charge d = 0 → Pdg.charge m = 0) := by
  have k : Pdg.charge 0x2212 = 1 ∧ Pdg.charge 0x2112 = 0 ∧ Pdg.charge 0x80002212 = -1 ∧
      Pdg.charge 0x80002112 = 0 ∧ Pdg.charge 0x211 = 1 ∧ Pdg.charge 0x80000211 = -1 := by decide +kernel
  obtain ⟨k1, k2, k3, k4, k5, k6⟩ := k
  have hb : Pdg.baryonNumber d = 0 ∨ Pdg.baryonNumber d = 1 ∨ Pdg.baryonNumber d = -1 := by
    rw [Pdg.baryon_hadron h.hadron]
    unfold Pdg.antiparticleSign
    split_ifs <;> simp
  unfold mapForPythia at e
  rw [h.hadron] at e
  rcases hb with hb | hb | hb <;> rw [hb] at e <;>
    simp only [show ¬ ((0 : Int) = 1) by decide, show ¬ ((0 : Int) = -1) by decide,
      show ¬ ((-1 : Int) = 1) by decide, if_true, if_false, Option.some.injEq] at e <;>
    subst e <;> split_ifs <;> simp only [k1, k2, k3, k4, k5, k6, hb] <;>
    refine ⟨by omega, fun h1 h2 => ?_⟩ <;> first | trivial | omega

/-- C90 is false for the charge: a neutral kaon is handed over as pi+, a neutrino as positron. -/
theorem C90_charge_false : mapForPythia 0x311 = some 0x211 ∧ Pdg.charge 0x311 = 0 ∧
    Pdg.charge 0x211 = 1 ∧ mapForPythia 0x12 = some 0x80000011 ∧ Pdg.charge 0x12 = 0 ∧
    Pdg.charge 0x80000011 = 1 := by decide +kernel

end Verif.Frag
