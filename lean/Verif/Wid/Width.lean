import Mathlib.Tactic.Ring
import Mathlib.Tactic.Linarith
import Mathlib.Tactic.Positivity
import Mathlib.Tactic.FieldSimp
import Mathlib.Tactic.SplitIfs
import Mathlib.Tactic.LinearCombination
import Mathlib.Analysis.Real.Sqrt
import Verif.Kin.Props
import Verif.Wid.Form

/-!
C117: partial and total decay widths.
-/

namespace Verif.Wid

open Verif Kin

/-- What the input files and the constructors of the decay types guarantee of a decay mode of a
resonance of pole mass `m0`: it is open at the pole. `rho`, the tabulated integral for unstable
daughters, is a phase space volume. -/
def Mode.Valid (D : Mode) (m0 : ℝ) : Prop :=
  0 ≤ D.weight ∧ 0 ≤ D.threshold ∧ D.threshold < m0 ∧
  match D.kind with
  | .stable m1 m2 L => 0 ≤ m1 ∧ 0 ≤ m2 ∧ 0 ≤ L ∧ D.threshold = m1 + m2
  | .unstable rho lambda _ => (∀ m, 0 ≤ rho m) ∧ 0 < rho m0 ∧ 0 < lambda
  | .dilepton ml => 0 < ml ∧ D.threshold = 2 * ml
  | .threeBody => True
  | .dalitz _ table => ∀ m, 0 ≤ table m

/-- The decay modes whose width is meant to be the given one at the pole. -/
def Mode.Normalised (D : Mode) : Prop :=
  match D.kind with
  | .dilepton _ => False
  | .dalitz st _ => st = true
  | _ => True

theorem pCM_pos {m m1 m2 : ℝ} (h1 : 0 ≤ m1) (h2 : 0 ≤ m2) (h : m1 + m2 < m) : 0 < pCM m m1 m2 := by
  have h0 : 0 < m := by linarith
  have hq := pCM_sq h1 h2 h0 h.le
  have hs : 0 < m * m := by positivity
  have hp : 0 < pCM m m1 m2 ^ 2 := by
    rw [hq.1, pCMsqr_factor hs.ne']
    have a1 : 0 < m * m - (m1 + m2) ^ 2 := by nlinarith
    have a2 : 0 < m * m - (m1 - m2) ^ 2 := by nlinarith [mul_nonneg h1 h2]
    positivity
  rcases hq.2.lt_or_eq with h | h
  · exact h
  · rw [← h] at hp; norm_num at hp

theorem velocity_mono {m m' m1 m2 : ℝ} (h1 : 0 ≤ m1) (h2 : 0 ≤ m2) (h : m1 + m2 < m) (hm : m ≤ m') :
    pCM m m1 m2 / m ≤ pCM m' m1 m2 / m' := by
  have h0 : 0 < m := by linarith
  have h0' : 0 < m' := by linarith
  have e : ∀ x : ℝ, m1 + m2 < x → 0 < x → (pCM x m1 m2 / x) ^ 2 =
      (1 - (m1 + m2) ^ 2 / x ^ 2) * (1 - (m1 - m2) ^ 2 / x ^ 2) / 4 := by
    intro x hx hx0
    rw [div_pow, (pCM_sq h1 h2 hx0 hx.le).1, pCMsqr_factor (by positivity)]
    field_simp
  have p := (pCM_sq h1 h2 h0' (by linarith : m1 + m2 ≤ m')).2
  have hsq : (pCM m m1 m2 / m) ^ 2 ≤ (pCM m' m1 m2 / m') ^ 2 := by
    rw [e m h h0, e m' (by linarith) h0']
    have lt2 : m ^ 2 ≤ m' ^ 2 := by nlinarith
    have b1 : (m1 + m2) ^ 2 / m' ^ 2 ≤ (m1 + m2) ^ 2 / m ^ 2 :=
      div_le_div_of_nonneg_left (sq_nonneg _) (by positivity) lt2
    have b2 : (m1 - m2) ^ 2 / m' ^ 2 ≤ (m1 - m2) ^ 2 / m ^ 2 :=
      div_le_div_of_nonneg_left (sq_nonneg _) (by positivity) lt2
    have c1 : 0 < 1 - (m1 + m2) ^ 2 / m ^ 2 := by
      rw [sub_pos, div_lt_one (by positivity)]; nlinarith
    have c2 : 0 < 1 - (m1 - m2) ^ 2 / m ^ 2 := by
      rw [sub_pos, div_lt_one (by positivity)]; nlinarith [mul_nonneg h1 h2]
    apply div_le_div_of_nonneg_right _ (by norm_num : (0:ℝ) ≤ 4)
    exact mul_le_mul (by linarith) (by linarith) c2.le (by linarith)
  exact le_of_sq_le_sq hsq (by positivity)

theorem rho_pos {m1 m2 m : ℝ} {L : Int} (h1 : 0 ≤ m1) (h2 : 0 ≤ m2) (hL : 0 ≤ L) (h : m1 + m2 < m) :
    0 < rhoStable m1 m2 L m := by
  obtain ⟨l, rfl⟩ := Int.eq_ofNat_of_zero_le hL
  have p := pCM_pos h1 h2 h
  have hm : 0 < m := by linarith
  have b := (C116_range (pCM m m1 m2) l).1
  have bz := (C116_zero (pCM m m1 m2) l).1
  have : 0 < blattWeisskopfSqr (pCM m m1 m2) l := by
    rcases b.lt_or_eq with h | h
    · exact h
    · exact absurd (bz.1 h.symm).2 p.ne'
  unfold rhoStable
  simp only
  exact mul_pos (div_pos p hm) this

theorem rho_mono {m1 m2 m m' : ℝ} {L : Int} (h1 : 0 ≤ m1) (h2 : 0 ≤ m2) (hL : 0 ≤ L) (h : m1 + m2 < m)
    (hm : m ≤ m') : rhoStable m1 m2 L m ≤ rhoStable m1 m2 L m' := by
  obtain ⟨l, rfl⟩ := Int.eq_ofNat_of_zero_le hL
  have v := velocity_mono h1 h2 h hm
  have p := pCM_pos h1 h2 h
  have p' := pCM_pos h1 h2 (by linarith : m1 + m2 < m')
  have h0 : 0 < m := by linarith
  have h0' : 0 < m' := by linarith
  have pp : pCM m m1 m2 ≤ pCM m' m1 m2 := by
    have e1 : pCM m m1 m2 = pCM m m1 m2 / m * m := by field_simp
    have e2 : pCM m' m1 m2 = pCM m' m1 m2 / m' * m' := by field_simp
    rw [e1, e2]
    exact mul_le_mul v hm h0.le (by positivity)
  have b : blattWeisskopfSqr (pCM m m1 m2) l ≤ blattWeisskopfSqr (pCM m' m1 m2) l := by
    rcases Nat.eq_zero_or_pos l with rfl | hl
    · simp [blattWeisskopfSqr]
    · rcases pp.lt_or_eq with h | h
      · exact (C116_monotone l hl p.le h).le
      · rw [h]
  unfold rhoStable
  simp only
  exact mul_le_mul v b (C116_range _ l).1 (by positivity)

/-- **C117.** Below the threshold a decay is closed. -/
theorem C117_threshold (R : Res) (D : Mode) {m : ℝ} (h : m < D.threshold) :
    partialWidth R m D = .ok 0 := by
  unfold partialWidth
  rw [if_pos h]

/-- The dilepton width divided by the given one, at the pole. -/
theorem dilepton_lt {x : ℝ} (h0 : 0 < x) (h1 : 4 * x < 1) : Real.sqrt (1 - 4 * x) * (1 + 2 * x) < 1 := by
  have hs := Real.sqrt_nonneg (1 - 4 * x)
  have hq := Real.mul_self_sqrt (by linarith : 0 ≤ 1 - 4 * x)
  generalize Real.sqrt (1 - 4 * x) = y at hs hq
  by_contra hc
  push Not at hc
  have h2 : 1 ≤ (y * (1 + 2 * x)) * (y * (1 + 2 * x)) := by nlinarith
  have h3 : (y * (1 + 2 * x)) * (y * (1 + 2 * x)) = (1 - 4 * x) * (1 + 2 * x) ^ 2 := by rw [← hq]; ring
  rw [h3] at h2
  nlinarith [pow_pos h0 2, pow_pos h0 3]

/-- **C117.** At and above the threshold every valid decay mode has a width, and it is not negative. -/
theorem C117_nonneg {R : Res} {D : Mode} (hD : D.Valid R.mass) (hw : 0 ≤ R.width) (m : ℝ) :
    ∃ w, partialWidth R m D = .ok w ∧ 0 ≤ w := by
  unfold partialWidth
  split_ifs with hm
  · exact ⟨0, rfl, le_refl _⟩
  obtain ⟨h1, h2, h3, h4⟩ := hD
  have hG : 0 ≤ R.width * D.weight := mul_nonneg hw h1
  unfold Wid.width
  cases hk : D.kind with
  | stable m1 m2 L =>
    rw [hk] at h4
    obtain ⟨a1, a2, a3, a4⟩ := h4
    have r0 := rho_pos a1 a2 a3 (a4 ▸ h3)
    simp only
    rw [if_neg r0.ne']
    refine ⟨_, rfl, ?_⟩
    split_ifs with h
    · exact le_refl _
    · have := rho_pos a1 a2 a3 (a4 ▸ not_le.1 h)
      positivity
  | unstable rho lambda L =>
    rw [hk] at h4
    obtain ⟨a1, a2, a3⟩ := h4
    simp only
    rw [if_neg a2.ne']
    refine ⟨_, rfl, ?_⟩
    have p : 0 ≤ postFFSqr m R.mass D.threshold lambda := by
      unfold postFFSqr; exact mul_self_nonneg _
    have := a1 m
    positivity
  | dilepton ml =>
    simp only
    refine ⟨_, rfl, ?_⟩
    split_ifs with h
    · exact le_refl _
    · have hm0 : 0 < m := by linarith
      have : 0 < R.mass := by linarith
      have := mul_self_nonneg (ml / m)
      have : 0 ≤ 1 + 2 * (ml / m * (ml / m)) := by linarith
      positivity
  | threeBody => exact ⟨_, rfl, hG⟩
  | dalitz st table =>
    rw [hk] at h4
    refine ⟨_, rfl, ?_⟩
    split_ifs
    · exact hG
    · exact h4 m

/-- **C117.** At the pole the partial width is the total width times the branching ratio, but for decays
into two leptons and the tabulated three-body dilepton decays. -/
theorem C117_pole {R : Res} {D : Mode} (hD : D.Valid R.mass) (hn : D.Normalised) :
    partialWidth R R.mass D = .ok (R.width * D.weight) := by
  obtain ⟨h1, h2, h3, h4⟩ := hD
  unfold partialWidth
  rw [if_neg (by linarith)]
  unfold Mode.Normalised at hn
  unfold Wid.width
  cases hk : D.kind with
  | stable m1 m2 L =>
    rw [hk] at h4
    obtain ⟨a1, a2, a3, a4⟩ := h4
    have r0 := rho_pos a1 a2 a3 (a4 ▸ h3)
    simp only
    rw [if_neg r0.ne', if_neg (by linarith), mul_div_assoc, div_self r0.ne', mul_one]
  | unstable rho lambda L =>
    rw [hk] at h4
    obtain ⟨a1, a2, a3⟩ := h4
    simp only
    rw [if_neg a2.ne', (C116_post 0 R.mass D.threshold lambda a3 le_rfl h2 h3).1, mul_div_assoc,
      div_self a2.ne', mul_one, mul_one]
  | dilepton ml => rw [hk] at hn; exact hn.elim
  | threeBody => rfl
  | dalitz st table =>
    rw [hk] at hn
    simp only at hn
    simp only [hn, if_true]

/-- **C117 (violated).** The width for the decay into two leptons, at the pole, is below the total width
times the branching ratio. -/
theorem C117_dilepton_false {R : Res} {D : Mode} (hD : D.Valid R.mass) {ml : ℝ}
    (hk : D.kind = .dilepton ml) (hw : 0 < R.width) (hb : 0 < D.weight) :
    ∃ w, partialWidth R R.mass D = .ok w ∧ w < R.width * D.weight := by
  obtain ⟨h1, h2, h3, h4⟩ := hD
  rw [hk] at h4
  obtain ⟨a1, a2⟩ := h4
  have hm : 0 < R.mass := by linarith
  unfold partialWidth
  rw [if_neg (by linarith)]
  unfold Wid.width
  rw [hk]
  refine ⟨_, rfl, ?_⟩
  rw [if_neg (by linarith), div_self hm.ne', one_mul, one_mul, mul_one, mul_assoc]
  have x0 : 0 < ml / R.mass * (ml / R.mass) := by positivity
  have x1 : 4 * (ml / R.mass * (ml / R.mass)) < 1 := by
    have : 2 * (ml / R.mass) < 1 := by rw [← mul_div_assoc, div_lt_one hm]; linarith
    have : 0 < ml / R.mass := by positivity
    nlinarith
  have := dilepton_lt x0 x1
  have := mul_lt_mul_of_pos_left this (mul_pos hw hb)
  linarith

/-- **C117.** The width of a decay into stable particles grows with the mass. -/
theorem C117_monotone {R : Res} {D : Mode} (hD : D.Valid R.mass) {m1 m2 : ℝ} {L : Int}
    (hk : D.kind = .stable m1 m2 L) (hw : 0 ≤ R.width) {m m' : ℝ} (h : m ≤ m') :
    ∃ w w', partialWidth R m D = .ok w ∧ partialWidth R m' D = .ok w' ∧ w ≤ w' := by
  obtain ⟨w', e', n'⟩ := C117_nonneg hD hw m'
  by_cases hm : m < D.threshold
  · exact ⟨0, w', C117_threshold R D hm, e', n'⟩
  obtain ⟨h1, h2, h3, h4⟩ := hD
  rw [hk] at h4
  obtain ⟨a1, a2, a3, a4⟩ := h4
  have r0 := rho_pos a1 a2 a3 (a4 ▸ h3)
  unfold partialWidth at e' ⊢
  rw [if_neg hm]
  rw [if_neg (by linarith)] at e'
  unfold Wid.width at e' ⊢
  rw [hk] at e' ⊢
  simp only at e' ⊢
  rw [if_neg r0.ne'] at e' ⊢
  refine ⟨_, w', rfl, by rw [if_neg (by linarith), if_neg r0.ne', e'], ?_⟩
  by_cases ht : m ≤ D.threshold
  · rw [if_pos ht]; exact n'
  · rw [if_neg ht]
    rw [if_neg (by push Not at ht ⊢; linarith)] at e'
    cases e'
    have := rho_mono a1 a2 a3 (a4 ▸ not_le.1 ht) h
    have hG : 0 ≤ R.width * D.weight := mul_nonneg hw h1
    exact div_le_div_of_nonneg_right (mul_le_mul_of_nonneg_left this hG) r0.le

/-- The sum over the decay modes, for a width function. -/
theorem sumWidths_eq {R : Res} {m : ℝ} {w : Mode → ℝ} {l : List Mode}
    (h : ∀ D ∈ l, partialWidth R m D = .ok (w D)) : sumWidths R m l = .ok (l.map w).sum := by
  induction l with
  | nil => rfl
  | cons D l ih =>
    rw [sumWidths, h D List.mem_cons_self, ih fun D hD => h D (List.mem_cons_of_mem _ hD)]
    rfl

/-- **C117.** The total width is the sum of the partial widths, cut off below 10 keV; at the pole it is
the width of the particle if the branching ratios sum to 1; below all thresholds it is 0, and stable
particles have none. -/
theorem C117_total {R : Res} (hw : cutoff ≤ R.width) (hR : ∀ D ∈ R.modes, D.Valid R.mass) :
    (∀ m : ℝ, ∃ w : Mode → ℝ, (∀ D ∈ R.modes, partialWidth R m D = .ok (w D) ∧ 0 ≤ w D) ∧
      totalWidth R m = .ok (if (R.modes.map w).sum < 1 / 100000 then 0 else (R.modes.map w).sum)) ∧
    ((∀ D ∈ R.modes, D.Normalised) → (R.modes.map Mode.weight).sum = 1 →
      totalWidth R R.mass = .ok R.width) ∧
    (∀ m : ℝ, (∀ D ∈ R.modes, m < D.threshold) → totalWidth R m = .ok 0) := by
  have hc : (0 : ℝ) < cutoff := by norm_num [cutoff]
  have hs : R.stable = false := decide_eq_false (not_lt.2 hw)
  have tot : ∀ (m : ℝ) (w : Mode → ℝ), (∀ D ∈ R.modes, partialWidth R m D = .ok (w D)) →
      totalWidth R m = .ok (if (R.modes.map w).sum < 1 / 100000 then 0 else (R.modes.map w).sum) := by
    intro m w h
    unfold totalWidth
    rw [if_neg (by rw [hs]; exact Bool.false_ne_true), sumWidths_eq h]
    rfl
  refine ⟨?_, ?_, ?_⟩
  · intro m
    have : ∀ D : Mode, ∃ w : ℝ, D ∈ R.modes → partialWidth R m D = .ok w ∧ 0 ≤ w := by
      intro D
      by_cases hD : D ∈ R.modes
      · obtain ⟨w, h1, h2⟩ := C117_nonneg (hR D hD) (hc.le.trans hw) m
        exact ⟨w, fun _ => ⟨h1, h2⟩⟩
      · exact ⟨0, fun h => absurd h hD⟩
    choose w h using this
    exact ⟨w, h, tot m w fun D hD => (h D hD).1⟩
  · intro hn h1
    rw [tot R.mass (fun D => R.width * D.weight) fun D hD => C117_pole (hR D hD) (hn D hD)]
    have e : (R.modes.map fun D => R.width * D.weight).sum = R.width := by
      rw [List.sum_map_mul_left, h1, mul_one]
    rw [e, if_neg]
    rw [not_lt]; exact hw
  · intro m h
    rw [tot m (fun _ => 0) fun D hD => C117_threshold R D (h D hD)]
    simp

/-- **C117.** Particles with a width below 10 keV count as stable: no total width. -/
theorem C117_stable {R : Res} (hw : R.width < 1 / 100000) (m : ℝ) : totalWidth R m = .ok 0 := by
  unfold totalWidth
  rw [if_pos]
  exact decide_eq_true hw

/-- **C117.** The minimum mass of a particle that counts as stable is its pole mass, whatever its decay modes. -/
theorem C117_min_mass_stable {R : Res} (hw : R.width < 1 / 100000) : minMassKinematic R = R.mass := by
  unfold minMassKinematic
  rw [if_pos]
  exact decide_eq_true hw

/-- The minimum mass of a resonance is at most its pole mass and all thresholds. -/
theorem foldl_min (l : List Mode) (a : ℝ) :
    l.foldl (fun m D => min m D.threshold) a ≤ a ∧
    (∀ D ∈ l, l.foldl (fun m D => min m D.threshold) a ≤ D.threshold) ∧
    (l.foldl (fun m D => min m D.threshold) a = a ∨
      ∃ D ∈ l, l.foldl (fun m D => min m D.threshold) a = D.threshold) := by
  induction l generalizing a with
  | nil => exact ⟨le_rfl, fun _ h => absurd h List.not_mem_nil, .inl rfl⟩
  | cons D l ih =>
    obtain ⟨h1, h2, h3⟩ := ih (min a D.threshold)
    rw [List.foldl_cons]
    refine ⟨h1.trans (min_le_left _ _), ?_, ?_⟩
    · intro D' hD'
      rcases List.mem_cons.1 hD' with rfl | h
      · exact h1.trans (min_le_right _ _)
      · exact h2 _ h
    · rcases h3 with h | ⟨D', h, e⟩
      · rcases min_choice a D.threshold with hm | hm
        · left; rw [h, hm]
        · right; exact ⟨D, List.mem_cons_self, by rw [h, hm]⟩
      · right; exact ⟨D', List.mem_cons_of_mem _ h, e⟩

/-- **C117.** The kinematic minimum mass of an unstable particle is the smallest threshold; below it the
particle cannot exist: the total width and the spectral function are 0. -/
theorem C117_min_mass {R : Res} (hw : cutoff ≤ R.width) (hR : ∀ D ∈ R.modes, D.Valid R.mass)
    (hne : R.modes ≠ []) :
    (∃ D ∈ R.modes, minMassKinematic R = D.threshold ∧ ∀ D' ∈ R.modes, D.threshold ≤ D'.threshold) ∧
    ∀ m < minMassKinematic R, totalWidth R m = .ok 0 ∧ spectralNoNorm R m = .ok 0 := by
  have hs : R.stable = false := decide_eq_false (not_lt.2 hw)
  obtain ⟨h1, h2, h3⟩ := foldl_min R.modes R.mass
  have e : minMassKinematic R = R.modes.foldl (fun m D => min m D.threshold) R.mass := by
    unfold minMassKinematic
    rw [if_neg (by rw [hs]; exact Bool.false_ne_true)]
  rw [← e] at h1 h2 h3
  refine ⟨?_, ?_⟩
  · rcases h3 with h | ⟨D, hD, h⟩
    · obtain ⟨D, hD⟩ := List.exists_mem_of_ne_nil _ hne
      have := h2 D hD
      have := (hR D hD).2.2.1
      linarith
    · exact ⟨D, hD, h, fun D' hD' => h ▸ h2 D' hD'⟩
  · intro m hm
    have t := (C117_total hw hR).2.2 m fun D hD => lt_of_lt_of_le hm (h2 D hD)
    refine ⟨t, ?_⟩
    unfold spectralNoNorm
    rw [t]
    change Except.ok (if (0 : ℝ) < cutoff then (0 : ℝ) else _) = _
    rw [if_pos (by norm_num [cutoff])]

/-- The part of a list of widths for the wanted modes. -/
theorem partialWidths_eq {R : Res} {m : ℝ} {w : Mode → ℝ} {l : List Mode} (wh : Which)
    (h : ∀ D ∈ l, partialWidth R m D = .ok (w D) ∧ 0 ≤ w D) :
    ∃ b, partialWidths R m wh l = .ok b ∧
      totalWeight b = (l.map fun D => if wanted D wh = true then w D else 0).sum ∧
      ∀ D v, (D, v) ∈ b ↔ D ∈ l ∧ wanted D wh = true ∧ v = w D ∧ 0 < w D := by
  induction l with
  | nil => exact ⟨[], rfl, rfl, by simp⟩
  | cons D l ih =>
    obtain ⟨b, e, t, mem⟩ := ih fun D hD => h D (List.mem_cons_of_mem _ hD)
    obtain ⟨hD, h0⟩ := h D List.mem_cons_self
    rw [partialWidths, hD, e]
    refine ⟨_, rfl, ?_, ?_⟩
    · rw [List.map_cons, List.sum_cons, ← t]
      split_ifs with hc hc' hc'
      · simp [totalWeight]
      · exact absurd hc.2 hc'
      · have : w D = 0 := by
          by_contra hne
          exact hc ⟨lt_of_le_of_ne h0 (Ne.symm hne), hc'⟩
        rw [this, zero_add]
      · rw [zero_add]
    · intro D' v
      split_ifs with hc
      · rw [List.mem_cons, mem, List.mem_cons, Prod.mk.injEq]
        constructor
        · rintro (⟨rfl, rfl⟩ | ⟨h1, h2, h3, h4⟩)
          · exact ⟨.inl rfl, hc.2, rfl, hc.1⟩
          · exact ⟨.inr h1, h2, h3, h4⟩
        · rintro ⟨rfl | h1, h2, h3, h4⟩
          · exact .inl ⟨rfl, h3⟩
          · exact .inr ⟨h1, h2, h3, h4⟩
      · rw [mem, List.mem_cons]
        constructor
        · rintro ⟨h1, h2, h3, h4⟩
          exact ⟨.inr h1, h2, h3, h4⟩
        · rintro ⟨rfl | h1, h2, h3, h4⟩
          · exact absurd ⟨h4, h2⟩ hc
          · exact ⟨h1, h2, h3, h4⟩

/-- Is the kind of decay one with a lepton pair? -/
def leptonic : Kind → Prop
  | .dilepton _ => True
  | .dalitz _ _ => True
  | _ => False

/-- **C117.** The decay branches of a resonance at some mass are the open decay modes with their partial
widths, split into hadronic ones and dileptons, and the widths of the two classes add up. -/
theorem C117_branches {R : Res} (hw : 0 ≤ R.width) (hR : ∀ D ∈ R.modes, D.Valid R.mass) (m : ℝ) :
    ∃ a h d, partialWidths R m .all R.modes = .ok a ∧ partialWidths R m .hadronic R.modes = .ok h ∧
      partialWidths R m .dileptons R.modes = .ok d ∧
      (∀ D v, (D, v) ∈ a ↔ D ∈ R.modes ∧ partialWidth R m D = .ok v ∧ 0 < v) ∧
      (∀ D v, (D, v) ∈ h ↔ D ∈ R.modes ∧ partialWidth R m D = .ok v ∧ 0 < v ∧ ¬ leptonic D.kind) ∧
      (∀ D v, (D, v) ∈ d ↔ D ∈ R.modes ∧ partialWidth R m D = .ok v ∧ 0 < v ∧ leptonic D.kind) ∧
      totalWeight a = totalWeight h + totalWeight d ∧
      sumWidths R m R.modes = .ok (totalWeight a) := by
  have hl : ∀ D : Mode, (wanted D .dileptons = true ↔ leptonic D.kind) ∧
      (wanted D .hadronic = true ↔ ¬ leptonic D.kind) := by
    intro D
    unfold wanted
    cases D.kind <;> simp [leptonic, Kind.isDilepton]
  have : ∀ D : Mode, ∃ w : ℝ, D ∈ R.modes → partialWidth R m D = .ok w ∧ 0 ≤ w := by
    intro D
    by_cases hD : D ∈ R.modes
    · obtain ⟨w, h1, h2⟩ := C117_nonneg (hR D hD) hw m
      exact ⟨w, fun _ => ⟨h1, h2⟩⟩
    · exact ⟨0, fun h => absurd h hD⟩
  choose w hw' using this
  obtain ⟨a, ea, ta, ma⟩ := partialWidths_eq (l := R.modes) .all hw'
  obtain ⟨b, eb, tb, mb⟩ := partialWidths_eq (l := R.modes) .hadronic hw'
  obtain ⟨d, ed, td, md⟩ := partialWidths_eq (l := R.modes) .dileptons hw'
  have inj : ∀ D ∈ R.modes, ∀ v, partialWidth R m D = .ok v ↔ v = w D := by
    intro D hD v
    rw [(hw' D hD).1]
    constructor
    · intro h; cases h; rfl
    · rintro rfl; rfl
  refine ⟨a, b, d, ea, eb, ed, ?_, ?_, ?_, ?_, ?_⟩
  · intro D v
    rw [ma]
    constructor
    · rintro ⟨h1, -, h3, h4⟩
      exact ⟨h1, (inj D h1 v).2 h3, h3 ▸ h4⟩
    · rintro ⟨h1, h2, h3⟩
      have := (inj D h1 v).1 h2
      exact ⟨h1, rfl, this, this ▸ h3⟩
  · intro D v
    rw [mb, (hl D).2]
    constructor
    · rintro ⟨h1, h2, h3, h4⟩
      exact ⟨h1, (inj D h1 v).2 h3, h3 ▸ h4, h2⟩
    · rintro ⟨h1, h2, h3, h4⟩
      have := (inj D h1 v).1 h2
      exact ⟨h1, h4, this, this ▸ h3⟩
  · intro D v
    rw [md, (hl D).1]
    constructor
    · rintro ⟨h1, h2, h3, h4⟩
      exact ⟨h1, (inj D h1 v).2 h3, h3 ▸ h4, h2⟩
    · rintro ⟨h1, h2, h3, h4⟩
      have := (inj D h1 v).1 h2
      exact ⟨h1, h4, this, this ▸ h3⟩
  · rw [ta, tb, td]
    generalize R.modes = l
    induction l with
    | nil => simp
    | cons D l ih =>
      rw [List.map_cons, List.map_cons, List.map_cons, List.sum_cons, List.sum_cons, List.sum_cons, ih]
      have : (if wanted D .all = true then w D else 0) = (if wanted D .hadronic = true then w D else 0) +
          (if wanted D .dileptons = true then w D else 0) := by
        by_cases h : leptonic D.kind
        · rw [if_pos (show wanted D .all = true from rfl), if_neg (by rw [(hl D).2]; exact not_not.2 h), if_pos ((hl D).1.2 h), zero_add]
        · rw [if_pos (show wanted D .all = true from rfl), if_pos ((hl D).2.2 h), if_neg (by rw [(hl D).1]; exact h), add_zero]
      rw [this]; ring
  · rw [sumWidths_eq fun D hD => (hw' D hD).1, ta]
    congr 2

/-- Like a ρ⁰: two pions, or e⁺e⁻. -/
noncomputable def rho0 : Res :=
  ⟨776 / 1000, 149 / 1000, [⟨276 / 1000, 999 / 1000, .stable (138 / 1000) (138 / 1000) 1⟩,
    ⟨1 / 1000, 1 / 1000, .dilepton (1 / 2000)⟩]⟩

example : cutoff ≤ rho0.width ∧ (∀ D ∈ rho0.modes, D.Valid rho0.mass) ∧ rho0.modes ≠ [] := by
  refine ⟨by norm_num [cutoff, rho0], ?_, by simp [rho0]⟩
  intro D hD
  simp only [rho0, List.mem_cons, List.not_mem_nil, or_false] at hD
  rcases hD with rfl | rfl <;> norm_num [Mode.Valid, rho0]

example : ∃ R : Res, cutoff ≤ R.width ∧ (∀ D ∈ R.modes, D.Valid R.mass ∧ D.Normalised) ∧
    (R.modes.map Mode.weight).sum = 1 := by
  refine ⟨⟨776 / 1000, 149 / 1000, [⟨276 / 1000, 1, .stable (138 / 1000) (138 / 1000) 1⟩]⟩,
    by norm_num [cutoff], ?_, by norm_num⟩
  intro D hD
  simp only [List.mem_cons, List.not_mem_nil, or_false] at hD
  subst hD
  norm_num [Mode.Valid, Mode.Normalised]

end Verif.Wid
