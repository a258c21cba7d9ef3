import Mathlib.Tactic.Ring
import Mathlib.Tactic.Linarith
import Mathlib.Tactic.Positivity
import Mathlib.Tactic.FieldSimp
import Mathlib.Tactic.LinearCombination
import Mathlib.Analysis.SpecialFunctions.Trigonometric.ArctanDeriv
import Mathlib.MeasureTheory.Integral.IntervalIntegral.IntegrationByParts
import Mathlib.MeasureTheory.Integral.IntervalIntegral.FundThmCalculus
import Verif.Rand.Props
import Verif.Wid.Model

/-!
C118: the Breit-Wigner functions are normalised, and the masses drawn have the density of the
non-relativistic one.
-/

namespace Verif.Wid

open Verif MeasureTheory Filter Topology

/-- The relativistic function as a function of u = m - M²/m. -/
theorem bw_form {m M G : ℝ} (hm : m ≠ 0) (hG : 0 < G) :
    breitWigner m M G = 2 / Real.pi * (G / ((m - M ^ 2 / m) ^ 2 + G ^ 2)) := by
  unfold breitWigner
  simp only
  have hp := Real.pi_pos
  have h1 : 0 < (m - M ^ 2 / m) ^ 2 + G ^ 2 := by positivity
  have e : (m * m - M * M) * (m * m - M * M) + m * m * G * G = m ^ 2 * ((m - M ^ 2 / m) ^ 2 + G ^ 2) := by
    field_simp
  rw [e]
  generalize (m - M ^ 2 / m) ^ 2 + G ^ 2 = d at h1
  field_simp

theorem bw_reflect {m M G : ℝ} (hm : 0 < m) (hM : 0 < M) (hG : 0 < G) :
    breitWigner (M ^ 2 / m) M G = breitWigner m M G := by
  rw [bw_form (by positivity) hG, bw_form hm.ne' hG]
  have : M ^ 2 / m - M ^ 2 / (M ^ 2 / m) = -(m - M ^ 2 / m) := by field_simp; ring
  rw [this, neg_sq]

theorem bw_cont {M G : ℝ} (hG : 0 < G) {a b : ℝ} (ha : 0 < a) :
    ContinuousOn (fun m => breitWigner m M G) (Set.Icc a b) := by
  have : ∀ m ∈ Set.Icc a b, breitWigner m M G = 2 / Real.pi * (G / ((m - M ^ 2 / m) ^ 2 + G ^ 2)) :=
    fun m hm => bw_form (lt_of_lt_of_le ha hm.1).ne' hG
  refine ContinuousOn.congr ?_ this
  apply ContinuousOn.mul continuousOn_const
  apply ContinuousOn.div continuousOn_const
  · apply ContinuousOn.add _ continuousOn_const
    apply ContinuousOn.pow
    apply ContinuousOn.sub continuousOn_id
    exact ContinuousOn.div continuousOn_const continuousOn_id fun m hm => (lt_of_lt_of_le ha hm.1).ne'
  · intro m _; positivity

/-- **C118.** The relativistic Breit-Wigner function is positive, and its integral from M²/b to b is
2/π·arctan((b - M²/b)/Γ). -/
theorem C118_breit_wigner {M G b : ℝ} (hM : 0 < M) (hG : 0 < G) (hb : M < b) :
    (∀ m > 0, 0 < breitWigner m M G) ∧
    ∫ m in (M ^ 2 / b)..b, breitWigner m M G = 2 / Real.pi * Real.arctan ((b - M ^ 2 / b) / G) := by
  have hb0 : 0 < b := hM.trans hb
  have hpi := Real.pi_pos
  refine ⟨fun m hm => by rw [bw_form hm.ne' hG]; positivity, ?_⟩
  have ha0 : 0 < M ^ 2 / b := by positivity
  have hab : M ^ 2 / b ≤ b := by rw [div_le_iff₀ hb0]; nlinarith
  have hU : Set.uIcc (M ^ 2 / b) b = Set.Icc (M ^ 2 / b) b := Set.uIcc_of_le hab
  set f : ℝ → ℝ := fun m => breitWigner m M G with hf
  have fc : ContinuousOn f (Set.Icc (M ^ 2 / b) b) := bw_cont hG ha0
  -- the reflection
  have refl : ∫ m in (M ^ 2 / b)..b, f m * (M ^ 2 / m ^ 2) = ∫ m in (M ^ 2 / b)..b, f m := by
    have sub := intervalIntegral.integral_comp_mul_deriv'' (a := M ^ 2 / b) (b := b)
      (f := fun m => M ^ 2 / m) (f' := fun m => -(M ^ 2 / m ^ 2)) (g := f) ?_ ?_ ?_ ?_
    · have e1 : M ^ 2 / (M ^ 2 / b) = b := by field_simp
      simp only [Function.comp] at sub
      rw [e1] at sub
      have e2 : ∫ m in (M ^ 2 / b)..b, f (M ^ 2 / m) * -(M ^ 2 / m ^ 2) =
          - ∫ m in (M ^ 2 / b)..b, f m * (M ^ 2 / m ^ 2) := by
        rw [← intervalIntegral.integral_neg]
        apply intervalIntegral.integral_congr
        intro m hm
        rw [hU] at hm
        simp only [hf]
        rw [bw_reflect (lt_of_lt_of_le ha0 hm.1) hM hG]; ring
      rw [e2, intervalIntegral.integral_symm (M ^ 2 / b) b] at sub
      linarith
    · rw [hU]
      exact ContinuousOn.div continuousOn_const continuousOn_id fun m hm => (lt_of_lt_of_le ha0 hm.1).ne'
    · intro m hm
      rw [min_eq_left hab] at hm
      have h0 : m ≠ 0 := (ha0.trans hm.1).ne'
      have := ((hasDerivAt_inv h0).const_mul (M ^ 2)).hasDerivWithinAt (s := Set.Ioi m)
      refine HasDerivWithinAt.congr_deriv ?_ (?_ : M ^ 2 * (-(m ^ 2)⁻¹) = _)
      · simpa [div_eq_mul_inv] using this
      · rw [div_eq_mul_inv]; ring
    · rw [hU]
      apply ContinuousOn.neg
      refine ContinuousOn.div continuousOn_const (continuousOn_id.pow 2) fun m hm => ?_
      have := lt_of_lt_of_le ha0 hm.1
      exact (pow_pos this 2).ne'
    · rw [hU]
      refine fc.mono ?_
      rintro y ⟨m, hm, rfl⟩
      have h0 := lt_of_lt_of_le ha0 hm.1
      constructor
      · exact div_le_div_of_nonneg_left (by positivity) h0 hm.2
      · simp only
        rw [div_le_iff₀ h0]
        have := hm.1
        rw [div_le_iff₀ hb0] at this
        linarith
  -- the primitive
  have prim : ∫ m in (M ^ 2 / b)..b, f m * (1 + M ^ 2 / m ^ 2) =
      2 / Real.pi * Real.arctan ((b - M ^ 2 / b) / G) -
      2 / Real.pi * Real.arctan ((M ^ 2 / b - M ^ 2 / (M ^ 2 / b)) / G) := by
    refine intervalIntegral.integral_eq_sub_of_hasDerivAt
      (f := fun m => 2 / Real.pi * Real.arctan ((m - M ^ 2 / m) / G)) ?_ ?_
    · intro m hm
      rw [hU] at hm
      have h0 : 0 < m := lt_of_lt_of_le ha0 hm.1
      have d1 : HasDerivAt (fun m : ℝ => M ^ 2 / m) (-(M ^ 2 / m ^ 2)) m := by
        have := (hasDerivAt_inv h0.ne').const_mul (M ^ 2)
        refine HasDerivAt.congr_deriv ?_ (?_ : M ^ 2 * (-(m ^ 2)⁻¹) = _)
        · simpa [div_eq_mul_inv] using this
        · rw [div_eq_mul_inv]; ring
      have d2 := (((hasDerivAt_id m).sub d1).div_const G).arctan.const_mul (2 / Real.pi)
      refine HasDerivAt.congr_deriv d2 ?_
      simp only [hf]
      rw [bw_form h0.ne' hG]
      simp only [id, Pi.sub_apply]
      generalize m - M ^ 2 / m = u
      have : 0 < u ^ 2 + G ^ 2 := by positivity
      have : 0 < 1 + (u / G) ^ 2 := by positivity
      field_simp
      ring
    · apply ContinuousOn.intervalIntegrable
      rw [hU]
      apply fc.mul
      apply ContinuousOn.add continuousOn_const
      refine ContinuousOn.div continuousOn_const (continuousOn_id.pow 2) fun m hm => ?_
      have := lt_of_lt_of_le ha0 hm.1
      exact (pow_pos this 2).ne'
  have split : ∫ m in (M ^ 2 / b)..b, f m * (1 + M ^ 2 / m ^ 2) =
      (∫ m in (M ^ 2 / b)..b, f m) + ∫ m in (M ^ 2 / b)..b, f m * (M ^ 2 / m ^ 2) := by
    rw [← intervalIntegral.integral_add]
    · congr 1; funext m; ring
    · apply ContinuousOn.intervalIntegrable; rw [hU]; exact fc
    · apply ContinuousOn.intervalIntegrable
      rw [hU]
      apply fc.mul
      refine ContinuousOn.div continuousOn_const (continuousOn_id.pow 2) fun m hm => ?_
      have := lt_of_lt_of_le ha0 hm.1
      exact (pow_pos this 2).ne'
  have e3 : (M ^ 2 / b - M ^ 2 / (M ^ 2 / b)) / G = -((b - M ^ 2 / b) / G) := by field_simp; ring
  rw [e3, Real.arctan_neg] at prim
  rw [refl] at split
  linarith

theorem arctan_top {f : ℝ → ℝ} (h : Tendsto f atTop atTop) :
    Tendsto (fun b => Real.arctan (f b)) atTop (𝓝 (Real.pi / 2)) :=
  (tendsto_nhds_of_tendsto_nhdsWithin Real.tendsto_arctan_atTop).comp h

/-- **C118.** The relativistic Breit-Wigner function is normalised to 1 over all positive masses. -/
theorem C118_normalised {M G : ℝ} (hM : 0 < M) (hG : 0 < G) :
    Tendsto (fun b => ∫ m in (M ^ 2 / b)..b, breitWigner m M G) atTop (𝓝 1) ∧
    Tendsto (fun b : ℝ => M ^ 2 / b) atTop (𝓝 0) := by
  refine ⟨?_, tendsto_const_nhds.div_atTop tendsto_id⟩
  have h1 : Tendsto (fun b : ℝ => (b - M ^ 2 / b) / G) atTop atTop := by
    apply Tendsto.atTop_div_const hG
    have : Tendsto (fun b : ℝ => -(M ^ 2 / b)) atTop (𝓝 (-0)) :=
      (tendsto_const_nhds.div_atTop tendsto_id).neg
    exact tendsto_id.atTop_add this
  have h2 := (arctan_top h1).const_mul (2 / Real.pi)
  have e : 2 / Real.pi * (Real.pi / 2) = 1 := by have := Real.pi_pos; field_simp
  rw [e] at h2
  refine h2.congr' ?_
  filter_upwards [eventually_gt_atTop M] with b hb
  exact ((C118_breit_wigner hM hG hb).2).symm

/-- **C118.** The integral of the Cauchy distribution. -/
theorem C118_cauchy {M G : ℝ} (hG : 0 < G) (a b : ℝ) :
    (∀ m, 0 < cauchyPdf m M G) ∧
    ∫ m in a..b, cauchyPdf m M G = (Real.arctan ((b - M) / G) - Real.arctan ((a - M) / G)) / Real.pi := by
  have hpi := Real.pi_pos
  have pos : ∀ m, 0 < (m - M) * (m - M) + G * G := fun m => by
    have := mul_self_nonneg (m - M); have := mul_pos hG hG; linarith
  refine ⟨fun m => by unfold cauchyPdf; have := pos m; simp only; positivity, ?_⟩
  rw [sub_div]
  refine intervalIntegral.integral_eq_sub_of_hasDerivAt
    (f := fun m => Real.arctan ((m - M) / G) / Real.pi) ?_ ?_
  · intro m _
    have d := ((((hasDerivAt_id m).sub_const M).div_const G).arctan).div_const Real.pi
    refine HasDerivAt.congr_deriv d ?_
    unfold cauchyPdf
    have := pos m
    simp only [id]
    generalize m - M = u at this
    have : 0 < 1 + (u / G) ^ 2 := by positivity
    field_simp
    ring
  · apply Continuous.intervalIntegrable
    unfold cauchyPdf
    simp only
    apply Continuous.div continuous_const (by fun_prop)
    intro m
    have := pos m
    positivity

/-- **C118.** The Cauchy distribution and the non-relativistic Breit-Wigner function are normalised. -/
theorem C118_cauchy_normalised {M G : ℝ} (hG : 0 < G) :
    Tendsto (fun b => ∫ m in (M - b)..(M + b), cauchyPdf m M G) atTop (𝓝 1) ∧
    Tendsto (fun b => ∫ m in (M - b)..(M + b), breitWignerNonrel m M G) atTop (𝓝 1) := by
  have key : ∀ G : ℝ, 0 < G → Tendsto (fun b => ∫ m in (M - b)..(M + b), cauchyPdf m M G) atTop (𝓝 1) := by
    intro G hG
    have h1 : Tendsto (fun b : ℝ => b / G) atTop atTop := tendsto_id.atTop_div_const hG
    have h2 := (arctan_top h1).const_mul (2 / Real.pi)
    have e : 2 / Real.pi * (Real.pi / 2) = 1 := by have := Real.pi_pos; field_simp
    rw [e] at h2
    refine h2.congr ?_
    intro b
    rw [(C118_cauchy hG _ _).2, add_sub_cancel_left, show M - b - M = -b by ring, neg_div, Real.arctan_neg]
    ring
  exact ⟨key G hG, key (G / 2) (by positivity)⟩

/-- **C118.** The masses drawn between two limits follow the Cauchy distribution: the share of the
distribution below the drawn mass is the uniform random number. -/
theorem C118_law {M G lo hi u : ℝ} (hG : 0 < G) (h : lo < hi) (hu0 : 0 ≤ u) (hu1 : u < 1) :
    ∃ m, Rand.cauchy M G lo hi u = some m ∧ lo ≤ m ∧ m < hi ∧
      ∫ x in lo..m, cauchyPdf x M G = u * ∫ x in lo..hi, cauchyPdf x M G := by
  obtain ⟨m, e, h1, h2⟩ := Rand.C55_cauchy (pole := M) hG.ne' h.le hu0 hu1
  have key : Real.arctan ((m - M) / G) = Rand.uniform (Real.arctan ((lo - M) / G))
      (Real.arctan ((hi - M) / G)) u := by
    simp only [Rand.cauchy, Rand.div, if_neg hG.ne', Option.bind_some, Option.map_some, Option.some.injEq] at e
    rw [← e]
    have : (M + G * Real.tan (Rand.uniform (Real.arctan ((lo - M) / G)) (Real.arctan ((hi - M) / G)) u) - M) / G
        = Real.tan (Rand.uniform (Real.arctan ((lo - M) / G)) (Real.arctan ((hi - M) / G)) u) := by
      field_simp; ring
    rw [this]
    have a1 := Real.neg_pi_div_two_lt_arctan ((lo - M) / G)
    have a2 := Real.arctan_lt_pi_div_two ((hi - M) / G)
    have a3 : Real.arctan ((lo - M) / G) ≤ Real.arctan ((hi - M) / G) :=
      Real.arctan_strictMono.monotone (div_le_div_of_nonneg_right (by linarith) hG.le)
    apply Real.arctan_tan
    · unfold Rand.uniform; nlinarith
    · unfold Rand.uniform; nlinarith
  have lt : Real.arctan ((lo - M) / G) < Real.arctan ((hi - M) / G) :=
    Real.arctan_strictMono (div_lt_div_of_pos_right (by linarith) hG)
  refine ⟨m, e, h1, ?_, ?_⟩
  · have : Real.arctan ((m - M) / G) < Real.arctan ((hi - M) / G) := by
      rw [key]; unfold Rand.uniform; nlinarith
    have := Real.arctan_strictMono.lt_iff_lt.1 this
    rw [div_lt_div_iff_of_pos_right hG] at this
    linarith
  · rw [(C118_cauchy hG _ _).2, (C118_cauchy hG _ _).2, key]
    unfold Rand.uniform
    ring

example : ∃ M G lo hi u : ℝ, 0 < M ∧ 0 < G ∧ lo < hi ∧ 0 ≤ u ∧ u < 1 :=
  ⟨776 / 1000, 149 / 1000, 28 / 100, 2, 1 / 2, by norm_num⟩

end Verif.Wid
