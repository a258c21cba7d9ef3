import Verif.Pot.Skyrme
import Mathlib.Analysis.SpecialFunctions.Trigonometric.ArctanDeriv
import Mathlib.Analysis.SpecialFunctions.Log.Deriv
import Mathlib.MeasureTheory.Integral.IntervalIntegral.FundThmCalculus
/-!
C127: the momentum dependent part of the potential.
-/
namespace Verif.Pot
open Verif.Kin Verif.Emt MeasureTheory

/-! ### Specification -/

/-- The Yukawa-like integral over a filled Fermi sphere with degeneracy 4, in spherical coordinates around the
momentum `k` (`q` the length, `c` the cosine of the angle): `(2C/rho0) ∫ 4 d³q/(2π)³ 1/(1 + (k-q)²/L²)` in MeV,
here in GeV. -/
noncomputable def yukawa (k kF C L : ℝ) : ℝ :=
  2 * C / (168 / 1000) *
    (4 / (2 * Real.pi) ^ 3 *
      ∫ q in (0 : ℝ)..kF, 2 * Real.pi * q ^ 2 * ∫ c in (-1 : ℝ)..1, 1 / (1 + (k ^ 2 + q ^ 2 - 2 * k * q * c) / L ^ 2))
    / 1000

/-! ### The inner integral -/

/-- The closed form of `q^2` times the inner integral. -/
noncomputable def shell (k L q : ℝ) : ℝ :=
  q * L ^ 2 / (2 * k) * Real.log (((k + q) ^ 2 + L ^ 2) / ((k - q) ^ 2 + L ^ 2))

theorem inner_pos {k q L c : ℝ} (hL : 0 < L) (hk : 0 ≤ k) (hq : 0 ≤ q) (hc : c ∈ Set.Icc (-1 : ℝ) 1) :
    0 < L ^ 2 + k ^ 2 + q ^ 2 - 2 * k * q * c := by
  have : k * q * c ≤ k * q * 1 := mul_le_mul_of_nonneg_left hc.2 (mul_nonneg hk hq)
  nlinarith [sq_nonneg (k - q), pow_pos hL 2]

theorem inner_eq {k q L : ℝ} (hL : 0 < L) (hk : 0 < k) (hq : 0 ≤ q) :
    q ^ 2 * (∫ c in (-1 : ℝ)..1, 1 / (1 + (k ^ 2 + q ^ 2 - 2 * k * q * c) / L ^ 2)) = shell k L q := by
  rcases hq.eq_or_lt with h0 | hq'
  · subst h0; simp [shell]
  have hd : ∀ c ∈ Set.uIcc (-1 : ℝ) 1,
      HasDerivAt (fun c => -(L ^ 2 / (2 * k * q)) * Real.log (L ^ 2 + k ^ 2 + q ^ 2 - 2 * k * q * c))
        (1 / (1 + (k ^ 2 + q ^ 2 - 2 * k * q * c) / L ^ 2)) c := by
    intro c hc
    rw [Set.uIcc_of_le (by norm_num)] at hc
    have hp := inner_pos hL hk.le hq hc
    have h1 : HasDerivAt (fun c : ℝ => L ^ 2 + k ^ 2 + q ^ 2 - 2 * k * q * c) (-(2 * k * q * 1)) c :=
      ((hasDerivAt_id c).const_mul (2 * k * q)).const_sub _
    refine HasDerivAt.congr_deriv ((h1.log hp.ne').const_mul _) ?_
    have hp' : 1 + (k ^ 2 + q ^ 2 - 2 * k * q * c) / L ^ 2 ≠ 0 := by
      have : 1 + (k ^ 2 + q ^ 2 - 2 * k * q * c) / L ^ 2 = (L ^ 2 + k ^ 2 + q ^ 2 - 2 * k * q * c) / L ^ 2 := by
        field_simp; ring
      rw [this]; positivity
    have e : 1 + (k ^ 2 + q ^ 2 - 2 * k * q * c) / L ^ 2 = (L ^ 2 + k ^ 2 + q ^ 2 - 2 * k * q * c) / L ^ 2 := by
      field_simp; ring
    rw [e]
    field_simp
  rw [intervalIntegral.integral_eq_sub_of_hasDerivAt hd]
  · unfold shell
    have e1 : L ^ 2 + k ^ 2 + q ^ 2 - 2 * k * q * 1 = (k - q) ^ 2 + L ^ 2 := by ring
    have e2 : L ^ 2 + k ^ 2 + q ^ 2 - 2 * k * q * -1 = (k + q) ^ 2 + L ^ 2 := by ring
    rw [e1, e2, Real.log_div (by positivity) (by positivity)]
    field_simp
    ring
  · apply ContinuousOn.intervalIntegrable
    apply ContinuousOn.div continuousOn_const (by fun_prop)
    intro c hc
    rw [Set.uIcc_of_le (by norm_num)] at hc
    have hp := inner_pos hL hk.le hq hc
    have e : 1 + (k ^ 2 + q ^ 2 - 2 * k * q * c) / L ^ 2 = (L ^ 2 + k ^ 2 + q ^ 2 - 2 * k * q * c) / L ^ 2 := by
      field_simp; ring
    rw [e]; positivity

theorem shell_continuous {k L : ℝ} (hL : 0 < L) : Continuous (shell k L) := by
  unfold shell
  apply Continuous.mul (by fun_prop)
  apply Continuous.log
  · apply Continuous.div (by fun_prop) (by fun_prop)
    intro q; positivity
  · intro q; positivity

/-- The antiderivative of the closed form. -/
noncomputable def ball (k L q : ℝ) : ℝ :=
  L ^ 3 / 2 * ((q * q + L * L - k * k) / (2 * k * L) *
      Real.log (((k + q) ^ 2 + L * L) / ((k - q) ^ 2 + L * L)) +
    2 * q / L - 2 * (Real.arctan ((k + q) / L) - Real.arctan ((k - q) / L)))

theorem ball_deriv {k L : ℝ} (hL : 0 < L) (hk : 0 < k) (q : ℝ) : HasDerivAt (ball k L) (shell k L q) q := by
  have hp : 0 < (k + q) ^ 2 + L * L := by positivity
  have hm : 0 < (k - q) ^ 2 + L * L := by positivity
  have h1 : HasDerivAt (fun q : ℝ => (k + q) ^ 2 + L * L) (2 * (k + q)) q := by
    refine HasDerivAt.congr_deriv (((((hasDerivAt_id q).const_add k).pow 2)).add_const _) ?_
    simp
  have h2 : HasDerivAt (fun q : ℝ => (k - q) ^ 2 + L * L) (-2 * (k - q)) q := by
    refine HasDerivAt.congr_deriv (((((hasDerivAt_id q).const_sub k).pow 2)).add_const _) ?_
    simp
  have h3 : HasDerivAt (fun q : ℝ => Real.log (((k + q) ^ 2 + L * L) / ((k - q) ^ 2 + L * L)))
      (2 * (k + q) / ((k + q) ^ 2 + L * L) + 2 * (k - q) / ((k - q) ^ 2 + L * L)) q := by
    have := (h1.log hp.ne').sub (h2.log hm.ne')
    refine HasDerivAt.congr_deriv (this.congr_of_eventuallyEq ?_) (by ring)
    refine Filter.Eventually.of_forall fun r => ?_
    show Real.log _ = Real.log _ - Real.log _
    rw [Real.log_div (by positivity) (by positivity)]
  have h4 : HasDerivAt (fun q : ℝ => (q * q + L * L - k * k) / (2 * k * L)) (2 * q / (2 * k * L)) q := by
    refine HasDerivAt.congr_deriv ((((((hasDerivAt_id q).mul (hasDerivAt_id q))).add_const (L * L)).sub_const
      (k * k)).div_const (2 * k * L)) ?_
    simp; ring
  have h5 : HasDerivAt (fun q : ℝ => Real.arctan ((k + q) / L)) (L / ((k + q) ^ 2 + L * L)) q := by
    have := ((((hasDerivAt_id q).const_add k)).div_const L).arctan
    refine HasDerivAt.congr_deriv this ?_
    simp only [id]
    have : 1 + ((k + q) / L) ^ 2 ≠ 0 := by positivity
    field_simp
    ring
  have h6 : HasDerivAt (fun q : ℝ => Real.arctan ((k - q) / L)) (-L / ((k - q) ^ 2 + L * L)) q := by
    have := ((((hasDerivAt_id q).const_sub k)).div_const L).arctan
    refine HasDerivAt.congr_deriv this ?_
    simp only [id]
    have : 1 + ((k - q) / L) ^ 2 ≠ 0 := by positivity
    field_simp
    ring
  have h7 : HasDerivAt (fun q : ℝ => 2 * q / L) (2 / L) q := by
    refine HasDerivAt.congr_deriv (((hasDerivAt_id q).const_mul 2).div_const L) ?_
    simp
  have h := ((((h4.mul h3).add h7).sub ((h5.sub h6).const_mul 2)).const_mul (L ^ 3 / 2))
  refine HasDerivAt.congr_deriv h ?_
  unfold shell
  rw [show (k + q) ^ 2 + L ^ 2 = (k + q) ^ 2 + L * L by ring, show (k - q) ^ 2 + L ^ 2 = (k - q) ^ 2 + L * L by ring]
  generalize Real.log _ = X
  field_simp
  ring

theorem ball_zero {k L : ℝ} : ball k L 0 = 0 := by
  unfold ball
  have : ((k + 0) ^ 2 + L * L) / ((k - 0) ^ 2 + L * L) = 1 ∨ ((k + 0) ^ 2 + L * L) / ((k - 0) ^ 2 + L * L) = 0 := by
    rw [add_zero, sub_zero]
    by_cases h : k ^ 2 + L * L = 0
    · right; rw [h, div_zero]
    · left; exact div_self h
  rcases this with h | h <;> rw [h] <;> simp

theorem outer_eq {k kF L : ℝ} (hL : 0 < L) (hk : 0 < k) (hF : 0 ≤ kF) :
    (∫ q in (0 : ℝ)..kF, 2 * Real.pi * q ^ 2 * ∫ c in (-1 : ℝ)..1, 1 / (1 + (k ^ 2 + q ^ 2 - 2 * k * q * c) / L ^ 2))
      = 2 * Real.pi * ball k L kF := by
  have e : (∫ q in (0 : ℝ)..kF, 2 * Real.pi * q ^ 2 *
      ∫ c in (-1 : ℝ)..1, 1 / (1 + (k ^ 2 + q ^ 2 - 2 * k * q * c) / L ^ 2)) =
      ∫ q in (0 : ℝ)..kF, 2 * Real.pi * shell k L q := by
    apply intervalIntegral.integral_congr
    intro q hq
    rw [Set.uIcc_of_le hF] at hq
    simp only
    rw [mul_assoc, inner_eq hL hk hq.1]
  rw [e, intervalIntegral.integral_const_mul,
    intervalIntegral.integral_eq_sub_of_hasDerivAt (fun q _ => ball_deriv hL hk q)
      ((shell_continuous hL).intervalIntegrable _ _), ball_zero, sub_zero]

/-- **C127.** For a moving particle the potential is the integral over the Fermi sphere. -/
theorem C127_moving {k kF C L : ℝ} (hL : 0 < L) (hk : 0 < k) (hF : 0 ≤ kF) :
    momMoving k kF C L = yukawa k kF C L := by
  unfold yukawa
  rw [outer_eq hL hk hF]
  unfold momMoving ball mev rho0
  have := Real.pi_pos
  field_simp

/-! ### At rest -/

theorem rest_inner (q L : ℝ) :
    (∫ c in (-1 : ℝ)..1, 1 / (1 + ((0 : ℝ) ^ 2 + q ^ 2 - 2 * 0 * q * c) / L ^ 2)) = 2 / (1 + q ^ 2 / L ^ 2) := by
  have : (fun c : ℝ => 1 / (1 + ((0 : ℝ) ^ 2 + q ^ 2 - 2 * 0 * q * c) / L ^ 2)) = fun _ => 1 / (1 + q ^ 2 / L ^ 2) := by
    funext c; simp
  rw [this, intervalIntegral.integral_const, smul_eq_mul]
  ring

theorem rest_outer {kF L : ℝ} (hL : 0 < L) :
    (∫ q in (0 : ℝ)..kF, 2 * Real.pi * q ^ 2 * ∫ c in (-1 : ℝ)..1, 1 / (1 + ((0 : ℝ) ^ 2 + q ^ 2 - 2 * 0 * q * c) / L ^ 2))
      = 4 * Real.pi * (L * L * kF - L ^ 3 * Real.arctan (kF / L)) := by
  simp only [rest_inner]
  have hd : ∀ q ∈ Set.uIcc (0 : ℝ) kF,
      HasDerivAt (fun q : ℝ => 4 * Real.pi * (L * L * q - L ^ 3 * Real.arctan (q / L)))
        (2 * Real.pi * q ^ 2 * (2 / (1 + q ^ 2 / L ^ 2))) q := by
    intro q _
    have h5 := ((hasDerivAt_id q).div_const L).arctan
    refine HasDerivAt.congr_deriv ((((hasDerivAt_id q).const_mul (L * L)).sub (h5.const_mul (L ^ 3))).const_mul
      (4 * Real.pi)) ?_
    simp only [id]
    have : 1 + q ^ 2 / L ^ 2 ≠ 0 := by positivity
    have : 1 + (q / L) ^ 2 ≠ 0 := by positivity
    have : L ^ 2 + q ^ 2 ≠ 0 := by positivity
    field_simp
    ring
  rw [intervalIntegral.integral_eq_sub_of_hasDerivAt hd]
  · simp
  · apply Continuous.intervalIntegrable
    apply Continuous.mul (by fun_prop)
    apply Continuous.div (by fun_prop) (by fun_prop)
    intro q; positivity

/-- **C127.** For a particle at rest it is the same integral. -/
theorem C127_rest {kF C L : ℝ} (hL : 0 < L) : momAtRest kF C L = yukawa 0 kF C L := by
  unfold yukawa
  rw [rest_outer hL]
  unfold momAtRest mev rho0
  have := Real.pi_pos
  field_simp
  ring

/-- The Fermi momentum fills the sphere: degeneracy 4 and `∫ d³q/(2π)³` over the sphere give the density. -/
theorem C127_fermi {rho : ℝ} (h : 0 ≤ rho) :
    0 ≤ fermiMomentum rho ∧ 4 * (4 / 3 * Real.pi * fermiMomentum rho ^ 3) / (2 * Real.pi) ^ 3 = rho := by
  have hp := Real.pi_pos
  have h0 : 0 ≤ 6 * Real.pi * Real.pi * rho / 4 := by positivity
  have e : fermiMomentum rho = (6 * Real.pi * Real.pi * rho / 4) ^ ((1 : ℝ) / 3) := by
    unfold fermiMomentum cbrt; rw [if_neg (not_lt.2 h0)]
  have e3 : fermiMomentum rho ^ 3 = 6 * Real.pi * Real.pi * rho / 4 := by
    rw [e, ← Real.rpow_natCast, ← Real.rpow_mul h0]; norm_num
  refine ⟨by rw [e]; exact Real.rpow_nonneg h0 _, ?_⟩
  rw [e3]
  field_simp
  ring

/-- **C127.** What the code computes: the integral for the momentum in 1/fm, or the one at rest if that is less than
`1e-6`. -/
theorem C127_part {p rho C L : ℝ} (hL : 0 < L) (h : 0 ≤ rho) :
    momPart p rho C L = yukawa (if p / hbarc < 1 / 1000000 then 0 else p / hbarc) (fermiMomentum rho) C L := by
  unfold momPart
  by_cases hc : p / hbarc < reallySmall
  · rw [if_pos hc, if_pos (by unfold reallySmall at hc; exact hc), C127_rest hL]
  · rw [if_neg hc, if_neg (by unfold reallySmall at hc; exact hc)]
    have : 0 < reallySmall := by unfold reallySmall; norm_num
    exact C127_moving hL (lt_of_lt_of_le this (not_lt.1 hc)) (C127_fermi h).1

/-! ### Size -/

theorem inner_bounds {k q L : ℝ} (hL : 0 < L) (hk : 0 ≤ k) (hq : 0 ≤ q) :
    0 ≤ (∫ c in (-1 : ℝ)..1, 1 / (1 + (k ^ 2 + q ^ 2 - 2 * k * q * c) / L ^ 2)) ∧
    (∫ c in (-1 : ℝ)..1, 1 / (1 + (k ^ 2 + q ^ 2 - 2 * k * q * c) / L ^ 2)) ≤ 2 := by
  have key : ∀ c ∈ Set.Icc (-1 : ℝ) 1, 0 ≤ (k ^ 2 + q ^ 2 - 2 * k * q * c) / L ^ 2 := by
    intro c hc
    have : k * q * c ≤ k * q * 1 := mul_le_mul_of_nonneg_left hc.2 (mul_nonneg hk hq)
    apply div_nonneg _ (by positivity)
    nlinarith [sq_nonneg (k - q)]
  constructor
  · apply intervalIntegral.integral_nonneg (by norm_num)
    intro c hc
    have := key c hc
    positivity
  · have e : (∫ _ in (-1 : ℝ)..1, (1 : ℝ)) = 2 := by
      rw [intervalIntegral.integral_const, smul_eq_mul]; norm_num
    refine le_trans (b := ∫ _ in (-1 : ℝ)..1, (1 : ℝ)) ?_ e.le
    apply intervalIntegral.integral_mono_on (by norm_num)
    · apply ContinuousOn.intervalIntegrable
      apply ContinuousOn.div continuousOn_const (by fun_prop)
      intro c hc
      rw [Set.uIcc_of_le (by norm_num)] at hc
      have := key c hc
      positivity
    · exact intervalIntegrable_const
    · intro c hc
      have := key c hc
      rw [div_le_one (by positivity)]
      linarith

theorem cube_integral (kF : ℝ) : 2 / 3 * kF ^ 3 = ∫ q in (0 : ℝ)..kF, 2 * q ^ 2 := by
  have hd : ∀ q ∈ Set.uIcc (0 : ℝ) kF, HasDerivAt (fun q : ℝ => 2 / 3 * q ^ 3) (2 * q ^ 2) q := by
    intro q _
    refine HasDerivAt.congr_deriv ((hasDerivAt_pow 3 q).const_mul (2 / 3)) ?_
    norm_num; ring
  rw [intervalIntegral.integral_eq_sub_of_hasDerivAt hd (by apply Continuous.intervalIntegrable; fun_prop)]
  ring

theorem rest_bounds {L kF : ℝ} (hL : 0 < L) (hF : 0 ≤ kF) :
    0 ≤ 2 * (L * L * kF - L ^ 3 * Real.arctan (kF / L)) ∧
    2 * (L * L * kF - L ^ 3 * Real.arctan (kF / L)) ≤ 2 / 3 * kF ^ 3 := by
  have hp := Real.pi_pos
  have h := rest_outer (kF := kF) hL
  simp only [rest_inner, mul_assoc (2 * Real.pi)] at h
  rw [intervalIntegral.integral_const_mul] at h
  have e : 2 * (L * L * kF - L ^ 3 * Real.arctan (kF / L)) =
      ∫ q in (0 : ℝ)..kF, q ^ 2 * (2 / (1 + q ^ 2 / L ^ 2)) := by
    have h2 : 2 * Real.pi * (2 * (L * L * kF - L ^ 3 * Real.arctan (kF / L))) =
        2 * Real.pi * ∫ q in (0 : ℝ)..kF, q ^ 2 * (2 / (1 + q ^ 2 / L ^ 2)) := by rw [h]; ring
    exact mul_left_cancel₀ (by positivity) h2
  rw [e, cube_integral]
  constructor
  · apply intervalIntegral.integral_nonneg hF
    intro q _; positivity
  · apply intervalIntegral.integral_mono_on hF
    · apply Continuous.intervalIntegrable
      apply Continuous.mul (by fun_prop)
      apply Continuous.div (by fun_prop) (by fun_prop)
      intro q; positivity
    · apply Continuous.intervalIntegrable; fun_prop
    · intro q _
      have : 2 / (1 + q ^ 2 / L ^ 2) ≤ 2 := by
        rw [div_le_iff₀ (by positivity)]
        have : 0 ≤ q ^ 2 / L ^ 2 := by positivity
        linarith
      nlinarith [sq_nonneg q]

theorem ball_bounds {k L kF : ℝ} (hL : 0 < L) (hk : 0 < k) (hF : 0 ≤ kF) :
    0 ≤ ball k L kF ∧ ball k L kF ≤ 2 / 3 * kF ^ 3 := by
  have e : ball k L kF = ∫ q in (0 : ℝ)..kF, shell k L q := by
    rw [intervalIntegral.integral_eq_sub_of_hasDerivAt (fun q _ => ball_deriv hL hk q)
      ((shell_continuous hL).intervalIntegrable _ _), ball_zero, sub_zero]
  rw [e, cube_integral]
  constructor
  · apply intervalIntegral.integral_nonneg hF
    intro q hq
    rw [← inner_eq hL hk hq.1]
    exact mul_nonneg (sq_nonneg _) (inner_bounds hL hk.le hq.1).1
  · apply intervalIntegral.integral_mono_on hF ((shell_continuous hL).intervalIntegrable _ _)
      (by apply Continuous.intervalIntegrable; fun_prop)
    intro q hq
    rw [← inner_eq hL hk hq.1]
    nlinarith [(inner_bounds hL hk.le hq.1).2, sq_nonneg q]

/-- **C127.** The momentum dependence is never stronger than `2 C rho / rho0`, that at infinite range of the
interaction, and has the sign of `C`. -/
theorem C127_bounds {p rho C L : ℝ} (hL : 0 < L) (h : 0 ≤ rho) (hC : C ≤ 0) :
    2 * C * (rho / (168 / 1000)) / 1000 ≤ momPart p rho C L ∧ momPart p rho C L ≤ 0 := by
  obtain ⟨hF, hF3⟩ := C127_fermi h
  set kF := fermiMomentum rho
  have hp := Real.pi_pos
  rw [C127_part hL h]
  have key : ∃ b, 0 ≤ b ∧ b ≤ 2 / 3 * kF ^ 3 ∧
      yukawa (if p / hbarc < 1 / 1000000 then 0 else p / hbarc) kF C L =
        2 * C / (168 / 1000) * (4 / (2 * Real.pi) ^ 3 * (2 * Real.pi * b)) / 1000 := by
    split_ifs with hc
    · refine ⟨2 * (L * L * kF - L ^ 3 * Real.arctan (kF / L)), (rest_bounds hL hF).1, (rest_bounds hL hF).2, ?_⟩
      unfold yukawa; rw [rest_outer hL]; ring
    · have hk : 0 < p / hbarc := lt_of_lt_of_le (by norm_num) (not_lt.1 hc)
      refine ⟨ball (p / hbarc) L kF, (ball_bounds hL hk hF).1, (ball_bounds hL hk hF).2, ?_⟩
      unfold yukawa; rw [outer_eq hL hk hF]
  obtain ⟨b, h0, h1, e⟩ := key
  rw [e]
  have hX : 4 / (2 * Real.pi) ^ 3 * (2 * Real.pi * b) ≤ rho := by
    rw [← hF3]
    have : 4 / (2 * Real.pi) ^ 3 * (2 * Real.pi * b) ≤ 4 / (2 * Real.pi) ^ 3 * (2 * Real.pi * (2 / 3 * kF ^ 3)) := by
      gcongr
    refine this.trans (le_of_eq ?_)
    ring
  have hX0 : 0 ≤ 4 / (2 * Real.pi) ^ 3 * (2 * Real.pi * b) := by positivity
  generalize 4 / (2 * Real.pi) ^ 3 * (2 * Real.pi * b) = X at hX hX0
  constructor <;> nlinarith

/-- The parameters of the documentation: attractive at saturation density, for a nucleon at rest and a moving one. -/
example (p : ℝ) : 2 * -63.5 * (rho0 / (168 / 1000)) / 1000 ≤ momPart p rho0 (-63.5) 2.13 ∧
    momPart p rho0 (-63.5) 2.13 ≤ 0 :=
  C127_bounds (by norm_num) rho0_pos.le (by norm_num)

end Verif.Pot
