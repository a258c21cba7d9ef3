import Verif.Pauli.Props
import Mathlib.Analysis.SpecialFunctions.Integrals.Basic

/-
C102: the table of weights is the overlap of the Gaussian with the averaging sphere.
-/
namespace Verif.Pauli
open Real

/-- The Gaussian without its prefactor. -/
noncomputable def gauss (sig s : ℝ) : ℝ := exp (-(s ^ 2) / (2 * sig ^ 2))

/-- Half the area, divided by π, of the part of the sphere with radius `s` around the particle that lies inside the ball
of radius `rr` whose centre has the distance `d` (for `|d - rr| ≤ s ≤ d + rr`; continued
antisymmetrically to negative `s`, it also counts the full spheres of radius `s < rr - d`). -/
noncomputable def shell (rr d s : ℝ) : ℝ := s * (rr ^ 2 - (d - s) ^ 2) / (2 * d)

theorem gauss_erf (sig s : ℝ) (hs : 0 < sig) :
    HasDerivAt (fun s => erf (s / sqrt 2 / sig)) (2 / sqrt (2 * π) / sig * gauss sig s) s := by
  have h1 : HasDerivAt (fun x => ∫ t in (0 : ℝ)..x, exp (-t ^ 2)) (exp (-(s / sqrt 2 / sig) ^ 2))
      (s / sqrt 2 / sig) := by
    apply intervalIntegral.integral_hasDerivAt_right
    · exact (by fun_prop : Continuous fun t : ℝ => exp (-t ^ 2)).intervalIntegrable _ _
    · exact (by fun_prop : Continuous fun t : ℝ => exp (-t ^ 2)).stronglyMeasurableAtFilter _ _
    · exact (by fun_prop : Continuous fun t : ℝ => exp (-t ^ 2)).continuousAt
  have h2 : HasDerivAt (fun s : ℝ => s / sqrt 2 / sig) (1 / sqrt 2 / sig) s :=
    ((hasDerivAt_id s).div_const _).div_const _
  have h3 := (h1.comp s h2).const_mul (2 / sqrt π)
  have e : exp (-(s / sqrt 2 / sig) ^ 2) = gauss sig s := by
    simp only [gauss]
    congr 1
    rw [div_pow, div_pow, sq_sqrt (by norm_num)]
    field_simp
  rw [e] at h3
  refine HasDerivAt.congr_deriv h3 ?_
  rw [sqrt_mul (by norm_num)]
  field_simp

theorem gauss_deriv (sig s : ℝ) (hs : 0 < sig) :
    HasDerivAt (gauss sig) (-(s / sig ^ 2) * gauss sig s) s := by
  have h1 : HasDerivAt (fun s : ℝ => -(s ^ 2) / (2 * sig ^ 2)) (-(2 * s) / (2 * sig ^ 2)) s := by
    have := ((hasDerivAt_pow 2 s).neg).div_const (2 * sig ^ 2)
    simpa using this
  have h2 := h1.exp
  unfold gauss
  refine HasDerivAt.congr_deriv h2 ?_
  field_simp

/-- The antiderivative. -/
noncomputable def anti (sig rr d s : ℝ) : ℝ :=
  (sig ^ 2 * gauss sig s * ((s - d) ^ 2 - rr ^ 2 + 2 * sig ^ 2) +
    sqrt (2 * π) * sig ^ 3 * d * erf (s / sqrt 2 / sig)) / (2 * d)

theorem anti_deriv (sig rr d s : ℝ) (hs : 0 < sig) :
    HasDerivAt (anti sig rr d) (shell rr d s * gauss sig s) s := by
  have h1 := gauss_deriv sig s hs
  have h2 := gauss_erf sig s hs
  have h3 : HasDerivAt (fun s : ℝ => (s - d) ^ 2 - rr ^ 2 + 2 * sig ^ 2) (2 * (s - d)) s := by
    have := ((((hasDerivAt_id s).sub_const d).pow 2).sub_const (rr ^ 2)).add_const (2 * sig ^ 2)
    simpa using this
  have h4 := (((h1.const_mul (sig ^ 2)).mul h3).add
    (h2.const_mul (sqrt (2 * π) * sig ^ 3 * d))).div_const (2 * d)
  unfold anti shell
  refine HasDerivAt.congr_deriv h4 ?_
  have hp : sqrt (2 * π) ≠ 0 := by positivity
  have hs' : sig ≠ 0 := hs.ne'
  have e1 : sqrt (2 * π) * sig ^ 3 * d * (2 / sqrt (2 * π) / sig * gauss sig s)
      = 2 * sig ^ 2 * d * gauss sig s := by
    field_simp
  have e2 : sig ^ 2 * (-(s / sig ^ 2) * gauss sig s) = - s * gauss sig s := by
    field_simp
  rw [e1, e2]
  ring

theorem overlap (sig rr d a b : ℝ) (hs : 0 < sig) :
    ∫ s in a..b, shell rr d s * gauss sig s = anti sig rr d b - anti sig rr d a := by
  apply intervalIntegral.integral_eq_sub_of_hasDerivAt
  · intro s _
    exact anti_deriv sig rr d s hs
  · apply Continuous.intervalIntegrable
    unfold shell gauss
    fun_prop

theorem exp_gauss (sig s : ℝ) : exp (-(s / sqrt 2 / sig) * (s / sqrt 2 / sig)) = gauss sig s := by
  simp only [gauss]
  congr 1
  have : sqrt 2 * sqrt 2 = 2 := mul_self_sqrt (by norm_num)
  rw [neg_mul, div_div, div_mul_div_comm, neg_div]
  congr 2
  · ring
  · calc sqrt 2 * sig * (sqrt 2 * sig) = (sqrt 2 * sqrt 2) * sig ^ 2 := by ring
      _ = 2 * sig ^ 2 := by rw [this]

/-- C102: at every distance `d ≥ 1e-6` the tabulated integral is the integral of the Gaussian around
the particle over the part of the averaging ball that is inside the cutoff. -/
theorem C102_overlap (c : Cfg) (d : ℝ) (hs : 0 < c.sig) (hd : 1 / 1000000 ≤ d) :
    integralOf c d = ∫ s in (d - c.rr)..(min c.rc (d + c.rr)), shell c.rr d s * gauss c.sig s := by
  have hd0 : d ≠ 0 := by intro h; rw [h] at hd; norm_num at hd
  rw [overlap c.sig c.rr d _ _ hs]
  have hp : sqrt (2 * π) ≠ 0 := by positivity
  simp only [integralOf, if_neg (not_lt.2 hd), exp_gauss]
  split_ifs with h
  · rw [min_eq_right h.le]
    simp only [anti]
    field_simp
    ring
  · rw [min_eq_left (not_lt.1 h)]
    simp only [anti]
    field_simp
    ring

/-- C102: at distance zero the tabulated integral is the one over the whole averaging ball. -/
theorem C102_overlap_centre (c : Cfg) (hs : 0 < c.sig) :
    integralOf c 0 = ∫ s in (0 : ℝ)..c.rr, 2 * s ^ 2 * gauss c.sig s := by
  have key : ∀ s, HasDerivAt (fun s => sqrt (2 * π) * c.sig ^ 3 * erf (s / sqrt 2 / c.sig)
      - 2 * c.sig ^ 2 * (s * gauss c.sig s)) (2 * s ^ 2 * gauss c.sig s) s := by
    intro s
    have h1 := (gauss_erf c.sig s hs).const_mul (sqrt (2 * π) * c.sig ^ 3)
    have h2 := ((hasDerivAt_id s).mul (gauss_deriv c.sig s hs)).const_mul (2 * c.sig ^ 2)
    have h3 := h1.sub h2
    refine HasDerivAt.congr_deriv h3 ?_
    have hp : sqrt (2 * π) ≠ 0 := by positivity
    have hs' : c.sig ≠ 0 := hs.ne'
    simp only [id]
    field_simp
    ring
  rw [intervalIntegral.integral_eq_sub_of_hasDerivAt (fun s _ => key s)
    (by apply Continuous.intervalIntegrable; unfold gauss; fun_prop)]
  have h0 : erf 0 = 0 := by simp [erf]
  simp only [integralOf, exp_gauss]
  norm_num [h0]
  ring

theorem rpow_three_halves (c : Cfg) (hs : 0 < c.sig) :
    (2 * π * c.sig ^ 2) ^ (3 / 2 : ℝ) = (sqrt (2 * π) * c.sig) ^ 3 := by
  have e : 2 * π * c.sig ^ 2 = (sqrt (2 * π) * c.sig) ^ (2 : ℝ) := by
    rw [show (2 : ℝ) = ((2 : ℕ) : ℝ) by norm_num, rpow_natCast, mul_pow]
    have := sq_sqrt (show (0 : ℝ) ≤ 2 * π by positivity)
    push_cast
    rw [this]
  rw [e, ← rpow_mul (by positivity), ← rpow_natCast]
  norm_num

/-- C102: the normalisation is the integral of the normalised Gaussian over the ball of the cutoff
radius. -/
theorem C102_norm (c : Cfg) (hs : 0 < c.sig) :
    norm c = ∫ s in (0 : ℝ)..c.rc,
      4 * π * s ^ 2 * (gauss c.sig s / (2 * π * c.sig ^ 2) ^ (3 / 2 : ℝ)) := by
  have key : ∀ s, HasDerivAt (fun s => erf (s / sqrt 2 / c.sig)
      - 2 / sqrt (2 * π) / c.sig * (s * gauss c.sig s))
      (4 * π * s ^ 2 * (gauss c.sig s / (2 * π * c.sig ^ 2) ^ (3 / 2 : ℝ))) s := by
    intro s
    have h1 := gauss_erf c.sig s hs
    have h2 := ((hasDerivAt_id s).mul (gauss_deriv c.sig s hs)).const_mul (2 / sqrt (2 * π) / c.sig)
    have h3 := h1.sub h2
    refine HasDerivAt.congr_deriv h3 ?_
    rw [rpow_three_halves c hs]
    have hp : sqrt (2 * π) ≠ 0 := by positivity
    have hs' : c.sig ≠ 0 := hs.ne'
    have hq : sqrt (2 * π) ^ 2 = 2 * π := sq_sqrt (by positivity)
    have e : 4 * π = 2 * sqrt (2 * π) ^ 2 := by rw [hq]; ring
    rw [e]
    simp only [id]
    field_simp
    ring
  rw [intervalIntegral.integral_eq_sub_of_hasDerivAt (fun s _ => key s)
    (by apply Continuous.intervalIntegrable; unfold gauss; fun_prop)]
  have h0 : erf 0 = 0 := by simp [erf]
  have e : exp (-(1 / 2) * c.rc * c.rc / c.sig / c.sig) = gauss c.sig c.rc := by
    simp only [gauss]
    congr 1
    field_simp
  simp only [norm, e, zero_div, h0]
  ring

/-- C102: hence every entry of the table is the share of the (cut and normalised) Gaussian of a
particle at that distance inside the averaging ball, divided by the number of states in the averaging
volume. -/
theorem C102_weights (c : Cfg) (hs : 0 < c.sig) (k : ℕ)
    (hk : 1 / 1000000 ≤ (c.rr + c.rc) / tableSize * k) :
    let d := (c.rr + c.rc) / tableSize * k
    weight c k = (∫ s in (d - c.rr)..(min c.rc (d + c.rr)),
        2 * π * shell c.rr d s * (gauss c.sig s / (2 * π * c.sig ^ 2) ^ (3 / 2 : ℝ))) /
      (∫ s in (0 : ℝ)..c.rc, 4 * π * s ^ 2 * (gauss c.sig s / (2 * π * c.sig ^ 2) ^ (3 / 2 : ℝ))) /
      (2 * (4 / 3 * π * c.rr ^ 3) * (4 / 3 * π * c.rp ^ 3) / (2 * π * c.hbarc) ^ 3) := by
  intro d
  rw [← C102_norm c hs]
  have e1 : ∀ s, 2 * π * shell c.rr d s * (gauss c.sig s / (2 * π * c.sig ^ 2) ^ (3 / 2 : ℝ))
      = (2 * π / (2 * π * c.sig ^ 2) ^ (3 / 2 : ℝ)) * (shell c.rr d s * gauss c.sig s) := by
    intro s; ring
  simp only [e1]
  rw [intervalIntegral.integral_const_mul, ← C102_overlap c d hs hk]
  have e2 : 2 * π * c.sig * c.sig = 2 * π * c.sig ^ 2 := by ring
  have e3 : phaseVolume c
      = 2 * (4 / 3 * π * c.rr ^ 3) * (4 / 3 * π * c.rp ^ 3) / (2 * π * c.hbarc) ^ 3 := by
    simp only [phaseVolume]
    congr 1 <;> ring
  simp only [weight, e2, e3]
  rw [mul_comm (integralOf c _)]

example : ∃ c : Cfg, 0 < c.sig ∧ 1 / 1000000 ≤ (c.rr + c.rc) / tableSize * (1 : ℕ) :=
  ⟨defaults, by norm_num [defaults], by norm_num [defaults, tableSize]⟩

end Verif.Pauli
