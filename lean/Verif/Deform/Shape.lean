import Verif.Deform.Model
import Mathlib.MeasureTheory.Integral.IntervalIntegral.FundThmCalculus
import Mathlib.Analysis.SpecialFunctions.Trigonometric.Deriv
import Mathlib.Analysis.SpecialFunctions.Trigonometric.Bounds
import Mathlib.Analysis.Real.Pi.Bounds
import Mathlib.Analysis.SpecialFunctions.ExpDeriv
import Mathlib.Tactic.Linarith
import Mathlib.Tactic.Ring
import Mathlib.Tactic.FieldSimp
import Mathlib.Tactic.Positivity
import Mathlib.Tactic.LinearCombination

/-! The shape of deformed nuclei: C163. -/

namespace Verif.Deform
open Real

/-! ### Specification -/

/-- Legendre polynomials by Bonnet's recursion. -/
noncomputable def legendre : ℕ → ℝ → ℝ
  | 0, _ => 1
  | 1, x => x
  | n + 2, x => ((2 * n + 3) * x * legendre (n + 1) x - (n + 1) * legendre n x) / (n + 2)

/-- Spherical harmonics Y_l^0. -/
noncomputable def Y0 (l : ℕ) (x : ℝ) : ℝ := √((2 * l + 1) / (4 * π)) * legendre l x

/-- The real part of Y_2^2, with P_2^2(x) = 3 (1 - x²). -/
noncomputable def Y22 (x phi : ℝ) : ℝ := √(5 / (4 * π) * (1 / 24)) * (3 * (1 - x ^ 2)) * cos (2 * phi)

/-- The radius of the user guide, with its parameters. -/
noncomputable def documented (R0 b2 b3 b4 g x phi : ℝ) : ℝ :=
  R0 * (1 + b2 * (cos g * Y0 2 x + √2 * sin g * Y22 x phi) + b3 * Y0 3 x + b4 * Y0 4 x)

/-- The mean over all directions. -/
noncomputable def mean (f : ℝ → ℝ → ℝ) : ℝ :=
  (∫ x in (-1 : ℝ)..1, ∫ phi in (0 : ℝ)..2 * π, f x phi) / (4 * π)

/-! ### Proofs -/

theorem sqrt_quarter (a : ℝ) : √(a / (4 * π)) = √(a / π) / 2 := by
  have : a / (4 * π) = a / π * (1 / 2) ^ 2 := by field_simp; norm_num
  rw [this, sqrt_mul' _ (by positivity), sqrt_sq (by norm_num)]
  ring

theorem Y0_2 (x : ℝ) : Y0 2 x = y20 x := by
  unfold Y0 y20
  have : ((2 * (2 : ℕ) + 1) : ℝ) = 5 := by norm_num
  rw [this, sqrt_quarter]
  simp only [legendre]
  push_cast
  ring

theorem Y0_3 (x : ℝ) : Y0 3 x = y30 x := by
  unfold Y0 y30
  have : ((2 * (3 : ℕ) + 1) : ℝ) = 7 := by norm_num
  rw [this, sqrt_quarter]
  simp only [legendre]
  push_cast
  ring

theorem Y0_4 (x : ℝ) : Y0 4 x = y40 x := by
  unfold Y0 y40
  have : ((2 * (4 : ℕ) + 1) : ℝ) = 9 := by norm_num
  rw [this, sqrt_quarter]
  have h9 : √(9 / π) = 3 * √(1 / π) := by
    have : (9 : ℝ) / π = 1 / π * 3 ^ 2 := by ring
    rw [this, sqrt_mul' _ (by positivity), sqrt_sq (by norm_num)]
    ring
  rw [h9]
  simp only [legendre]
  push_cast
  ring

theorem Y22_eq (x phi : ℝ) : Y22 x phi = y22 x phi := by
  unfold Y22 y22
  have : 5 / (4 * π) * (1 / 24) = 15 / (2 * π) * (1 / 12) ^ 2 := by field_simp; norm_num
  rw [this, sqrt_mul' _ (by positivity), sqrt_sq (by norm_num)]
  ring

/-- **C163.** The nucleon density is the Woods-Saxon distribution with the radius of the user guide, for all
parameters and directions; `y_l_m` gives the harmonics it knows and an exception for all others. -/
theorem C163_density (n : Nucleus) (r x phi : ℝ) :
    n.density r x phi =
      n.sat / (1 + exp ((r - documented n.radius n.beta2 n.beta3 n.beta4 n.gamma x phi) / n.diff)) ∧
    (∀ l m : ℤ, yLM l m x phi =
      if m = 0 ∧ (l = 2 ∨ l = 3 ∨ l = 4) then some (Y0 l.toNat x)
      else if l = 2 ∧ m = 2 then some (Y22 x phi) else none) := by
  constructor
  · unfold Nucleus.density Nucleus.surface documented
    rw [Y0_2, Y0_3, Y0_4, Y22_eq]
  · intro l m
    unfold yLM
    by_cases h2 : l = 2
    · subst h2
      by_cases m0 : m = 0
      · subst m0; simp [← Y0_2]
      · by_cases m2 : m = 2
        · subst m2; simp [← Y22_eq]
        · simp [m0, m2]
    · by_cases h3 : l = 3
      · subst h3
        by_cases m0 : m = 0
        · subst m0; simp [← Y0_3]
        · simp [m0]
      · by_cases h4 : l = 4
        · subst h4
          by_cases m0 : m = 0
          · subst m0; simp [← Y0_4]
          · simp [m0]
        · simp [h2, h3, h4]

theorem poly (e : ℕ → ℝ) :
    ∫ c in (-1 : ℝ)..1, (e 0 + e 1 * c + e 2 * c ^ 2 + e 3 * c ^ 3 + e 4 * c ^ 4 + e 5 * c ^ 5 + e 6 * c ^ 6 +
      e 7 * c ^ 7 + e 8 * c ^ 8) = 2 * (e 0 + e 2 / 3 + e 4 / 5 + e 6 / 7 + e 8 / 9) := by
  have hd : ∀ c ∈ Set.uIcc (-1 : ℝ) 1, HasDerivAt
      (fun c => e 0 * c + e 1 * c ^ 2 / 2 + e 2 * c ^ 3 / 3 + e 3 * c ^ 4 / 4 + e 4 * c ^ 5 / 5 + e 5 * c ^ 6 / 6 +
        e 6 * c ^ 7 / 7 + e 7 * c ^ 8 / 8 + e 8 * c ^ 9 / 9)
      (e 0 + e 1 * c + e 2 * c ^ 2 + e 3 * c ^ 3 + e 4 * c ^ 4 + e 5 * c ^ 5 + e 6 * c ^ 6 +
      e 7 * c ^ 7 + e 8 * c ^ 8) c := by
    intro c _
    have p (n : ℕ) (k : ℝ) : HasDerivAt (fun c : ℝ => e n * c ^ (n + 1) / k) (e n * ((n + 1 : ℕ) * c ^ n) / k) c := by
      have := ((hasDerivAt_pow (n + 1) c).const_mul (e n)).div_const k
      simpa using this
    have p0 : HasDerivAt (fun c : ℝ => e 0 * c) (e 0) c := by simpa using (hasDerivAt_id c).const_mul (e 0)
    refine ((((((((p0.add (p 1 2)).add (p 2 3)).add (p 3 4)).add (p 4 5)).add (p 5 6)).add (p 6 7)).add
      (p 7 8)).add (p 8 9)).congr_deriv ?_
    push_cast
    ring
  rw [intervalIntegral.integral_eq_sub_of_hasDerivAt hd (Continuous.intervalIntegrable (by fun_prop) _ _)]
  ring

theorem inner (a b : ℝ) : ∫ p in (0 : ℝ)..2 * π, (a + b * cos (2 * p)) = 2 * π * a := by
  have hd : ∀ p ∈ Set.uIcc (0 : ℝ) (2 * π), HasDerivAt (fun p => a * p + b * sin (2 * p) / 2)
      (a + b * cos (2 * p)) p := by
    intro p _
    have h1 : HasDerivAt (fun p : ℝ => a * p) a p := by simpa using (hasDerivAt_id p).const_mul a
    have h2 : HasDerivAt (fun p : ℝ => sin (2 * p)) (cos (2 * p) * 2) p := by
      have := ((hasDerivAt_id p).const_mul 2).sin
      simpa using this
    refine (h1.add ((h2.const_mul b).div_const 2)).congr_deriv ?_
    ring
  rw [intervalIntegral.integral_eq_sub_of_hasDerivAt hd (Continuous.intervalIntegrable (by fun_prop) _ _)]
  have : sin (2 * (2 * π)) = 0 := by
    have := Real.sin_nat_mul_pi 4
    push_cast at this
    rw [← this]; ring_nf
  rw [this]
  simp
  ring

theorem inner_sq (a b : ℝ) : ∫ p in (0 : ℝ)..2 * π, (a + b * cos (2 * p)) ^ 2 = 2 * π * a ^ 2 + π * b ^ 2 := by
  have hd : ∀ p ∈ Set.uIcc (0 : ℝ) (2 * π), HasDerivAt
      (fun p => a ^ 2 * p + a * b * sin (2 * p) + b ^ 2 / 2 * p + b ^ 2 / 4 * (sin (2 * p) * cos (2 * p)))
      ((a + b * cos (2 * p)) ^ 2) p := by
    intro p _
    have h1 (k : ℝ) : HasDerivAt (fun p : ℝ => k * p) k p := by simpa using (hasDerivAt_id p).const_mul k
    have h2 : HasDerivAt (fun p : ℝ => sin (2 * p)) (cos (2 * p) * 2) p := by
      have := ((hasDerivAt_id p).const_mul 2).sin
      simpa using this
    have h3 : HasDerivAt (fun p : ℝ => cos (2 * p)) (-sin (2 * p) * 2) p := by
      have := ((hasDerivAt_id p).const_mul 2).cos
      simpa using this
    refine ((((h1 (a ^ 2)).add (h2.const_mul (a * b))).add (h1 (b ^ 2 / 2))).add
      ((h2.mul h3).const_mul (b ^ 2 / 4))).congr_deriv ?_
    have := sin_sq_add_cos_sq (2 * p)
    linear_combination (-(b ^ 2) / 2) * this
  rw [intervalIntegral.integral_eq_sub_of_hasDerivAt hd (Continuous.intervalIntegrable (by fun_prop) _ _)]
  have : sin (2 * (2 * π)) = 0 := by
    have := Real.sin_nat_mul_pi 4
    push_cast at this
    rw [← this]; ring_nf
  rw [this]
  simp
  ring

theorem sqrt_pi_sq {a : ℝ} (ha : 0 ≤ a) : √(a / π) ^ 2 = a / π := sq_sqrt (by positivity)

/-- The deviation from the mean radius as a polynomial in the cosine. -/
theorem surface_eq (n : Nucleus) (x phi : ℝ) : n.surface x phi = n.radius +
    (n.radius * (n.beta2 * cos n.gamma * (1 / 4 * √(5 / π)) * (3 * x ^ 2 - 1) +
      n.beta3 * (1 / 4 * √(7 / π)) * (5 * x ^ 3 - 3 * x) +
      n.beta4 * (3 / 16 * √(1 / π)) * (35 * x ^ 4 - 30 * x ^ 2 + 3)) +
    n.radius * (n.beta2 * (√2 * sin n.gamma) * (1 / 4 * √(15 / (2 * π))) * (1 - x ^ 2)) * cos (2 * phi)) := by
  unfold Nucleus.surface y20 y22 y30 y40
  ring

/-- **C163.** Deformations keep the mean radius: over all directions the mean of the radius is `Radius`, and its mean
square deviation is Radius² (β₂² + β₃² + β₄²) / 4π, whatever the triaxiality; without deformation the nucleus is the
spherical one. -/
theorem C163_radius (n : Nucleus) :
    mean n.surface = n.radius ∧
    mean (fun x phi => (n.surface x phi - n.radius) ^ 2) =
      n.radius ^ 2 * (n.beta2 ^ 2 + n.beta3 ^ 2 + n.beta4 ^ 2) / (4 * π) ∧
    (n.beta2 = 0 → n.beta3 = 0 → n.beta4 = 0 → ∀ r x phi, n.density r x phi = n.roundDensity r) := by
  have hp := pi_pos
  refine ⟨?_, ?_, ?_⟩
  · unfold mean
    simp only [surface_eq]
    set k2 := n.beta2 * cos n.gamma * (1 / 4 * √(5 / π))
    set k3 := n.beta3 * (1 / 4 * √(7 / π))
    set k4 := n.beta4 * (3 / 16 * √(1 / π))
    have e : ∀ x, (∫ phi in (0 : ℝ)..2 * π, (n.radius + (n.radius * (k2 * (3 * x ^ 2 - 1) + k3 * (5 * x ^ 3 - 3 * x) +
        k4 * (35 * x ^ 4 - 30 * x ^ 2 + 3)) + n.radius * (n.beta2 * (√2 * sin n.gamma) * (1 / 4 * √(15 / (2 * π))) *
        (1 - x ^ 2)) * cos (2 * phi)))) = (2 * π * n.radius * (1 - k2 + 3 * k4)) + (2 * π * n.radius * (-3 * k3)) * x +
        (2 * π * n.radius * (3 * k2 - 30 * k4)) * x ^ 2 + (2 * π * n.radius * (5 * k3)) * x ^ 3 +
        (2 * π * n.radius * (35 * k4)) * x ^ 4 + 0 * x ^ 5 + 0 * x ^ 6 + 0 * x ^ 7 + 0 * x ^ 8 := by
      intro x
      simp only [← add_assoc]
      rw [inner]
      ring
    simp only [e]
    have := poly (fun i => ([2 * π * n.radius * (1 - k2 + 3 * k4), 2 * π * n.radius * (-3 * k3),
      2 * π * n.radius * (3 * k2 - 30 * k4), 2 * π * n.radius * (5 * k3), 2 * π * n.radius * (35 * k4), 0, 0, 0,
      0] : List ℝ).getD i 0)
    simp only [List.getD_cons_zero, List.getD_cons_succ] at this
    rw [this]
    field_simp
    ring
  · unfold mean
    simp only [surface_eq, add_sub_cancel_left, inner_sq]
    have s5 := sqrt_pi_sq (a := 5) (by norm_num)
    have s7 := sqrt_pi_sq (a := 7) (by norm_num)
    have s1 := sqrt_pi_sq (a := 1) (by norm_num)
    have s15 : √(15 / (2 * π)) ^ 2 = 15 / (2 * π) := sq_sqrt (by positivity)
    have s2 : (√2 : ℝ) ^ 2 = 2 := sq_sqrt (by norm_num)
    have sc := sin_sq_add_cos_sq n.gamma
    generalize √(5 / π) = q5 at *
    generalize √(7 / π) = q7 at *
    generalize √(1 / π) = q1 at *
    generalize √(15 / (2 * π)) = q15 at *
    generalize (√2 : ℝ) = q2 at *
    generalize hk2 : n.beta2 * cos n.gamma * (1 / 4 * q5) = k2
    generalize hk3 : n.beta3 * (1 / 4 * q7) = k3
    generalize hk4 : n.beta4 * (3 / 16 * q1) = k4
    generalize hk : n.beta2 * (q2 * sin n.gamma) * (1 / 4 * q15) = k
    have e : ∀ x, 2 * π * (n.radius * (k2 * (3 * x ^ 2 - 1) + k3 * (5 * x ^ 3 - 3 * x) +
          k4 * (35 * x ^ 4 - 30 * x ^ 2 + 3))) ^ 2 + π * (n.radius * (k * (1 - x ^ 2))) ^ 2 =
        (π * n.radius ^ 2 * (2 * (-k2 + 3 * k4) ^ 2 + k ^ 2)) +
        (π * n.radius ^ 2 * (4 * (-k2 + 3 * k4) * (-3 * k3))) * x +
        (π * n.radius ^ 2 * (18 * k3 ^ 2 + 4 * (-k2 + 3 * k4) * (3 * k2 - 30 * k4) - 2 * k ^ 2)) * x ^ 2 +
        (π * n.radius ^ 2 * (4 * (-3 * k3) * (3 * k2 - 30 * k4) + 4 * (-k2 + 3 * k4) * (5 * k3))) * x ^ 3 +
        (π * n.radius ^ 2 * (2 * (3 * k2 - 30 * k4) ^ 2 + 4 * (-3 * k3) * (5 * k3) +
          4 * (-k2 + 3 * k4) * (35 * k4) + k ^ 2)) * x ^ 4 +
        (π * n.radius ^ 2 * (4 * (-3 * k3) * (35 * k4) + 4 * (3 * k2 - 30 * k4) * (5 * k3))) * x ^ 5 +
        (π * n.radius ^ 2 * (50 * k3 ^ 2 + 4 * (3 * k2 - 30 * k4) * (35 * k4))) * x ^ 6 +
        (π * n.radius ^ 2 * (4 * (5 * k3) * (35 * k4))) * x ^ 7 +
        (π * n.radius ^ 2 * (2 * (35 * k4) ^ 2)) * x ^ 8 := by
      intro x
      ring
    simp only [e]
    have := poly (fun i => ([(π * n.radius ^ 2 * (2 * (-k2 + 3 * k4) ^ 2 + k ^ 2)),
        (π * n.radius ^ 2 * (4 * (-k2 + 3 * k4) * (-3 * k3))),
        (π * n.radius ^ 2 * (18 * k3 ^ 2 + 4 * (-k2 + 3 * k4) * (3 * k2 - 30 * k4) - 2 * k ^ 2)),
        (π * n.radius ^ 2 * (4 * (-3 * k3) * (3 * k2 - 30 * k4) + 4 * (-k2 + 3 * k4) * (5 * k3))),
        (π * n.radius ^ 2 * (2 * (3 * k2 - 30 * k4) ^ 2 + 4 * (-3 * k3) * (5 * k3) +
          4 * (-k2 + 3 * k4) * (35 * k4) + k ^ 2)),
        (π * n.radius ^ 2 * (4 * (-3 * k3) * (35 * k4) + 4 * (3 * k2 - 30 * k4) * (5 * k3))),
        (π * n.radius ^ 2 * (50 * k3 ^ 2 + 4 * (3 * k2 - 30 * k4) * (35 * k4))),
        (π * n.radius ^ 2 * (4 * (5 * k3) * (35 * k4))),
        (π * n.radius ^ 2 * (2 * (35 * k4) ^ 2))] : List ℝ).getD i 0)
    simp only [List.getD_cons_zero, List.getD_cons_succ] at this
    rw [this]
    have e2 : k2 ^ 2 = n.beta2 ^ 2 * cos n.gamma ^ 2 * (5 / (16 * π)) := by
      rw [← hk2]
      have : (n.beta2 * cos n.gamma * (1 / 4 * q5)) ^ 2 = n.beta2 ^ 2 * cos n.gamma ^ 2 * (q5 ^ 2 / 16) := by ring
      rw [this, s5]; field_simp
    have e3 : k3 ^ 2 = n.beta3 ^ 2 * (7 / (16 * π)) := by
      rw [← hk3]
      have : (n.beta3 * (1 / 4 * q7)) ^ 2 = n.beta3 ^ 2 * (q7 ^ 2 / 16) := by ring
      rw [this, s7]; field_simp
    have e4 : k4 ^ 2 = n.beta4 ^ 2 * (9 / (256 * π)) := by
      rw [← hk4]
      have : (n.beta4 * (3 / 16 * q1)) ^ 2 = n.beta4 ^ 2 * (9 * q1 ^ 2 / 256) := by ring
      rw [this, s1]; field_simp
    have ek : k ^ 2 = n.beta2 ^ 2 * (1 - cos n.gamma ^ 2) * (15 / (16 * π)) := by
      rw [← hk]
      have : (n.beta2 * (q2 * sin n.gamma) * (1 / 4 * q15)) ^ 2 =
        n.beta2 ^ 2 * q2 ^ 2 * sin n.gamma ^ 2 * (q15 ^ 2 / 16) := by ring
      rw [this, s15, s2, show sin n.gamma ^ 2 = 1 - cos n.gamma ^ 2 by linarith]; field_simp
    have : 2 * (π * n.radius ^ 2 * (2 * (-k2 + 3 * k4) ^ 2 + k ^ 2) +
        π * n.radius ^ 2 * (18 * k3 ^ 2 + 4 * (-k2 + 3 * k4) * (3 * k2 - 30 * k4) - 2 * k ^ 2) / 3 +
        π * n.radius ^ 2 * (2 * (3 * k2 - 30 * k4) ^ 2 + 4 * (-3 * k3) * (5 * k3) +
          4 * (-k2 + 3 * k4) * (35 * k4) + k ^ 2) / 5 +
        π * n.radius ^ 2 * (50 * k3 ^ 2 + 4 * (3 * k2 - 30 * k4) * (35 * k4)) / 7 +
        π * n.radius ^ 2 * (2 * (35 * k4) ^ 2) / 9) =
        π * n.radius ^ 2 * (16 / 5 * k2 ^ 2 + 16 / 7 * k3 ^ 2 + 256 / 9 * k4 ^ 2 + 16 / 15 * k ^ 2) := by ring
    rw [this, e2, e3, e4, ek]
    field_simp
    ring
  · intro h2 h3 h4 r x phi
    unfold Nucleus.density Nucleus.roundDensity Nucleus.surface
    rw [h2, h3, h4]
    ring_nf

end Verif.Deform
