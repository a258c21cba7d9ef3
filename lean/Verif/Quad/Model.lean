import Mathlib.Data.Real.Basic
/-
Model of the numerical integration, integrate.h: the check of the precision and the preparation of integrals over rectangles.  The
algorithms of GSL and Cuba are functions of the integrand and the limits that give an error code, a value and an estimate of the error.
-/
namespace Verif.Quad

/-- Exceptions. -/
inductive Err
  | code
  | precision
  | limits
  deriving DecidableEq

/-- Required precision, integrate.h:178-182, 232-234. -/
structure Prec where
  (abs rel : ℝ)

/-- `Result`: value and error, integrate.h:54-69. -/
structure Result where
  (value error : ℝ)

open Classical in
/-- `check_error`, integrate.h:79-93. -/
noncomputable def check (p : Prec) (r : Result) : Except Err Result :=
  if r.error > max p.abs (r.value * p.rel) then .error .precision else .ok r

/-- An algorithm for an interval: error code, value and error. -/
abbrev Alg1 := (ℝ → ℝ) → ℝ → ℝ → Prec → Nat × Result

/-- `Integrator::operator()`, integrate.h:139-163. -/
noncomputable def integrate1 (A : Alg1) (p : Prec) (a b : ℝ) (f : ℝ → ℝ) : Except Err Result :=
  let r := A f a b p
  if r.1 ≠ 0 then .error .code else check p r.2

/-- An algorithm for the unit square. -/
abbrev Alg2 := (ℝ → ℝ → ℝ) → Prec → Nat × Result

/-- The integrand on the unit square, integrate.h:192-203, 270-280. -/
def unitCube (min1 diff1 min2 diff2 : ℝ) (f : ℝ → ℝ → ℝ) (x y : ℝ) : ℝ := f (min1 + diff1 * x) (min2 + diff2 * y) * diff1 * diff2

open Classical in
/-- `Integrator2d::operator()`, integrate.h:253-306. -/
noncomputable def integrate2 (A : Alg2) (p : Prec) (min1 max1 min2 max2 : ℝ) (f : ℝ → ℝ → ℝ) : Except Err Result :=
  if max1 < min1 ∨ max2 < min2 then
    if max1 - min1 > -(1 / 10 ^ 15) ∧ max2 - min2 > -(1 / 10 ^ 15) then .ok ⟨0, 0⟩ else .error .limits
  else
    let r := A (unitCube min1 (max1 - min1) min2 (max2 - min2) f) p
    if r.1 ≠ 0 then .error .code else check p r.2

end Verif.Quad
