import Mathlib.Analysis.SpecialFunctions.Pow.Real
import Mathlib.Analysis.SpecialFunctions.Trigonometric.Arctan
/-
Model of the restricted random numbers in random.h and random.cc.

Real arithmetic instead of doubles.  `u : ℝ` stands for what `std::generate_canonical` returns, a
number in [0, 1).  A value that is infinite or not a number is `none`.
-/
namespace Verif.Rand

/-- `uniform`, random.h:87-90: `std::uniform_real_distribution` as libstdc++ and libc++ compute it,
`u * (b - a) + a`.  The standard demands `min ≤ max`, see `uniformOk`. -/
noncomputable def uniform (min max u : ℝ) : ℝ := u * (max - min) + min

/-- The precondition of `std::uniform_real_distribution`. -/
def uniformOk (min max : ℝ) : Prop := min ≤ max

/-- `canonical_nonzero`, random.h:121-127: `std::nextafter` towards 1; here, any number above `u`
and at most 1, given by how far it goes. -/
noncomputable def canonicalNonzero (u step : ℝ) : ℝ := u + step * (1 - u)

/-- `exponential`, random.h:148-153. -/
noncomputable def exponential (lambda u step : ℝ) : ℝ := -Real.log (canonicalNonzero u step) / lambda

/-- `std::log(std::numeric_limits<double>::min())`, the smallest normal double 2^-1022. -/
noncomputable def aMin : ℝ := Real.log (1 / 2 ^ 1022)

/-- The lower end of the values drawn in `expo`, random.h:172. -/
noncomputable def expoLow (A x2 : ℝ) : ℝ := if aMin < A * x2 then Real.exp (A * x2) else 0

open Classical in
/-- The loop of `expo`, random.h:165-183, for a list of uniform random numbers; `none` if all of
them were rejected. -/
noncomputable def expo (A x1 x2 : ℝ) : List ℝ → Option ℝ
  | [] => none
  | u :: us =>
    let x := Real.log (uniform (Real.exp (A * x1)) (expoLow A x2) u) / A
    if x ≤ x1 ∧ x2 < x then some x else expo A x1 x2 us

/-- `std::pow` for doubles: not finite for a negative base (the exponents here are not integers in
general) and for zero to a negative power. -/
noncomputable def pow (x y : ℝ) : Option ℝ :=
  if x < 0 then none else if x = 0 ∧ y < 0 then none else some (x ^ y)

/-- Division of doubles. -/
noncomputable def div (x y : ℝ) : Option ℝ := if y = 0 then none else some (x / y)

/-- `sgn`, random.h:189-192. -/
noncomputable def sgn (x : ℝ) : ℝ := (if 0 < x then 1 else 0) - (if x < 0 then 1 else 0)

/-- `power`, random.h:202-215. -/
noncomputable def power (n xMin xMax u : ℝ) : Option ℝ :=
  if |n + 1| < 1 / 1000 then
    (div xMax xMin).bind fun r => (pow r u).map fun p => xMin * p
  else if 0 ≤ xMin ∧ 0 < xMax then
    (pow xMin (n + 1)).bind fun a => (pow xMax (n + 1)).bind fun b =>
      pow (uniform a b u) (1 / (n + 1))
  else
    (pow |xMin| (n + 1)).bind fun a => (pow |xMax| (n + 1)).bind fun b =>
      (pow (uniform a b u) (1 / (n + 1))).map fun p => sgn xMin * p

/-- `cauchy`, random.h:306-315. -/
noncomputable def cauchy (pole width min max u : ℝ) : Option ℝ :=
  (div (min - pole) width).bind fun a => (div (max - pole) width).map fun b =>
    pole + width * Real.tan (uniform (Real.arctan a) (Real.arctan b) u)

open Classical in
/-- The loop of `beta_a0`, random.h:350-358, for a list of pairs of uniform random numbers; `none`
if all of them were rejected. -/
noncomputable def betaA0 (xmin b : ℝ) : List (ℝ × ℝ) → Option ℝ
  | [] => none
  | (u, c) :: us =>
    let y := uniform 0 (-Real.log xmin) u
    match pow (1 - Real.exp (-y)) b with
    | none => some (Real.exp (-y))  -- infinity is not smaller than `c`
    | some p => if p < c then betaA0 xmin b us else some (Real.exp (-y))

/-- `beta`, random.h:328-335, with the two gamma-distributed numbers. -/
noncomputable def beta (x1 x2 : ℝ) : Option ℝ := div x1 (x1 + x2)

/-- `generate_63bit_seed`, random.cc:21-31, for the two numbers `std::random_device` returns; the
order in which they are drawn is not specified. -/
def seed63 (r1 r2 : BitVec 32) : BitVec 64 :=
  ((r1.setWidth 64 <<< 32) ||| r2.setWidth 64) >>> 1

/-- The loop of `BesselSampler::r_`, random.cc:83-94, from the iteration `i` on. -/
def besselLoop {K : Type} [Field K] (n : ℕ) (a : K) : ℕ → K → K
  | 0, res => res
  | i + 1, res => besselLoop n a i (1 / (1 / a * 2 * ((n + (i + 1) : ℕ) : K) + res))

/-- `BesselSampler::r_`, random.cc:82-99. -/
def besselRatio {K : Type} [Field K] (n : ℕ) (a : K) : K := besselLoop n a 200 0

end Verif.Rand
