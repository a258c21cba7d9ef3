import Mathlib.Algebra.Order.Floor.Ring
import Mathlib.Data.Rat.Floor

/-!
# `numeric_cast`

Models `src/include/smash/numeric_cast.h`.
-/

namespace Verif.Cast

/-- An integer type: signedness and width in bits. -/
structure IntTy where
  signed : Bool
  bits : Nat
  deriving DecidableEq, Repr

/-- Smallest value. -/
def IntTy.lo (t : IntTy) : Int := if t.signed then -2 ^ (t.bits - 1) else 0
/-- Largest value. -/
def IntTy.hi (t : IntTy) : Int := if t.signed then 2 ^ (t.bits - 1) - 1 else 2 ^ t.bits - 1

/-- Conversion of an integer to an integer type: reduction modulo `2 ^ bits` into the range of the type
(C++20 [conv.integral]; before C++20 this is what every supported compiler does). -/
def IntTy.wrap (t : IntTy) (v : Int) : Int :=
  let r := v % 2 ^ t.bits
  if t.signed ∧ 2 ^ (t.bits - 1) ≤ r then r - 2 ^ t.bits else r

/-- numeric_cast.h:73-97 for two integer types: `to = static_cast<To>(from)`; `none` (the
`std::domain_error`) if the value converted back differs, or the signs differ and the signedness of the
types does. -/
def numericCast (src dst : IntTy) (v : Int) : Option Int :=
  let t := dst.wrap v
  if src.wrap t ≠ v ∨ (dst.signed ≠ src.signed ∧ (decide (t < 0) ≠ decide (v < 0))) then none else some t

/-- A `double`: a number, an infinity or not a number. -/
inductive Dbl where
  | nan
  | inf (neg : Bool)
  | fin (x : ℚ)
  deriving DecidableEq

/-- `operator==` of two doubles. -/
def Dbl.eq : Dbl → Dbl → Bool
  | .fin x, .fin y => decide (x = y)
  | .inf a, .inf b => a == b
  | _, _ => false

/-- `x < 0.`. -/
def Dbl.neg : Dbl → Bool
  | .fin x => decide (x < 0)
  | .inf b => b
  | .nan => false

/-- Truncation towards zero. -/
def trunc (x : ℚ) : Int := if 0 ≤ x then ⌊x⌋ else ⌈x⌉

/-- `static_cast<To>(double)`: truncation towards zero if the result is in the range of the type,
otherwise undefined; `u` stands for the value the undefined conversion happens to give. -/
def ofDouble (dst : IntTy) (u : Int) : Dbl → Int
  | .fin x => if dst.lo ≤ trunc x ∧ trunc x ≤ dst.hi then trunc x else u
  | _ => u

/-- numeric_cast.h:73-97 from `double` to an integer type; `rnd` is the rounding of an integer to the
nearest double, used in the conversion back; `double` counts as signed. -/
def numericCastDouble (rnd : Int → ℚ) (dst : IntTy) (u : Int) (x : Dbl) : Option Int :=
  let t := ofDouble dst u x
  if !(Dbl.eq (.fin (rnd t)) x) || (dst.signed != true && (decide (t < 0) != x.neg)) then none else some t

end Verif.Cast
