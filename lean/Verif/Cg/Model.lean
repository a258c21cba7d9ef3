import Mathlib.Data.Rat.Defs
import Mathlib.Algebra.Order.Ring.Rat
import Mathlib.Data.Nat.Factorial.Basic
/-
Model of clebschgordan_lookup.h/.cc and clebschgordan.h/.cc. All isospins are doubled, as in the
code. The table is copied literally; its entries are decimal numbers with 17 digits behind the
point (the doubles they are converted to differ by less than 2⁻⁵³).
-/
namespace Verif.Cg

/-- `ThreeSpins`, clebschgordan_lookup.h:41-72. -/
structure Key where
  (j1 j2 j3 m1 m2 m3 : Int)
  deriving DecidableEq, Repr

/-- `lookup_table`, clebschgordan_lookup.h:194-382; values in units of 10⁻¹⁷. -/
def table : List (Key × Int) := [
  (⟨0, 0, 0, 0, 0, 0⟩, 100000000000000000),
  (⟨0, 1, 1, 0, -1, -1⟩, 100000000000000022),
  (⟨0, 1, 1, 0, 1, 1⟩, 100000000000000022),
  (⟨0, 2, 2, 0, -2, -2⟩, 99999999999999989),
  (⟨0, 2, 2, 0, 0, 0⟩, 99999999999999989),
  (⟨0, 2, 2, 0, 2, 2⟩, 99999999999999989),
  (⟨0, 3, 3, 0, -3, -3⟩, 100000000000000000),
  (⟨0, 3, 3, 0, -1, -1⟩, 99999999999999989),
  (⟨0, 3, 3, 0, 1, 1⟩, 99999999999999989),
  (⟨0, 3, 3, 0, 3, 3⟩, 100000000000000000),
  (⟨1, 0, 1, -1, 0, -1⟩, 100000000000000022),
  (⟨1, 0, 1, 1, 0, 1⟩, 100000000000000022),
  (⟨1, 1, 0, -1, 1, 0⟩, -70710678118654757),
  (⟨1, 1, 0, 1, -1, 0⟩, 70710678118654757),
  (⟨1, 1, 2, -1, -1, -2⟩, 99999999999999989),
  (⟨1, 1, 2, -1, 1, 0⟩, 70710678118654746),
  (⟨1, 1, 2, 1, -1, 0⟩, 70710678118654746),
  (⟨1, 1, 2, 1, 1, 2⟩, 99999999999999989),
  (⟨1, 2, 1, -1, 0, -1⟩, -57735026918962584),
  (⟨1, 2, 1, -1, 2, 1⟩, -81649658092772615),
  (⟨1, 2, 1, 1, -2, -1⟩, 81649658092772615),
  (⟨1, 2, 1, 1, 0, 1⟩, 57735026918962584),
  (⟨1, 2, 3, -1, -2, -3⟩, 100000000000000000),
  (⟨1, 2, 3, -1, 0, -1⟩, 81649658092772615),
  (⟨1, 2, 3, -1, 2, 1⟩, 57735026918962584),
  (⟨1, 2, 3, 1, -2, -1⟩, 57735026918962584),
  (⟨1, 2, 3, 1, 0, 1⟩, 81649658092772615),
  (⟨1, 2, 3, 1, 2, 3⟩, 100000000000000000),
  (⟨1, 3, 2, -1, -1, -2⟩, -49999999999999983),
  (⟨1, 3, 2, -1, 1, 0⟩, -70710678118654724),
  (⟨1, 3, 2, -1, 3, 2⟩, -86602540378443837),
  (⟨1, 3, 2, 1, -3, -2⟩, 86602540378443837),
  (⟨1, 3, 2, 1, -1, 0⟩, 70710678118654724),
  (⟨1, 3, 2, 1, 1, 2⟩, 49999999999999983),
  (⟨1, 3, 4, -1, -3, -4⟩, 100000000000000022),
  (⟨1, 3, 4, -1, -1, -2⟩, 86602540378443871),
  (⟨1, 3, 4, -1, 1, 0⟩, 70710678118654746),
  (⟨1, 3, 4, -1, 3, 2⟩, 49999999999999994),
  (⟨1, 3, 4, 1, -3, -2⟩, 49999999999999994),
  (⟨1, 3, 4, 1, -1, 0⟩, 70710678118654746),
  (⟨1, 3, 4, 1, 1, 2⟩, 86602540378443871),
  (⟨1, 3, 4, 1, 3, 4⟩, 100000000000000022),
  (⟨2, 0, 2, -2, 0, -2⟩, 99999999999999989),
  (⟨2, 0, 2, 0, 0, 0⟩, 99999999999999989),
  (⟨2, 0, 2, 2, 0, 2⟩, 99999999999999989),
  (⟨2, 1, 1, -2, 1, -1⟩, -81649658092772615),
  (⟨2, 1, 1, 0, -1, -1⟩, 57735026918962584),
  (⟨2, 1, 1, 0, 1, 1⟩, -57735026918962584),
  (⟨2, 1, 1, 2, -1, 1⟩, 81649658092772615),
  (⟨2, 1, 3, -2, -1, -3⟩, 100000000000000000),
  (⟨2, 1, 3, -2, 1, -1⟩, 57735026918962584),
  (⟨2, 1, 3, 0, -1, -1⟩, 81649658092772615),
  (⟨2, 1, 3, 0, 1, 1⟩, 81649658092772615),
  (⟨2, 1, 3, 2, -1, 1⟩, 57735026918962584),
  (⟨2, 1, 3, 2, 1, 3⟩, 100000000000000000),
  (⟨2, 2, 0, -2, 2, 0⟩, 57735026918962584),
  (⟨2, 2, 0, 0, 0, 0⟩, -57735026918962573),
  (⟨2, 2, 0, 2, -2, 0⟩, 57735026918962584),
  (⟨2, 2, 2, -2, 0, -2⟩, -70710678118654735),
  (⟨2, 2, 2, -2, 2, 0⟩, -70710678118654735),
  (⟨2, 2, 2, 0, -2, -2⟩, 70710678118654735),
  (⟨2, 2, 2, 0, 2, 2⟩, -70710678118654735),
  (⟨2, 2, 2, 2, -2, 0⟩, 70710678118654735),
  (⟨2, 2, 2, 2, 0, 2⟩, 70710678118654735),
  (⟨2, 2, 4, -2, -2, -4⟩, 100000000000000022),
  (⟨2, 2, 4, -2, 0, -2⟩, 70710678118654746),
  (⟨2, 2, 4, -2, 2, 0⟩, 40824829046386313),
  (⟨2, 2, 4, 0, -2, -2⟩, 70710678118654746),
  (⟨2, 2, 4, 0, 0, 0⟩, 81649658092772615),
  (⟨2, 2, 4, 0, 2, 2⟩, 70710678118654746),
  (⟨2, 2, 4, 2, -2, 0⟩, 40824829046386313),
  (⟨2, 2, 4, 2, 0, 2⟩, 70710678118654746),
  (⟨2, 2, 4, 2, 2, 4⟩, 100000000000000022),
  (⟨2, 3, 1, -2, 1, -1⟩, 40824829046386302),
  (⟨2, 3, 1, -2, 3, 1⟩, 70710678118654746),
  (⟨2, 3, 1, 0, -1, -1⟩, -57735026918962573),
  (⟨2, 3, 1, 0, 1, 1⟩, -57735026918962573),
  (⟨2, 3, 1, 2, -3, -1⟩, 70710678118654746),
  (⟨2, 3, 1, 2, -1, 1⟩, 40824829046386302),
  (⟨2, 3, 3, -2, -1, -3⟩, -63245553203367610),
  (⟨2, 3, 3, -2, 1, -1⟩, -73029674334022165),
  (⟨2, 3, 3, -2, 3, 1⟩, -63245553203367610),
  (⟨2, 3, 3, 0, -3, -3⟩, 77459666924148352),
  (⟨2, 3, 3, 0, -1, -1⟩, 25819888974716126),
  (⟨2, 3, 3, 0, 1, 1⟩, -25819888974716126),
  (⟨2, 3, 3, 0, 3, 3⟩, -77459666924148352),
  (⟨2, 3, 3, 2, -3, -1⟩, 63245553203367610),
  (⟨2, 3, 3, 2, -1, 1⟩, 73029674334022165),
  (⟨2, 3, 3, 2, 1, 3⟩, 63245553203367610),
  (⟨2, 3, 5, -2, -3, -5⟩, 99999999999999989),
  (⟨2, 3, 5, -2, -1, -3⟩, 77459666924148318),
  (⟨2, 3, 5, -2, 1, -1⟩, 54772255750516596),
  (⟨2, 3, 5, -2, 3, 1⟩, 31622776601683794),
  (⟨2, 3, 5, 0, -3, -3⟩, 63245553203367599),
  (⟨2, 3, 5, 0, -1, -1⟩, 77459666924148318),
  (⟨2, 3, 5, 0, 1, 1⟩, 77459666924148318),
  (⟨2, 3, 5, 0, 3, 3⟩, 63245553203367599),
  (⟨2, 3, 5, 2, -3, -1⟩, 31622776601683794),
  (⟨2, 3, 5, 2, -1, 1⟩, 54772255750516596),
  (⟨2, 3, 5, 2, 1, 3⟩, 77459666924148318),
  (⟨2, 3, 5, 2, 3, 5⟩, 99999999999999989),
  (⟨3, 0, 3, -3, 0, -3⟩, 100000000000000000),
  (⟨3, 0, 3, -1, 0, -1⟩, 99999999999999989),
  (⟨3, 0, 3, 1, 0, 1⟩, 99999999999999989),
  (⟨3, 0, 3, 3, 0, 3⟩, 100000000000000000),
  (⟨3, 1, 2, -3, 1, -2⟩, -86602540378443837),
  (⟨3, 1, 2, -1, -1, -2⟩, 49999999999999983),
  (⟨3, 1, 2, -1, 1, 0⟩, -70710678118654724),
  (⟨3, 1, 2, 1, -1, 0⟩, 70710678118654724),
  (⟨3, 1, 2, 1, 1, 2⟩, -49999999999999983),
  (⟨3, 1, 2, 3, -1, 2⟩, 86602540378443837),
  (⟨3, 1, 4, -3, -1, -4⟩, 100000000000000022),
  (⟨3, 1, 4, -3, 1, -2⟩, 49999999999999994),
  (⟨3, 1, 4, -1, -1, -2⟩, 86602540378443871),
  (⟨3, 1, 4, -1, 1, 0⟩, 70710678118654746),
  (⟨3, 1, 4, 1, -1, 0⟩, 70710678118654746),
  (⟨3, 1, 4, 1, 1, 2⟩, 86602540378443871),
  (⟨3, 1, 4, 3, -1, 2⟩, 49999999999999994),
  (⟨3, 1, 4, 3, 1, 4⟩, 100000000000000022),
  (⟨3, 2, 1, -3, 2, -1⟩, 70710678118654746),
  (⟨3, 2, 1, -1, 0, -1⟩, -57735026918962573),
  (⟨3, 2, 1, -1, 2, 1⟩, 40824829046386302),
  (⟨3, 2, 1, 1, -2, -1⟩, 40824829046386302),
  (⟨3, 2, 1, 1, 0, 1⟩, -57735026918962573),
  (⟨3, 2, 1, 3, -2, 1⟩, 70710678118654746),
  (⟨3, 2, 3, -3, 0, -3⟩, -77459666924148352),
  (⟨3, 2, 3, -3, 2, -1⟩, -63245553203367610),
  (⟨3, 2, 3, -1, -2, -3⟩, 63245553203367610),
  (⟨3, 2, 3, -1, 0, -1⟩, -25819888974716126),
  (⟨3, 2, 3, -1, 2, 1⟩, -73029674334022165),
  (⟨3, 2, 3, 1, -2, -1⟩, 73029674334022165),
  (⟨3, 2, 3, 1, 0, 1⟩, 25819888974716126),
  (⟨3, 2, 3, 1, 2, 3⟩, -63245553203367610),
  (⟨3, 2, 3, 3, -2, 1⟩, 63245553203367610),
  (⟨3, 2, 3, 3, 0, 3⟩, 77459666924148352),
  (⟨3, 2, 5, -3, -2, -5⟩, 99999999999999989),
  (⟨3, 2, 5, -3, 0, -3⟩, 63245553203367599),
  (⟨3, 2, 5, -3, 2, -1⟩, 31622776601683794),
  (⟨3, 2, 5, -1, -2, -3⟩, 77459666924148318),
  (⟨3, 2, 5, -1, 0, -1⟩, 77459666924148318),
  (⟨3, 2, 5, -1, 2, 1⟩, 54772255750516596),
  (⟨3, 2, 5, 1, -2, -1⟩, 54772255750516596),
  (⟨3, 2, 5, 1, 0, 1⟩, 77459666924148318),
  (⟨3, 2, 5, 1, 2, 3⟩, 77459666924148318),
  (⟨3, 2, 5, 3, -2, 1⟩, 31622776601683794),
  (⟨3, 2, 5, 3, 0, 3⟩, 63245553203367599),
  (⟨3, 2, 5, 3, 2, 5⟩, 99999999999999989),
  (⟨3, 3, 0, -3, 3, 0⟩, -49999999999999994),
  (⟨3, 3, 0, -1, 1, 0⟩, 49999999999999994),
  (⟨3, 3, 0, 1, -1, 0⟩, -49999999999999994),
  (⟨3, 3, 0, 3, -3, 0⟩, 49999999999999994),
  (⟨3, 3, 2, -3, 1, -2⟩, 54772255750516596),
  (⟨3, 3, 2, -3, 3, 0⟩, 67082039324993692),
  (⟨3, 3, 2, -1, -1, -2⟩, -63245553203367599),
  (⟨3, 3, 2, -1, 1, 0⟩, -22360679774997907),
  (⟨3, 3, 2, -1, 3, 2⟩, 54772255750516596),
  (⟨3, 3, 2, 1, -3, -2⟩, 54772255750516596),
  (⟨3, 3, 2, 1, -1, 0⟩, -22360679774997907),
  (⟨3, 3, 2, 1, 1, 2⟩, -63245553203367599),
  (⟨3, 3, 2, 3, -3, 0⟩, 67082039324993692),
  (⟨3, 3, 2, 3, -1, 2⟩, 54772255750516596),
  (⟨3, 3, 4, -3, -1, -4⟩, -70710678118654746),
  (⟨3, 3, 4, -3, 1, -2⟩, -70710678118654746),
  (⟨3, 3, 4, -3, 3, 0⟩, -49999999999999994),
  (⟨3, 3, 4, -1, -3, -4⟩, 70710678118654746),
  (⟨3, 3, 4, -1, 1, 0⟩, -49999999999999994),
  (⟨3, 3, 4, -1, 3, 2⟩, -70710678118654746),
  (⟨3, 3, 4, 1, -3, -2⟩, 70710678118654746),
  (⟨3, 3, 4, 1, -1, 0⟩, 49999999999999994),
  (⟨3, 3, 4, 1, 3, 4⟩, -70710678118654746),
  (⟨3, 3, 4, 3, -3, 0⟩, 49999999999999994),
  (⟨3, 3, 4, 3, -1, 2⟩, 70710678118654746),
  (⟨3, 3, 4, 3, 1, 4⟩, 70710678118654746),
  (⟨3, 3, 6, -3, -3, -6⟩, 100000000000000022),
  (⟨3, 3, 6, -3, -1, -4⟩, 70710678118654746),
  (⟨3, 3, 6, -3, 1, -2⟩, 44721359549995793),
  (⟨3, 3, 6, -3, 3, 0⟩, 22360679774997894),
  (⟨3, 3, 6, -1, -3, -4⟩, 70710678118654746),
  (⟨3, 3, 6, -1, -1, -2⟩, 77459666924148352),
  (⟨3, 3, 6, -1, 1, 0⟩, 67082039324993670),
  (⟨3, 3, 6, -1, 3, 2⟩, 44721359549995793),
  (⟨3, 3, 6, 1, -3, -2⟩, 44721359549995793),
  (⟨3, 3, 6, 1, -1, 0⟩, 67082039324993670),
  (⟨3, 3, 6, 1, 1, 2⟩, 77459666924148352),
  (⟨3, 3, 6, 1, 3, 4⟩, 70710678118654746),
  (⟨3, 3, 6, 3, -3, 0⟩, 22360679774997894),
  (⟨3, 3, 6, 3, -1, 2⟩, 44721359549995793),
  (⟨3, 3, 6, 3, 1, 4⟩, 70710678118654746),
  (⟨3, 3, 6, 3, 3, 6⟩, 100000000000000022)]

/-- Hash function, clebschgordan_lookup.h:163-187, for `size_t` of 64 bits: a conversion to
unsigned, a shift to the left by 59 (modulo 2⁶⁴) and one to the right. -/
def hash (k : Key) : Nat :=
  let f (x : Int) (r : Nat) : Nat := ((x % 2 ^ 64).toNat * 2 ^ 59 % 2 ^ 64) / 2 ^ (59 - r)
  (f k.j1 25 + f k.j2 20 + f k.j3 15 + f k.m1 10 + f k.m2 5 + f k.m3 0) % 2 ^ 64

/-- The phase of `calculate_coefficient`, clebschgordan_lookup.cc:30-32: integer division and
remainder truncate. -/
def phase (ja jb mc : Int) : Int :=
  let j := Int.tdiv (ja - jb + mc) 2
  (if Int.tmod j 2 = 0 then 1 else 0) * 2 - 1

/-- `calculate_coefficient`, clebschgordan_lookup.cc:22-39, over any numbers `α`: `w3j` is
`gsl_sf_coupling_3j`, `small` decides whether the 3j symbol is below `really_small`, `scale n x` is
`sqrt(n) * x`. -/
def calculate {α : Type} [Zero α] [Neg α] (w3j : Key → α) (small : α → Bool) (scale : Int → α → α)
    (k : Key) : α :=
  let w := w3j ⟨k.j1, k.j2, k.j3, k.m1, k.m2, -k.m3⟩
  if small w then 0
  else if phase k.j1 k.j2 k.m3 = 1 then scale (k.j3 + 1) w else -scale (k.j3 + 1) w

/-- `coefficient`, clebschgordan_lookup.cc:41-52: look-up, calculation and insertion. The map is a
list of pairs with distinct keys. -/
def coefficient {α : Type} (compute : Key → α) (tab : List (Key × α)) (k : Key) : List (Key × α) × α :=
  match tab.lookup k with
  | some v => (tab, v)
  | none => ((k, compute k) :: tab, compute k)

/-- What the isospin functions read from a particle type. -/
structure Iso where
  (i i3 : Int)

/-- Candidates for the intermediate isospin, clebschgordan.cc:41-44: all numbers from `min_I_ab` to
`max_I_ab`. -/
def possibleIab (a b : Iso) : List Int :=
  (List.range (a.i + b.i - |a.i - b.i| + 1).toNat).map fun (n : Nat) => |a.i - b.i| + (n : Int)

/-- The allowed ones, clebschgordan.cc:45-53. -/
def allowedIab (a b c res : Iso) : List Int :=
  (possibleIab a b).filter fun iab => decide (|iab - c.i| ≤ res.i) && decide (res.i ≤ iab + c.i)

/-- `isospin_clebsch_gordan_sqr_3to1`, clebschgordan.cc:36-70; `none`: exception. -/
def sqr3to1 {α : Type} [Mul α] (cg : Key → α) (a b c res : Iso) : Option α :=
  match allowedIab a b c res with
  | [iab] =>
    let iabz := a.i3 + b.i3
    let x := cg ⟨iab, c.i, res.i, iabz, c.i3, res.i3⟩ * cg ⟨a.i, b.i, iab, a.i3, b.i3, iabz⟩
    some (x * x)
  | _ => none

/-- `I_tot_range(a, b, c, d)`, clebschgordan.h:101-117: minimum and maximum. -/
def range4 (a b c d : Iso) : Int × Int :=
  let iz := a.i3 + b.i3
  if iz ≠ c.i3 + d.i3 then (1, 0)
  else (max (max |a.i - b.i| |c.i - d.i|) |iz|, min (a.i + b.i) (c.i + d.i))

/-- `I_tot_range(a, b)`, clebschgordan.h:86-91. -/
def range2 (a b : Iso) : Int × Int := (max |a.i - b.i| |a.i3 + b.i3|, a.i + b.i)

/-- Iteration over the range, clebschgordan.h:125-181: from the maximum downwards in steps of two
until the iterator *equals* `I_min - 2`. `none`: not reached within `fuel` steps. -/
def iterate (fuel : Nat) (stop cur : Int) : Option (List Int) :=
  match fuel with
  | 0 => none
  | fuel + 1 => if cur = stop then some [] else (iterate fuel stop (cur - 2)).map (cur :: ·)

/-- begin() and end(), clebschgordan.h:174-180. -/
def iterRange (fuel : Nat) (r : Int × Int) : Option (List Int) :=
  if r.1 > r.2 then iterate fuel r.2 r.2 else iterate fuel (r.1 - 2) r.2

/-- `isospin_clebsch_gordan_sqr_2to2`, clebschgordan.cc:72-90; `I < 0`: all total isospins. -/
def sqr2to2 {α : Type} [Zero α] [Add α] [Mul α] (fuel : Nat) (cg : Key → α) (a b c d : Iso) (I : Int) :
    Option α :=
  let iz := a.i3 + b.i3
  (iterRange fuel (range4 a b c d)).map fun l => l.foldl (init := 0) fun acc t =>
    if I < 0 ∨ t = I then
      let x := cg ⟨a.i, b.i, t, a.i3, b.i3, iz⟩
      let y := cg ⟨c.i, d.i, t, c.i3, d.i3, iz⟩
      acc + x * x * y * y
    else acc

end Verif.Cg
