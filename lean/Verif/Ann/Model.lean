import Verif.Pdg.Model
import Mathlib.Data.Real.Basic
/-
Model of the annihilation of a baryon and an antibaryon into two strings: `StringProcess::next_BBbarAnn`, stringprocess.cc:1527-1636,
up to the calls of `fragment_string`.  The constituent masses of PYTHIA are a function
`m0`, random choices are arguments.
-/
namespace Verif.Ann
open Verif.Pdg

/-- `std::invalid_argument`, and an access to a vector with less than two elements (undefined behaviour; the assertions are not
compiled in a release build). -/
inductive Err
  | notPair
  | outOfRange
  deriving DecidableEq

/-- Nothing to annihilate (the incoming particles are the final state), refused, or two strings at rest: quark and antiquark of
each, and the mass of both. -/
inductive Res
  | same
  | refused
  | strings (q1 a1 q2 a2 : Int) (m : ℝ)

/-- The flavours d, u, s, c, b: `n_q_types`, stringprocess.cc:1549. -/
def flavours : List Nat := [1, 2, 3, 4, 5]

/-- `qcount_bar`, stringprocess.cc:1554; with `s = -1` `qcount_antibar`, 1555. -/
def counts (s : Int) (d : Nat) : List Int := flavours.map fun q : Nat => s * netQuark d q

/-- `n_combinations`, stringprocess.cc:1556-1557. -/
def combos (c c' : List Int) : List Int := List.zipWith (· * ·) c c'

/-- One quark less, stringprocess.cc:1582-1583. -/
def dec (c : List Int) (k : Nat) : List Int := c.modify k fun x => x - 1

/-- `remaining_quarks` (`s = 1`) and `remaining_antiquarks` (`s = -1`), stringprocess.cc:1586-1594. -/
def remaining (s : Int) (c : List Int) : List Int :=
  (flavours.zip c).flatMap fun p => List.replicate p.2.toNat (s * p.1)

/-- The choice of the ends and the check of the thresholds, stringprocess.cc:1598-1619. -/
noncomputable def pairUp (m0 : Int → ℝ) (sqrts : ℝ) (swapQ swapA : Bool) : List Int → List Int → Except Err Res
  | x :: y :: _, u :: v :: _ =>
    let q := if swapQ then (y, x) else (x, y)
    let a := if swapA then (v, u) else (u, v)
    let m := 1 / 2 * sqrts
    if m0 q.1 + m0 a.1 > m ∨ m0 q.2 + m0 a.2 > m then .ok .refused
    else .ok (.strings q.1 a.1 q.2 a.2 m)
  | _, _ => .error .outOfRange

/-- Baryon and antibaryon, stringprocess.cc:1540-1543. -/
def ordered (a b : Nat) : Nat × Nat := if baryonNumber a = -1 then (b, a) else (a, b)

/-- The weights of the flavours that annihilate, stringprocess.cc:1550-1561. -/
def weights (a b : Nat) : List Int := combos (counts 1 (ordered a b).1) (counts (-1) (ordered a b).2)

/-- `next_BBbarAnn`, stringprocess.cc:1539-1619; `k`: the place drawn with the weights `n_combinations`. -/
noncomputable def annihilate (m0 : Int → ℝ) (sqrts : ℝ) (a b k : Nat) (swapQ swapA : Bool) : Except Err Res :=
  let p := ordered a b
  if baryonNumber p.1 ≠ 1 ∨ baryonNumber p.2 ≠ -1 then .error .notPair
  else
    if (weights a b).all fun x => x ≤ 0 then .ok .same
    else pairUp m0 sqrts swapQ swapA (remaining 1 (dec (counts 1 p.1) k)) (remaining (-1) (dec (counts (-1) p.2) k))

end Verif.Ann
