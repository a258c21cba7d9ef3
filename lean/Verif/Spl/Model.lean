import Verif.Em.Model
/-
Model of the interpolation of tables in two variables, interpolation2D.cc:16-68, and of the differential cross sections of bremsstrahlung
that come from it, bremsstrahlungaction.cc:278-325.  The bicubic spline of GSL is a function `G` of the table and the point; it is
evaluated inside of the table only (GSL ends the program otherwise), and needs increasing abscissas.
-/
namespace Verif.Spl
open Verif.Em Classical

/-- The exceptions of the constructor, and the end of the program by GSL. -/
inductive Err
  | dimensions
  | tooFew
  | notIncreasing
  deriving DecidableEq

/-- A table with the bounds of the extrapolation, interpolation2D.h. -/
structure Spline where
  (xs ys zs : List ℝ)
  (firstX lastX firstY lastY : ℝ)

/-- The constructor, interpolation2D.cc:16-52. -/
noncomputable def build (xs ys zs : List ℝ) : Except Err Spline :=
  if zs.length ≠ ys.length * xs.length then .error .dimensions
  else if xs.length < 4 ∨ ys.length < 4 then .error .tooFew
  else if ¬(xs.Pairwise (· < ·) ∧ ys.Pairwise (· < ·)) then .error .notIncreasing
  else .ok ⟨xs, ys, zs, xs.headD 0, xs.getLastD 0, ys.headD 0, ys.getLastD 0⟩

/-- Constant extrapolation, interpolation2D.cc:62-63 (64-65). -/
noncomputable def clamp (lo hi x : ℝ) : ℝ :=
  let x := if x < lo then lo else x
  if x > hi then hi else x

/-- The spline of GSL: table, point. -/
abbrev Gsl := List ℝ → List ℝ → List ℝ → ℝ → ℝ → ℝ

/-- `gsl_spline2d_eval`: `none` (end of the program) outside of the table. -/
noncomputable def gslEval (G : Gsl) (s : Spline) (x y : ℝ) : Option ℝ :=
  if s.xs.headD 0 ≤ x ∧ x ≤ s.xs.getLastD 0 ∧ s.ys.headD 0 ≤ y ∧ y ≤ s.ys.getLastD 0 then some (G s.xs s.ys s.zs x y) else none

/-- `operator()`, interpolation2D.cc:60-69. -/
noncomputable def call (G : Gsl) (s : Spline) (x y : ℝ) : Option ℝ :=
  gslEval G s (clamp s.firstX s.lastX x) (clamp s.firstY s.lastY y)

/-- The tables of the differential cross sections, over the momentum and over the angle of the photon. -/
structure Splines where
  (oppK sameK pi0K toZeroK fromZeroK oppT sameT pi0T toZeroT fromZeroT : Spline)

/-- No negative cross sections, bremsstrahlungaction.cc:317-319. -/
noncomputable def fix (x : ℝ) : ℝ := if x < 0 then 1 / 1000000 else x

/-- `brems_diff_cross_sections`, bremsstrahlungaction.cc:278-325: `out0` is the first outgoing hadron; `none`: an exception or the end of
the program. -/
noncomputable def diffXs (G : Gsl) (T : Splines) (inc : List Mes) (out0 : Mes) (k theta E : ℝ) : Option (ℝ × ℝ) :=
  let both := fun (a b : Spline) => do
    let x ← call G a k E
    let y ← call G b theta E
    return (fix x, fix y)
  match bremsReaction inc with
  | .pm => if out0 ≠ .piZ then both T.oppK T.oppT else both T.toZeroK T.toZeroT
  | .pp | .mm => both T.sameK T.sameT
  | .zp | .zm => both T.pi0K T.pi0T
  | .zz => both T.fromZeroK T.fromZeroT
  | .no => none

end Verif.Spl
