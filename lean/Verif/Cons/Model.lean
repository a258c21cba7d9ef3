import Verif.Act.Model
/-
Model of the check of the conservation laws during a run: `QuantumNumbers(const std::vector<Particles>&)`, quantumnumbers.h:106-113,
`QuantumNumbers::report_deviations`, quantumnumbers.cc:16-67, and the check at the end of a time step, experiment.h:2645-2657.
The text of the report is a list of lines; the sums are those of `Act/Model`.
-/
namespace Verif.Cons
open Verif.Kin Verif.Act

/-- `QuantumNumbers(const std::vector<Particles>&)`, quantumnumbers.h:106-113. -/
def ofEnsembles (e : List (List Part)) : QN := e.foldl (fun q l => l.foldl QN.addValues q) QN.zero

/-- The parts of the report, with the values that are printed. -/
inductive Line where
  | heading
  | comp (mu : Nat) (here there abs rel : Dbl)
  | charge (here there : Int)
  | isospin3 (here there : Int)
  | strangeness (here there : Int)
  | charmness (here there : Int)
  | bottomness (here there : Int)
  | baryon (here there : Int)
  deriving DecidableEq

/-- Difference of doubles. -/
def dsub (x y : Dbl) : Dbl :=
  match x, y with
  | some x, some y => some (x - y)
  | _, _ => none

/-- Quotient of the difference and the larger of the absolute values; something that is not finite for a division by zero. -/
def drel (x y : Dbl) : Dbl :=
  match x, y with
  | some x, some y => if max |x| |y| = 0 then none else some ((x - y) / max |x| |y|)
  | _, _ => none

/-- One component, quantumnumbers.cc:33-41. -/
def compLine (mu : Nat) (x y : Dbl) : List Line :=
  if !almostEqualPhysics x y then [.comp mu x y (dsub x y) (drel x y)] else []

/-- `report_deviations`, quantumnumbers.cc:16-67. -/
def report (a b : QN) : List Line :=
  if QN.eq b a then []
  else
    (if !Q4.eq a.mom b.mom then [.heading] else []) ++
    (compLine 0 a.mom.t b.mom.t ++ compLine 1 a.mom.x b.mom.x ++ compLine 2 a.mom.y b.mom.y ++ compLine 3 a.mom.z b.mom.z) ++
    (if a.charge ≠ b.charge then [.charge a.charge b.charge] else []) ++
    (if a.isospin3 ≠ b.isospin3 then [.isospin3 a.isospin3 b.isospin3] else []) ++
    (if a.strangeness ≠ b.strangeness then [.strangeness a.strangeness b.strangeness] else []) ++
    (if a.charmness ≠ b.charmness then [.charmness a.charmness b.charmness] else []) ++
    (if a.bottomness ≠ b.bottomness then [.bottomness a.bottomness b.bottomness] else []) ++
    (if a.baryon ≠ b.baryon then [.baryon a.baryon b.baryon] else [])

/-- What decides whether there is a check. -/
structure Setup where
  (potentials strings expansion initialConditions : Bool)

/-- The check after a time step, experiment.h:2650-2657: `true` if the run goes on, `false` for the exception. -/
def stepOk (s : Setup) (initial : QN) (e : List (List Part)) : Bool :=
  if !s.potentials && !s.strings && !s.expansion && !s.initialConditions then
    (report initial (ofEnsembles e)).isEmpty
  else true

/-- The time steps of an event, experiment.h:2560-2658: the particles after each step are given; `some k`: the exception after the
step `k`. -/
def run (s : Setup) (initial : QN) : Nat → List (List (List Part)) → Option Nat
  | _, [] => none
  | k, e :: l => if stepOk s initial e then run s initial (k + 1) l else some k

end Verif.Cons
