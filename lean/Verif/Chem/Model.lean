import Verif.Ini.Model
import Mathlib.MeasureTheory.Integral.IntervalIntegral.Basic

/-!
Model of the chemical potentials of quantum gases: chemicalpotential.cc and the root finders of quantumsampling.cc.
Real numbers instead of doubles; the integrator of GSL is exact; the root finder of GSL is any transition system that
holds a position, with the function of the equation evaluated there.
-/

namespace Verif.Chem
open Verif.Ini Real

/-- constants.h:29. -/
noncomputable def hbarc : ℝ := 197327053 / 1000000000

/-- `density_one_species`, chemicalpotential.cc:29-43. -/
noncomputable def densityOne (g m T mu s : ℝ) : ℝ :=
  g / (2 * π * π) * ∫ x in (0 : ℝ)..1, ((1 - x) * (1 - x) / (x * x * x * x)) * juttner ((1 - x) / x) m T mu s

/-- `root_equation_effective_chemical_potential`, chemicalpotential.cc:50-60. -/
noncomputable def rootEquation (g m n T mu s : ℝ) : ℝ := n - densityOne g m T mu s

/-- The `gsl_multiroot_fsolver` for one equation: `set`, one `iterate` (`none`: stuck) and the current position. -/
structure Solver where
  State : Type
  set : ℝ → State
  iterate : State → Option State
  x : State → ℝ

inductive Err
  | stuck | density | condensate | negative
  deriving DecidableEq, Repr

open Classical in
/-- The loop of `find_effective_chemical_potential`, chemicalpotential.cc:121-166, with the number of iterations left;
`none`: the result is not set. `gsl_multiroot_test_residual` succeeds if |f| is less than the precision. -/
noncomputable def loop (S : Solver) (F : ℝ → ℝ) (eps : ℝ) : ℕ → S.State → Except Err (Option ℝ)
  | 0, _ => .ok none
  | k + 1, st =>
    match S.iterate st with
    | none => .error .stuck
    | some st' => if |F (S.x st')| < eps then .ok (some (S.x st')) else loop S F eps k st'

/-- `find_effective_chemical_potential`, chemicalpotential.cc:92-172. -/
noncomputable def find (S : Solver) (g m n T s guess eps : ℝ) : Except Err (Option ℝ) :=
  loop S (fun mu => rootEquation g m n T mu s) eps 100000 (S.set guess)

open Classical in
/-- `initial_guess`, chemicalpotential.cc:190-200. -/
noncomputable def guess (m s : ℝ) : ℝ := if s = -1 then 999999 / 1000000 * m else 105 / 100 * m

open Classical in
/-- The checks, chemicalpotential.cc:232-322. -/
noncomputable def check (g m n T s mu : ℝ) : Except Err ℝ :=
  if |(n - densityOne g m T mu s) / (hbarc * hbarc * hbarc)| > 1 / 1000 then .error .density
  else if s = -1 ∧ mu > m then .error .condensate
  else if juttner (5 / 1000) m T mu s < 0 then .error .negative
  else .ok mu

/-- `effective_chemical_potential`, chemicalpotential.cc:178-326. -/
noncomputable def effective (S : Solver) (g m n T s eps : ℝ) : Except Err ℝ :=
  match find S g m n T s (guess m s) eps with
  | .error e => .error e
  | .ok r => check g m n T s (r.getD 0)

open Classical in
/-- The loop of `find_p_at_maximum_of_the_distribution`, quantumsampling.cc:102-165: `k` iterations and `j` new
guesses are left; after a new guess the residual is tested there and `iter` is 0. -/
noncomputable def loopMax (S : Solver) (F : ℝ → ℝ) (eps : ℝ) : ℕ → ℕ → ℝ → S.State → Except Err (Option ℝ)
  | _, 0, _, _ => .ok none
  | j, k + 1, p0, st =>
    match S.iterate st with
    | some st' => if |F (S.x st')| < eps then .ok (some (S.x st')) else loopMax S F eps j k p0 st'
    | none =>
      match j with
      | 0 => .error .stuck
      | j + 1 =>
        let p := p0 + 5 / 100
        if |F (S.x (S.set p))| < eps then .ok (some (S.x (S.set p))) else loopMax S F eps j 100000 p (S.set p)
  termination_by j k => (j, k)

/-- `find_p_at_maximum_of_the_distribution`, quantumsampling.cc:75-172, with the initial guess of
`maximum_of_the_distribution`, quantumsampling.cc:190. -/
noncomputable def findMax (S : Solver) (m T mu s eps : ℝ) : Except Err (Option ℝ) :=
  loopMax S (fun p => pMaxEquation p m T mu s) eps 100 100000 (50 / 1000) (S.set (50 / 1000))

/-- `solution_precision`, quantumsampling.cc:220. -/
noncomputable def precision : ℝ := 1 / 100000000

/-- One iteration of the constructor of `QuantumSampling`, quantumsampling.cc:222-243: `count` particles with spin
`j`/2 in the volume `V` in fm³; the spin degeneracy is `j` + 1 (pdgcode.h:712-717). `S` and `S'` are the root finders. -/
noncomputable def solve (S S' : Solver) (count j : ℕ) (m V T : ℝ) : Except Err Solved :=
  let Vgev := V / (hbarc * hbarc * hbarc)
  let n := (count : ℝ) / Vgev
  match effective S (j + 1) m n T (statistics j) precision with
  | .error e => .error e
  | .ok mu =>
    match findMax S' m T mu (statistics j) precision with
    | .error e => .error e
    | .ok r => .ok ⟨mu, r.getD 0⟩

end Verif.Chem
