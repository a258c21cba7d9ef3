import Mathlib.Analysis.SpecialFunctions.Arsinh
import Mathlib.Analysis.SpecialFunctions.Trigonometric.Basic

/-!
Model of the ideal hadron gas (`HadronGasEos`, hadgas_eos.cc).

Simplifications: floating point numbers are real numbers; only the computation with pole masses is modelled
(`account_for_width` false); the scaled Bessel functions `K1`, `K2` are parameters; the solver of the GNU library is an
arbitrary sequence of steps.
-/

namespace Verif.Eos

open Real

/-- The data of a particle type which the gas uses; `spin` is twice the spin, `eos` is `is_eos_particle`, hadgas_eos.h:355-357. -/
structure Species where
  mass : ℝ
  spin : ℕ
  B : ℤ
  S : ℤ
  Q : ℤ
  eos : Bool

/-- The Bessel functions times the exponential of the argument, `gsl_sf_bessel_K1_scaled` and `gsl_sf_bessel_Kn_scaled(2, z)`. -/
structure Bessel where
  K1 : ℝ → ℝ
  K2 : ℝ → ℝ

/-- `hbarc`, constants.h:29. -/
noncomputable def hbarc : ℝ := 197327053 / 1000000000

/-- `prefactor_`, hadgas_eos.h:431-432. -/
noncomputable def prefactor : ℝ := 1 / 2 * π⁻¹ * π⁻¹ / (hbarc * hbarc * hbarc)

/-- `really_small`, constants.h:41. -/
noncomputable def small : ℝ := 1 / 1000000

/-- Temperature and chemical potentials, the arguments of the functions below. -/
structure Th where
  T : ℝ
  mub : ℝ
  mus : ℝ
  muq : ℝ

/-- `scaled_partial_density_auxiliary`, hadgas_eos.cc:223-235. -/
noncomputable def aux (b : Bessel) (z mu : ℝ) : ℝ :=
  let x := mu - z
  if x < -500 then 0 else if z < small then 2 * exp x else z * z * exp x * b.K2 z

/-- The chemical potential of a species divided by the temperature, hadgas_eos.cc:242-243. -/
noncomputable def muOver (s : Species) (th : Th) : ℝ := 1 / th.T * (s.B * th.mub + s.S * th.mus + s.Q * th.muq)

/-- `scaled_partial_density` for pole masses, hadgas_eos.cc:237-246. -/
noncomputable def scaled (b : Bessel) (s : Species) (th : Th) : ℝ :=
  ((s.spin : ℝ) + 1) * aux b (s.mass * (1 / th.T)) (muOver s th)

/-- `partial_density`, hadgas_eos.cc:270-279. -/
noncomputable def partialDensity (b : Bessel) (s : Species) (th : Th) : ℝ :=
  if th.T < small then 0 else prefactor * th.T * th.T * th.T * scaled b s th

/-- The sum of the loop of `energy_density`, hadgas_eos.cc:287-305; `none` is the return of zero in the middle of the loop. -/
noncomputable def energySum (b : Bessel) (th : Th) : List Species → ℝ → Option ℝ
  | [], e => some e
  | s :: l, e =>
    if !s.eos then energySum b th l e
    else
      let z := s.mass * (1 / th.T)
      let x := 1 / th.T * (th.mub * s.B + th.mus * s.S + th.muq * s.Q - s.mass)
      if x < -500 then none
      else energySum b th l (e + (if z < small then 3 * ((s.spin : ℝ) + 1) * exp x
        else z * z * ((s.spin : ℝ) + 1) * exp x * (3 * b.K2 z + z * b.K1 z)))

/-- `energy_density`, hadgas_eos.cc:281-308. -/
noncomputable def energy (b : Bessel) (l : List Species) (th : Th) : ℝ :=
  if th.T < small then 0
  else match energySum b th l 0 with
    | none => 0
    | some e => e * (prefactor * th.T * th.T * th.T * th.T)

/-- The loops of the densities with weight `w`; species which `skip` are left out. -/
noncomputable def loopSum (b : Bessel) (th : Th) (skip : Species → Bool) (w : Species → ℝ) : List Species → ℝ → ℝ
  | [], r => r
  | s :: l, r => if skip s then loopSum b th skip w l r else loopSum b th skip w l (r + scaled b s th * w s)

/-- `density`, hadgas_eos.cc:310-326. -/
noncomputable def density (b : Bessel) (l : List Species) (th : Th) : ℝ :=
  if th.T < small then 0
  else loopSum b th (fun s => !s.eos) (fun _ => 1) l 0 * (prefactor * th.T * th.T * th.T)

/-- `net_baryon_density`, hadgas_eos.cc:328-345; `is_baryon` means that the baryon number does not vanish. -/
noncomputable def netB (b : Bessel) (l : List Species) (th : Th) : ℝ :=
  if th.T < small then 0
  else loopSum b th (fun s => s.B == 0 || !s.eos) (fun s => s.B) l 0 * (prefactor * th.T * th.T * th.T)

/-- `net_strange_density`, hadgas_eos.cc:347-364. -/
noncomputable def netS (b : Bessel) (l : List Species) (th : Th) : ℝ :=
  if th.T < small then 0
  else loopSum b th (fun s => s.S == 0 || !s.eos) (fun s => s.S) l 0 * (prefactor * th.T * th.T * th.T)

/-- `net_charge_density`, hadgas_eos.cc:366-383. -/
noncomputable def netQ (b : Bessel) (l : List Species) (th : Th) : ℝ :=
  if th.T < small then 0
  else loopSum b th (fun s => s.Q == 0 || !s.eos) (fun s => s.Q) l 0 * (prefactor * th.T * th.T * th.T)

/-- `pressure`, hadgas_eos.h:195-198. -/
noncomputable def pressure (b : Bessel) (l : List Species) (th : Th) : ℝ := th.T * density b l th

/-- The loop of `mus_net_strangeness0`, hadgas_eos.cc:464-477; `it` is the number of iterations before this one, `n` the number of those which
remain, `none` the exception. -/
noncomputable def bisect (rho : ℝ → ℝ) : ℕ → ℝ → ℝ → Option ℝ
  | 0, _, _ => none
  | n + 1, lo, hi =>
    let m := (hi + lo) / 2
    let r := rho m
    if 1 / 100000000 < |r| ∧ n ≠ 0 then (if 0 < r then bisect rho n lo m else bisect rho n m hi)
    else if n = 0 then none else some m

/-- `mus_net_strangeness0`, hadgas_eos.cc:456-479. -/
noncomputable def musZero (b : Bessel) (l : List Species) (T mub muq : ℝ) : Option ℝ :=
  bisect (fun mus => netS b l ⟨T, mub, mus, muq⟩) 50 0 (mub + T)

/-- The sums over particles with baryon number or charge 1, hadgas_eos.cc:556-562, 569-575. -/
noncomputable def sumOne (b : Bessel) (T : ℝ) (one : Species → Bool) : List Species → ℝ → ℝ
  | [], r => r
  | s :: l, r => if s.eos && one s then sumOne b T one l (r + scaled b s ⟨T, 0, 0, 0⟩) else sumOne b T one l r

/-- The baryon chemical potential of `solve_eos_initial_approximation`, hadgas_eos.cc:554-564. -/
noncomputable def mubInit (b : Bessel) (l : List Species) (T nb : ℝ) : ℝ :=
  T * arsinh (nb / prefactor / (T * T * T) / sumOne b T (fun s => s.B == 1) l 0 / 2)

/-- One step of the solver: the point, whether the step failed, and the sum of the absolute values of the residuals. -/
structure Step where
  x : Th
  stuck : Bool
  res : ℝ

/-- The loop of `solve_eos`, hadgas_eos.cc:601-632: `k` is the number of the next step, `n` the number of steps left, `cont` tells that
`residual_status` is `GSL_CONTINUE`. The result is the point and whether there is a warning. -/
noncomputable def solveLoop (o : ℕ → Step) : ℕ → ℕ → Bool → Th × Bool
  | 0, k, cont => ((o (k - 1)).x, cont)
  | n + 1, k, cont =>
    if (o k).x.T < 15 / 1000 then (⟨0, 0, 0, 0⟩, false)
    else if (o k).stuck then ((o k).x, cont)
    else if (o k).res < 1 / 100000000 then ((o k).x, false)
    else solveLoop o n (k + 1) true

/-- `solve_eos`, hadgas_eos.cc:586-634. -/
noncomputable def solveEos (o : ℕ → Step) : Th × Bool := solveLoop o 1000 1 false

end Verif.Eos
