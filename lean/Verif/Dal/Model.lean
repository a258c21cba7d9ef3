import Mathlib.Analysis.SpecialFunctions.Pow.Real
import Mathlib.Analysis.Real.Sqrt
import Mathlib.Analysis.SpecialFunctions.Trigonometric.Basic
/-
Model of the spectrum of lepton pairs from three-body (Dalitz) decays, `ThreeBodyDecayDilepton::diff_width`, decaytype.cc:337-447, in exact real arithmetic.
-/
namespace Verif.Dal

/-- The mothers told apart, decaytype.cc:356-446: pseudoscalar mesons, vector mesons, `Δ`, `N(1520)` and all others. -/
inductive Mother
  | pseudoscalar | vector | delta | n1520 | unsupported

/-- Outcome: a value, not a number (square root of a negative number), failed assertion or exception. -/
inductive Res
  | val (x : ℝ) | nan | assertion | throw

/-- `fine_structure`, constants.h:99. -/
noncomputable def alpha : ℝ := 7.2973525698e-3

/-- `ph_sp_factor` without the square root, decaytype.cc:352-353: the argument of the root and the other factor. -/
noncomputable def rootArg (ml q : ℝ) : ℝ := 1 - 4 * (ml * ml) / (q * q)

/-- A product with `ph_sp_factor`, decaytype.cc:352-353: not a number if the root does not exist. -/
noncomputable def withPhaseSpace (ml q x : ℝ) : Res := by
  classical
  exact if rootArg ml q < 0 then .nan else .val (x * (√(rootArg ml q) * (1 + 2 * (ml * ml) / (q * q))))

/-- The radicand of vector mesons, decaytype.cc:374-376. -/
noncomputable def vecRad (M q mo : ℝ) : ℝ :=
  let n1 := M * M - mo * mo
  (1 + q * q / n1) ^ 2 - 4 * (M * M) * (q * q) / (n1 * n1)

/-- A radicand: the value is used if it is not negative, otherwise the result is zero, or the assertion fails, decaytype.cc:377-379, :398-403, :422-427. -/
noncomputable def guard (rad : ℝ) (k : Res) : Res := by
  classical
  exact if rad < 0 then (if -1 / 100000 < rad then .val 0 else .assertion) else k

/-- The width into a virtual photon of baryons, decaytype.cc:405-412 with `s = M + m_other`, `d = M - m_other` and decaytype.cc:429-436 with the two
exchanged: `f` is the form factor squared, 1.08 for `N(1520)`. -/
noncomputable def gammaVi (M q mo s d f : ℝ) : ℝ :=
  alpha / 16 * s * s / (M * M * M * (mo * mo)) * √(s * s - q * q) * √(d * d - q * q) ^ 3 * f

/-- `diff_width`, decaytype.cc:337-447: mass of the mother, of a lepton, of the pair and of the other particle; `g` is the width into photons
(decaytype.cc:361, :370), `f` the squared form factor. -/
noncomputable def diffWidth (t : Mother) (M ml q mo g f : ℝ) : Res := by
  classical
  exact if M < q + mo then .val 0 else
    match t with
    | .pseudoscalar => withPhaseSpace ml q (4 * alpha / (3 * Real.pi) * g / q * (1 - q / M * q / M) ^ 3 * f)
    | .vector => guard (vecRad M q mo) (withPhaseSpace ml q (2 * alpha / (3 * Real.pi) * g / q * vecRad M q mo ^ ((3 : ℝ) / 2) * f))
    | .delta => guard ((M + mo) * (M + mo) - q * q) (guard ((M - mo) * (M - mo) - q * q)
        (withPhaseSpace ml q (2 * alpha / (3 * Real.pi) * gammaVi M q mo (M + mo) (M - mo) f / q)))
    | .n1520 => guard ((M - mo) * (M - mo) - q * q) (guard ((M + mo) * (M + mo) - q * q)
        (withPhaseSpace ml q (2 * alpha / (3 * Real.pi) * gammaVi M q mo (M - mo) (M + mo) (108 / 100) / q)))
    | .unsupported => .throw

end Verif.Dal
