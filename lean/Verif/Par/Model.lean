import Verif.Kin.Model
import Mathlib.Analysis.SpecialFunctions.Pow.Real
import Mathlib.Analysis.SpecialFunctions.Trigonometric.Basic

/-!
Model of the parametrized cross sections (parametrizations.cc), in millibarn as functions of the Mandelstam
variable s in GeV².

Simplifications: doubles are real numbers; the interpolations of tabulated data are arguments; the functions are
used above the threshold (below it the release build computes with square roots of negative numbers).
-/

namespace Verif.Par

open Verif.Kin

/-- `nucleon_mass`, constants.h:62. -/
noncomputable def mN : ℝ := 938 / 1000
/-- `pion_mass`, constants.h:69. -/
noncomputable def mPi : ℝ := 138 / 1000
/-- `kaon_mass`, constants.h:76. -/
noncomputable def mK : ℝ := 494 / 1000
/-- `really_small`, constants.h:37. -/
noncomputable def reallySmall : ℝ := 1 / 1000000

/-! ### High energies -/

/-- `xs_high_energy`, parametrizations.cc:40-52. -/
noncomputable def xsHigh (s : ℝ) (opposite : Bool) (ma mb P R1 R2 : ℝ) : ℝ :=
  let M := 2.1206
  let x := s / (ma + mb + M) / (ma + mb + M)
  let xs := 0.272 * Real.log x * Real.log x + P + R1 * x ^ (-0.4473 : ℝ)
  if opposite then xs + R2 * x ^ (-0.5486 : ℝ) else xs - R2 * x ^ (-0.5486 : ℝ)

/-- `pp_high_energy`, parametrizations.cc:54-56. -/
noncomputable def ppHigh (s : ℝ) : ℝ := xsHigh s false 0.939 0.939 34.41 13.07 7.394
/-- `ppbar_high_energy`, parametrizations.cc:58-60. -/
noncomputable def ppbarHigh (s : ℝ) : ℝ := xsHigh s true 0.939 0.939 34.41 13.07 7.394
/-- `np_high_energy`, parametrizations.cc:62-64. -/
noncomputable def npHigh (s : ℝ) : ℝ := xsHigh s false 0.939 0.939 34.41 12.52 6.66
/-- `npbar_high_energy`, parametrizations.cc:66-68. -/
noncomputable def npbarHigh (s : ℝ) : ℝ := xsHigh s true 0.939 0.939 34.41 12.52 6.66
/-- `piplusp_high_energy`, parametrizations.cc:70-72. -/
noncomputable def piplusHigh (s : ℝ) : ℝ := xsHigh s false 0.939 0.138 18.75 9.56 1.767
/-- `piminusp_high_energy`, parametrizations.cc:74-76. -/
noncomputable def piminusHigh (s : ℝ) : ℝ := xsHigh s true 0.939 0.138 18.75 9.56 1.767

/-- `xs_ppbar_annihilation`, parametrizations.cc:78-88. -/
noncomputable def annihilation (s : ℝ) : ℝ :=
  let sref := 4 * mN * mN
  let a := 0.05
  let factor := a * a * sref / ((s - sref) * (s - sref) + a * a * sref) + 0.6
  120 * (sref / s) * factor

open Classical in
/-- `xs_string_hard`, parametrizations.cc:90-99. -/
noncomputable def stringHard (s xs0 e0 l : ℝ) : ℝ :=
  if Real.sqrt s < e0 then 0 else xs0 * (Real.log (Real.sqrt s / e0)) ^ l

/-- `NN_string_hard`, parametrizations.cc:101-103. -/
noncomputable def hardNN (s : ℝ) : ℝ := stringHard s 0.087 4.1 3.8
/-- `Npi_string_hard`, parametrizations.cc:105-107. -/
noncomputable def hardNpi (s : ℝ) : ℝ := stringHard s 0.042 3.5 4.2
/-- `pipi_string_hard`, parametrizations.cc:109-111. -/
noncomputable def hardPipi (s : ℝ) : ℝ := stringHard s 0.013 2.3 4.7

/-! ### Pions -/

open Classical in
/-- `pipluspiminus_total`, `pizeropizero_total`, `piplusp_total` and `piminusp_total`, parametrizations.cc:113-156, 241-254:
interpolation below the last energy of the table, a formula above. -/
noncomputable def tabulated (table : ℝ → ℝ) (last : ℝ) (high : ℝ → ℝ) (sqrts : ℝ) : ℝ :=
  if sqrts < last then table sqrts else high (sqrts * sqrts)

open Classical in
/-- `p_lab` of `piplusp_elastic_high_energy`, `piplusp_elastic_AQM`, `pp_elastic_high_energy`: the heavier particle is the
target, parametrizations.cc:176-177, 183-184, 383-384. -/
noncomputable def plabHeavy (s m1 m2 : ℝ) : ℝ :=
  if m1 > m2 then plabFromS2 s m2 m1 else plabFromS2 s m1 m2

/-- `piplusp_elastic_high_energy`, parametrizations.cc:175-180. -/
noncomputable def piplusElasticHigh (s m1 m2 : ℝ) : ℝ :=
  let p := plabHeavy s m1 m2
  11.4 * p ^ (-0.4 : ℝ) + 0.079 * Real.log p * Real.log p

open Classical in
/-- `piplusp_elastic_AQM`, parametrizations.cc:182-190. -/
noncomputable def piplusElasticAQM (s m1 m2 : ℝ) : ℝ :=
  if plabHeavy s m1 m2 < 3.05 then 7.5 else piplusElasticHigh s m1 m2

open Classical in
/-- The end of `piplusp_elastic` and `piminusp_elastic`: the elastic contributions of resonances are subtracted,
parametrizations.cc:204-218, 294-309. -/
noncomputable def subtract (sigma res : ℝ) : ℝ :=
  if sigma - res < 0 then reallySmall else sigma - res

open Classical in
/-- `piplusp_elastic`, parametrizations.cc:192-219. -/
noncomputable def piplusElastic (pdg res : ℝ → ℝ) (s : ℝ) : ℝ :=
  let p := plabFromS2 s mPi mN
  let sigma := if s < 2.25 then reallySmall
    else if s > 4.84 then 11.4 * p ^ (-0.4 : ℝ) + 0.079 * Real.log p * Real.log p
    else pdg p
  subtract sigma (res s)

open Classical in
/-- `piminusp_elastic`, parametrizations.cc:273-310. -/
noncomputable def piminusElastic (pdg res : ℝ → ℝ) (s : ℝ) : ℝ :=
  let p := plabFromS2 s mPi mN
  let sigma := if s < 1.69 then reallySmall
    else if s > 4.84 then 1.76 + 11.2 * p ^ (-0.64 : ℝ) + 0.043 * Real.log p * Real.log p
    else pdg p
  let sigma := if s > 3.24 ∧ s < 3.8809 then
      sigma * (0.12 * Real.cos (2 * Real.pi * (Real.sqrt s - 1.8) / (1.97 - 1.8)) + 0.88) else sigma
  subtract sigma (res s)

/-! ### Nucleons -/

/-- The elastic cross section of nucleons at high momenta, parametrizations.cc:375-379, 385-387, 418-422. -/
noncomputable def elasticHigh (p : ℝ) : ℝ :=
  11.9 + 26.9 * p ^ (-1.21 : ℝ) + 0.169 * Real.log p * Real.log p - 1.85 * Real.log p

/-- `pp_elastic_high_energy`, parametrizations.cc:382-388. -/
noncomputable def ppElasticHigh (s m1 m2 : ℝ) : ℝ := elasticHigh (plabHeavy s m1 m2)

open Classical in
/-- `pp_elastic`, parametrizations.cc:363-380. -/
noncomputable def ppElastic (s : ℝ) : ℝ :=
  let p := plabFromS s mN
  if p < 0.435 then 5.12 * mN / (s - 4 * mN * mN) + 1.67
  else if p < 0.8 then 23.5 + 1000 * (p - 0.7) ^ 4
  else if p < 2 then 1250 / (p + 50) - 4 * (p - 1.3) * (p - 1.3)
  else if p < 2.776 then 77 / (p + 1.5)
  else elasticHigh p

open Classical in
/-- `pp_total`, parametrizations.cc:390-404. -/
noncomputable def ppTotal (s : ℝ) : ℝ :=
  let p := plabFromS s mN
  if p < 0.4 then 34 * (p / 0.4) ^ (-2.104 : ℝ)
  else if p < 0.8 then 23.5 + 1000 * (p - 0.7) ^ 4
  else if p < 1.5 then 23.5 + 24.6 / (1 + Real.exp (-(p - 1.2) / 0.1))
  else if p < 5 then 41 + 60 * (p - 0.9) * Real.exp (-1.2 * p)
  else 48 + 0.522 * Real.log p * Real.log p - 4.51 * Real.log p

open Classical in
/-- `np_elastic`, parametrizations.cc:406-423. -/
noncomputable def npElastic (s : ℝ) : ℝ :=
  let p := plabFromS s mN
  if p < 0.525 then 17.05 * mN / (s - 4 * mN * mN) - 6.83
  else if p < 0.8 then 33 + 196 * |p - 0.95| ^ (2.5 : ℝ)
  else if p < 2 then 31 / Real.sqrt p
  else if p < 2.776 then 77 / (p + 1.5)
  else elasticHigh p

open Classical in
/-- `np_total`, parametrizations.cc:425-439. -/
noncomputable def npTotal (s : ℝ) : ℝ :=
  let p := plabFromS s mN
  if p < 0.4 then 6.3555 * p ^ (-3.2481 : ℝ) * Real.exp (-0.377 * Real.log p * Real.log p)
  else if p < 1 then 33 + 196 * |p - 0.95| ^ (2.5 : ℝ)
  else if p < 2 then 24.2 + 8.9 * p
  else if p < 5 then 42
  else 48 + 0.522 * Real.log p * Real.log p - 4.51 * Real.log p

open Classical in
/-- `ppbar_elastic`, parametrizations.cc:441-456. -/
noncomputable def ppbarElastic (s : ℝ) : ℝ :=
  if s < 4 * mN * mN then 0
  else
    let p := plabFromS s mN
    if p < 0.3 then 78.6
    else if p < 5 then 31.6 + 18.3 / p - 1.1 / (p * p) - 3.8 * p
    else 10.2 + 52.7 * p ^ (-1.16 : ℝ) + 0.125 * Real.log p * Real.log p - 1.28 * Real.log p

open Classical in
/-- `ppbar_total`, parametrizations.cc:458-473. -/
noncomputable def ppbarTotal (s : ℝ) : ℝ :=
  if s < 4 * mN * mN then 0
  else
    let p := plabFromS s mN
    if p < 0.3 then 271.6 * Real.exp (-1.1 * p * p)
    else if p < 5 then 75 + 43.1 / p + 2.6 / (p * p) - 3.9 * p
    else 38.4 + 77.6 * p ^ (-0.64 : ℝ) + 0.26 * Real.log p * Real.log p - 1.2 * Real.log p

/-- `deuteron_pion_elastic`, parametrizations.cc:475-478. -/
noncomputable def deuteronPion (s : ℝ) : ℝ :=
  let t := Real.sqrt s - 2.172
  4 + 0.27 / (t * t + 0.065 * 0.065)

/-- `deuteron_nucleon_elastic`, parametrizations.cc:480-485. -/
noncomputable def deuteronNucleon (s : ℝ) : ℝ :=
  let e := s - 7.93
  2500 * Real.exp (-(e * e) / 0.003) + 600 * Real.exp (-(e * e) / 0.1) + 10

/-! ### Kaons -/

/-- `kplusp_elastic_background`, parametrizations.cc:536-547. -/
noncomputable def kplusElastic (s : ℝ) : ℝ :=
  let p := plabFromS2 s mK mN
  (10.508 + -3.716 * p + 1.845 * (p * p)) / (1 + -0.764 * p + 0.508 * (p * p))

/-- `kplusn_elastic_background`, parametrizations.cc:549-551. -/
noncomputable def kplusnElastic (s : ℝ) : ℝ := 0.25 * kplusElastic s
/-- `kplusn_k0p`, parametrizations.cc:553-555. -/
noncomputable def kplusnK0p (s : ℝ) : ℝ := 0.25 * kplusElastic s

open Classical in
/-- `kminusp_elastic_background` before the resonances are subtracted, parametrizations.cc:574-595. -/
noncomputable def kminusElasticExp (pdg : ℝ → ℝ) (s : ℝ) : ℝ :=
  let p := plabFromS2 s mK mN
  if Real.sqrt s < 1.68 then
    let ratio := 0.22002795 * 0.22002795 / (0.22002795 * 0.22002795 + p * p)
    186.03567644 * p / (p * s) * ratio ^ (0.64907116 : ℝ)
  else pdg p

/-- `kminusp_elastic_background`, parametrizations.cc:574-616 (release build). -/
noncomputable def kminusElastic (pdg res : ℝ → ℝ) (s : ℝ) : ℝ :=
  kminusElasticExp pdg s - res (plabFromS2 s mK mN)

/-- `kplusp_inelastic_background`, parametrizations.cc:640-651. -/
noncomputable def kplusInelastic (total : ℝ → ℝ) (s : ℝ) : ℝ :=
  total (plabFromS2 s mK mN) - kplusElastic s

/-- `kplusn_inelastic_background`, parametrizations.cc:653-665. -/
noncomputable def kplusnInelastic (total : ℝ → ℝ) (s : ℝ) : ℝ :=
  total (plabFromS2 s mK mN) - kplusnElastic s - kplusnK0p s

/-- `kminusp_kbar0n`, parametrizations.cc:772-783. -/
noncomputable def kminusKbar0n (s : ℝ) : ℝ :=
  let p := plabFromS2 s mK mN
  100 * p / (p * s) * (0.15 * 0.15 / (0.15 * 0.15 + p * p)) ^ 2

/-- `kminusp_piminussigmaplus`, parametrizations.cc:785-787. -/
noncomputable def kpPimSp (w : ℝ) : ℝ := 0.0788265 / ((w - 1.38841) * (w - 1.38841))
/-- `kminusp_piplussigmaminus`, parametrizations.cc:789-791. -/
noncomputable def kpPipSm (w : ℝ) : ℝ := 0.0196741 / ((w - 1.42318) * (w - 1.42318))
/-- `kminusp_pi0sigma0`, parametrizations.cc:793-795. -/
noncomputable def kpPi0S0 (w : ℝ) : ℝ := 0.0403364 / ((w - 1.39830305) * (w - 1.39830305))
/-- `kminusp_pi0lambda`, parametrizations.cc:797-799. -/
noncomputable def kpPi0L (w : ℝ) : ℝ := 0.05932562 / ((w - 1.38786692) * (w - 1.38786692))
/-- `kminusn_piminussigma0`, parametrizations.cc:801-804. -/
noncomputable def knPimS0 (w : ℝ) : ℝ := kpPimSp w + kpPipSm w - 2 * kpPi0S0 w
/-- `kminusn_piminuslambda`, parametrizations.cc:806-808. -/
noncomputable def knPimL (w : ℝ) : ℝ := 2 * kpPi0L w

/-! ### Hyperons; `d` is the energy above the threshold -/

/-- `lambdalambda_ximinusp` and `lambdalambda_xi0n`, parametrizations.cc:812-820. -/
noncomputable def lambdaLambda (d pN pL : ℝ) : ℝ := 37.15 / 2 * pN / pL * d ^ (-0.16 : ℝ)
/-- `lambdasigmaplus_xi0p` and `lambdasigmaminus_ximinusn`, parametrizations.cc:822-829. -/
noncomputable def lambdaSigmaCharged (d : ℝ) : ℝ := 24.3781 * d ^ (-0.479 : ℝ)
open Classical in
/-- `lambdasigma0_ximinusp` and `lambdasigma0_xi0n`, parametrizations.cc:831-842. -/
noncomputable def lambdaSigma0 (d : ℝ) : ℝ :=
  if d < 0.03336 then 6.475 * d ^ (-0.4167 : ℝ) else 14.5054 * d ^ (-0.1795 : ℝ)
open Classical in
/-- `sigma0sigma0_ximinusp` and `sigma0sigma0_xi0n`, parametrizations.cc:844-855. -/
noncomputable def sigma0Sigma0 (d : ℝ) : ℝ :=
  if d < 0.09047 then 5.625 * d ^ (-0.318 : ℝ) else 4.174 * d ^ (-0.4421 : ℝ)
/-- `sigmaplussigmaminus_xi0p` and `sigma0sigmaminus_ximinusn`, parametrizations.cc:857-863. -/
noncomputable def sigmaSigmaCharged (d : ℝ) : ℝ := 4 * sigma0Sigma0 d
/-- `sigmaplussigmaminus_ximinusp` and `sigmaplussigmaminus_xi0n`, parametrizations.cc:865-871. -/
noncomputable def sigmaPlusSigmaMinus (d : ℝ) : ℝ := 14.194 * d ^ (-0.442 : ℝ)

end Verif.Par
