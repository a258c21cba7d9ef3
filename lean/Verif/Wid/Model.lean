import Mathlib.Analysis.Complex.Basic
import Verif.Kin.Model
import Verif.Rand.Model

/-!
Model of decay widths: form factors (formfactors.h), the decay types (decaytype.cc), the width functions,
minimum masses and mass sampling of `ParticleType` (particletype.cc), the Breit-Wigner functions
(distributions.cc) and `DecayActionsFinder` (decayactionsfinder.cc).

Simplifications: doubles are real numbers; the tabulated integrals `rho` of decays with unstable
daughters and the normalised spectral function are arbitrary functions; what is cached is computed.
-/

namespace Verif.Wid

open Verif Kin

/-- `hbarc`, constants.h. -/
noncomputable def hbarc : ℝ := 197327053 / 1000000000

/-- The loop of `blatt_weisskopf_sqr`, formfactors.h:50-56: remaining iterations, `l`, `g_prevprev`,
`g_prev`, `numer`. -/
noncomputable def bwLoop (x2 : ℝ) : ℕ → ℕ → ℂ → ℂ → ℝ → ℂ × ℝ
  | 0, _, _, p, num => (p, num)
  | n + 1, l, pp, p, num => bwLoop x2 n (l + 1) p (((2 * l + 1 : ℕ) : ℂ) * p - (x2 : ℂ) * pp) (num * x2)

/-- `blatt_weisskopf_sqr`, formfactors.h:36-59. -/
noncomputable def blattWeisskopfSqr (p : ℝ) (L : Int) : ℝ :=
  if L = 0 then 1
  else
    let x := p * (1 / hbarc)
    let x2 := x * x
    if L = 1 then x2 / (1 + x2)
    else
      let r := bwLoop x2 (L - 1).toNat 1 1 ⟨1, -x⟩ x2
      r.2 / Complex.normSq r.1

/-- `post_ff_sqr`, formfactors.h:80-88. -/
noncomputable def postFFSqr (m M0 srts0 L : ℝ) : ℝ :=
  let L4 := L * L * L * L
  let M2 := M0 * M0
  let s0 := srts0 * srts0
  let sminus := (s0 - M2) * (1 / 2)
  let splus := m * m - (s0 + M2) * (1 / 2)
  let FF := (L4 + sminus * sminus) / (L4 + splus * splus)
  FF * FF

/-- `breit_wigner`, distributions.cc:25-29. -/
noncomputable def breitWigner (m pole width : ℝ) : ℝ :=
  let msqr := m * m
  let dmsqr := msqr - pole * pole
  2 * msqr * width / (Real.pi * (dmsqr * dmsqr + msqr * width * width))

/-- `cauchy`, distributions.cc:37-40. -/
noncomputable def cauchyPdf (x pole width : ℝ) : ℝ :=
  let dm := x - pole
  width / (Real.pi * (dm * dm + width * width))

/-- `breit_wigner_nonrel`, distributions.cc:32-34. -/
noncomputable def breitWignerNonrel (m pole width : ℝ) : ℝ := cauchyPdf m pole (width / 2)

/-- The kinds of decays (decaytype.h). Stable daughters are given by their masses; `rho` is the
tabulated integral for unstable ones. -/
inductive Kind
  | stable (m1 m2 : ℝ) (L : Int)
  | unstable (rho : ℝ → ℝ) (lambda : ℝ) (L : Int)
  | dilepton (ml : ℝ)
  | threeBody
  /-- three-body dilepton decay: is the mother stable?, tabulated width -/
  | dalitz (stableMother : Bool) (table : ℝ → ℝ)

/-- A decay mode: threshold (processbranch.cc:35-53), branching ratio and kind. -/
structure Mode where
  threshold : ℝ
  weight : ℝ
  kind : Kind

inductive Err
  | assertion
  deriving DecidableEq

/-- `TwoBodyDecayStable::rho`, decaytype.cc:82-88. -/
noncomputable def rhoStable (m1 m2 : ℝ) (L : Int) (m : ℝ) : ℝ :=
  let p := pCM m m1 m2
  p / m * blattWeisskopfSqr p L

open Classical in
/-- `width` of the decay types, decaytype.cc:90-93, 165-168, 227-229, 255-267, 297-299, 446-483. -/
noncomputable def width (D : Mode) (m0 G0 m : ℝ) : Except Err ℝ :=
  match D.kind with
  | .stable m1 m2 L =>
    if rhoStable m1 m2 L m0 = 0 then .error .assertion
    else .ok (if m ≤ D.threshold then 0 else G0 * rhoStable m1 m2 L m / rhoStable m1 m2 L m0)
  | .unstable rho lambda _ =>
    if rho m0 = 0 then .error .assertion
    else .ok (G0 * rho m / rho m0 * postFFSqr m m0 D.threshold lambda)
  | .dilepton ml =>
    .ok (if m ≤ D.threshold then 0
      else G0 * ((m0 / m) * (m0 / m) * (m0 / m)) * Real.sqrt (1 - 4 * ((ml / m) * (ml / m))) *
        (1 + 2 * ((ml / m) * (ml / m))))
  | .threeBody => .ok G0
  | .dalitz st table => .ok (if st then G0 else table m)

open Classical in
/-- `in_width` of the decay types for actual masses of the daughters, decaytype.cc:95-99, 170-177,
231-237, 301-304. -/
noncomputable def inWidth (D : Mode) (m0 G0 m m1 m2 : ℝ) : Except Err ℝ :=
  match D.kind with
  | .unstable rho lambda L =>
    if rho m0 = 0 then .error .assertion
    else
      let p := pCM m m1 m2
      .ok (G0 * p * blattWeisskopfSqr p L * postFFSqr m m0 D.threshold lambda / (m * rho m0))
  | .threeBody => .ok G0
  | .dalitz _ _ => .ok G0
  | _ => width D m0 G0 m

/-- What is used of a `ParticleType`: pole mass, width at the pole, decay modes. -/
structure Res where
  mass : ℝ
  width : ℝ
  modes : List Mode

/-- `width_cutoff`, particletype.h:108. -/
noncomputable def cutoff : ℝ := 1 / 100000

open Classical in
/-- `is_stable`, particletype.h:249. -/
noncomputable def Res.stable (R : Res) : Bool := decide (R.width < cutoff)

open Classical in
/-- `partial_width`, particletype.cc:424-431. -/
noncomputable def partialWidth (R : Res) (m : ℝ) (D : Mode) : Except Err ℝ :=
  if m < D.threshold then .ok 0 else Wid.width D R.mass (R.width * D.weight) m

/-- The loop of `total_width`, particletype.cc:447-449. -/
noncomputable def sumWidths (R : Res) (m : ℝ) : List Mode → Except Err ℝ
  | [] => .ok 0
  | D :: l => do
    let w ← partialWidth R m D
    let r ← sumWidths R m l
    .ok (w + r)

open Classical in
/-- `total_width`, particletype.cc:440-454. -/
noncomputable def totalWidth (R : Res) (m : ℝ) : Except Err ℝ :=
  if R.stable then .ok 0
  else do
    let w ← sumWidths R m R.modes
    .ok (if w < cutoff then 0 else w)

/-- `WhichDecaymodes`, particletype.h. -/
inductive Which
  | all | hadronic | dileptons
  deriving DecidableEq

/-- `is_dilepton_decay` of the decay types. -/
def Kind.isDilepton : Kind → Bool
  | .dilepton _ => true
  | .dalitz _ _ => true
  | _ => false

/-- `wanted_decaymode`, particletype.cc:473-489. -/
def wanted (D : Mode) : Which → Bool
  | .all => true
  | .hadronic => !D.kind.isDilepton
  | .dileptons => D.kind.isDilepton

open Classical in
/-- `get_partial_widths` without potentials, particletype.cc:491-537: the modes with their widths at
the mass `m`. -/
noncomputable def partialWidths (R : Res) (m : ℝ) (wh : Which) :
    List Mode → Except Err (List (Mode × ℝ))
  | [] => .ok []
  | D :: l => do
    let w ← partialWidth R m D
    let r ← partialWidths R m wh l
    .ok (if w > 0 ∧ wanted D wh = true then (D, w) :: r else r)

/-- `total_weight`, processbranch.h:236-243. -/
noncomputable def totalWeight (l : List (Mode × ℝ)) : ℝ := (l.map Prod.snd).sum

/-- `min_mass_kinematic`, particletype.cc:364-376. -/
noncomputable def minMassKinematic (R : Res) : ℝ :=
  if R.stable then R.mass else R.modes.foldl (fun m D => min m D.threshold) R.mass

open Classical in
/-- `spectral_function_no_norm`, particletype.cc:599-607. -/
noncomputable def spectralNoNorm (R : Res) (m : ℝ) : Except Err ℝ := do
  let w ← totalWidth R m
  .ok (if w < cutoff then 0 else breitWigner m R.mass w)

/-- `really_small`, constants.h. -/
noncomputable def small : ℝ := 1 / 1000000

open Classical in
/-- The search for a right bound, particletype.cc:391-397: at most `n` more steps. -/
noncomputable def findRight (sf : ℝ → ℝ) (mmin : ℝ) : ℕ → ℕ → Option ℝ
  | 0, _ => none
  | n + 1, i =>
    if sf (mmin + 1 / 100 * i) > small then some (mmin + 1 / 100 * i) else findRight sf mmin n (i + 1)

open Classical in
/-- The bisection, particletype.cc:399-409; `none` if `n` steps are not enough. -/
noncomputable def bisect (sf : ℝ → ℝ) : ℕ → ℝ → ℝ → Option ℝ
  | 0, l, r => if r - l > 1 / 1000000 then none else some r
  | n + 1, l, r =>
    if r - l > 1 / 1000000 then
      if sf ((l + r) / 2) > small then bisect sf n l ((l + r) / 2) else bisect sf n ((l + r) / 2) r
    else some r

open Classical in
/-- `min_mass_spectral`, particletype.cc:378-414, for the minimal mass `mmin` and the spectral function
`sf`; the search for the right bound is cut after `n` steps. -/
noncomputable def minMassSpectral (stable : Bool) (sf : ℝ → ℝ) (mmin : ℝ) (n : ℕ) : Option ℝ :=
  if !stable && decide (sf mmin < small) then do
    let r ← findRight sf mmin n 0
    bisect sf 14 (r - 1 / 100) r
  else some mmin

/-- What `sample_resonance_mass` uses of a resonance: pole mass, width, `min_mass_spectral`, spectral
function. -/
structure Shape where
  mass : ℝ
  width : ℝ
  mmin : ℝ
  sf : ℝ → ℝ

/-- The value that is compared in `sample_resonance_mass`, particletype.cc:661-667. -/
noncomputable def sampleVal (S : Shape) (mst cms : ℝ) (L : Int) (m : ℝ) : ℝ :=
  S.sf m / breitWignerNonrel m S.mass S.width *
    (pCM cms mst m * blattWeisskopfSqr (pCM cms mst m) L)

/-- `blw_max * sf_ratio_max`, particletype.cc:632-650. -/
noncomputable def sampleTop (S : Shape) (mst cms : ℝ) (L : Int) (mmax : ℝ) : ℝ :=
  pCM cms mst S.mmin * blattWeisskopfSqr (pCM cms mst S.mmin) L *
    max 1 (S.sf mmax / breitWignerNonrel mmax S.mass S.width)

open Classical in
/-- The loops of `sample_resonance_mass`, particletype.cc:651-684, for a list of pairs of random numbers
and the current `max_factor1_`; returns the mass and the new factor, `none` when the numbers are used
up. `mmax` is `nextafter(cms_energy - mass_stable, 0)`. -/
noncomputable def sampleMass (S : Shape) (mst cms mmax : ℝ) (L : Int) :
    ℝ → List (ℝ × ℝ) → Option (ℝ × ℝ)
  | _, [] => none
  | f, (u, v) :: rest => do
    let m ← Rand.cauchy S.mass (S.width / 2) S.mmin mmax u
    let top := sampleTop S mst cms L mmax * f
    if sampleVal S mst cms L m < Rand.uniform 0 top v then sampleMass S mst cms mmax L f rest
    else if sampleVal S mst cms L m > top then
      sampleMass S mst cms mmax L (f * (sampleVal S mst cms L m / top)) rest
    else some (m, f)

/-- The value that is compared in `sample_resonance_masses`, particletype.cc:713-721. -/
noncomputable def pairVal (S T : Shape) (cms : ℝ) (L : Int) (m1 m2 : ℝ) : ℝ :=
  S.sf m1 / breitWignerNonrel m1 S.mass S.width * (T.sf m2 / breitWignerNonrel m2 T.mass T.width) *
    (pCM cms m1 m2 * blattWeisskopfSqr (pCM cms m1 m2) L)

/-- `blw_max`, particletype.cc:695-698. -/
noncomputable def pairTop (S T : Shape) (cms : ℝ) (L : Int) : ℝ :=
  pCM cms S.mmin T.mmin * blattWeisskopfSqr (pCM cms S.mmin T.mmin) L

open Classical in
/-- The loops of `sample_resonance_masses`, particletype.cc:700-735, for a list of triples of random
numbers and the current `max_factor2_`; `max1` and `max2` are particletype.cc:691-694. -/
noncomputable def samplePair (S T : Shape) (cms max1 max2 : ℝ) (L : Int) :
    ℝ → List (ℝ × ℝ × ℝ) → Option ((ℝ × ℝ) × ℝ)
  | _, [] => none
  | f, (u1, u2, v) :: rest => do
    let m1 ← Rand.cauchy S.mass (S.width / 2) S.mmin max1 u1
    let m2 ← Rand.cauchy T.mass (T.width / 2) T.mmin max2 u2
    let top := pairTop S T cms L * f
    if pairVal S T cms L m1 m2 < Rand.uniform 0 top v then samplePair S T cms max1 max2 L f rest
    else if pairVal S T cms L m1 m2 > top then
      samplePair S T cms max1 max2 L (f * (pairVal S T cms L m1 m2 / top)) rest
    else some ((m1, m2), f)

/-- What `sample_masses` uses of an outgoing particle; `mkin` is `min_mass_kinematic`. -/
structure Final where
  stable : Bool
  mkin : ℝ
  shape : Shape

inductive MassErr
  /-- `InvalidResonanceFormation` -/
  | notEnough
  deriving DecidableEq

open Classical in
/-- `Action::sample_masses`, action.cc:253-280, where `L` is the default 0 of particletype.h:417,431, and
`DecayAction::sample_masses` without potentials, decayaction.cc:156-195. `next` is `nextafter(x, 0)`, `f`
the current factor. -/
noncomputable def sampleMasses (next : ℝ → ℝ) (A B : Final) (E : ℝ) (L : Int) (f : ℝ) (draws : List (ℝ × ℝ × ℝ)) :
    Except MassErr (Option (ℝ × ℝ)) :=
  if E < A.mkin + B.mkin then .error .notEnough
  else if !A.stable && B.stable then
    .ok ((sampleMass A.shape B.shape.mass E (next (E - B.shape.mass)) L f
      (draws.map fun d => (d.1, d.2.2))).map fun r => (r.1, B.shape.mass))
  else if !B.stable && A.stable then
    .ok ((sampleMass B.shape A.shape.mass E (next (E - A.shape.mass)) L f
      (draws.map fun d => (d.2.1, d.2.2))).map fun r => (A.shape.mass, r.1))
  else if !A.stable && !B.stable then
    .ok ((samplePair A.shape B.shape E (next (E - B.shape.mmin)) (next (E - A.shape.mmin)) L f
      draws).map Prod.fst)
  else .ok (some (A.shape.mass, B.shape.mass))

/-- What the finder uses of a particle. -/
structure Part where
  momentum : V4
  collisions : ℕ
  scaling : ℝ
  formation : ℝ
  time : ℝ

/-- `inverse_gamma`, particledata.h:335-337. -/
noncomputable def inverseGamma (p : V4) : ℝ := Real.sqrt (1 - p.vec.dot p.vec / (p.t * p.t))

/-- The time until the decay, decayactionsfinder.cc:49-62; `u` with `step` is the random number. -/
noncomputable def decayTime (lifetimeFactor width : ℝ) (p : Part) (u step : ℝ) : ℝ :=
  let t := lifetimeFactor *
    Rand.exponential (1 / hbarc * inverseGamma p.momentum * width) u step
  if p.scaling < 1 then t + (p.formation - p.time) else t

/-- Parameters of the finder. -/
structure Finder where
  lifetimeFactor : ℝ
  decayInitial : Bool
  findFinal : Bool
  nonStrong : Bool

open Classical in
/-- One particle in `find_actions_in_cell`, decayactionsfinder.cc:28-69: the time until the decay, and the
channels. The invariant mass of the particle is `abs` of its momentum. -/
noncomputable def findOne (F : Finder) (R : Res) (p : Part) (dt u step : ℝ) :
    Except Err (Option (ℝ × List (Mode × ℝ))) :=
  if R.stable then .ok none
  else if !F.decayInitial && p.collisions == 0 then .ok none
  else do
    let l ← partialWidths R p.momentum.abs .hadronic R.modes
    let w := totalWeight l
    if ¬ w > 0 then .ok none
    else
      let t := decayTime F.lifetimeFactor w p u step
      .ok (if t < dt then some (t, l) else none)

/-- One particle in `find_final_actions`, decayactionsfinder.cc:74-96. -/
noncomputable def findFinalOne (F : Finder) (R : Res) (p : Part) :
    Except Err (Option (List (Mode × ℝ))) :=
  if !F.findFinal then .ok none
  else if !F.nonStrong && R.stable then .ok none
  else if R.modes.isEmpty then .ok none
  else do
    let l ← partialWidths R p.momentum.abs .all R.modes
    .ok (some l)

end Verif.Wid
