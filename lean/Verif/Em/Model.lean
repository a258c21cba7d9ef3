import Verif.Act.Model
import Verif.Kin.Rot
import Verif.Wid.Model
import Verif.Multi.Model

/-!
Model of electromagnetic probes, which do not act back on the event: dilepton shining
(decayactionsfinderdilepton.cc, decayactiondilepton.cc, experiment.h), photons from hadronic scatterings
(scatteractionphoton.cc) and bremsstrahlung (bremsstrahlungaction.cc).

Simplifications: doubles are real numbers; random numbers, the tabulated and analytic cross sections and the
differential width of Dalitz decays are arguments; no potentials and no spins.
-/

namespace Verif.Em

open Verif Kin Act Wid

/-! ### Dilepton shining -/

open Classical in
/-- The loop over the dilepton modes with `f` the shining weight of a width,
decayactionsfinderdilepton.cc:43-56, 79-90: what is written to the output. -/
noncomputable def emit (f : ℝ → ℝ) (l : List (Mode × ℝ)) : List (Mode × ℝ) :=
  l.filterMap fun m => if f m.2 > 0 then some (m.1, f m.2) else none

/-- One particle in `shine`, decayactionsfinderdilepton.cc:24-57. -/
noncomputable def shineOne (R : Res) (p : Wid.Part) (core : Bool) (dt : ℝ) :
    Except Err (List (Mode × ℝ)) := do
  let all ← partialWidths R p.momentum.abs .all R.modes
  if all.length == 0 then .ok []
  else
    let dil ← partialWidths R p.momentum.abs .dileptons R.modes
    if dil.length == all.length || R.stable || core then .ok []
    else .ok (emit (fun w => dt * inverseGamma p.momentum * w * p.scaling / hbarc) dil)

/-- One particle in `shine_final`, decayactionsfinderdilepton.cc:66-91. -/
noncomputable def shineFinalOne (R : Res) (p : Wid.Part) (core onlyRes : Bool) :
    Except Err (List (Mode × ℝ)) :=
  if R.modes.isEmpty || (onlyRes && R.stable) || core then .ok []
  else do
    let dil ← partialWidths R p.momentum.abs .dileptons R.modes
    let all ← partialWidths R p.momentum.abs .all R.modes
    .ok (emit (fun w => w / totalWeight all) dil)

/-- What decides about a particle at the end of the event: does its type have decay modes, is it stable,
is it a core particle, and which particle is it. -/
structure Fin where
  modes : Bool
  stable : Bool
  core : Bool
  tag : ℕ

/-- Is the particle passed over in `shine_final`?, decayactionsfinderdilepton.cc:68-71. -/
def shines (onlyRes : Bool) (x : Fin) : Bool :=
  !(!x.modes || (onlyRes && x.stable) || x.core)

/-- Does `find_final_actions` find a decay?, decayactionsfinder.cc:80-95. -/
def decays (F : Finder) (x : Fin) : Bool :=
  F.findFinal && !(!F.nonStrong && x.stable) && x.modes

/-- The particles after a round of decays, and the ones that are new, for the products drawn. -/
def replace (F : Finder) (prod : ℕ → Fin → List Fin) : ℕ → List Fin → List Fin
  | _, [] => []
  | i, x :: l => (if decays F x then prod i x else [x]) ++ replace F prod (i + 1) l

/-- The products of the decays of a round. -/
def products (F : Finder) (prod : ℕ → Fin → List Fin) : ℕ → List Fin → List Fin
  | _, [] => []
  | i, x :: l => (if decays F x then prod i x else []) ++ products F prod (i + 1) l

/-- The loop of `do_final_interactions`, experiment.h:3020-3054: what shines, the decay products, and the
particles at the end. `prod r i` are the products of the particle at position `i` in round `r`; `none` if the loop
does not end in the given number of rounds. The particles of all ensembles are one list: the loop goes on if
there is an action in any of them. Every decay found is performed. -/
def rounds (F : Finder) (prod : ℕ → ℕ → Fin → List Fin) :
    ℕ → ℕ → List Fin → Option (List Fin × List Fin × List Fin)
  | 0, _, _ => none
  | n + 1, r, ps =>
    if ps.any (decays F) then
      match rounds F prod n (r + 1) (replace F (prod r) 0 ps) with
      | none => none
      | some (s, q, e) => some (ps.filter (shines true) ++ s, products F (prod r) 0 ps ++ q, e)
    else some (ps.filter (shines true), [], ps)

/-- `do_final_interactions` with the shining of what remains, experiment.h:3018-3064: what shines, and the
decay products. -/
def doFinal (F : Finder) (prod : ℕ → ℕ → Fin → List Fin) (n : ℕ) (ps : List Fin) :
    Option (List Fin × List Fin) :=
  (rounds F prod n 0 ps).map fun r => (r.1 ++ r.2.2.filter (shines false), r.2.1)

/-! ### Dalitz decays -/

inductive DErr
  | wrongNumber | noHadron
  deriving DecidableEq

/-- An outgoing particle of the decay: is it a lepton, and its pole mass. -/
structure Out where
  lepton : Bool
  mass : ℝ

/-- The first particle that is no lepton, decayactiondilepton.cc:28-34. -/
def nonLepton : List Out → Option ℕ
  | [] => none
  | o :: l => if !o.lepton then some 0 else (nonLepton l).map (· + 1)

/-- `sample_manybody_phasespace` of a dilepton decay, decayactiondilepton.cc:20-88, in the rest frame of the mother
of mass `E` for the random number `r` ∈ [0,1) and the directions `u`, `v`. `diff` is the differential
width, `w` the width of the channel. The momenta are in the order of the particles; the last component is
`branching_`. -/
noncomputable def dalitz (E : ℝ) (out : List Out) (r : ℝ) (u v : V3) (diff : ℝ → ℝ) (w : ℝ) :
    Except DErr ((ℕ → V4) × ℝ × ℝ) :=
  if out.length ≠ 3 then .error .wrongNumber
  else
    match nonLepton out with
    | none => .error .noHadron
    | some i =>
      let m (j : ℕ) : ℝ := (out.map Out.mass).getD j 0
      let i1 := (i + 1) % 3
      let i2 := (i + 2) % 3
      let m1 := m i1
      let m2 := m i2
      let mh := m i
      let dil := m1 + m2 + (E - mh - (m1 + m2)) * r
      let delta := E - mh - m1 - m2
      let branching := delta * diff dil / w
      let pd := pCM E dil mh
      let d4 := V4.mk' (Real.sqrt (dil * dil + pd * pd)) (u.smul pd)
      let ph := onShell mh (u.neg.smul pd)
      let pl := pCM dil m1 m2
      let p1 := boost (onShell m1 (v.smul pl)) d4.velocity.neg
      let p2 := boost (onShell m2 (v.neg.smul pl)) d4.velocity.neg
      .ok (fun j => if j = i then ph else if j = i1 then p1 else p2, dil, branching)

/-- `get_total_weight`, decayactiondilepton.h:41-43; `branching_` is 1 for two-body decays. -/
noncomputable def totalDilWeight (shining branching : ℝ) : ℝ := shining * branching

/-! ### Photons from scatterings of mesons -/

/-- Codes of the mesons, pdgcode_constants.h. -/
inductive Mes
  | piP | piZ | piM | rhoP | rhoZ | rhoM
  /-- anything else -/
  | other
  deriving DecidableEq, Repr

/-- `is_pion`, pdgcode.h:471-474. -/
def Mes.isPion : Mes → Bool
  | .piP | .piZ | .piM => true
  | _ => false

/-- `ReactionType`, scatteractionphoton.h:159-171. -/
inductive Reac
  | no | pzppRp | pzpmRm | pprzPp | pmrzPm | pmrpPz | pprmPz | pzrpPp | pzrmPm | pppmRz | pzrzPz
  deriving DecidableEq, Repr

/-- `photon_reaction_type`, scatteractionphoton.cc:38-88. -/
def reaction : List Mes → Reac
  | [a0, b0] =>
    let a := if a0.isPion then a0 else b0
    let b := if a0.isPion then b0 else a0
    match a, b with
    | .piP, .piZ | .piZ, .piP => .pzppRp
    | .piM, .piZ | .piZ, .piM => .pzpmRm
    | .piP, .rhoZ => .pprzPp
    | .piM, .rhoZ => .pmrzPm
    | .piM, .rhoP => .pmrpPz
    | .piP, .rhoM => .pprmPz
    | .piZ, .rhoP => .pzrpPp
    | .piZ, .rhoM => .pzrmPm
    | .piP, .piM | .piM, .piP => .pppmRz
    | .piZ, .rhoZ => .pzrzPz
    | _, _ => .no
  | _ => .no

/-- `outgoing_hadron_type`, scatteractionphoton.cc:102-148. -/
def outHadron : Reac → Option Mes
  | .pzppRp => some .rhoP
  | .pzpmRm => some .rhoM
  | .pppmRz => some .rhoZ
  | .pprzPp | .pzrpPp => some .piP
  | .pmrzPm | .pzrmPm => some .piM
  | .pmrpPz | .pprmPz | .pzrzPz => some .piZ
  | .no => none

/-- `MediatorType`, scatteractionphoton.h:284. -/
inductive Mediator
  | sum | pion | omega
  deriving DecidableEq

/-- What is used of a hadron type: stable?, pole mass, `min_mass_spectral`, `min_mass_kinematic`. -/
structure HType where
  stable : Bool
  mass : ℝ
  minSpectral : ℝ
  minKinematic : ℝ

/-- `really_small`, constants.h:37. -/
noncomputable def reallySmall : ℝ := 1 / 1000000

/-- `omega_mass`, constants.h. -/
noncomputable def omegaMass : ℝ := 783 / 1000

open Classical in
/-- `is_kinematically_possible`, scatteractionphoton.cc:156-192, for the default mediator `med`. -/
noncomputable def possible (med : Mediator) (ty : Mes → HType) (sqrts : ℝ) (inc : List Mes) : Bool :=
  let reac := reaction inc
  match outHadron reac with
  | none => false
  | some h =>
    if med = .pion && reac = .pzrzPz then false
    else if (reac = .pmrpPz || reac = .pprmPz) && med = .omega && sqrts < omegaMass then false
    else if (ty h).stable && sqrts < (ty h).mass then false
    else if !(ty h).stable && sqrts < (ty h).minSpectral + reallySmall then false
    else true

inductive PErr
  | invalidResonance
  deriving DecidableEq

open Classical in
/-- `sample_out_hadron_mass`, scatteractionphoton.cc:302-317; `draw` is the sampled resonance mass. -/
noncomputable def outMass (h : HType) (sqrts draw : ℝ) : Except PErr ℝ :=
  if sqrts ≤ h.minKinematic then .error .invalidResonance
  else .ok (if !h.stable then draw else h.mass)

/-- An incoming particle: which meson, four-momentum, effective mass, scaling factor. -/
structure PIn where
  mes : Mes
  p : V4
  mass : ℝ
  scaling : ℝ

open Classical in
/-- Clamping of the cosine, scatteractionphoton.cc:236-245. -/
noncomputable def clamp (c : ℝ) : ℝ := if c > 1 then 1 else if c < -1 then -1 else c

/-- The kinematics of `generate_final_state`, scatteractionphoton.cc:206-260, for `r` and `phi` drawn: hadron and
photon in the frame of the calculation, the momentum transfer drawn and the length of its range. -/
noncomputable def photonFinal (x y : PIn) (mOut r phi : ℝ) : V4 × V4 × ℝ × ℝ :=
  let a := if x.mes.isPion then x else y
  let b := if x.mes.isPion then y else x
  let P := x.p.add y.p
  let s := P.sqr
  let sqrts := P.abs
  let tr := tRange sqrts a.mass b.mass mOut 0
  let t1 := tr.2
  let t2 := tr.1
  let pin := pCM sqrts a.mass b.mass
  let pout := pCM sqrts mOut 0
  let t := t1 + (t2 - t1) * r
  let c := clamp ((t - b.mass ^ 2 + 1 / 2 * (s + b.mass ^ 2 - a.mass ^ 2) * (s - mOut ^ 2) / s) /
    (pin * (s - mOut ^ 2) / sqrts))
  let u := (Angles.mk phi c).threevec
  let h := onShell mOut (u.smul pout)
  let g := onShell 0 (u.neg.smul pout)
  (toLab P h, toLab P g, t, t2 - t1)

/-- The weight, scatteractionphoton.cc:262-285: `diff` is the differential and `total` the total cross section with
form factors at the energy of the photon, `sigma` the hadronic cross section. -/
noncomputable def photonWeight (n : ℕ) (diff total sigma range f1 f2 : ℝ) : ℝ :=
  (if n > 1 then diff * range / (n * sigma) else total / sigma) * (f1 * f2)

open Classical in
/-- The end of `total_cross_section`, scatteractionphoton.cc:418-436. -/
noncomputable def fixTotal (created : Bool) (x : ℝ) : ℝ :=
  if x = 0 then (if created then 0 else 1 / 100) else if x < 0 then 1 / 10 else x

open Classical in
/-- The end of `diff_cross_section`, scatteractionphoton.cc:565-572. -/
noncomputable def fixDiff (x : ℝ) : ℝ := if x < 0 then 1 / 100 else x

open Classical in
/-- `cut_off`, crosssectionsphoton.cc:55-60. -/
noncomputable def cutOff (x : ℝ) : ℝ := if x > 200 then 200 else x

/-- `total_cross_section_w_ff` and `diff_cross_section_w_ff`, scatteractionphoton.cc:442-506, 574-634: `x` is the cross section
for the mediator asked for, `fpi` and `fom` are the form factors; `none` if it throws. -/
noncomputable def withFF (med : Mediator) (reac : Reac) (fpi fom : ℝ) (x : Mediator → ℝ) : Option ℝ :=
  match reac with
  | .pmrpPz | .pprmPz | .pzrmPm | .pzrpPp =>
    match med with
    | .sum => some (cutOff (fpi ^ 4 * x .pion + fom ^ 4 * x .omega))
    | .pion => some (cutOff (fpi ^ 4 * x .pion))
    | .omega => some (cutOff (fom ^ 4 * x .omega))
  | .pzppRp | .pzpmRm | .pprzPp | .pmrzPm | .pppmRz => some (cutOff (fpi ^ 4 * x med))
  | .pzrzPz => some (cutOff (fom ^ 4 * x med))
  | .no => none

/-- The dipole of `form_factor_pion` and `form_factor_omega`, scatteractionphoton.cc:636-662, for the fitted momentum transfer. -/
noncomputable def dipole (tff : ℝ) : ℝ :=
  let ff := 2 * 1 / (2 * 1 - tff)
  ff * ff

/-! ### Bremsstrahlung -/

/-- `k_min`, bremsstrahlungaction.cc:94. -/
noncomputable def kMin : ℝ := 1 / 1000

/-- `k_max`, bremsstrahlungaction.cc:95-98. -/
noncomputable def kMax (E m0 m1 : ℝ) : ℝ := (E * E - 2 * m0 * 2 * m1) / (2 * E)

open Classical in
/-- The photon energy drawn and the length of its range, bremsstrahlungaction.cc:100-108. -/
noncomputable def drawK (E m0 m1 r : ℝ) : ℝ × ℝ :=
  if kMax E m0 m1 - kMin < 0 then (0, 0)
  else (kMin + (kMax E m0 m1 - kMin) * r, kMax E m0 m1 - kMin)

/-- `sample_3body_phasespace`, bremsstrahlungaction.cc:147-178, for the directions `u` of the photon and `v` of
the pions. -/
noncomputable def bremsFinal (E ma mb mc k : ℝ) (u v : V3) : V4 × V4 × V4 :=
  let Eab := E - mc - k
  let pcm := pCM E Eab mc
  let pp := pCM Eab ma mb
  let beta := (u.smul pcm).div (Real.sqrt (pcm * pcm + Eab * Eab))
  (boost (onShell ma (v.smul pp)) beta, boost (onShell mb (v.neg.smul pp)) beta, onShell mc (u.smul pcm))

/-- The weight, bremsstrahlungaction.cc:115-126. -/
noncomputable def bremsWeight (n : ℕ) (dk dth deltaK sigma f1 f2 : ℝ) : ℝ :=
  Real.sqrt (dth * (Real.pi - 0) * (dk * deltaK)) / (n * sigma) * (f1 * f2)

/-- Reactions of bremsstrahlung, bremsstrahlungaction.h. -/
inductive BReac
  | no | zm | zp | pm | mm | pp | zz
  deriving DecidableEq, Repr

/-- `bremsstrahlung_reaction_type`, bremsstrahlungaction.cc:28-63. -/
def bremsReaction : List Mes → BReac
  | [a, b] =>
    match a, b with
    | .piZ, .piM | .piM, .piZ => .zm
    | .piZ, .piP | .piP, .piZ => .zp
    | .piM, .piP | .piP, .piM => .pm
    | .piM, .piM => .mm
    | .piP, .piP => .pp
    | .piZ, .piZ => .zz
    | _, _ => .no
  | _ => .no

/-- The tabulated total cross sections at the energy of the collision. -/
structure Tables where
  opp : ℝ
  same : ℝ
  pi0 : ℝ
  toZero : ℝ
  fromZero : ℝ

open Classical in
/-- No negative cross sections, bremsstrahlungaction.cc:218-219, 252, 264. -/
noncomputable def positive (x : ℝ) : ℝ := if x ≤ 0 then reallySmall else x

open Classical in
/-- `brems_cross_sections`, bremsstrahlungaction.cc:188-273: the two pions of the final state and the cross section
for the random number `r` ∈ [0,1) of `choose_channel` (processbranch.h:255-280); `none` if it throws. -/
noncomputable def bremsChannel (T : Tables) (inc : List Mes) (r : ℝ) : Option (List Mes × ℝ) :=
  match bremsReaction inc with
  | .pm =>
    let x1 := positive T.opp
    let x2 := positive T.toZero
    if r * (x1 + x2) ≤ x1 then some (inc, x1) else some ([.piZ, .piZ], x2)
  | .mm | .pp => some (inc, positive T.same)
  | .zm | .zp => some (inc, positive T.pi0)
  | .zz => some ([.piP, .piM], positive T.fromZero)
  | .no => none

end Verif.Em
