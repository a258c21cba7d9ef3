import Verif.Sec.Model
import Mathlib.Analysis.SpecialFunctions.Trigonometric.Basic

/-!
Model of the rest of `CrossSections` (src/crosssections.cc): elastic and total parametrisations,
resonance formation, break-up of nuclei, strings, nucleon-antinucleon annihilation, and how they are
put together in `generate_collision_list`; `ScatterAction::add_all_scatterings` up to rescaling
(src/scatteraction.cc:137-188).

Simplifications: the parametrisations themselves, PYTHIA's diffractive cross sections, decay widths
and spectral functions are oracles; doubles are real numbers; logging is left out; the particle list
is taken to contain the antiparticle of each nucleon.
-/

namespace Verif.Tot

open Verif Sec

/-- Exceptions, failing assertions, undefined behaviour, and results that are not a number. -/
inductive Err
  | sec (e : Sec.Err) | elastic | isospin | strings | nan | null | index
  deriving DecidableEq

/-- Parametrisations depending on the energy only (parametrizations.h). -/
inductive Fn
  | ppTot | npTot | ppbarTot | ppHigh | npHigh | ppbarHigh | npbarHigh | pipHigh | pimHigh
  | kpPTot | kmPTot | kpNTot | kmNTot | pipPTot | pimPTot | pippimTot | pizpizTot
  | pipEl | pimEl | ppEl | npEl | ppbarEl | dPiEl | dNEl | kpPEl | kmPEl | kpNEl | kmNEl
  | annihilation | nnHard | nPiHard | pipiHard
  deriving DecidableEq

/-- Parametrisations depending on the momentum in the rest frame of the heavier particle. -/
inductive FnP
  | ppElHigh | pipElHigh | pipElAQM
  deriving DecidableEq

inductive Proc
  | elastic | twoToOne | twoToTwo | twoToThree | twoToFour | twoToFive
  | softAX | softXB | softXX | softND | softAnnihilation | hard
  deriving DecidableEq

/-- A `CollisionBranch` (processbranch.h). -/
structure Chan where
  proc : Proc
  out : List PType
  weight : ℝ

inductive NNbar
  | none | resonances | twoToFive | strings
  deriving DecidableEq

/-- What is used of `ScatterActionsFinderParameters` (scatteractionsfinderparameters.h:67-162). -/
structure Params where
  elasticParam : ℝ
  lowSnnCut : ℝ
  scale : ℝ
  additionalEl : ℝ
  elastic : Bool
  nnbarBit : Bool
  inc : Included
  (deuteron3to2 a3nuclei4to2 : Bool)
  nnbar : NNbar
  twoToOne : Bool
  stringsSwitch : Bool
  useAQM : Bool
  withProbability : Bool
  rangeNpi : ℝ × ℝ
  rangeNN : ℝ × ℝ
  addLower : ℝ
  width : ℝ
  pipiOffset : ℝ
  knOffset : ℝ
  (charmSuppression bottomSuppression : ℝ)

/-- Oracles of this part. `core1`, `core2`: is the incoming particle part of the fluid? -/
structure Hi where
  f : Fn → ℝ → ℝ
  g : FnP → ℝ → ℝ
  /-- `cross_sections_diffractive`: AB → AX, XB, XX (stringprocess.h:319-339) -/
  diffr : PType → PType → ℝ → ℝ × ℝ × ℝ
  /-- does the first type have a decay mode into the other two? -/
  decays : PType → PType → PType → Bool
  /-- `get_partial_in_width` of the resonance for the incoming pair -/
  inWidth : PType → ℝ
  /-- `spectral_function(sqrts)` -/
  spectral : PType → ℝ
  (core1 core2 : Bool)

/-- `nucleon_mass`, constants.h. -/
noncomputable def mN : ℝ := 938 / 1000

/-- `frac_strange`, `frac_charm`, `frac_bottom` (pdgcode.h:533-599) for quark `q` with net number `n`. -/
noncomputable def frac (t : PType) (q : Nat) (n : Int) : ℝ :=
  if Pdg.isBaryon t.pdg then (n.natAbs : ℝ) / 3
  else if Pdg.isMeson t.pdg then
    if Pdg.nq3 t.pdg = q ∧ Pdg.nq2 t.pdg = q then 1 else (n.natAbs : ℝ) / 2
  else 0

/-- `AQM_scaling_factor`, scatteractionsfinderparameters.h:148-152. -/
noncomputable def aqm (P : Params) (t : PType) : ℝ :=
  (1 - 4 / 10 * frac t 3 (Pdg.strangeness t.pdg)) *
    (1 - P.charmSuppression * frac t 4 (Pdg.charmness t.pdg)) *
    (1 - P.bottomSuppression * frac t 5 (Pdg.bottomness t.pdg))

/-- `effective_AQM_s` with the nucleon as reference, crosssections.cc:111-115. -/
noncomputable def effS (s m1 m2 : ℝ) : ℝ :=
  (Real.sqrt s - m1 - m2 + mN + mN) * (Real.sqrt s - m1 - m2 + mN + mN)

open Classical in
/-- `p_lab` of the functions `..._elastic_high_energy`, parametrizations.cc:175-178, with
`plab_from_s`, kinematics.h:185-200: the heavier particle is the target. -/
noncomputable def plab (s m1 m2 : ℝ) : ℝ :=
  if m1 > m2 then Real.sqrt ((s - (m2 + m1) * (m2 + m1)) * (s - (m2 - m1) * (m2 - m1))) / (2 * m1)
  else Real.sqrt ((s - (m1 + m2) * (m1 + m2)) * (s - (m1 - m2) * (m1 - m2))) / (2 * m2)

/-- `is_BBbar_pair_`, crosssections.cc:123-126. -/
def isBBbar (a b : PType) : Bool :=
  Pdg.isBaryon a.pdg && Pdg.isBaryon b.pdg && sign a == -sign b

/-- `is_NNbar_pair_`, crosssections.cc:127-130. -/
def isNNbar (a b : PType) : Bool := isNucleon a && b.pdg == Pdg.getAntiparticle a.pdg

/-- `std::sqrt(s)` squared: `sqrt_s_ * sqrt_s_`. -/
noncomputable def sOf (W : World) : ℝ := W.sqrts * W.sqrts

/-- `parametrized_total` without the common factor, crosssections.cc:224-321. -/
noncomputable def totalRaw (W : World) (H : Hi) (P : Params) (a b : PType) : Except Err ℝ :=
  let s := sOf W
  let ba := Pdg.isBaryon a.pdg
  let bb := Pdg.isBaryon b.pdg
  let ma := Pdg.isMeson a.pdg
  let mb := Pdg.isMeson b.pdg
  open Classical in
  if ba && bb && decide (W.sqrts > P.lowSnnCut) then
    .ok ((if sign a == sign b then (if a.pdg == b.pdg then H.f .ppTot s else H.f .npTot s)
      else H.f .ppbarTot s) * (aqm P a * aqm P b))
  else if (ba && mb) || (ma && bb) then
    let meson := if ma then a else b
    let baryon := if ma then b else a
    let m := Pdg.code meson.pdg
    let n := Pdg.code baryon.pdg
    if isKaon meson && isNucleon baryon then
      .ok (
        if (m == 0x321 && n == 0x2212) || (m == 0x311 && n == 0x2112) ||
            (m == -0x321 && n == -0x2212) || (m == -0x311 && n == -0x2112) then H.f .kpPTot s
        else if (m == 0x321 && n == -0x2212) || (m == 0x311 && n == -0x2112) ||
            (m == -0x321 && n == 0x2212) || (m == -0x311 && n == 0x2112) then H.f .kmPTot s
        else if (m == 0x321 && n == 0x2112) || (m == 0x311 && n == 0x2212) ||
            (m == -0x321 && n == -0x2112) || (m == -0x311 && n == -0x2212) then H.f .kpNTot s
        else if (m == 0x321 && n == -0x2112) || (m == 0x311 && n == -0x2212) ||
            (m == -0x321 && n == 0x2112) || (m == -0x311 && n == 0x2212) then H.f .kmNTot s
        else 0)
    else if isPion meson && isNucleon baryon then
      .ok (
        if (m == 0x211 && (n == 0x2212 || n == -0x2112)) ||
            (m == -0x211 && (n == 0x2112 || n == -0x2212)) then H.f .pipPTot W.sqrts
        else if m == 0x111 then 1 / 2 * (H.f .pipPTot W.sqrts + H.f .pimPTot W.sqrts)
        else H.f .pimPTot W.sqrts)
    else .ok (H.f .pimHigh s * aqm P a * aqm P b)
  else if ma && mb then
    if isPion a && isPion b then
      let i3 := Int.tdiv (Pdg.isospin3 a.pdg * Pdg.isospin3 b.pdg) 4
      if i3 = -1 then .ok (H.f .pippimTot W.sqrts)
      else if i3 = 0 then
        if Pdg.isospin3 a.pdg + Pdg.isospin3 b.pdg = 0 then .ok (H.f .pizpizTot W.sqrts)
        else .ok (H.f .pippimTot W.sqrts)
      else if i3 = 1 then .ok (2 / 3 * H.f .pimHigh s)
      else .error .isospin
    else .ok (2 / 3 * H.f .pimHigh s * aqm P a * aqm P b)
  else .ok 0

/-- `parametrized_total`, crosssections.cc:224-323. -/
noncomputable def parametrizedTotal (W : World) (H : Hi) (P : Params) (a b : PType) :
    Except Err ℝ := do
  let x ← totalRaw W H P a b
  .ok ((x + P.additionalEl) * P.scale)

open Classical in
/-- The common end of `nn_el`, `npi_el`, `nk_el`: only positive values are accepted,
crosssections.cc:450-462. -/
noncomputable def positive (x : ℝ) : Except Err ℝ := if x > 0 then .ok x else .error .elastic

/-- `nn_el`, crosssections.cc:423-463. -/
noncomputable def nnEl (W : World) (H : Hi) (a b : PType) : Except Err ℝ :=
  let s := sOf W
  positive (
    if isNucleon a && isNucleon b then
      if isBBbar a b then H.f .ppbarEl s
      else if a.pdg == b.pdg then H.f .ppEl s else H.f .npEl s
    else if isBBbar a b then H.f .ppbarEl (effS s W.m1 W.m2)
    else H.g .ppElHigh (plab s W.m1 W.m2))

/-- The switch of `npi_el`, crosssections.cc:476-531. -/
noncomputable def npiTable (H : Hi) (s : ℝ) (n m : Int) : ℝ :=
  if (n == 0x2212 && m == 0x211) || (n == 0x2112 && m == -0x211) ||
      (n == -0x2212 && m == -0x211) || (n == -0x2112 && m == 0x211) then H.f .pipEl s
  else if (n == 0x2212 && m == -0x211) || (n == 0x2112 && m == 0x211) ||
      (n == -0x2212 && m == 0x211) || (n == -0x2112 && m == -0x211) then H.f .pimEl s
  else if m == 0x111 then 1 / 2 * (H.f .pipEl s + H.f .pimEl s)
  else 0

/-- `npi_el`, crosssections.cc:465-544. -/
noncomputable def npiEl (W : World) (H : Hi) (a b : PType) : Except Err ℝ :=
  let nucleon := if isNucleon a then a else b
  let pion := if isNucleon a then b else a
  positive (npiTable H (sOf W) (Pdg.code nucleon.pdg) (Pdg.code pion.pdg))

/-- The switch of `nk_el`, crosssections.cc:786-852, with the isospin relations of
parametrizations.cc:620-638 (K⁰ p = K⁺ n, K⁰ n = K⁺ p, ...). -/
noncomputable def nkTable (H : Hi) (s : ℝ) (n m : Int) : ℝ :=
  if n = 0x2212 then
    if m = 0x321 then H.f .kpPEl s
    else if m = -0x321 then H.f .kmPEl s
    else if m = 0x311 then H.f .kpNEl s
    else if m = -0x311 then H.f .kmNEl s else 0
  else if n = 0x2112 then
    if m = 0x321 then H.f .kpNEl s
    else if m = -0x321 then H.f .kmNEl s
    else if m = 0x311 then H.f .kpPEl s
    else if m = -0x311 then H.f .kmPEl s else 0
  else if n = -0x2212 then
    if m = 0x321 then H.f .kmPEl s
    else if m = -0x321 then H.f .kpPEl s
    else if m = 0x311 then H.f .kmNEl s
    else if m = -0x311 then H.f .kpNEl s else 0
  else if n = -0x2112 then
    if m = 0x321 then H.f .kmNEl s
    else if m = -0x321 then H.f .kpNEl s
    else if m = 0x311 then H.f .kmPEl s
    else if m = -0x311 then H.f .kpPEl s else 0
  else 0

/-- `nk_el`, crosssections.cc:775-868. -/
noncomputable def nkEl (W : World) (H : Hi) (a b : PType) : Except Err ℝ :=
  let nucleon := if isNucleon a then a else b
  let kaon := if isNucleon a then b else a
  positive (nkTable H (sOf W) (Pdg.code nucleon.pdg) (Pdg.code kaon.pdg))

/-- Codes of π⁺ and π⁻ (pdgcode_constants.h). -/
def piP : Nat := 0x211
def piM : Nat := 2 ^ 31 + 0x211

open Classical in
/-- Additive quark model part of `elastic_parametrization`, crosssections.cc:394-419. -/
noncomputable def elasticAQM (W : World) (H : Hi) (P : Params) (a b : PType) : Except Err ℝ := do
  let x ←
    (if Pdg.isBaryon a.pdg && Pdg.isBaryon b.pdg then nnEl W H a b
    else if (Pdg.isMeson a.pdg && Pdg.isBaryon b.pdg) || (Pdg.isMeson b.pdg && Pdg.isBaryon a.pdg) then
      .ok (H.g .pipElHigh (plab (sOf W) W.m1 W.m2))
    else if Pdg.isMeson a.pdg && Pdg.isMeson b.pdg then
      if ((a.pdg == piP && b.pdg == piM) || (a.pdg == piM && b.pdg == piP)) &&
          decide (W.m1 + W.m2 + P.pipiOffset > W.sqrts) then .ok 0
      else .ok (2 / 3 * H.g .pipElAQM (plab (sOf W) W.m1 W.m2))
    else .ok 0)
  .ok (x * (aqm P a * aqm P b))

/-- `elastic_parametrization`, crosssections.cc:359-421. -/
noncomputable def elasticParametrization (W : World) (H : Hi) (P : Params) (a b : PType) :
    Except Err ℝ :=
  if (isNucleon a && isPion b) || (isNucleon b && isPion a) then npiEl W H a b
  else if (isNucleon a && isKaon b) || (isNucleon b && isKaon a) then nkEl W H a b
  else if isNucleon a && isNucleon b && sign a == sign b then nnEl W H a b
  else if isNucleon a && isNucleon b && sign a == -sign b then .ok (H.f .ppbarEl (sOf W))
  else if Pdg.isNucleus a.pdg || Pdg.isNucleus b.pdg then
    let nucleus := if Pdg.isNucleus a.pdg then a else b
    let other := if Pdg.isNucleus a.pdg then b else a
    if isDeuteron nucleus && isPion other then .ok (H.f .dPiEl (sOf W))
    else if isDeuteron nucleus && isNucleon other then .ok (H.f .dNEl (sOf W))
    else .ok 0
  else if P.useAQM then elasticAQM W H P a b
  else .ok 0

open Classical in
/-- `elastic`, crosssections.cc:325-344. -/
noncomputable def elasticChan (W : World) (H : Hi) (P : Params) (a b : PType) : Except Err Chan := do
  let x ← (if P.elasticParam ≥ 0 then .ok P.elasticParam else elasticParametrization W H P a b)
  .ok ⟨.elastic, [a, b], (x + P.additionalEl) * P.scale⟩

open Classical in
/-- `probability_transit_high`, crosssections.cc:3107-3124; 0/0 for an empty range. -/
noncomputable def transit (sqrts lower upper : ℝ) : Except Err ℝ :=
  if sqrts < lower then .ok 0
  else if sqrts > upper then .ok 1
  else if upper = lower then .error .nan
  else .ok (1 / 2 * (Real.sin (Real.pi * ((sqrts - 1 / 2 * (lower + upper)) / (upper - lower))) + 1))

/-- K⁺ p, K⁰ p and antiparticles, crosssections.cc:3059-3063. -/
def isKplusP (a b : PType) : Bool :=
  ((a.pdg == 0x321 || a.pdg == 0x311) && b.pdg == 0x2212) ||
  ((b.pdg == 0x321 || b.pdg == 0x311) && a.pdg == 0x2212) ||
  ((a.pdg == 2 ^ 31 + 0x321 || a.pdg == 2 ^ 31 + 0x311) && b.pdg == 2 ^ 31 + 0x2212) ||
  ((b.pdg == 2 ^ 31 + 0x321 || b.pdg == 2 ^ 31 + 0x311) && a.pdg == 2 ^ 31 + 0x2212)

/-- `aqm_offset`, crosssections.cc:3065-3074. -/
noncomputable def aqmOffset (P : Params) (a b : PType) : ℝ :=
  if isKplusP a b then P.knOffset
  else if isPion a && isPion b then P.pipiOffset
  else P.addLower

/-- The kinds of pairs distinguished in `string_probability`, crosssections.cc:3024-3044. -/
def nnPair (a b : PType) : Bool := isNucleon a && isNucleon b && sign a == sign b
def bbbarPair (P : Params) (a b : PType) : Bool :=
  (P.nnbar == .strings && isBBbar a b && P.useAQM) ||
    (isNucleon a && isNucleon b && sign a != sign b)
def npiPair (a b : PType) : Bool := (isPion a && isNucleon b) || (isNucleon a && isPion b)
def aqmPair (P : Params) (a b : PType) : Bool :=
  P.useAQM && ((Pdg.isBaryon a.pdg && Pdg.isBaryon b.pdg && sign a == sign b) ||
    ((Pdg.isBaryon a.pdg && Pdg.isMeson b.pdg) || (Pdg.isBaryon b.pdg && Pdg.isMeson a.pdg)) ||
    (Pdg.isMeson a.pdg && Pdg.isMeson b.pdg))

/-- The transition region, crosssections.cc:3083-3096. -/
noncomputable def region (P : Params) (a b : PType) : ℝ × ℝ :=
  if npiPair a b then P.rangeNpi
  else if nnPair a b then P.rangeNN
  else (a.mass + b.mass + aqmOffset P a b, a.mass + b.mass + aqmOffset P a b + P.width)

open Classical in
/-- `string_probability`, crosssections.cc:3014-3105. -/
noncomputable def stringProbability (P : Params) (a b : PType) (sqrts : ℝ) : Except Err ℝ :=
  if !P.stringsSwitch then .ok 0
  else if !nnPair a b && !bbbarPair P a b && !npiPair a b && !aqmPair P a b then .ok 0
  else if isNNbar a b && !(P.nnbar == .strings) then .ok 0
  else if bbbarPair P a b then .ok 1
  else if !P.withProbability then
    .ok (if sqrts > a.mass + b.mass + aqmOffset P a b then 1 else 0)
  else if sqrts > (region P a b).2 then .ok 1
  else if sqrts < (region P a b).1 then .ok 0
  else transit sqrts (region P a b).1 (region P a b).2

/-- Baryon-baryon part of `high_energy`, crosssections.cc:2637-2667. -/
noncomputable def highBB (W : World) (H : Hi) (P : Params) (a b : PType) : Except Err ℝ :=
  let e := effS (sOf W) W.m1 W.m2
  if a.pdg == b.pdg then .ok (H.f .ppHigh e)
  else if sign a * sign b = 1 then .ok (H.f .npHigh e)
  else if sign a * sign b = -1 then do
    let p ← transit W.sqrts P.rangeNN.1 P.rangeNN.2
    let h := if Pdg.code a.pdg = -Pdg.code b.pdg then H.f .ppbarHigh e else H.f .npbarHigh e
    .ok (H.f .ppbarTot e * (1 - p) + h * p)
  else .ok 0

/-- `high_energy`, crosssections.cc:2629-2698. -/
noncomputable def highEnergy (W : World) (H : Hi) (P : Params) (a b : PType) : Except Err ℝ := do
  let s := sOf W
  let xs ← (if Pdg.isBaryon a.pdg && Pdg.isBaryon b.pdg then highBB W H P a b else .ok 0)
  let xs :=
    if (a.pdg == piP && b.pdg == 0x2212) || (b.pdg == piP && a.pdg == 0x2212) ||
        (a.pdg == piM && b.pdg == 0x2112) || (b.pdg == piM && a.pdg == 0x2112) then H.f .pipHigh s
    else if (a.pdg == piM && b.pdg == 0x2212) || (b.pdg == piM && a.pdg == 0x2212) ||
        (a.pdg == piP && b.pdg == 0x2112) || (b.pdg == piP && a.pdg == 0x2112) then H.f .pimHigh s
    else if (Pdg.isMeson a.pdg && Pdg.isBaryon b.pdg) || (Pdg.isMeson b.pdg && Pdg.isBaryon a.pdg)
    then H.f .pimHigh s
    else xs
  let xs := if Pdg.isMeson a.pdg && Pdg.isMeson b.pdg then 2 / 3 * H.f .pipHigh s else xs
  .ok (xs * (aqm P a * aqm P b))

open Classical in
/-- `string_hard_cross_section`, crosssections.cc:2700-2722. -/
noncomputable def hardXs (W : World) (H : Hi) (a b : PType) : ℝ :=
  if W.sqrts ≤ 10 then 0
  else if Pdg.isBaryon a.pdg && Pdg.isBaryon b.pdg then H.f .nnHard (effS (sOf W) W.m1 W.m2)
  else if Pdg.isBaryon a.pdg || Pdg.isBaryon b.pdg then H.f .nPiHard (sOf W)
  else H.f .pipiHard (sOf W)

/-- Can the pair annihilate? crosssections.cc:2520-2534: a baryon and an antibaryon with a common
flavour. -/
def canAnnihilate (a b : PType) : Bool :=
  isBBbar a b && [1, 2, 3, 4, 5].any fun q => Pdg.netQuark a.pdg q != 0 && Pdg.netQuark b.pdg q != 0

/-- The weights of `string_excitation` for given diffractive cross sections, annihilation cross
section and hard cross section, crosssections.cc:2572-2624. -/
noncomputable def stringWeights (total : ℝ) (d : ℝ × ℝ × ℝ) (ann hard : ℝ) (annihilates : Bool) :
    Except Err (List Chan) :=
  let single := d.1 + d.2.1
  let nd := max 0 (total - ann - (single + d.2.2))
  let diffractive := total - ann - nd
  let double := max 0 (diffractive - single)
  open Classical in
  if single = 0 then .error .nan
  else
    let r := (diffractive - double) / single
    let ax := d.1 * r
    let xb := d.2.1 * r
    let soft := if nd > 0 then nd * Real.exp (-hard / nd) else 0
    let hd := if nd > 0 then nd - soft else 0
    .ok ((if total - hd > 0 then
        [⟨.softAX, [], ax⟩, ⟨.softXB, [], xb⟩, ⟨.softXX, [], double⟩, ⟨.softND, [], soft⟩] ++
          (if annihilates then [⟨.softAnnihilation, [], ann⟩] else [])
      else []) ++ (if hd > 0 then [⟨.hard, [], hd⟩] else []))

/-- `string_excitation`, crosssections.cc:2489-2627; `sp`: is there a string process object? -/
noncomputable def stringExcitation (W : World) (H : Hi) (P : Params) (a b : PType) (sp : Bool)
    (total : ℝ) : Except Err (List Chan) :=
  if !sp then .error .strings
  else
    open Classical in
    if total ≤ 0 then .ok []
    else
      let k := aqm P a * aqm P b
      let s := if canAnnihilate a b then effS (sOf W) W.m1 W.m2 else sOf W
      let ann := if canAnnihilate a b then
          min total (if P.useAQM then H.f .annihilation s * k else H.f .annihilation s)
        else 0
      let d := H.diffr a b (Real.sqrt s)
      let d := if P.useAQM then (d.1 * k, d.2.1 * k, d.2.2 * k) else d
      stringWeights total d ann (k * hardXs W H a b) (canAnnihilate a b)

/-- Sum of the weights, `sum_xs_of`, crosssections.h:76-82. -/
noncomputable def sumXs (l : List Chan) : ℝ := (l.map (·.weight)).sum

/-- `append_list`: the weights are multiplied, crosssections.cc:89-96. -/
noncomputable def scaled (w : ℝ) (l : List Chan) : List Chan :=
  l.map fun c => { c with weight := c.weight * w }

/-- `list_possible_resonances`, particletype.cc:776-826 (the cached list is the one computed). -/
noncomputable def possible (W : World) (H : Hi) (a b : PType) : List PType :=
  open Classical in
  W.types.filter fun r =>
    !decide (stable r) && !(r.pdg == a.pdg || r.pdg == b.pdg) &&
      charge r == charge a + charge b &&
      Pdg.baryonNumber r.pdg == Pdg.baryonNumber a.pdg + Pdg.baryonNumber b.pdg &&
      Pdg.strangeness r.pdg == Pdg.strangeness a.pdg + Pdg.strangeness b.pdg &&
      H.decays r a b

open Classical in
/-- `formation`, crosssections.cc:897-930; `hbarc` 0.197327053, `fm2_mb` 0.1 (constants.h). -/
noncomputable def formation (W : World) (H : Hi) (a b r : PType) : ℝ :=
  if H.inWidth r ≤ 0 then 0
  else
    let spin : ℝ := ((r.spin + 1 : ℕ) : ℝ) / (((a.spin + 1 : ℕ) : ℝ) * ((b.spin + 1 : ℕ) : ℝ))
    let sym : ℝ := if a.pdg = b.pdg then 2 else 1
    spin * sym * 2 * Real.pi * Real.pi / Kin.pCMsqr W.sqrts W.m1 W.m2 * H.spectral r * H.inWidth r *
      (197327053 / 1000000000) * (197327053 / 1000000000) / (1 / 10)

open Classical in
/-- `two_to_one`, crosssections.cc:871-895. -/
noncomputable def twoToOne (W : World) (H : Hi) (a b : PType) : List Chan :=
  (possible W H a b).flatMap fun r =>
    if formation W H a b r > small then [⟨.twoToOne, [r], formation W H a b r⟩] else []

/-- `d_pi_inelastic_xs`, `d_N_inelastic_xs`, `d_aN_inelastic_xs`, crosssections.cc:1090-1105. -/
noncomputable def dPiInel (x : ℝ) : ℝ :=
  x * (43 / 10 + 10 * x) / ((x - 16 / 100) * (x - 16 / 100) + 7 / 1000)
noncomputable def dNInel (x : ℝ) : ℝ :=
  x * (1 + 50 * x) / (x * x + 1 / 100) + 4 * x / ((x - 8 / 1000) * (x - 8 / 1000) + 4 / 10000)
noncomputable def daNInel (x : ℝ) : ℝ := 55 / (x + 17 / 100)

open Classical in
/-- Kinetic energy of the projectile and the choice of the parametrisation shared by
`two_to_three_xs` and `two_to_four_xs`, crosssections.cc:1107-1180. -/
noncomputable def breakXs (W : World) (nucleus cat : PType) : ℝ :=
  let t := (W.sqrts * W.sqrts - (nucleus.mass + cat.mass) * (nucleus.mass + cat.mass)) /
    (2 * nucleus.mass)
  if t ≤ 0 then 0
  else if isPion cat then dPiInel t
  else if isNucleon cat then (if sign nucleus = sign cat then dNInel t else daNInel t)
  else 0

/-- `two_to_three_xs`, crosssections.cc:1107-1143. -/
noncomputable def xs23 (W : World) (a b : PType) : ℝ :=
  let nucleus := if Pdg.isNucleus a.pdg then a else b
  let cat := if Pdg.isNucleus a.pdg then b else a
  if Pdg.isNucleus nucleus.pdg && (isPion cat || isNucleon cat) then breakXs W nucleus cat else 0

/-- `two_to_four_xs`, crosssections.cc:1145-1180. -/
noncomputable def xs24 (W : World) (a b : PType) : ℝ :=
  let nucleus := if Pdg.isNucleus a.pdg then a else b
  let cat := if Pdg.isNucleus a.pdg then b else a
  if Pdg.isNucleus nucleus.pdg && (isPion cat || isNucleon cat) then
    if Pdg.A nucleus.pdg ≠ 3 then 0 else 3 / 2 * breakXs W nucleus cat
  else 0

/-- Errors of the other part. -/
def lift {α : Type} : Except Sec.Err α → Except Err α
  | .ok x => .ok x
  | .error e => .error (.sec e)

/-- One break-up into a spectator `t` and proton and neutron or their antiparticles,
crosssections.cc:992-1010. -/
noncomputable def breakUp (W : World) (a b nucleus t : PType) : Except Err (List Chan) :=
  if Pdg.baryonNumber nucleus.pdg > 0 then do
    let p ← lift (find W 0x2212)
    let n ← lift (find W 0x2112)
    .ok [⟨.twoToThree, [t, p, n], xs23 W a b⟩]
  else do
    let p ← lift (find W (-0x2212))
    let n ← lift (find W (-0x2112))
    .ok [⟨.twoToThree, [t, p, n], xs23 W a b⟩]

/-- `two_to_three`, crosssections.cc:983-1038. -/
noncomputable def twoToThree (W : World) (a b : PType) : Except Err (List Chan) := do
  let l1 ← (if (isDeuteron a && isPion b) || (isDeuteron b && isPion a) then
      breakUp W a b (if Pdg.isNucleus a.pdg then a else b) (if isPion a then a else b)
    else .ok [])
  let l2 ← (if (isNucleon a && isDeuteron b) || (isNucleon b && isDeuteron a) then
      breakUp W a b (if isDeuteron a then a else b) (if isNucleon a then a else b)
    else .ok [])
  .ok (l1 ++ l2)

/-- A null pointer is dereferenced. -/
def deref : Option PType → Except Err PType
  | some t => .ok t
  | none => .error .null

/-- The components of a nucleus, crosssections.cc:1055-1078 with pdgcode.h:878-904: protons, neutrons
and Λs, or their antiparticles. The number of neutrons may be negative. -/
def components (W : World) (t : PType) : List (Option PType) :=
  let anti := Pdg.anti t.pdg
  let bit := if anti then 2 ^ 31 else 0
  List.replicate (Pdg.Z t.pdg) (tryFind W (bit + 0x2212)) ++
    List.replicate ((Pdg.A t.pdg : Int) - Pdg.Z t.pdg - Pdg.nLambda t.pdg).toNat
      (tryFind W (bit + 0x2112)) ++
    List.replicate (Pdg.nLambda t.pdg) (tryFind W (bit + 0x3122))

open Classical in
/-- `two_to_four`, crosssections.cc:1040-1088. -/
noncomputable def twoToFour (W : World) (a b : PType) : Except Err (List Chan) :=
  let nucleus := if Pdg.isNucleus a.pdg then a else b
  let cat := if Pdg.isNucleus a.pdg then b else a
  if Pdg.isNucleus nucleus.pdg && (Pdg.baryonNumber nucleus.pdg).natAbs == 3 &&
      (isPion cat || isNucleon cat) then
    match components W nucleus with
    | c1 :: c2 :: c3 :: _ => do
      let t1 ← deref c1
      let t2 ← deref c2
      let t3 ← deref c3
      if W.sqrts > cat.mass + t1.mass + t2.mass + t3.mass then
        .ok [⟨.twoToFour, [cat, t1, t2, t3], xs24 W nucleus cat⟩]
      else .ok []
    | _ => .error .index
  else .ok []

/-- `NNbar_to_5pi`, crosssections.cc:2724-2741. -/
noncomputable def nnbarTo5pi (W : World) (H : Hi) (P : Params) : Except Err Chan := do
  let z ← lift (find W 0x111)
  let p ← lift (find W 0x211)
  let m ← lift (find W (-0x211))
  .ok ⟨.twoToFive, [p, m, p, m, z], max 0 (H.f .ppbarTot (sOf W) - H.f .ppbarEl (sOf W)) * P.scale⟩

/-- `NNbar_annihilation`, crosssections.cc:2743-2755. -/
noncomputable def nnbarAnnihilation (W : World) (H : Hi) (P : Params) (current : ℝ) :
    Except Err Chan := do
  let h ← lift (find W 0x10223)
  let r ← lift (find W 0x113)
  .ok ⟨.twoToTwo, [h, r], max 0 (H.f .ppbarTot (sOf W) * P.scale - current)⟩

/-- `detailed_balance_factor_RR`, crosssections.cc:71-87 (with assertions on). -/
noncomputable def balanceRR (W : World) (a b c d : PType) : ℝ :=
  let spin : ℝ := ((c.spin + 1 : ℕ) : ℝ) * ((d.spin + 1 : ℕ) : ℝ) /
    (((a.spin + 1 : ℕ) : ℝ) * ((b.spin + 1 : ℕ) : ℝ))
  let sym : ℝ := (if a.pdg = b.pdg then 2 else 1) / (if c.pdg = d.pdg then 2 else 1)
  spin * sym * (Kin.pCMsqr W.sqrts c.mass d.mass / (Kin.pCM W.sqrts W.m1 W.m2 * W.intRR a b))

open Classical in
/-- `NNbar_creation`, crosssections.cc:2757-2784. -/
noncomputable def nnbarCreation (W : World) (H : Hi) (a b : PType) : Except Err (List Chan) :=
  if (a.pdg == 0x113 && b.pdg == 0x10223) || (a.pdg == 0x10223 && b.pdg == 0x113) then do
    let n ← lift (find W 0x2212)
    let nb ← lift (find W (-0x2212))
    if W.sqrts - 2 * n.mass < 0 then .ok []
    else do
      let x := balanceRR W a b n nb * max 0 (H.f .ppbarTot (sOf W) - H.f .ppbarEl (sOf W))
      let m ← lift (find W 0x2112)
      let mb ← lift (find W (-0x2112))
      .ok [⟨.twoToTwo, [n, nb], x⟩, ⟨.twoToTwo, [m, mb], x⟩]
  else .ok []

/-- Channels of the other part as channels here. -/
noncomputable def of22 (l : List Branch) : List Chan := l.map fun c => ⟨.twoToTwo, c.out, c.weight⟩

open Classical in
/-- Elastic part of `generate_collision_list`, crosssections.cc:145-156. -/
noncomputable def elasticPart (W : World) (H : Hi) (P : Params) (a b : PType) :
    Except Err (List Chan) :=
  if P.elastic && !(isNucleon a && isNucleon b && sign a == sign b &&
      decide (W.sqrts < P.lowSnnCut)) then do
    let c ← elasticChan W H P a b
    .ok [c]
  else .ok []

open Classical in
/-- String part, crosssections.cc:160-174. -/
noncomputable def stringPart (W : World) (H : Hi) (P : Params) (a b : PType) (sp : Bool) (p : ℝ)
    (current : ℝ) : Except Err (List Chan) :=
  if p > 0 then do
    let h ← highEnergy W H P a b
    let l ← stringExcitation W H P a b sp (max 0 (P.scale * h - current))
    let r ← lift (rareTwoToTwo W a b)
    .ok (scaled p l ++ scaled (p * P.scale) (of22 r))
  else .ok []

/-- The low-energy channels, crosssections.cc:176-203, before they are weighted. -/
noncomputable def lowChannels (W : World) (H : Hi) (P : Params) (a b : PType) :
    Except Err (List Chan) := do
  let l22 ← (if P.elastic || P.nnbarBit || P.inc.nnToNR || P.inc.nnToDR || P.inc.knToKN ||
      P.inc.knToKDelta || P.inc.strange || P.inc.piDeuteronToNN || P.inc.piDeuteronToPidprime ||
      P.inc.nDeuteronToNdprime then lift (twoToTwo W P.inc P.knOffset a b) else .ok [])
  let l23 ← (if P.deuteron3to2 then twoToThree W a b else .ok [])
  let l24 ← (if P.a3nuclei4to2 then twoToFour W a b else .ok [])
  .ok ((if P.twoToOne then twoToOne W H a b else []) ++ of22 l22 ++ l23 ++ l24)

open Classical in
noncomputable def lowPart (W : World) (H : Hi) (P : Params) (a b : PType) (p : ℝ) :
    Except Err (List Chan) :=
  if p < 1 then do
    let l ← lowChannels W H P a b
    .ok (scaled ((1 - p) * P.scale) l)
  else .ok []

/-- Annihilation of nucleons and antinucleons, crosssections.cc:204-220. -/
noncomputable def nnbarPart (W : World) (H : Hi) (P : Params) (a b : PType) (current : ℝ) :
    Except Err (List Chan) :=
  match P.nnbar with
  | .twoToFive => if isNNbar a b then do
      let c ← nnbarTo5pi W H P
      .ok [c]
    else .ok []
  | .resonances =>
    if isNNbar a b then do
      let c ← nnbarAnnihilation W H P current
      .ok [c]
    else do
      let l ← nnbarCreation W H a b
      .ok (scaled P.scale l)
  | _ => .ok []

/-- `generate_collision_list`, crosssections.cc:132-222. -/
noncomputable def generate (W : World) (H : Hi) (P : Params) (a b : PType) (sp : Bool) :
    Except Err (List Chan) := do
  let p ← (if P.withProbability then stringProbability P a b W.sqrts else .ok 0)
  let el ← elasticPart W H P a b
  if H.core1 != H.core2 then .ok el
  else do
    let st ← stringPart W H P a b sp p (sumXs el)
    let low ← lowPart W H P a b p
    let nn ← nnbarPart W H P a b (sumXs (el ++ st ++ low))
    .ok (el ++ st ++ low ++ nn)

open Classical in
/-- The channels `add_all_scatterings` adds, scatteraction.cc:137-170, without pseudoresonances. -/
noncomputable def allScatterings (W : World) (H : Hi) (P : Params) (a b : PType) (sp : Bool) :
    Except Err (List Chan) := do
  let l ← generate W H P a b sp
  if !P.withProbability then do
    let p ← stringProbability P a b W.sqrts
    if p > 0 then do
      let h ← highEnergy W H P a b
      if h - sumXs l > 0 then do
        let st ← stringExcitation W H P a b sp (h - sumXs l)
        .ok (l ++ st)
      else .ok l
    else .ok l
  else .ok l

end Verif.Tot
