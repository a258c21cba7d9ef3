import Verif.Sec.Table
import Verif.Kin.Model
import Mathlib.Analysis.SpecialFunctions.Pow.Real

/-!
Model of the inelastic 2 → 2 part of `CrossSections` (src/crosssections.cc,
src/include/smash/crosssections.h, src/parametrizations.cc): which final states two incoming
particles can go to, and with which cross section.

Simplifications: cross section parametrisations, integrals over spectral functions, squared
Clebsch-Gordan coefficients and the range of total isospins are oracles (the latter two are modelled
in Verif.Cg); doubles are real numbers; logging is left out.
-/

namespace Verif.Sec

open Verif

/-- Exceptions and failing assertions. -/
inductive Err
  | notFound | outOfRange | assertion
  deriving DecidableEq

/-- What is read of a particle type (particletype.h). `multiplet` stands for the pointer to the
isospin multiplet, `spin` and `isospin` are twice the spin and isospin. -/
structure PType where
  pdg : Nat
  mass : ℝ
  width : ℝ
  isospin : Int
  spin : Nat
  minKin : ℝ
  minSpec : ℝ
  multiplet : Nat

/-- A channel of a collision: outgoing types and cross section (processbranch.h). -/
structure Branch where
  out : List PType
  weight : ℝ

/-- Everything the cross sections of one pair depend on besides the two types. -/
structure World where
  /-- `ParticleType::list_all()` -/
  types : List PType
  /-- `list_nucleons()`, `list_anti_nucleons()`, `list_Deltas()`, `list_anti_Deltas()`,
  particletype.cc:331-345 -/
  (nucleons antiNucleons deltas antiDeltas : List PType)
  sqrts : ℝ
  /-- energy available for two outgoing types: `sqrts` without potentials, with potentials the
  invariant mass of the shifted momentum, crosssections.h:608-632 -/
  energy : PType → PType → ℝ
  /-- effective masses of the incoming particles -/
  (m1 m2 : ℝ)
  par : Par → ℝ
  /-- `isospin_clebsch_gordan_sqr_2to2` of the types with these codes, all total isospins -/
  weight : Int → Int → Int → Int → ℝ
  /-- `isospin_clebsch_gordan_sqr_2to2` for one total isospin -/
  iso : PType → PType → PType → PType → Int → ℝ
  /-- `I_tot_range` -/
  totI : PType → PType → List Int
  /-- `get_integral_NR`, `_RR`, `_RK`, `_piR` at this energy -/
  intNR : PType → ℝ
  intRR : PType → PType → ℝ
  intRK : PType → ℝ
  intPiR : PType → ℝ
  /-- are assertions compiled in? -/
  debug : Bool

/-- `really_small`, constants.h. -/
noncomputable def small : ℝ := 1 / 1000000

/-- `is_stable`, particletype.h:250 (`width_cutoff` is 1e-5, particletype.h:108). -/
def stable (t : PType) : Prop := t.width < 1 / 100000

/-- `is_nucleon`, pdgcode.h:404-407. -/
def isNucleon (t : PType) : Bool :=
  (Pdg.code t.pdg).natAbs == 0x2212 || (Pdg.code t.pdg).natAbs == 0x2112

/-- `is_Delta`, pdgcode.h:428-432. -/
def isDelta (t : PType) : Bool :=
  (Pdg.code t.pdg).natAbs == 0x2224 || (Pdg.code t.pdg).natAbs == 0x2214 ||
    (Pdg.code t.pdg).natAbs == 0x2114 || (Pdg.code t.pdg).natAbs == 0x1114

/-- `is_kaon`, pdgcode.h:465-468. -/
def isKaon (t : PType) : Bool :=
  (Pdg.code t.pdg).natAbs == 0x321 || (Pdg.code t.pdg).natAbs == 0x311

/-- `is_pion`, pdgcode.h:471-474. -/
def isPion (t : PType) : Bool :=
  Pdg.code t.pdg == 0x111 || Pdg.code t.pdg == 0x211 || Pdg.code t.pdg == -0x211

/-- `is_Nstar1535`, pdgcode.h:422-425. -/
def isNstar1535 (t : PType) : Bool :=
  (Pdg.code t.pdg).natAbs == 0x22212 || (Pdg.code t.pdg).natAbs == 0x22112

/-- `is_Nstar`, particletype.h:231-234. -/
def isNstar (t : PType) : Bool :=
  Pdg.isBaryon t.pdg && t.isospin == 1 && !isNucleon t && Pdg.strangeness t.pdg == 0 &&
    Pdg.charmness t.pdg == 0

/-- `is_Deltastar`, particletype.h:243-246. -/
def isDeltastar (t : PType) : Bool :=
  Pdg.isBaryon t.pdg && t.isospin == 3 && !isDelta t && Pdg.strangeness t.pdg == 0 &&
    Pdg.charmness t.pdg == 0

/-- `is_deuteron`, pdgcode.h:489-492. -/
def isDeuteron (t : PType) : Bool :=
  Pdg.isNucleus t.pdg && Pdg.A t.pdg == 2 && Pdg.Z t.pdg == 1 && Pdg.nLambda t.pdg == 0 &&
    Pdg.I t.pdg == 0

/-- `is_dprime`, particletype.h:261-263. -/
def isDprime (t : PType) : Bool :=
  Pdg.isNucleus t.pdg && (Pdg.getDecimal t.pdg).natAbs == 1000010021

/-- `antiparticle_sign`, particletype.h. -/
def sign (t : PType) : Int := Pdg.antiparticleSign t.pdg

/-- `ParticleType::find`, particletype.cc; the PDG code is built from the integer. -/
def find (W : World) (c : Int) : Except Err PType :=
  match Pdg.ofInt c with
  | .error _ => .error .notFound
  | .ok d =>
    match W.types.find? (fun t => t.pdg == d) with
    | some t => .ok t
    | none => .error .notFound

/-- The sign `flip` of `get_ratio`, parametrizations.cc:751-760: that of the nucleons among the
particles, 0 without any; they must agree (assertion). -/
def flip (debug : Bool) : List PType → Int → Except Err Int
  | [], f => .ok f
  | p :: ps, f =>
    if isNucleon p then
      if f = 0 then flip debug ps (sign p)
      else if debug && sign p != f then .error .assertion
      else flip debug ps f
    else flip debug ps f

/-- Ratio stored for a row of the table, parametrizations.cc:688-697. -/
noncomputable def storedRatio (W : World) (e : List Int) : ℝ :=
  let w := W.weight (e.getD 0 0) (e.getD 1 0) (e.getD 2 0) (e.getD 3 0)
  let other := W.weight (e.getD 0 0) (e.getD 1 0) (e.getD 4 0) (e.getD 5 0)
  w / (w + other)

/-- `KaonNucleonRatios::get_ratio`, parametrizations.cc:744-768. The packed keys are modelled by the
list of the four codes (`pack` is injective on 32-bit integers). -/
noncomputable def getRatio (W : World) (a b c d : PType) : Except Err ℝ :=
  match flip W.debug [a, b, c, d] 0 with
  | .error e => .error e
  | .ok f =>
    let key := [a, b, c, d].map fun t => Pdg.code t.pdg * f
    match ratioTable.find? (fun e => e.take 4 == key) with
    | some e => .ok (storedRatio W e)
    | none => .error .outOfRange

/-- `detailed_balance_factor_stable`, crosssections.cc:28-39 (`s` is the square of `sqrts`; types are
compared by their PDG codes). -/
noncomputable def balanceStable (W : World) (a b c d : PType) : ℝ :=
  let spinFactor : ℝ := ((c.spin + 1 : ℕ) : ℝ) * ((d.spin + 1 : ℕ) : ℝ) /
    (((a.spin + 1 : ℕ) : ℝ) * ((b.spin + 1 : ℕ) : ℝ))
  let symmetry : ℝ := (if a.pdg = b.pdg then 2 else 1) / (if c.pdg = d.pdg then 2 else 1)
  let s := W.sqrts * W.sqrts
  spinFactor * symmetry * (Kin.pCMsqrS s c.mass d.mass / Kin.pCMsqrS s a.mass b.mass)

/-- `detailed_balance_factor_RK`, crosssections.cc:47-62; `pcm` is the momentum of the incoming
particles, crosssections.h:560-564. -/
noncomputable def balanceRK (W : World) (a b c d : PType) : ℝ :=
  let spinFactor : ℝ := ((c.spin + 1 : ℕ) : ℝ) * ((d.spin + 1 : ℕ) : ℝ) /
    (((a.spin + 1 : ℕ) : ℝ) * ((b.spin + 1 : ℕ) : ℝ))
  let symmetry : ℝ := (if a.pdg = b.pdg then 2 else 1) / (if c.pdg = d.pdg then 2 else 1)
  spinFactor * symmetry * (Kin.pCMsqr W.sqrts c.mass d.mass /
    (Kin.pCM W.sqrts W.m1 W.m2 * W.intRK a))

/-- Value of an expression for incoming baryon `a` and meson `b`. -/
noncomputable def eval (W : World) (a b : PType) : Formula → Except Err ℝ
  | .par p => .ok (W.par p)
  | .half p => .ok (1 / 2 * W.par p)
  | .sigmaZero => .ok (1 / 2 * (W.par .piPpSigmaPKP - W.par .piMpSigmaZKZ + W.par .piMpSigmaMKP))
  | .ratio p c d => do
    let tc ← find W c
    let td ← find W d
    let r ← getRatio W a b tc td
    .ok (W.par p * r)
  | .balance p c d => do
    let tc ← find W c
    let td ← find W d
    .ok (balanceStable W a b tc td * W.par p)
  | .balanceR p c d => do
    let tc ← find W c
    let td ← find W d
    let r ← getRatio W tc td b a
    .ok (balanceRK W a b tc td * r * W.par p)

open Classical in
/-- `add_channel`, crosssections.h:600-642. -/
noncomputable def addChannel (W : World) (xs : Except Err ℝ) (a b : PType) :
    Except Err (List Branch) :=
  if W.energy a b ≤ a.minSpec + b.minSpec then .ok []
  else do
    let x ← xs
    if x > small then .ok [⟨[a, b], x⟩] else .ok []

/-- One row: the types are looked up, then the channel is added. -/
noncomputable def channel (W : World) (a b : PType) (r : Row) : Except Err (List Branch) := do
  let t1 ← find W r.out1
  let t2 ← find W r.out2
  addChannel W (eval W a b r.xs) t1 t2

/-- The rows of a table one after the other. -/
noncomputable def channels (W : World) (a b : PType) : List Row → Except Err (List Branch)
  | [] => .ok []
  | r :: rs => do
    let l ← channel W a b r
    let ls ← channels W a b rs
    .ok (l ++ ls)

/-- The rows selected by the switch statements for baryon `a` and meson `b`. -/
def select (table : List Row) (on : Flag → Bool) (a b : PType) : List Row :=
  table.filter fun r => r.baryon == Pdg.code a.pdg && r.meson == Pdg.code b.pdg && on r.flag

/-- Enabled reactions (`ReactionsBitSet`, forwarddeclarations.h). -/
structure Included where
  (nnToNR nnToDR knToKN knToKDelta strange piDeuteronToNN piDeuteronToPidprime
    nDeuteronToNdprime : Bool)

/-- `npi_yk`, crosssections.cc:546-774. -/
noncomputable def npiYkList (W : World) (a b : PType) : Except Err (List Branch) :=
  let nucleon := if isNucleon a then a else b
  let pion := if isNucleon a then b else a
  channels W nucleon pion (select npiYk (fun _ => true) nucleon pion)

open Classical in
/-- `nk_xx`, crosssections.cc:1280-1782; the pole masses are those of the types. -/
noncomputable def nkXxList (W : World) (inc : Included) (knOffset : ℝ) (a b : PType) :
    Except Err (List Branch) :=
  let nucleon := if isNucleon a then a else b
  let kaon := if isNucleon a then b else a
  let on : Flag → Bool
    | .always => true
    | .strange => inc.strange
    | .knkn => inc.knToKN
    | .knkd => inc.knToKDelta && decide (W.sqrts < knOffset + a.mass + b.mass)
  channels W nucleon kaon (select nkXx on nucleon kaon)

/-- `deltak_xx`, crosssections.cc:1784-1933. -/
noncomputable def deltakXxList (W : World) (inc : Included) (a b : PType) : Except Err (List Branch) :=
  if inc.knToKDelta then
    let delta := if isDelta a then a else b
    let kaon := if isDelta a then b else a
    channels W delta kaon (select deltakXx (fun _ => true) delta kaon)
  else .ok []

/-- `ypi_xx`, crosssections.cc:1935-2297. -/
noncomputable def ypiXxList (W : World) (inc : Included) (a b : PType) : Except Err (List Branch) :=
  if inc.strange then
    let hyperon := if Pdg.isHyperon a.pdg then a else b
    let pion := if Pdg.isHyperon a.pdg then b else a
    channels W hyperon pion (select ypiXx (fun _ => true) hyperon pion)
  else .ok []

open Classical in
/-- `nn_to_resonance_matrix_element`, crosssections.cc:2852-2937. -/
noncomputable def matrixElement (sqrts : ℝ) (a b : PType) (twoI : Int) : ℝ :=
  let msqr := 2 * (a.mass * a.mass + b.mass * b.mass)
  let uplmt := a.mass + b.mass + 3 * (a.width + b.width) + 3
  let same := sign a == sign b
  if sqrts > uplmt then 0
  else if ((isDelta a && isNucleon b) || (isDelta b && isNucleon a)) && same then
    68 / (sqrts - 1104 / 1000) ^ (1951 / 1000 : ℝ)
  else if ((isNstar a && isNucleon b) || (isNstar b && isNucleon a)) && same then
    if twoI = 2 then 45 / 10 / msqr
    else if twoI = 0 then
      if isNstar1535 a || isNstar1535 b then 65 / 10 * (14 / msqr) else 14 / msqr
    else 0
  else if ((isDeltastar a && isNucleon b) || (isDeltastar b && isNucleon a)) && same then
    15 / msqr
  else if (isDelta a && isDelta b) && same then
    if twoI = 2 then 45 / msqr else if twoI = 0 then 120 / msqr else 0
  else if ((isNstar a && isDelta b) || (isNstar b && isDelta a)) && same then
    7 / msqr
  else if ((isDeltastar a && isDelta b) || (isDeltastar b && isDelta a)) && same then
    if twoI = 2 then 15 / msqr else if twoI = 0 then 25 / msqr else 0
  else if (isDeuteron a && isPion b) || (isDeuteron b && isPion a) then
    55 / 1000 / ((sqrts - 2145 / 1000) ^ 2 + (65 / 1000) ^ 2) *
      (1 - Real.exp (-(sqrts - 2) * 20))
  else 0

/-- `type.charge()` -/
def charge (t : PType) : Int := Pdg.charge t.pdg

open Classical in
/-- `find_nn_xsection_from_type` for one pair of outgoing types and one total isospin,
crosssections.cc:2961-3005. -/
noncomputable def nnChannel (W : World) (a b : PType) (integrator : PType → PType → ℝ)
    (r1 r2 : PType) (twoI : Int) : List Branch :=
  let iso := W.iso a b r1 r2 twoI
  if |iso| < small then []
  else if W.sqrts - r2.mass - r1.minKin < 1 / 1000 then []
  else
    let m := matrixElement W.sqrts r1 r2 twoI
    if m ≤ 0 then []
    else
      let spinFactor : ℝ := ((r1.spin + 1 : ℕ) : ℝ) * ((r2.spin + 1 : ℕ) : ℝ)
      let xs := iso * spinFactor * m * integrator r1 r2 /
        (W.sqrts * W.sqrts * Kin.pCM W.sqrts W.m1 W.m2)
      if xs > small then [⟨[r1, r2], xs⟩] else []

/-- `find_nn_xsection_from_type`, crosssections.cc:2940-3012. -/
noncomputable def nnFromType (W : World) (a b : PType) (l1 l2 : List PType)
    (integrator : PType → PType → ℝ) : List Branch :=
  l1.flatMap fun r1 => l2.flatMap fun r2 =>
    if charge r1 + charge r2 ≠ charge a + charge b then []
    else (W.totI a b).flatMap fun twoI => nnChannel W a b integrator r1 r2 twoI

open Classical in
/-- `list_baryon_resonances()`, particletype.cc:348-356 (an antiparticle that is missing from the list
would already have thrown there). -/
noncomputable def baryonResonances (W : World) : List PType :=
  W.types.flatMap fun t =>
    if stable t ∨ Pdg.baryonNumber t.pdg ≠ 1 then []
    else t :: (W.types.find? fun u => u.pdg == Pdg.getAntiparticle t.pdg).toList

/-- `list_light_nuclei()`, particletype.cc:358-362. -/
def lightNuclei (W : World) : List PType := W.types.filter fun t => Pdg.isNucleus t.pdg

/-- PDG codes of the deuteron and the antideuteron (pdgcode_constants.h:118-120) as bit fields. -/
def deuteronCode : Nat := 2 ^ 30 + 2 * 2 ^ 16 + 2 ^ 6
def antideuteronCode : Nat := 2 ^ 31 + deuteronCode

/-- `try_find` by bit field. -/
def tryFind (W : World) (d : Nat) : Option PType := W.types.find? fun t => t.pdg == d

/-- N N → d π part of `nn_xx`, crosssections.cc:1253-1275. -/
noncomputable def nnToDeuteron (W : World) (inc : Included) (a b : PType) (anti : Bool) :
    List Branch :=
  match tryFind W deuteronCode, tryFind W antideuteronCode, tryFind W (2 ^ 31 + 0x211),
    tryFind W 0x111, tryFind W 0x211 with
  | some d, some ad, some pim, some piz, some pip =>
    if inc.piDeuteronToNN then
      nnFromType W a b (if anti then [ad] else [d]) [pim, piz, pip]
        fun r1 r2 => Kin.pCM W.sqrts r1.mass r2.mass
    else []
  | _, _, _, _, _ => []

/-- `nn_xx`, crosssections.cc:1208-1278. -/
noncomputable def nnXx (W : World) (inc : Included) (a b : PType) : List Branch :=
  let anti := sign a == -1 && sign b == -1
  (if inc.nnToNR then
    nnFromType W a b (baryonResonances W) (if anti then W.antiNucleons else W.nucleons)
      fun r1 _ => W.intNR r1
   else []) ++
  (if inc.nnToDR then
    nnFromType W a b (baryonResonances W) (if anti then W.antiDeltas else W.deltas)
      fun r1 r2 => W.intRR r1 r2
   else []) ++
  nnToDeuteron W inc a b anti

open Classical in
/-- One pair of outgoing nucleons and one total isospin of `bar_bar_to_nuc_nuc`
(crosssections.cc:2808-2846) and of `dpi_xx` (crosssections.cc:2350-2389), with the momentum of the
outgoing nucleons as parameter. -/
noncomputable def nucChannel (W : World) (a b : PType) (pFinal : ℝ) (n1 n2 : PType) (twoI : Int) :
    List Branch :=
  let iso := W.iso a b n1 n2 twoI
  if |iso| < small then []
  else
    let m := matrixElement W.sqrts a b twoI
    if m ≤ 0 then []
    else
      let spinFactor : ℝ := ((n1.spin + 1 : ℕ) : ℝ) * ((n2.spin + 1 : ℕ) : ℝ)
      let symIn : ℝ := if a.multiplet = b.multiplet then 2 else 1
      let symOut : ℝ := if n1.multiplet = n2.multiplet then 2 else 1
      let xs := iso * spinFactor * symIn / symOut * pFinal * m /
        (W.sqrts * W.sqrts * Kin.pCM W.sqrts W.m1 W.m2)
      if xs > small then [⟨[n1, n2], xs⟩] else []

/-- Both loops over the nucleons, crosssections.cc:2803-2808 and 2344-2350. -/
noncomputable def nucPairs (W : World) (a b : PType) (nuc : List PType)
    (pFinal : PType → PType → ℝ) : List Branch :=
  nuc.flatMap fun n1 => nuc.flatMap fun n2 =>
    if charge a + charge b ≠ charge n1 + charge n2 then []
    else (W.totI n1 n2).flatMap fun twoI => nucChannel W a b (pFinal n1 n2) n1 n2 twoI

/-- `bar_bar_to_nuc_nuc`, crosssections.cc:2786-2850; `nucleon_mass` is 0.938, constants.h. -/
noncomputable def barBarToNucNuc (W : World) (a b : PType) (anti : Bool) : List Branch :=
  nucPairs W a b (if anti then W.antiNucleons else W.nucleons)
    fun _ _ => Real.sqrt (W.sqrts * W.sqrts - 4 * (938 / 1000) * (938 / 1000)) / 2

/-- `bb_xx_except_nn`, crosssections.cc:1181-1206. -/
noncomputable def bbXx (W : World) (inc : Included) (a b : PType) : List Branch :=
  let sameSign := sign a == sign b
  let anyNucleus := Pdg.isNucleus a.pdg || Pdg.isNucleus b.pdg
  if !sameSign && !anyNucleus then []
  else
    let anti := sign a == -1
    if isNucleon a || isNucleon b then
      if inc.nnToNR then barBarToNucNuc W a b anti else []
    else if isDelta a || isDelta b then
      if inc.nnToDR then barBarToNucNuc W a b anti else []
    else []

/-- Is `n` a possible product of nucleus `t`? crosssections.cc:2399-2403 and 2473-2477: another type
with the same charge and baryon number. -/
def product (t n : PType) : Bool :=
  !(n.pdg == t.pdg || charge n != charge t || Pdg.baryonNumber n.pdg != Pdg.baryonNumber t.pdg)

open Classical in
/-- `xs_dpi_dprimepi`, crosssections.cc:2299-2329; pion and deuteron masses 0.138 and 1.8756. -/
noncomputable def xsDpi (W : World) (produced pi : PType) : ℝ :=
  let tmp := W.sqrts - 138 / 1000 - 18756 / 10000
  let m := 2955 / 10 + 2862 / 1000 / (283735 / 100000000 + (W.sqrts - 2181 / 1000) ^ 2) +
    672 / 10000 / tmp ^ 2 - 661753 / 100000 / tmp
  let spinFactor : ℝ := ((produced.spin + 1 : ℕ) : ℝ) * ((pi.spin + 1 : ℕ) : ℝ)
  let xs := m * spinFactor / (W.sqrts * W.sqrts * Kin.pCM W.sqrts W.m1 W.m2)
  if stable produced then xs * Kin.pCMS (W.sqrts * W.sqrts) pi.mass produced.mass
  else xs * W.intPiR produced

/-- `dpi_xx`, crosssections.cc:2331-2419. -/
noncomputable def dpiXx (W : World) (inc : Included) (a b : PType) : List Branch :=
  (if ((isDeuteron a && isPion b) || (isDeuteron b && isPion a)) && inc.piDeuteronToNN then
    nucPairs W a b
      (if Pdg.baryonNumber a.pdg + Pdg.baryonNumber b.pdg > 0 then W.nucleons else W.antiNucleons)
      fun n1 n2 => Kin.pCMS (W.sqrts * W.sqrts) n1.mass n2.mass
   else []) ++
  (if (((isDeuteron a || isDprime a) && isPion b) || ((isDeuteron b || isDprime b) && isPion a)) &&
      inc.piDeuteronToPidprime then
    let pi := if isPion a then a else b
    let nucleus := if Pdg.isNucleus a.pdg then a else b
    ((lightNuclei W).filter (product nucleus)).map fun n => ⟨[pi, n], xsDpi W n pi⟩
   else [])

open Classical in
/-- `xs_dn_dprimen`, crosssections.cc:2421-2457, with its assertions. -/
noncomputable def xsDn (W : World) (produced nucleus n : PType) : Except Err ℝ :=
  let tmp := W.sqrts - 938 / 1000 - 18756 / 10000
  if W.debug ∧ tmp < 0 then .error .assertion
  else
    let m := if (Pdg.baryonNumber n.pdg < 0) = (Pdg.baryonNumber nucleus.pdg < 0)
      then 790474 / 10000 / tmp ^ (7897 / 10000 : ℝ) + 654596 / 1000 * tmp
      else 342572 / 1000 / tmp ^ (6 / 10 : ℝ)
    let spinFactor : ℝ := ((produced.spin + 1 : ℕ) : ℝ) * ((n.spin + 1 : ℕ) : ℝ)
    let xs := m * spinFactor / (W.sqrts * W.sqrts * Kin.pCM W.sqrts W.m1 W.m2)
    if stable produced then
      if W.debug ∧ stable nucleus then .error .assertion
      else .ok (xs * Kin.pCMS (W.sqrts * W.sqrts) n.mass produced.mass)
    else if W.debug ∧ ¬ stable nucleus then .error .assertion
    else .ok (xs * W.intNR produced)

/-- The loop of `dn_xx` over the nuclei, crosssections.cc:2471-2487. -/
noncomputable def dnLoop (W : World) (nucleus n : PType) : List PType → Except Err (List Branch)
  | [] => .ok []
  | p :: ps =>
    if product nucleus p then do
      let x ← xsDn W p nucleus n
      let rest ← dnLoop W nucleus n ps
      .ok (⟨[n, p], x⟩ :: rest)
    else dnLoop W nucleus n ps

/-- `dn_xx`, crosssections.cc:2459-2487. -/
noncomputable def dnXx (W : World) (inc : Included) (a b : PType) : Except Err (List Branch) :=
  if inc.nDeuteronToNdprime then
    dnLoop W (if Pdg.isNucleus a.pdg then a else b) (if isNucleon a then a else b) (lightNuclei W)
  else .ok []

/-- `two_to_two`, crosssections.cc:932-981. -/
noncomputable def twoToTwo (W : World) (inc : Included) (knOffset : ℝ) (a b : PType) :
    Except Err (List Branch) :=
  if Pdg.isBaryon a.pdg && Pdg.isBaryon b.pdg then
    if isNucleon a && isNucleon b && sign a == sign b then .ok (nnXx W inc a b)
    else .ok (bbXx W inc a b)
  else if (Pdg.isBaryon a.pdg && Pdg.isMeson b.pdg) || (Pdg.isMeson a.pdg && Pdg.isBaryon b.pdg) then
    if (isNucleon a && isKaon b) || (isNucleon b && isKaon a) then nkXxList W inc knOffset a b
    else if (Pdg.isHyperon a.pdg && isPion b) || (Pdg.isHyperon b.pdg && isPion a) then
      ypiXxList W inc a b
    else if (isDelta a && isKaon b) || (isDelta b && isKaon a) then deltakXxList W inc a b
    else .ok []
  else if Pdg.isNucleus a.pdg || Pdg.isNucleus b.pdg then
    if (isNucleon a && Pdg.isNucleus b.pdg) || (isNucleon b && Pdg.isNucleus a.pdg) then
      dnXx W inc a b
    else if ((isDeuteron a || isDprime a) && isPion b) || ((isDeuteron b || isDprime b) && isPion a)
    then .ok (dpiXx W inc a b)
    else .ok []
  else .ok []

/-- `rare_two_to_two`, crosssections.cc:346-357. -/
noncomputable def rareTwoToTwo (W : World) (a b : PType) : Except Err (List Branch) :=
  if (isNucleon a && isPion b) || (isNucleon b && isPion a) then npiYkList W a b else .ok []

end Verif.Sec
