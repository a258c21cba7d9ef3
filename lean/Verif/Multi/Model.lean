import Mathlib.Analysis.SpecialFunctions.Pow.Real
import Mathlib.Analysis.Real.Pi.Bounds
import Verif.Pdg.Model

/-
Model of the reactions with three, four and five incoming particles,
/repo/src/scatteractionmulti.cc and /repo/src/include/smash/scatteractionmulti.h.

Particle codes are the 32-bit words of `Verif.Pdg`.  A particle is given by its code and its
energy; pole masses, widths, spectral functions, cross sections and the complete elliptic
integrals are arbitrary functions.  Log messages are dropped.
-/
namespace Verif.Multi

open Verif.Pdg

/-! ### Particle codes, pdgcode_constants.h:28-30, 51, 69-73, 85-87, 106-124; a minus sign is the
antiparticle bit. -/
def proton : Nat := 0x2212
def neutron : Nat := 0x2112
def lambda : Nat := 0x3122
def antiProton : Nat := 0x80002212
def antiNeutron : Nat := 0x80002112
def antiLambda : Nat := 0x80003122
def piP : Nat := 0x211
def piZ : Nat := 0x111
def piM : Nat := 0x80000211
def eta : Nat := 0x221
def omega : Nat := 0x223
def phi : Nat := 0x333
def etaPrime : Nat := 0x331
def deuteron : Nat := 0x40020040
def antiDeuteron : Nat := 0xC0020040
def triton : Nat := 0x40030040
def antiTriton : Nat := 0xC0030040
def he3 : Nat := 0x40030080
def antiHe3 : Nat := 0xC0030080
def hyperTriton : Nat := 0x40030041
def antiHyperTriton : Nat := 0xC0030041

/-- `is_pion`, pdgcode.h:471-474. -/
def isPion (d : Nat) : Bool := code d == 0x111 || code d == 0x211 || code d == -0x211

/-- `is_nucleon`, pdgcode.h:404-407. -/
def isNucleon (d : Nat) : Bool := (code d).natAbs == 0x2212 || (code d).natAbs == 0x2112

/-- `nucleus_p`, pdgcode.h:878-880. -/
def nucleusP (d : Nat) : Int := if isNucleus d && !anti d then Z d else 0
/-- `nucleus_n`, pdgcode.h:882-886. -/
def nucleusN (d : Nat) : Int :=
  if isNucleus d && !anti d then (A d : Int) - Z d - nLambda d else 0
/-- `nucleus_La`, pdgcode.h:888-890. -/
def nucleusLa (d : Nat) : Int := if isNucleus d && !anti d then nLambda d else 0
/-- `nucleus_ap`, pdgcode.h:892-894. -/
def nucleusAp (d : Nat) : Int := if isNucleus d && anti d then Z d else 0
/-- `nucleus_an`, pdgcode.h:896-900. -/
def nucleusAn (d : Nat) : Int :=
  if isNucleus d && anti d then (A d : Int) - Z d - nLambda d else 0
/-- `nucleus_aLa`, pdgcode.h:902-904. -/
def nucleusALa (d : Nat) : Int := if isNucleus d && anti d then nLambda d else 0

/-- `spin_degeneracy`, pdgcode.h:712-717; simplification: 0 where it throws (nuclei with more than
four nucleons, whose spin is unknown). -/
def degen (d : Nat) : Nat := (spinDegeneracy d).toOption.getD 0

/-! ### The reaction channels -/

/-- `IncludedMultiParticleReactions`, forwarddeclarations.h:249-254: which kinds are switched on. -/
structure Flags where
  meson3to1 : Bool
  deuteron3to2 : Bool
  nuclei4to2 : Bool
  nnbar5to2 : Bool

/-- `ProcessType` of the channel. -/
inductive Kind where
  | threeToOne | threeToTwo | fourToTwo | fiveToTwo
  deriving DecidableEq, Repr

/-- One entry of `reaction_channels_` without its weight: outgoing types, the factor
`degen_sym_factor` and the process type. -/
structure Channel where
  outs : List Nat
  factor : ℚ
  kind : Kind
  deriving DecidableEq

/-- `three_different_pions`, scatteractionmulti.cc:616-626. -/
def threeDifferentPions (a b c : Nat) : Bool :=
  isPion a && isPion b && isPion c && (a != b && b != c && c != a)

/-- `two_pions_eta`, scatteractionmulti.cc:628-646. -/
def twoPionsEta (a b c : Nat) : Bool :=
  (a == piZ && b == piZ && c == eta) || (a == piZ && b == eta && c == piZ) ||
  (a == eta && b == piZ && c == piZ) ||
  (a == eta && b == piM && c == piP) || (a == eta && b == piP && c == piM) ||
  (a == piM && b == piP && c == eta) || (a == piM && b == eta && c == piP) ||
  (a == piP && b == piM && c == eta) || (a == piP && b == eta && c == piM)

/-- `all_incoming_particles_are_pions_have_zero_charge_only_one_piz`,
scatteractionmulti.cc:648-663. -/
def fivePions (inc : List Nat) : Bool :=
  inc.all isPion && (inc.map charge).sum == 0 && inc.countP (· == piZ) == 1

/-- `react_degen_factor`, scatteractionmulti.h:286-291. -/
def reactDegen (inc out1 out2 : Nat) : ℚ := ((out1 * out2 : Nat) : ℚ) / (inc : ℚ)

/-- The 3-to-1 channels, scatteractionmulti.cc:62-105. -/
def threeToOne (known : Nat → Bool) (a b c : Nat) : List Channel :=
  if threeDifferentPions a b c then
    (if known omega then [⟨[omega], degen omega, .threeToOne⟩] else []) ++
    (if known phi then [⟨[phi], degen phi, .threeToOne⟩] else [])
  else if twoPionsEta a b c then
    let sym : Nat := if a == b || b == c || c == a then 2 else 1
    if known etaPrime then [⟨[etaPrime], (sym * degen etaPrime : Nat), .threeToOne⟩] else []
  else []

/-- The six orders of "a particle accepted by `f`, `x` and `y`" in which the conditions of
scatteractionmulti.cc:122-127, 146-151, 170-175 and 209-214 are written. -/
def sixOrders (f : Nat → Bool) (x y : Nat) (a b c : Nat) : Bool :=
  (f a && b == x && c == y) || (f a && b == y && c == x) ||
  (a == x && f b && c == y) || (a == y && f b && c == x) ||
  (a == x && b == y && f c) || (a == y && b == x && f c)

/-- A channel "catalyst plus nucleus" of the 3-to-2 reactions. -/
def channel32 (inc : List Nat) (sym : Nat) (cat nucleus : Nat) : Channel :=
  ⟨[cat, nucleus],
    (sym : ℚ) * reactDegen (inc.map degen).prod (degen cat) (degen nucleus), .threeToTwo⟩

/-- A pion as catalyst, scatteractionmulti.cc:128-142 and 152-166: the type of the first pion. -/
def pionCatalyst (inc : List Nat) (nucleus : Nat) : List Channel :=
  match inc.find? isPion with
  | some x => [channel32 inc 1 x nucleus]
  | none => []

/-- A nucleon as catalyst, scatteractionmulti.cc:176-205 and 215-244: the first particle with the
sign `s`, or else one of the two equal particles, together with the symmetry factor 2. -/
def nucleonCatalyst (a b c : Nat) (s : Int) (nucleus : Nat) : List Channel :=
  match [a, b, c].find? (fun x => antiparticleSign x == s) with
  | some x => [channel32 [a, b, c] 1 x nucleus]
  | none => [channel32 [a, b, c] 2 (if a == b then a else c) nucleus]

/-- The 3-to-2 channels, scatteractionmulti.cc:106-248. -/
def threeToTwo (known : Nat → Bool) (a b c : Nat) : List Channel :=
  if known deuteron && known antiDeuteron then
    (if sixOrders isPion proton neutron a b c then pionCatalyst [a, b, c] deuteron else []) ++
    (if sixOrders isPion antiProton antiNeutron a b c then
      pionCatalyst [a, b, c] antiDeuteron else []) ++
    (if sixOrders isNucleon proton neutron a b c then
      nucleonCatalyst a b c (-1) deuteron else []) ++
    (if sixOrders isNucleon antiProton antiNeutron a b c then
      nucleonCatalyst a b c 1 antiDeuteron else [])
  else []

/-- The counts `c[...]` of scatteractionmulti.cc:252-257. -/
def cnt (inc : List Nat) (x : Nat) : Int := inc.count x

/-- `n_possible_catalysts_incoming`, scatteractionmulti.cc:259-261. -/
def catalystsIn (inc : List Nat) : Int :=
  cnt inc neutron + cnt inc proton + cnt inc antiProton + cnt inc antiNeutron + cnt inc piP +
  cnt inc piZ + cnt inc piM

/-- `can_form_nucleus`, scatteractionmulti.cc:273-288. -/
def canForm (known : Nat → Bool) (inc : List Nat) (nuc : Nat) : Bool :=
  known nuc &&
  (decide (nucleusP nuc ≤ cnt inc proton) && decide (nucleusAp nuc ≤ cnt inc antiProton) &&
   decide (nucleusN nuc ≤ cnt inc neutron) && decide (nucleusAn nuc ≤ cnt inc antiNeutron) &&
   decide (nucleusLa nuc ≤ cnt inc lambda) && decide (nucleusALa nuc ≤ cnt inc antiLambda)) &&
  decide (catalystsIn inc - (nucleusP nuc + nucleusAp nuc + nucleusN nuc + nucleusAn nuc) = 1)

/-- `catalyst_count`, scatteractionmulti.cc:293-299. -/
def leftOver (inc : List Nat) (nuc x : Nat) : Int :=
  cnt inc x - (if x = proton then nucleusP nuc else 0) -
    (if x = antiProton then nucleusAp nuc else 0) - (if x = neutron then nucleusN nuc else 0) -
    (if x = antiNeutron then nucleusAn nuc else 0) - (if x = lambda then nucleusLa nuc else 0) -
    (if x = antiLambda then nucleusALa nuc else 0)

/-- The symmetry factor, scatteractionmulti.cc:317-326 (the entries of the map are the different
incoming codes, and codes with count 0, which contribute the factor 1). -/
def symmetry4 (inc : List Nat) : ℚ :=
  (inc.dedup.map fun x => if inc.count x = 3 then (6 : ℚ) else if inc.count x = 2 then 2 else 1).prod

/-- One nucleus of the loop scatteractionmulti.cc:263-333.  The map is searched in the order of the
codes; here in the order of the incoming particles (at most one entry is equal to 1).  If there were
no catalyst the null pointer `try_find(PdgCode::invalid())` would be dereferenced: `none`. -/
def channel42 (known : Nat → Bool) (inc : List Nat) (nuc : Nat) : Option (List Channel) :=
  if canForm known inc nuc then
    match inc.find? (fun x => leftOver inc nuc x == 1) with
    | some cat => some [⟨[cat, nuc], symmetry4 inc *
        reactDegen (inc.map degen).prod (degen cat) (degen nuc), .fourToTwo⟩]
    | none => none
  else some []

/-- The six nuclei, scatteractionmulti.cc:263-265. -/
def nuclei3 : List Nat := [triton, antiTriton, he3, antiHe3, hyperTriton, antiHyperTriton]

/-- The 4-to-2 channels, scatteractionmulti.cc:249-334. -/
def fourToTwo (known : Nat → Bool) (inc : List Nat) : Option (List Channel) :=
  (nuclei3.mapM (channel42 known inc)).map List.flatten

/-- The 5-to-2 channels, scatteractionmulti.cc:335-369.  The types are dereferenced
(scatteractionmulti.cc:352-354) before they are checked: `none` is the null pointer. -/
def fiveToTwo (known : Nat → Bool) (inc : List Nat) : Option (List Channel) :=
  if fivePions inc then
    if known proton && known antiProton then
      let f : ℚ := 4 * reactDegen (inc.map degen).prod (degen proton) (degen antiProton)
      if known proton && known neutron then
        some [⟨[proton, antiProton], f, .fiveToTwo⟩, ⟨[neutron, antiNeutron], f, .fiveToTwo⟩]
      else some []
    else none
  else some []

/-- `add_possible_reactions`, scatteractionmulti.cc:57-370. -/
def reactions (fl : Flags) (known : Nat → Bool) (inc : List Nat) : Option (List Channel) :=
  match inc with
  | [a, b, c] => some ((if fl.meson3to1 then threeToOne known a b c else []) ++
      (if fl.deuteron3to2 then threeToTwo known a b c else []))
  | [_, _, _, _] => if fl.nuclei4to2 then fourToTwo known inc else some []
  | [_, _, _, _, _] => if fl.nnbar5to2 then fiveToTwo known inc else some []
  | _ => some []

/-! ### The probabilities -/

/-- `hbarc`, constants.h:29. -/
noncomputable def hbarc : ℝ := 0.197327053
/-- `gev2_mb`, constants.h:31-35. -/
noncomputable def gev2mb : ℝ := hbarc * hbarc / 0.1
/-- `pion_mass`, constants.h:69. -/
noncomputable def pionMass : ℝ := 0.138

/-- What the probabilities take from the rest of the program: pole masses of the types, partial
widths, spectral functions, cross sections (in mb) and the GSL elliptic integrals. -/
structure Env where
  mass : Nat → ℝ
  width : Nat → ℝ → List Nat → ℝ
  spectral : Nat → ℝ → ℝ
  xs23 : Nat → Nat → ℝ → ℝ
  xs24 : Nat → Nat → ℝ → ℝ
  ppbarTotal : ℝ → ℝ
  ppbarElastic : ℝ → ℝ
  ellK : ℝ → ℝ
  ellE : ℝ → ℝ
  ellP : ℝ → ℝ → ℝ

/-- `lambda_tilde`, action.h:315-322. -/
noncomputable def lambdaTilde (a b c : ℝ) : ℝ :=
  let res := (a - b - c) * (a - b - c) - 4 * b * c
  if res < 0 then 0 else res

/-- `calculate_I3`, scatteractionmulti.cc:415-443. -/
noncomputable def i3 (env : Env) (m1 m2 m3 sqrts : ℝ) : ℝ :=
  if sqrts < m1 + m2 + m3 then 0
  else
    let x1 := (m1 - m2) * (m1 - m2)
    let x2 := (m1 + m2) * (m1 + m2)
    let x3 := (sqrts - m3) * (sqrts - m3)
    let x4 := (sqrts + m3) * (sqrts + m3)
    let qmm := x3 - x1
    let qmp := x3 - x2
    let qpm := x4 - x1
    let qpp := x4 - x2
    let kappa := Real.sqrt (qpm * qmp / (qpp * qmm))
    let tmp := Real.sqrt (qmm * qpp)
    let c1 := 4 * m1 * m2 * Real.sqrt (qmm / qpp) * (x4 - m3 * sqrts + m1 * m2)
    let c2 := 0.5 * (m1 * m1 + m2 * m2 + m3 * m3 + sqrts * sqrts) * tmp
    let c3 := 8 * m1 * m2 / tmp * ((m1 * m1 + m2 * m2) * (m3 * m3 + sqrts * sqrts) -
      2 * m1 * m1 * m2 * m2 - 2 * m3 * m3 * sqrts * sqrts)
    let c4 := -8 * m1 * m2 / tmp * (sqrts * sqrts - m3 * m3) ^ 2
    c1 * env.ellK kappa + c2 * env.ellE kappa + c3 * env.ellP kappa (-qmp / qmm) +
      c4 * env.ellP kappa (-x1 * qmp / (x2 * qmm))

/-- `ph_sp_3`, scatteractionmulti.cc:457-459 and 482-484. -/
noncomputable def phi3 (env : Env) (m1 m2 m3 sqrts : ℝ) : ℝ :=
  1 / (8 * Real.pi * Real.pi * Real.pi) * 1 / (16 * sqrts * sqrts) * i3 env m1 m2 m3 sqrts

/-- The rational function `g` of `parametrizaton_phi4`, scatteractionmulti.cc:524-543; −1 if there
is no parametrisation. -/
noncomputable def g4 (nn np nl : Nat) (x : ℝ) : ℝ :=
  if nn = 3 ∧ np = 1 then
    (1 + 0.862432 * x - 3.4853 * (x * x) + 1.70259 * (x * x * x)) /
      (1 + 0.387376 * x - 1.34128 * (x * x) + 0.154489 * (x * x * x))
  else if nn = 4 then
    (1 - 1.72285 * x + 0.728331 * (x * x)) / (1 - 0.967146 * x - 0.0103633 * (x * x))
  else if nn = 2 ∧ nl = 1 ∧ np = 1 then
    (1 + 0.937064 * x - 3.56864 * (x * x) + 1.721 * (x * x * x)) /
      (1 + 0.365202 * x - 1.2854 * (x * x) + 0.138444 * (x * x * x))
  else if nn = 3 ∧ nl = 1 then
    (1 + 0.882401 * x - 3.4074 * (x * x) + 1.62454 * (x * x * x)) /
      (1 + 1.61741 * x - 2.12543 * (x * x) - 0.0902067 * (x * x * x))
  else -1

/-- `parametrizaton_phi4`, scatteractionmulti.cc:512-550. -/
noncomputable def phi4 (env : Env) (inc : List Nat) (s : ℝ) : ℝ :=
  let sumM := (inc.map env.mass).sum
  let prodM := (inc.map env.mass).prod
  let x := 1 - sumM / Real.sqrt s
  let g := g4 (inc.countP isNucleon) (inc.countP isPion) (inc.countP isLambda) x
  if 0 < g then
    Real.sqrt prodM * sumM * sumM * x ^ (3.5 : ℝ) * g /
      (840 * Real.sqrt 2 * Real.pi ^ 4 * (1 - x) ^ 4)
  else 0

/-- `parametrizaton_phi5_pions`, scatteractionmulti.cc:574-581. -/
noncomputable def phi5 (s : ℝ) : ℝ :=
  let s0 := 25 * pionMass * pionMass
  2.1018e-10 * (s - s0) ^ 5 * (1 + s / s0) ^ (-1.982 : ℝ)

/-- `probability_three_to_one`, scatteractionmulti.cc:445-466. -/
noncomputable def prob31 (env : Env) (d1 d2 d3 : Nat) (e1 e2 e3 sqrts dt vol : ℝ) (out : Nat)
    (f : ℝ) : ℝ :=
  dt / (vol * vol) * Real.pi / (4 * e1 * e2 * e3) * env.width out sqrts [d1, d2, d3] /
    phi3 env (env.mass d1) (env.mass d2) (env.mass d3) sqrts * env.spectral out sqrts *
    hbarc ^ 5 * f

/-- `probability_three_to_two`, scatteractionmulti.cc:468-489. -/
noncomputable def prob32 (env : Env) (d1 d2 d3 : Nat) (e1 e2 e3 sqrts dt vol : ℝ) (o1 o2 : Nat)
    (f : ℝ) : ℝ :=
  let m4 := env.mass o1
  let m5 := env.mass o2
  let xs := env.xs23 o1 o2 sqrts / gev2mb
  let lamb := lambdaTilde (sqrts * sqrts) (m4 * m4) (m5 * m5)
  dt / (vol * vol) * 1 / (4 * e1 * e2 * e3) * lamb /
    (phi3 env (env.mass d1) (env.mass d2) (env.mass d3) sqrts * 8 * Real.pi * sqrts * sqrts) * xs *
    hbarc ^ 5 * f

/-- `probability_four_to_two`, scatteractionmulti.cc:491-510. -/
noncomputable def prob42 (env : Env) (inc : List Nat) (e1 e2 e3 e4 sqrts dt vol : ℝ) (o1 o2 : Nat)
    (f : ℝ) : ℝ :=
  let m5 := env.mass o1
  let m6 := env.mass o2
  let s := sqrts * sqrts
  let xs := env.xs24 o1 o2 sqrts / gev2mb
  let lamb := lambdaTilde s (m5 * m5) (m6 * m6)
  dt / vol ^ 3 * 1 / (16 * e1 * e2 * e3 * e4) * xs / (4 * Real.pi * s) * lamb / phi4 env inc s *
    hbarc ^ 8 * f

/-- `probability_five_to_two`, scatteractionmulti.cc:552-572. -/
noncomputable def prob52 (env : Env) (mout : ℝ) (e1 e2 e3 e4 e5 sqrts dt vol : ℝ) (f : ℝ) : ℝ :=
  let s := sqrts * sqrts
  let lamb := lambdaTilde s (mout * mout) (mout * mout)
  let xs := max 0 (env.ppbarTotal s - env.ppbarElastic s) / gev2mb
  dt / vol ^ 4 * 1 / (32 * e1 * e2 * e3 * e4 * e5) * xs / (4 * Real.pi * s) * lamb / phi5 s *
    hbarc ^ 11 * f

/-- The weight with which a channel is added to an action with the incoming particles (code and
energy) `inc`, scatteractionmulti.cc:62-369; `none` for a combination that never occurs. -/
noncomputable def weight (env : Env) (inc : List (Nat × ℝ)) (sqrts dt vol : ℝ) (ch : Channel) :
    Option ℝ :=
  match ch.kind, inc, ch.outs with
  | .threeToOne, [a, b, c], [o] =>
    some (prob31 env a.1 b.1 c.1 a.2 b.2 c.2 sqrts dt vol o ch.factor)
  | .threeToTwo, [a, b, c], [o1, o2] =>
    some (prob32 env a.1 b.1 c.1 a.2 b.2 c.2 sqrts dt vol o1 o2 ch.factor)
  | .fourToTwo, [a, b, c, d], [o1, o2] =>
    some (prob42 env [a.1, b.1, c.1, d.1] a.2 b.2 c.2 d.2 sqrts dt vol o1 o2 ch.factor)
  | .fiveToTwo, [a, b, c, d, e], [_, _] =>
    some (prob52 env (env.mass proton) a.2 b.2 c.2 d.2 e.2 sqrts dt vol ch.factor)
  | _, _, _ => none

end Verif.Multi
