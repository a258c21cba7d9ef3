import Verif.Kin.Model
import Verif.Act.Model
import Mathlib.Analysis.SpecialFunctions.Trigonometric.Basic
/-
Model of dynamicfluidfinder.cc/.h, fluidizationaction.cc/.h, freeforallaction.h, the core flag in
scatteraction.cc, decayaction.cc, scatteractionmulti.cc and experiment.h, the lattice of
collidermodus.cc for dynamic initial conditions, and icoutput.cc.

Doubles are exact real numbers.  The lattice of the energy-momentum tensor enters as a function
from positions to the energy density in the Landau frame, `none` outside of the lattice (both are
modelled in `Verif.Lattice` and `Verif.Emt`).
-/
namespace Verif.Fluid
open Verif.Kin Verif.Act

/-- A particle, particledata.h:505-575: id, pole mass of its type, position, momentum, formation
times, initial scaling factor of cross sections, `core_`, and from the history the number of
collisions, the type of the last process and the time of the last collision.  The type is
represented by a number. -/
@[ext] structure FP where
  id : Nat
  type : Nat
  pole : ℝ
  pos : V4
  mom : V4
  tBegin : ℝ
  tForm : ℝ
  scale : ℝ
  core : Bool
  ncoll : Int
  ptype : PType
  tLast : ℝ

/-- `InitialConditionParameters`, dynamicfluidfinder.h:42-56; `power` is `formation_power_`, the
five switches are `fluidizable_processes_`, forwarddeclarations.h:338-346. -/
structure Cfg where
  eThr : ℝ
  tMin : ℝ
  tMax : ℝ
  frac : ℝ
  kernel0 : ℝ
  power : ℝ
  fromElastic : Bool
  fromDecay : Bool
  fromInelastic : Bool
  fromSoft : Bool
  fromHard : Bool
  delay : Bool

/-- What the finder reads: energy density at a position and the map `background_`. -/
structure World where
  eDen : V3 → Option ℝ
  background : Nat → Option ℝ

/-- `really_small`, constants.h:41. -/
noncomputable def reallySmall : ℝ := 1 / 1000000

/-- `above_threshold`, dynamicfluidfinder.cc:54-78. -/
noncomputable def aboveThreshold (c : Cfg) (w : World) (p : FP) : Bool :=
  match w.eDen p.pos.vec with
  | none => false
  | some e => decide (c.eThr + p.pole * c.kernel0 ≤ e + (w.background p.id).getD 0)

/-- `is_process_fluidizable`, dynamicfluidfinder.cc:80-111. -/
def processFluidizable (c : Cfg) (t : PType) (ncoll : Int) : Bool :=
  if isStringSoft t then c.fromSoft
  else match t with
    | .elastic => if ncoll = 1 ∧ c.delay = true then false else c.fromElastic
    | .decay => c.fromDecay
    | .twoToOne | .twoToTwo | .twoToThree | .twoToFour | .twoToFive | .multi3MesonsToOne
    | .multi3To2 | .multi4To2 | .multi5To2 => c.fromInelastic
    | .stringHard => c.fromHard
    | _ => false

/-- `fluidization_time`, dynamicfluidfinder.cc:35-37. -/
def fluidTime (c : Cfg) (p : FP) : ℝ := p.tBegin + c.frac * (p.tForm - p.tBegin)

/-- `time_until`, dynamicfluidfinder.cc:45-47. -/
noncomputable def timeUntil (c : Cfg) (p : FP) : ℝ :=
  if 1 - xsecScaling p.scale p.tBegin p.tForm c.power p.pos.t ≤ reallySmall then 0
  else max (fluidTime c p - p.pos.t) 0

/-- A `FluidizationAction` found: the particle and `time_of_execution_`, the time of the particle
plus `time_until`, action.h:58-63. -/
structure FAct where
  part : FP
  time : ℝ

/-- `find_actions_in_cell`, dynamicfluidfinder.cc:18-52. The `break` ends the loop. -/
noncomputable def findInCell (c : Cfg) (w : World) (dt : ℝ) : List FP → List FAct
  | [] => []
  | p :: ps =>
    if p.pos.t + dt < c.tMin ∨ c.tMax < p.pos.t then []
    else if p.core = true then findInCell c w dt ps
    else if p.pos.t + dt ≤ fluidTime c p then findInCell c w dt ps
    else if processFluidizable c p.ptype p.ncoll = false then findInCell c w dt ps
    else if aboveThreshold c w p = true then
      ⟨p, p.pos.t + timeUntil c p⟩ :: findInCell c w dt ps
    else findInCell c w dt ps

/-- `smearing_kernel_at_0`, collidermodus.cc:358-359. -/
noncomputable def kernelAtZero (sigma : ℝ) : ℝ := Real.rpow (2 * Real.pi * sigma) (-1.5)

/-! ### The core flag -/

/-- What reading `process_type_` gives: an action made by `Action(in_part, time)`
(action.h:44-46, used for scatterings and decays) has no type until its final state is generated;
`process_type_` (action.h:381) is not initialised. -/
inductive Err where
  | uninitialised | twoLists | notRemoved | removed | notConserved | noEnsemble
  deriving DecidableEq, Repr

/-- The part of `perform_action` about core particles, experiment.h:2270-2289: whether the action
goes on. `typ` is `process_type_` at that time. -/
def coreGate (typ : Option PType) (cores : List Bool) : Except Err Bool :=
  if cores.any id then
    match typ with
    | none => .error .uninitialised
    | some t =>
      if t = .fluidizationNoRemoval then .ok false
      else if t ≠ .elastic then .ok (cores.all id)
      else .ok true
  else .ok true

/-- The kinds of actions that make particles: `ScatterAction` with the type of the channel,
`DecayAction`, `ScatterActionMulti`, `FluidizationAction` without removal. -/
inductive Kind where
  | scatter (t : PType) | decay | multi | fluidize
  deriving DecidableEq, Repr

/-- Core flags of the outgoing particles, given those of the incoming ones and the number of
outgoing ones: scatteraction.cc:113-125 and 619-622 (elastic: the flags of the incoming
particles, which are copied), decayaction.cc:83-94, scatteractionmulti.cc:372-413 (new particles,
no call of `fluidize`), fluidizationaction.cc:27-30. -/
def coresOut (k : Kind) (cores : List Bool) (n : Nat) : List Bool :=
  match k with
  | .scatter t => if t = .elastic then cores else List.replicate n (cores.any id)
  | .decay => List.replicate n (cores.headD false)
  | .multi => List.replicate n false
  | .fluidize => cores.set 0 true

/-- `FluidizationAction::generate_final_state`, fluidizationaction.cc:18-31. -/
def fluidizeOut (remove : Bool) (p : FP) : List FP :=
  if remove then [] else [{ p with core := true }]

/-- `FluidizationAction::check_conservation`, fluidizationaction.cc:33-54; `same` is the
comparison of the quantum numbers (modelled in `Verif.Act`). -/
def fluidizeCheck (remove : Bool) (same : List FP → List FP → Bool) (inc out : List FP) :
    Except Err Unit :=
  if remove then if out.length ≠ 0 then .error .notRemoved else .ok ()
  else if same inc out = false then .error .notConserved
  else if out.length = 0 then .error .removed
  else .ok ()

/-- History part of `Action::perform`, action.cc:131-139 with particledata.cc:35-44. -/
def performed (t : PType) (time : ℝ) (p : FP) : FP :=
  if t ≠ .wall ∧ t ≠ .fluidizationNoRemoval then
    { p with ncoll := p.ncoll + 1, ptype := t, tLast := time }
  else p

/-! ### The end of the evolution -/

/-- A `FreeforallAction`: particles removed or particles added, and the time,
freeforallaction.h:24-47. -/
structure Free where
  inc : List FP
  out : List FP
  time : ℝ

/-- The constructor, freeforallaction.h:42-53. -/
def mkFree (inc out : List FP) (time : ℝ) : Except Err Free :=
  if inc ≠ [] ∧ out ≠ [] then .error .twoLists else .ok ⟨inc, out, time⟩

/-- `set_formation_time`, particledata.h:264-272: also the begin of the formation. (The time of
the last collision is a number here.) -/
def FP.setFormation (p : FP) (t : ℝ) : FP := { p with tForm := t, tBegin := t }

/-- `FreeforallAction::generate_final_state`, freeforallaction.h:62-71. -/
noncomputable def Free.finalState (a : Free) : List FP :=
  a.out.map fun p =>
    { p.setFormation p.pos.t with
      pos := p.pos.add ⟨1 * (a.time - p.pos.t), p.mom.velocity.x * (a.time - p.pos.t),
        p.mom.velocity.y * (a.time - p.pos.t), p.mom.velocity.z * (a.time - p.pos.t)⟩ }

/-- The particle moved back, dynamicfluidfinder.cc:139-150; everything that is not set has the
value of a new particle (particledata.h:505-575); the time of the last collision, NaN in a new
particle, is set together with the formation time (particledata.h:264-272). -/
noncomputable def backpropagated (o : FP) : FP :=
  let tc := o.tLast + 0.01
  { id := 0, type := o.type, pole := o.pole,
    pos := V4.mk' tc (o.pos.vec.sub (o.mom.velocity.smul (o.pos.t - tc))),
    mom := o.mom, tBegin := o.pos.t, tForm := o.pos.t, scale := 0, core := false, ncoll := 0,
    ptype := .none, tLast := o.pos.t }

/-- The two actions for one particle that is not in the core, dynamicfluidfinder.cc:130-154. -/
noncomputable def coronaActions (o : FP) : List Free :=
  if o.ncoll = 0 then []
  else if o.pos.t = o.tLast then []
  else [⟨[o], [], o.pos.t⟩, ⟨[], [backpropagated o], o.tLast + 0.01⟩]

/-- `find_final_actions`, dynamicfluidfinder.cc:113-160, with the numbers counted:
`particles_in_core_` and `energy_in_core_`. -/
noncomputable def findFinal (count : Nat × ℝ) (l : List FP) : List Free × (Nat × ℝ) :=
  if l.any (·.core) then
    ((l.filter (·.core)).map fun p => ⟨[p], [], p.pos.t⟩,
      (l.filter (·.core)).foldl (fun s p => (s.1 + 1, s.2 + p.mom.t)) count)
  else (l.flatMap coronaActions, count)

/-- An action performed on the list of particles: particles.cc (`update` with `replace`: incoming
particles are removed, outgoing ones inserted with new ids) after generating the final state,
experiment.h:2290-2325.  The list is `Verif.Particles` without its holes; `next` is the next id. -/
noncomputable def perform (s : List FP × Nat) (a : Free) : List FP × Nat :=
  let rest := s.1.filter fun p => !(a.inc.any fun q => q.id == p.id)
  let out := (a.finalState.map (performed .freeforall a.time)).mapIdx
    fun i p => { p with id := s.2 + i }
  (rest ++ out, s.2 + out.length)

/-- One round of `do_final_interactions` with this finder only, experiment.h:3024-3049: the
actions found are performed in some order `order` of the queue. -/
noncomputable def finalRound (order : List Free → List Free) (s : (List FP × Nat) × (Nat × ℝ)) :
    (List FP × Nat) × (Nat × ℝ) :=
  let f := findFinal s.2 s.1.1
  ((order f.1).foldl perform s.1, f.2)

/-! ### The lattice of the energy density -/

/-- Half of the side of the lattice at the start, collidermodus.cc:340-341. -/
noncomputable def startSide (tMin : ℝ) : ℝ := max tMin 40

/-- Resizing in `build_fluidization_lattice`, collidermodus.cc:699-712. -/
noncomputable def resize (tMin tMax side t : ℝ) : ℝ :=
  if t < tMin ∨ tMax < t then side
  else if side < t then side + 5
  else side

/-! ### Output of the initial conditions -/

/-- `tau`, fourvector.h:478-480; `none`: NaN. -/
noncomputable def tau (a : V4) : Option ℝ :=
  if a.t * a.t - a.z * a.z < 0 then none else some (Real.sqrt (a.t * a.t - a.z * a.z))

/-- What the file holds, by lines. -/
inductive Line where
  | start (event ensemble : Int) | finish (event ensemble : Int) | part (p : FP)

/-- State of `ICOutput`: the lines and `IC_proper_time_` (icoutput.h:89; −1 at the start,
`none`: NaN). -/
structure Out where
  lines : List Line
  proper : Option ℝ

/-- `ICOutput::ICOutput`. -/
noncomputable def Out.init : Out := ⟨[], some (-1)⟩

/-- Calls of the output. -/
inductive Call where
  | start (event ensemble nEnsembles : Int) | finish (event ensemble nEnsembles : Int)
  | fluidized (p : FP) | time

/-- Exceptions of the output. -/
inductive OErr where
  | ensembles | properTime
  deriving DecidableEq, Repr

/-- `properTime < 0`, icoutput.cc:160; a comparison with NaN is false. -/
noncomputable def negative (t : Option ℝ) : Bool :=
  match t with
  | none => false
  | some x => decide (x < 0)

/-- `next - proper < really_small`, icoutput.cc:166; a comparison with NaN is false. -/
noncomputable def notLater (next proper : Option ℝ) : Bool :=
  match next, proper with
  | some a, some b => decide (a - b < reallySmall)
  | _, _ => false

/-- `at_eventstart`, `at_eventend`, `at_intermediate_time` and `at_interaction`,
icoutput.cc:115-171.  The file keeps what was written before an exception. -/
noncomputable def Out.call (o : Out) : Call → Out × Option OErr
  | .start ev ens n => if n ≠ 1 then (o, some .ensembles) else
      ({ o with lines := o.lines ++ [.start ev ens] }, none)
  | .finish ev ens n => if n ≠ 1 then (o, some .ensembles) else
      ({ o with lines := o.lines ++ [.finish ev ens] }, none)
  | .time => (o, none)
  | .fluidized p =>
    let o := if p.ncoll = 0 then o else { o with lines := o.lines ++ [.part p] }
    if negative o.proper then ({ o with proper := tau p.pos }, none)
    else if notLater (tau p.pos) o.proper then (o, none)
    else (o, some .properTime)

/-- A sequence of calls; it ends with the first exception. -/
noncomputable def Out.run (o : Out) : List Call → Out × Option OErr
  | [] => (o, none)
  | x :: xs =>
    match o.call x with
    | (o', none) => o'.run xs
    | (o', some e) => (o', some e)

end Verif.Fluid
