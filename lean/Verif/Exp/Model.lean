import Verif.Actions.Model
import Verif.Particles.Model
import Verif.Clock.Model
/-
Model of the event loop, /repo/src/include/smash/experiment.h: executing the
actions of one ensemble in time order, the loops over timesteps and output times,
the counters of performed actions, the number of events, and the table of beam
momenta.
-/
namespace Verif.Exp
open Verif.Particles Verif.Actions

/-! ## Executing the actions of one ensemble -/

/-- Payload of a particle: the time component of its position and everything else
(particledata.h `position_`). -/
structure Pay (T R : Type) where
  time : T
  rest : R

/-- An action in the queue: `time_of_execution_`, `incoming_particles_` (copies)
and everything else (action.h). -/
structure Act (T R L : Type) where
  time : T
  incoming : List (PData (Pay T R))
  label : L

/-- The parts of the program that the loop calls and that are not modelled here:
* `move`: new momentum-space and spatial data of a particle propagated to a time;
* `attempt`: `perform_action` after its validity check, experiment.h:2271-2436:
  `none` if the action is rejected, otherwise the particles afterwards and
  `outgoing_particles()`;
* `find`: the calls of all finders for the outgoing particles,
  experiment.h:2740-2754;
* `search`: the search on the grid, experiment.h:2568-2602;
* `adjust`: potentials and expansion, experiment.h:2625-2643.
`W` is whatever else these use (random numbers, lattices, …). -/
structure Env (T R L W : Type) where
  move : T → PData (Pay T R) → R
  attempt : W → Act T R L → State (Pay T R) → Option (State (Pay T R) × List (PData (Pay T R))) × W
  find : W → Act T R L → List (PData (Pay T R)) → State (Pay T R) → T → List (Act T R L) × W
  search : W → State (Pay T R) → T → List (Act T R L) × W
  adjust : W → State (Pay T R) → State (Pay T R) × W

/-- What became of an action taken from the queue. -/
inductive Outcome where
  | discarded | rejected | performed
  deriving DecidableEq, Repr

/-- Record of one action taken from the queue: the action with its incoming
particles as found in the list when it was attempted, the particle list at that
moment, the outcome, the actions found afterwards, and whether a particle was
propagated backwards in time to get there. -/
structure Entry (T R L : Type) where
  queued : Act T R L
  act : Act T R L
  before : State (Pay T R)
  outcome : Outcome
  found : List (Act T R L)
  backwards : Bool

/-- State of one ensemble during the evolution; `total` is `interactions_total_`
and `log` the record (oldest first), which the program does not keep. -/
structure Sys (T R L W : Type) where
  parts : State (Pay T R)
  queue : List (Act T R L)
  world : W
  total : Nat
  log : List (Entry T R L)

/-- Ways not to finish: the exception of `check_interactions_total`
(experiment.h:2697-2702), or more rounds than `fuel`. -/
inductive Stop where
  | overflow | fuel
  deriving DecidableEq, Repr

variable {T R L W : Type} [LinearOrder T]

/-- `propagate_straight_line`, propagation.cc:44-85, as far as times go: every
particle of the list gets the new time. -/
def propagate (E : Env T R L W) (t : T) (s : State (Pay T R)) : State (Pay T R) :=
  { s with
    data := fun i =>
      if i < s.size ∧ (s.data i).hole = false then
        { s.data i with pay := ⟨t, E.move t (s.data i)⟩ }
      else s.data i }

/-- The error condition `dt < 0` of propagation.cc:50-56. -/
def backwards (t : T) (s : State (Pay T R)) : Bool :=
  (List.range s.size).any fun i => !(s.data i).hole && decide (t < (s.data i).pay.time)

/-- `Action::is_valid`, action.cc:29-33. -/
def actValid (s : State (Pay T R)) (a : Act T R L) : Bool := a.incoming.all (isValid s)

/-- `Action::update_incoming`, action.cc:62-66 (`Particles::lookup`,
particles.h:141-145). -/
def updateIncoming (s : State (Pay T R)) (a : Act T R L) : Act T R L :=
  { a with incoming := a.incoming.map fun p => s.data p.index }

/-- `run_time_evolution_timestepless`, experiment.h:2705-2763, to time `tEnd` in a
timestep that ends at `stepEnd`. -/
def timestepless (E : Env T R L W) (H : StdHeap (cmp (Act.time (T := T) (R := R) (L := L))))
    (stepEnd tEnd : T) : Nat → Sys T R L W → Except Stop (Sys T R L W)
  | 0, _ => .error .fuel
  | fuel + 1, σ =>
    match earliestTime Act.time σ.queue with
    | none => .ok { σ with parts := propagate E tEnd σ.parts }
    | some t =>
      if t > tEnd then .ok { σ with parts := propagate E tEnd σ.parts }
      else
        match pop Act.time H σ.queue with
        | none => .ok { σ with parts := propagate E tEnd σ.parts }
        | some (a, q) =>
          if !actValid σ.parts a then
            timestepless E H stepEnd tEnd fuel
              { σ with queue := q, log := σ.log ++ [⟨a, a, σ.parts, .discarded, [], false⟩] }
          else
            let s := propagate E a.time σ.parts
            let b := backwards a.time σ.parts
            let a' := updateIncoming s a
            match E.attempt σ.world a' s with
            | (none, w) =>
              timestepless E H stepEnd tEnd fuel
                { σ with parts := s, queue := q, world := w,
                         log := σ.log ++ [⟨a, a', s, .rejected, [], b⟩] }
            | (some (s', out), w) =>
              let (new, w') := E.find w a' out s' stepEnd
              let σ' : Sys T R L W :=
                { parts := s', queue := insertList Act.time H q new, world := w',
                  total := σ.total + 1, log := σ.log ++ [⟨a, a', s, .performed, new, b⟩] }
              if σ'.total ≥ 2 ^ 32 - 1 then .error .overflow
              else timestepless E H stepEnd tEnd fuel σ'

/-- The inner loop over output times and the final propagation of a timestep,
experiment.h:2610-2623: `timestepless` for each of the times. -/
def runTo (E : Env T R L W) (H : StdHeap (cmp (Act.time (T := T) (R := R) (L := L))))
    (fuel : Nat) (stepEnd : T) : List T → Sys T R L W → Except Stop (Sys T R L W)
  | [], σ => .ok σ
  | t :: ts, σ =>
    match timestepless E H stepEnd t fuel σ with
    | .error e => .error e
    | .ok σ => runTo E H fuel stepEnd ts σ

/-- One timestep of one ensemble, experiment.h:2568-2645: search for actions, run
to the output times in it, run to its end, adjust. The queue starts empty
(`actions[i_ens].clear()`, experiment.h:2570). -/
def timestep (E : Env T R L W) (H : StdHeap (cmp (Act.time (T := T) (R := R) (L := L))))
    (fuel : Nat) (outs : List T) (stepEnd : T) (σ : Sys T R L W) : Except Stop (Sys T R L W) :=
  let (new, w) := E.search σ.world σ.parts stepEnd
  match runTo E H fuel stepEnd (outs ++ [stepEnd])
      { σ with queue := insertList Act.time H [] new, world := w } with
  | .error e => .error e
  | .ok σ =>
    let (s, w) := E.adjust σ.world σ.parts
    .ok { σ with parts := s, world := w }

/-- The loop over timesteps, experiment.h:2540-2660. A timestep is given by the
output times in it and its end. -/
def evolve (E : Env T R L W) (H : StdHeap (cmp (Act.time (T := T) (R := R) (L := L))))
    (fuel : Nat) : List (List T × T) → Sys T R L W → Except Stop (Sys T R L W)
  | [], σ => .ok σ
  | (outs, e) :: rest, σ =>
    match timestep E H fuel outs e σ with
    | .error x => .error x
    | .ok σ => evolve E H fuel rest σ

/-! ## Timesteps and output times -/

/-- The output clock, `ExperimentParameters::outputclock`: uniform or custom
(experiment.cc:186-207). -/
inductive OClock where
  | uniform (c : Clock.UClock)
  | custom (c : Clock.CClock)

/-- `Clock::next_time` (virtual). -/
def OClock.nextTime : OClock → Except Clock.Err ℚ
  | .uniform c => c.nextTime
  | .custom c => c.nextTime

/-- `Clock::current_time` (virtual). -/
def OClock.currentTime : OClock → Except Clock.Err ℚ
  | .uniform c => c.currentTime
  | .custom c => c.currentTime

/-- `Clock::operator++`. -/
def OClock.tick : OClock → Except Clock.Err OClock
  | .uniform c =>
    match c.tick with
    | .ok c => .ok (.uniform c)
    | .error e => .error e
  | .custom c =>
    match c.tick with
    | .ok c => .ok (.custom c)
    | .error e => .error e

/-- The visible effects of the loop: every ensemble is propagated to a time;
intermediate output is written with a time label (`current_time()` of the output
clock, experiment.h:2818 and experiment.cc:612). -/
inductive Ev where
  | evolveTo (t : ℚ)
  | output (t : ℚ)
  deriving DecidableEq, Repr

/-- Ways not to finish: an exception or undefined behaviour of a clock, the
`logic_error` for a time beyond the end, or more rounds than `fuel`. -/
inductive Fail where
  | clock (e : Clock.Err)
  | beyondEnd
  | fuel
  deriving DecidableEq, Repr

/-- Turn a clock error into a failure of the loop. -/
def lift {α : Type} : Except Clock.Err α → Except Fail α
  | .ok a => .ok a
  | .error e => .error (.clock e)

/-- The loop `while (next_output_time() < end_timestep_time)`,
experiment.h:2611-2620. -/
def outputLoop (stepEnd : ℚ) : Nat → OClock → Except Fail (OClock × List Ev)
  | 0, _ => .error .fuel
  | fuel + 1, o => do
    let t ← lift o.nextTime
    if t < stepEnd then
      let o' ← lift o.tick
      let label ← lift o'.currentTime
      let (o'', evs) ← outputLoop stepEnd fuel o'
      return (o'', .evolveTo t :: .output label :: evs)
    else return (o, [])

/-- The loop `while (labclock < t_end)`, experiment.h:2540-2660; the comparison uses
the internal time of the clock, which is not cut off at the end (clock.h:160). -/
def labLoop (tEnd : ℚ) (ofuel : Nat) :
    Nat → Clock.UClock → OClock → Except Fail (Clock.UClock × OClock × List Ev)
  | 0, _, _ => .error .fuel
  | fuel + 1, lab, o => do
    let t ← lift lab.present
    if t < tEnd then
      let _ ← lift lab.timestepDuration
      let stepEnd ← lift lab.nextTime
      let (o, evs) ← outputLoop stepEnd ofuel o
      let lab ← lift lab.tick
      let (lab, o, evs') ← labLoop tEnd ofuel fuel lab o
      return (lab, o, evs ++ .evolveTo stepEnd :: evs')
    else return (lab, o, [])

/-- `run_time_evolution(t_end)` without particles to add or remove,
experiment.h:2530-2676; the output clock is incremented once more at the end
(:2668). -/
def runTimeEvolution (fuel : Nat) (endTime tEnd : ℚ) (lab : Clock.UClock) (o : OClock) :
    Except Fail (Clock.UClock × OClock × List Ev) := do
  if tEnd > endTime then .error .beyondEnd
  else
    let (lab, o, evs) ← labLoop tEnd fuel fuel lab o
    let o ← lift o.tick
    return (lab, o, evs)

/-- Clocks at the start of an event, experiment.h:2116-2136: a fresh lab clock;
the output clock is reset to the start time, and custom times in the past are
removed. -/
def startClocks (start dt endTime : ℚ) (o : OClock) : Except Fail (Clock.UClock × OClock) := do
  let lab ← lift (Clock.UClock.mk' start dt endTime)
  match o with
  | .uniform c =>
    let c ← lift (c.resetTo start true)
    return (lab, .uniform c)
  | .custom c => return (lab, .custom ((c.resetTo start).removePast start))

/-- Output clock from the configuration, experiment.cc:186-207: custom times (with
`t_end + 1` appended) or an interval. -/
def outputClock (endTime : ℚ) : List ℚ ⊕ ℚ → Except Fail OClock
  | .inl times => .ok (.custom (Clock.CClock.mk' (times ++ [endTime + 1])))
  | .inr dt => do
    let c ← lift (Clock.UClock.mk' 0 dt endTime)
    return .uniform c

/-- One event as far as clocks go: configure, start, evolve to the end. -/
def eventClocks (fuel : Nat) (start dt endTime : ℚ) (cfg : List ℚ ⊕ ℚ) :
    Except Fail (Clock.UClock × OClock × List Ev) := do
  let o ← outputClock endTime cfg
  let (lab, o) ← startClocks start dt endTime o
  runTimeEvolution fuel endTime endTime lab o

/-! ## Counters -/

/-- The counters of an event, experiment.h:659-695. They are 64-bit unsigned and
cannot wrap in practice; the model uses natural numbers with the subtraction
modulo 2^64 written out. -/
structure Counters where
  total : Nat
  wall : Nat
  prevTotal : Nat
  prevWall : Nat
  discarded : Nat
  blocked : Nat
  removed : Nat
  deriving DecidableEq, Repr

/-- Counters after `initialize_new_event`, experiment.h:2140-2152. -/
def Counters.start : Counters := ⟨0, 0, 0, 0, 0, 0, 0⟩

/-- How a call of `perform_action` ends, experiment.h:2262-2436: an incoming
particle is no longer valid; rejected because of core particles or because there is
not enough energy; Pauli blocked; performed, with its kind of process. -/
inductive Res where
  | invalid | rejected | pauliBlocked
  | performedWall | performedFluidization | performedOther
  deriving DecidableEq, Repr

/-- Was the action performed? -/
def Res.performed : Res → Bool
  | .performedWall | .performedFluidization | .performedOther => true
  | _ => false

/-- The effect of `perform_action` on the counters, experiment.h:2266, :2298,
:2320-2334, and the process id `static_cast<uint32_t>(interactions_total_ + 1)`. -/
def performAction (c : Counters) : Res → Counters × Option Nat
  | .invalid => ({ c with discarded := c.discarded + 1 }, none)
  | .rejected => (c, none)
  | .pauliBlocked => ({ c with blocked := c.blocked + 1 }, none)
  | .performedWall =>
    ({ c with total := c.total + 1, wall := c.wall + 1 }, some ((c.total + 1) % 2 ^ 32))
  | .performedFluidization =>
    ({ c with total := c.total + 1, removed := c.removed + 1 }, some ((c.total + 1) % 2 ^ 32))
  | .performedOther => ({ c with total := c.total + 1 }, some ((c.total + 1) % 2 ^ 32))

/-- Subtraction of 64-bit unsigned numbers. -/
def sub64 (a b : Nat) : Nat := ((a : Int) - b).emod (2 ^ 64) |>.toNat

/-- The interval number of `intermediate_output`, experiment.h:2767-2773. -/
def intermediate (c : Counters) : Counters × Nat :=
  let wallNow := sub64 c.wall c.prevWall
  let n := sub64 (sub64 c.total c.prevTotal) wallNow
  ({ c with prevWall := c.wall, prevTotal := c.total }, n)

/-- The interval number of `final_output`, experiment.h:3074-3080. -/
def final (c : Counters) : Nat :=
  sub64 (sub64 c.total c.prevTotal) (sub64 c.wall c.prevWall)

/-- Calls during an event: `perform_action` in the loop over the queue (followed by
`check_interactions_total` if it was performed, experiment.h:2757), elsewhere
(forced thermalisation, final decays, library calls; no check), and
`intermediate_output`. -/
inductive Call where
  | inLoop (r : Res)
  | elsewhere (r : Res)
  | output
  deriving DecidableEq, Repr

/-- Counters, ids handed out and interval numbers reported, newest last. -/
structure Tally where
  c : Counters
  ids : List Nat
  reports : List Nat
  deriving DecidableEq, Repr

/-- One call; `none` is the exception of `check_interactions_total`. -/
def Tally.call (y : Tally) : Call → Option Tally
  | .inLoop r =>
    let (c, id) := performAction y.c r
    if r.performed && decide (c.total ≥ 2 ^ 32 - 1) then none
    else some { y with c := c, ids := y.ids ++ id.toList }
  | .elsewhere r =>
    let (c, id) := performAction y.c r
    some { y with c := c, ids := y.ids ++ id.toList }
  | .output =>
    let (c, n) := intermediate y.c
    some { y with c := c, reports := y.reports ++ [n] }

/-- A sequence of calls. -/
def Tally.run : List Call → Tally → Option Tally
  | [], y => some y
  | k :: ks, y =>
    match y.call k with
    | none => none
    | some y => Tally.run ks y

/-! ## Number of events -/

/-- `event_counting_` with the configured numbers, experiment.h:945-962:
`General: Nevents`, or `Minimum_Nonempty_Ensembles` with its number and
`max_events_`. -/
inductive Counting where
  | fixed (nevents : Int)
  | minimum (number maxEvents : Int)

/-- `max_events_`, experiment.h:961-962. -/
def maxEvents (maxEnsembles nEnsembles : Int) : Int := ⌈(maxEnsembles : ℚ) / nEnsembles⌉

/-- `is_finished`, experiment.h:3221-3243. -/
def isFinished (k : Counting) (event nonempty : Int) : Bool :=
  match k with
  | .fixed n => decide (event ≥ n)
  | .minimum n m => decide (nonempty ≥ n) || decide (event ≥ m)

/-- `count_nonempty_ensembles`, experiment.h:3210-3218: one entry of
`projectile_target_interact_` per ensemble. -/
def countNonempty (nonempty : Int) (hit : List Bool) : Int :=
  hit.foldl (fun n b => if b then n + 1 else n) nonempty

/-- The event loop `run`, experiment.h:3252-3266: `outcome i` says which ensembles
of event `i` had an interaction of projectile and target. The result is the list
of event numbers that were run and the number of non-empty ensembles. -/
def run (k : Counting) (outcome : Nat → List Bool) :
    Nat → Nat → Int → List Nat → Option (List Nat × Int)
  | 0, _, _, _ => none
  | fuel + 1, event, nonempty, done =>
    if isFinished k event nonempty then some (done, nonempty)
    else run k outcome fuel (event + 1) (countNonempty nonempty (outcome event)) (done ++ [event])

/-! ## Beam momenta -/

/-- `initialize_new_event`, experiment.h:2237-2256, in collider mode with frozen
Fermi motion: for every particle of the first ensemble the momentum with the beam
velocity is appended to `beam_momentum_`. The vector is not cleared. -/
def addBeam {M : Type} (table : List M) (new : List M) : List M := table ++ new

/-- The table during event `events.length` if the initial particles of the events
have the given beam momenta (in the order of their ids). -/
def beamTable {M : Type} (events : List (List M)) : List M := events.foldl addBeam []

/-- The momentum used to propagate a particle, propagation.cc:65-76: the table
entry for an initial nucleon without collisions, otherwise its own. -/
def propagationMomentum {M : Type} (table : List M) (id : Nat) (collisions : Nat) (own : M) : M :=
  if h : id < table.length ∧ collisions = 0 then table[id]'h.1 else own

end Verif.Exp
