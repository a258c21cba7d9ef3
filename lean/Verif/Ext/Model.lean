import Verif.Fluid.Model
import Verif.Lst.Model
/-! # Model of adding and removing particles from outside (`Experiment::run_time_evolution`)

Used when the code is a library of another program (a hydrodynamic code). Doubles are exact real numbers; a
four-vector with a NaN is marked. Particles, actions and the choice of momenta are those of `Fluid` and `Lst`. -/
namespace Verif.Ext
open Verif.Kin Verif.Act Verif.Fluid

/-- A particle handed over by the caller; the vectors mean nothing if marked as NaN. -/
structure Input where
  p : FP
  nanPos : Bool
  nanMom : Bool

/-- The list of particle types: `ParticleType::find` with pole mass and stability, the baryons, the codes of
K_S and K_L, and those of K⁰ and its antiparticle. -/
structure Types where
  find : Nat → Option Verif.Lst.Ty
  baryon : Nat → Bool
  kaonSL : Nat → Bool
  kz : Nat
  kbarz : Nat

/-- Exceptions. -/
inductive Err where
  | spaceLike | nan | ensembles | twice | twoLists | endTime
  deriving DecidableEq, Repr

/-- `effective_mass` — src/particledata.cc:25-33, with `FourVector::abs` — src/include/smash/fourvector.h:464-472:
a NaN fails the comparison. -/
noncomputable def effectiveMass (i : Input) : Except Err ℝ :=
  if i.p.pole < 1 / 1000000 then .ok i.p.pole
  else if i.nanMom then .error .spaceLike
  else if i.p.mom.sqr > -(1 / 1000000) then .ok (Real.sqrt |i.p.mom.sqr|) else .error .spaceLike

/-- A four-vector of doubles. -/
def d4 (nan : Bool) (v : V4) : Verif.Lst.D4 :=
  if nan then ⟨none, none, none, none⟩ else ⟨some v.t, some v.x, some v.y, some v.z⟩

/-- One particle of `validate_and_adjust_particle_list` — src/experiment.cc:626-656; `none`: erased from the
list. `coin` is the random choice for K_S and K_L. -/
noncomputable def validateOne (T : Types) (coin : Bool) (i : Input) : Except Err (Option FP) :=
  let code := if T.kaonSL i.p.type then (if coin then T.kz else T.kbarz) else i.p.type
  match effectiveMass i with
  | .error e => .error e
  | .ok m =>
    match Verif.Lst.create (T.find code) m (d4 i.nanPos i.p.pos) (d4 i.nanMom i.p.mom) with
    | .error .nan => .error .nan
    | .error .pdgNotFound => .ok none
    | .ok n => .ok (some { i.p with pos := n.pos, mom := n.mom, scale := n.scaling })

/-- `validate_and_adjust_particle_list` — src/experiment.cc:623-657, without the warnings. `coins` are the
random choices, one per particle. -/
noncomputable def validate (T : Types) (coins : Nat → Bool) : List Input → Except Err (List FP)
  | [] => .ok []
  | i :: l =>
    match validateOne T (coins l.length) i with
    | .error e => .error e
    | .ok o =>
      match validate T coins l with
      | .error e => .error e
      | .ok r => .ok (o.toList ++ r)

/-- `almost_equal_physics` — src/include/smash/numerics.h:57-78, 98-103. -/
noncomputable def close (x y : ℝ) : Bool :=
  if x = y then true
  else if x = 0 then decide (|y| ≤ 1 / 10000)
  else if y = 0 then decide (|x| ≤ 1 / 10000)
  else decide (|x - y| ≤ 1 / 1000000) || decide (|x - y| ≤ 1 / 10000 * max |x| |y|)

/-- `FourVector::operator==` — src/fourvector.cc:32-37. -/
noncomputable def close4 (a b : V4) : Bool := close a.t b.t && close a.x b.x && close a.y b.y && close a.z b.z

/-- The position propagated to `time` — src/particledata.cc:304-308. -/
noncomputable def positionAt (p : FP) (time : ℝ) : V4 :=
  let d := time - p.pos.t
  p.pos.add ⟨1 * d, p.mom.velocity.x * d, p.mom.velocity.y * d, p.mom.velocity.z * d⟩

/-- `are_particles_identical_at_given_time` — src/particledata.cc:295-311. -/
noncomputable def identical (p q : FP) (time : ℝ) : Bool :=
  if p.type ≠ q.type then false
  else if close4 p.mom q.mom = false then false
  else close4 (positionAt p time) (positionAt q time)

/-- What the experiment consists of here. `arrange` is the order in which the container goes through its
particles (see `Particles`); `pauli` decides whether the final state is blocked, for an experiment with Pauli
blocking (see `Pauli`). -/
structure World where
  T : Types
  nEnsembles : Nat
  arrange : List FP → List FP
  pauli : List FP → Bool
  endTime : ℝ

/-- The particles of the first ensemble and the next id. -/
structure State where
  parts : List FP
  next : Nat

/-- `Action::is_pauli_blocked` — src/action.cc:35-56: only baryons in the final state can be blocked. -/
def blocked (w : World) (out : List FP) : Bool :=
  let b := out.filter fun p => w.T.baryon p.type
  !b.isEmpty && w.pauli b

/-- `perform_action` — src/include/smash/experiment.h:2262-2325 for a `FreeforallAction`: the validity of the
incoming particles, the rule for core particles, the final state, Pauli blocking, and the update of the
particles. Not modelled: counters and outputs. -/
noncomputable def performAction (w : World) (s : State) (a : Free) : State :=
  if a.inc.all (fun p => s.parts.any fun q => q.id == p.id) = false then s
  else
    match coreGate (some .freeforall) (a.inc.map (·.core)) with
    | .error _ => s
    | .ok false => s
    | .ok true =>
      if blocked w a.finalState then s
      else
        let r := perform (s.parts, s.next) a
        { parts := w.arrange r.1, next := r.2 }

/-- The first particle found, `std::find_if` — src/include/smash/experiment.h:2482-2493. -/
noncomputable def findOne (s : State) (time : ℝ) (p : FP) : Option FP := s.parts.find? fun q => identical p q time

/-- Insertion into a list sorted by id. -/
def insertId (p : FP) : List FP → List FP
  | [] => [p]
  | q :: l => if p.id ≤ q.id then p :: q :: l else q :: insertId p l

/-- `std::sort` by id — src/include/smash/experiment.h:2496-2500. -/
def sortId : List FP → List FP
  | [] => []
  | p :: l => insertId p (sortId l)

/-- `std::adjacent_find` of equal ids — src/include/smash/experiment.h:2501-2505. -/
def adjacent : List FP → Bool
  | p :: q :: l => p.id == q.id || adjacent (q :: l)
  | _ => false

/-- Adding — src/include/smash/experiment.h:2466-2474. -/
noncomputable def addStage (w : World) (coins : Nat → Bool) (s : State) (time : ℝ) (add : List Input) :
    State × Except Err Unit :=
  match validate w.T coins add with
  | .error e => (s, .error e)
  | .ok l =>
    if l.isEmpty then (s, .ok ())
    else
      match mkFree [] l time with
      | .error _ => (s, .error .twoLists)
      | .ok a => (performAction w s a, .ok ())

/-- Removing — src/include/smash/experiment.h:2476-2531. -/
noncomputable def removeStage (w : World) (coins : Nat → Bool) (s : State) (time : ℝ) (rem : List Input) :
    State × Except Err Unit :=
  match validate w.T coins rem with
  | .error e => (s, .error e)
  | .ok l =>
    let found := sortId (l.filterMap (findOne s time))
    if adjacent found then (s, .error .twice)
    else if found.isEmpty then (s, .ok ())
    else
      match mkFree found [] time with
      | .error _ => (s, .error .twoLists)
      | .ok a => (performAction w s a, .ok ())

/-- `run_time_evolution` up to its loop — src/include/smash/experiment.h:2453-2540. The state is kept when an
exception is thrown. -/
noncomputable def call (w : World) (coins : Nat → Bool) (s : State) (time tEnd : ℝ) (add rem : List Input) :
    State × Except Err Unit :=
  let (s, r) : State × Except Err Unit :=
    if add.isEmpty && rem.isEmpty then (s, .ok ())
    else if w.nEnsembles > 1 then (s, .error .ensembles)
    else
      match addStage w coins s time add with
      | (s, .error e) => (s, .error e)
      | (s, .ok _) => removeStage w (fun i => coins (add.length + i)) s time rem
  match r with
  | .error e => (s, .error e)
  | .ok _ => if w.endTime < tEnd then (s, .error .endTime) else (s, .ok ())

end Verif.Ext
