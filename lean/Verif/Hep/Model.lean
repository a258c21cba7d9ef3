import Mathlib.Algebra.Group.Basic
import Mathlib.Data.List.Nodup
import Mathlib.Logic.Function.Basic

/-!
Model of the event record in the HepMC format (hepmcinterface.cc).

Simplifications: momenta are elements of an arbitrary commutative group `M`; masses, positions and weights of the
vertices and the header of the event are left out. The library HepMC3 is not part of the repository; of it we use that a
particle has at most one production and one end vertex, which the last `add_particle_out` or `add_particle_in`
determines.
-/

namespace Verif.Hep

/-- The data of a particle which the record uses (`ParticleData`); `side` is `belongs_to`, with `true` for the projectile and
`false` for the target. -/
structure Part (M : Type) where
  id : ℤ
  pdg : ℤ
  mom : M
  nucleon : Bool
  charge : ℤ
  side : Option Bool

/-- A particle of the record, `HepMC3::GenParticle`: code, status, momentum and the numbers of its vertices. -/
structure Rec (M : Type) where
  pid : ℤ
  status : ℕ
  mom : M
  prod : Option ℕ
  ends : Option ℕ

/-- The record: particles in the order of their creation, number of particles, `map_` and number of vertices; vertex 0 is the
interaction point `ip_`. -/
structure St (M : Type) where
  recs : ℕ → Rec M
  n : ℕ
  map : ℤ → Option ℕ
  nv : ℕ

/-- Status codes, hepmcinterface.h:129-134. -/
def beam : ℕ := 4
/-- hepmcinterface.h:131. -/
def final : ℕ := 1
/-- hepmcinterface.h:132. -/
def dcy : ℕ := 2
/-- hepmcinterface.h:133. -/
def off : ℕ := 100

/-- `get_status`, hepmcinterface.cc:221-227; 5 is `ProcessType::Decay`. -/
def statusOf (type : ℕ) : ℕ := if type = 5 then dcy else type + off

variable {M : Type}

/-- `make_gen` and its addition to a vertex, hepmcinterface.cc:229-237. -/
def push (st : St M) (r : Rec M) : St M := { st with recs := Function.update st.recs st.n r, n := st.n + 1 }

/-- `make_register`, hepmcinterface.cc:229-247, and its addition to a vertex. -/
def register (st : St M) (p : Part M) (prod ends : Option ℕ) : St M :=
  let st' := push st ⟨p.pdg, final, p.mom, prod, ends⟩
  { st' with map := Function.update st'.map p.id (some st.n) }

/-- The particles of a list are registered and leave the vertex `prod` or enter the vertex `ends`, hepmcinterface.cc:164-167,
114-119, 202-205. -/
def emit (st : St M) (prod ends : Option ℕ) : List (Part M) → St M
  | [] => st
  | p :: ps => emit (register st p prod ends) prod ends ps

/-- `find_or_make`, `set_status` and `add_particle_in` for the incoming particles, hepmcinterface.cc:152-162, 249-261. -/
def consume (st : St M) (v status : ℕ) : List (Part M) → St M
  | [] => st
  | p :: ps =>
    match st.map p.id with
    | some r => consume { st with recs := Function.update st.recs r { st.recs r with status := status, ends := some v } } v status ps
    | none =>
      let st' := register st p none (some v)
      consume { st' with recs := Function.update st'.recs st.n { st'.recs st.n with status := status } } v status ps

/-- An action: type, incoming and outgoing particles. -/
structure Act (M : Type) where
  type : ℕ
  ins : List (Part M)
  outs : List (Part M)

/-- `at_interaction`, hepmcinterface.cc:134-168. -/
def interact (full : Bool) (st : St M) (a : Act M) : St M :=
  if full then
    emit (consume { st with nv := st.nv + 1 } st.nv (statusOf a.type) a.ins) (some st.nv) none a.outs
  else st

inductive Err where
  | ensembles
  | notNucleon
  | dangling
  deriving DecidableEq

/-- The empty record with the interaction point, hepmcinterface.cc:66, 74-76, 212-219. -/
def clear [AddCommGroup M] : St M := ⟨fun _ => ⟨0, 0, 0, none, none⟩, 0, fun _ => none, 1⟩

/-- Sums over the particles of a nucleus, hepmcinterface.cc:92-100. -/
def nucleus [AddCommGroup M] (ps : List (Part M)) (side : Bool) : M × ℤ × ℤ :=
  let l := ps.filter fun p => p.side == some side
  ((l.map (·.mom)).sum, l.length, (l.map (·.charge)).sum)

/-- `ion_pdg`, hepmcinterface.cc:263-271; `a` is the number of nucleons, `z` the charge. -/
def ionPdg (a z : ℤ) : ℤ :=
  if z = 1 ∧ a = 1 then 2212
  else if z = 1 ∧ a = 0 then 2112
  else 1000 * 1000 * 1000 + z * 10 * 1000 + a * 10

/-- `at_eventstart`, hepmcinterface.cc:57-132. -/
def start [AddCommGroup M] (full coll : Bool) (ensembles : ℕ) (ps : List (Part M)) : Except Err (St M) :=
  if ensembles ≠ 1 then .error .ensembles
  else if coll && ps.any (fun p => !p.nucleon) then .error .notNucleon
  else
    let st : St M := if !full && coll then clear else if coll then emit clear (some 0) none ps else emit clear none (some 0) ps
    if coll then
      let pr := nucleus ps true
      let ta := nucleus ps false
      .ok (push (push st ⟨ionPdg pr.2.1 pr.2.2, beam, pr.1, none, some 0⟩)
        ⟨ionPdg ta.2.1 ta.2.2, beam, ta.1, none, some 0⟩)
    else .ok st

/-- `at_eventend`, hepmcinterface.cc:170-210. -/
def finish [AddCommGroup M] (full coll empty : Bool) (ensembles : ℕ) (st : St M) (ps : List (Part M)) : Except Err (St M) :=
  if ensembles ≠ 1 then .error .ensembles
  else if empty && coll then .ok { clear with nv := 0 }
  else if !full then .ok (emit st (some 0) none ps)
  else if ps.any (fun p => (st.map p.id).isNone) then .error .dangling
  else .ok st

/-- An event: the calls of the three functions. -/
def run [AddCommGroup M] (full coll empty : Bool) (ensembles : ℕ) (initial : List (Part M)) (as : List (Act M))
    (last : List (Part M)) : Except Err (St M) :=
  match start full coll ensembles initial with
  | .error e => .error e
  | .ok st => finish full coll empty ensembles (as.foldl (interact full) st) last

end Verif.Hep
