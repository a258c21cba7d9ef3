import Verif.Config.Model
import Verif.Enums.Model
/-! # Model of how two options of the input file reach the components that use them

`Collision_Term: Spin_Interactions` and `Output: Thermodynamics: Only_Participants`. The configuration
object is the one of `Verif.Config.Model`; the keys taken before, between and after are arbitrary lists
of keys. -/
namespace Verif.Route
open Verif.Config Verif.Enums

/-- A key of any type. -/
structure AnyKey where
  T : Type
  key : Key T

/-- The configuration after some keys were taken from it (the constructors take their keys one after the
other). Simplification: a `take` that throws leaves its state to the next one, whereas the constructor
ends there. -/
def after (st : State) : List AnyKey → State
  | [] => st
  | k :: ks => after (take st k.key).2 ks

/-- `InputKeys::collTerm_spinInteractions` — src/include/smash/input_keys.h:2549-2552, with the
conversion configuration.h:1392-1401. -/
def spinKey : Key Spin where
  labels := ["Collision_Term", "Spin_Interactions"]
  isMap := false
  default := some .off
  dependent := false
  conv := fun n => match n with
    | .scalar s => Spin.read s
    | _ => none
  valid := fun _ => true

/-- The conversion of a YAML scalar to `bool` (yaml-cpp): the accepted words. -/
def readBool (s : String) : Option Bool :=
  if s ∈ ["y", "Y", "yes", "Yes", "YES", "true", "True", "TRUE", "on", "On", "ON"] then some true
  else if s ∈ ["n", "N", "no", "No", "NO", "false", "False", "FALSE", "off", "Off", "OFF"] then some false
  else none

/-- `InputKeys::output_thermodynamics_onlyParticipants` — src/include/smash/input_keys.h:5543-5546. -/
def participantsKey : Key Bool where
  labels := ["Output", "Thermodynamics", "Only_Participants"]
  isMap := false
  default := some false
  dependent := false
  conv := fun n => match n with
    | .scalar s => readBool s
    | _ => none
  valid := fun _ => true

/-- `extract_complete_sub_configuration` — src/configuration.cc:330-336: the section as a new
configuration, enclosed into its labels, and what is left. -/
def extractComplete (st : State) (labels : List String) : Except Err (State × State) :=
  match extract st labels false with
  | .error e => .error e
  | .ok (sub, rest) => .ok (enclose sub labels, rest)

/-! ### Spin interactions -/

/-- `create_experiment_parameters` — src/experiment.cc:329: the option as seen by the scatterings, the
decays, the box modus (boxmodus.cc:201, 213) and the list modus (listmodus.cc:75). -/
def experimentSpin (st : State) (pre : List AnyKey) : Except Err Spin := (take (after st pre) spinKey).1

/-- The configuration given to the modus — src/include/smash/experiment.h:906-921. -/
def modusConfig (st : State) (pre : List AnyKey) : Except Err State :=
  match extractComplete (after st pre) ["Modi"] with
  | .error e => .error e
  | .ok (m, _) => .ok m

/-- `SphereModus::SphereModus` — src/spheremodus.cc:78-79: the option as seen by the sphere, `own` are
the keys it takes before. -/
def sphereSpin (st : State) (pre own : List AnyKey) : Except Err Spin :=
  match modusConfig st pre with
  | .error e => .error e
  | .ok m => (take (after m own) spinKey).1

/-- Projectile or target. -/
inductive Side where
  | projectile | target
  deriving DecidableEq, Repr

/-- The name of the section. -/
def Side.name : Side → String
  | .projectile => "Projectile"
  | .target => "Target"

/-- `ColliderModus::ColliderModus` — src/collidermodus.cc:36-46: the configurations of the two nuclei. -/
def nucleusConfig (st : State) (pre own : List AnyKey) (side : Side) : Except Err State :=
  match modusConfig st pre with
  | .error e => .error e
  | .ok m =>
    match extractComplete m ["Modi", "Collider"] with
    | .error e => .error e
    | .ok (c, _) =>
      match extractComplete (after c own) ["Modi", "Collider", "Projectile"] with
      | .error e => .error e
      | .ok (p, rest) =>
        match extractComplete rest ["Modi", "Collider", "Target"] with
        | .error e => .error e
        | .ok (t, _) => .ok (if side = .projectile then p else t)

/-- `Nucleus::Nucleus(Configuration &, int)` — src/nucleus.cc:38-42: the option as seen by a nucleus. -/
def nucleusSpin (st : State) (pre own : List AnyKey) (side : Side) : Except Err Spin :=
  match nucleusConfig st pre own side with
  | .error e => .error e
  | .ok n => (take n spinKey).1

/-- Which initial particles of the box get a spin vector — src/boxmodus.cc:195-216: the `n` particles of
the medium, then the jet. -/
def boxSpins (s : Spin) (n : Nat) (jet : Bool) : List Bool :=
  List.replicate n (decide (s ≠ .off)) ++ (if jet then [decide (s ≠ .off)] else [])

/-- Which initial particles of the sphere get a spin vector — src/spheremodus.cc:267-303: the medium, the
jet and, back to back, its antiparticle. -/
def sphereSpins (s : Spin) (n : Nat) (jet back : Bool) : List Bool :=
  List.replicate n (decide (s ≠ .off)) ++
    (if jet then decide (s ≠ .off) :: (if back then [false] else []) else [])

/-- Which nucleons get a spin vector — src/nucleus.cc:56-61. -/
def nucleusSpins (s : Spin) (n : Nat) : List Bool := List.replicate n (decide (s ≠ .off))

/-! ### Only participants -/

/-- `create_experiment_parameters` — src/experiment.cc:145-147: the option as seen by the densities. -/
def densityParticipants (st : State) (pre : List AnyKey) : Except Err Bool × State :=
  take (after st pre) participantsKey

/-- The output section — src/include/smash/experiment.h:1450-1485: extracted, enclosed if it is not empty,
and after its formats were taken (`formats`). -/
def outputConfig (st : State) (formats : List AnyKey) : Except Err State :=
  match extract st ["Output"] true with
  | .error e => .error e
  | .ok (o, _) => .ok (after (if isEmpty o then o else enclose o ["Output"]) formats)

/-- `OutputParameters(Configuration)` — src/include/smash/outputparameters.h:88-113: the flag that is
printed in the header of thermodynamics.dat, `own` are the keys taken before it. -/
def headerParticipants (st : State) (own : List AnyKey) : Except Err Bool :=
  match hasSection st ["Output", "Thermodynamics"] with
  | .error e => .error e
  | .ok false => .ok false
  | .ok true =>
    match extractComplete st ["Output", "Thermodynamics"] with
    | .error e => .error e
    | .ok (t, _) => (take (after t own) participantsKey).1

/-- The experiment: the option as used by the densities and as printed in the header; `pre` are the keys
taken before it, `mid` the ones taken between and `formats`, `own` as above. -/
def participants (st : State) (pre mid formats own : List AnyKey) : Except Err (Bool × Bool) :=
  match densityParticipants st pre with
  | (.error e, _) => .error e
  | (.ok d, st1) =>
    match outputConfig (after st1 mid) formats with
    | .error e => .error e
    | .ok o =>
      match headerParticipants o own with
      | .error e => .error e
      | .ok h => .ok (d, h)

end Verif.Route
