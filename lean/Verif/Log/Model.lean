import Verif.Text.Model
/-
Model of the set-up of the log areas, logging.cc, logging.h, library.cc:118-126, and of the levels in 3rdparty/einhard.
-/
namespace Verif.Log
open Verif.Text

/-- `enum LogLevel`, einhard.hpp:108-118. -/
inductive Level | all | trace | debug | info | warn | error | fatal | off
deriving DecidableEq, Repr

/-- The values of the enumerators. -/
def Level.num : Level → Nat
  | .all => 0 | .trace => 1 | .debug => 2 | .info => 3 | .warn => 4 | .error => 5 | .fatal => 6 | .off => 7

/-- `getLogLevel`, einhard.cpp:117-139; `none`: `std::invalid_argument`. -/
def getLevel (s : String) : Option Level :=
  if s = "ALL" then some .all
  else if s = "TRACE" then some .trace
  else if s = "DEBUG" then some .debug
  else if s = "INFO" then some .info
  else if s = "WARN" then some .warn
  else if s = "ERROR" then some .error
  else if s = "FATAL" then some .fatal
  else if s = "OFF" then some .off
  else none

/-- `getLogLevelString`, einhard.cpp:59-115; `encode` of logging.h:243-245 makes a scalar of it. -/
def levelString : Level → String
  | .all => "  ALL" | .trace => "TRACE" | .debug => "DEBUG" | .info => " INFO" | .warn => " WARN" | .error => "ERROR"
  | .fatal => "FATAL" | .off => "  OFF"

/-- `isEnabled`, einhard.hpp:524-532, with `MAX = ALL`: is a message of this level printed?  `release`: compiled with `NDEBUG`. -/
def isEnabled (release : Bool) (verbosity message : Level) : Bool :=
  if release && (message == .debug || message == .trace) then false
  else Level.all.num ≤ message.num && verbosity.num ≤ message.num

/-- The names in `AreaTuple`, logging.h:91-136, in the order of their ids. -/
def areas : List String := ["Main", "Experiment", "Box", "Collider", "Sphere", "Action", "InputParser", "ParticleType",
  "FindScatter", "Clock", "DecayModes", "Resonances", "ScatterAction", "Distributions", "Propagation", "Grid", "List",
  "Nucleus", "Density", "PauliBlocking", "Tmn", "Fpe", "Lattice", "Pythia", "GrandcanThermalizer", "CrossSections",
  "Output", "HyperSurfaceCrossing", "InitialConditions", "ScatterActionMulti", "Configuration", "Potentials",
  "RootSolver"]

/-- The keys of type `LogLevel` of the section Logging, input_keys.h:1599-2020, without "default". -/
def logKeys : List String := ["Box", "Collider", "Configuration", "Experiment", "GrandcanThermalizer",
  "InitialConditions", "List", "Main", "Output", "Potentials", "RootSolver", "Sphere", "Action", "Clock",
  "CrossSections", "DecayModes", "Density", "Distributions", "FindScatter", "Fpe", "Grid", "HyperSurfaceCrossing",
  "InputParser", "Lattice", "Nucleus", "ParticleType", "PauliBlocking", "Propagation", "Pythia", "Resonances",
  "ScatterAction", "ScatterActionMulti", "Tmn"]

/-- The section Logging of the configuration: scalars by key. -/
abbrev Cfg := List (String × String)

/-- What can go wrong: no such key in the database, not a level, `std::length_error` of the padding. -/
inductive Err | noKey | badLevel | length
deriving DecidableEq

/-- `Configuration::take` of a level, configuration.h:514-577, with the value for a missing key: value and remaining configuration. -/
def take (cfg : Cfg) (key : String) (dflt : Level) : Except Err (Level × Cfg) :=
  match cfg.lookup key with
  | none => .ok (dflt, cfg)
  | some s =>
    match getLevel s with
    | none => .error .badLevel
    | some l => .ok (l, cfg.filter fun e => !(e.1 == key))

/-- `find_longest_logger_name<index, stop>`, logging.cc:51-77: length of the longest name with an id from `stop` to `index`. -/
def longest (len : Nat → Nat) (index stop : Nat) : Nat :=
  if stop < index then
    let mid := (index + stop) / 2
    if longest len index (mid + 1) > longest len mid stop then longest len index (mid + 1) else longest len mid stop
  else len index
termination_by index - stop

/-- `textual_length`, logging.h:79, of the area with this id. -/
def lengthOf (id : Nat) : Nat := (lit (areas.getD id "")).length

/-- A logger: the name printed and the verbosity. -/
structure Logger where
  name : Str
  verbosity : Level
deriving DecidableEq

/-- `create_all_loggers_impl`, logging.cc:84-118, for the areas that are left, the last one first; `acc`: the loggers that are set up. -/
def create (width : BitVec 64) (dflt : Level) : List String → Cfg → List Logger → Except Err (List Logger × Cfg)
  | [], cfg, acc => .ok (acc, cfg)
  | a :: as, cfg, acc =>
    match fillBoth (lit a) width 32 with
    | none => .error .length
    | some name =>
      if !logKeys.contains a then .error .noKey
      else
        match take cfg a dflt with
        | .error e => .error e
        | .ok (l, cfg') => create width dflt as cfg' (⟨name, l⟩ :: acc)

/-- `setup_logging`, library.cc:118-126, and `create_all_loggers`, logging.cc:120-122: loggers by id and the keys that nobody used. -/
def setup (cfg : Cfg) : Except Err (List Logger × Cfg) :=
  match take cfg "default" .all with
  | .error e => .error e
  | .ok (dflt, cfg') => create (BitVec.ofNat 64 (longest lengthOf (areas.length - 1) 0)) dflt areas.reverse cfg' []

end Verif.Log
