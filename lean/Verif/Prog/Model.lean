import Mathlib.Data.Rat.Defs
import Verif.Config.Model
import Verif.Text.Model
/-! # Model of the program: command line, configuration, output directory
(smash.cc, library.cc, setup_particles_decaymodes.cc)

`getopt_long` is modelled by the sequence of options it reports, yaml-cpp by its parse and print functions,
the experiment by functions on the file system. Messages on the terminal are not modelled. -/
namespace Verif.Prog
open Verif.Config (Node State Key)
open Verif.Text (Str)

/-! ### Paths and files -/

/-- A `std::filesystem::path`: absolute or not, its components, and whether the text ends with a slash.
Simplification: no links, and `.` and `..` are already resolved. -/
structure Path where
  abs : Bool
  parts : List String
  slash : Bool
  deriving DecidableEq

/-- The place in the file system a path leads to. -/
abbrev Loc := List String

/-- Resolution relative to the working directory. -/
def Path.loc (cwd : Loc) (p : Path) : Loc := if p.abs then p.parts else cwd ++ p.parts

/-- `path::empty`. -/
def Path.isEmpty (p : Path) : Bool := !p.abs && p.parts.isEmpty && !p.slash

/-- `path::has_parent_path`: a single relative name has none. -/
def Path.hasParent (p : Path) : Bool := p.abs || p.slash || decide (2 ≤ p.parts.length)

/-- `path::parent_path`: removes the last component, which is the empty one after a final slash. -/
def Path.parent (p : Path) : Path :=
  if p.slash && !p.parts.isEmpty then { p with slash := false } else { p with parts := p.parts.dropLast }

/-- A directory or a file with its text. -/
inductive Obj where
  | dir
  | file (text : String)
  deriving DecidableEq

/-- The file system. -/
abbrev Fs := Loc → Option Obj

/-- Creates, changes or removes one file. -/
def put (fs : Fs) (l : Loc) (o : Option Obj) : Fs := fun x => if x = l then o else fs x

/-- Whether a place holds a file that is not a directory. -/
def isFile (fs : Fs) (l : Loc) : Bool :=
  match fs l with
  | some (.file _) => true
  | _ => false

/-- `std::filesystem::create_directories`: fails if a component is a file. Simplification: permissions are
not modelled and nothing is created in case of a failure. -/
def mkdirs (fs : Fs) (l : Loc) : Option Fs :=
  if l.inits.any (isFile fs) then none
  else some fun x => if x.isPrefixOf l && (fs x).isNone then some .dir else fs x

/-! ### Command line -/

/-- The options reported by `getopt_long`, smash.cc:376-394 and 417-418; `unknown` is its `?`. -/
inductive Opt where
  | c (yaml : String) | d (file : Path) | e (time : String) | f | h | i (file : Path) | m (modus : String)
  | p (file : Path) | o (dir : Path) | l | r (pdg : String) | s (args : Str) | S (args : Str) | x | v | n | q
  | unknown

/-- The local variables of `main`, smash.cc:401-413. -/
structure Settings where
  force : Bool := false
  output : Path
  input : Path := ⟨false, ["config.yaml"], false⟩
  particles : Path := ⟨false, [], false⟩
  decaymodes : Path := ⟨false, [], false⟩
  extra : List String := []
  modus : Option String := none
  endTime : Option String := none
  pdg : Option String := none
  cs : Option Str := none
  list2n : Bool := false
  resonance : Bool := false
  xs : Bool := false
  finalState : Bool := false
  iss : Bool := false
  cache : Bool := true
  quiet : Bool := false

/-- What the program was asked for and did. -/
inductive Job where
  | nothing | usage | version
  | reactions | iss
  | widths (pdg : String)
  | crossSections (a b : Str) (ma mb : Rat) (finalState : Bool) (plab : List Rat)
  | simulation (config : Node) (out : Loc)

/-- The effect of one option: go on, or leave the program. -/
inductive Step where
  | go (s : Settings)
  | stop (code : Nat) (job : Job)

/-- The `switch`, smash.cc:419-491. -/
def applyOpt (s : Settings) : Opt → Step
  | .c y => .go { s with extra := s.extra ++ [y] }
  | .d p => .go { s with decaymodes := p }
  | .f => .go { s with force := true }
  | .i p => .go { s with input := p }
  | .h => .stop 0 .usage
  | .m v => .go { s with modus := some v }
  | .p p => .go { s with particles := p }
  | .e t => .go { s with endTime := some t }
  | .o p => .go { s with output := p }
  | .l => .go { s with list2n := true, quiet := true }
  | .r p => .go { s with resonance := true, pdg := some p, quiet := true }
  | .S a => .go { s with finalState := true, xs := true, cs := some a, quiet := true }
  | .s a => .go { s with xs := true, cs := some a, quiet := true }
  | .x => .go { s with iss := true, quiet := true }
  | .v => .stop 0 .version
  | .n => .go { s with cache := false }
  | .q => .go { s with quiet := true }
  | .unknown => .stop 1 .usage

/-- The loop, smash.cc:416-492. -/
def parse (s : Settings) : List Opt → Step
  | [] => .go s
  | o :: os =>
    match applyOpt s o with
    | .go s' => parse s' os
    | .stop c j => .stop c j

/-! ### The surroundings -/

/-- What is not modelled: working directory, libraries, tables and the experiment itself. -/
structure Env where
  cwd : Loc
  /-- `YAML::Load` (`none`: it throws). -/
  yaml : String → Option Node
  /-- `Configuration::to_string`. -/
  text : Node → String
  /-- The comment lines about the build, smash.cc:671-679. -/
  header : String
  /-- `Configuration::validate() != Invalid` (C73). -/
  valid : Node → Bool
  /-- The value of `Logging: default` can be converted. -/
  level : Node → Option Unit
  /-- `create_all_loggers` accepts the section. -/
  loggers : Node → Bool
  /-- `std::atof` and the YAML form of a floating point number. -/
  atof : String → Rat
  num : Rat → String
  /-- Conversion of the seed from and to YAML, and `random::generate_63bit_seed`. -/
  seed : Node → Option Int
  seedText : Int → String
  newSeed : Int
  /-- The compiled-in tables. -/
  particlesTxt : String
  decaymodesTxt : String
  /-- `create_type_list`, `load_decaymodes` and `check_consistency` succeed. -/
  types : String → String → Bool
  /-- Creation of the tabulations in a directory (or in memory only). -/
  tables : Loc → Fs → Fs
  /-- `ExperimentBase::create`: the remaining configuration (`none`: an exception) and the files. -/
  create : Loc → State → Fs → Option State × Fs
  /-- `run`: whether it ends without exception, and the files. -/
  run : Loc → State → Fs → Bool × Fs
  /-- The objects made for a dump: the remaining configuration. -/
  finder : State → Option State
  /-- A particle name of the command line: mass and whether it is stable. -/
  particle : Str → Option (Rat × Bool)
  /-- `PdgCode(pdg_string)` and `ParticleType::find` succeed. -/
  resonance : String → Bool
  /-- `std::stod`. -/
  stod : Str → Option Rat

/-- Exceptions. -/
inductive Err where
  | noFile | crlf | yaml | invalid | config | conversion | types | args
  deriving DecidableEq, Repr

/-! ### Reading the input -/

/-- `has_crlf_line_ending`, inputfunctions.h:102-107. -/
def hasCrlf : List Char → Bool
  | [] => false
  | c :: r => (c == '\r' && r.head? == some '\n') || hasCrlf r

/-- An input file: it must exist and have no CR LF; configuration.cc:130-141,
setup_particles_decaymodes.cc:33-46. A directory reads as an empty text. -/
def readFile (fs : Fs) (l : Loc) : Except Err String :=
  match fs l with
  | none => .error .noFile
  | some .dir => .ok ""
  | some (.file t) => if hasCrlf t.toList then .error .crlf else .ok t

/-- One table of `load_particles_and_decaymodes`, setup_particles_decaymodes.cc:28-68: the file if a name
is given, otherwise the compiled-in text. -/
def loadTable (env : Env) (fs : Fs) (p : Path) (builtin : String) : Except Err String :=
  if p.isEmpty then .ok builtin else readFile fs (p.loc env.cwd)

/-- Conversion of an exception of the configuration. -/
def ofConfig {α : Type} : Except Config.Err α → Except Err α
  | .ok a => .ok a
  | .error _ => .error .config

/-- The loop over the `-c` texts, library.cc:96-98. -/
def mergeAll (env : Env) (st : State) : List String → Except Err State
  | [] => .ok st
  | y :: ys =>
    match env.yaml y with
    | none => .error .yaml
    | some b =>
      match Config.mergeYaml st b with
      | .error _ => .error .config
      | .ok st' => mergeAll env st' ys

/-- `create_configuration`, library.cc:87-100. -/
def createConfiguration (env : Env) (fs : Fs) (s : Settings) : Except Err State :=
  match readFile fs (s.input.loc env.cwd) with
  | .error e => .error e
  | .ok t =>
    match env.yaml t with
    | none => .error .yaml
    | some root => mergeAll env ⟨root, []⟩ s.extra

/-- `InputKeys::log_default`, input_keys.h:1599-1600. -/
def logDefault (env : Env) : Key Unit where
  labels := ["Logging", "default"]
  isMap := false
  default := some ()
  dependent := false
  conv := env.level
  valid := fun _ => true

/-- `setup_logging`, library.cc:118-126: both the default level and the whole section leave the
configuration. -/
def setupLogging (env : Env) (st : State) : Except Err State :=
  match Config.take st (logDefault env) with
  | (.error _, _) => .error .config
  | (.ok _, st1) =>
    match Config.extract st1 ["Logging"] true with
    | .error _ => .error .config
    | .ok (sub, rest) => if env.loggers sub.root then .ok rest else .error .config

/-- `InputKeys::particles` and `InputKeys::decaymodes`, input_keys.h:1120-1124: text without default. -/
def textKey (label : String) : Key String where
  labels := [label]
  isMap := false
  default := none
  dependent := false
  conv := fun n => match n with
    | .scalar s => some s
    | _ => none
  valid := fun _ => true

/-- One of the two halves of `read_particles_and_decaymodes_files_setting_keys_in_configuration`,
library.cc:138-149 and 151-162: the given file wins, then the configuration, then the compiled-in text. -/
def setTable (st : State) (label : String) (given : Bool) (text : String) : Except Err State :=
  match Config.hasValue st (textKey label) with
  | .error _ => .error .config
  | .ok has =>
    if !has || given then
      match Config.setAt (some st.root) (.scalar text) [label] with
      | .error _ => .error .config
      | .ok root => .ok { st with root := root }
    else .ok st

/-- `read_particles_and_decaymodes_files_setting_keys_in_configuration`, library.cc:128-163. -/
def setTables (env : Env) (fs : Fs) (s : Settings) (st : State) : Except Err State :=
  match loadTable env fs s.particles env.particlesTxt with
  | .error e => .error e
  | .ok pt =>
    match loadTable env fs s.decaymodes env.decaymodesTxt with
    | .error e => .error e
    | .ok dt =>
      match setTable st "particles" (!s.particles.isEmpty) pt with
      | .error e => .error e
      | .ok st1 => setTable st1 "decaymodes" (!s.decaymodes.isEmpty) dt

/-- `setup_config_and_logging`, library.cc:34-44, with `fully_validate_configuration`, 111-116. -/
def setup (env : Env) (fs : Fs) (s : Settings) : Except Err State :=
  match createConfiguration env fs s with
  | .error e => .error e
  | .ok st =>
    if env.valid st.root then
      match setupLogging env st with
      | .error e => .error e
      | .ok st1 => setTables env fs s st1
    else .error .invalid

/-- `set_value` of an optional setting. -/
def setOpt (st : State) (labels : List String) (v : Option Node) : Except Err State :=
  match v with
  | none => .ok st
  | some n =>
    match Config.setAt (some st.root) n labels with
    | .error _ => .error .config
    | .ok root => .ok { st with root := root }

/-- `InputKeys::gen_randomseed`, input_keys.h:1197-1198: no default. -/
def seedKey (env : Env) : Key Int where
  labels := ["General", "Randomseed"]
  isMap := false
  default := none
  dependent := false
  conv := env.seed
  valid := fun _ => true

/-- The seed, smash.cc:645-649. -/
def fixSeed (env : Env) (st : State) : Except Err State :=
  match Config.read st (seedKey env) with
  | .error _ => .error .config
  | .ok z =>
    setOpt st ["General", "Randomseed"] (if z < 0 then some (.scalar (env.seedText env.newSeed)) else none)

/-- The value written for `-e`, smash.cc:640-643: the absolute value of what `atof` makes of it. -/
def endTimeNode (env : Env) (t : String) : Node := .scalar (env.num (if env.atof t < 0 then -env.atof t else env.atof t))

/-- The settings that only concern simulations, smash.cc:637-649. -/
def adjust (env : Env) (s : Settings) (st : State) : Except Err State :=
  match setOpt st ["General", "Modus"] (s.modus.map Node.scalar) with
  | .error e => .error e
  | .ok st1 =>
    match setOpt st1 ["General", "End_Time"] (s.endTime.map (endTimeNode env)) with
    | .error e => .error e
    | .ok st2 => fixSeed env st2

/-! ### Output directory -/

/-- The loop over the run numbers, smash.cc:280-285: `fuel` numbers are left to be tried. -/
def freeId (taken : Nat → Bool) : Nat → Nat → Nat
  | 0, id => id - 1
  | fuel + 1, id => if taken id then freeId taken fuel (id + 1) else id

/-- `std::numeric_limits<int>::max()`. -/
def intMax : Nat := 2147483647

/-- `default_output_path`, smash.cc:274-290. The comparison with `OutputDirectoryOutOfIds`, 286-288, never
holds: one path is the parent of the other. -/
def defaultOutput (env : Env) (fs : Fs) : Path :=
  let data := env.cwd ++ ["data"]
  let id := if (fs data).isNone then 0 else freeId (fun i => (fs (data ++ [toString i])).isSome) intMax 0
  ⟨true, data ++ [toString id], false⟩

/-- `ensure_path_is_valid`, smash.cc:298-313. The empty path does not exist and cannot be created. -/
def ensure (env : Env) (fs : Fs) (p : Path) : Option Fs :=
  if p.isEmpty then none
  else
    match fs (p.loc env.cwd) with
    | some .dir => some fs
    | some (.file _) => none
    | none => mkdirs fs (p.loc env.cwd)

/-- The directory of the tabulations, smash.cc:512-520. -/
def tabLoc (env : Env) (s : Settings) : Option Loc :=
  if s.cache then
    some ((if s.output.hasParent then s.output.parent.loc env.cwd else env.cwd) ++ ["tabulations"])
  else none

/-- `tabulate_resonance_integrals`, library.cc:75-85. -/
def tabulate (env : Env) (s : Settings) (fs : Fs) : Option Fs :=
  match tabLoc env s with
  | none => some fs
  | some l => (mkdirs fs l).map (env.tables l)

/-- `initialize_particles_decays_and_return_hash`, library.cc:54-73: both keys are taken. -/
def takeTypes (env : Env) (st : State) : Except Err State :=
  match Config.take st (textKey "particles") with
  | (.error _, _) => .error .config
  | (.ok p, st1) =>
    match Config.take st1 (textKey "decaymodes") with
    | (.error _, _) => .error .config
    | (.ok d, st2) => if env.types p d then .ok st2 else .error .types

/-! ### The program -/

/-- Exit code, files afterwards and what was done. -/
structure Outcome where
  code : Nat
  fs : Fs
  job : Job

/-- An exception reaches the end of `main`, smash.cc:694-698. -/
def failed (fs : Fs) : Outcome := ⟨1, fs, .nothing⟩

/-- One section of `ignore_simulation_config_values`, smash.cc:349-357. -/
def ignoreSection (st : State) (label : String) : Except Err State :=
  match Config.hasSection st [label] with
  | .error _ => .error .config
  | .ok false => .ok st
  | .ok true => (ofConfig (Config.extract st [label] false)).map Prod.snd

/-- One key of `ignore_simulation_config_values`, smash.cc:344-348. -/
def ignoreKey (st : State) (label : String) : Except Err State :=
  match Config.hasValue st (textKey label) with
  | .error _ => .error .config
  | .ok false => .ok st
  | .ok true => .ok (Config.take st (textKey label)).2

/-- All of them in order, smash.cc:343-358. -/
def ignoreAll (st : State) : Except Err State := do
  let st ← ignoreKey st "particles"
  let st ← ignoreKey st "decaymodes"
  let st ← ignoreSection st "Modi"
  let st ← ignoreSection st "General"
  let st ← ignoreSection st "Output"
  let st ← ignoreSection st "Lattice"
  let st ← ignoreSection st "Potentials"
  ignoreSection st "Forced_Thermalization"

/-- `ignore_simulation_config_values` and `check_for_unused_config_values`. -/
def unusedOk (st : State) : Bool :=
  match ignoreAll st with
  | .ok st' => Config.isEmpty st'
  | .error _ => false

/-- The mass of a reaction partner, smash.cc:610-621. -/
def partnerMass (env : Env) (pole : Rat) (stable : Bool) (arg : Str) : Option Rat :=
  if arg = [] then some pole
  else
    match env.stod arg with
    | none => none
    | some m => some (if stable && decide (m ≠ pole) then pole else m)

/-- The momenta, smash.cc:622-626. -/
def momenta (env : Env) : List Str → Option (List Rat)
  | [] => some []
  | a :: as =>
    match env.stod a with
    | none => none
    | some x => (momenta env as).map (x :: ·)

/-- The arguments of `-s` and `-S`, smash.cc:596-626 (the comma is byte 44). -/
def xsArgs (env : Env) (s : Settings) (text : Str) : Option Job :=
  let args := Text.split text 44
  if args.length ≠ 2 ∧ args.length ≠ 4 ∧ args.length < 5 then none
  else
    match args with
    | a :: b :: more =>
      match env.particle a, env.particle b with
      | some (ma, sa), some (mb, sb) =>
        match partnerMass env ma sa (more.headD []), partnerMass env mb sb (more.tail.headD []),
          momenta env (more.drop 2) with
        | some xa, some xb, some pl => some (.crossSections a b xa xb s.finalState pl)
        | _, _, _ => none
      | _, _ => none
    | _ => none

/-- `-l`, smash.cc:523-536. -/
def dumpReactions (env : Env) (s : Settings) (fs : Fs) (st : State) : Outcome :=
  match Config.mergeYaml st (.map (.cons "Collision_Term" (.map (.cons "Two_to_One" (.scalar "False") .nil)) .nil)) with
  | .error _ => failed fs
  | .ok st1 =>
    match takeTypes env st1 with
    | .error _ => failed fs
    | .ok st2 =>
      match tabulate env s fs with
      | none => failed fs
      | some fs1 =>
        match env.finder st2 with
        | none => failed fs1
        | some st3 => if unusedOk st3 then ⟨0, fs1, .reactions⟩ else failed fs1

/-- `-x`, smash.cc:537-579. -/
def dumpIss (env : Env) (s : Settings) (fs : Fs) (st : State) : Outcome :=
  match takeTypes env st with
  | .error _ => failed fs
  | .ok _ =>
    match tabulate env s fs with
    | none => failed fs
    | some fs1 => ⟨0, fs1, .iss⟩

/-- `-r`, smash.cc:580-592: a whole experiment is set up in the output directory. -/
def dumpWidths (env : Env) (s : Settings) (fs : Fs) (st : State) : Outcome :=
  match takeTypes env st with
  | .error _ => failed fs
  | .ok st1 =>
    match tabulate env s fs with
    | none => failed fs
    | some fs1 =>
      match env.create (s.output.loc env.cwd) st1 fs1 with
      | (none, fs2) => failed fs2
      | (some st2, fs2) =>
        match s.pdg with
        | none => failed fs2
        | some pdg => if unusedOk st2 && env.resonance pdg then ⟨0, fs2, .widths pdg⟩ else failed fs2

/-- `-s` and `-S`, smash.cc:593-636. -/
def dumpXs (env : Env) (s : Settings) (fs : Fs) (st : State) : Outcome :=
  match takeTypes env st with
  | .error _ => failed fs
  | .ok st1 =>
    match tabulate env s fs with
    | none => failed fs
    | some fs1 =>
      match s.cs.bind (xsArgs env s) with
      | none => failed fs1
      | some job =>
        match env.finder st1 with
        | none => failed fs1
        | some st2 => if unusedOk st2 then ⟨0, fs1, job⟩ else failed fs1

/-- From the creation of the particle types to the end of the run, smash.cc:682-693. -/
def conduct (env : Env) (s : Settings) (fs : Fs) (st : State) : Outcome :=
  let out := s.output.loc env.cwd
  match takeTypes env st with
  | .error _ => failed fs
  | .ok st1 =>
    match env.create out st1 fs with
    | (none, fs1) => failed fs1
    | (some left, fs1) =>
      if Config.isEmpty left then
        match tabulate env s fs1 with
        | none => failed fs1
        | some fs2 =>
          let r := env.run out st1 fs2
          ⟨if r.1 then 0 else 1, r.2, .simulation st.root out⟩
      else failed fs1

/-- A simulation, smash.cc:637-693. The lock file is removed by its destructor on every way out
(C25). -/
def simulate (env : Env) (s : Settings) (fs : Fs) (st : State) : Outcome :=
  match adjust env s st with
  | .error _ => failed fs
  | .ok st1 =>
    let out := s.output.loc env.cwd
    let lock := out ++ ["smash.lock"]
    let copy := out ++ ["config.yaml"]
    if (fs lock).isSome then failed fs
    else
      let fs1 := put fs lock (some (.file ""))
      if !s.force && (fs1 copy).isSome then failed (put fs1 lock none)
      else
        let fs2 := put fs1 copy (some (.file (env.header ++ env.text st1.root)))
        let r := conduct env s fs2 st1
        ⟨r.code, put r.fs lock none, r.job⟩

/-- After the command line was read, smash.cc:505-702. -/
def body (env : Env) (s : Settings) (fs : Fs) : Outcome :=
  match setup env fs s with
  | .error _ => failed fs
  | .ok st =>
    match ensure env fs s.output with
    | none => failed fs
    | some fs1 =>
      if s.list2n then dumpReactions env s fs1 st
      else if s.iss then dumpIss env s fs1 st
      else if s.resonance then dumpWidths env s fs1 st
      else if s.xs then dumpXs env s fs1 st
      else simulate env s fs1 st

/-- `main`, smash.cc:373-702; `rest` says that arguments are left over. -/
def main (env : Env) (fs : Fs) (opts : List Opt) (rest : Bool) : Outcome :=
  match parse { output := defaultOutput env fs } opts with
  | .stop c j => ⟨c, fs, j⟩
  | .go s => if rest then ⟨1, fs, .usage⟩ else body env s fs

end Verif.Prog
