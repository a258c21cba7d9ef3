import Mathlib.Data.List.Basic
import Mathlib.Logic.Function.Basic
import Mathlib.Data.Rat.Defs
/-
Model of the output of events to HepMC files (hepmcoutput.cc) and to Rivet (rivetoutput.cc). The building of an event is in `Verif.Hep`; here, `E` is
the type of events. The libraries HepMC3 and Rivet are not part of the repository: a file is the list of the events written to it, and of Rivet we keep the
calls it receives.
-/
namespace Verif.Riv

abbrev Name := List Char

/-- A file with events; `closed`: with its trailer. -/
structure File (E : Type) where
  events : List E
  closed : Bool

/-- What happens to an output: construction, end of an event, destruction. -/
inductive Step (E : Type) where
  | open | event (e : E) | destroy

/-- `filename_`, hepmcoutput.cc:243. -/
def fileName (name type : Name) : Name := name ++ '.' :: type

/-- `filename_unfinished_`, hepmcoutput.cc:244-245. -/
def unfinished (name type : Name) : Name := fileName name type ++ ".unfinished".toList

/-- The kind of writer, hepmcoutput.cc:246-258; `rootio`: compiled with SMASH_USE_HEPMC_ROOTIO. `true`: text. -/
def textWriter (rootio : Bool) (type : Name) : Bool := if rootio then decide (type = "asciiv3".toList) else true

/-- Steps of `HepMcOutput` on the files, hepmcoutput.cc:240-276. -/
def hepStep {E : Type} (name type : Name) (fs : Name → Option (File E)) : Step E → (Name → Option (File E))
  | .open => Function.update fs (unfinished name type) (some ⟨[], false⟩)
  | .event e => match fs (unfinished name type) with
    | some f => Function.update fs (unfinished name type) (some { f with events := f.events ++ [e] })
    | none => fs
  | .destroy => match fs (unfinished name type) with
    | some f => Function.update (Function.update fs (unfinished name type) none) (fileName name type) (some { f with closed := true })
    | none => fs

/-- The whole life of an output, for the events of a run. -/
def life {E : Type} (evs : List E) : List (Step E) := .open :: evs.map .event ++ [.destroy]

/-- Calls of the Rivet library, rivetoutput.cc. -/
inductive Call (E : Type) where
  | libPath (p : Name) | dataPath (p : Name) | readData (f : Name) | addAnalysis (a : Name) | ignoreBeams (b : Bool)
  | crossSection (x err : ℚ) | logLevel (name level : Name) | skipMulti (b : Bool) | nominal (n : Name) | cap (c : ℚ) | smear (c : ℚ)
  | select (names : Name) | deselect (names : Name)
  | init (e : E) | analyze (e : E) | finalize | write (file : Name)

/-- `RivetOutputParameters`, outputparameters.h:29-56. -/
structure Params where
  logs : Option (List (Name × Name)) := none
  paths : Option (List Name) := none
  preloads : Option (List Name) := none
  analyses : Option (List Name) := none
  enabled : Option (List Name) := none
  disabled : Option (List Name) := none
  crossSections : Option (ℚ × ℚ) := none
  nominal : Option Name := none
  cap : Option ℚ := none
  smear : Option ℚ := none
  noMulti : Option Bool := none
  ignoreBeams : Bool := true
  anyWeight : Bool := false

/-- The name of a logger of Rivet, `set_log_level`, rivetoutput.cc:147-151. -/
def logName (n : Name) : Name := if "Rivet".toList.isPrefixOf n then n else "Rivet.".toList ++ n

/-- Names with commas between them, rivetoutput.cc:237-240 and 246-249; `comma`: whether something was written before. -/
def joinFrom (comma : Bool) : List Name → Name
  | [] => []
  | w :: ws => (if comma then [','] else []) ++ w ++ joinFrom true ws

/-- `setup`, rivetoutput.cc:171-253. The upper case of log levels is left to `up`; errors of Rivet for log levels are ignored. -/
def setup {E : Type} (up : Char → Char) (p : Params) : List (Call E) :=
  (p.paths.getD []).flatMap (fun x => [.libPath x, .dataPath x]) ++ (p.preloads.getD []).map .readData ++
  (p.analyses.getD []).map .addAnalysis ++ [.ignoreBeams p.ignoreBeams] ++
  (p.crossSections.toList.map fun x => .crossSection x.1 x.2) ++
  ((p.logs.getD []).map fun x => .logLevel (logName x.1) (x.2.map up)) ++
  (if p.anyWeight then
    p.noMulti.toList.map .skipMulti ++ p.nominal.toList.map .nominal ++ p.cap.toList.map .cap ++ p.smear.toList.map .smear ++
    (p.enabled.toList.map fun l => .select (joinFrom false l)) ++ (p.disabled.toList.map fun l => .deselect (joinFrom false l))
  else [])

/-- State of `RivetOutput`: `need_init_` and the calls so far. -/
structure RSt (E : Type) where
  needInit : Bool
  calls : List (Call E)

/-- Steps of `RivetOutput`, rivetoutput.cc:96-127. -/
def rivStep {E : Type} (up : Char → Char) (p : Params) (file : Name) (s : RSt E) : Step E → RSt E
  | .open => ⟨true, s.calls ++ setup up p⟩
  | .event e => if s.needInit then ⟨false, s.calls ++ [.init e, .analyze e]⟩ else { s with calls := s.calls ++ [.analyze e] }
  | .destroy => { s with calls := s.calls ++ [.finalize, .write file] }

end Verif.Riv
