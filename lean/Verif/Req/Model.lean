import Mathlib.Data.String.Basic
/-! # Model of the output requests of the input file (experiment.h, oscaroutput.cc, binaryoutput.cc)

From the section `Output` of the input file to the list of outputs and the files they write. Not
modelled: the contents of the files (other modules), `validate_quantities` (an oracle) and warnings. -/
namespace Verif.Req

/-- The contents that have a key `Format` (input_keys.h:4977-5024); for other names
`InputKeys::get_output_format_key` throws. -/
inductive Content where
  | particles | collisions | dileptons | photons | initialConditions | rivet | coulomb | thermodynamics
  deriving DecidableEq, Repr

/-- The name of the section. -/
def Content.name : Content → String
  | .particles => "Particles"
  | .collisions => "Collisions"
  | .dileptons => "Dileptons"
  | .photons => "Photons"
  | .initialConditions => "Initial_Conditions"
  | .rivet => "Rivet"
  | .coulomb => "Coulomb"
  | .thermodynamics => "Thermodynamics"

/-- The contents that are lists of particles — src/include/smash/experiment.h:1491-1494. -/
def Content.custom : Content → Bool
  | .particles | .collisions | .dileptons | .photons | .initialConditions => true
  | _ => false

/-- What is used of the build and of the rest of the input file. -/
structure Setup where
  /-- `SMASH_USE_ROOT` -/
  hasRoot : Bool
  /-- `SMASH_USE_HEPMC` -/
  hasHepmc : Bool
  /-- `SMASH_USE_HEPMC_ROOTIO` -/
  hasHepmcRoot : Bool
  /-- `SMASH_USE_RIVET` -/
  hasRivet : Bool
  /-- number of parallel ensembles -/
  ensembles : Nat
  /-- `IC_dynamic_` -/
  dynamicIC : Bool
  /-- the options `Extended` -/
  extended : Content → Bool
  /-- the options `Quantities`, empty if not given -/
  quantities : Content → List String
  /-- `validate_quantities` of `OutputFormatter` does not throw -/
  validQuantities : List String → Bool
  /-- the static flag of `create_output`, set if the process has created a Rivet output before -/
  rivetUsed : Bool

/-- Where an output writes: one file, or a series of files numbered by event or time. Simplification: the
members of a series are named by their common part only. -/
inductive Target where
  | file (name : String)
  | series (name : String)
  deriving DecidableEq, Repr

/-- An output object. -/
structure Output where
  content : Content
  format : String
  target : Target
  deriving DecidableEq, Repr

/-- Exceptions. -/
inductive Err where
  | invalidInput | ensembles | dynamic | unknownContent | badQuantities
  deriving DecidableEq, Repr

/-- `OutputDefaultQuantities::oscar2013` — src/include/smash/outputparameters.h:305-307. -/
def oscar2013 : List String := ["t", "x", "y", "z", "mass", "p0", "px", "py", "pz", "pdg", "ID", "charge"]

/-- `OutputDefaultQuantities::oscar2013extended` — src/include/smash/outputparameters.h:309-331. -/
def oscar2013extended : List String :=
  ["t", "x", "y", "z", "mass", "p0", "px", "py", "pz", "pdg", "ID", "charge", "ncoll", "form_time", "xsecfac",
    "proc_id_origin", "proc_type_origin", "time_last_coll", "pdg_mother1", "pdg_mother2", "baryon_number",
    "strangeness"]

/-! ### Checks of the requests -/

/-- Insertion into a `std::set<std::string>`. -/
def setInsert (x : String) : List String → List String
  | [] => [x]
  | y :: l => if x < y then x :: y :: l else if x = y then y :: l else y :: setInsert x l

/-- A `std::set<std::string>` filled from a list. -/
def toSet (l : List String) : List String := l.foldl (fun s x => setInsert x s) []

/-- `is_extended` of the checks — src/include/smash/experiment.h:1508-1510: all contents but the particles
use the option of the collisions. -/
def checkedExtended (S : Setup) (c : Content) : Bool :=
  if c = .particles then S.extended .particles else S.extended .collisions

/-- The quantities of the Oscar2013 formats in the checks — src/include/smash/experiment.h:1511-1516. -/
def sameQuantities (S : Setup) (c : Content) : Bool :=
  S.quantities c == if checkedExtended S c then oscar2013extended else oscar2013

/-- The checks of quantities — src/include/smash/experiment.h:1495-1543: `false` if the input is refused. -/
def quantitiesFit (S : Setup) (c : Content) (fs : List String) : Bool :=
  let ascii := fs.contains "ASCII"
  let binary := fs.contains "Binary"
  if (!(S.quantities c).isEmpty) != (ascii || binary) then false
  else if ascii && fs.contains "Oscar2013" && sameQuantities S c then false
  else if binary && fs.contains "Oscar2013_bin" && sameQuantities S c then false
  else true

/-- The check of one content — src/include/smash/experiment.h:1490-1580: the formats left. -/
def checkOne (S : Setup) (c : Content) (fs : List String) : Except Err (List String) :=
  if c.custom && !quantitiesFit S c fs then .error .invalidInput
  else if fs.isEmpty then .error .invalidInput
  else if fs.contains "None" then
    if fs.length > 1 then .error .invalidInput else .ok []
  else if (toSet fs).length != fs.length then .ok (toSet fs)
  else .ok fs

/-- The loop over the contents. -/
def checkAll (S : Setup) : List (Content × List String) → Except Err (List (Content × List String))
  | [] => .ok []
  | (c, fs) :: rs =>
    match checkOne S c fs with
    | .error e => .error e
    | .ok gs =>
      match checkAll S rs with
      | .error e => .error e
      | .ok l => .ok ((c, gs) :: l)

/-! ### Creation -/

/-- The base of the file names of `create_oscar_output` — src/oscaroutput.cc:929-969; `none` is the
exception. -/
def oscarName : Content → Option String
  | .particles => some "particle_lists"
  | .collisions => some "full_event_history"
  | .dileptons => some "Dileptons"
  | .photons => some "Photons"
  | .initialConditions => some "SMASH_IC"
  | _ => none

/-- The name of the file of `OscarOutput` — src/oscaroutput.cc:27-28, with the format chosen by
`create_selected_format`, oscaroutput.cc:889-915. -/
def oscarFile (name format : String) : Target :=
  .file (name ++ (if format = "ASCII" then ".dat" else ".oscar") ++ (if format = "Oscar1999" then "1999" else ""))

/-- `create_oscar_output` — src/oscaroutput.cc:918-970. -/
def createOscar (S : Setup) (c : Content) (format : String) : Except Err Target :=
  match oscarName c with
  | none => .error .unknownContent
  | some n =>
    if format = "ASCII" ∧ ¬S.validQuantities (S.quantities c) then .error .badQuantities else .ok (oscarFile n format)

/-- `get_list_of_binary_quantities` — src/binaryoutput.cc:421-465. -/
def binaryQuantities (S : Setup) (c : Content) (format : String) : List String :=
  let d := if S.extended c then oscar2013extended else oscar2013
  if format = "Oscar2013_bin" then d
  else if (S.quantities c).isEmpty then d else S.quantities c

/-- `get_binary_filename` — src/binaryoutput.cc:26-48. -/
def binaryName (c : Content) (q : List String) : String :=
  (match c with
    | .particles => "particles"
    | .collisions => "collisions"
    | .initialConditions => "SMASH_IC"
    | c => c.name) ++
  (if q = oscar2013 then "_oscar2013" else if q = oscar2013extended then "_oscar2013_extended" else "_custom") ++
  ".bin"

/-- `create_binary_output` — src/binaryoutput.cc:467-486 for the contents for which it is called. -/
def createBinary (S : Setup) (c : Content) (format : String) : Except Err Target :=
  let q := binaryQuantities S c format
  if format = "Binary" ∧ ¬(S.quantities c).isEmpty ∧ ¬S.validQuantities q then .error .badQuantities
  else .ok (.file (binaryName c q))

/-- One of the names of the HepMC formats. -/
def isHepmc (format : String) : Bool := format == "HepMC" || format == "HepMC_asciiv3" || format == "HepMC_treeroot"

/-- The HepMC branch — src/include/smash/experiment.h:808-849; `none` if only an error is logged. -/
def createHepmc (S : Setup) (c : Content) (format : String) : Option Target :=
  if S.hasHepmc then
    match c with
    | .particles =>
      if format = "HepMC_treeroot" then
        if S.hasHepmcRoot then some (.file "SMASH_HepMC_particles.root") else none
      else some (.file "SMASH_HepMC_particles.asciiv3")
    | .collisions =>
      if format = "HepMC_treeroot" then
        if S.hasHepmcRoot then some (.file "SMASH_HepMC_collisions.root") else none
      else some (.file "SMASH_HepMC_collisions.asciiv3")
    | _ => none
  else none

/-- The Rivet branch — src/include/smash/experiment.h:853-881, with the new value of the static flag. -/
def createRivet (S : Setup) (used : Bool) (format : String) : Option Target × Bool :=
  if S.hasRivet then
    if used then (none, true)
    else if format = "YODA" then (some (.file "SMASH_Rivet.yoda"), true)
    else if format = "YODA-full" then (some (.file "SMASH_Rivet_full.yoda"), true)
    else (none, false)
  else (none, used)

/-- The exceptions for several ensembles — src/include/smash/experiment.h:735-757. -/
def ensemblesRefuse (S : Setup) (c : Content) (format : String) : Bool :=
  decide (S.ensembles > 1) && (c == .initialConditions || isHepmc format || c == .rivet)

/-- `Experiment::create_output` — src/include/smash/experiment.h:730-890: the file (`none` if only an error
is logged and no output is added) and the flag of Rivet. The order of the cases is the one of the code.
Simplification: the vHLLE output is written to one file. -/
def createOutput (S : Setup) (used : Bool) (c : Content) (format : String) : Except Err (Option Target × Bool) :=
  if ensemblesRefuse S c format then .error .ensembles
  else if format = "VTK" ∧ c = .particles then .ok (some (.series "pos_ev"), used)
  else if format = "Root" then
    .ok (if S.hasRoot then some (.file ((if c = .initialConditions then "SMASH_IC" else c.name) ++ ".root")) else none, used)
  else if (format = "Binary" ∨ format = "Oscar2013_bin") ∧ c.custom then
    (createBinary S c format).map fun t => (some t, used)
  else if format = "Oscar1999" ∨ format = "Oscar2013" then (createOscar S c format).map fun t => (some t, used)
  else if format = "ASCII" ∧ c.custom then (createOscar S c format).map fun t => (some t, used)
  else if c = .thermodynamics ∧ format = "ASCII" then .ok (some (.file "thermodynamics.dat"), used)
  else if c = .thermodynamics ∧ format = "Lattice_ASCII" then .ok (some (.series "lattice.dat"), used)
  else if c = .thermodynamics ∧ format = "Lattice_Binary" then .ok (some (.series "lattice.bin"), used)
  else if c = .thermodynamics ∧ format = "VTK" then .ok (some (.series "lattice.vtk"), used)
  else if c = .initialConditions ∧ format = "For_vHLLE" then
    if S.dynamicIC then .error .dynamic else .ok (some (.file "SMASH_IC_For_vHLLE.dat"), used)
  else if isHepmc format then .ok (createHepmc S c format, used)
  else if c = .coulomb ∧ format = "VTK" then .ok (some (.series "fields.vtk"), used)
  else if c = .rivet then .ok (createRivet S used format)
  else .ok (none, used)

/-- The inner loop, src/include/smash/experiment.h:1587-1590: the outputs added so far. -/
def createFormats (S : Setup) (used : Bool) (c : Content) : List String → Except Err (List Output × Bool)
  | [] => .ok ([], used)
  | f :: fs =>
    match createOutput S used c f with
    | .error e => .error e
    | .ok (t, used') =>
      match createFormats S used' c fs with
      | .error e => .error e
      | .ok (l, u) =>
        match t with
        | none => .ok (l, u)
        | some t => .ok (⟨c, f, t⟩ :: l, u)

/-- The outer loop, src/include/smash/experiment.h:1585-1591. -/
def createAll (S : Setup) (used : Bool) : List (Content × List String) → Except Err (List Output × Bool)
  | [] => .ok ([], used)
  | (c, fs) :: rs =>
    match createFormats S used c fs with
    | .error e => .error e
    | .ok (l, u) =>
      match createAll S u rs with
      | .error e => .error e
      | .ok (l', u') => .ok (l ++ l', u')

/-- Number of requested formats. -/
def total (rs : List (Content × List String)) : Nat := (rs.map fun r => r.2.length).sum

/-- All requests — src/include/smash/experiment.h:1490-1597. -/
def request (S : Setup) (rs : List (Content × List String)) : Except Err (List Output) :=
  match checkAll S rs with
  | .error e => .error e
  | .ok qs =>
    match createAll S S.rivetUsed qs with
    | .error e => .error e
    | .ok (l, _) => if l.length != total qs then .error .invalidInput else .ok l

end Verif.Req
