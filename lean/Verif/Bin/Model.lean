/-!
# Particle columns, chunked writing and the binary output

Models `src/include/smash/outputformatter.h`, `src/binaryoutput.cc`,
`src/include/smash/binaryoutput.h`, and the default quantity lists of
`src/include/smash/outputparameters.h`.

Simplifications, used throughout:
* a `double` is its 64-bit pattern and an `int32_t`/`uint32_t` its 32-bit pattern, since these outputs
  only copy them; a `char` is an 8-bit pattern;
* the machine is little endian, which is what the code has on every supported platform;
* `std::fwrite` and `std::fprintf` succeed (the code does not check them);
* a file is the list of bytes written so far.
-/

namespace Verif.Bin

/-- A byte of a file. -/
abbrev Byte := BitVec 8
/-- `int32_t`, `uint32_t` as stored. -/
abbrev W32 := BitVec 32
/-- `double` as stored. -/
abbrev W64 := BitVec 64

/-! ## Little-endian storage (`std::memcpy` / `std::fwrite` of an object) -/

/-- The `k` lowest bytes of `n`, least significant first: what `fwrite(&x, k, 1, f)` emits.
binaryoutput.h:82-100, outputformatter.h:177-183 (`as_binary_data`). -/
def leBytes : Nat → Nat → List Byte
  | 0, _ => []
  | k + 1, n => BitVec.ofNat 8 n :: leBytes k (n / 256)

/-- outputformatter.h:147 `ToBinary::as_integer`, binaryoutput.h:82, 90. -/
def put32 (x : W32) : List Byte := leBytes 4 x.toNat
/-- outputformatter.h:154 `ToBinary::as_double`, binaryoutput.cc:238. -/
def put64 (x : W64) : List Byte := leBytes 8 x.toNat
/-- binaryoutput.h:98 `write(uint16_t)`. -/
def put16 (x : Nat) : List Byte := leBytes 2 x

/-! ## The particle as the output sees it -/

/-- What the getters of the formatter read from a `ParticleData`: outputformatter.h:212-345.  Each
field is the value returned by the accessor named in the comment, as stored. -/
structure PData where
  pos0 : W64            -- position()[0]
  pos1 : W64
  pos2 : W64
  pos3 : W64
  effMass : W64         -- effective_mass()
  mom0 : W64            -- momentum()[0]
  mom1 : W64
  mom2 : W64
  mom3 : W64
  pdg : W32             -- pdgcode().get_decimal()
  id : W32              -- id()
  charge : W32          -- type().charge()
  ncoll : W32           -- get_history().collisions_per_particle
  formTime : W64        -- formation_time()
  xsec : W64            -- xsec_scaling_factor()
  procId : W32          -- get_history().id_process  (uint32_t, converted to int)
  procType : W32        -- get_history().process_type
  timeLast : W64        -- get_history().time_last_collision
  mother1 : W32         -- get_history().p1.get_decimal()
  mother2 : W32         -- get_history().p2.get_decimal()
  baryon : W32          -- pdgcode().baryon_number()
  strange : W32         -- pdgcode().strangeness()
  spin0 : W64           -- spin_vector()[0]
  spin1 : W64
  spin2 : W64
  spin3 : W64
  tau : W64             -- hyperbolic_time()
  eta : W64             -- spatial_rapidity()
  mt : W64              -- transverse_mass()
  rap : W64             -- rapidity()
  pweight : W64         -- perturbative_weight()
  deriving DecidableEq, Repr

/-- Which converter a getter calls: `as_integer`, `as_double` or `as_precise_double`. -/
inductive Val where
  | int (x : W32)
  | dbl (x : W64)
  | precise (x : W64)
  deriving DecidableEq, Repr

/-- The `if`/`else if` chain of the constructor: outputformatter.h:212-345.  `none` when no branch
matches, in which case no getter is pushed. -/
def getterOf (q : String) : Option (PData → Val) :=
  if q = "t" then some fun p => .dbl p.pos0
  else if q = "x" then some fun p => .dbl p.pos1
  else if q = "y" then some fun p => .dbl p.pos2
  else if q = "z" then some fun p => .dbl p.pos3
  else if q = "mass" then some fun p => .dbl p.effMass
  else if q = "p0" then some fun p => .precise p.mom0
  else if q = "px" then some fun p => .precise p.mom1
  else if q = "py" then some fun p => .precise p.mom2
  else if q = "pz" then some fun p => .precise p.mom3
  else if q = "pdg" then some fun p => .int p.pdg
  else if q = "ID" ∨ q = "id" then some fun p => .int p.id
  else if q = "charge" then some fun p => .int p.charge
  else if q = "ncoll" then some fun p => .int p.ncoll
  else if q = "form_time" then some fun p => .dbl p.formTime
  else if q = "xsecfac" then some fun p => .dbl p.xsec
  else if q = "proc_id_origin" then some fun p => .int p.procId
  else if q = "proc_type_origin" then some fun p => .int p.procType
  else if q = "time_last_coll" then some fun p => .dbl p.timeLast
  else if q = "pdg_mother1" then some fun p => .int p.mother1
  else if q = "pdg_mother2" then some fun p => .int p.mother2
  else if q = "baryon_number" then some fun p => .int p.baryon
  else if q = "strangeness" then some fun p => .int p.strange
  else if q = "spin0" then some fun p => .dbl p.spin0
  else if q = "spinx" then some fun p => .dbl p.spin1
  else if q = "spiny" then some fun p => .dbl p.spin2
  else if q = "spinz" then some fun p => .dbl p.spin3
  else if q = "0" then some fun _ => .int 0
  else if q = "tau" then some fun p => .dbl p.tau
  else if q = "eta" ∨ q = "eta_s" then some fun p => .dbl p.eta
  else if q = "mt" then some fun p => .dbl p.mt
  else if q = "Rap" ∨ q = "y_rap" then some fun p => .dbl p.rap
  else if q = "perturbative_weight" then some fun p => .dbl p.pweight
  else none

/-- outputformatter.h:533-568 `units_`. -/
def units : List (String × String) :=
  [("t", "fm"), ("x", "fm"), ("y", "fm"), ("z", "fm"), ("mass", "GeV"), ("p0", "GeV"), ("px", "GeV"),
   ("py", "GeV"), ("pz", "GeV"), ("pdg", "none"), ("ID", "none"), ("id", "none"), ("charge", "e"),
   ("ncoll", "none"), ("form_time", "fm"), ("xsecfac", "none"), ("proc_id_origin", "none"),
   ("proc_type_origin", "none"), ("time_last_coll", "fm"), ("pdg_mother1", "none"),
   ("pdg_mother2", "none"), ("baryon_number", "none"), ("strangeness", "none"), ("0", "0"),
   ("tau", "fm"), ("eta", "none"), ("eta_s", "none"), ("mt", "GeV"), ("Rap", "none"),
   ("y_rap", "none"), ("spin0", "none"), ("spinx", "none"), ("spiny", "none"), ("spinz", "none"),
   ("perturbative_weight", "none")]

/-- outputformatter.h:571-572 `aliases_`. -/
def aliases : List (String × String) := [("ID", "id"), ("eta_s", "eta"), ("y_rap", "Rap")]

/-- The exceptions of the formatter: outputformatter.h:501-519 and 577. -/
inductive FormatErr where
  | empty | repeated | unknown | aliased
  deriving DecidableEq, Repr

/-- outputformatter.h:575-614 `validate_quantities`. -/
def validate (qs : List String) : Except FormatErr Unit :=
  if qs.isEmpty then .error .empty
  else if qs.any fun q => decide (1 < qs.count q) then .error .repeated
  else if qs.any fun q => (units.lookup q).isNone then .error .unknown
  else if aliases.any fun a => qs.contains a.1 && qs.contains a.2 then .error .aliased
  else .ok ()

/-- An `OutputFormatter`: the accepted quantities and the getters pushed for them. -/
structure Formatter where
  quantities : List String
  getters : List (PData → Val)

/-- outputformatter.h:209-347, the constructor. -/
def mkFormatter (qs : List String) : Except FormatErr Formatter := do
  validate qs
  pure ⟨qs, qs.filterMap getterOf⟩

/-! ## Converters -/

/-- A converter: how each kind of value is turned into output units, the separator between fields and
the end-of-line character.  outputformatter.h:35-185. -/
structure Converter (α : Type) where
  asInt : W32 → List α
  asDouble : W64 → List α
  asPrecise : W64 → List α
  separator : Option α
  endOfLine : Option α

/-- Conversion of one value. -/
def Converter.conv {α : Type} (c : Converter α) : Val → List α
  | .int x => c.asInt x
  | .dbl x => c.asDouble x
  | .precise x => c.asPrecise x

/-- outputformatter.h:124-184 `ToBinary`. -/
def toBinary : Converter Byte := ⟨put32, put64, put64, none, none⟩

/-- `std::to_string(int)`. -/
def decimal (x : W32) : List Char :=
  if x.toInt < 0 then '-' :: Nat.toDigits 10 x.toInt.natAbs else Nat.toDigits 10 x.toInt.natAbs

/-- outputformatter.h:35-115 `ToASCII`; `g` and `g9` are `snprintf` with `"%g"` and `"%.9g"`. -/
def toASCII (g g9 : W64 → List Char) : Converter Char := ⟨decimal, g, g9, some ' ', some '\n'⟩

/-- The fields of one particle with a separator before each but the first: the loop of
outputformatter.h:630-638. -/
def fields {α : Type} (c : Converter α) (p : PData) : List (PData → Val) → List α
  | [] => []
  | [g] => c.conv (g p)
  | g :: gs => c.conv (g p) ++ c.separator.toList ++ fields c p gs

/-- outputformatter.h:628-642 `append_to_buffer` and 392-396 `single_particle_data`. -/
def particleLine {α : Type} (c : Converter α) (f : Formatter) (p : PData) : List α :=
  fields c p f.getters ++ c.endOfLine.toList

/-- outputformatter.h:362-382 `compute_single_size`. -/
def singleSize {α : Type} (c : Converter α) (f : Formatter) (p : PData) : Nat :=
  if f.getters.length = 0 then 0
  else (f.getters.map fun g => (c.conv (g p)).length).sum
    + (if c.separator.isSome then f.getters.length - 1 else 0)
    + (if c.endOfLine.isSome then 1 else 0)

/-- outputformatter.h:424-435 `particles_data_chunk`. -/
def dataChunk {α : Type} (c : Converter α) (f : Formatter) (ps : List PData) : List α :=
  ps.flatMap (particleLine c f)

/-- outputformatter.h:446-495 `quantities_line` and `unit_line`: strings joined by the separator, which
is written when something was written before. -/
def nameLine {α : Type} (sep eol : Option α) (names : List (List α)) : List α :=
  (names.foldl (fun out n => (if out.isEmpty then out else out ++ sep.toList) ++ n) []) ++ eol.toList

/-- outputformatter.h:446-465 `quantities_line` for text. -/
def quantitiesLine (f : Formatter) : List Char :=
  nameLine (some ' ') (some '\n') (f.quantities.map String.toList)

/-- outputformatter.h:476-495 `unit_line` for text; `units_.at` throws when the key is missing. -/
def unitLine (f : Formatter) : Option (List Char) := do
  let us ← f.quantities.mapM fun q => units.lookup q
  pure (nameLine (some ' ') (some '\n') (us.map String.toList))

/-! ## Chunked writing -/

/-- The loop of outputformatter.h:725-742 over the particle lines: the calls of `write` made, given
the buffer collected so far. -/
def chunkLoop {α : Type} (max : Nat) : List (List α) → List α → List (List α)
  | [], buffer => if buffer.isEmpty then [] else [buffer]
  | line :: rest, buffer =>
    if buffer.length + line.length > max then buffer :: chunkLoop max rest line
    else chunkLoop max rest (buffer ++ line)

/-- outputformatter.h:694-743 `write_in_chunk_impl`: the list of `write` calls, or the exception
raised when a line is more than half of the buffer (line 707). -/
def writeInChunk {α : Type} (c : Converter α) (f : Formatter) (max : Nat) (ps : List PData) :
    Option (List (List α)) :=
  match ps with
  | [] => some []
  | p :: _ =>
    if 2 * singleSize c f p > max then none
    else if ps.length * singleSize c f p ≤ max then some [dataChunk c f ps]
    else some (chunkLoop max (ps.map (particleLine c f)) [])

/-- outputformatter.h:698, the default buffer size. -/
def maxBuffer : Nat := 1000000000

/-! ## Default quantity lists -/

/-- outputparameters.h:305-307. -/
def oscar2013 : List String :=
  ["t", "x", "y", "z", "mass", "p0", "px", "py", "pz", "pdg", "ID", "charge"]

/-- outputparameters.h:309-331. -/
def oscar2013extended : List String :=
  ["t", "x", "y", "z", "mass", "p0", "px", "py", "pz", "pdg", "ID", "charge", "ncoll", "form_time",
   "xsecfac", "proc_id_origin", "proc_type_origin", "time_last_coll", "pdg_mother1", "pdg_mother2",
   "baryon_number", "strangeness"]

/-- outputparameters.h:333-334. -/
def oscar1999 : List String := ["id", "pdg", "0", "px", "py", "pz", "p0", "mass", "x", "y", "z", "t"]

/-- outputparameters.h:336-338. -/
def vHLLE : List String :=
  ["tau", "x", "y", "eta", "mt", "px", "py", "Rap", "pdg", "charge", "baryon_number", "strangeness"]

/-! ## The binary outputs -/

/-- outputparameters.h / experiment.h `OutputOnlyFinal`. -/
inductive OnlyFinal where
  | yes | no | ifNotEmpty
  deriving DecidableEq, Repr

/-- Which of the three binary outputs is open: binaryoutput.cc:266-287, 325-335, 385-390. -/
inductive Kind where
  | collisions (printStartEnd : Bool)
  | particles (only : OnlyFinal)
  | initialConditions
  deriving DecidableEq, Repr

/-- The calls an output receives (outputinterface.h:131, 166, 183, 197). -/
inductive Call where
  | eventStart (ps : List PData) (event ensemble : W32)
  | intermediate (ps : List PData) (event ensemble : W32)
  | eventEnd (ps : List PData) (event ensemble : W32) (impact : W64) (emptyEvent : Bool)
  | interaction (inc out : List PData) (density weight partialWeight : W64) (type : W32)

/-- What happened in a call: the bytes appended to the file, and whether an exception left the call
before its end. -/
structure Written where
  bytes : List Byte
  threw : Bool
  deriving DecidableEq, Repr

/-- Sequencing: nothing is written after an exception. -/
def Written.andThen (a b : Written) : Written :=
  if a.threw then a else ⟨a.bytes ++ b.bytes, b.threw⟩

/-- Bytes written without an exception. -/
def raw (b : List Byte) : Written := ⟨b, false⟩

/-- binaryoutput.h:106 `write(size_t)`: `numeric_cast<uint32_t>` throws when the value does not fit. -/
def putSize (n : Nat) : Written :=
  if n < 2 ^ 32 then raw (leBytes 4 n) else ⟨[], true⟩

/-- binaryoutput.cc:247-258 `write(particles)`. -/
def putParticles (f : Formatter) (ps : List PData) : Written :=
  match writeInChunk toBinary f maxBuffer ps with
  | none => ⟨[], true⟩
  | some chunks => raw chunks.flatten

/-- A `char` literal. -/
def chr (c : Char) : List Byte := [BitVec.ofNat 8 c.toNat]

/-- The `'p'` block: binaryoutput.cc:279-286, 293-298, 341-346, 356-361, 379-384. -/
def putBlock (f : Formatter) (ps : List PData) (event ensemble : W32) : Written :=
  (raw (chr 'p' ++ put32 event ++ put32 ensemble)).andThen
    ((putSize ps.length).andThen (putParticles f ps))

/-- The event end line: binaryoutput.cc:300-306, 363-371, 404-411. -/
def putEnd (event ensemble : W32) (impact : W64) (emptyEvent : Bool) : Written :=
  raw (chr 'f' ++ put32 event ++ put32 ensemble ++ put64 impact ++ [if emptyEvent then 1 else 0])

/-- binaryoutput.cc:308-323 `BinaryOutputCollisions::at_interaction`. -/
def putInteraction (f : Formatter) (inc out : List PData) (density weight partialWeight : W64)
    (type : W32) : Written :=
  (raw (chr 'i')).andThen <| (putSize inc.length).andThen <| (putSize out.length).andThen <|
    (raw (put64 density ++ put64 weight ++ put64 partialWeight ++ put32 type)).andThen <|
      (putParticles f inc).andThen (putParticles f out)

/-- `ProcessType::Fluidization` (processbranch.h:61) and `FluidizationNoRemoval` (63). -/
def fluidization : W32 := 8
/-- See `fluidization`. -/
def fluidizationNoRemoval : W32 := 21

/-- The three outputs' reactions to each call.  Calls an output does not override do nothing
(outputinterface.h:131-200).  binaryoutput.cc:275-323, 336-385, 392-420. -/
def emit (k : Kind) (f : Formatter) : Call → Written
  | .eventStart ps ev en =>
    match k with
    | .collisions true => putBlock f ps ev en
    | .particles .no => putBlock f ps ev en
    | _ => raw []
  | .intermediate ps ev en =>
    match k with
    | .particles .no => putBlock f ps ev en
    | _ => raw []
  | .eventEnd ps ev en b e =>
    match k with
    | .collisions true => (putBlock f ps ev en).andThen (putEnd ev en b e)
    | .collisions false => putEnd ev en b e
    | .particles o =>
      if !(e && decide (o = .ifNotEmpty)) then (putBlock f ps ev en).andThen (putEnd ev en b e)
      else putEnd ev en b e
    | .initialConditions => putEnd ev en b e
  | .interaction inc out d w pw ty =>
    match k with
    | .collisions _ => putInteraction f inc out d w pw ty
    | .particles _ => raw []
    | .initialConditions =>
      if ty = fluidization ∨ ty = fluidizationNoRemoval then
        (raw (chr 'p')).andThen ((putSize inc.length).andThen (putParticles f inc))
      else raw []

/-- The file header: binaryoutput.cc:202-224.  `version` is `SMASH_VERSION`; format version 10
(binaryoutput.h:131), format variant 0, 1 or 2 (lines 213-220). -/
def header (qs : List String) (version : List Byte) : Written :=
  (raw ((chr 'S' ++ chr 'M' ++ chr 'S' ++ chr 'H') ++ put16 10 ++
    put16 (if qs = oscar2013 then 0 else if qs = oscar2013extended then 1 else 2))).andThen
    ((putSize version.length).andThen (raw version))

/-- A whole run: the header written by the constructor, then the calls in order. -/
def writeFile (k : Kind) (f : Formatter) (version : List Byte) (calls : List Call) : Written :=
  calls.foldl (fun w c => w.andThen (emit k f c)) (header f.quantities version)

end Verif.Bin
