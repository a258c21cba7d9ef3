import Mathlib.Data.Rat.Defs
import Mathlib.Algebra.Order.Ring.Rat
import Mathlib.Data.List.Lex
import Mathlib.Data.List.Sort
import Verif.Pdg.Model
import Verif.Text.Model
import Verif.Kin.Model
/-
Model of particletype.cc (loading the particle types and looking them up) and of the multiplets
in isoparticletype.cc.

Simplifications: a line of the particle file is taken as its words, with the two numbers already
converted (`none`: the conversion failed); masses and widths are exact numbers; log messages are
left out.  Names are lists of bytes (`Verif.Text`), PDG codes are the 32 bits of `dump_`
(`Verif.Pdg`).
-/
namespace Verif.Types
open Verif.Text (Str)

/-- What can be thrown or asserted. -/
inductive Err where
  | loadFailure | invalidPdg | mass | charge | spin | outOfRange | alreadyBuilt
  | notFound | assertion | notBuilt
  deriving DecidableEq, Repr

/-- The entries of a `ParticleType` that are read from the file, particletype.cc:122-133.
`parity` is true for `Parity::Pos`. -/
structure PType where
  (name : Str) (mass width : ℚ) (parity : Bool) (code : Nat)
  deriving DecidableEq

/-- The words of one line of the particle file, particletype.cc:205-212, 229-231. -/
structure Line where
  (name : Str) (mass width : Option ℚ) (parity : Str) (codes : List (List Char))

/-- "⁺", "⁻" and "⁰" in UTF-8. -/
def plus : Str := [0xE2, 0x81, 0xBA]
@[inherit_doc plus] def minus : Str := [0xE2, 0x81, 0xBB]
@[inherit_doc plus] def zero : Str := [0xE2, 0x81, 0xB0]
/-- "̅" in UTF-8. -/
def bar : Str := [0xCC, 0x85]

/-- `name.find(p) != npos`. -/
def has (s p : Str) : Bool := (Verif.Text.find s p).isSome

/-- `name.substr(0, name.length() - sizeof(p) + 1)`. -/
def cut (s p : Str) : Str := s.take (s.length - p.length)

/-- Which of the charge suffixes is looked for first, particletype.cc:146-164 and
isoparticletype.cc:88-100: the name without it, and the suffix of the opposite charge. -/
def splitCharge (name : Str) : Str × Str :=
  if has name (plus ++ plus) then (cut name (plus ++ plus), minus ++ minus)
  else if has name plus then (cut name plus, minus)
  else if has name (minus ++ minus) then (cut name (minus ++ minus), plus ++ plus)
  else if has name minus then (cut name minus, plus)
  else if has name zero then (cut name zero, zero)
  else (name, [])

/-- `multiplet_name`, isoparticletype.cc:87-101. -/
def multipletName (name : Str) : Str := (splitCharge name).1

/-- `utf8::sequence_length`, stringfunctions.h:121-134.  At the end of the string the
terminating zero is read. -/
def seqLen (s : Str) : Nat :=
  let lead := (s.headD 0).toNat
  if lead < 0x80 then 1
  else if lead / 2 ^ 5 = 0x6 then 2
  else if lead / 2 ^ 4 = 0xe then 3
  else if lead / 2 ^ 3 = 0x1e then 4
  else 0

/-- `is_neutrino`, pdgcode.h:378-380. -/
def isNeutrino (d : Nat) : Bool := Verif.Pdg.isLepton d && Verif.Pdg.nJ d % 2 == 0

/-- `antiname`, particletype.cc:143-174; `std::string::insert` throws behind the end. -/
def antiname (name : Str) (d : Nat) : Except Err Str :=
  let base := (splitCharge name).1
  let charge := (splitCharge name).2
  if Verif.Pdg.baryonNumber d != 0 || Verif.Pdg.strangeness d != 0 ||
      Verif.Pdg.charmness d != 0 || isNeutrino d then
    if base.length < seqLen base then .error .outOfRange
    else .ok (base.take (seqLen base) ++ bar ++ base.drop (seqLen base) ++ charge)
  else .ok (base ++ charge)

/-- `chargestr`, particletype.cc:183-198. -/
def chargestr (c : Int) : Except Err Str :=
  if c = 2 then .ok (plus ++ plus)
  else if c = 1 then .ok plus
  else if c = 0 then .ok zero
  else if c = -1 then .ok minus
  else if c = -2 then .ok (minus ++ minus)
  else .error .charge

/-- The parity word, particletype.cc:213-221. -/
def parseParity (s : Str) : Option Bool :=
  if s = [43] then some true else if s = [45] then some false else none

/-- `std::abs(code())`. -/
def absCode (d : Nat) : Nat := (Verif.Pdg.code d).natAbs

/-- The hard-coded masses, constants.h:62-96, with the predicates of pdgcode.h:404-407, 428-432,
465-480, 489-492; the order of the checks is that of particletype.cc:253-276. -/
def fixedMasses (d : Nat) : List ℚ :=
  (if absCode d = 0x2212 ∨ absCode d = 0x2112 then [0.938] else []) ++
  (if Verif.Pdg.code d = 0x111 ∨ Verif.Pdg.code d = 0x211 ∨ Verif.Pdg.code d = -0x211 then [0.138]
    else []) ++
  (if absCode d = 0x321 ∨ absCode d = 0x311 then [0.494] else []) ++
  (if Verif.Pdg.code d = 0x223 then [0.783] else []) ++
  (if absCode d = 0x2224 ∨ absCode d = 0x2214 ∨ absCode d = 0x2114 ∨ absCode d = 0x1114 then [1.232]
    else []) ++
  (if Verif.Pdg.isNucleus d ∧ Verif.Pdg.A d = 2 ∧ Verif.Pdg.Z d = 1 ∧ Verif.Pdg.nLambda d = 0 ∧
      Verif.Pdg.I d = 0 then [1.8756] else [])

/-- `almost_equal`, numerics.h:88-91. -/
def almostEqual (x y : ℚ) : Bool :=
  Verif.Kin.almostEqual (some x) (some y) Verif.Kin.reallySmall 0

/-- The check of the masses, particletype.cc:253-276. -/
def checkMass (d : Nat) (mass : ℚ) : Bool := (fixedMasses d).all fun m => almostEqual mass m

/-- The list under construction, and what was thrown. -/
abbrev Result := List PType × Option Err

/-- The name of a state, particletype.cc:280-284. -/
def fullName (name : Str) (multi : Bool) (d : Nat) : Except Err Str :=
  if multi then
    match chargestr (Verif.Pdg.charge d) with
    | .error e => .error e
    | .ok c => .ok (name ++ c)
  else .ok name

/-- The antiparticle of a state, given its code, spin and name, particletype.cc:292-294. -/
def antiFrom (t : PType) (code : Nat) (spin : Except Verif.Pdg.Err Nat) (nm : Except Err Str) :
    Except Err PType :=
  match spin with
  | .error _ => .error .spin
  | .ok s =>
    match nm with
    | .error e => .error e
    | .ok nm => .ok ⟨nm, t.mass, t.width, if s % 2 = 0 then t.parity else !t.parity, code⟩

/-- The antiparticle of a state, particletype.cc:290-294. -/
def antiType (t : PType) : Except Err PType :=
  antiFrom t (Verif.Pdg.getAntiparticle t.code) (Verif.Pdg.spin (Verif.Pdg.getAntiparticle t.code))
    (antiname t.name t.code)

/-- One state of a line, particletype.cc:279-298. -/
def addState (name : Str) (mass width : ℚ) (parity multi : Bool) (acc : List PType) (d : Nat) :
    Result :=
  match fullName name multi d with
  | .error e => (acc, some e)
  | .ok f =>
    if Verif.Pdg.hasAntiparticle d then
      match antiType ⟨f, mass, width, parity, d⟩ with
      | .error e => (acc ++ [⟨f, mass, width, parity, d⟩], some e)
      | .ok t => (acc ++ [⟨f, mass, width, parity, d⟩, t], none)
    else (acc ++ [⟨f, mass, width, parity, d⟩], none)

/-- The loop over the states of a line, particletype.cc:279-298. -/
def addStates (name : Str) (mass width : ℚ) (parity multi : Bool) : List PType → List Nat → Result
  | acc, [] => (acc, none)
  | acc, d :: ds =>
    match addState name mass width parity multi acc d with
    | (acc', none) => addStates name mass width parity multi acc' ds
    | (acc', some e) => (acc', some e)

/-- The codes of a line, particletype.cc:245-249. -/
def parseCodes : List (List Char) → Except Err (List Nat)
  | [] => .ok []
  | s :: ss =>
    match Verif.Pdg.ofString s with
    | .error _ => .error .invalidPdg
    | .ok d =>
      match parseCodes ss with
      | .error e => .error e
      | .ok ds => .ok (d :: ds)

/-- One line, particletype.cc:204-299.  (`ensure_all_read` cannot fail, since all words were
read as codes.) -/
def addLine (acc : List PType) (l : Line) : Result :=
  match l.mass, l.width, parseParity l.parity with
  | some mass, some width, some parity =>
    if l.codes = [] then (acc, some .loadFailure)
    else
      match parseCodes l.codes with
      | .error e => (acc, some e)
      | .ok ds =>
        if checkMass (ds.headD 0) mass then
          addStates l.name mass width parity (decide (1 < ds.length)) acc ds
        else (acc, some .mass)
  | _, _, _ => (acc, some .loadFailure)

/-- The loop over the lines, particletype.cc:204-299. -/
def addLines : List PType → List Line → Result
  | acc, [] => (acc, none)
  | acc, l :: ls =>
    match addLine acc l with
    | (acc', none) => addLines acc' ls
    | (acc', some e) => (acc', some e)

/-- `std::sort` with `operator<`, particletype.cc:303, particletype.h:562-564.  (Which of two
types with the same code comes first is not specified by the standard.) -/
def sortTypes (l : List PType) : List PType := l.insertionSort fun a b => a.code ≤ b.code

/-- The search for duplicates, particletype.cc:306-313; `prev` is `prev_pdg`. -/
def duplicate (prev : Nat) : List PType → Bool
  | [] => false
  | t :: ts => t.code == prev || duplicate t.code ts

/-- The loop of `std::lower_bound`: `len` elements from `first` on are left.  `fuel` bounds the
number of iterations. -/
def lowerBoundLoop {α : Type} (p : α → Bool) (l : List α) : Nat → Nat → Nat → Nat
  | 0, first, _ => first
  | fuel + 1, first, len =>
    if len = 0 then first
    else
      match l[first + len / 2]? with
      | none => first  -- not reached
      | some x =>
        if p x then lowerBoundLoop p l fuel (first + len / 2 + 1) (len - len / 2 - 1)
        else lowerBoundLoop p l fuel first (len / 2)

/-- `std::lower_bound`; as many iterations as there are elements are enough. -/
def lowerBound {α : Type} (p : α → Bool) (l : List α) : Nat := lowerBoundLoop p l l.length 0 l.length

/-- An `IsoParticleType`, isoparticletype.cc:37-39; the states are positions in the list of
types. -/
structure Iso where
  (name : Str) (mass width : ℚ) (spin : Nat) (parity : Bool) (states : List Nat)

/-- The order of `std::string`: lexicographic in the values of the (unsigned) bytes. -/
def key (s : Str) : List Nat := s.map UInt8.toNat

/-- `try_find_private`, isoparticletype.cc:44-54: a position in the list of multiplets. -/
def isoFind (isos : List Iso) (name : Str) : Option Nat :=
  let i := lowerBound (fun l => decide (key l.name < key name)) isos
  match isos[i]? with
  | none => none
  | some x => if x.name = name then some i else none

/-- `add_state`, isoparticletype.cc:136-138 (the checks only log). -/
def Iso.addState (x : Iso) (i : Nat) : Iso := { x with states := x.states ++ [i] }

/-- The sort of the multiplets, isoparticletype.cc:171-174. -/
def sortIsos (l : List Iso) : List Iso := l.insertionSort fun a b => key a.name ≤ key b.name

/-- `create_multiplet`, isoparticletype.cc:158-179, for the type at position `i`. -/
def createMultiplet (isos : List Iso) (i : Nat) (t : PType) : Except Err (List Iso) :=
  let nm := multipletName t.name
  let grown : Except Err (List Iso) :=
    match isoFind isos nm with
    | some _ => .ok isos
    | none =>
      match Verif.Pdg.spin t.code with
      | .error _ => .error .spin
      | .ok s => .ok (isos ++ [⟨nm, t.mass, t.width, s, t.parity, []⟩])
  match grown with
  | .error e => .error e
  | .ok l =>
    let l := sortIsos l
    match isoFind l nm with
    | none => .error .notFound
    | some j => .ok (l.modify j fun x => x.addState i)

/-- The loop particletype.cc:323-325, from position `i` on. -/
def createMultiplets : Nat → List Iso → List PType → Except Err (List Iso)
  | _, isos, [] => .ok isos
  | i, isos, t :: ts =>
    match createMultiplet isos i t with
    | .error e => .error e
    | .ok isos' => createMultiplets (i + 1) isos' ts

/-- The static data: the list of types (`type_list`), whether `all_particle_types` points to it,
and the multiplets. -/
structure Store where
  (types : List PType) (built : Bool) (isos : List Iso)

/-- `create_type_list`, particletype.cc:200-325 (up to the creation of the multiplets): the
static data afterwards, and what was thrown. -/
def create (lines : List Line) (st : Store) : Store × Option Err :=
  match addLines [] lines with
  | (l, some e) => ({ st with types := l }, some e)
  | (l, none) =>
    if duplicate 0 (sortTypes l) then ({ st with types := sortTypes l }, some .loadFailure)
    else if st.built then ({ st with types := sortTypes l }, some .alreadyBuilt)
    else
      match createMultiplets 0 st.isos (sortTypes l) with
      | .error e => (⟨sortTypes l, true, st.isos⟩, some e)
      | .ok isos => (⟨sortTypes l, true, isos⟩, none)

/-- At the start of the program. -/
def Store.init : Store := ⟨[], false, []⟩

/-- `ParticleType::operator&`, particletype.cc:57-67. -/
def addressOf (i : Nat) : Except Err Nat := if i < 0xffff then .ok i else .error .assertion

/-- `try_find`, particletype.cc:89-97; a valid pointer is a position. -/
def Store.tryFind (st : Store) (d : Nat) : Except Err (Option Nat) :=
  if st.built then
    let i := lowerBound (fun t => decide (t.code < d)) st.types
    match st.types[i]? with
    | none => .ok none
    | some t => if t.code = d then (addressOf i).map some else .ok none
  else .error .notBuilt

/-- `find`, particletype.cc:99-105. -/
def Store.find (st : Store) (d : Nat) : Except Err PType :=
  match st.tryFind d with
  | .error e => .error e
  | .ok none => .error .notFound
  | .ok (some i) =>
    match st.types[i]? with
    | none => .error .assertion
    | some t => .ok t

/-- `exists(PdgCode)`, particletype.cc:107-110. -/
def Store.exists (st : Store) (d : Nat) : Except Err Bool :=
  match st.tryFind d with
  | .error e => .error e
  | .ok r => .ok r.isSome

/-- `exists(std::string)`, particletype.cc:112-120. -/
def Store.existsName (st : Store) (name : Str) : Except Err Bool :=
  if st.built then .ok (st.types.any fun t => t.name == name) else .error .notBuilt

/-- `get_antiparticle`, particletype.h:763-766. -/
def Store.getAntiparticle (st : Store) (t : PType) : Except Err PType :=
  if Verif.Pdg.hasAntiparticle t.code then st.find (Verif.Pdg.getAntiparticle t.code)
  else .error .assertion

/-- `IsoParticleType::find(std::string)`, isoparticletype.cc:60-66. -/
def Store.findMultiplet (st : Store) (name : Str) : Except Err Iso :=
  match isoFind st.isos name with
  | none => .error .notFound
  | some i =>
    match st.isos[i]? with
    | none => .error .notFound
    | some x => .ok x

/-- `IsoParticleType::find_state`, isoparticletype.cc:120-130: a position in the list of types. -/
def Store.findState (st : Store) (name : Str) : Except Err Nat :=
  match st.findMultiplet (multipletName name) with
  | .error e => .error e
  | .ok x =>
    match x.states.find? fun i => decide ((st.types[i]?.map PType.name) = some name) with
    | none => .error .notFound
    | some i => .ok i

end Verif.Types
