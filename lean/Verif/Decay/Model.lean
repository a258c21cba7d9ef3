import Mathlib.Data.Rat.Defs
import Mathlib.Algebra.Order.Ring.Rat
import Mathlib.Data.List.Sort
/-
Model of decaymodes.cc (loading and normalising decay modes), of the comparison functions of
decaytype.cc it uses, and of what it asks the particle tables.

Branching ratios are exact rational numbers. Particle types are numbered by their position in the
list of all types; a `ParticleTypePtr` is this number. The tables (`World`) are arbitrary.
-/
namespace Verif.Decay

/-- What decaymodes.cc reads from a `ParticleType` (particletype.h:90-220): charge, doubled spin,
parity (`true` is positive), stability, pole mass, minimal mass and the antiparticle's type. -/
structure TInfo where
  (charge spin : Int) (parity stable : Bool) (mass minMass : ℚ) (anti : Option Nat)

/-- What decaymodes.cc reads from an `IsoParticleType` (isoparticletype.h:40-160). `hasAnti` is
`has_anti_multiplet()`, `hadron` is `get_states()[0]->is_hadron()`. -/
structure MInfo where
  (states : List Nat) (spin : Int) (parity hasAnti hadron : Bool)

/-- The particle tables: the number of types, the types, the multiplets, the look-up of names
(`IsoParticleType::try_find`, `ParticleType::exists`, `IsoParticleType::find_state`), the
comparison with lepton pairs (`is_dilepton`, `has_lepton_pair`, pdgcode.h:1185-1202) and the squared
isospin Clebsch-Gordan coefficients (clebschgordan.h). -/
structure World where
  (n : Nat) (T : Nat → TInfo) (M : Nat → MInfo)
  (findMult : String → Option Nat) (exists' : String → Bool) (findState : String → Option Nat)
  (leptonPair : List Nat → Bool)
  (cg2 : Nat → Nat → Nat → ℚ) (cg3 : Nat → Nat → Nat → Nat → ℚ)

/-- Ways in which loading ends. `ub` is undefined behaviour, `nan` means that a weight becomes
not-a-number (0/0). -/
inductive Err where
  | invalidDecay | loadFailure | missingDecays | notFound | runtime | ub | nan
  deriving DecidableEq, Repr

/-- A `DecayType`, decaytype.h:25-60: the mother it is restricted to (only
`ThreeBodyDecayDilepton`), the daughters and the angular momentum. -/
structure DType where
  (mother : Option Nat) (parts : List Nat) (L : Int)
  deriving DecidableEq, Repr

/-- A `DecayBranch`: the decay type (as position in the list of all decay types) and the weight. -/
structure Mode where
  (ty : Nat) (w : ℚ)
  deriving DecidableEq, Repr

/-- `std::sort` of the particle types. -/
def sortL (l : List Nat) : List Nat := l.mergeSort (fun a b => decide (a ≤ b))

/-- `has_particles` of two- and three-body decays, decaytype.cc:62-68, 285-293. -/
def hasParticles (stored l : List Nat) : Bool :=
  match stored with
  | [a, b] => match l with
    | [c, d] => (a == c && b == d) || (a == d && b == c)
    | _ => false
  | [a, b, c] => if l.length == 3 then sortL l == [a, b, c] else false
  | _ => false

/-- The condition of the search in `get_decay_type`, decaymodes.cc:51-52; `has_mother`:
decaytype.h:54-56, decaytype.cc:333-335. -/
def DType.matches (t : DType) (mother : Nat) (parts : List Nat) (L : Int) : Bool :=
  (t.mother == none || t.mother == some mother) && hasParticles t.parts parts && t.L == L

/-- The decay type created by `get_decay_type`, decaymodes.cc:58-92. The classes of two-body decays
differ only in their widths, which are not modelled. Three-body decays sort their daughters
(decaytype.cc:270-282). -/
def newType (W : World) (mother : Nat) (parts : List Nat) (L : Int) : Except Err DType :=
  if parts.length = 2 then .ok ⟨none, parts, L⟩
  else if parts.length = 3 then
    if W.leptonPair parts then .ok ⟨some mother, sortL parts, L⟩ else .ok ⟨none, sortL parts, L⟩
  else .error .invalidDecay

/-- `get_decay_type`, decaymodes.cc:44-96: the list of all decay types afterwards and the position
of the type. -/
def getDecayType (W : World) (types : List DType) (mother : Nat) (parts : List Nat) (L : Int) :
    Except Err (List DType × Nat) :=
  match types.findIdx? (fun t => t.matches mother parts L) with
  | some i => .ok (types, i)
  | none => do
    let t ← newType W mother parts L
    .ok (types ++ [t], types.length)

/-- The loop of `add_mode`, decaymodes.cc:33-40. -/
def addToModes (ty : Nat) (r : ℚ) : List Mode → List Mode
  | [] => [⟨ty, r⟩]
  | m :: ms => if m.ty = ty then ⟨m.ty, m.w + r⟩ :: ms else m :: addToModes ty r ms

/-- The decay types and the decay modes of every particle type (`all_decay_types` and a table of
`DecayModes`). -/
structure DB where
  (types : List DType) (modes : Nat → List Mode)

/-- `add_mode(mother, ratio, L, particle_types)` on the `DecayModes` of `mother`,
decaymodes.cc:29-41. -/
def addMode (W : World) (db : DB) (mother : Nat) (r : ℚ) (L : Int) (parts : List Nat) :
    Except Err DB := do
  let (types, i) ← getDecayType W db.types mother parts L
  .ok ⟨types, fun k => if k = mother then addToModes i r (db.modes k) else db.modes k⟩

/-- `really_small`, constants.h:41. -/
def reallySmall : ℚ := 1 / 1000000

/-- Sum of the weights. -/
def sumW (ms : List Mode) : ℚ := (ms.map Mode.w).sum

/-- `renormalize`, decaymodes.cc:98-120: new modes and the return value. -/
def renormalize (ms : List Mode) : Except Err (List Mode × Bool) :=
  let sum := sumW ms
  if |sum - 1| < reallySmall then .ok (ms, false)
  else if sum = 0 ∧ ms ≠ [] then .error .nan
  else .ok (ms.map fun m => ⟨m.ty, m.w / sum⟩, decide (|sum - 1| > 1 / 100))

/-- `min_angular_momentum` for two daughters, decaymodes.cc:137-145 (doubled spins); `none`:
exception. -/
def minL2 (s0 s1 s2 : Int) : Option Int :=
  let m := min |s0 - s1 - s2| |s0 - s1 + s2|
  let m := min m |s0 + s1 - s2|
  if m % 2 ≠ 0 then none else some (m / 2)

/-- `min_angular_momentum` for three daughters, decaymodes.cc:147-161. -/
def minL3 (s0 s1 s2 s3 : Int) : Option Int :=
  let m := min |s0 - s1 + s2 + s3| |s0 + s1 - s2 + s3|
  let m := min m |s0 + s1 + s2 - s3|
  let m := min m |s0 - s1 - s2 + s3|
  let m := min m |s0 - s1 + s2 - s3|
  let m := min m |s0 + s1 - s2 - s3|
  let m := min m |s0 - s1 - s2 - s3|
  if m % 2 ≠ 0 then none else some (m / 2)

/-- State while reading the file: decay types, finished modes (`decaymodes`), the current mother
multiplet, the modes being read (`decay_modes_to_add`, here by type instead of by position in the
multiplet). -/
structure St where
  (types : List DType) (done : Nat → List Mode) (mother : Option Nat) (pending : Nat → List Mode)

/-- A line of the file after splitting into words (the splitting and the number conversions are not
modelled): a section header or a decay mode. -/
inductive Line where
  | section (name : String)
  | mode (ratio : ℚ) (L : Int) (daughters : List String)

/-- First part of `end_of_decaymodes`, decaymodes.cc:189-201, for one state of the multiplet. -/
def finishState (W : World) (pending : Nat → List Mode) (done : Nat → List Mode) (s : Nat) :
    Except Err (Nat → List Mode) := do
  if (pending s).isEmpty && !(W.T s).stable then throw .missingDecays
  let (ms, _) ← renormalize (pending s)
  .ok fun k => if k = s then ms else done k

/-- Charge conjugation of the daughters, decaymodes.cc:213-218. -/
def conjugate (W : World) (parts : List Nat) : List Nat :=
  parts.map fun p => (W.T p).anti.getD p

/-- Modes of one state of the anti-multiplet, decaymodes.cc:206-222. -/
def antiState (W : World) (db : DB) (s : Nat) : Except Err DB :=
  match (W.T s).anti with
  | none => .error .notFound
  | some a =>
    (db.modes s).foldlM (init := db) fun db m =>
      match db.types[m.ty]? with
      | none => .error .ub
      | some t => addMode W db a m.w t.L (conjugate W t.parts)

/-- `end_of_decaymodes`, decaymodes.cc:183-225. -/
def endOfDecaymodes (W : World) (st : St) : Except Err St :=
  match st.mother with
  | none => .ok st
  | some M => do
    let done ← (W.M M).states.foldlM (finishState W st.pending) st.done
    if (W.M M).hasAnti then
      let db ← (W.M M).states.foldlM (antiState W) ⟨st.types, done⟩
      .ok { st with types := db.types, done := db.modes }
    else .ok { st with done := done }

/-- Header line, decaymodes.cc:235-251. -/
def sectionLine (W : World) (st : St) (name : String) : Except Err St := do
  let st ← endOfDecaymodes W st
  match W.findMult name with
  | none => .error .notFound
  | some M =>
    if (W.M M).states.any fun s => !(st.done s).isEmpty then .error .loadFailure
    else .ok { st with mother := some M, pending := fun _ => [] }

/-- One application of `add_mode` on `decay_modes_to_add`. -/
def addPending (W : World) (st : St) (s : Nat) (r : ℚ) (L : Int) (parts : List Nat) :
    Except Err St := do
  let db ← addMode W ⟨st.types, st.pending⟩ s r L parts
  .ok { st with types := db.types, pending := db.modes }

/-- The combinations of the multiplet branch, in the order of the loops, decaymodes.cc:304-306 and
350-354: mother state, daughters, squared coefficient. -/
def combos (W : World) (M : Nat) (ds : List Nat) : List (Nat × List Nat × ℚ) :=
  match ds with
  | [d1, d2] => (W.M M).states.flatMap fun m => (W.M d1).states.flatMap fun a =>
      (W.M d2).states.map fun b => (m, [a, b], W.cg2 a b m)
  | [d1, d2, d3] => (W.M M).states.flatMap fun m => (W.M d1).states.flatMap fun a =>
      (W.M d2).states.flatMap fun b => (W.M d3).states.map fun c => (m, [a, b, c], W.cg3 a b c m)
  | _ => []

/-- Adding the combinations with positive coefficient. -/
def addCombos (W : World) (ratio : ℚ) (L : Int) (st : St) (cs : List (Nat × List Nat × ℚ)) :
    Except Err St :=
  (cs.filter fun c => decide (0 < c.2.2)).foldlM (init := st) fun st c =>
    addPending W st c.1 (ratio * c.2.2) L c.2.1

/-- Result of reading the daughters of a mode line: the state, the product of the parities and the
limits of L. -/
structure Read where
  (st : St) (parity : Bool) (minL maxL : Int)

/-- Product of parities (`Parity::operator*`, particletype.h:63-82). -/
def parityProd (l : List Bool) : Bool := l.foldl (fun a b => a == b) true

/-- Multiplet branch, decaymodes.cc:291-378. Note `s3` of the three-body case, line 346. -/
def multiBranch (W : World) (st : St) (M : Nat) (ratio : ℚ) (L : Int) (ds : List Nat) :
    Except Err Read :=
  let s0 := (W.M M).spin
  match ds with
  | [d1, d2] =>
    let s1 := (W.M d1).spin
    let s2 := (W.M d2).spin
    match minL2 s0 s1 s2 with
    | none => .error .runtime
    | some minL =>
      if (combos W M ds).all fun c => !decide (0 < c.2.2) then .error .invalidDecay
      else do
        let st ← addCombos W ratio L st (combos W M ds)
        .ok ⟨st, parityProd [(W.M d1).parity, (W.M d2).parity], minL, (s0 + s1 + s2) / 2⟩
  | [d1, d2, d3] =>
    let s1 := (W.M d1).spin
    let s2 := (W.M d2).spin
    let s3 := (W.M d2).spin
    match minL3 s0 s1 s2 s3 with
    | none => .error .runtime
    | some minL => do
      let st ← addCombos W ratio L st (combos W M ds)
      .ok ⟨st, parityProd [(W.M d1).parity, (W.M d2).parity, (W.M d3).parity], minL,
        (s0 + s1 + s2 + s3) / 2⟩
  | _ => .error .runtime

/-- Limits of L for given daughter states, decaymodes.cc:395-413. -/
def stateLimits (W : World) (s0 : Int) (ts : List Nat) : Except Err (Int × Int) :=
  match ts with
  | [a, b] =>
    match minL2 s0 (W.T a).spin (W.T b).spin with
    | none => .error .runtime
    | some m => .ok (m, (s0 + (W.T a).spin + (W.T b).spin) / 2)
  | [a, b, c] =>
    match minL3 s0 (W.T a).spin (W.T b).spin (W.T c).spin with
    | none => .error .runtime
    | some m => .ok (m, (s0 + (W.T a).spin + (W.T b).spin + (W.T c).spin) / 2)
  | _ => .error .invalidDecay

/-- Branch with specific states, decaymodes.cc:379-433. -/
def stateBranch (W : World) (st : St) (M : Nat) (ratio : ℚ) (L : Int) (ds : List String) :
    Except Err Read := do
  match ds.mapM W.findState with
  | none => .error .runtime
  | some ts =>
    let charge := (ts.map fun t => (W.T t).charge).sum
    let (lo, hi) ← stateLimits W (W.M M).spin ts
    let ms := (W.M M).states.filter fun m => (W.T m).charge == charge
    if ms.isEmpty then .error .invalidDecay
    else
      let st ← ms.foldlM (init := st) fun st m => addPending W st m ratio L ts
      .ok ⟨st, parityProd (ts.map fun t => (W.T t).parity), lo, hi⟩

/-- Checks after adding, decaymodes.cc:434-458; `motherParity` is the parity of the first state. -/
def finalChecks (n : Nat) (motherParity : Bool) (L : Int) (r : Read) : Except Err St :=
  let parity := if L % 2 = 1 then !r.parity else r.parity
  if n = 2 ∧ parity ≠ motherParity then .error .invalidDecay
  else if L < r.minL ∨ L > r.maxL then .error .invalidDecay
  else .ok r.st

/-- A mode line, decaymodes.cc:252-458. -/
def modeLine (W : World) (st : St) (ratio : ℚ) (L : Int) (ds : List String) : Except Err St := do
  if L < 0 then throw .loadFailure
  if ds.any fun d => (W.findMult d).isNone && !W.exists' d then throw .invalidDecay
  match st.mother with
  | none => .error .ub
  | some M =>
    let multi := ds.all fun d => match W.findMult d with
      | some k => (W.M k).hadron
      | none => false
    let r ← if multi then multiBranch W st M ratio L (ds.filterMap W.findMult)
      else stateBranch W st M ratio L ds
    match (W.M M).states with
    | [] => .error .ub
    | m0 :: _ => finalChecks ds.length (W.T m0).parity L r

/-- One line. -/
def lineStep (W : World) (st : St) : Line → Except Err St
  | .section name => sectionLine W st name
  | .mode r L ds => modeLine W st r L ds

/-- `threshold()`, decaytype.h / processbranch.h: sum of the minimal masses of the daughters. -/
def threshold (W : World) (parts : List Nat) : ℚ := (parts.map fun p => (W.T p).minMass).sum

/-- The check of the masses, decaymodes.cc:463-489. -/
def massCheck (W : World) (db : DB) : Bool :=
  (List.range W.n).all fun m => (W.T m).stable || (db.modes m).all fun d =>
    match db.types[d.ty]? with
    | none => false
    | some t => decide (threshold W t.parts < (W.T m).mass)

/-- The initial state, decaymodes.cc:166-181. -/
def St.init : St := ⟨[], fun _ => [], none, fun _ => []⟩

/-- `load_decaymodes`, decaymodes.cc:163-495. -/
def load (W : World) (lines : List Line) : Except Err DB := do
  let st ← lines.foldlM (lineStep W) St.init
  let st ← endOfDecaymodes W st
  if massCheck W ⟨st.types, st.done⟩ then .ok ⟨st.types, st.done⟩ else .error .invalidDecay

end Verif.Decay
