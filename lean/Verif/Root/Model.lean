import Verif.Bin.Model
import Mathlib.Logic.Function.Basic
import Mathlib.Data.Nat.Notation
import Mathlib.Data.Int.Notation

/-!
Model of the ROOT output (`RootOutput`, rootoutput.cc and rootoutput.h).

Simplifications: a tree of ROOT is a list of entries, an entry is the list of its branches with their values at the time of `Fill`; the
library itself, compression and the renaming of the file at the end are not modelled. Integers are unbounded. The size of the buffer is a
parameter `B`; in the program it is 500000.
-/

namespace Verif.Root

open Verif.Bin (W64)

/-- Values of variables. -/
inductive Val where
  | int (n : ℤ)
  | dbl (x : W64)
  | bool (b : Bool)
  deriving DecidableEq

/-- The scalar members, rootoutput.h:157-165, 181-183, 192-195. -/
inductive SVar where
  | ev | ens | tcounter | npart | testP | modusL | currentT | impactB | emptyEvent | eKin | eField | eTot | nin | nout | wgt | parWgt
  deriving DecidableEq

/-- The array members, rootoutput.h:166-180, 184-191. -/
inductive AVar where
  | id | pdg | charge | formation | lastColl | p0 | px | py | pz | t | x | y | z
  | ncoll | xsec | procId | procType | mother1 | mother2 | baryon | strange
  deriving DecidableEq

/-- What the output takes from a particle. -/
structure RPart where
  id : ℤ
  pdg : ℤ
  charge : ℤ
  formation : W64
  lastColl : W64
  mom : W64 × W64 × W64 × W64
  pos : W64 × W64 × W64 × W64
  ncoll : ℤ
  xsec : W64
  procId : ℤ
  procType : ℤ
  mother1 : ℤ
  mother2 : ℤ
  baryon : ℤ
  strange : ℤ

/-- The members which are written to trees. -/
structure Mem where
  s : SVar → Val
  a : AVar → ℕ → Val

/-- A branch: name and variable. -/
inductive Branch where
  | one (name : String) (v : SVar)
  | many (name : String) (v : AVar)

/-- A value of a branch in an entry. -/
inductive Leaf where
  | one (v : Val)
  | many (l : List Val)
  deriving DecidableEq

/-- An entry of a tree. -/
abbrev Entry := List (String × Leaf)

/-- The branches of the extended output, rootoutput.cc:323-336, 371-384. -/
def extBranches : List Branch :=
  [.many "ncoll" .ncoll, .many "xsecfac" .xsec, .many "proc_id_origin" .procId, .many "proc_type_origin" .procType,
    .many "pdg_mother1" .mother1, .many "pdg_mother2" .mother2, .many "baryon_number" .baryon, .many "strangeness" .strange]

/-- The branches of every particle, rootoutput.cc:299-315, 352-368. -/
def partBranches : List Branch :=
  [.many "id" .id, .many "pdgcode" .pdg, .many "charge" .charge, .many "formation_time" .formation, .many "time_last_collision" .lastColl,
    .many "p0" .p0, .many "px" .px, .many "py" .py, .many "pz" .pz, .many "t" .t, .many "x" .x, .many "y" .y, .many "z" .z]

/-- The branches of the tree of the particles, `init_trees`, rootoutput.cc:286-338. -/
def particleBranches (ext : Bool) : List Branch :=
  [.one "ev" .ev, .one "ens" .ens, .one "tcounter" .tcounter, .one "npart" .npart, .one "test_p" .testP, .one "modus_l" .modusL,
    .one "current_t" .currentT, .one "impact_b" .impactB, .one "empty_event" .emptyEvent] ++ partBranches ++
  [.one "E_kinetic_tot" .eKin, .one "E_fields_tot" .eField, .one "E_tot" .eTot] ++ (if ext then extBranches else [])

/-- The branches of the tree of the collisions, `init_trees`, rootoutput.cc:340-386. -/
def collisionBranches (ext : Bool) : List Branch :=
  [.one "ev" .ev, .one "ens" .ens, .one "nin" .nin, .one "nout" .nout, .one "npart" .npart, .one "weight" .wgt,
    .one "partial_weight" .parWgt] ++ partBranches ++ (if ext then extBranches else [])

/-- The length of the arrays as ROOT sees it: the value of `npart`. -/
def count (m : Mem) : ℕ := match m.s .npart with
  | .int n => n.toNat
  | _ => 0

/-- The value of a branch. -/
def Branch.read (m : Mem) : Branch → String × Leaf
  | .one n v => (n, .one (m.s v))
  | .many n v => (n, .many ((List.range (count m)).map (m.a v)))

/-- `TTree::Fill`: one more entry with the values of all branches. -/
def fill (bs : List Branch) (m : Mem) : Entry := bs.map (Branch.read m)

/-- The value of a particle for an array, rootoutput.cc:527-553, 586-612. -/
def RPart.field (p : RPart) : AVar → Val
  | .id => .int p.id
  | .pdg => .int p.pdg
  | .charge => .int p.charge
  | .formation => .dbl p.formation
  | .lastColl => .dbl p.lastColl
  | .p0 => .dbl p.mom.1
  | .px => .dbl p.mom.2.1
  | .py => .dbl p.mom.2.2.1
  | .pz => .dbl p.mom.2.2.2
  | .t => .dbl p.pos.1
  | .x => .dbl p.pos.2.1
  | .y => .dbl p.pos.2.2.1
  | .z => .dbl p.pos.2.2.2
  | .ncoll => .int p.ncoll
  | .xsec => .dbl p.xsec
  | .procId => .int p.procId
  | .procType => .int p.procType
  | .mother1 => .int p.mother1
  | .mother2 => .int p.mother2
  | .baryon => .int p.baryon
  | .strange => .int p.strange

/-- The arrays which are only filled in the extended output. -/
def AVar.isExt : AVar → Bool
  | .ncoll | .xsec | .procId | .procType | .mother1 | .mother2 | .baryon | .strange => true
  | _ => false

/-- Writing of a particle to place `i` of the arrays, rootoutput.cc:527-555, 586-614. -/
def put (ext : Bool) (m : Mem) (i : ℕ) (p : RPart) : Mem :=
  { m with a := fun v => if v.isExt && !ext then m.a v else Function.update (m.a v) i (p.field v) }

/-- Assignment to a scalar. -/
def Mem.set (m : Mem) (v : SVar) (x : Val) : Mem := { m with s := Function.update m.s v x }

/-- The loop of `particles_to_tree`, rootoutput.cc:508-557. -/
def fillLoop (B : ℕ) (ext : Bool) : List RPart → ℕ → Mem → List Entry → ℕ × Mem × List Entry
  | [], i, m, t => (i, m, t)
  | p :: ps, i, m, t =>
    if B ≤ i then
      let m' := m.set .npart (.int B)
      fillLoop B ext ps 0 m' (t ++ [fill (particleBranches ext) m'])
    else fillLoop B ext ps (i + 1) (put ext m i p) t

/-- What the output is for, by its name, rootoutput.cc:270-273. -/
inductive Kind where
  | collisions
  | particles
  | initial
  deriving DecidableEq

/-- The option of final particles. -/
inductive OnlyFinal where
  | yes | no | ifNotEmpty
  deriving DecidableEq

/-- Options, rootoutput.cc:270-277. -/
structure Opts where
  kind : Kind
  only : OnlyFinal
  partExt : Bool
  collExt : Bool
  icExt : Bool

/-- What the output takes from `EventInfo`, outputinterface.h:38-59. -/
structure Info where
  impact : W64
  length : W64
  time : W64
  eKin : W64
  eField : W64
  eTot : W64
  testP : ℤ
  nEns : ℕ
  empty : Bool

/-- The state: counters, members, trees, and the parts of the trees which have been saved to disk. -/
structure St where
  counter : ℕ
  event : ℕ
  ens : ℕ
  mem : Mem
  freq : Option ℕ
  ptree : List Entry
  ctree : List Entry
  psaved : List Entry
  csaved : List Entry

/-- The object after construction, rootoutput.h:138-195, 209. -/
def St.init : St :=
  ⟨0, 0, 0, ⟨fun v => match v with
    | .modusL | .currentT | .impactB | .eKin | .eField | .eTot | .wgt | .parWgt => .dbl 0
    | .emptyEvent => .bool false
    | _ => .int 0, fun _ _ => .int 0⟩, none, [], [], [], []⟩

/-- `particles_to_tree`, rootoutput.cc:499-563. -/
def particlesToTree (B : ℕ) (o : Opts) (st : St) (ps : List RPart) : St :=
  let ext := o.partExt || o.icExt
  let m := ((st.mem.set .ev (.int st.event)).set .ens (.int st.ens)).set .tcounter (.int st.counter)
  let r := fillLoop B ext ps 0 m st.ptree
  if 0 < r.1 then
    let m' := r.2.1.set .npart (.int r.1)
    { st with mem := m', ptree := r.2.2 ++ [fill (particleBranches ext) m'] }
  else { st with mem := r.2.1, ptree := r.2.2 }

/-- Undefined outcomes. -/
inductive Err where
  | outOfBuffer
  deriving DecidableEq

/-- The loop of `collisions_to_tree`, rootoutput.cc:577-616; a place beyond the arrays is not defined. -/
def putAll (B : ℕ) (ext : Bool) : List RPart → ℕ → Mem → Except Err Mem
  | [], _, m => .ok m
  | p :: ps, i, m => if B ≤ i then .error .outOfBuffer else putAll B ext ps (i + 1) (put ext m i p)

/-- `collisions_to_tree`, rootoutput.cc:565-619. -/
def collisionsToTree (B : ℕ) (o : Opts) (st : St) (inc out : List RPart) (w pw : W64) : Except Err St :=
  let m := ((((((st.mem.set .ev (.int st.event)).set .ens (.int st.ens)).set .nin (.int inc.length)).set .nout (.int out.length)).set
    .npart (.int (inc.length + out.length))).set .wgt (.dbl w)).set .parWgt (.dbl pw)
  match putAll B o.collExt (inc ++ out) 0 m with
  | .error e => .error e
  | .ok m' => .ok { st with mem := m', ctree := st.ctree ++ [fill (collisionBranches o.collExt) m'] }

/-- The members which every output of particles sets, rootoutput.cc:407-412, 430-435. -/
def Mem.common (m : Mem) (e : Info) : Mem :=
  (((((m.set .modusL (.dbl e.length)).set .testP (.int e.testP)).set .currentT (.dbl e.time)).set .eKin (.dbl e.eKin)).set
    .eField (.dbl e.eField)).set .eTot (.dbl e.eTot)

/-- The double -1. -/
def minusOne : W64 := 0xBFF0000000000000

/-- `at_eventstart`, rootoutput.cc:400-422. -/
def eventStart (B : ℕ) (o : Opts) (st : St) (ev ens : ℕ) (ps : List RPart) (e : Info) : St :=
  let st := { st with event := ev, ens := ens, mem := st.mem.common e }
  if o.kind = .particles ∧ o.only = .no then
    let st := { st with counter := 0, mem := (st.mem.set .impactB (.dbl minusOne)).set .emptyEvent (.bool false) }
    let st := particlesToTree B o st ps
    { st with counter := st.counter + 1 }
  else st

/-- `at_intermediate_time`, rootoutput.cc:424-441: the event of the label is not used. -/
def intermediate (B : ℕ) (o : Opts) (st : St) (ens : ℕ) (ps : List RPart) (e : Info) : St :=
  let st := { st with ens := ens, mem := st.mem.common e }
  if o.kind = .particles ∧ o.only = .no then
    let st := particlesToTree B o st ps
    { st with counter := st.counter + 1 }
  else st

/-- The frequency of saving, rootoutput.cc:467-472; there is at least one ensemble. -/
def frequency (nEns : ℕ) : ℕ := if 1000 / nEns = 0 then 1 else 1000 / nEns

/-- `AutoSave`, rootoutput.cc:476-481. -/
def autosave (o : Opts) (st : St) : St :=
  if o.kind = .collisions then { st with csaved := st.ctree } else { st with psaved := st.ptree }

/-- The writing at the end of an event, rootoutput.cc:446-461. -/
def endWrite (B : ℕ) (o : Opts) (st : St) (ens : ℕ) (ps : List RPart) (e : Info) : St :=
  let st := { st with ens := ens, mem := (((st.mem.common e).set .impactB (.dbl e.impact)).set .emptyEvent (.bool e.empty)) }
  if o.kind = .particles ∧ ¬ (e.empty = true ∧ o.only = .ifNotEmpty) then particlesToTree B o st ps else st

/-- The regular saving, rootoutput.cc:475-482. -/
def saveNow (o : Opts) (st : St) : St := if 0 < st.event ∧ st.event % st.freq.getD 1 = 0 then autosave o st else st

/-- The state with the frequency, which is computed once, rootoutput.cc:467-472. -/
def withFreq (st : St) (n : ℕ) : St := { st with freq := some (st.freq.getD (frequency n)) }

/-- `at_eventend`, rootoutput.cc:443-483. -/
def eventEnd (B : ℕ) (o : Opts) (st : St) (ens : ℕ) (ps : List RPart) (e : Info) : St :=
  saveNow o (withFreq (endWrite B o st ens ps e) e.nEns)

/-- `at_interaction`, rootoutput.cc:485-497; `fluid` tells whether the action is a fluidization. -/
def interaction (B : ℕ) (o : Opts) (st : St) (fluid : Bool) (inc out : List RPart) (w pw : W64) : Except Err St :=
  match o.kind with
  | .collisions => collisionsToTree B o st inc out w pw
  | .initial => .ok (if fluid then particlesToTree B o st inc else st)
  | .particles => .ok st

/-- The calls. -/
inductive Call where
  | start (ev ens : ℕ) (ps : List RPart) (e : Info)
  | inter (ens : ℕ) (ps : List RPart) (e : Info)
  | fin (ens : ℕ) (ps : List RPart) (e : Info)
  | act (fluid : Bool) (inc out : List RPart) (w pw : W64)

/-- One call. -/
def step (B : ℕ) (o : Opts) (st : St) : Call → Except Err St
  | .start ev ens ps e => .ok (eventStart B o st ev ens ps e)
  | .inter ens ps e => .ok (intermediate B o st ens ps e)
  | .fin ens ps e => .ok (eventEnd B o st ens ps e)
  | .act f i u w pw => interaction B o st f i u w pw

/-- A history of calls. -/
def run (B : ℕ) (o : Opts) : St → List Call → Except Err St
  | st, [] => .ok st
  | st, c :: cs => match step B o st c with
    | .error e => .error e
    | .ok st' => run B o st' cs

/-- `max_buffer_size_`, rootoutput.cc:21. -/
def bufferSize : ℕ := 500000

end Verif.Root
