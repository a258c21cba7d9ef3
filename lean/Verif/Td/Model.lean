import Mathlib.Data.Nat.Digits.Defs
import Mathlib.Logic.Function.Basic
import Verif.Bin.Model
import Verif.Emt.Model

/-!
Model of the thermodynamic output on the lattice (`ThermodynamicLatticeOutput`, thermodynamiclatticeoutput.cc) and of the names of
files of this output and of the VTK output.

Simplifications: a file is the list of the items written to it, a `double` is its bit pattern. The numbers of a text file carry
the style which was set before they were written. The rest frame of a tensor, its velocity and the currents at a node are parameters.
Numbers of events are not negative.
-/

namespace Verif.Td

open Verif.Bin (Byte W32 W64 put32 put64)

/-- `ThermodynamicQuantity`, forwarddeclarations.h:194-205. -/
inductive Quantity where
  | eckart
  | tmn
  | tmnLandau
  | vLandau
  | jQBS
  deriving DecidableEq

/-- `DensityType`, forwarddeclarations.h:353-362. -/
inductive Dens where
  | none
  | hadron
  | baryon
  | isospin
  | pion
  | isospin3
  | charge
  | strangeness
  deriving DecidableEq

/-- `to_string` of a quantity, outputinterface.h:261-275. -/
def qName : Quantity → String
  | .eckart => "rho_eckart"
  | .tmn => "tmn"
  | .tmnLandau => "tmn_landau"
  | .vLandau => "v_landau"
  | .jQBS => "j_QBS"

/-- `to_string` of a density type, outputinterface.h:282-302. -/
def dName : Dens → String
  | .hadron => "hadron"
  | .baryon => "net_baryon"
  | .isospin => "net_baryonI3"
  | .pion => "pion"
  | .isospin3 => "tot_isospin3"
  | .charge => "charge"
  | .strangeness => "strangeness"
  | .none => "none"

/-- A number as printed by `%0wi`. -/
def pad (w n : ℕ) : List Char :=
  List.replicate (w - (Nat.digits 10 n).length) '0' ++ (Nat.digits 10 n).reverse.map fun d => Char.ofNat (48 + d)

/-- `make_varname`, thermodynamiclatticeoutput.cc:751-755, vtkoutput.cc:217-221. -/
def varName (q : Quantity) (d : Dens) : List Char := (dName d).toList ++ ['_'] ++ (qName q).toList

/-- `snprintf` into a buffer of `size` characters: at most `size - 1` of them are kept. -/
def snprintf (size : ℕ) (l : List Char) : List Char := l.take (size - 1)

/-- `make_filename`, thermodynamiclatticeoutput.cc:738-749, without the path. -/
def latName (descr : List Char) (event : ℕ) (ascii : Bool) : List Char :=
  descr ++ snprintf 13 (['_'] ++ pad 7 event ++ (if ascii then ".dat" else ".bin").toList)

/-- Style of a number in a text file. -/
inductive Style where
  | fixed (precision : ℕ)
  | scientific (precision : ℕ)
  deriving DecidableEq

/-- What is written to a file: a byte, a text, a number, an integer, the end of a line. -/
inductive Item where
  | byte (b : Byte)
  | text (s : String)
  | num (s : Style) (x : W64)
  | int (n : ℕ)
  | eol
  deriving DecidableEq

/-- Dereferencing of a null pointer. -/
inductive Err where
  | null
  deriving DecidableEq

/-- A `std::ofstream`: the open file and the failure bit. -/
structure Stream where
  file : Option (List Char)
  fail : Bool

/-- The members which matter: `output_ascii_files_` (`true`) and `output_binary_files_` (`false`), and the files on the disk. -/
structure St where
  streams : Bool → Quantity → Option Stream
  disk : List Char → Option (List Item)

/-- `enable_ascii_`, `enable_binary_` and the quantities of `OutputParameters`. -/
structure Par where
  ascii : Bool
  binary : Bool
  wants : Quantity → Bool

/-- Whether a format is enabled. -/
def Par.on (p : Par) (ascii : Bool) : Bool := if ascii then p.ascii else p.binary

/-- The constructor, thermodynamiclatticeoutput.cc:184-242. The streams are constructed with a null pointer as the name of the file, which
fails (it does with the usual libraries; the standard leaves it undefined). -/
def init (p : Par) (disk : List Char → Option (List Item)) : St :=
  ⟨fun a q => if p.on a && p.wants q then some ⟨none, true⟩ else none, disk⟩

/-- `open(name, std::ios::out)`: truncates the file; a failure (also for an open stream) sets the failure bit. No exception is
thrown because the streams do not have any exceptions enabled. -/
def openFile (ok : List Char → Bool) (st : St) (a : Bool) (q : Quantity) (name : List Char) : Except Err St :=
  match st.streams a q with
  | none => .error .null
  | some s =>
    if s.file.isSome || !ok name then
      .ok { st with streams := Function.update st.streams a (Function.update (st.streams a) q (some { s with fail := true })) }
    else .ok ⟨Function.update st.streams a (Function.update (st.streams a) q (some ⟨some name, false⟩)),
      Function.update st.disk name (some [])⟩

/-- `<<` and `write`: nothing is written after a failure or to a closed file. -/
def write (st : St) (fp : Option (Bool × Quantity)) (items : List Item) : Except Err St :=
  match fp with
  | none => .error .null
  | some (a, q) =>
    match st.streams a q with
    | none => .error .null
    | some ⟨some f, false⟩ => .ok { st with disk := Function.update st.disk f (some ((st.disk f).getD [] ++ items)) }
    | some _ => .ok st

/-- `close()`. -/
def close (st : St) (a : Bool) (q : Quantity) : Except Err St :=
  match st.streams a q with
  | none => .error .null
  | some ⟨none, _⟩ => .ok { st with streams := Function.update st.streams a (Function.update (st.streams a) q (some ⟨none, true⟩)) }
  | some ⟨some _, b⟩ => .ok { st with streams := Function.update st.streams a (Function.update (st.streams a) q (some ⟨none, b⟩)) }

/-- A lattice: numbers of cells, cell sizes, origin and values at the nodes. -/
structure Grid (T : Type) where
  nx : ℕ
  ny : ℕ
  nz : ℕ
  sizes : W64 × W64 × W64
  origin : W64 × W64 × W64
  data : ℕ → T

/-- The calls of `iterate_sublattice` from `{0, 0, 0}` to the numbers of cells, lattice.h:580-611. -/
def nodes (nx ny nz : ℕ) : List (ℕ × ℕ × ℕ) :=
  (List.range nz).flatMap fun iz => (List.range ny).flatMap fun iy => (List.range nx).map fun ix => (ix, iy, iz)

/-- The node of a call, lattice.h:604-606. -/
def Grid.at {T : Type} (g : Grid T) (x : ℕ × ℕ × ℕ) : T := g.data (x.1 + g.nx * (x.2.1 + x.2.2 * g.ny))

/-- The version, thermodynamiclatticeoutput.cc:182: the bit pattern of 1.0. -/
def version : W64 := 0x3FF0000000000000

/-- `to_int`, thermodynamiclatticeoutput.cc:719-736. -/
def toInt : Quantity → ℕ
  | .eckart => 0
  | .tmn => 1
  | .tmnLandau => 2
  | .vLandau => 3
  | .jQBS => 4

/-- Three numbers with blanks between them. -/
def three (s : Style) (v : W64 × W64 × W64) : List Item :=
  [.num s v.1, .text " ", .num s v.2.1, .text " ", .num s v.2.2]

/-- `write_therm_lattice_ascii_header`, thermodynamiclatticeoutput.cc:757-772. -/
def asciiHeader {T : Type} (q : Quantity) (g : Grid T) : List Item :=
  [.text "#Thermodynamic Lattice Output version: ", .num (.fixed 2) version, .eol, .text "#Quantity:", .text " ", .text (qName q), .eol,
    .text "#Grid dimensions: ", .int g.nx, .text " ", .int g.ny, .text " ", .int g.nz, .eol] ++
  [.text "#Grid spacing: "] ++ three (.fixed 6) g.sizes ++ [.eol] ++ [.text "#Grid origin: "] ++ three (.fixed 6) g.origin ++ [.eol]

/-- The bytes of a number. -/
def dbl (x : W64) : List Item := (put64 x).map .byte

/-- The bytes of an `int`. -/
def int4 (n : ℕ) : List Item := (put32 (BitVec.ofNat 32 n)).map .byte

/-- `write_therm_lattice_binary_header`, thermodynamiclatticeoutput.cc:774-784. -/
def binaryHeader {T : Type} (q : Quantity) (g : Grid T) : List Item :=
  dbl version ++ int4 (toInt q) ++ int4 g.nx ++ int4 g.ny ++ int4 g.nz ++ dbl g.sizes.1 ++ dbl g.sizes.2.1 ++ dbl g.sizes.2.2 ++
    dbl g.origin.1 ++ dbl g.origin.2.1 ++ dbl g.origin.2.2

/-- Opening of one file and writing of its header. -/
def openWith {T : Type} (ok : List Char → Bool) (st : St) (a : Bool) (s q : Quantity) (d : Dens) (ev : ℕ) (g : Grid T)
    (fp : Option (Bool × Quantity)) : Except Err St := do
  let st ← openFile ok st a s (latName (varName q d) ev a)
  write st fp (if a then asciiHeader q g else binaryHeader q g)

/-- `at_eventstart` for a density, thermodynamiclatticeoutput.cc:246-331. -/
def startDensity {T : Type} (p : Par) (ok : List Char → Bool) (st : St) (ev : ℕ) (q : Quantity) (d : Dens) (g : Grid T) :
    Except Err St :=
  if !p.ascii && !p.binary then .ok st
  else do
    let s := if q = .eckart then Quantity.eckart else .jQBS
    let st ← (if p.ascii then openWith ok st true s q d ev g (some (true, s)) else .ok st)
    if p.binary then openWith ok st false s q d ev g (some (false, s)) else .ok st

/-- The stream which is opened for a quantity on the lattice of tensors, and whether `fp` is set, thermodynamiclatticeoutput.cc:352-454. -/
def tensorStream : Quantity → Quantity × Bool
  | .tmnLandau => (.tmnLandau, true)
  | .tmn => (.tmn, true)
  | .vLandau => (.vLandau, true)
  | _ => (.jQBS, false)

/-- `at_eventstart` for the tensors, thermodynamiclatticeoutput.cc:333-456; for the other quantities `fp` is the null pointer. -/
def startTensor {T : Type} (p : Par) (ok : List Char → Bool) (st : St) (ev : ℕ) (q : Quantity) (d : Dens) (g : Grid T) :
    Except Err St :=
  if !p.ascii && !p.binary then .ok st
  else do
    let s := tensorStream q
    let st ← (if p.ascii then openWith ok st true s.1 q d ev g (if s.2 then some (true, s.1) else none) else .ok st)
    if p.binary then openWith ok st false s.1 q d ev g (if s.2 then some (false, s.1) else none) else .ok st

/-- `at_eventend`, thermodynamiclatticeoutput.cc:458-507. -/
def finish (p : Par) (st : St) (q : Quantity) : Except Err St :=
  if !p.ascii && !p.binary then .ok st
  else do
    let st ← (if p.ascii then close st true q else .ok st)
    if p.binary then close st false q else .ok st

/-- The time at the beginning of each block, thermodynamiclatticeoutput.cc:514-524: the pointer which remains is that of the last format. -/
def writeTime (p : Par) (st : St) (q : Quantity) (t : W64) : Except Err (St × Option (Bool × Quantity)) := do
  let st ← (if p.ascii then write st (some (true, q)) [.num (.scientific 14) t, .eol] else .ok st)
  let st ← (if p.binary then write st (some (false, q)) (dbl t) else .ok st)
  .ok (st, if p.binary then some (false, q) else if p.ascii then some (true, q) else none)

/-- One number per call, with a blank and at the end of a row a line break, thermodynamiclatticeoutput.cc:525-537. -/
def cellItems (p : Par) (nx ix : ℕ) (v : W64) : List Item :=
  (if p.ascii then [.num (.scientific 14) v, .text " "] ++ (if ix + 1 = nx then [.eol] else []) else []) ++
    (if p.binary then dbl v else [])

/-- The output of a density, thermodynamiclatticeoutput.cc:509-538. -/
def outDensity (p : Par) (st : St) (g : Grid W64) (t : W64) : Except Err St := do
  let (st, fp) ← writeTime p st .eckart t
  if !p.ascii && !p.binary then .ok st
  else write st fp ((nodes g.nx g.ny g.nz).flatMap fun x => cellItems p g.nx x.1 (g.at x))

/-- Several numbers with blanks between them and a line break, thermodynamiclatticeoutput.cc:580-606, 702-711. -/
def rowItems (p : Par) (l : List W64) : List Item :=
  (if p.ascii then ((l.map fun v => [Item.num (.scientific 14) v]).intersperse [.text " "]).flatten ++ [.eol] else []) ++
    (if p.binary then l.flatMap dbl else [])

/-- The output of the currents, thermodynamiclatticeoutput.cc:540-608; the values at a node are the components of the three currents. -/
def outCurrents (p : Par) (st : St) (g : Grid (List W64)) (t : W64) : Except Err St :=
  if !p.ascii && !p.binary then .ok st
  else do
    let (st, fp) ← writeTime p st .jQBS t
    write st fp ((nodes g.nx g.ny g.nz).flatMap fun x => rowItems p (g.at x))

/-- What the output takes from a tensor: components, tensor in the rest frame, velocity of the rest frame. -/
structure TensorOps (T : Type) where
  comp : T → Fin 10 → W64
  landau : T → T
  vel : T → W64 × W64 × W64

/-- The pairs of indices of the two loops, thermodynamiclatticeoutput.cc:656-657. -/
def pairs : List (ℕ × ℕ) := (List.range 4).flatMap fun i => ((List.range 4).filter fun j => i ≤ j).map fun j => (i, j)

/-- `tmn_index`, energymomentumtensor.h:53-66, for the arguments of the loops. -/
def tmnIdx (i j : ℕ) : Fin 10 := Verif.Emt.indices.getD (i + 4 * j) 0

/-- The items of all components. -/
def tensorItems {T : Type} (p : Par) (g : Grid T) (f : T → Fin 10 → W64) : List Item :=
  pairs.flatMap fun ij => (nodes g.nx g.ny g.nz).flatMap fun x => cellItems p g.nx x.1 (f (g.at x) (tmnIdx ij.1 ij.2))

/-- The output of the tensors, thermodynamiclatticeoutput.cc:610-717. -/
def outTensor {T : Type} (p : Par) (o : TensorOps T) (st : St) (q : Quantity) (g : Grid T) (t : W64) : Except Err St :=
  if (!p.ascii && !p.binary) || q == .eckart || q == .jQBS then .ok st
  else do
    let (st, fp) ← writeTime p st q t
    write st fp (match q with
      | .tmn => tensorItems p g o.comp
      | .tmnLandau => tensorItems p g (fun v => o.comp (o.landau v))
      | _ => (nodes g.nx g.ny g.nz).flatMap fun x => rowItems p [(o.vel (g.at x)).1, (o.vel (g.at x)).2.1, (o.vel (g.at x)).2.2])

/-- The calls which the program makes. -/
inductive Call (T : Type) where
  | startD (ev : ℕ) (q : Quantity) (d : Dens) (nx ny nz : ℕ) (sizes origin : W64 × W64 × W64)
  | startT (ev : ℕ) (q : Quantity) (d : Dens) (nx ny nz : ℕ) (sizes origin : W64 × W64 × W64)
  | density (g : Grid W64) (t : W64)
  | currents (g : Grid (List W64)) (t : W64)
  | tensor (q : Quantity) (g : Grid T) (t : W64)
  | finish (q : Quantity)

/-- One call. -/
def step {T : Type} (p : Par) (ok : List Char → Bool) (o : TensorOps T) (st : St) : Call T → Except Err St
  | .startD ev q d nx ny nz s r => startDensity p ok st ev q d (⟨nx, ny, nz, s, r, fun _ => ()⟩ : Grid Unit)
  | .startT ev q d nx ny nz s r => startTensor p ok st ev q d (⟨nx, ny, nz, s, r, fun _ => ()⟩ : Grid Unit)
  | .density g t => outDensity p st g t
  | .currents g t => outCurrents p st g t
  | .tensor q g t => outTensor p o st q g t
  | .finish q => Td.finish p st q

/-- A history of calls. -/
def run {T : Type} (p : Par) (ok : List Char → Bool) (o : TensorOps T) : St → List (Call T) → Except Err St
  | st, [] => .ok st
  | st, c :: cs => match step p ok o st c with
    | .error e => .error e
    | .ok st' => run p ok o st' cs

/-- The density type which `Experiment` passes for the file of the density, experiment.h:2200-2216; `none` if there is no file. -/
def startDens : Dens → Option Dens
  | .baryon => some .baryon
  | .isospin => some .isospin
  | .none => Option.none
  | _ => some .isospin

end Verif.Td
