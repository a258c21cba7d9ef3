import Verif.Td.Names

/-!
Model of the VTK output (`VtkOutput`, vtkoutput.cc).

Simplifications: a file is a list of words, numbers and separators. All files can be opened. Event and ensemble numbers and counters are not negative. What
the output takes from a tensor is a parameter; the formation time is compared with the time exactly.
-/

namespace Verif.Td

open Verif.Bin (W64)

/-- Format of a number: `%g` (and the default of streams), fixed with three digits. -/
inductive VStyle where
  | general
  | fixed3
  deriving DecidableEq

/-- What is in a file: word, integer, number, blank, line break. -/
inductive Tok where
  | word (s : String)
  | int (n : ℤ)
  | num (s : VStyle) (x : W64)
  | sp
  | nl
  deriving DecidableEq

/-- What the output takes from a particle. -/
structure Part where
  pos : W64 × W64 × W64
  pdg : String
  time : ℚ
  formation : ℚ
  scaling : W64
  mass : W64
  ncoll : ℤ
  id : ℤ
  baryon : ℤ
  strangeness : ℤ
  mom : W64 × W64 × W64

/-- Three numbers on a line. -/
def line3 (s : VStyle) (v : W64 × W64 × W64) : List Tok := [.num s v.1, .sp, .num s v.2.1, .sp, .num s v.2.2, .nl]

/-- `SCALARS ... 1` and `LOOKUP_TABLE default`. -/
def scalarHead (name ty : String) : List Tok :=
  [.word "SCALARS", .sp, .word name, .sp, .word ty, .sp, .int 1, .nl, .word "LOOKUP_TABLE", .sp, .word "default", .nl]

/-- A scalar of the particles, one per line. -/
def scalarPart (name ty : String) (f : Part → Tok) (ps : List Part) : List Tok := scalarHead name ty ++ ps.flatMap fun p => [f p, .nl]

/-- Outcomes which are not defined. -/
inductive VErr where
  | empty
  deriving DecidableEq

/-- `Particles::time`, particles.h:100-103. -/
def timeOf : List Part → Except VErr ℚ
  | [] => .error .empty
  | p :: _ => .ok p.time

/-- The first line, vtkoutput.cc:108, 194. -/
def firstLine : List Tok := [.word "#", .sp, .word "vtk", .sp, .word "DataFile", .sp, .word "Version", .sp, .word "2.0", .nl]

/-- Title and kind of the file, vtkoutput.cc:109-114. -/
def titleSec (version : String) : List Tok :=
  [.word "Generated", .sp, .word "from", .sp, .word "molecular-offset", .sp, .word "data", .sp, .word version, .nl,
    .word "ASCII", .nl, .word "DATASET", .sp, .word "UNSTRUCTURED_GRID", .nl]

/-- The points, vtkoutput.cc:115-119. -/
def pointSec (ps : List Part) : List Tok :=
  ([.word "POINTS", .sp, .int ps.length, .sp, .word "double", .nl] : List Tok) ++ (ps.flatMap fun p => line3 .general p.pos : List Tok)

/-- The cells, vtkoutput.cc:120-124. -/
def cellSec (n : ℕ) : List Tok :=
  ([.word "CELLS", .sp, .int n, .sp, .int (n * 2 : ℕ), .nl] : List Tok) ++
    ((List.range n).flatMap fun i : ℕ => [.int 1, .sp, .int i, .nl] : List Tok)

/-- The types of the cells and the number of points, vtkoutput.cc:125-129. -/
def typeSec (n : ℕ) : List Tok :=
  ([.word "CELL_TYPES", .sp, .int n, .nl] : List Tok) ++ (((List.range n).flatMap fun _ => [.int 1, .nl] : List Tok) ++
    ([.word "POINT_DATA", .sp, .int n, .nl] : List Tok))

/-- The momenta, vtkoutput.cc:172-176. -/
def momSec (ps : List Part) : List Tok :=
  ([.word "VECTORS", .sp, .word "momentum", .sp, .word "double", .nl] : List Tok) ++ (ps.flatMap fun p => line3 .general p.mom : List Tok)

/-- The properties of the particles, vtkoutput.cc:130-176. -/
def attrSec (t : ℚ) (ps : List Part) : List (List Tok) :=
  [scalarPart "pdg_codes" "int" (fun p => .word p.pdg) ps,
    scalarPart "is_formed" "int" (fun p => .word (if t < p.formation then "0" else "1")) ps,
    scalarPart "cross_section_scaling_factor" "double" (fun p => .num .general p.scaling) ps,
    scalarPart "mass" "double" (fun p => .num .general p.mass) ps,
    scalarPart "N_coll" "int" (fun p => .int p.ncoll) ps,
    scalarPart "particle_ID" "int" (fun p => .int p.id) ps,
    scalarPart "baryon_number" "int" (fun p => .int p.baryon) ps,
    scalarPart "strangeness" "int" (fun p => .int p.strangeness) ps,
    momSec ps]

/-- `write`, vtkoutput.cc:100-177: the content of the file. -/
def particleFile (version : String) (ps : List Part) : Except VErr (List Tok) :=
  match timeOf ps with
  | .error e => .error e
  | .ok t => .ok (firstLine ++ (titleSec version ++ (pointSec ps ++ (cellSec ps.length ++ (typeSec ps.length ++ (attrSec t ps).flatten)))))

/-- `write_vtk_header`, vtkoutput.cc:187-202. -/
def vtkHeader {T : Type} (g : Grid T) (descr : String) : List Tok :=
  firstLine ++ ([.word descr, .nl, .word "ASCII", .nl, .word "DATASET", .sp, .word "STRUCTURED_POINTS", .nl,
    .word "DIMENSIONS", .sp, .int g.nx, .sp, .int g.ny, .sp, .int g.nz, .nl,
    .word "SPACING", .sp, .num .general g.sizes.1, .sp, .num .general g.sizes.2.1, .sp, .num .general g.sizes.2.2, .nl,
    .word "ORIGIN", .sp, .num .general g.origin.1, .sp, .num .general g.origin.2.1, .sp, .num .general g.origin.2.2, .nl,
    .word "POINT_DATA", .sp, .int (g.nx * g.ny * g.nz : ℕ), .nl] : List Tok)

/-- `write_vtk_scalar`, vtkoutput.cc:204-220. -/
def vtkScalar {T : Type} (g : Grid T) (name : String) (f : T → W64) : List Tok :=
  scalarHead name "double" ++ (nodes g.nx g.ny g.nz).flatMap fun x =>
    [.num .fixed3 (f (g.at x)), .sp] ++ (if (x.1 : ℤ) = g.nx - 1 then [.nl] else [])

/-- `write_vtk_vector`, vtkoutput.cc:222-234. -/
def vtkVector {T : Type} (g : Grid T) (name : String) (f : T → W64 × W64 × W64) : List Tok :=
  [.word "VECTORS", .sp, .word name, .sp, .word "double", .nl] ++ (nodes g.nx g.ny g.nz).flatMap fun x => line3 .fixed3 (f (g.at x))

/-- The name of a variable as a word. -/
def varWord (q : Quantity) (d : Dens) : String := String.ofList (varName q d)

/-- `std::to_string` of an index. -/
def digit (i : ℕ) : String := String.ofList [Char.ofNat (48 + i)]

/-- The content of the file of a density, vtkoutput.cc:258-260. -/
def densityFile (q : Quantity) (d : Dens) (g : Grid W64) : List Tok := vtkHeader g (varWord q d) ++ vtkScalar g (varWord q d) id

/-- The content of the file of a tensor or of the velocity, vtkoutput.cc:287-323. -/
def tensorFile {T : Type} (o : TensorOps T) (q : Quantity) (d : Dens) (g : Grid T) : List Tok :=
  match q with
  | .tmn => vtkHeader g (varWord q d) ++ pairs.flatMap fun ij =>
      vtkScalar g (varWord q d ++ digit ij.1 ++ digit ij.2) fun v => o.comp v (tmnIdx ij.1 ij.2)
  | .tmnLandau => vtkHeader g (varWord q d) ++ pairs.flatMap fun ij =>
      vtkScalar g (varWord q d ++ digit ij.1 ++ digit ij.2) fun v => o.comp (o.landau v) (tmnIdx ij.1 ij.2)
  | _ => vtkHeader g (varWord q d) ++ vtkVector g (varWord q d) o.vel

/-- A node of the thermalizer. -/
structure TNode where
  e : W64
  p : W64
  v : W64 × W64 × W64
  T : W64
  mub : W64
  mus : W64

/-- The content of the file of the thermalizer, vtkoutput.cc:354-366. -/
def fluidFile (g : Grid TNode) : List Tok :=
  vtkHeader g "fluidization_td" ++ vtkScalar g "e" TNode.e ++ vtkScalar g "p" TNode.p ++ vtkVector g "v" TNode.v ++ vtkScalar g "T" TNode.T ++
    vtkScalar g "mub" TNode.mub ++ vtkScalar g "mus" TNode.mus

/-- The content of the file of one of the two fields, vtkoutput.cc:334-337. -/
def fieldFile (name : String) (g : Grid ((W64 × W64 × W64) × (W64 × W64 × W64))) (second : Bool) : List Tok :=
  vtkHeader g name ++ vtkVector g name fun v => if second then v.2 else v.1

/-- The name of a file with particles, vtkoutput.cc:101-104. -/
def posName (ev ens k : ℕ) : List Char :=
  snprintf 64 ("pos_ev".toList ++ pad 5 ev ++ "_ens".toList ++ pad 5 ens ++ "_tstep".toList ++ pad 5 k ++ ".vtk".toList)

/-- `make_filename`, vtkoutput.cc:236-241, without the path. -/
def vtkName (descr : List Char) (ev k : ℕ) : List Char :=
  descr ++ snprintf 22 (['_'] ++ pad 5 ev ++ "_tstep".toList ++ pad 5 k ++ ".vtk".toList)

/-- What the output is for, vtkoutput.cc:28-29. -/
inductive VKind where
  | particles
  | thermodynamics
  | fields
  deriving DecidableEq

/-- The members, vtkoutput.h:188-216, and the files written so far. -/
structure VSt where
  event : ℕ
  ens : ℕ
  cnt : ℕ × ℕ → ℕ
  dens : ℕ
  tmn : ℕ
  tmnL : ℕ
  vL : ℕ
  fluid : ℕ
  fields : ℕ
  files : List (List Char × List Tok)

/-- The object after its construction. -/
def VSt.init : VSt := ⟨0, 0, fun _ => 0, 0, 0, 0, 0, 0, 0, []⟩

/-- The calls. -/
inductive VCall (T : Type) where
  | start (ev ens : ℕ) (ps : List Part)
  | inter (ev ens : ℕ) (ps : List Part)
  | density (q : Quantity) (d : Dens) (g : Grid W64)
  | tensor (q : Quantity) (d : Dens) (g : Grid T)
  | fluid (g : Grid TNode)
  | fields (n1 n2 : String) (g : Grid ((W64 × W64 × W64) × (W64 × W64 × W64)))

/-- Writing of the particles and of the counter, vtkoutput.cc:77-80, 94-97. -/
def snapshot (version : String) (kind : VKind) (st : VSt) (ps : List Part) : Except VErr VSt :=
  if kind ≠ .particles then .ok st
  else match particleFile version ps with
    | .error e => .error e
    | .ok f => .ok { st with
        files := st.files ++ [(posName st.event st.ens (st.cnt (st.event, st.ens)), f)]
        cnt := Function.update st.cnt (st.event, st.ens) (st.cnt (st.event, st.ens) + 1) }

/-- One call: `at_eventstart`, `at_intermediate_time`, `thermodynamics_output`, `fields_output`, vtkoutput.cc:65-98, 249-367. -/
def vstep {T : Type} (version : String) (kind : VKind) (o : TensorOps T) (st : VSt) : VCall T → Except VErr VSt
  | .start ev ens ps => snapshot version kind { st with
      dens := 0, tmn := 0, tmnL := 0, vL := 0, fluid := 0, event := ev, ens := ens, cnt := Function.update st.cnt (ev, ens) 0 } ps
  | .inter ev ens ps => snapshot version kind { st with event := ev, ens := ens } ps
  | .density q d g =>
    if kind ≠ .thermodynamics then .ok st
    else .ok { st with files := st.files ++ [(vtkName (varName q d) st.event st.dens, densityFile q d g)], dens := st.dens + 1 }
  | .tensor q d g =>
    if kind ≠ .thermodynamics then .ok st
    else if q = .tmn then
      .ok { st with files := st.files ++ [(vtkName (varName q d) st.event st.tmn, tensorFile o q d g)], tmn := st.tmn + 1 }
    else if q = .tmnLandau then
      .ok { st with files := st.files ++ [(vtkName (varName q d) st.event st.tmnL, tensorFile o q d g)], tmnL := st.tmnL + 1 }
    else .ok { st with files := st.files ++ [(vtkName (varName q d) st.event st.vL, tensorFile o q d g)], vL := st.vL + 1 }
  | .fluid g =>
    if kind ≠ .thermodynamics then .ok st
    else .ok { st with files := st.files ++ [(vtkName "fluidization_td".toList st.event st.fluid, fluidFile g)], fluid := st.fluid + 1 }
  | .fields n1 n2 g =>
    if kind ≠ .fields then .ok st
    else .ok { st with
      files := st.files ++ [(vtkName n1.toList st.event st.fields, fieldFile n1 g false), (vtkName n2.toList st.event st.fields, fieldFile n2 g true)]
      fields := st.fields + 1 }

/-- A history of calls. -/
def vrun {T : Type} (version : String) (kind : VKind) (o : TensorOps T) : VSt → List (VCall T) → Except VErr VSt
  | st, [] => .ok st
  | st, c :: cs => match vstep version kind o st c with
    | .error e => .error e
    | .ok st' => vrun version kind o st' cs

end Verif.Td
