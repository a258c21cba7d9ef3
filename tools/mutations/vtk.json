[
 {
  "file": "Td/Vtk.lean",
  "def": "pointSec",
  "old": "line3 .general p.pos",
  "new": "line3 .general p.mom",
  "edit": "momenta as points",
  "claim": "C151 particles"
 },
 {
  "file": "Td/Vtk.lean",
  "def": "cellSec",
  "old": "(n * 2 : ℕ)",
  "new": "(n * 3 : ℕ)",
  "edit": "wrong size of the list of cells",
  "claim": "C151 particles"
 },
 {
  "file": "Td/Vtk.lean",
  "def": "cellSec",
  "old": "[.int 1, .sp, .int i, .nl]",
  "new": "[.int 1, .sp, .int (i + 1), .nl]",
  "edit": "points of the cells count from one",
  "claim": "C151 particles"
 },
 {
  "file": "Td/Vtk.lean",
  "def": "typeSec",
  "old": "([.word \"POINT_DATA\", .sp, .int n, .nl] : List Tok)",
  "new": "([.word \"CELL_DATA\", .sp, .int n, .nl] : List Tok)",
  "edit": "data of the cells instead of the points",
  "claim": "C151 particles"
 },
 {
  "file": "Td/Vtk.lean",
  "def": "attrSec",
  "old": "if t < p.formation then \"0\" else \"1\"",
  "new": "if p.formation < t then \"0\" else \"1\"",
  "edit": "formed and unformed swapped",
  "claim": "C151 particles"
 },
 {
  "file": "Td/Vtk.lean",
  "def": "attrSec",
  "old": "if t < p.formation then \"0\" else \"1\"",
  "new": "if t ≤ p.formation then \"0\" else \"1\"",
  "edit": "not formed at the formation time",
  "claim": "C151 particles"
 },
 {
  "file": "Td/Vtk.lean",
  "def": "attrSec",
  "old": "(fun p => .int p.baryon)",
  "new": "(fun p => .int p.strangeness)",
  "edit": "strangeness as baryon number",
  "claim": "C151 particles"
 },
 {
  "file": "Td/Vtk.lean",
  "def": "attrSec",
  "old": "    scalarPart \"mass\" \"double\" (fun p => .num .general p.mass) ps,\n",
  "new": "",
  "edit": "mass missing",
  "claim": "C151 particles"
 },
 {
  "file": "Td/Vtk.lean",
  "def": "scalarHead",
  "old": ".sp, .int 1, .nl, .word \"LOOKUP_TABLE\", .sp, .word \"default\", .nl]",
  "new": ".sp, .int 1, .nl]",
  "edit": "lookup table missing",
  "claim": "C151 all files"
 },
 {
  "file": "Td/Vtk.lean",
  "def": "scalarPart",
  "old": "[f p, .nl]",
  "new": "[f p]",
  "edit": "no separator between the values",
  "claim": "C151 particles"
 },
 {
  "file": "Td/Vtk.lean",
  "def": "vtkHeader",
  "old": ".int g.nx, .sp, .int g.ny, .sp, .int g.nz, .nl",
  "new": ".int g.nz, .sp, .int g.ny, .sp, .int g.nx, .nl",
  "edit": "dimensions reversed",
  "claim": "C151 lattice"
 },
 {
  "file": "Td/Vtk.lean",
  "def": "vtkHeader",
  "old": ".word \"ORIGIN\", .sp, .num .general g.origin.1",
  "new": ".word \"ORIGIN\", .sp, .num .general g.sizes.1",
  "edit": "spacing as origin",
  "claim": "C151 lattice"
 },
 {
  "file": "Td/Vtk.lean",
  "def": "vtkHeader",
  "old": ".int (g.nx * g.ny * g.nz : ℕ)",
  "new": ".int (g.nx * g.ny : ℕ)",
  "edit": "wrong number of points",
  "claim": "C151 lattice"
 },
 {
  "file": "Td/Vtk.lean",
  "def": "vtkScalar",
  "old": "[.num .fixed3 (f (g.at x)), .sp] ++",
  "new": "[.num .fixed3 (f (g.at x))] ++",
  "edit": "no blank between the values",
  "claim": "C151 lattice"
 },
 {
  "file": "Td/Vtk.lean",
  "def": "vtkVector",
  "old": "line3 .fixed3 (f (g.at x))",
  "new": "line3 .fixed3 ((f (g.at x)).2.2, (f (g.at x)).2.1, (f (g.at x)).1)",
  "edit": "components reversed",
  "claim": "C151 lattice"
 },
 {
  "file": "Td/Vtk.lean",
  "def": "line3",
  "old": ".num s v.1, .sp, .num s v.2.1",
  "new": ".num s v.1, .sp, .num s v.1",
  "edit": "x component twice",
  "claim": "C151 vectors"
 },
 {
  "file": "Td/Vtk.lean",
  "def": "tensorFile",
  "old": "| .tmn => vtkHeader g (varWord q d) ++ pairs.flatMap fun ij =>\n      vtkScalar g (varWord q d ++ digit ij.1 ++ digit ij.2) fun v => o.comp v (tmnIdx ij.1 ij.2)",
  "new": "| .tmn => vtkHeader g (varWord q d) ++ pairs.flatMap fun ij =>\n      vtkScalar g (varWord q d ++ digit ij.1 ++ digit ij.2) fun v => o.comp (o.landau v) (tmnIdx ij.1 ij.2)",
  "edit": "rest frame instead of the lab frame",
  "claim": "C151 tensor"
 },
 {
  "file": "Td/Vtk.lean",
  "def": "tensorFile",
  "old": "fun v => o.comp (o.landau v) (tmnIdx ij.1 ij.2)",
  "new": "fun v => o.comp (o.landau v) (tmnIdx 0 ij.2)",
  "edit": "row index dropped",
  "claim": "C151 tensor"
 },
 {
  "file": "Td/Vtk.lean",
  "def": "digit",
  "old": "48 + i",
  "new": "49 + i",
  "edit": "names of the components count from one",
  "claim": "C151 tensor"
 },
 {
  "file": "Td/Vtk.lean",
  "def": "fluidFile",
  "old": "vtkScalar g \"mub\" TNode.mub",
  "new": "vtkScalar g \"mub\" TNode.mus",
  "edit": "wrong chemical potential",
  "claim": "C151 fluid"
 },
 {
  "file": "Td/Vtk.lean",
  "def": "fluidFile",
  "old": "++ vtkVector g \"v\" TNode.v",
  "new": "",
  "edit": "velocity missing",
  "claim": "C151 fluid"
 },
 {
  "file": "Td/Vtk.lean",
  "def": "fieldFile",
  "old": "if second then v.2 else v.1",
  "new": "if second then v.1 else v.2",
  "edit": "fields swapped",
  "claim": "C151 fields"
 },
 {
  "file": "Td/Vtk.lean",
  "def": "posName",
  "old": "\"_ens\".toList ++ pad 5 ens ++ ",
  "new": "",
  "edit": "ensemble not in the name",
  "claim": "C151 names"
 },
 {
  "file": "Td/Vtk.lean",
  "def": "posName",
  "old": "snprintf 64",
  "new": "snprintf 32",
  "edit": "buffer too small",
  "claim": "C151 names"
 },
 {
  "file": "Td/Vtk.lean",
  "def": "vtkName",
  "old": "snprintf 22",
  "new": "snprintf 21",
  "edit": "buffer without place for the terminator",
  "claim": "C151 names"
 },
 {
  "file": "Td/Vtk.lean",
  "def": "vtkName",
  "old": "['_'] ++ pad 5 ev ++",
  "new": "['_'] ++ pad 5 0 ++",
  "edit": "event not in the name",
  "claim": "C151 names"
 },
 {
  "file": "Td/Vtk.lean",
  "def": "snapshot",
  "old": "if kind ≠ .particles then .ok st",
  "new": "if kind = .fields then .ok st",
  "edit": "particles written by the thermodynamic output too",
  "claim": "C151 names"
 },
 {
  "file": "Td/Vtk.lean",
  "def": "snapshot",
  "old": "(st.cnt (st.event, st.ens) + 1) }",
  "new": "(st.cnt (st.event, st.ens)) }",
  "edit": "counter not increased",
  "claim": "C151 distinct"
 },
 {
  "file": "Td/Vtk.lean",
  "def": "snapshot",
  "old": "cnt := Function.update st.cnt (st.event, st.ens) (st.cnt (st.event, st.ens) + 1)",
  "new": "cnt := fun _ => st.cnt (st.event, st.ens) + 1",
  "edit": "one counter for all ensembles",
  "claim": "C151 names"
 },
 {
  "file": "Td/Vtk.lean",
  "def": "vstep",
  "old": "cnt := Function.update st.cnt (ev, ens) 0 } ps",
  "new": "cnt := fun _ => 0 } ps",
  "edit": "start of an ensemble resets all counters",
  "claim": "C151 names"
 },
 {
  "file": "Td/Vtk.lean",
  "def": "vstep",
  "old": "dens := 0, tmn := 0",
  "new": "tmn := 0",
  "edit": "counter of the density not reset",
  "claim": "C151 names"
 },
 {
  "file": "Td/Vtk.lean",
  "def": "vstep",
  "old": "snapshot version kind { st with event := ev, ens := ens } ps",
  "new": "snapshot version kind { st with ens := ens } ps",
  "edit": "event not updated",
  "claim": "C151 names"
 },
 {
  "file": "Td/Vtk.lean",
  "def": "vstep",
  "old": "snapshot version kind { st with event := ev, ens := ens } ps",
  "new": "snapshot version kind { st with event := ev } ps",
  "edit": "ensemble not updated",
  "claim": "C151 names"
 },
 {
  "file": "Td/Vtk.lean",
  "def": "vstep",
  "old": "dens := st.dens + 1 }",
  "new": "tmn := st.tmn + 1 }",
  "edit": "wrong counter increased",
  "claim": "C151 names"
 },
 {
  "file": "Td/Vtk.lean",
  "def": "vstep",
  "old": "[(vtkName (varName q d) st.event st.tmnL, tensorFile o q d g)]",
  "new": "[(vtkName (varName q d) st.event st.tmn, tensorFile o q d g)]",
  "edit": "wrong counter in the name",
  "claim": "C151 names"
 },
 {
  "file": "Td/Vtk.lean",
  "def": "vstep",
  "old": "vL := st.vL + 1 }",
  "new": "vL := st.vL }",
  "edit": "counter of the velocity not increased",
  "claim": "C151 names"
 },
 {
  "file": "Td/Vtk.lean",
  "def": "vstep",
  "old": "fieldFile n2 g true)]",
  "new": "fieldFile n2 g false)]",
  "edit": "first field in both files",
  "claim": "C151 contents"
 },
 {
  "file": "Td/Vtk.lean",
  "def": "vstep",
  "old": "fluid := st.fluid + 1 }",
  "new": "fluid := 0 }",
  "edit": "counter of the thermalizer not increased",
  "claim": "C151 names"
 }
]