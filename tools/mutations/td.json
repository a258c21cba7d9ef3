[
 {
  "file": "Td/Model.lean",
  "def": "qName",
  "old": "| .vLandau => \"v_landau\"",
  "new": "| .vLandau => \"tmn_landau\"",
  "edit": "same name for velocity and tensor",
  "claim": "C150 names"
 },
 {
  "file": "Td/Model.lean",
  "def": "dName",
  "old": "| .strangeness => \"strangeness\"",
  "new": "| .strangeness => \"charge\"",
  "edit": "same name for charge and strangeness",
  "claim": "C150 names"
 },
 {
  "file": "Td/Model.lean",
  "def": "pad",
  "old": "List.replicate (w - (Nat.digits 10 n).length) '0' ++ ",
  "new": "",
  "edit": "numbers not padded",
  "claim": "C150 names"
 },
 {
  "file": "Td/Model.lean",
  "def": "varName",
  "old": "(dName d).toList ++ ['_'] ++ (qName q).toList",
  "new": "(qName q).toList",
  "edit": "density type not in the name",
  "claim": "C150 names"
 },
 {
  "file": "Td/Model.lean",
  "def": "latName",
  "old": "snprintf 13",
  "new": "snprintf 12",
  "edit": "buffer one character shorter",
  "claim": "C150 names"
 },
 {
  "file": "Td/Model.lean",
  "def": "latName",
  "old": "['_'] ++ pad 7 event ++",
  "new": "['_'] ++ pad 7 0 ++",
  "edit": "event not in the name",
  "claim": "C150 names"
 },
 {
  "file": "Td/Model.lean",
  "def": "latName",
  "old": "(if ascii then \".dat\" else \".bin\")",
  "new": "\".dat\"",
  "edit": "same extension for both formats",
  "claim": "C150 names"
 },
 {
  "file": "Td/Model.lean",
  "def": "init",
  "old": "if p.on a && p.wants q then some ⟨none, true⟩ else none",
  "new": "if p.on a && p.wants q && !decide (q = .jQBS) then some ⟨none, true⟩ else none",
  "edit": "stream of the currents not created",
  "claim": "C150 start"
 },
 {
  "file": "Td/Model.lean",
  "def": "openFile",
  "old": "Function.update st.disk name (some [])⟩",
  "new": "Function.update st.disk name (some ((st.disk name).getD []))⟩",
  "edit": "file not truncated",
  "claim": "C150 event"
 },
 {
  "file": "Td/Model.lean",
  "def": "openFile",
  "old": "(some ⟨some name, false⟩)",
  "new": "(some ⟨some name, true⟩)",
  "edit": "failure bit not cleared",
  "claim": "C150 event"
 },
 {
  "file": "Td/Model.lean",
  "def": "write",
  "old": "(some ((st.disk f).getD [] ++ items))",
  "new": "(some items)",
  "edit": "file overwritten by each output",
  "claim": "C150 event"
 },
 {
  "file": "Td/Model.lean",
  "def": "close",
  "old": "(some ⟨none, b⟩)) }",
  "new": "(some ⟨some [], b⟩)) }",
  "edit": "file not closed",
  "claim": "C150 event"
 },
 {
  "file": "Td/Model.lean",
  "def": "nodes",
  "old": "(List.range nz).flatMap fun iz => (List.range ny).flatMap fun iy => (List.range nx).map fun ix => (ix, iy, iz)",
  "new": "(List.range nx).flatMap fun ix => (List.range ny).flatMap fun iy => (List.range nz).map fun iz => (ix, iy, iz)",
  "edit": "order of the loops",
  "claim": "C150 binary"
 },
 {
  "file": "Td/Model.lean",
  "def": "Grid.at",
  "old": "x.1 + g.nx * (x.2.1 + x.2.2 * g.ny)",
  "new": "x.1 + g.nx * (x.2.1 + x.2.2 * g.nz)",
  "edit": "wrong stride",
  "claim": "C150 binary"
 },
 {
  "file": "Td/Model.lean",
  "def": "version",
  "old": "0x3FF0000000000000",
  "new": "0x4000000000000000",
  "edit": "version 2",
  "claim": "C150 binary"
 },
 {
  "file": "Td/Model.lean",
  "def": "toInt",
  "old": "| .tmnLandau => 2",
  "new": "| .tmnLandau => 3",
  "edit": "wrong number of the quantity",
  "claim": "C150 binary"
 },
 {
  "file": "Td/Model.lean",
  "def": "asciiHeader",
  "old": "[.text \"#Grid spacing: \"] ++ three (.fixed 6) g.sizes",
  "new": "[.text \"#Grid spacing: \"] ++ three (.fixed 6) g.origin",
  "edit": "origin instead of spacing",
  "claim": "C150 text"
 },
 {
  "file": "Td/Model.lean",
  "def": "asciiHeader",
  "old": ".text \" \", .text (qName q), .eol",
  "new": ".text \" \", .text (qName q)",
  "edit": "line break missing",
  "claim": "C150 text"
 },
 {
  "file": "Td/Model.lean",
  "def": "binaryHeader",
  "old": "int4 g.nx ++ int4 g.ny ++ int4 g.nz",
  "new": "int4 g.nz ++ int4 g.ny ++ int4 g.nx",
  "edit": "dimensions reversed",
  "claim": "C150 binary"
 },
 {
  "file": "Td/Model.lean",
  "def": "binaryHeader",
  "old": "dbl g.sizes.1 ++ dbl g.sizes.2.1 ++ dbl g.sizes.2.2 ++\n    dbl g.origin.1 ++ dbl g.origin.2.1 ++ dbl g.origin.2.2",
  "new": "dbl g.origin.1 ++ dbl g.origin.2.1 ++ dbl g.origin.2.2 ++\n    dbl g.sizes.1 ++ dbl g.sizes.2.1 ++ dbl g.sizes.2.2",
  "edit": "order of the user guide",
  "claim": "C150 binary (the finding disappears)"
 },
 {
  "file": "Td/Model.lean",
  "def": "startDensity",
  "old": "let s := if q = .eckart then Quantity.eckart else .jQBS",
  "new": "let s := Quantity.eckart",
  "edit": "currents use the stream of the density",
  "claim": "C150 event"
 },
 {
  "file": "Td/Model.lean",
  "def": "tensorStream",
  "old": "| .tmnLandau => (.tmnLandau, true)",
  "new": "| .tmnLandau => (.tmn, true)",
  "edit": "wrong stream",
  "claim": "C150 event"
 },
 {
  "file": "Td/Model.lean",
  "def": "tensorStream",
  "old": "| .vLandau => (.vLandau, true)",
  "new": "| .vLandau => (.vLandau, false)",
  "edit": "pointer not set for the velocity",
  "claim": "C150 event"
 },
 {
  "file": "Td/Model.lean",
  "def": "finish",
  "old": "if p.binary then close st false q else .ok st",
  "new": "if p.binary then close st true q else .ok st",
  "edit": "wrong stream closed",
  "claim": "C150 event"
 },
 {
  "file": "Td/Model.lean",
  "def": "finish",
  "old": "let st ← (if p.ascii then close st true q else .ok st)\n",
  "new": "",
  "edit": "text files not closed",
  "claim": "C150 event"
 },
 {
  "file": "Td/Model.lean",
  "def": "writeTime",
  "old": "write st (some (true, q)) [.num (.scientific 14) t, .eol]",
  "new": "write st (some (true, q)) [.num (.scientific 14) t]",
  "edit": "line break after the time missing",
  "claim": "C150 text"
 },
 {
  "file": "Td/Model.lean",
  "def": "writeTime",
  "old": "if p.binary then write st (some (false, q)) (dbl t) else .ok st",
  "new": "(Except.ok st : Except Err St)",
  "edit": "time missing in binary files",
  "claim": "C150 binary"
 },
 {
  "file": "Td/Model.lean",
  "def": "cellItems",
  "old": "if ix + 1 = nx then [.eol]",
  "new": "if ix = nx then [.eol]",
  "edit": "line break never written",
  "claim": "C150 text"
 },
 {
  "file": "Td/Model.lean",
  "def": "cellItems",
  "old": "[.num (.scientific 14) v, .text \" \"] ++ (if",
  "new": "[.num (.scientific 14) v] ++ (if",
  "edit": "no blank between the numbers",
  "claim": "C150 text"
 },
 {
  "file": "Td/Model.lean",
  "def": "outDensity",
  "old": "writeTime p st .eckart t",
  "new": "writeTime p st .jQBS t",
  "edit": "density written to the file of the currents",
  "claim": "C150 event"
 },
 {
  "file": "Td/Model.lean",
  "def": "rowItems",
  "old": "++ [.eol] else []) ++",
  "new": "else []) ++",
  "edit": "line break missing",
  "claim": "C150 text"
 },
 {
  "file": "Td/Model.lean",
  "def": "rowItems",
  "old": "l.flatMap dbl",
  "new": "l.reverse.flatMap dbl",
  "edit": "components reversed",
  "claim": "C150 binary"
 },
 {
  "file": "Td/Model.lean",
  "def": "pairs",
  "old": "(List.range 4).filter fun j => i ≤ j",
  "new": "(List.range 4).filter fun j => i < j",
  "edit": "diagonal left out",
  "claim": "C150 tensor"
 },
 {
  "file": "Td/Model.lean",
  "def": "pairs",
  "old": "(List.range 4).filter fun j => i ≤ j",
  "new": "(List.range 4).filter fun j => j ≤ i",
  "edit": "lower triangle",
  "claim": "C150 tensor (the order of the components)"
 },
 {
  "file": "Td/Model.lean",
  "def": "tmnIdx",
  "old": "(i + 4 * j)",
  "new": "(i + 3 * j)",
  "edit": "wrong index",
  "claim": "C150 tensor"
 },
 {
  "file": "Td/Model.lean",
  "def": "outTensor",
  "old": "| .tmnLandau => tensorItems p g (fun v => o.comp (o.landau v))",
  "new": "| .tmnLandau => tensorItems p g o.comp",
  "edit": "lab frame instead of the rest frame",
  "claim": "C150 tensor"
 },
 {
  "file": "Td/Model.lean",
  "def": "outTensor",
  "old": "[(o.vel (g.at x)).1, (o.vel (g.at x)).2.1, (o.vel (g.at x)).2.2])",
  "new": "[(o.vel (g.at x)).1, (o.vel (g.at x)).2.1])",
  "edit": "z component missing",
  "claim": "C150 velocity"
 },
 {
  "file": "Td/Model.lean",
  "def": "outTensor",
  "old": "let (st, fp) ← writeTime p st q t",
  "new": "let (st, fp) ← writeTime p st .tmn t",
  "edit": "always the file of the lab frame",
  "claim": "C150 event"
 },
 {
  "file": "Td/Model.lean",
  "def": "startDens",
  "old": "| _ => some .isospin",
  "new": "| d => some d",
  "edit": "names after the type",
  "claim": "C150 (the finding disappears)"
 }
]