[
 {
  "file": "Req/Model.lean",
  "def": "Content.custom",
  "old": "| .particles | .collisions | .dileptons | .photons | .initialConditions => true",
  "new": "| .particles | .collisions | .dileptons | .photons => true",
  "edit": "initial conditions not custom",
  "claim": "C156"
 },
 {
  "file": "Req/Model.lean",
  "def": "oscar2013",
  "old": "\"pdg\", \"ID\", \"charge\"]\n\n/-- `OutputDefaultQuantities::oscar2013extended`",
  "new": "\"pdg\", \"ID\"]\n\n/-- `OutputDefaultQuantities::oscar2013extended`",
  "edit": "charge missing in the standard columns",
  "claim": "C156"
 },
 {
  "file": "Req/Model.lean",
  "def": "oscar2013extended",
  "old": "\"pdg_mother1\", \"pdg_mother2\", \"baryon_number\"",
  "new": "\"pdg_mother2\", \"pdg_mother1\", \"baryon_number\"",
  "edit": "mothers exchanged",
  "claim": "C156"
 },
 {
  "file": "Req/Model.lean",
  "def": "setInsert",
  "old": "else if x = y then y :: l else",
  "new": "else if x = y then l else",
  "edit": "equal element removed",
  "claim": "C156"
 },
 {
  "file": "Req/Model.lean",
  "def": "setInsert",
  "old": "if x < y then x :: y :: l",
  "new": "if x < y then x :: l",
  "edit": "element lost when inserting",
  "claim": "C156"
 },
 {
  "file": "Req/Model.lean",
  "def": "checkedExtended",
  "old": "if c = .particles then S.extended .particles else S.extended .collisions",
  "new": "S.extended .collisions",
  "edit": "particles use the option of the collisions",
  "claim": "C156"
 },
 {
  "file": "Req/Model.lean",
  "def": "checkedExtended",
  "old": "if c = .particles then S.extended .particles else S.extended .collisions",
  "new": "S.extended c",
  "edit": "own option of each content (the finding disappears)",
  "claim": "C156"
 },
 {
  "file": "Req/Model.lean",
  "def": "sameQuantities",
  "old": "if checkedExtended S c then oscar2013extended else oscar2013",
  "new": "oscar2013",
  "edit": "extended ignored in the check",
  "claim": "C156"
 },
 {
  "file": "Req/Model.lean",
  "def": "quantitiesFit",
  "old": "!= (ascii || binary) then false",
  "new": "!= ascii then false",
  "edit": "Binary without quantities",
  "claim": "C156"
 },
 {
  "file": "Req/Model.lean",
  "def": "quantitiesFit",
  "old": "if (!(S.quantities c).isEmpty) != (ascii || binary) then false",
  "new": "if (S.quantities c).isEmpty && (ascii || binary) then false",
  "edit": "unused quantities accepted",
  "claim": "C156"
 },
 {
  "file": "Req/Model.lean",
  "def": "quantitiesFit",
  "old": "else if binary && fs.contains \"Oscar2013_bin\" && sameQuantities S c then false\n",
  "new": "",
  "edit": "same binary file twice",
  "claim": "C156"
 },
 {
  "file": "Req/Model.lean",
  "def": "quantitiesFit",
  "old": "ascii && fs.contains \"Oscar2013\" && sameQuantities",
  "new": "ascii && fs.contains \"Oscar2013_bin\" && sameQuantities",
  "edit": "wrong format compared",
  "claim": "C156"
 },
 {
  "file": "Req/Model.lean",
  "def": "checkOne",
  "old": "else if fs.isEmpty then .error .invalidInput\n",
  "new": "",
  "edit": "empty list accepted",
  "claim": "C156"
 },
 {
  "file": "Req/Model.lean",
  "def": "checkOne",
  "old": "if fs.length > 1 then .error .invalidInput else .ok []",
  "new": "if fs.length > 2 then .error .invalidInput else .ok []",
  "edit": "None with another format",
  "claim": "C156"
 },
 {
  "file": "Req/Model.lean",
  "def": "checkOne",
  "old": "else if (toSet fs).length != fs.length then .ok (toSet fs)\n",
  "new": "",
  "edit": "repeated formats kept",
  "claim": "C156"
 },
 {
  "file": "Req/Model.lean",
  "def": "checkOne",
  "old": "if c.custom && !quantitiesFit S c fs",
  "new": "if !quantitiesFit S c fs",
  "edit": "quantities checked for all contents",
  "claim": "C156"
 },
 {
  "file": "Req/Model.lean",
  "def": "checkAll",
  "old": "| .ok l => .ok ((c, gs) :: l)",
  "new": "| .ok l => .ok ((c, fs) :: l)",
  "edit": "cleaned list not used",
  "claim": "C156"
 },
 {
  "file": "Req/Model.lean",
  "def": "oscarName",
  "old": "| .photons => some \"Photons\"",
  "new": "| .photons => some \"Dileptons\"",
  "edit": "photons written to the dilepton file",
  "claim": "C156"
 },
 {
  "file": "Req/Model.lean",
  "def": "oscarFile",
  "old": "(if format = \"ASCII\" then \".dat\" else \".oscar\")",
  "new": "\".oscar\"",
  "edit": "ASCII overwrites Oscar2013",
  "claim": "C156"
 },
 {
  "file": "Req/Model.lean",
  "def": "oscarFile",
  "old": "(if format = \"Oscar1999\" then \"1999\" else \"\")",
  "new": "\"\"",
  "edit": "Oscar1999 overwrites Oscar2013",
  "claim": "C156"
 },
 {
  "file": "Req/Model.lean",
  "def": "createOscar",
  "old": "if format = \"ASCII\" ∧ ¬S.validQuantities (S.quantities c) then .error .badQuantities else .ok",
  "new": "if False then .error .badQuantities else .ok",
  "edit": "bad quantities accepted",
  "claim": "C156"
 },
 {
  "file": "Req/Model.lean",
  "def": "binaryQuantities",
  "old": "let d := if S.extended c then oscar2013extended else oscar2013\n  if format = \"Oscar2013_bin\" then d",
  "new": "let d := if S.extended c then oscar2013extended else oscar2013\n  if format = \"Binary\" then d",
  "edit": "formats exchanged",
  "claim": "C156"
 },
 {
  "file": "Req/Model.lean",
  "def": "binaryQuantities",
  "old": "let d := if S.extended c",
  "new": "let d := if S.extended .collisions",
  "edit": "option of the collisions",
  "claim": "C156"
 },
 {
  "file": "Req/Model.lean",
  "def": "binaryName",
  "old": "else if q = oscar2013extended then \"_oscar2013_extended\" else \"_custom\"",
  "new": "else \"_custom\"",
  "edit": "extended file named custom",
  "claim": "C156"
 },
 {
  "file": "Req/Model.lean",
  "def": "binaryName",
  "old": "| .initialConditions => \"SMASH_IC\"\n    | c",
  "new": "| .initialConditions => \"particles\"\n    | c",
  "edit": "initial conditions overwrite the particles",
  "claim": "C156"
 },
 {
  "file": "Req/Model.lean",
  "def": "createBinary",
  "old": "¬(S.quantities c).isEmpty ∧ ¬S.validQuantities q",
  "new": "¬(S.quantities c).isEmpty ∧ S.validQuantities q",
  "edit": "check inverted",
  "claim": "C156"
 },
 {
  "file": "Req/Model.lean",
  "def": "isHepmc",
  "old": " || format == \"HepMC_treeroot\"",
  "new": "",
  "edit": "tree format unknown",
  "claim": "C156"
 },
 {
  "file": "Req/Model.lean",
  "def": "createHepmc",
  "old": "some (.file \"SMASH_HepMC_collisions.asciiv3\")",
  "new": "some (.file \"SMASH_HepMC_particles.asciiv3\")",
  "edit": "same file for both contents",
  "claim": "C156"
 },
 {
  "file": "Req/Model.lean",
  "def": "createHepmc",
  "old": "if S.hasHepmcRoot then some (.file \"SMASH_HepMC_particles.root\") else none",
  "new": "some (.file \"SMASH_HepMC_particles.root\")",
  "edit": "build without ROOT I/O",
  "claim": "C156"
 },
 {
  "file": "Req/Model.lean",
  "def": "createRivet",
  "old": "if used then (none, true)\n    else ",
  "new": "",
  "edit": "flag ignored",
  "claim": "C156"
 },
 {
  "file": "Req/Model.lean",
  "def": "createRivet",
  "old": "(some (.file \"SMASH_Rivet.yoda\"), true)",
  "new": "(some (.file \"SMASH_Rivet.yoda\"), false)",
  "edit": "flag not set",
  "claim": "C156"
 },
 {
  "file": "Req/Model.lean",
  "def": "createRivet",
  "old": "  else (none, used)\n\n",
  "new": "  else (some (.file \"SMASH_Rivet.yoda\"), used)\n\n",
  "edit": "Rivet without the library",
  "claim": "C156"
 },
 {
  "file": "Req/Model.lean",
  "def": "ensemblesRefuse",
  "old": "S.ensembles > 1",
  "new": "S.ensembles > 2",
  "edit": "two ensembles accepted",
  "claim": "C156"
 },
 {
  "file": "Req/Model.lean",
  "def": "ensemblesRefuse",
  "old": " || c == .rivet",
  "new": "",
  "edit": "Rivet with ensembles",
  "claim": "C156"
 },
 {
  "file": "Req/Model.lean",
  "def": "createOutput",
  "old": ".ok (some (.series \"pos_ev\"), used)",
  "new": ".ok (none, used)",
  "edit": "VTK of particles missing",
  "claim": "C156"
 },
 {
  "file": "Req/Model.lean",
  "def": "createOutput",
  "old": "if c = .initialConditions then \"SMASH_IC\" else c.name",
  "new": "c.name",
  "edit": "other name of the ROOT file",
  "claim": "C156"
 },
 {
  "file": "Req/Model.lean",
  "def": "createOutput",
  "old": "(format = \"Binary\" ∨ format = \"Oscar2013_bin\") ∧ c.custom then",
  "new": "(format = \"Binary\" ∨ format = \"Oscar2013_bin\") then",
  "edit": "binary thermodynamics",
  "claim": "C156"
 },
 {
  "file": "Req/Model.lean",
  "def": "createOutput",
  "old": "else if c = .thermodynamics ∧ format = \"Lattice_ASCII\" then .ok (some (.series \"lattice.dat\"), used)",
  "new": "else if c = .thermodynamics ∧ format = \"Lattice_ASCII\" then .ok (some (.series \"lattice.bin\"), used)",
  "edit": "ASCII lattice in the binary file",
  "claim": "C156"
 },
 {
  "file": "Req/Model.lean",
  "def": "createOutput",
  "old": "if S.dynamicIC then .error .dynamic else .ok",
  "new": ".ok",
  "edit": "dynamic initial conditions accepted",
  "claim": "C156"
 },
 {
  "file": "Req/Model.lean",
  "def": "createOutput",
  "old": ".ok (createHepmc S c format, used)",
  "new": ".ok (createHepmc S .particles format, used)",
  "edit": "HepMC always for particles",
  "claim": "C156"
 },
 {
  "file": "Req/Model.lean",
  "def": "createOutput",
  "old": "else if c = .coulomb ∧ format = \"VTK\" then .ok (some (.series \"fields.vtk\"), used)\n",
  "new": "",
  "edit": "Coulomb output missing",
  "claim": "C156"
 },
 {
  "file": "Req/Model.lean",
  "def": "createFormats",
  "old": "| none => .ok (l, u)",
  "new": "| none => .ok (⟨c, f, .file \"\"⟩ :: l, u)",
  "edit": "missing output replaced",
  "claim": "C156"
 },
 {
  "file": "Req/Model.lean",
  "def": "createFormats",
  "old": "match createFormats S used' c fs with",
  "new": "match createFormats S used c fs with",
  "edit": "flag forgotten",
  "claim": "C156"
 },
 {
  "file": "Req/Model.lean",
  "def": "createAll",
  "old": "| .ok (l', u') => .ok (l ++ l', u')",
  "new": "| .ok (l', u') => .ok (l' ++ l, u')",
  "edit": "order of contents reversed",
  "claim": "C156"
 },
 {
  "file": "Req/Model.lean",
  "def": "createAll",
  "old": "| .ok (l', u') => .ok (l ++ l', u')",
  "new": "| .ok (l', u') => .ok (l', u')",
  "edit": "outputs of a content lost",
  "claim": "C156"
 },
 {
  "file": "Req/Model.lean",
  "def": "total",
  "old": "fun r => r.2.length",
  "new": "fun r => min r.2.length 1",
  "edit": "wrong count",
  "claim": "C156"
 },
 {
  "file": "Req/Model.lean",
  "def": "request",
  "old": "if l.length != total qs then .error .invalidInput else .ok l",
  "new": ".ok l",
  "edit": "missing outputs not noticed",
  "claim": "C156"
 },
 {
  "file": "Req/Model.lean",
  "def": "request",
  "old": "if l.length != total qs then",
  "new": "if l.length != total rs then",
  "edit": "count includes None and repetitions",
  "claim": "C156"
 }
]