[
 {
  "file": "Lat/Model.lean",
  "def": "Options.print",
  "old": "o.onLattice && (o.vtk || o.full)",
  "new": "o.vtk || o.full",
  "edit": "printing without lattice",
  "claim": "C158"
 },
 {
  "file": "Lat/Model.lean",
  "def": "Options.print",
  "old": "o.onLattice && (o.vtk || o.full)",
  "new": "o.onLattice && o.vtk",
  "edit": "only VTK prints",
  "claim": "C158"
 },
 {
  "file": "Lat/Model.lean",
  "def": "create",
  "old": "jB := if pot && (o.skyrme || o.vdf) then fresh false",
  "new": "jB := if pot && o.skyrme then fresh false",
  "edit": "no density for VDF",
  "claim": "C158"
 },
 {
  "file": "Lat/Model.lean",
  "def": "create",
  "old": "jB := if pot && (o.skyrme || o.vdf) then fresh false",
  "new": "jB := if pot && (o.skyrme || o.vdf) then fresh true",
  "edit": "density of the potential only updated at output",
  "claim": "C158"
 },
 {
  "file": "Lat/Model.lean",
  "def": "create",
  "old": "jI3 := if pot && o.symmetry then fresh false else if o.printed = .isospin then fresh true else none",
  "new": "jI3 := if pot && o.symmetry then fresh false else none",
  "edit": "printed isospin density not created",
  "claim": "C158"
 },
 {
  "file": "Lat/Model.lean",
  "def": "create",
  "old": "custom := if o.printed = .other then fresh true",
  "new": "custom := if o.printed = .other then fresh false",
  "edit": "custom density never updated",
  "claim": "C158"
 },
 {
  "file": "Lat/Model.lean",
  "def": "create",
  "old": "(o.tmn || o.tmnLandau || o.vLandau) then fresh true else none\n    em",
  "new": "(o.tmn || o.tmnLandau) then fresh true else none\n    em",
  "edit": "velocity alone has no lattice",
  "claim": "C158"
 },
 {
  "file": "Lat/Model.lean",
  "def": "create",
  "old": "em := if pot && o.coulomb then",
  "new": "em := if o.onLattice && o.coulomb then",
  "edit": "fields without potentials",
  "claim": "C158"
 },
 {
  "file": "Lat/Model.lean",
  "def": "create",
  "old": "ub := pot && (o.skyrme || o.vdf)",
  "new": "ub := pot && o.vdf",
  "edit": "forces of Skyrme not created",
  "claim": "C158"
 },
 {
  "file": "Lat/Model.lean",
  "def": "create",
  "old": "jQBS := o.print && o.jQBS }",
  "new": "jQBS := o.full && o.jQBS }",
  "edit": "currents only for the full lattice",
  "claim": "C158"
 },
 {
  "file": "Lat/Model.lean",
  "def": "update",
  "old": "if x.atOutput = atOutput then",
  "new": "if true then",
  "edit": "updated at any time",
  "claim": "C158"
 },
 {
  "file": "Lat/Model.lean",
  "def": "update",
  "old": "⟨x.atOutput, some p, x.content⟩",
  "new": "⟨x.atOutput, some p, x.base⟩",
  "edit": "old values not kept",
  "claim": "C158"
 },
 {
  "file": "Lat/Model.lean",
  "def": "update",
  "old": "⟨x.atOutput, some p, x.content⟩",
  "new": "⟨true, some p, x.content⟩",
  "edit": "time of updates changed",
  "claim": "C158"
 },
 {
  "file": "Lat/Model.lean",
  "def": "eventStart",
  "old": "jB := if o.potentials then update false p s.jB else s.jB",
  "new": "jB := s.jB",
  "edit": "density not refreshed at the start of an event",
  "claim": "C158"
 },
 {
  "file": "Lat/Model.lean",
  "def": "eventStart",
  "old": "now := p, jB :=",
  "new": "now := s.now, jB :=",
  "edit": "particles of the event before",
  "claim": "C158"
 },
 {
  "file": "Lat/Model.lean",
  "def": "outputDensity",
  "old": "let s := { s with jB := update true s.now s.jB }",
  "new": "let s := { s with jB := update false s.now s.jB }",
  "edit": "density not updated at output",
  "claim": "C158"
 },
 {
  "file": "Lat/Model.lean",
  "def": "outputDensity",
  "old": "      (printLat [.density] s.jI3).map",
  "new": "      (printLat [.density] s.jB).map",
  "edit": "baryon density printed as isospin",
  "claim": "C158"
 },
 {
  "file": "Lat/Model.lean",
  "def": "outputDensity",
  "old": "let s := { s with custom := update true s.now s.custom }\n",
  "new": "",
  "edit": "custom density not updated",
  "claim": "C158"
 },
 {
  "file": "Lat/Model.lean",
  "def": "outputTmn",
  "old": "let s := { s with tmn := update true s.now s.tmn }\n",
  "new": "",
  "edit": "tensor not updated",
  "claim": "C158"
 },
 {
  "file": "Lat/Model.lean",
  "def": "outputTmn",
  "old": "(if o.tmnLandau then [.tmnLandau] else []) ++\n      (if o.vLandau then [.vLandau] else [])",
  "new": "(if o.vLandau then [.vLandau] else []) ++\n      (if o.tmnLandau then [.tmnLandau] else [])",
  "edit": "order of the outputs exchanged",
  "claim": "C158"
 },
 {
  "file": "Lat/Model.lean",
  "def": "outputRest",
  "old": "[(Quantity.fields, l.content)]",
  "new": "[(Quantity.fields, l.base)]",
  "edit": "fields of the step before",
  "claim": "C158"
 },
 {
  "file": "Lat/Model.lean",
  "def": "outputRest",
  "old": "(fields ++ [(.currents, some s.now)])",
  "new": "[(.currents, some s.now)]",
  "edit": "fields lost with currents",
  "claim": "C158"
 },
 {
  "file": "Lat/Model.lean",
  "def": "outputEnergy",
  "old": "if o.potentials then\n    match s.jB with",
  "new": "if o.skyrme then\n    match s.jB with",
  "edit": "energy only for Skyrme",
  "claim": "C158"
 },
 {
  "file": "Lat/Model.lean",
  "def": "updatePotentials",
  "old": "if o.symmetry then update false p s.jI3 else s.jI3",
  "new": "s.jI3",
  "edit": "isospin density never updated",
  "claim": "C158"
 },
 {
  "file": "Lat/Model.lean",
  "def": "updatePotentials",
  "old": "if o.skyrme || o.symmetry then update false p s.jB",
  "new": "if o.symmetry then update false p s.jB",
  "edit": "baryon density updated only with symmetry",
  "claim": "C158"
 },
 {
  "file": "Lat/Model.lean",
  "def": "updatePotentials",
  "old": "if o.vdf then update false p b else b",
  "new": "update false p b",
  "edit": "density updated twice, derivatives vanish",
  "claim": "C158"
 },
 {
  "file": "Lat/Model.lean",
  "def": "updatePotentials",
  "old": "if o.vdf then update false p b else b",
  "new": "b",
  "edit": "density not updated for VDF",
  "claim": "C158"
 },
 {
  "file": "Lat/Model.lean",
  "def": "updatePotentials",
  "old": "em := if o.coulomb then update false p s.em else s.em",
  "new": "em := s.em",
  "edit": "fields never updated",
  "claim": "C158"
 },
 {
  "file": "Lat/Model.lean",
  "def": "updatePotentials",
  "old": "else if o.coulomb && s.em.isNone then .error .null\n",
  "new": "",
  "edit": "Coulomb without lattice works (the finding disappears)",
  "claim": "C158"
 },
 {
  "file": "Lat/Model.lean",
  "def": "step",
  "old": "({ s with now := p' }, [])",
  "new": "({ s with now := p }, [])",
  "edit": "change of momenta lost",
  "claim": "C158"
 }
]