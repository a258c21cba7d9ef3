[
 {
  "file": "Tdo/Model.lean",
  "def": "absOf",
  "old": "if a.sqr > -(1 / 1000000) then",
  "new": "if a.sqr > 0 then",
  "edit": "null vectors throw",
  "claim": "C154"
 },
 {
  "file": "Tdo/Model.lean",
  "def": "absOf",
  "old": "if a.sqr > -(1 / 1000000) then",
  "new": "if True then",
  "edit": "space-like currents do not throw (the finding disappears)",
  "claim": "C154"
 },
 {
  "file": "Tdo/Model.lean",
  "def": "absOf",
  "old": ".ok (Real.sqrt |a.sqr|)",
  "new": ".ok (|a.sqr|)",
  "edit": "square root forgotten",
  "claim": "C154"
 },
 {
  "file": "Tdo/Model.lean",
  "def": "columnPieces",
  "old": "(if o.vLandau then [qName .vLandau ++ \" x y z, \"] else []) ++",
  "new": "",
  "edit": "velocity not in the header",
  "claim": "C154"
 },
 {
  "file": "Tdo/Model.lean",
  "def": "columnPieces",
  "old": "if o.smearing then [\"j_QBS [(Q,B,S)/fm^3] (0 1 2 3)x3\"] else [\"j_QBS [(Q,B,S)] (0 1 2 3)x3\"]",
  "new": "if o.smearing then [\"j_QBS [(Q,B,S)] (0 1 2 3)x3\"] else [\"j_QBS [(Q,B,S)/fm^3] (0 1 2 3)x3\"]",
  "edit": "units swapped",
  "claim": "C154"
 },
 {
  "file": "Tdo/Model.lean",
  "def": "columnPieces",
  "old": "[qName .tmn ++ \" [GeV/fm^3] 00 01",
  "new": "[qName .tmnLandau ++ \" [GeV/fm^3] 00 01",
  "edit": "wrong name of the tensor",
  "claim": "C154"
 },
 {
  "file": "Tdo/Model.lean",
  "def": "columnPieces",
  "old": "[qName .eckart ++ \" [fm^-3], \"]",
  "new": "[qName .eckart ++ \" [fm^-3], \", \"0 \"]",
  "edit": "extra text",
  "claim": "C154"
 },
 {
  "file": "Tdo/Model.lean",
  "def": "header",
  "old": "if o.smearing then .point o.position else .text",
  "new": "if !o.smearing then .point o.position else .text",
  "edit": "point and volume swapped",
  "claim": "C154"
 },
 {
  "file": "Tdo/Model.lean",
  "def": "header",
  "old": "dName o.densType",
  "new": "dName .hadron",
  "edit": "density type always hadron",
  "claim": "C154"
 },
 {
  "file": "Tdo/Model.lean",
  "def": "sumCurrent",
  "old": "j.add (current",
  "new": "(⟨0, 0, 0, 0⟩ : V4).add (current",
  "edit": "only the last ensemble",
  "claim": "C154"
 },
 {
  "file": "Tdo/Model.lean",
  "def": "sumCurrent",
  "old": "current P o.smearing o.position",
  "new": "current P true o.position",
  "edit": "currents always smeared",
  "claim": "C154"
 },
 {
  "file": "Tdo/Model.lean",
  "def": "sumCurrent",
  "old": "(ps.map (·.seen d))",
  "new": "(ps.map (·.seen o.densType))",
  "edit": "currents of the chosen type",
  "claim": "C154"
 },
 {
  "file": "Tdo/Model.lean",
  "def": "addOne",
  "old": "if P.onlyParticipants && p.collisions == 0 then T",
  "new": "if P.onlyParticipants && p.collisions != 0 then T",
  "edit": "participants left out",
  "claim": "C154"
 },
 {
  "file": "Tdo/Model.lean",
  "def": "addOne",
  "old": "if P.onlyParticipants && p.collisions == 0 then T\n  else if",
  "new": "if p.collisions == 0 then T\n  else if",
  "edit": "spectators never counted",
  "claim": "C154"
 },
 {
  "file": "Tdo/Model.lean",
  "def": "addOne",
  "old": "|p.factor o.densType| < 1 / 1000000 then T",
  "new": "p.factor o.densType < 1 / 1000000 then T",
  "edit": "negative charges left out",
  "claim": "C154"
 },
 {
  "file": "Tdo/Model.lean",
  "def": "addOne",
  "old": "if sf < 1 / 1000000 then T",
  "new": "if sf < 1 / 1000 then T",
  "edit": "larger threshold",
  "claim": "C154"
 },
 {
  "file": "Tdo/Model.lean",
  "def": "addOne",
  "old": "(p.factor o.densType * sf * P.normFactor)",
  "new": "(p.factor o.densType * sf)",
  "edit": "normalisation forgotten",
  "claim": "C154"
 },
 {
  "file": "Tdo/Model.lean",
  "def": "addOne",
  "old": "(p.factor o.densType * sf * P.normFactor)",
  "new": "(sf * P.normFactor)",
  "edit": "charge forgotten",
  "claim": "C154"
 },
 {
  "file": "Tdo/Model.lean",
  "def": "addOne",
  "old": "else addParticle T p.mom (p.factor o.densType)",
  "new": "else addParticle T p.mom 1",
  "edit": "charge forgotten without smearing",
  "claim": "C154"
 },
 {
  "file": "Tdo/Model.lean",
  "def": "addOne",
  "old": "(p.pos.sub o.position)",
  "new": "(p.pos.sub ⟨0, 0, 0⟩)",
  "edit": "tensor always at the origin",
  "claim": "C154"
 },
 {
  "file": "Tdo/Model.lean",
  "def": "addOne",
  "old": "else if o.smearing then",
  "new": "else if !o.smearing then",
  "edit": "smearing inverted",
  "claim": "C154"
 },
 {
  "file": "Tdo/Model.lean",
  "def": "tensor",
  "old": "ps.foldl (addOne o P) T) zero",
  "new": "ps.foldl (addOne o P) zero) zero",
  "edit": "only the last ensemble in the tensor",
  "claim": "C154"
 },
 {
  "file": "Tdo/Model.lean",
  "def": "ten",
  "old": "(List.finRange 10).map T",
  "new": "(List.finRange 10).reverse.map T",
  "edit": "components in the wrong order",
  "claim": "C154"
 },
 {
  "file": "Tdo/Model.lean",
  "def": "tensorColumns",
  "old": "if o.tmn || o.tmnLandau || o.vLandau then",
  "new": "if o.tmn || o.tmnLandau then",
  "edit": "velocity alone not written",
  "claim": "C154"
 },
 {
  "file": "Tdo/Model.lean",
  "def": "tensorColumns",
  "old": "(if o.tmnLandau then ten (boosted T u) else []) ++",
  "new": "(if o.tmnLandau then ten T else []) ++",
  "edit": "tensor not boosted",
  "claim": "C154"
 },
 {
  "file": "Tdo/Model.lean",
  "def": "tensorColumns",
  "old": "[-u.x / u.t, -u.y / u.t, -u.z / u.t]",
  "new": "[u.x / u.t, u.y / u.t, u.z / u.t]",
  "edit": "sign of the velocity",
  "claim": "C154"
 },
 {
  "file": "Tdo/Model.lean",
  "def": "tensorColumns",
  "old": "(if o.tmn then ten T else []) ++\n    (if o.tmnLandau then ten (boosted T u) else []) ++",
  "new": "(if o.tmnLandau then ten (boosted T u) else []) ++\n    (if o.tmn then ten T else []) ++",
  "edit": "order of the tensors",
  "claim": "C154"
 },
 {
  "file": "Tdo/Model.lean",
  "def": "four",
  "old": "[j.t, j.x, j.y, j.z]",
  "new": "[j.x, j.y, j.z, j.t]",
  "edit": "time component last",
  "claim": "C154"
 },
 {
  "file": "Tdo/Model.lean",
  "def": "currentColumns",
  "old": "four (sumCurrent o P .charge ens) ++ four (sumCurrent o P .baryon ens)",
  "new": "four (sumCurrent o P .baryon ens) ++ four (sumCurrent o P .charge ens)",
  "edit": "currents in the wrong order",
  "claim": "C154"
 },
 {
  "file": "Tdo/Model.lean",
  "def": "currentColumns",
  "old": "four (sumCurrent o P .strangeness ens)",
  "new": "four (sumCurrent o P o.densType ens)",
  "edit": "wrong current",
  "claim": "C154"
 },
 {
  "file": "Tdo/Model.lean",
  "def": "eckartColumn",
  "old": "absOf (sumCurrent o P o.densType ens)",
  "new": "absOf (sumCurrent o P .baryon ens)",
  "edit": "always baryons",
  "claim": "C154"
 },
 {
  "file": "Tdo/Model.lean",
  "def": "output",
  "old": "| .error e => (.broken [t], some e)",
  "new": "| .error _ => (.broken [t], none)",
  "edit": "exception swallowed",
  "claim": "C154"
 },
 {
  "file": "Tdo/Model.lean",
  "def": "output",
  "old": "tensorColumns eig o P ens ++ currentColumns o P ens",
  "new": "currentColumns o P ens ++ tensorColumns eig o P ens",
  "edit": "currents before the tensor",
  "claim": "C154"
 },
 {
  "file": "Tdo/Model.lean",
  "def": "call",
  "old": "| .start n => ([.event n], none)",
  "new": "| .start n => ([.event (n + 1)], none)",
  "edit": "wrong number of the event",
  "claim": "C154"
 },
 {
  "file": "Tdo/Model.lean",
  "def": "call",
  "old": "| .stop _ => ([], none)",
  "new": "| .stop n => ([.event n], none)",
  "edit": "line at the end of the event",
  "claim": "C154"
 },
 {
  "file": "Tdo/Model.lean",
  "def": "runFrom",
  "old": "| (l, none) => runFrom eig o P (f ++ l) cs",
  "new": "| (l, none) => runFrom eig o P l cs",
  "edit": "file overwritten",
  "claim": "C154"
 },
 {
  "file": "Tdo/Model.lean",
  "def": "runFrom",
  "old": "| (l, some e) => (f ++ l, some e)",
  "new": "| (_, some e) => (f, some e)",
  "edit": "broken line not in the file",
  "claim": "C154"
 }
]