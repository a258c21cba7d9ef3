[
 {
  "file": "Ext/Model.lean",
  "def": "effectiveMass",
  "old": "if i.p.pole < 1 / 1000000 then .ok i.p.pole\n  else if i.nanMom",
  "new": "if i.p.pole < 0 then .ok i.p.pole\n  else if i.nanMom",
  "edit": "photons get the mass of their momentum",
  "claim": "C159"
 },
 {
  "file": "Ext/Model.lean",
  "def": "effectiveMass",
  "old": "i.p.mom.sqr > -(1 / 1000000) then",
  "new": "i.p.mom.sqr > 0 then",
  "edit": "slightly space-like momenta refused",
  "claim": "C159"
 },
 {
  "file": "Ext/Model.lean",
  "def": "effectiveMass",
  "old": ".ok (Real.sqrt |i.p.mom.sqr|)",
  "new": ".ok i.p.pole",
  "edit": "pole mass for resonances",
  "claim": "C159"
 },
 {
  "file": "Ext/Model.lean",
  "def": "d4",
  "old": "if nan then ⟨none, none, none, none⟩ else",
  "new": "if false then ⟨none, none, none, none⟩ else",
  "edit": "NaN not noticed",
  "claim": "C159"
 },
 {
  "file": "Ext/Model.lean",
  "def": "validateOne",
  "old": "(d4 i.nanPos i.p.pos)",
  "new": "(d4 i.nanMom i.p.pos)",
  "edit": "NaN positions accepted",
  "claim": "C159"
 },
 {
  "file": "Ext/Model.lean",
  "def": "validateOne",
  "old": "mom := n.mom, scale",
  "new": "scale",
  "edit": "momentum not adjusted",
  "claim": "C159"
 },
 {
  "file": "Ext/Model.lean",
  "def": "validateOne",
  "old": "pos := n.pos, mom := n.mom, scale := n.scaling",
  "new": "pos := n.pos, mom := n.mom",
  "edit": "scaling factor of the caller kept",
  "claim": "C159"
 },
 {
  "file": "Ext/Model.lean",
  "def": "validateOne",
  "old": "{ i.p with pos := n.pos,",
  "new": "{ i.p with type := code, pos := n.pos,",
  "edit": "kaons converted (the finding disappears)",
  "claim": "C159"
 },
 {
  "file": "Ext/Model.lean",
  "def": "validate",
  "old": "| .ok r => .ok (o.toList ++ r)",
  "new": "| .ok r => .ok r",
  "edit": "validated particles lost",
  "claim": "C159"
 },
 {
  "file": "Ext/Model.lean",
  "def": "close",
  "old": "decide (|x - y| ≤ 1 / 10000 * max |x| |y|)",
  "new": "decide (|x - y| ≤ 1 / 100 * max |x| |y|)",
  "edit": "larger tolerance",
  "claim": "C159"
 },
 {
  "file": "Ext/Model.lean",
  "def": "close",
  "old": "else if x = 0 then decide (|y| ≤ 1 / 10000)",
  "new": "else if x = 0 then decide (|y| ≤ 1)",
  "edit": "larger tolerance at zero",
  "claim": "C159"
 },
 {
  "file": "Ext/Model.lean",
  "def": "close4",
  "old": "close a.y b.y && close a.z b.z",
  "new": "close a.y b.y",
  "edit": "z component not compared",
  "claim": "C159"
 },
 {
  "file": "Ext/Model.lean",
  "def": "positionAt",
  "old": "let d := time - p.pos.t",
  "new": "let d := p.pos.t - time",
  "edit": "propagated in the wrong direction",
  "claim": "C159"
 },
 {
  "file": "Ext/Model.lean",
  "def": "identical",
  "old": "else if close4 p.mom q.mom = false then false\n",
  "new": "",
  "edit": "momenta not compared",
  "claim": "C159"
 },
 {
  "file": "Ext/Model.lean",
  "def": "identical",
  "old": "if p.type ≠ q.type then false",
  "new": "if p.pole ≠ q.pole then false",
  "edit": "types not compared",
  "claim": "C159"
 },
 {
  "file": "Ext/Model.lean",
  "def": "blocked",
  "old": "!b.isEmpty && w.pauli b",
  "new": "false",
  "edit": "added nucleons never blocked (the finding disappears)",
  "claim": "C159"
 },
 {
  "file": "Ext/Model.lean",
  "def": "performAction",
  "old": "{ parts := w.arrange r.1, next := r.2 }",
  "new": "{ parts := w.arrange r.1, next := s.next }",
  "edit": "ids used again",
  "claim": "C159"
 },
 {
  "file": "Ext/Model.lean",
  "def": "performAction",
  "old": "| .ok false => s\n",
  "new": "| .ok false => { s with parts := [] }\n",
  "edit": "wrong result for mixed lists",
  "claim": "C159"
 },
 {
  "file": "Ext/Model.lean",
  "def": "findOne",
  "old": "identical p q time",
  "new": "p.id == q.id",
  "edit": "search by id",
  "claim": "C159"
 },
 {
  "file": "Ext/Model.lean",
  "def": "insertId",
  "old": "if p.id ≤ q.id then p :: q :: l",
  "new": "if p.id < q.id then p :: q :: l else if p.id = q.id then q :: l",
  "edit": "duplicates dropped by sorting",
  "claim": "C159"
 },
 {
  "file": "Ext/Model.lean",
  "def": "adjacent",
  "old": "p.id == q.id || adjacent (q :: l)",
  "new": "p.id == q.id",
  "edit": "only the first two compared",
  "claim": "C159"
 },
 {
  "file": "Ext/Model.lean",
  "def": "addStage",
  "old": "(performAction w s a, .ok ())\n\n/-- Removing",
  "new": "(s, .ok ())\n\n/-- Removing",
  "edit": "action not performed",
  "claim": "C159"
 },
 {
  "file": "Ext/Model.lean",
  "def": "removeStage",
  "old": "if adjacent found then (s, .error .twice)\n    else if",
  "new": "if",
  "edit": "same particle removed twice",
  "claim": "C159"
 },
 {
  "file": "Ext/Model.lean",
  "def": "removeStage",
  "old": "let found := sortId (l.filterMap (findOne s time))",
  "new": "let found := sortId (l.filter fun p => (findOne s time p).isSome)",
  "edit": "particles of the caller instead of those found",
  "claim": "C159"
 },
 {
  "file": "Ext/Model.lean",
  "def": "removeStage",
  "old": "(l.filterMap (findOne s time))",
  "new": "((l.take 1).filterMap (findOne s time))",
  "edit": "only the first one removed",
  "claim": "C159"
 },
 {
  "file": "Ext/Model.lean",
  "def": "call",
  "old": "else if w.nEnsembles > 1 then",
  "new": "else if w.nEnsembles > 2 then",
  "edit": "two ensembles accepted",
  "claim": "C159"
 },
 {
  "file": "Ext/Model.lean",
  "def": "call",
  "old": "if add.isEmpty && rem.isEmpty then (s, .ok ())\n",
  "new": "if add.isEmpty || rem.isEmpty then (s, .ok ())\n",
  "edit": "nothing done if one list is empty",
  "claim": "C159"
 },
 {
  "file": "Ext/Model.lean",
  "def": "call",
  "old": "if w.endTime < tEnd then (s, .error .endTime)",
  "new": "if w.endTime ≤ tEnd then (s, .error .endTime)",
  "edit": "evolution up to the end refused",
  "claim": "C159"
 }
]