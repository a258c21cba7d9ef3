[
 {
  "file": "Cell/Model.lean",
  "def": "Node.addParticle",
  "old": "nb := n.nb + x.B * factor",
  "new": "nb := n.nb + x.B",
  "edit": "weight of the baryon number dropped",
  "claim": "C165"
 },
 {
  "file": "Cell/Model.lean",
  "def": "Node.addParticle",
  "old": "ns := n.ns + x.S * factor",
  "new": "ns := n.ns + x.Q * factor",
  "edit": "charge instead of strangeness",
  "claim": "C165"
 },
 {
  "file": "Cell/Model.lean",
  "def": "Node.addParticle",
  "old": "x.mom.t * factor, x.mom.x * factor",
  "new": "x.mom.t * factor, x.mom.x",
  "edit": "weight of a momentum dropped",
  "claim": "C165"
 },
 {
  "file": "Cell/Model.lean",
  "def": "look",
  "old": "if eos.tabulated = false ∨ t.p < 0 then",
  "new": "if eos.tabulated = false then",
  "edit": "negative table values used",
  "claim": "C165"
 },
 {
  "file": "Cell/Model.lean",
  "def": "look",
  "old": "⟨eos.pressure s.1 s.2.1 s.2.2.1 s.2.2.2, s.1",
  "new": "⟨eos.pressure s.1 s.2.1 s.2.2.1 s.2.2.2 - 1, s.1",
  "edit": "wrong pressure",
  "claim": "C165"
 },
 {
  "file": "Cell/Model.lean",
  "def": "refine",
  "old": "Real.sqrt (1 - n.v.sqr)",
  "new": "Real.sqrt (1 + n.v.sqr)",
  "edit": "sign in the Lorentz factor",
  "claim": "C165"
 },
 {
  "file": "Cell/Model.lean",
  "def": "refine",
  "old": "let ginv := Real.sqrt (1 - n.v.sqr)",
  "new": "let ginv := 1 / Real.sqrt (1 - n.v.sqr)",
  "edit": "multiplied instead of divided by the Lorentz factor",
  "claim": "C165"
 },
 {
  "file": "Cell/Model.lean",
  "def": "refine",
  "old": "look eos n.e (ginv * n.nb)",
  "new": "look eos n.T0.t (ginv * n.nb)",
  "edit": "energy density of the computational frame",
  "claim": "C165"
 },
 {
  "file": "Cell/Model.lean",
  "def": "refine",
  "old": "(ginv * n.ns) n.nq",
  "new": "(ginv * n.ns) (ginv * n.nq)",
  "edit": "charge density transformed (the finding disappears)",
  "claim": "C165"
 },
 {
  "file": "Cell/Model.lean",
  "def": "refine",
  "old": "v := n.T0.vec.div (n.T0.t + s.p)",
  "new": "v := n.T0.vec.div n.T0.t",
  "edit": "pressure ignored in the velocity",
  "claim": "C165"
 },
 {
  "file": "Cell/Model.lean",
  "def": "refine",
  "old": "v := n.T0.vec.div (n.T0.t + s.p)",
  "new": "v := n.T0.vec.div (n.T0.t - s.p)",
  "edit": "sign of the pressure",
  "claim": "C165"
 },
 {
  "file": "Cell/Model.lean",
  "def": "tolerance",
  "old": "5 / 10000",
  "new": "5 / 1000",
  "edit": "larger tolerance",
  "claim": "C165"
 },
 {
  "file": "Cell/Model.lean",
  "def": "loop",
  "old": "n.T0.t - n.T0.vec.dot n.v",
  "new": "n.T0.t + n.T0.vec.dot n.v",
  "edit": "sign of the flow term",
  "claim": "C165"
 },
 {
  "file": "Cell/Model.lean",
  "def": "loop",
  "old": "if |e - n.e| < tolerance then (n', true) else",
  "new": "if e - n.e < tolerance then (n', true) else",
  "edit": "difference without absolute value",
  "claim": "C165"
 },
 {
  "file": "Cell/Model.lean",
  "def": "loop",
  "old": "then (n', true)",
  "new": "then (n, true)",
  "edit": "last energy density dropped",
  "claim": "C165"
 },
 {
  "file": "Cell/Model.lean",
  "def": "compute",
  "old": "loop eos 50 { n with v := ⟨0, 0, 0⟩ }",
  "new": "loop eos 50 n",
  "edit": "velocity not reset",
  "claim": "C165"
 },
 {
  "file": "Cell/Model.lean",
  "def": "compute",
  "old": "loop eos 50",
  "new": "loop eos 20",
  "edit": "fewer passes",
  "claim": "C165"
 },
 {
  "file": "Cell/Model.lean",
  "def": "updateNode",
  "old": "n.T0.t + |n.T0.x| + |n.T0.y| + |n.T0.z| ≥ ecrit",
  "new": "n.T0.t - |n.T0.x| - |n.T0.y| - |n.T0.z| ≥ ecrit",
  "edit": "threshold too strict",
  "claim": "C165"
 },
 {
  "file": "Cell/Model.lean",
  "def": "updateNode",
  "old": "if ignore = false ∨",
  "new": "if ignore = true ∨",
  "edit": "flag inverted",
  "claim": "C165"
 },
 {
  "file": "Cell/Model.lean",
  "def": "inRegion",
  "old": "on && decide (node.e > ecrit)",
  "new": "decide (node.e > ecrit) || on",
  "edit": "all particles on the lattice",
  "claim": "C166"
 },
 {
  "file": "Cell/Model.lean",
  "def": "inRegion",
  "old": "decide (node.e > ecrit)",
  "new": "decide (node.e ≥ ecrit)",
  "edit": "boundary of the region",
  "claim": "C166"
 },
 {
  "file": "Cell/Model.lean",
  "def": "collect",
  "old": "return if b then x :: r else r",
  "new": "return if b then x :: r else x :: r",
  "edit": "all particles collected",
  "claim": "C166"
 },
 {
  "file": "Cell/Model.lean",
  "def": "toRemove",
  "old": "if r.length > 30 then r else []",
  "new": "if r.length ≥ 30 then r else []",
  "edit": "limit off by one",
  "claim": "C166"
 },
 {
  "file": "Cell/Model.lean",
  "def": "toRemove",
  "old": "if r.length > 30 then r else []",
  "new": "r",
  "edit": "no limit",
  "claim": "C166"
 },
 {
  "file": "Cell/Model.lean",
  "def": "cellsToSample",
  "old": "| some n => decide (n.e > ecrit)",
  "new": "| some n => decide (n.e ≥ 0)",
  "edit": "all cells",
  "claim": "C166"
 },
 {
  "file": "Cell/Model.lean",
  "def": "numberBF",
  "old": "vol * (1 / Real.sqrt (1 - c.v.sqr)) * dens c.st.T c.st.mub c.st.mus c.st.muq",
  "new": "vol * dens c.st.T c.st.mub c.st.mus c.st.muq",
  "edit": "Lorentz factor dropped",
  "claim": "C166"
 },
 {
  "file": "Cell/Model.lean",
  "def": "numberBF",
  "old": "vol * (1 / Real.sqrt (1 - c.v.sqr)) * dens c.st.T c.st.mub c.st.mus c.st.muq",
  "new": "vol * (1 / Real.sqrt (1 - c.v.sqr)) * dens c.st.T c.st.mus c.st.mub c.st.muq",
  "edit": "swapped chemical potentials",
  "claim": "C166"
 },
 {
  "file": "Cell/Model.lean",
  "def": "numberMode",
  "old": "dens c.st.T c.st.mub c.st.mus 0) 0",
  "new": "dens c.st.T c.st.mub c.st.mus c.st.muq) 0",
  "edit": "chemical potential used (the finding disappears)",
  "claim": "C166"
 },
 {
  "file": "Cell/Model.lean",
  "def": "numberMode",
  "old": "dens c.st.T c.st.mub c.st.mus 0) 0",
  "new": "dens c.st.T c.st.mub 0 0) 0",
  "edit": "chemical potential of strangeness dropped",
  "claim": "C166"
 },
 {
  "file": "Cell/Model.lean",
  "def": "expected",
  "old": "* ntest * dens",
  "new": "* dens",
  "edit": "test particles forgotten",
  "claim": "C166"
 },
 {
  "file": "Cell/Model.lean",
  "def": "walk",
  "old": "| [], s, i => if s < r then none",
  "new": "| [], s, i => if s < r then some i",
  "edit": "last cell instead of reading behind the end",
  "claim": "C166"
 },
 {
  "file": "Cell/Model.lean",
  "def": "walk",
  "old": "walk r xs (s + x) (i + 1)",
  "new": "walk r xs (s + x) i",
  "edit": "index not advanced",
  "claim": "C166"
 },
 {
  "file": "Cell/Model.lean",
  "def": "walk",
  "old": "walk r xs (s + x) (i + 1)",
  "new": "walk r xs x (i + 1)",
  "edit": "sum restarted",
  "claim": "C166"
 },
 {
  "file": "Cell/Model.lean",
  "def": "choose",
  "old": "walk r ns 0 (-1)",
  "new": "walk r ns 0 0",
  "edit": "index off by one",
  "claim": "C166"
 },
 {
  "file": "Cell/Model.lean",
  "def": "place",
  "old": "⟨c.x + u.x, c.y + u.y, c.z + u.z⟩",
  "new": "⟨c.x + u.x, c.y + u.y, c.z⟩",
  "edit": "no spread in z",
  "claim": "C166"
 },
 {
  "file": "Cell/Model.lean",
  "def": "place",
  "old": "⟨c.x + u.x, c.y + u.y, c.z + u.z⟩",
  "new": "⟨c.x + u.x, c.y + u.x, c.z + u.z⟩",
  "edit": "same number for x and y",
  "claim": "C166"
 },
 {
  "file": "Cell/Model.lean",
  "def": "momentum",
  "old": "c.v.neg",
  "new": "c.v",
  "edit": "boost in the wrong direction",
  "claim": "C166"
 },
 {
  "file": "Cell/Model.lean",
  "def": "momentum",
  "old": "Real.sqrt (m * m + q.dot q)",
  "new": "Real.sqrt (m + q.dot q)",
  "edit": "mass not squared",
  "claim": "C166"
 }
]