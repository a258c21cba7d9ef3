[
 {
  "file": "Eos/Model.lean",
  "def": "index",
  "old": "nq * (ie * nnb + inb) + iq",
  "new": "nnb * (ie * nq + inb) + iq",
  "edit": "numbers of nodes exchanged",
  "claim": "C148 storage"
 },
 {
  "file": "Eos/Model.lean",
  "def": "index",
  "old": "nq * (ie * nnb + inb) + iq",
  "new": "nq * (inb * nnb + ie) + iq",
  "edit": "energy and baryon index exchanged",
  "claim": "C148 storage"
 },
 {
  "file": "Eos/Model.lean",
  "def": "read",
  "old": "< tab.ne * tab.nnb * tab.nq",
  "new": "≤ tab.ne * tab.nnb * tab.nq",
  "edit": "end of the vector readable",
  "claim": "C148 empty table"
 },
 {
  "file": "Eos/Model.lean",
  "def": "toSize",
  "old": "if ⌊x⌋ < 0 ∨ (2 : ℤ) ^ 64 ≤ ⌊x⌋ then .error .cast else",
  "new": "if (2 : ℤ) ^ 64 ≤ ⌊x⌋ then .error .cast else",
  "edit": "negative numbers become zero",
  "claim": "C148 finding on negative densities"
 },
 {
  "file": "Eos/Model.lean",
  "def": "pred64",
  "old": "if n = 0 then 2 ^ 64 - 1 else n - 1",
  "new": "if n = 0 then 0 else n - 1",
  "edit": "no wrap around",
  "claim": "C148 finding on the empty table"
 },
 {
  "file": "Eos/Model.lean",
  "def": "trilinear",
  "old": "az * (ax * (ay * f8 + (1 - ay) * f6)",
  "new": "az * (ax * (ay * f6 + (1 - ay) * f8)",
  "edit": "corners exchanged",
  "claim": "C148 interpolation"
 },
 {
  "file": "Eos/Model.lean",
  "def": "trilinear",
  "old": "(1 - az) * (ax",
  "new": "az * (ax",
  "edit": "weight of the lower plane",
  "claim": "C148 nodes"
 },
 {
  "file": "Eos/Model.lean",
  "def": "get",
  "old": "let an := nb / tab.dnb - inb",
  "new": "let an := nb / tab.dnb - iq",
  "edit": "wrong fraction",
  "claim": "C148 interpolation"
 },
 {
  "file": "Eos/Model.lean",
  "def": "get",
  "old": "pred64 tab.ne ≤ ie ∨",
  "new": "tab.ne ≤ ie ∨",
  "edit": "last node allowed",
  "claim": "C148 outside"
 },
 {
  "file": "Eos/Model.lean",
  "def": "get",
  "old": "let s4 ← read tab (ie + 1) (inb + 1) iq",
  "new": "let s4 ← read tab ie (inb + 1) iq",
  "edit": "wrong corner",
  "claim": "C148 interpolation"
 },
 {
  "file": "Eos/Model.lean",
  "def": "get",
  "old": "let iq ← toSize (q / tab.dq)",
  "new": "let iq ← toSize (q / tab.dnb)",
  "edit": "wrong step",
  "claim": "C148 interpolation"
 },
 {
  "file": "Eos/Model.lean",
  "def": "get",
  "old": "s1.mus s2.mus s3.mus s4.mus s5.mus",
  "new": "s1.mus s2.mus s3.mus s4.mub s5.mus",
  "edit": "wrong component",
  "claim": "C148 interpolation"
 },
 {
  "file": "Eos/Model.lean",
  "def": "extra",
  "old": "⟨2 * x.T - y.T,",
  "new": "⟨2 * y.T - x.T,",
  "edit": "extrapolation in the wrong direction",
  "claim": "C148 compilation (only the rule itself)"
 },
 {
  "file": "Eos/Model.lean",
  "def": "entry",
  "old": "if e ≤ nb ∨ e ≤ q then",
  "new": "if e < nb ∨ e ≤ q then",
  "edit": "boundary of the physical region",
  "claim": "C148 compilation"
 },
 {
  "file": "Eos/Model.lean",
  "def": "entry",
  "old": "g.solve e nb 0 q init",
  "new": "g.solve e q 0 nb init",
  "edit": "charge and baryon density exchanged",
  "claim": "C148 compilation"
 },
 {
  "file": "Eos/Model.lean",
  "def": "entry",
  "old": "if 2 ≤ inb then extra",
  "new": "if 1 ≤ inb then extra",
  "edit": "extrapolation with one neighbour",
  "claim": "C148 compilation"
 },
 {
  "file": "Eos/Model.lean",
  "def": "entry",
  "old": "(inb - 2) iq)) (t (index tab.nnb tab.nq ie (inb - 1) iq))",
  "new": "(inb - 2) iq)) (t (index tab.nnb tab.nq ie (inb + 1) iq))",
  "edit": "neighbour not compiled yet",
  "claim": "C148 compilation"
 },
 {
  "file": "Eos/Model.lean",
  "def": "nodes",
  "old": "(List.range ne).flatMap fun ie => (List.range nnb)",
  "new": "(List.range (ne - 1)).flatMap fun ie => (List.range nnb)",
  "edit": "last energy left out",
  "claim": "C148 compilation"
 },
 {
  "file": "Eos/Model.lean",
  "def": "getNum",
  "old": "| some (.bad :: _) => (none, some 0)",
  "new": "| some (.bad :: r) => (some r, some 0)",
  "edit": "malformed word ignored (harmless for the theorems)",
  "claim": "C148 file"
 },
 {
  "file": "Eos/Model.lean",
  "def": "getNat",
  "old": "| some (.bad :: _) => (none, 0)",
  "new": "| some (.bad :: _) => (none, old)",
  "edit": "malformed number keeps the old one",
  "claim": "C148 finding on the empty table"
 },
 {
  "file": "Eos/Model.lean",
  "def": "getElem",
  "old": "let s := getNum b.1 none",
  "new": "let s := getNum T.1 none",
  "edit": "word read twice",
  "claim": "C148 file"
 },
 {
  "file": "Eos/Model.lean",
  "def": "load",
  "old": "let dnb := getNum de.1 (some tab.dnb)",
  "new": "let dnb := getNum (some file) (some tab.dnb)",
  "edit": "step read twice",
  "claim": "C148 file"
 },
 {
  "file": "Eos/Model.lean",
  "def": "agrees",
  "old": "eps < |g.ns r| ∨",
  "new": "",
  "edit": "strangeness not checked",
  "claim": "C148 decision"
 },
 {
  "file": "Eos/Model.lean",
  "def": "agrees",
  "old": "∧ 0 < x.T))",
  "new": "∧ x.T < 0))",
  "edit": "physical region wrong",
  "claim": "C148 decision"
 },
 {
  "file": "Eos/Model.lean",
  "def": "strided",
  "old": "i % (1 + n / 50) = 0",
  "new": "i % (1 + n / 50) = 1",
  "edit": "nodes between the steps are checked",
  "claim": "C148 decision"
 },
 {
  "file": "Eos/Model.lean",
  "def": "consistent",
  "old": "(strided tab.nnb).all",
  "new": "(strided tab.nnb).any",
  "edit": "one node suffices",
  "claim": "C148 decision"
 },
 {
  "file": "Eos/Model.lean",
  "def": "compile",
  "old": "if consistent g tab' then .ok (tab', none)",
  "new": "if !consistent g tab' then .ok (tab', none)",
  "edit": "decision reversed",
  "claim": "C148 decision"
 },
 {
  "file": "Eos/Model.lean",
  "def": "compile",
  "old": "else .ok (fill g tab', some (save rs re (fill g tab')))",
  "new": "else .ok (fill g tab', none)",
  "edit": "new table not written",
  "claim": "C148 decision"
 },
 {
  "file": "Eos/Model.lean",
  "def": "save",
  "old": ".nat tab.ne, .nat tab.nnb, .nat tab.nq]",
  "new": ".nat tab.nnb, .nat tab.ne, .nat tab.nq]",
  "edit": "header order",
  "claim": "C148 file"
 },
 {
  "file": "Eos/Gas.lean",
  "def": "aux",
  "old": "if x < -500 then 0 else if",
  "new": "if x < -5 then 0 else if",
  "edit": "cut too early",
  "claim": "C149 Boltzmann"
 },
 {
  "file": "Eos/Gas.lean",
  "def": "aux",
  "old": "z * z * exp x * b.K2 z",
  "new": "z * exp x * b.K2 z",
  "edit": "power of the mass",
  "claim": "C149 Boltzmann"
 },
 {
  "file": "Eos/Gas.lean",
  "def": "muOver",
  "old": "s.S * th.mus + s.Q * th.muq",
  "new": "s.S * th.muq + s.Q * th.mus",
  "edit": "potentials exchanged",
  "claim": "C149 monotony"
 },
 {
  "file": "Eos/Gas.lean",
  "def": "muOver",
  "old": "(s.B * th.mub + s.S",
  "new": "(-s.B * th.mub + s.S",
  "edit": "sign of the baryon potential",
  "claim": "C149 monotony"
 },
 {
  "file": "Eos/Gas.lean",
  "def": "scaled",
  "old": "((s.spin : ℝ) + 1) * aux",
  "new": "(2 * (s.spin : ℝ) + 1) * aux",
  "edit": "degeneracy for twice the spin",
  "claim": "C149 Boltzmann"
 },
 {
  "file": "Eos/Gas.lean",
  "def": "partialDensity",
  "old": "prefactor * th.T * th.T * th.T * scaled",
  "new": "prefactor * th.T * th.T * scaled",
  "edit": "power of the temperature",
  "claim": "C149 Boltzmann"
 },
 {
  "file": "Eos/Gas.lean",
  "def": "energySum",
  "old": "if x < -500 then none",
  "new": "if x < -500 then energySum b th l e",
  "edit": "suppressed species left out (the finding disappears)",
  "claim": "C149 finding"
 },
 {
  "file": "Eos/Gas.lean",
  "def": "energySum",
  "old": "then 3 * ((s.spin : ℝ) + 1) * exp x",
  "new": "then 6 * ((s.spin : ℝ) + 1) * exp x",
  "edit": "massless limit repaired",
  "claim": "C149 finding"
 },
 {
  "file": "Eos/Gas.lean",
  "def": "energySum",
  "old": "(3 * b.K2 z + z * b.K1 z)",
  "new": "(3 * b.K2 z - z * b.K1 z)",
  "edit": "sign of the mass term",
  "claim": "C149 energy"
 },
 {
  "file": "Eos/Gas.lean",
  "def": "energy",
  "old": "e * (prefactor * th.T * th.T * th.T * th.T)",
  "new": "e * (prefactor * th.T * th.T * th.T)",
  "edit": "power of the temperature",
  "claim": "C149 energy"
 },
 {
  "file": "Eos/Gas.lean",
  "def": "density",
  "old": "(fun s => !s.eos) (fun _ => 1)",
  "new": "(fun _ => false) (fun _ => 1)",
  "edit": "leptons in the gas",
  "claim": "C149 sums"
 },
 {
  "file": "Eos/Gas.lean",
  "def": "netB",
  "old": "(fun s => s.B) l 0",
  "new": "(fun s => s.Q) l 0",
  "edit": "charge in place of baryon number",
  "claim": "C149 sums"
 },
 {
  "file": "Eos/Gas.lean",
  "def": "netS",
  "old": "s.S == 0 || !s.eos",
  "new": "s.S == 0 && !s.eos",
  "edit": "wrong species left out",
  "claim": "C149 sums"
 },
 {
  "file": "Eos/Gas.lean",
  "def": "netQ",
  "old": "s.Q == 0 || !s.eos",
  "new": "s.Q == 1 || !s.eos",
  "edit": "positive particles left out",
  "claim": "C149 sums"
 },
 {
  "file": "Eos/Gas.lean",
  "def": "pressure",
  "old": "th.T * density b l th",
  "new": "density b l th",
  "edit": "temperature forgotten",
  "claim": "C149 sums"
 },
 {
  "file": "Eos/Gas.lean",
  "def": "bisect",
  "old": "(if 0 < r then bisect rho n lo m else bisect rho n m hi)",
  "new": "(if r < 0 then bisect rho n lo m else bisect rho n m hi)",
  "edit": "wrong half",
  "claim": "C149 neutrality"
 },
 {
  "file": "Eos/Gas.lean",
  "def": "bisect",
  "old": "if 1 / 100000000 < |r| ∧ n ≠ 0",
  "new": "if 1 / 100000000 < r ∧ n ≠ 0",
  "edit": "negative residuals accepted",
  "claim": "C149 neutrality"
 },
 {
  "file": "Eos/Gas.lean",
  "def": "bisect",
  "old": "else if n = 0 then none else some m",
  "new": "else some m",
  "edit": "no exception after the last iteration",
  "claim": "C149 neutrality"
 },
 {
  "file": "Eos/Gas.lean",
  "def": "musZero",
  "old": "50 0 (mub + T)",
  "new": "50 (-mub - T) (mub + T)",
  "edit": "range of the search enlarged",
  "claim": "C149 neutrality"
 },
 {
  "file": "Eos/Gas.lean",
  "def": "mubInit",
  "old": "l 0 / 2)",
  "new": "l 0)",
  "edit": "factor two",
  "claim": "C149 initial approximation"
 },
 {
  "file": "Eos/Gas.lean",
  "def": "sumOne",
  "old": "if s.eos && one s then",
  "new": "if one s then",
  "edit": "other particles counted",
  "claim": "C149 initial approximation"
 },
 {
  "file": "Eos/Gas.lean",
  "def": "solveLoop",
  "old": "if (o k).x.T < 15 / 1000 then (⟨0, 0, 0, 0⟩, false)\n    else ",
  "new": "",
  "edit": "low temperatures not caught",
  "claim": "C149 solver"
 },
 {
  "file": "Eos/Gas.lean",
  "def": "solveLoop",
  "old": "(o k).res < 1 / 100000000 then",
  "new": "1 / 100000000 < (o k).res then",
  "edit": "test reversed",
  "claim": "C149 solver"
 },
 {
  "file": "Eos/Gas.lean",
  "def": "solveLoop",
  "old": "else if (o k).stuck then ((o k).x, cont)",
  "new": "else if (o k).stuck then ((o k).x, true)",
  "edit": "warning whenever the solver is stuck (the finding disappears)",
  "claim": "C149 finding"
 },
 {
  "file": "Eos/Gas.lean",
  "def": "solveEos",
  "old": "solveLoop o 1000 1 false",
  "new": "solveLoop o 1000 1 true",
  "edit": "status initialised with failure (the finding disappears)",
  "claim": "C149 finding"
 }
]