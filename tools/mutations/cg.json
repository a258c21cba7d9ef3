[
 {
  "file": "Cg/Model.lean",
  "def": "table",
  "old": "(⟨3, 3, 6, 1, 1, 2⟩, 77459666924148352)",
  "new": "(⟨3, 3, 6, 1, 1, 2⟩, 70710678118654746)",
  "edit": "one entry has the value of its neighbour",
  "claim": "the table holds Clebsch-Gordan coefficients"
 },
 {
  "file": "Cg/Model.lean",
  "def": "table",
  "old": "(⟨3, 3, 6, 1, -1, 0⟩, 67082039324993670)",
  "new": "(⟨3, 3, 6, 1, -1, 0⟩, -67082039324993670)",
  "edit": "one entry has the wrong sign",
  "claim": "the table holds Clebsch-Gordan coefficients"
 },
 {
  "file": "Cg/Model.lean",
  "def": "table",
  "old": "  (⟨3, 3, 6, 3, -3, 0⟩, 22360679774997894),\n",
  "new": "",
  "edit": "one entry is missing",
  "claim": "the table is complete up to isospin 3/2"
 },
 {
  "file": "Cg/Model.lean",
  "def": "table",
  "old": "(⟨3, 3, 6, 3, -1, 2⟩, 44721359549995793)",
  "new": "(⟨3, 3, 6, 3, -3, 0⟩, 44721359549995793)",
  "edit": "one key is a duplicate of another",
  "claim": "the table holds Clebsch-Gordan coefficients"
 },
 {
  "file": "Cg/Model.lean",
  "def": "hash",
  "old": "f k.m1 10",
  "new": "f k.m1 11",
  "edit": "shift of m1 overlaps m2",
  "claim": "the hash is injective"
 },
 {
  "file": "Cg/Model.lean",
  "def": "phase",
  "old": "= 0 then 1 else 0",
  "new": "= 0 then 0 else 1",
  "edit": "phase inverted",
  "claim": "calculated values are Clebsch-Gordan coefficients"
 },
 {
  "file": "Cg/Model.lean",
  "def": "phase",
  "old": "Int.tdiv (ja - jb + mc) 2",
  "new": "Int.tdiv (ja + jb + mc) 2",
  "edit": "phase with j1 + j2",
  "claim": "calculated values are Clebsch-Gordan coefficients"
 },
 {
  "file": "Cg/Model.lean",
  "def": "calculate",
  "old": "k.m1, k.m2, -k.m3⟩",
  "new": "k.m1, k.m2, k.m3⟩",
  "edit": "third component not negated",
  "claim": "calculated values are Clebsch-Gordan coefficients"
 },
 {
  "file": "Cg/Model.lean",
  "def": "calculate",
  "old": "scale (k.j3 + 1) w else",
  "new": "scale k.j3 w else",
  "edit": "normalisation sqrt(j3)",
  "claim": "calculated values are Clebsch-Gordan coefficients"
 },
 {
  "file": "Cg/Model.lean",
  "def": "coefficient",
  "old": "| none => ((k, compute k) :: tab, compute k)",
  "new": "| none => ((⟨k.j2, k.j1, k.j3, k.m2, k.m1, k.m3⟩, compute k) :: tab, compute k)",
  "edit": "the calculated value is stored under the swapped key",
  "claim": "later calls return the same value as the first"
 },
 {
  "file": "Cg/Model.lean",
  "def": "possibleIab",
  "old": "(a.i + b.i - |a.i - b.i| + 1)",
  "new": "(a.i + b.i - |a.i - b.i|)",
  "edit": "the maximal intermediate isospin is left out",
  "claim": "exception exactly if the intermediate isospin is not unique"
 },
 {
  "file": "Cg/Model.lean",
  "def": "allowedIab",
  "old": "decide (|iab - c.i| ≤ res.i)",
  "new": "decide (|iab - c.i| < res.i)",
  "edit": "minimal coupling excluded",
  "claim": "exception exactly if the intermediate isospin is not unique"
 },
 {
  "file": "Cg/Model.lean",
  "def": "sqr3to1",
  "old": "  | [iab] =>",
  "new": "  | iab :: _ =>",
  "edit": "no exception if several intermediate isospins",
  "claim": "exception exactly if the intermediate isospin is not unique"
 },
 {
  "file": "Cg/Model.lean",
  "def": "sqr3to1",
  "old": "cg ⟨a.i, b.i, iab, a.i3, b.i3, iabz⟩",
  "new": "cg ⟨a.i, c.i, iab, a.i3, b.i3, iabz⟩",
  "edit": "coupling with c instead of b",
  "claim": "three-body coupling"
 },
 {
  "file": "Cg/Model.lean",
  "def": "range4",
  "old": "max (max |a.i - b.i| |c.i - d.i|) |iz|",
  "new": "max |a.i - b.i| |iz|",
  "edit": "minimum ignores the final pair",
  "claim": "the loop visits the allowed total isospins"
 },
 {
  "file": "Cg/Model.lean",
  "def": "range4",
  "old": "if iz ≠ c.i3 + d.i3 then (1, 0)",
  "new": "if False then (1, 0)",
  "edit": "third components not compared",
  "claim": "the loop visits the allowed total isospins"
 },
 {
  "file": "Cg/Model.lean",
  "def": "range4",
  "old": "min (a.i + b.i) (c.i + d.i)",
  "new": "max (a.i + b.i) (c.i + d.i)",
  "edit": "maximum of the sums",
  "claim": "the loop visits the allowed total isospins"
 },
 {
  "file": "Cg/Model.lean",
  "def": "iterate",
  "old": "(iterate fuel stop (cur - 2))",
  "new": "(iterate fuel stop (cur - 1))",
  "edit": "steps of one half",
  "claim": "the loop visits the allowed total isospins"
 },
 {
  "file": "Cg/Model.lean",
  "def": "iterRange",
  "old": "iterate fuel (r.1 - 2) r.2",
  "new": "iterate fuel r.1 r.2",
  "edit": "the minimum is left out",
  "claim": "the loop visits the allowed total isospins"
 },
 {
  "file": "Cg/Model.lean",
  "def": "sqr2to2",
  "old": "let y := cg ⟨c.i, d.i, t, c.i3, d.i3, iz⟩",
  "new": "let y := cg ⟨a.i, d.i, t, c.i3, d.i3, iz⟩",
  "edit": "final pair coupling with the wrong isospin",
  "claim": "symmetry of the isospin factor"
 }
]