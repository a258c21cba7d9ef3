[
 {
  "file": "ThMass/Model.lean",
  "def": "thermal",
  "old": "m * m * Real.exp (-beta * m) * K2 (m * beta)",
  "new": "m * Real.exp (-beta * m) * K2 (m * beta)",
  "edit": "factor m dropped",
  "claim": "C167"
 },
 {
  "file": "ThMass/Model.lean",
  "def": "thermal",
  "old": "Real.exp (-beta * m)",
  "new": "Real.exp (beta * m)",
  "edit": "sign of the exponent",
  "claim": "C167"
 },
 {
  "file": "ThMass/Model.lean",
  "def": "thermal",
  "old": "K2 (m * beta)",
  "new": "K2 (m / beta)",
  "edit": "argument of the Bessel function",
  "claim": "C167"
 },
 {
  "file": "ThMass/Model.lean",
  "def": "thermal",
  "old": "m * m * Real.exp (-beta * m) *",
  "new": "m * m *",
  "edit": "scaled Bessel function not unscaled",
  "claim": "C167"
 },
 {
  "file": "ThMass/Model.lean",
  "def": "ratio",
  "old": "Wid.breitWignerNonrel m R.mass R.width",
  "new": "Wid.breitWignerNonrel m R.mass (R.width / 2)",
  "edit": "half width in the proposal density",
  "claim": "C167"
 },
 {
  "file": "ThMass/Model.lean",
  "def": "ratio",
  "old": "Wid.breitWignerNonrel m R.mass R.width",
  "new": "Wid.breitWignerNonrel m R.mth R.width",
  "edit": "wrong centre",
  "claim": "C167"
 },
 {
  "file": "ThMass/Model.lean",
  "def": "scan",
  "old": "if q m > b.1 then (q m, m) else b",
  "new": "if q m < b.1 then (q m, m) else b",
  "edit": "minimum instead of maximum",
  "claim": "C167"
 },
 {
  "file": "ThMass/Model.lean",
  "def": "scan",
  "old": "then (q m, m) else b",
  "new": "then (q m, b.2) else b",
  "edit": "position of the maximum not updated",
  "claim": "C167"
 },
 {
  "file": "ThMass/Model.lean",
  "def": "pass",
  "old": "/ 31) 30 1 s.best",
  "new": "/ 31) 29 1 s.best",
  "edit": "last point left out",
  "claim": "C167"
 },
 {
  "file": "ThMass/Model.lean",
  "def": "pass",
  "old": "(s.upper - s.lower) / 31",
  "new": "(s.upper - s.lower) / 30",
  "edit": "step too large",
  "claim": "C167"
 },
 {
  "file": "ThMass/Model.lean",
  "def": "pass",
  "old": "b.2 - (b.2 - s.lower) * (1 / 10)",
  "new": "b.2 - (b.2 - s.lower) * (11 / 10)",
  "edit": "window leaves the range",
  "claim": "C167"
 },
 {
  "file": "ThMass/Model.lean",
  "def": "maxMass",
  "old": "maxMass : ℝ := 5",
  "new": "maxMass : ℝ := 4",
  "edit": "other largest mass",
  "claim": "C167"
 },
 {
  "file": "ThMass/Model.lean",
  "def": "envelope",
  "old": ".best.1 * (3 / 2)",
  "new": ".best.1",
  "edit": "no safety factor",
  "claim": "C167"
 },
 {
  "file": "ThMass/Model.lean",
  "def": "envelope",
  "old": "(q m0, m0)",
  "new": "(0, m0)",
  "edit": "pole not considered",
  "claim": "C167"
 },
 {
  "file": "ThMass/Model.lean",
  "def": "draw",
  "old": "R.mass (1 / 2 * R.width) R.mth",
  "new": "R.mass R.width R.mth",
  "edit": "full width as half width",
  "claim": "C167"
 },
 {
  "file": "ThMass/Model.lean",
  "def": "draw",
  "old": "(1 / 2 * R.width) R.mth maxMass u",
  "new": "(1 / 2 * R.width) 0 maxMass u",
  "edit": "lower limit dropped",
  "claim": "C167"
 },
 {
  "file": "ThMass/Model.lean",
  "def": "draw",
  "old": "if q m < Rand.uniform 0 top v",
  "new": "if q m > Rand.uniform 0 top v",
  "edit": "condition inverted",
  "claim": "C167"
 },
 {
  "file": "ThMass/Model.lean",
  "def": "draw",
  "old": "if q m < Rand.uniform 0 top v",
  "new": "if q m < Rand.uniform 0 1 v",
  "edit": "envelope not used",
  "claim": "C167"
 },
 {
  "file": "ThMass/Model.lean",
  "def": "draw",
  "old": "else if q m > top then draw q R (q m) rest",
  "new": "else if q m > top then draw q R top rest",
  "edit": "envelope not raised",
  "claim": "C167"
 },
 {
  "file": "ThMass/Model.lean",
  "def": "draw",
  "old": "    else if q m > top then draw q R (q m) rest\n",
  "new": "",
  "edit": "mass above the envelope accepted (the finding disappears)",
  "claim": "C167"
 },
 {
  "file": "ThMass/Model.lean",
  "def": "sample",
  "old": "if R.stable then some R.mass",
  "new": "if R.stable then some R.mth",
  "edit": "threshold mass for stable hadrons",
  "claim": "C167"
 }
]