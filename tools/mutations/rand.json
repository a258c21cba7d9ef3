[
 {
  "file": "Rand/Model.lean",
  "def": "uniform",
  "old": "u * (max - min) + min",
  "new": "u * (max + min) + min",
  "edit": "range added instead of subtracted",
  "claim": "C55 all"
 },
 {
  "file": "Rand/Model.lean",
  "def": "expoLow",
  "old": "then Real.exp (A * x2) else 0",
  "new": "then Real.exp (A * x2) else 1",
  "edit": "fallback lower end 1",
  "claim": "C55 expo"
 },
 {
  "file": "Rand/Model.lean",
  "def": "expoLow",
  "old": "if aMin < A * x2 then",
  "new": "if aMin < A * x2 + 1 then",
  "edit": "threshold shifted",
  "claim": "C55 expo"
 },
 {
  "file": "Rand/Model.lean",
  "def": "expo",
  "old": "if x ≤ x1 ∧ x2 < x then some x",
  "new": "if x ≤ x1 then some x",
  "edit": "lower bound not checked",
  "claim": "C55 expo range"
 },
 {
  "file": "Rand/Model.lean",
  "def": "expo",
  "old": "if x ≤ x1 ∧ x2 < x then some x",
  "new": "if x < x1 ∧ x2 < x then some x",
  "edit": "upper end rejected",
  "claim": "C55 expo acceptance"
 },
 {
  "file": "Rand/Model.lean",
  "def": "expo",
  "old": "(expoLow A x2) u) / A",
  "new": "(expoLow A x2) u) * A",
  "edit": "multiplied by A",
  "claim": "C55 expo"
 },
 {
  "file": "Rand/Model.lean",
  "def": "power",
  "old": "if |n + 1| < 1 / 1000 then",
  "new": "if |n| < 1 / 1000 then",
  "edit": "special case for n=0",
  "claim": "C55 power"
 },
 {
  "file": "Rand/Model.lean",
  "def": "power",
  "old": "xMin * p\n  else",
  "new": "xMax * p\n  else",
  "edit": "starts at upper end",
  "claim": "C55 power"
 },
 {
  "file": "Rand/Model.lean",
  "def": "power",
  "old": "pow (uniform a b u) (1 / (n + 1))\n  else",
  "new": "pow (uniform a b u) (1 / n)\n  else",
  "edit": "wrong inverse exponent",
  "claim": "C55 power"
 },
 {
  "file": "Rand/Model.lean",
  "def": "power",
  "old": "fun p => sgn xMin * p",
  "new": "fun p => p",
  "edit": "sign dropped",
  "claim": "C55 power negative"
 },
 {
  "file": "Rand/Model.lean",
  "def": "power",
  "old": "(pow |xMax| (n + 1)).bind fun b =>\n      (pow",
  "new": "(pow |xMin| (n + 1)).bind fun b =>\n      (pow",
  "edit": "upper end replaced by lower end",
  "claim": "C55 power negative (law)"
 },
 {
  "file": "Rand/Model.lean",
  "def": "power",
  "old": "else if 0 ≤ xMin ∧ 0 < xMax then",
  "new": "else if 0 < xMin ∧ 0 < xMax then",
  "edit": "zero excluded from the positive branch",
  "claim": "C55 power zero"
 },
 {
  "file": "Rand/Model.lean",
  "def": "cauchy",
  "old": "pole + width * Real.tan",
  "new": "pole + Real.tan",
  "edit": "width dropped",
  "claim": "C55 cauchy"
 },
 {
  "file": "Rand/Model.lean",
  "def": "cauchy",
  "old": "(div (max - pole) width)",
  "new": "(div (max + pole) width)",
  "edit": "pole added",
  "claim": "C55 cauchy"
 },
 {
  "file": "Rand/Model.lean",
  "def": "betaA0",
  "old": "if p < c then betaA0 xmin b us",
  "new": "if c < p then betaA0 xmin b us",
  "edit": "rejection reversed",
  "claim": "C55 beta_a0"
 },
 {
  "file": "Rand/Model.lean",
  "def": "betaA0",
  "old": "let y := uniform 0 (-Real.log xmin) u",
  "new": "let y := uniform 0 (Real.log xmin) u",
  "edit": "sign of log",
  "claim": "C55 beta_a0"
 },
 {
  "file": "Rand/Model.lean",
  "def": "beta",
  "old": "div x1 (x1 + x2)",
  "new": "div x1 x2",
  "edit": "ratio instead of fraction",
  "claim": "C55 beta"
 },
 {
  "file": "Rand/Model.lean",
  "def": "canonicalNonzero",
  "old": "u + step * (1 - u)",
  "new": "u",
  "edit": "nextafter dropped",
  "claim": "C55 exponential"
 },
 {
  "file": "Rand/Model.lean",
  "def": "exponential",
  "old": "-Real.log (canonicalNonzero u step) / lambda",
  "new": "Real.log (canonicalNonzero u step) / lambda",
  "edit": "sign",
  "claim": "C55 exponential"
 },
 {
  "file": "Rand/Model.lean",
  "def": "seed63",
  "old": ">>> 1",
  "new": ">>> 0",
  "edit": "shift dropped",
  "claim": "C81"
 },
 {
  "file": "Rand/Model.lean",
  "def": "seed63",
  "old": "r1.setWidth 64 <<< 32",
  "new": "r1.setWidth 64 <<< 31",
  "edit": "shift by 31",
  "claim": "C81"
 },
 {
  "file": "Rand/Model.lean",
  "def": "seed63",
  "old": "||| r2.setWidth 64",
  "new": "&&& r2.setWidth 64",
  "edit": "and instead of or",
  "claim": "C81"
 },
 {
  "file": "Rand/Model.lean",
  "def": "besselLoop",
  "old": "1 / a * 2 * ((n + (i + 1) : ℕ) : K)",
  "new": "1 / a * 2 * ((n + i : ℕ) : K)",
  "edit": "index off by one",
  "claim": "C82"
 },
 {
  "file": "Rand/Model.lean",
  "def": "besselLoop",
  "old": "1 / a * 2 *",
  "new": "1 / a *",
  "edit": "factor two dropped",
  "claim": "C82"
 },
 {
  "file": "Rand/Model.lean",
  "def": "besselRatio",
  "old": "besselLoop n a 200 0",
  "new": "besselLoop n a 199 0",
  "edit": "odd number of iterations",
  "claim": "C82 upper"
 },
 {
  "file": "Rand/Model.lean",
  "def": "besselRatio",
  "old": "besselLoop n a 200 0",
  "new": "besselLoop n a 200 1",
  "edit": "starts from one",
  "claim": "C82"
 }
]