[
 {
  "file": "Dal/Model.lean",
  "def": "rootArg",
  "old": "1 - 4 * (ml * ml)",
  "new": "1 - 2 * (ml * ml)",
  "edit": "threshold of the pair too low",
  "claim": "C187"
 },
 {
  "file": "Dal/Model.lean",
  "def": "withPhaseSpace",
  "old": "(1 + 2 * (ml * ml) / (q * q))",
  "new": "(1 + 4 * (ml * ml) / (q * q))",
  "edit": "wrong factor of the leptons",
  "claim": "C187"
 },
 {
  "file": "Dal/Model.lean",
  "def": "vecRad",
  "old": "let n1 := M * M - mo * mo",
  "new": "let n1 := M * M + mo * mo",
  "edit": "sum instead of difference of squares",
  "claim": "C187"
 },
 {
  "file": "Dal/Model.lean",
  "def": "vecRad",
  "old": "4 * (M * M) * (q * q)",
  "new": "4 * (mo * mo) * (q * q)",
  "edit": "wrong mass in the radicand",
  "claim": "C187"
 },
 {
  "file": "Dal/Model.lean",
  "def": "gammaVi",
  "old": "√(d * d - q * q) ^ 3",
  "new": "√(d * d - q * q)",
  "edit": "power of the momentum lost",
  "claim": "C187"
 },
 {
  "file": "Dal/Model.lean",
  "def": "gammaVi",
  "old": "√(s * s - q * q) *",
  "new": "√(s * s + q * q) *",
  "edit": "wrong sign under the root",
  "claim": "C187"
 },
 {
  "file": "Dal/Model.lean",
  "def": "diffWidth",
  "old": "if M < q + mo then .val 0 else",
  "new": "if M < q then .val 0 else",
  "edit": "third particle forgotten in the threshold",
  "claim": "C187"
 },
 {
  "file": "Dal/Model.lean",
  "def": "diffWidth",
  "old": "(1 - q / M * q / M) ^ 3",
  "new": "(q / M * q / M - 1) ^ 3",
  "edit": "difference with the wrong sign",
  "claim": "C187"
 },
 {
  "file": "Dal/Model.lean",
  "def": "diffWidth",
  "old": "4 * alpha / (3 * Real.pi) * g",
  "new": "2 * alpha / (3 * Real.pi) * g",
  "edit": "factor of identical photons lost",
  "claim": "C187"
 },
 {
  "file": "Dal/Model.lean",
  "def": "diffWidth",
  "old": "vecRad M q mo ^ ((3 : ℝ) / 2)",
  "new": "vecRad M q mo ^ ((1 : ℝ) / 2)",
  "edit": "wrong power",
  "claim": "C187"
 },
 {
  "file": "Dal/Model.lean",
  "def": "diffWidth",
  "old": "gammaVi M q mo (M + mo) (M - mo) f",
  "new": "gammaVi M q mo (M - mo) (M + mo) f",
  "edit": "parity of the Delta exchanged",
  "claim": "C187"
 },
 {
  "file": "Dal/Model.lean",
  "def": "diffWidth",
  "old": "gammaVi M q mo (M - mo) (M + mo) (108 / 100)",
  "new": "gammaVi M q mo (M - mo) (M + mo) f",
  "edit": "form factor of the Delta for N(1520)",
  "claim": "C187"
 },
 {
  "file": "Dal/Model.lean",
  "def": "guard",
  "old": "if rad < 0 then (if",
  "new": "if 0 ≤ rad then (if",
  "edit": "guard inverted",
  "claim": "C187"
 },
 {
  "file": "Dal/Model.lean",
  "def": "diffWidth",
  "old": "| .unsupported => .throw",
  "new": "| .unsupported => .val 0",
  "edit": "unsupported mothers accepted",
  "claim": "C187"
 }
]