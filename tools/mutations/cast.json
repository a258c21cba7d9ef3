[
 {
  "file": "Cast/Model.lean",
  "def": "numericCast",
  "old": "if src.wrap t ≠ v ∨ (dst.signed ≠ src.signed ∧ (decide (t < 0) ≠ decide (v < 0)))",
  "new": "if src.wrap t ≠ v",
  "edit": "sign check dropped",
  "claim": "C56"
 },
 {
  "file": "Cast/Model.lean",
  "def": "numericCast",
  "old": "if src.wrap t ≠ v ∨ (dst.signed",
  "new": "if (dst.signed",
  "edit": "round trip check dropped",
  "claim": "C56"
 },
 {
  "file": "Cast/Model.lean",
  "def": "numericCast",
  "old": "src.wrap t ≠ v",
  "new": "t = v",
  "edit": "comparison inverted",
  "claim": "C56"
 },
 {
  "file": "Cast/Model.lean",
  "def": "numericCast",
  "old": "dst.signed ≠ src.signed ∧",
  "new": "dst.signed ∧",
  "edit": "sign check only for signed targets",
  "claim": "C56"
 },
 {
  "file": "Cast/Model.lean",
  "def": "numericCastDouble",
  "old": "!(Dbl.eq (.fin (rnd t)) x) ||",
  "new": "",
  "edit": "fraction check dropped for doubles",
  "claim": "C56 from double"
 },
 {
  "file": "Cast/Model.lean",
  "def": "Dbl.eq",
  "old": "| .inf a, .inf b => a == b\n  | _, _ => false",
  "new": "| .inf a, .inf b => a == b\n  | _, _ => true",
  "edit": "not-a-number compares equal",
  "claim": "C56 from double"
 },
 {
  "file": "Cast/Model.lean",
  "def": "trunc",
  "old": "if 0 ≤ x then ⌊x⌋ else ⌈x⌉",
  "new": "if 0 ≤ x then ⌊x⌋ + 1 else ⌈x⌉",
  "edit": "conversion rounds up",
  "claim": "C56 from double"
 }
]