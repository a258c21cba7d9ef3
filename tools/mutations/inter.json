[
 {
  "file": "Inter/Model.lean",
  "def": "Inc.at",
  "old": "p.x i + p.v i * (time - p.t)",
  "new": "p.x i + p.v i * (p.t - time)",
  "edit": "propagated backwards",
  "claim": "C103"
 },
 {
  "file": "Inter/Model.lean",
  "def": "wrap",
  "old": "if |x1 - x2| > 1 / 2 * L then",
  "new": "if |x1 - x2| > L then",
  "edit": "never wraps",
  "claim": "C103"
 },
 {
  "file": "Inter/Model.lean",
  "def": "wrap",
  "old": "if y ≥ 1 / 2 * L then y - 1 / 2 * L",
  "new": "if y ≥ 1 / 2 * L then y - L",
  "edit": "shift by L",
  "claim": "C103"
 },
 {
  "file": "Inter/Model.lean",
  "def": "wrap",
  "old": "if y ≥ 1 / 2 * L then y - 1 / 2 * L else y + 1 / 2 * L",
  "new": "if y ≥ 1 / 2 * L then y + 1 / 2 * L else y - 1 / 2 * L",
  "edit": "wrong direction",
  "claim": "C103"
 },
 {
  "file": "Inter/Model.lean",
  "def": "interactionPoint",
  "old": ".sum / (inc.length : K)",
  "new": ".sum / 2",
  "edit": "always divided by two",
  "claim": "C103"
 },
 {
  "file": "Inter/Model.lean",
  "def": "interactionPoint",
  "old": "fun p => (p.t, p.x)",
  "new": "fun p => (time, p.x)",
  "edit": "time of the action",
  "claim": "C103"
 },
 {
  "file": "Inter/Model.lean",
  "def": "interactionPoint",
  "old": "    if boxLength > 0 then",
  "new": "    if boxLength < 0 then",
  "edit": "box sign",
  "claim": "C103"
 },
 {
  "file": "Inter/Model.lean",
  "def": "interactionPoint",
  "old": "  else if 0 ≤ stochasticIdx then",
  "new": "  else if 0 < stochasticIdx then",
  "edit": "index zero not stochastic",
  "claim": "C103"
 },
 {
  "file": "Inter/Model.lean",
  "def": "firstBest",
  "old": "(if lt b a then b else a)",
  "new": "(if lt a b then b else a)",
  "edit": "picks worst",
  "claim": "C104"
 },
 {
  "file": "Inter/Model.lean",
  "def": "lastFormed",
  "old": "decide (y.formed < x.formed)",
  "new": "decide (x.formed < y.formed)",
  "edit": "first formed",
  "claim": "C104"
 },
 {
  "file": "Inter/Model.lean",
  "def": "lastFormed",
  "old": "decide (x.scale < y.scale)",
  "new": "decide (y.scale < x.scale)",
  "edit": "largest scaling factor",
  "claim": "C104"
 },
 {
  "file": "Inter/Model.lean",
  "def": "lastFormed",
  "old": "|a.formed - b.formed| < 1 / 1000000",
  "new": "a.formed - b.formed < 1 / 1000000",
  "edit": "absolute value dropped",
  "claim": "C104"
 },
 {
  "file": "Inter/Model.lean",
  "def": "outUnformed",
  "old": "⟨time, last.formed, last.scale * o.scale⟩",
  "new": "⟨time, o.formed, last.scale * o.scale⟩",
  "edit": "formation time kept",
  "claim": "C104"
 },
 {
  "file": "Inter/Model.lean",
  "def": "outUnformed",
  "old": "if last.formed > o.formed then",
  "new": "if last.formed < o.formed then",
  "edit": "earlier time wins",
  "claim": "C104"
 },
 {
  "file": "Inter/Model.lean",
  "def": "outUnformed",
  "old": "{ o with scale := last.scale * o.scale }",
  "new": "o",
  "edit": "scaling factor not multiplied",
  "claim": "C104"
 },
 {
  "file": "Inter/Model.lean",
  "def": "outUnformed",
  "old": "else ⟨last.begin, last.formed, last.scale⟩",
  "new": "else ⟨time, last.formed, last.scale⟩",
  "edit": "begin at the collision",
  "claim": "C104"
 },
 {
  "file": "Inter/Model.lean",
  "def": "outFormed",
  "old": "{ o with begin := time, formed := time }",
  "new": "{ o with formed := time }",
  "edit": "begin not set",
  "claim": "C104"
 },
 {
  "file": "Inter/Model.lean",
  "def": "outFormed",
  "old": "if o.scale = 1 then",
  "new": "if o.scale < 1 then",
  "edit": "fragments formed at once",
  "claim": "C104"
 },
 {
  "file": "Inter/Model.lean",
  "def": "assignFormation",
  "old": "if last.formed > time then",
  "new": "if last.formed < time then",
  "edit": "branches exchanged",
  "claim": "C104"
 }
]