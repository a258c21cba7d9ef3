[
 {
  "file": "Low/Model.lean",
  "def": "scanUp",
  "old": "if a i < v then scanUp",
  "new": "if a i ≤ v then scanUp",
  "edit": "search goes past equal elements",
  "claim": "C146 reads in bounds"
 },
 {
  "file": "Low/Model.lean",
  "def": "scanDown",
  "old": "| 0 => if v < a 0 then none else some 0",
  "new": "| 0 => some 0",
  "edit": "out of bounds read not noticed",
  "claim": "C146 rank zero"
 },
 {
  "file": "Low/Model.lean",
  "def": "swap",
  "old": "Function.update (Function.update a i (a j)) j (a i)",
  "new": "Function.update (Function.update a i (a j)) j (a j)",
  "edit": "element lost in the exchange",
  "claim": "C146 rearranged"
 },
 {
  "file": "Low/Model.lean",
  "def": "partition",
  "old": "(i' + 1) (j' - 1)",
  "new": "(i' + 1) j'",
  "edit": "right end not moved after an exchange",
  "claim": "C146"
 },
 {
  "file": "Low/Model.lean",
  "def": "partition",
  "old": "if i' ≤ j' then\n          if j'",
  "new": "if i' < j' then\n          if j'",
  "edit": "crossing test strict",
  "claim": "C146 ends"
 },
 {
  "file": "Low/Model.lean",
  "def": "select",
  "old": "(if j < k then i else pL) (if k < i then j else pR)",
  "new": "(if j < k then i else pL) (if i < k then j else pR)",
  "edit": "wrong half kept",
  "claim": "C146"
 },
 {
  "file": "Low/Model.lean",
  "def": "select",
  "old": "partition n (a k) (n + 1) a pL pR",
  "new": "partition n (a pL) (n + 1) a pL pR",
  "edit": "other pivot",
  "claim": "C146 (harmless for the result, other pivot)"
 },
 {
  "file": "Low/Model.lean",
  "def": "psort",
  "old": "select n k n a 0 (n - 1)",
  "new": "select n k n a 1 (n - 1)",
  "edit": "first element not sorted",
  "claim": "C146"
 },
 {
  "file": "Low/Model.lean",
  "def": "kern",
  "old": "(r / h) * (r / h) * (r / h)",
  "new": "(r / h) * (r / h)",
  "edit": "square instead of cube",
  "claim": "C145 tricube"
 },
 {
  "file": "Low/Model.lean",
  "def": "kern",
  "old": "if r ≤ 0.001 * h then 1",
  "new": "if r ≤ 0.1 * h then 1",
  "edit": "limit",
  "claim": "C145 tricube"
 },
 {
  "file": "Low/Model.lean",
  "def": "collect",
  "old": "if r ≤ 0.999 * h then (j,",
  "new": "if r ≤ h then (j,",
  "edit": "border point included",
  "claim": "C145 tricube"
 },
 {
  "file": "Low/Model.lean",
  "def": "collect",
  "old": "else if x j > xs then []",
  "new": "else if x j < xs then []",
  "edit": "loop ends at points on the left",
  "claim": "C145"
 },
 {
  "file": "Low/Model.lean",
  "def": "collect",
  "old": "let r := |x j - xs|",
  "new": "let r := x j - xs",
  "edit": "distance with sign",
  "claim": "C145"
 },
 {
  "file": "Low/Model.lean",
  "def": "userWeight",
  "old": "fun j w => w * g j",
  "new": "fun _ w => w",
  "edit": "robustness weights ignored",
  "claim": "C145 robust"
 },
 {
  "file": "Low/Model.lean",
  "def": "lowest",
  "old": "max (xs - x nl) (x nr - xs)",
  "new": "min (xs - x nl) (x nr - xs)",
  "edit": "bandwidth is the shorter side",
  "claim": "C145"
 },
 {
  "file": "Low/Model.lean",
  "def": "lowest",
  "old": "let range := x n - x 1",
  "new": "let range := x nr - x nl",
  "edit": "spread compared with the window",
  "claim": "C145 spread"
 },
 {
  "file": "Low/Model.lean",
  "def": "lowest",
  "old": "(x p.1 - m) + 1)",
  "new": "(x p.1 - m))",
  "edit": "mean omitted",
  "claim": "C145 best line"
 },
 {
  "file": "Low/Model.lean",
  "def": "lowest",
  "old": "(xs - m) / c *",
  "new": "(xs - m) *",
  "edit": "slope not divided by the spread",
  "claim": "C145 best line"
 },
 {
  "file": "Low/Model.lean",
  "def": "lowest",
  "old": "collect x (userWeight rw) xs h (n + 1 - nl) nl",
  "new": "collect x (userWeight rw) xs h (n - nl) nl",
  "edit": "last point forgotten",
  "claim": "C145"
 },
 {
  "file": "Low/Model.lean",
  "def": "lowest",
  "old": "(p.1, p.2 / a)",
  "new": "(p.1, p.2)",
  "edit": "weights not normalised",
  "claim": "C145"
 },
 {
  "file": "Low/Model.lean",
  "def": "passLoop",
  "old": "x s.i - x s.nl > x (s.nr + 1) - x s.i",
  "new": "x s.i - x s.nl > x s.nr - x s.i",
  "edit": "window moved too early",
  "claim": "C145 nearest"
 },
 {
  "file": "Low/Model.lean",
  "def": "passLoop",
  "old": "s.nr < n ∧ x s.i - x s.nl >",
  "new": "s.nr + 1 < n ∧ x s.i - x s.nl >",
  "edit": "window never reaches the last point",
  "claim": "C145 nearest"
 },
 {
  "file": "Low/Model.lean",
  "def": "passLoop",
  "old": "with nl := s.nl + 1, nr := s.nr + 1 }",
  "new": "with nl := s.nl + 1 }",
  "edit": "window shrinks",
  "claim": "C145 nearest"
 },
 {
  "file": "Low/Model.lean",
  "def": "passLoop",
  "old": ".getD (y s.i)",
  "new": ".getD 0",
  "edit": "zero for points without weights",
  "claim": "C145 robust"
 },
 {
  "file": "Low/Model.lean",
  "def": "passLoop",
  "old": "i := max (c.2.1 + 1) (c.1 - 1)",
  "new": "i := c.1",
  "edit": "next point skipped",
  "claim": "C145 (harmless for increasing abscissae)"
 },
 {
  "file": "Low/Model.lean",
  "def": "pass",
  "old": "⟨1, ns, 0, 1, prev⟩",
  "new": "⟨1, ns - 1, 0, 1, prev⟩",
  "edit": "window one point short",
  "claim": "C145 nearest"
 },
 {
  "file": "Low/Model.lean",
  "def": "cmad",
  "old": "some (3 * (c m1 + c m2))",
  "new": "some (6 * (c m1 + c m2))",
  "edit": "factor",
  "claim": "C146 median"
 },
 {
  "file": "Low/Model.lean",
  "def": "cmad",
  "old": "let m2 := n - m1 - 1",
  "new": "let m2 := n - m1",
  "edit": "middle pair wrong",
  "claim": "C146 median"
 },
 {
  "file": "Low/Model.lean",
  "def": "cmad",
  "old": "else some (6 * b m1)",
  "new": "else some (6 * b (m1 + 1))",
  "edit": "element above the median",
  "claim": "C146 median"
 },
 {
  "file": "Low/Model.lean",
  "def": "robust",
  "old": "(1 - (r / cm) * (r / cm)) * (1 - (r / cm) * (r / cm))",
  "new": "(1 - (r / cm)) * (1 - (r / cm))",
  "edit": "other weight function",
  "claim": "C145 bisquare"
 },
 {
  "file": "Low/Model.lean",
  "def": "robust",
  "old": "if cm = 0 then 0",
  "new": "if cm = 0 then 1",
  "edit": "weights one for an exact fit",
  "claim": "C145 robust"
 },
 {
  "file": "Low/Model.lean",
  "def": "iterate",
  "old": "|y j - ys j|) ys",
  "new": "|y j - prev j|) ys",
  "edit": "residuals of the previous iteration",
  "claim": "C145 robust"
 },
 {
  "file": "Low/Model.lean",
  "def": "points",
  "old": "max 2 (min n",
  "new": "max 3 (min n",
  "edit": "at least three points",
  "claim": "C145 few"
 },
 {
  "file": "Low/Model.lean",
  "def": "smooth",
  "old": "(points n span) delta iter none",
  "new": "(points n span) delta (iter + 1) none",
  "edit": "one iteration too many",
  "claim": "C145"
 }
]