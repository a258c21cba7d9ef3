[
 {
  "file": "Quad/Model.lean",
  "def": "check",
  "old": "max p.abs (r.value * p.rel)",
  "new": "max p.abs (r.value * p.rel) * 2",
  "edit": "tolerance doubled",
  "claim": "C173"
 },
 {
  "file": "Quad/Model.lean",
  "def": "check",
  "old": "max p.abs (r.value * p.rel)",
  "new": "min p.abs (r.value * p.rel)",
  "edit": "both precisions required",
  "claim": "C173"
 },
 {
  "file": "Quad/Model.lean",
  "def": "check",
  "old": "max p.abs (r.value * p.rel)",
  "new": "max p.abs p.rel",
  "edit": "relative precision taken as absolute",
  "claim": "C173"
 },
 {
  "file": "Quad/Model.lean",
  "def": "check",
  "old": "max p.abs (r.value * p.rel)",
  "new": "max p.abs (|r.value| * p.rel)",
  "edit": "absolute value (the finding disappears)",
  "claim": "C173"
 },
 {
  "file": "Quad/Model.lean",
  "def": "integrate1",
  "old": "A f a b p\n  if r.1 ≠ 0 then .error .code else check p r.2",
  "new": "A f a b p\n  check p r.2",
  "edit": "error code ignored",
  "claim": "C173"
 },
 {
  "file": "Quad/Model.lean",
  "def": "integrate1",
  "old": "A f a b p\n  if r.1 ≠ 0 then .error .code else check p r.2",
  "new": "A f a b p\n  if r.1 ≠ 0 then .error .code else .ok r.2",
  "edit": "precision not checked",
  "claim": "C173"
 },
 {
  "file": "Quad/Model.lean",
  "def": "integrate1",
  "old": "A f a b p",
  "new": "A f b a p",
  "edit": "limits swapped",
  "claim": "C173"
 },
 {
  "file": "Quad/Model.lean",
  "def": "unitCube",
  "old": "* diff1 * diff2",
  "new": "* diff1",
  "edit": "factor dropped",
  "claim": "C173"
 },
 {
  "file": "Quad/Model.lean",
  "def": "unitCube",
  "old": "min2 + diff2 * y",
  "new": "min1 + diff2 * y",
  "edit": "limit of the other variable",
  "claim": "C173"
 },
 {
  "file": "Quad/Model.lean",
  "def": "unitCube",
  "old": "min1 + diff1 * x",
  "new": "min1 + diff1 * y",
  "edit": "variable used twice",
  "claim": "C173"
 },
 {
  "file": "Quad/Model.lean",
  "def": "integrate2",
  "old": "max1 < min1 ∨ max2 < min2",
  "new": "max1 < min1",
  "edit": "second limits not checked",
  "claim": "C173"
 },
 {
  "file": "Quad/Model.lean",
  "def": "integrate2",
  "old": "if max1 - min1 > -(1 / 10 ^ 15) ∧ max2 - min2 > -(1 / 10 ^ 15)",
  "new": "if max1 - min1 > -(1 / 10 ^ 15) ∨ max2 - min2 > -(1 / 10 ^ 15)",
  "edit": "or instead of and",
  "claim": "C173"
 },
 {
  "file": "Quad/Model.lean",
  "def": "integrate2",
  "old": "(max1 - min1) min2 (max2 - min2) f",
  "new": "max1 min2 max2 f",
  "edit": "upper limits instead of ranges",
  "claim": "C173"
 }
]