[
 {
  "file": "Box/Model.lean",
  "def": "wrap1",
  "old": "else if x ≥ length then (x - length, true)",
  "new": "else if x > length then (x - length, true)",
  "edit": "upper edge not wrapped",
  "claim": "C22 result in [0,L)"
 },
 {
  "file": "Box/Model.lean",
  "def": "wrap1",
  "old": "if x < 0 then (x + length, true)",
  "new": "if x ≤ 0 then (x + length, true)",
  "edit": "origin wrapped",
  "claim": "C22"
 },
 {
  "file": "Box/Model.lean",
  "def": "wrap1",
  "old": "else (x, false)",
  "new": "else (x, true)",
  "edit": "always reports a wrap",
  "claim": "C22 flag"
 },
 {
  "file": "Box/Model.lean",
  "def": "enforce",
  "old": "(r.1 :: rs.1, r.2 || rs.2)",
  "new": "(r.1 :: rs.1, rs.2)",
  "edit": "flag only from the last coordinates",
  "claim": "C22 flag"
 },
 {
  "file": "Box/Model.lean",
  "def": "wrapPos",
  "old": "[p.r 0, p.r 1, p.r 2]",
  "new": "[p.r 0, p.r 0, p.r 2]",
  "edit": "y replaced by x",
  "claim": "C22"
 },
 {
  "file": "Box/Model.lean",
  "def": "impose",
  "old": "(w.1 :: rs.1, rs.2.1 + 1, (p, w.1) :: rs.2.2)",
  "new": "(w.1 :: rs.1, rs.2.1 + 1, (w.1, w.1) :: rs.2.2)",
  "edit": "incoming already wrapped in the reported action",
  "claim": "C22 reported crossing"
 },
 {
  "file": "Box/Model.lean",
  "def": "impose",
  "old": "(w.1 :: rs.1, rs.2.1 + 1,",
  "new": "(p :: rs.1, rs.2.1 + 1,",
  "edit": "position not stored",
  "claim": "C22"
 },
 {
  "file": "Box/Model.lean",
  "def": "axisTime",
  "old": "(l - r) / v",
  "new": "(l - r) * v",
  "edit": "multiplied instead of divided",
  "claim": "C23 time"
 },
 {
  "file": "Box/Model.lean",
  "def": "axisTime",
  "old": "if v < -small then -r / v",
  "new": "if v < -small then r / v",
  "edit": "sign",
  "claim": "C23 time"
 },
 {
  "file": "Box/Model.lean",
  "def": "scanStep",
  "old": "if t < s.2 then",
  "new": "if t < tmax then",
  "edit": "last crossing instead of first",
  "claim": "C23 earliest"
 },
 {
  "file": "Box/Model.lean",
  "def": "findOne",
  "old": "if p.v i > 0 then 0 else l",
  "new": "if p.v i > 0 then l else 0",
  "edit": "stays on the same wall",
  "claim": "C23 opposite wall"
 },
 {
  "file": "Box/Model.lean",
  "def": "findOne",
  "old": "t := p.t + t,",
  "new": "t := p.t,",
  "edit": "time not advanced",
  "claim": "C23"
 },
 {
  "file": "Box/Model.lean",
  "def": "scan",
  "old": "[0, 1, 2].foldl",
  "new": "[0, 1].foldl",
  "edit": "z forgotten",
  "claim": "C23"
 }
]