[
 {
  "file": "Spl/Model.lean",
  "def": "build",
  "old": "zs.length ≠ ys.length * xs.length",
  "new": "zs.length < ys.length * xs.length",
  "edit": "longer tables accepted",
  "claim": "C172"
 },
 {
  "file": "Spl/Model.lean",
  "def": "build",
  "old": "xs.length < 4 ∨ ys.length < 4",
  "new": "xs.length < 4",
  "edit": "second dimension not checked",
  "claim": "C172"
 },
 {
  "file": "Spl/Model.lean",
  "def": "build",
  "old": "xs.length < 4 ∨ ys.length < 4",
  "new": "xs.length < 3 ∨ ys.length < 3",
  "edit": "three points accepted",
  "claim": "C172"
 },
 {
  "file": "Spl/Model.lean",
  "def": "build",
  "old": "xs.headD 0, xs.getLastD 0, ys.headD 0, ys.getLastD 0⟩",
  "new": "ys.headD 0, ys.getLastD 0, xs.headD 0, xs.getLastD 0⟩",
  "edit": "bounds swapped",
  "claim": "C172"
 },
 {
  "file": "Spl/Model.lean",
  "def": "clamp",
  "old": "if x > hi then hi else x",
  "new": "x",
  "edit": "upper bound dropped",
  "claim": "C172"
 },
 {
  "file": "Spl/Model.lean",
  "def": "clamp",
  "old": "let x := if x < lo then lo else x\n",
  "new": "",
  "edit": "lower bound dropped",
  "claim": "C172"
 },
 {
  "file": "Spl/Model.lean",
  "def": "clamp",
  "old": "if x > hi then hi else x",
  "new": "if x > hi then lo else x",
  "edit": "wrong edge",
  "claim": "C172"
 },
 {
  "file": "Spl/Model.lean",
  "def": "call",
  "old": "(clamp s.firstX s.lastX x) (clamp s.firstY s.lastY y)",
  "new": "(clamp s.firstX s.lastX y) (clamp s.firstY s.lastY x)",
  "edit": "variables swapped",
  "claim": "C172"
 },
 {
  "file": "Spl/Model.lean",
  "def": "call",
  "old": "(clamp s.firstY s.lastY y)",
  "new": "(clamp s.firstX s.lastX y)",
  "edit": "bounds of the other variable",
  "claim": "C172"
 },
 {
  "file": "Spl/Model.lean",
  "def": "fix",
  "old": "if x < 0 then 1 / 1000000 else x",
  "new": "x",
  "edit": "negative cross sections kept",
  "claim": "C172"
 },
 {
  "file": "Spl/Model.lean",
  "def": "fix",
  "old": "if x < 0 then 1 / 1000000 else x",
  "new": "if x < 1 then 1 / 1000000 else x",
  "edit": "small cross sections replaced",
  "claim": "C172"
 },
 {
  "file": "Spl/Model.lean",
  "def": "diffXs",
  "old": "let y ← call G b theta E",
  "new": "let y ← call G b k E",
  "edit": "momentum instead of the angle",
  "claim": "C172"
 },
 {
  "file": "Spl/Model.lean",
  "def": "diffXs",
  "old": "return (fix x, fix y)",
  "new": "return (fix x, y)",
  "edit": "negative angular cross section kept",
  "claim": "C172"
 },
 {
  "file": "Spl/Model.lean",
  "def": "diffXs",
  "old": "return (fix x, fix y)",
  "new": "return (fix y, fix x)",
  "edit": "cross sections swapped",
  "claim": "C172"
 },
 {
  "file": "Spl/Model.lean",
  "def": "diffXs",
  "old": "if out0 ≠ .piZ then both T.oppK T.oppT",
  "new": "if out0 = .piZ then both T.oppK T.oppT",
  "edit": "tables of the two channels swapped",
  "claim": "C172"
 },
 {
  "file": "Spl/Model.lean",
  "def": "diffXs",
  "old": "both T.pi0K T.pi0T",
  "new": "both T.pi0K T.sameT",
  "edit": "table of another process",
  "claim": "C172"
 },
 {
  "file": "Spl/Model.lean",
  "def": "diffXs",
  "old": "| .zz => both T.fromZeroK T.fromZeroT",
  "new": "| .zz => both T.toZeroK T.toZeroT",
  "edit": "table of the inverse process",
  "claim": "C172"
 }
]