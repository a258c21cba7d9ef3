[
 {
  "file": "Soft/Model.lean",
  "def": "massDir",
  "old": "if ps.sqr > 0 then √ps.sqr else 0",
  "new": "if ps.sqr > 0 then ps.sqr else 0",
  "edit": "square root forgotten",
  "claim": "C178"
 },
 {
  "file": "Soft/Model.lean",
  "def": "massDir",
  "old": "if m > thr then",
  "new": "if m < thr then",
  "edit": "mass below the threshold",
  "claim": "C178"
 },
 {
  "file": "Soft/Model.lean",
  "def": "massDir",
  "old": "boost (V4.mk' pin.vec.abs pin.vec) ps.velocity\n      some",
  "new": "(V4.mk' pin.vec.abs pin.vec)\n      some",
  "edit": "direction in the wrong frame",
  "claim": "C178"
 },
 {
  "file": "Soft/Model.lean",
  "def": "massDir",
  "old": "some (prs.vec.div prs.vec.abs)\n    else",
  "new": "some prs.vec\n    else",
  "edit": "direction not normalised",
  "claim": "C178"
 },
 {
  "file": "Soft/Model.lean",
  "def": "toCom",
  "old": "(div4 ps m).velocity.neg",
  "new": "(div4 ps m).velocity",
  "edit": "boost in the wrong direction",
  "claim": "C178"
 },
 {
  "file": "Soft/Model.lean",
  "def": "twoStrings",
  "old": "| [] => (false, [])\n    | f :: fs =>\n      match frag 1",
  "new": "| [] => (true, [])\n    | f :: fs =>\n      match frag 1",
  "edit": "failure of the first string ignored",
  "claim": "C178"
 },
 {
  "file": "Soft/Model.lean",
  "def": "twoStrings",
  "old": "| [] => (false, toCom ps.1 m0 (f :: fs))",
  "new": "| [] => (true, toCom ps.1 m0 (f :: fs))",
  "edit": "failure of the second string ignored",
  "claim": "C178"
 },
 {
  "file": "Soft/Model.lean",
  "def": "twoStrings",
  "old": "toCom ps.1 m0 (f :: fs) ++ toCom ps.2 m1 (g :: gs)",
  "new": "toCom ps.2 m1 (g :: gs)",
  "edit": "fragments of the first string lost",
  "claim": "C178"
 },
 {
  "file": "Soft/Model.lean",
  "def": "twoStrings",
  "old": "++ toCom ps.2 m1 (g :: gs)",
  "new": "++ toCom ps.1 m1 (g :: gs)",
  "edit": "momentum of the other string",
  "claim": "C178"
 },
 {
  "file": "Soft/Model.lean",
  "def": "twoStrings",
  "old": "match frag 1 m1 e1 with",
  "new": "match frag 1 m0 e1 with",
  "edit": "mass of the other string",
  "claim": "C178"
 },
 {
  "file": "Soft/Model.lean",
  "def": "twoStrings",
  "old": "massDir thr.2 ps.2 pin.2",
  "new": "massDir thr.1 ps.2 pin.2",
  "edit": "threshold of the other string",
  "claim": "C178"
 },
 {
  "file": "Soft/Model.lean",
  "def": "twoStrings",
  "old": "massDir thr.2 ps.2 pin.2",
  "new": "massDir thr.2 ps.2 pin.1",
  "edit": "direction of the other hadron",
  "claim": "C178"
 },
 {
  "file": "Soft/Model.lean",
  "def": "singleString",
  "old": "toCom x massX (f :: fs) ++ [h]",
  "new": "toCom x massX (f :: fs)",
  "edit": "hadron that is not excited forgotten",
  "claim": "C178"
 },
 {
  "file": "Soft/Model.lean",
  "def": "singleString",
  "old": "toCom x massX (f :: fs) ++ [h]",
  "new": "toCom h massX (f :: fs) ++ [h]",
  "edit": "velocity of the hadron used for the string",
  "claim": "C178"
 },
 {
  "file": "Soft/Model.lean",
  "def": "tries",
  "old": "if r.1 then (true, k + 1, r.2)",
  "new": "if r.1 then (true, k, r.2)",
  "edit": "attempts miscounted",
  "claim": "C178"
 },
 {
  "file": "Soft/Model.lean",
  "def": "tries",
  "old": "tries f left (n + 1) (k + 1) r.2",
  "new": "(false, k + 1, r.2)",
  "edit": "one attempt only",
  "claim": "C178"
 },
 {
  "file": "Soft/Model.lean",
  "def": "tries",
  "old": "if r.1 then (true, k + 1, r.2) else",
  "new": "if !r.1 then (true, k + 1, r.2) else",
  "edit": "failure taken for success",
  "claim": "C178"
 },
 {
  "file": "Soft/Model.lean",
  "def": "ntryMax",
  "old": "Nat := 10000",
  "new": "Nat := 1000",
  "edit": "fewer attempts",
  "claim": "C178"
 },
 {
  "file": "Soft/Model.lean",
  "def": "stringExcitation",
  "old": "if r.2.1 = ntryMax then",
  "new": "if r.1 = false then",
  "edit": "success tested (the finding disappears)",
  "claim": "C178"
 },
 {
  "file": "Soft/Model.lean",
  "def": "stringExcitation",
  "old": "ba = -bb",
  "new": "ba = bb",
  "edit": "two baryons annihilate",
  "claim": "C178"
 },
 {
  "file": "Soft/Model.lean",
  "def": "stringExcitation",
  "old": "ba ≠ 0 ∧ ba = -bb",
  "new": "ba = -bb",
  "edit": "two mesons annihilate",
  "claim": "C178"
 },
 {
  "file": "Soft/Model.lean",
  "def": "stringExcitation",
  "old": "if r'.1 then (proc', r'.2.2) else (Proc.failed, elastic)",
  "new": "(proc', r'.2.2)",
  "edit": "failure of the second process ignored",
  "claim": "C178"
 },
 {
  "file": "Soft/Model.lean",
  "def": "stringExcitation",
  "old": "if r'.1 then (proc', r'.2.2)",
  "new": "if r'.1 then (proc, r'.2.2)",
  "edit": "old process type kept",
  "claim": "C178"
 },
 {
  "file": "Soft/Model.lean",
  "def": "stringExcitation",
  "old": "else (Proc.failed, elastic)",
  "new": "else (Proc.failed, r'.2.2 ++ elastic)",
  "edit": "particles of failed attempts kept",
  "claim": "C178"
 }
]