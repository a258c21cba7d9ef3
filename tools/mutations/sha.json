[
 {
  "file": "Sha/Model.lean",
  "def": "ror",
  "old": "(x <<< (32 - n))",
  "new": "(x <<< (31 - n))",
  "edit": "rotate off by one",
  "claim": "C24 FIPS"
 },
 {
  "file": "Sha/Model.lean",
  "def": "maj",
  "old": "((x ||| y) &&& z) ||| (x &&& y)",
  "new": "((x ||| y) &&& z) ||| (x ||| y)",
  "edit": "or instead of and",
  "claim": "C24 FIPS"
 },
 {
  "file": "Sha/Model.lean",
  "def": "K",
  "old": "0x27b70a85",
  "new": "0x27b70a95",
  "edit": "typo in the constants",
  "claim": "C24 constants"
 },
 {
  "file": "Sha/Model.lean",
  "def": "initState",
  "old": "0x510E527F",
  "new": "0x510E527E",
  "edit": "typo in the initial value",
  "claim": "C24 initial value"
 },
 {
  "file": "Sha/Model.lean",
  "def": "extend",
  "old": "W.getD (i - 7) 0",
  "new": "W.getD (i - 6) 0",
  "edit": "wrong index in the schedule",
  "claim": "C24 FIPS"
 },
 {
  "file": "Sha/Model.lean",
  "def": "round",
  "old": "⟨s7, s.s0, s.s1, s.s2, s3, s.s4, s.s5, s.s6⟩",
  "new": "⟨s7, s.s0, s.s1, s.s2, s.s3, s.s4, s.s5, s.s6⟩",
  "edit": "d not updated",
  "claim": "C24 FIPS"
 },
 {
  "file": "Sha/Model.lean",
  "def": "transform",
  "old": "s.s7 + r.s7",
  "new": "r.s7",
  "edit": "feedback forgotten for one word",
  "claim": "C24 FIPS"
 },
 {
  "file": "Sha/Model.lean",
  "def": "updateLoop",
  "old": "if c.curlen = 0 ∧ b.length ≥ 64 then",
  "new": "if b.length ≥ 64 then",
  "edit": "fast path with data in the buffer",
  "claim": "C24 chunk independence"
 },
 {
  "file": "Sha/Model.lean",
  "def": "updateLoop",
  "old": "let n := min b.length (64 - c.curlen)",
  "new": "let n := min b.length 64",
  "edit": "overruns the buffer",
  "claim": "C24 chunk independence"
 },
 {
  "file": "Sha/Model.lean",
  "def": "updateLoop",
  "old": "length := c.length + 512, curlen := 0 }",
  "new": "curlen := 0 }",
  "edit": "length not counted for buffered blocks",
  "claim": "C24 FIPS"
 },
 {
  "file": "Sha/Model.lean",
  "def": "finalize",
  "old": "if c.curlen > 56 then",
  "new": "if c.curlen > 55 then",
  "edit": "extra block at the boundary",
  "claim": "C24 FIPS"
 },
 {
  "file": "Sha/Model.lean",
  "def": "finalize",
  "old": "c.length + BitVec.ofNat 64 (c.curlen * 8)",
  "new": "c.length + BitVec.ofNat 64 c.curlen",
  "edit": "bytes instead of bits",
  "claim": "C24 FIPS"
 },
 {
  "file": "Sha/Model.lean",
  "def": "reset",
  "old": "{ c with curlen := 0, length := 0, state := initState }",
  "new": "{ c with curlen := 0, state := initState }",
  "edit": "length not reset",
  "claim": "C24 after reset"
 },
 {
  "file": "Sha/Model.lean",
  "def": "hexByte",
  "old": "List.replicate (2 - digits.length) '0' ++ digits",
  "new": "digits",
  "edit": "no fill",
  "claim": "C24 hex"
 },
 {
  "file": "Sha/Model.lean",
  "def": "store32",
  "old": "((x >>> 16) &&& 255#32).setWidth 8,\n   ((x >>> 8)",
  "new": "((x >>> 8) &&& 255#32).setWidth 8,\n   ((x >>> 16)",
  "edit": "byte order",
  "claim": "C24 FIPS"
 }
]