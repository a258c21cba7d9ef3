[
 {
  "file": "Sec/Model.lean",
  "def": "xsDpi",
  "old": "672 / 10000 / tmp ^ 2 - 661753 / 100000 / tmp",
  "new": "672 / 10000 / tmp ^ 2 - 961753 / 100000 / tmp",
  "edit": "negative matrix element",
  "claim": "C109"
 },
 {
  "file": "Sec/Model.lean",
  "def": "xsDpi",
  "old": "2955 / 10 + 2862 / 1000 / (283735",
  "new": "2862 / 1000 / (283735",
  "edit": "constant term forgotten",
  "claim": "C109"
 },
 {
  "file": "Sec/Model.lean",
  "def": "xsDpi",
  "old": "(283735 / 100000000 + (W.sqrts - 2181 / 1000) ^ 2)",
  "new": "(283735 / 100000000 - (W.sqrts - 2181 / 1000) ^ 2)",
  "edit": "sign in the resonance",
  "claim": "C109"
 },
 {
  "file": "Sec/Model.lean",
  "def": "xsDn",
  "old": "654596 / 1000 * tmp",
  "new": "- 654596 / 1000 * tmp",
  "edit": "negative linear term",
  "claim": "C109"
 },
 {
  "file": "Sec/Model.lean",
  "def": "xsDn",
  "old": "W.debug ∧ tmp < 0",
  "new": "W.debug ∧ tmp > 0",
  "edit": "assertion inverted",
  "claim": "C109"
 },
 {
  "file": "Sec/Model.lean",
  "def": "nucChannel",
  "old": "if xs > small then [⟨[n1, n2], xs⟩] else []",
  "new": "[⟨[n1, n2], xs⟩]",
  "edit": "small and negative cross sections kept",
  "claim": "C109"
 }
]