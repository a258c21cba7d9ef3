[
 {
  "file": "Tsc/Model.lean",
  "def": "cycles",
  "old": "(2 ^ 64 + stop - start) % 2 ^ 64",
  "new": "stop - start",
  "edit": "no wrap-around",
  "claim": "C182"
 },
 {
  "file": "Tsc/Model.lean",
  "def": "blocks",
  "old": "(c / 1000) (c % 1000 :: acc)",
  "new": "(c / 1000) (acc ++ [c % 1000])",
  "edit": "blocks in reverse order",
  "claim": "C182"
 },
 {
  "file": "Tsc/Model.lean",
  "def": "blocks",
  "old": "blocks (digits - 3)",
  "new": "blocks (digits - 2)",
  "edit": "too many blocks",
  "claim": "C182"
 },
 {
  "file": "Tsc/Model.lean",
  "def": "plain",
  "old": "if 100 ≤ b then pad3 b",
  "new": "if 1000 ≤ b then pad3 b",
  "edit": "first digit of the first block lost",
  "claim": "C182"
 },
 {
  "file": "Tsc/Model.lean",
  "def": "text",
  "old": "'\\'' :: pad3 x",
  "new": "'\\'' :: plain x",
  "edit": "blocks not filled with zeros",
  "claim": "C182"
 },
 {
  "file": "Tsc/Model.lean",
  "def": "print",
  "old": "blocks (Nat.log 10 c) c []",
  "new": "blocks (Nat.log 10 c + 1) c []",
  "edit": "(the findings disappear)",
  "claim": "C182"
 },
 {
  "file": "Tsc/Model.lean",
  "def": "print",
  "old": "if c = 0 then none else",
  "new": "",
  "edit": "(undefined case not seen)",
  "claim": "C182"
 }
]