[
 {
  "file": "Text/Model.lean",
  "def": "blanks",
  "old": "[32, 9, 10, 13]",
  "new": "[32, 9, 10]",
  "edit": "carriage return not trimmed",
  "claim": "C27 trim (blanks is also the specification's set)"
 },
 {
  "file": "Text/Model.lean",
  "def": "trim",
  "old": "substr s b (e - b + 1)",
  "new": "substr s b (e - b)",
  "edit": "last character lost",
  "claim": "C27 trim"
 },
 {
  "file": "Text/Model.lean",
  "def": "findLastNotOf",
  "old": "s.length - 1 - i",
  "new": "s.length - i",
  "edit": "off by one",
  "claim": "C27 trim"
 },
 {
  "file": "Text/Model.lean",
  "def": "erase",
  "old": "s.take i ++ s.drop (i + n)",
  "new": "s.take i ++ s.drop (i + n + 1)",
  "edit": "one character too many",
  "claim": "C27 remove_substr"
 },
 {
  "file": "Text/Model.lean",
  "def": "removeSubstr",
  "old": "| some i => removeSubstr fuel (erase s i p.length) p",
  "new": "| some i => some (erase s i p.length)",
  "edit": "only the first occurrence",
  "claim": "C27 remove_substr"
 },
 {
  "file": "Text/Model.lean",
  "def": "splitLoop",
  "old": "if any then [item] else []",
  "new": "[item]",
  "edit": "empty last item kept",
  "claim": "C27 split"
 },
 {
  "file": "Text/Model.lean",
  "def": "splitLoop",
  "old": "item :: splitLoop delim s [] false",
  "new": "if item.isEmpty then splitLoop delim s [] false else item :: splitLoop delim s [] false",
  "edit": "empty items dropped",
  "claim": "C27 split"
 },
 {
  "file": "Text/Model.lean",
  "def": "join",
  "old": "if ss.isEmpty then s else ss ++ delim ++ s",
  "new": "if s.isEmpty then ss else ss ++ delim ++ s",
  "edit": "test on the wrong string",
  "claim": "C27 join"
 },
 {
  "file": "Text/Model.lean",
  "def": "extra",
  "old": "else if c ≥ 0xC0 then 1",
  "new": "else if c > 0xC0 then 1",
  "edit": "boundary of two-byte characters",
  "claim": "columns is defined with extra, so this only changes what a column is"
 },
 {
  "file": "Text/Model.lean",
  "def": "fillLeft",
  "old": "(stringOf w fill).map fun f => f ++ s",
  "new": "(stringOf w fill).map fun f => s ++ f",
  "edit": "padding on the wrong side",
  "claim": "C27 fill"
 },
 {
  "file": "Text/Model.lean",
  "def": "fillBoth",
  "old": "(w - l.signExtend 64).setWidth 32",
  "new": "(w / 2#64).setWidth 32",
  "edit": "odd width loses a column",
  "claim": "C27 fill_both"
 },
 {
  "file": "Text/Model.lean",
  "def": "stripComment",
  "old": "| some pos => substr line 0 pos",
  "new": "| some pos => substr line 0 (pos + 1)",
  "edit": "hash kept",
  "claim": "C28"
 },
 {
  "file": "Text/Model.lean",
  "def": "parseLoop",
  "old": "then parseLoop (n + 1) rest",
  "new": "then parseLoop n rest",
  "edit": "skipped lines not counted",
  "claim": "C28 line numbers"
 },
 {
  "file": "Text/Model.lean",
  "def": "parseLoop",
  "old": "(n + 1, trim line)",
  "new": "(n + 1, line)",
  "edit": "not trimmed",
  "claim": "C28"
 },
 {
  "file": "Text/Model.lean",
  "def": "parseLoop",
  "old": "(findFirstNotOf line spaceTab).isNone",
  "new": "line.isEmpty",
  "edit": "lines of blanks kept",
  "claim": "C28"
 }
]