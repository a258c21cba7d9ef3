[
 {
  "file": "Ndh/Model.lean",
  "def": "append",
  "old": "(l, false)",
  "new": "(l, true)",
  "edit": "unknown particles of strings accepted silently",
  "claim": "C185"
 },
 {
  "file": "Ndh/Model.lean",
  "def": "append",
  "old": "(l ++ [m], true)",
  "new": "(m :: l, true)",
  "edit": "particles in reverse order",
  "claim": "C185"
 },
 {
  "file": "Ndh/Model.lean",
  "def": "takenOut",
  "old": "&& !e.isOctet",
  "new": "",
  "edit": "octet hadrons taken out",
  "claim": "C185"
 },
 {
  "file": "Ndh/Model.lean",
  "def": "takenOut",
  "old": "e.isFinal && ",
  "new": "",
  "edit": "entries that are not final taken out",
  "claim": "C185"
 },
 {
  "file": "Ndh/Model.lean",
  "def": "takeOut",
  "old": "takeOut ipart (ev.eraseIdx ipart) (append e.known e.mom non).1",
  "new": "takeOut (ipart + 1) (ev.eraseIdx ipart) (append e.known e.mom non).1",
  "edit": "entry after a removed one skipped",
  "claim": "C185"
 },
 {
  "file": "Ndh/Model.lean",
  "def": "takeOut",
  "old": "(append e.known e.mom non).1",
  "new": "non",
  "edit": "particles taken out are lost",
  "claim": "C185"
 },
 {
  "file": "Ndh/Model.lean",
  "def": "takeOut",
  "old": "(append e.known e.mom non).1",
  "new": "(non ++ [e.mom])",
  "edit": "unknown particles handed over",
  "claim": "C185"
 },
 {
  "file": "Ndh/Model.lean",
  "def": "collect",
  "old": "collect fs had r.1 (ok && r.2)",
  "new": "collect fs had r.1 ok",
  "edit": "unknown non-hadrons of strings ignored",
  "claim": "C185"
 },
 {
  "file": "Ndh/Model.lean",
  "def": "collect",
  "old": "if f.isFinal then",
  "new": "if true then",
  "edit": "intermediate particles counted",
  "claim": "C185"
 },
 {
  "file": "Ndh/Model.lean",
  "def": "collect",
  "old": "if f.isHadron then",
  "new": "if !f.isHadron then",
  "edit": "hadrons and others exchanged",
  "claim": "C185"
 },
 {
  "file": "Ndh/Model.lean",
  "def": "strings",
  "old": "| none :: _ => (false, final, non)",
  "new": "| none :: rest => strings rest final non ok",
  "edit": "failed string skipped",
  "claim": "C185"
 },
 {
  "file": "Ndh/Model.lean",
  "def": "strings",
  "old": "strings rest (final ++ r.1) r.2.1 true",
  "new": "strings rest (final ++ r.1) non true",
  "edit": "non-hadrons of strings lost",
  "claim": "C185"
 },
 {
  "file": "Ndh/Model.lean",
  "def": "strings",
  "old": "strings rest (final ++ r.1) r.2.1 true",
  "new": "strings rest r.1 r.2.1 true",
  "edit": "only the last string kept",
  "claim": "C185"
 },
 {
  "file": "Ndh/Model.lean",
  "def": "finish",
  "old": "strings frags [] t.2 false",
  "new": "strings frags [] t.2 true",
  "edit": "success without a string",
  "claim": "C185"
 },
 {
  "file": "Ndh/Model.lean",
  "def": "finish",
  "old": "(true, r.2.1 ++ r.2.2)",
  "new": "(true, r.2.1)",
  "edit": "particles that are not hadrons forgotten",
  "claim": "C185"
 },
 {
  "file": "Ndh/Model.lean",
  "def": "finish",
  "old": "else (false, [])",
  "new": "else (false, r.2.1)",
  "edit": "final state not cleared after a failure",
  "claim": "C185"
 }
]