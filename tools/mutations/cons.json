[
 {
  "file": "Cons/Model.lean",
  "def": "ofEnsembles",
  "old": "l.foldl QN.addValues q) QN.zero",
  "new": "l.foldl QN.addValues QN.zero) QN.zero",
  "edit": "only the last ensemble counted",
  "claim": "C171"
 },
 {
  "file": "Cons/Model.lean",
  "def": "dsub",
  "old": "some (x - y)\n",
  "new": "some (y - x)\n",
  "edit": "sign of the deviation (printed only)",
  "claim": "C171"
 },
 {
  "file": "Cons/Model.lean",
  "def": "drel",
  "old": "some ((x - y) / max |x| |y|)",
  "new": "some ((x - y) / |x|)",
  "edit": "relative to the first value",
  "claim": "C171"
 },
 {
  "file": "Cons/Model.lean",
  "def": "drel",
  "old": "if max |x| |y| = 0 then none",
  "new": "if |x| = 0 then none",
  "edit": "zero in the first value",
  "claim": "C171"
 },
 {
  "file": "Cons/Model.lean",
  "def": "compLine",
  "old": "if !almostEqualPhysics x y then",
  "new": "if almostEqualPhysics x y then",
  "edit": "condition inverted",
  "claim": "C171"
 },
 {
  "file": "Cons/Model.lean",
  "def": "report",
  "old": "compLine 3 a.mom.z b.mom.z",
  "new": "compLine 3 a.mom.y b.mom.y",
  "edit": "wrong component",
  "claim": "C171"
 },
 {
  "file": "Cons/Model.lean",
  "def": "report",
  "old": "(if !Q4.eq a.mom b.mom then [.heading] else []) ++",
  "new": "",
  "edit": "heading dropped",
  "claim": "C171"
 },
 {
  "file": "Cons/Model.lean",
  "def": "report",
  "old": "(if a.charge ≠ b.charge then [.charge a.charge b.charge] else []) ++",
  "new": "",
  "edit": "charge not reported",
  "claim": "C171"
 },
 {
  "file": "Cons/Model.lean",
  "def": "report",
  "old": "[.isospin3 a.isospin3 b.isospin3]",
  "new": "[.isospin3 b.isospin3 a.isospin3]",
  "edit": "values swapped",
  "claim": "C171"
 },
 {
  "file": "Cons/Model.lean",
  "def": "report",
  "old": "if a.strangeness ≠ b.strangeness then",
  "new": "if a.strangeness ≠ b.charmness then",
  "edit": "wrong quantity compared",
  "claim": "C171"
 },
 {
  "file": "Cons/Model.lean",
  "def": "report",
  "old": "if a.charmness ≠ b.charmness then",
  "new": "if a.charmness < b.charmness then",
  "edit": "only an increase reported",
  "claim": "C171"
 },
 {
  "file": "Cons/Model.lean",
  "def": "report",
  "old": "if a.baryon ≠ b.baryon then",
  "new": "if a.bottomness ≠ b.baryon then",
  "edit": "wrong quantity compared",
  "claim": "C171"
 },
 {
  "file": "Cons/Model.lean",
  "def": "stepOk",
  "old": "!s.potentials && !s.strings && !s.expansion && !s.initialConditions",
  "new": "!s.potentials && !s.strings && !s.expansion",
  "edit": "check with initial conditions",
  "claim": "C171"
 },
 {
  "file": "Cons/Model.lean",
  "def": "stepOk",
  "old": "!s.potentials && !s.strings && !s.expansion && !s.initialConditions",
  "new": "!s.potentials || !s.strings || !s.expansion || !s.initialConditions",
  "edit": "or instead of and",
  "claim": "C171"
 },
 {
  "file": "Cons/Model.lean",
  "def": "stepOk",
  "old": "(report initial (ofEnsembles e)).isEmpty",
  "new": "!(report initial (ofEnsembles e)).isEmpty",
  "edit": "condition inverted",
  "claim": "C171"
 },
 {
  "file": "Cons/Model.lean",
  "def": "run",
  "old": "run s initial (k + 1) l else",
  "new": "run s (ofEnsembles e) (k + 1) l else",
  "edit": "compared with the last step instead of the beginning",
  "claim": "C171"
 },
 {
  "file": "Cons/Model.lean",
  "def": "run",
  "old": "else some k",
  "new": "else run s initial (k + 1) l",
  "edit": "violation ignored",
  "claim": "C171"
 }
]