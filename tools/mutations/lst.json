[
 {
  "file": "Lst/Model.lean",
  "def": "splitTerm",
  "old": "if c = 10 then ([] ::",
  "new": "if c = 13 then ([] ::",
  "edit": "carriage return as line end",
  "claim": "C54"
 },
 {
  "file": "Lst/Model.lean",
  "def": "hasEventsLoop",
  "old": "if l.head? = some 35 then true",
  "new": "if l.head? ≠ some 35 then true",
  "edit": "comment test reversed",
  "claim": "C54"
 },
 {
  "file": "Lst/Model.lean",
  "def": "hasEventsLoop",
  "old": "if k < 4 then hasEventsLoop",
  "new": "if k < 5 then hasEventsLoop",
  "edit": "one more skipped line",
  "claim": "C54"
 },
 {
  "file": "Lst/Model.lean",
  "def": "hasEventsLoop",
  "old": "if k < 4 then hasEventsLoop (k + 1) ls else true",
  "new": "if k < 4 then hasEventsLoop (k + 1) ls else false",
  "edit": "no events after four lines",
  "claim": "C54"
 },
 {
  "file": "Lst/Model.lean",
  "def": "fileHasEvents",
  "old": "  | none => false\n",
  "new": "  | none => true\n",
  "edit": "end of file not recognised",
  "claim": "C54"
 },
 {
  "file": "Lst/Model.lean",
  "def": "fileHasEvents",
  "old": "(splitTerm (content.drop pos)).1",
  "new": "(splitTerm content).1",
  "edit": "position ignored when looking for events",
  "claim": "C54"
 },
 {
  "file": "Lst/Model.lean",
  "def": "readLoop",
  "old": "else ([], some (l.length + 1))",
  "new": "else ([], some l.length)",
  "edit": "position at the line end instead of behind it",
  "claim": "C54"
 },
 {
  "file": "Lst/Model.lean",
  "def": "readLoop",
  "old": "(l ++ [10] ++ (readLoop ls tail).1",
  "new": "(l ++ (readLoop ls tail).1",
  "edit": "line ends dropped",
  "claim": "C54"
 },
 {
  "file": "Lst/Model.lean",
  "def": "readLoop",
  "old": "else ([], some (l.length + 1))",
  "new": "else (l, some (l.length + 1))",
  "edit": "end line included",
  "claim": "C54"
 },
 {
  "file": "Lst/Model.lean",
  "def": "readLoop",
  "old": "(· + (l.length + 1))",
  "new": "(· + l.length)",
  "edit": "position miscounted",
  "claim": "C54"
 },
 {
  "file": "Lst/Model.lean",
  "def": "readLoop",
  "old": "then (tail ++ [10], none)",
  "new": "then ([], none)",
  "edit": "incomplete last line dropped",
  "claim": "C54 plain"
 },
 {
  "file": "Lst/Model.lean",
  "def": "nextEvent",
  "old": "pos := r.2.map (· + st.pos.getD 0)",
  "new": "pos := r.2",
  "edit": "position relative",
  "claim": "C54"
 },
 {
  "file": "Lst/Model.lean",
  "def": "nextEvent",
  "old": "⟨some (i + 1), some 0⟩",
  "new": "⟨some (i + 1), st.pos⟩",
  "edit": "position not reset for the next file",
  "claim": "C54 numbered"
 },
 {
  "file": "Lst/Model.lean",
  "def": "nextEvent",
  "old": "⟨some (i + 1), some 0⟩",
  "new": "⟨some (i + 2), some 0⟩",
  "edit": "file skipped",
  "claim": "C54 numbered"
 },
 {
  "file": "Lst/Model.lean",
  "def": "nextEvent",
  "old": "| none, _ => (st, .error .noEvents)",
  "new": "| none, _ => (st, .ok [])",
  "edit": "empty event instead of an error",
  "claim": "C54 single"
 },
 {
  "file": "Lst/Model.lean",
  "def": "needle",
  "old": "[32, 101, 110, 100, 32]",
  "new": "[32, 101, 110, 100]",
  "edit": "needle without trailing blank",
  "claim": "C54"
 },
 {
  "file": "Lst/Model.lean",
  "def": "readLines",
  "old": "| .unknown => readLines conv ls",
  "new": "| .unknown => .ok []",
  "edit": "unknown particle ends the reading",
  "claim": "C54 particles"
 },
 {
  "file": "Lst/Model.lean",
  "def": "readLines",
  "old": "| .ok ps => .ok (p :: ps)",
  "new": "| .ok ps => .ok (ps ++ [p])",
  "edit": "order reversed",
  "claim": "C54 particles"
 },
 {
  "file": "Lst/Model.lean",
  "def": "chooseMom",
  "old": "then onShell ty.poleMass mom.vec",
  "new": "then onShell mass mom.vec",
  "edit": "wrong mass",
  "claim": "C83"
 },
 {
  "file": "Lst/Model.lean",
  "def": "chooseMom",
  "old": "if ty.stable ∧ |mass",
  "new": "if |mass",
  "edit": "also for unstable",
  "claim": "C83"
 },
 {
  "file": "Lst/Model.lean",
  "def": "chooseMom",
  "old": "then onShell mass mom.vec\n",
  "new": "then onShell ty.poleMass mom.vec\n",
  "edit": "pole mass for unstable",
  "claim": "C83"
 },
 {
  "file": "Lst/Model.lean",
  "def": "chooseMom",
  "old": "|mom.sqr - mass * mass|",
  "new": "|mom.sqr - mass|",
  "edit": "mass not squared",
  "claim": "C83"
 },
 {
  "file": "Lst/Model.lean",
  "def": "chooseMom",
  "old": "- mass * mass| > 1 / 1000000",
  "new": "- mass * mass| > 1 / 1000",
  "edit": "tolerance",
  "claim": "C83"
 },
 {
  "file": "Lst/Model.lean",
  "def": "onShell",
  "old": "mass * mass + p.dot p",
  "new": "mass * mass - p.dot p",
  "edit": "sign",
  "claim": "C83"
 },
 {
  "file": "Lst/Model.lean",
  "def": "create",
  "old": ".ok ⟨x, chooseMom ty mass p, x.t, 1⟩",
  "new": ".ok ⟨x, chooseMom ty mass p, 0, 1⟩",
  "edit": "formation time not set",
  "claim": "C83"
 },
 {
  "file": "Lst/Model.lean",
  "def": "create",
  "old": "| some x, some p => match ty with",
  "new": "| some p, some x => match ty with",
  "edit": "position and momentum swapped",
  "claim": "C83"
 },
 {
  "file": "Lst/Model.lean",
  "def": "timeLoop",
  "old": "if p.pos.t < earliest then p.pos.t else earliest",
  "new": "if p.pos.t > earliest then p.pos.t else earliest",
  "edit": "latest",
  "claim": "C84"
 },
 {
  "file": "Lst/Model.lean",
  "def": "timeLoop",
  "old": "diff + |p.pos.t - first|",
  "new": "diff + (p.pos.t - first)",
  "edit": "absolute value dropped",
  "claim": "C84"
 },
 {
  "file": "Lst/Model.lean",
  "def": "timeLoop",
  "old": "diff + |p.pos.t - first|",
  "new": "|p.pos.t - first|",
  "edit": "not accumulated",
  "claim": "C84"
 },
 {
  "file": "Lst/Model.lean",
  "def": "startTogether",
  "old": "then (backpropagate earliest ps, earliest)",
  "new": "then (backpropagate earliest ps, 0)",
  "edit": "start time zero",
  "claim": "C84"
 },
 {
  "file": "Lst/Model.lean",
  "def": "startTogether",
  "old": "if diff > 1 / 1000000 then",
  "new": "if diff > 1 / 1000 then",
  "edit": "tolerance",
  "claim": "C84"
 },
 {
  "file": "Lst/Model.lean",
  "def": "tooMany",
  "old": "> 2",
  "new": "> 3",
  "edit": "three allowed",
  "claim": "C84"
 }
]