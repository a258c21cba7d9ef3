[
 {
  "file": "Hard/Model.lean",
  "def": "Str.add",
  "old": "sys := s.sys + q.p",
  "new": "sys := s.sys",
  "edit": "momentum not added",
  "claim": "C174"
 },
 {
  "file": "Hard/Model.lean",
  "def": "Str.add",
  "old": "parts := s.parts ++ [q], sys",
  "new": "sys",
  "edit": "parton not appended",
  "claim": "C174"
 },
 {
  "file": "Hard/Model.lean",
  "def": "forwardLoop",
  "old": "(fwd = false ∧ y q < yb)",
  "new": "(fwd = false ∧ y q > yb)",
  "edit": "always the most forward parton",
  "claim": "C174"
 },
 {
  "file": "Hard/Model.lean",
  "def": "forwardLoop",
  "old": "forwardLoop y fwd i (y q) (i + 1) qs",
  "new": "forwardLoop y fwd i yb (i + 1) qs",
  "edit": "rapidity of the best not updated",
  "claim": "C174"
 },
 {
  "file": "Hard/Model.lean",
  "def": "forwardIdx",
  "old": "forwardLoop y fwd 0 (y q) 1 qs",
  "new": "forwardLoop y fwd 0 (y q) 0 qs",
  "edit": "places shifted by one",
  "claim": "C174"
 },
 {
  "file": "Hard/Model.lean",
  "def": "search",
  "old": "if fc && !fa then some (i, q.acol, atf)",
  "new": "if fc && !fa then some (i, q.col, atf)",
  "edit": "colour instead of anticolour",
  "claim": "C174"
 },
 {
  "file": "Hard/Model.lean",
  "def": "search",
  "old": "else if !fc && fa then some (i, ctf, q.col)",
  "new": "else if !fc && fa then some (i, q.col, atf)",
  "edit": "wrong colour updated",
  "claim": "C174"
 },
 {
  "file": "Hard/Model.lean",
  "def": "search",
  "old": "else if fc && fa then some (i, 0, 0)",
  "new": "else if fc && fa then some (i, 0, atf)",
  "edit": "closing gluon leaves a colour open",
  "claim": "C174"
 },
 {
  "file": "Hard/Model.lean",
  "def": "search",
  "old": "else if !fc && fa then some (i, ctf, q.col)",
  "new": "",
  "edit": "only colours are traced",
  "claim": "C174"
 },
 {
  "file": "Hard/Model.lean",
  "def": "search",
  "old": "decide (ctf ≠ 0) && decide (ctf = q.col)",
  "new": "decide (ctf = q.col)",
  "edit": "no colour matches no colour",
  "claim": "C174"
 },
 {
  "file": "Hard/Model.lean",
  "def": "trace",
  "old": "if ctf ≠ 0 ∨ atf ≠ 0 then",
  "new": "if ctf ≠ 0 ∧ atf ≠ 0 then",
  "edit": "ends as soon as one side is closed",
  "claim": "C174"
 },
 {
  "file": "Hard/Model.lean",
  "def": "composeParton",
  "old": "trace parts[i].acol parts[i].col",
  "new": "trace parts[i].col parts[i].acol",
  "edit": "colours swapped at the start",
  "claim": "C174"
 },
 {
  "file": "Hard/Model.lean",
  "def": "legSearch",
  "old": "if sign = true ∧ c = q.col then some (i, q.acol)",
  "new": "if sign = true ∧ c = q.acol then some (i, q.col)",
  "edit": "junction of quarks traced along anticolours",
  "claim": "C174"
 },
 {
  "file": "Hard/Model.lean",
  "def": "leg",
  "old": "if nj = 0 then .error .notIdentified else .ok (c, rest, s)",
  "new": "if nj = 0 then .ok (0, rest, s) else .ok (c, rest, s)",
  "edit": "missing parton of the last junction ignored",
  "claim": "C174"
 },
 {
  "file": "Hard/Model.lean",
  "def": "leg",
  "old": "if c' = 0 then .ok (0, rest.eraseIdx i, s.add rest[i])",
  "new": "if c' = 0 then .ok (0, rest, s.add rest[i])",
  "edit": "last parton of a leg not removed",
  "claim": "C174"
 },
 {
  "file": "Hard/Model.lean",
  "def": "connect",
  "old": "(r.1, j :: r.2.1, r.2.2)",
  "new": "(r.1, j :: r.2.1, j :: r.2.2)",
  "edit": "connected junction not removed",
  "claim": "C174"
 },
 {
  "file": "Hard/Model.lean",
  "def": "composeJunction",
  "old": "{ Str.empty with juncs := [j] }",
  "new": "Str.empty",
  "edit": "junction not moved to the string",
  "claim": "C174"
 },
 {
  "file": "Hard/Model.lean",
  "def": "composeJunction",
  "old": "(decide (j.kind % 2 = 1)) j.legs ev",
  "new": "(decide (j.kind % 2 = 0)) j.legs ev",
  "edit": "kinds of junctions swapped",
  "claim": "C174"
 },
 {
  "file": "Hard/Model.lean",
  "def": "hardLoop",
  "old": "hardLoop y n (!fwd) ⟨rest, []⟩",
  "new": "hardLoop y n fwd ⟨rest, []⟩",
  "edit": "direction not alternated",
  "claim": "C174"
 },
 {
  "file": "Hard/Model.lean",
  "def": "hardLoop",
  "old": "composeJunction n j ⟨ev.parts, js⟩",
  "new": "composeJunction n j ⟨ev.parts, j :: js⟩",
  "edit": "junction not erased from the event",
  "claim": "C174"
 }
]