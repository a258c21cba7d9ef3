import Mathlib.Data.Rat.Defs
import Mathlib.Algebra.Order.Ring.Rat
import Mathlib.Algebra.Group.Prod
/-
Model of the identification of the strings in the partons of a hard scattering: `compose_string_parton`,
`compose_string_junction`, `find_junction_leg` (stringprocess.cc:1275-1525), `get_index_forward` (stringprocess.h:764-776) and the
loop of `next_NDiffHard` that calls them (stringprocess.cc:684-760).  The event record is the list of its partons without the
entry 0, so that the places are smaller by one.  The rapidity is a function `y`.  The fragmentation of a string is taken to
succeed; after a failure the code drops the event.  Debug messages are not modelled.
-/
namespace Verif.Hard

/-- Momentum: x, y, z and energy. -/
abbrev P4 := ℚ × ℚ × ℚ × ℚ

/-- An entry of the event record: PDG number, colour, anticolour (0: none), momentum. -/
structure Parton where
  id : Int
  col : Nat
  acol : Nat
  p : P4
  deriving DecidableEq

/-- A junction: the kind (odd: three quarks, even: three antiquarks) and the colours of its legs, stringprocess.cc:1367-1378. -/
structure Junction where
  kind : Nat
  legs : List Nat
  deriving DecidableEq

/-- `event_hadronize`: partons, junctions and the momentum of entry 0. -/
structure Str where
  parts : List Parton
  juncs : List Junction
  sys : P4

/-- `event_intermediate`. -/
structure Event where
  parts : List Parton
  juncs : List Junction

/-- "Hard string could not be identified", and an access beyond the record. -/
inductive Err
  | notIdentified
  | outOfRange
  deriving DecidableEq

/-- `append` and `pSum +=`, stringprocess.cc:1286-1287, 1345-1347, 1505-1507. -/
def Str.add (s : Str) (q : Parton) : Str := { s with parts := s.parts ++ [q], sys := s.sys + q.p }

/-- `event_hadronize.reset()`, stringprocess.cc:1279, 1365. -/
def Str.empty : Str := ⟨[], [], 0⟩

/-- The loop of `get_index_forward` from place `i` on, stringprocess.h:767-774. -/
def forwardLoop (y : Parton → ℚ) (fwd : Bool) (best : Nat) (yb : ℚ) (i : Nat) : List Parton → Nat
  | [] => best
  | q :: qs =>
    if (fwd = true ∧ y q > yb) ∨ (fwd = false ∧ y q < yb) then forwardLoop y fwd i (y q) (i + 1) qs
    else forwardLoop y fwd best yb (i + 1) qs

/-- `get_index_forward` with `np_end = 0`, stringprocess.h:764-776. -/
def forwardIdx (y : Parton → ℚ) (fwd : Bool) : List Parton → Nat
  | [] => 0
  | q :: qs => forwardLoop y fwd 0 (y q) 1 qs

/-- The search for the next parton: place and new colours to find, stringprocess.cc:1300-1330. -/
def search (ctf atf : Nat) (i : Nat) : List Parton → Option (Nat × Nat × Nat)
  | [] => none
  | q :: qs =>
    let fc := decide (ctf ≠ 0) && decide (ctf = q.col)
    let fa := decide (atf ≠ 0) && decide (atf = q.acol)
    if fc && !fa then some (i, q.acol, atf)
    else if !fc && fa then some (i, ctf, q.col)
    else if fc && fa then some (i, 0, 0)
    else search ctf atf (i + 1) qs

/-- The loop `while (col_to_find != 0 || acol_to_find != 0)`, stringprocess.cc:1296-1354. -/
def trace (ctf atf : Nat) (rest : List Parton) (s : Str) : Except Err (Str × List Parton) :=
  if ctf ≠ 0 ∨ atf ≠ 0 then
    match search ctf atf 0 rest with
    | none => .error .notIdentified
    | some (i, c, a) => if h : i < rest.length then trace c a (rest.eraseIdx i) (s.add rest[i]) else .error .outOfRange
  else .ok (s, rest)
termination_by rest.length
decreasing_by simp [List.length_eraseIdx, h]; omega

/-- `compose_string_parton`, stringprocess.cc:1275-1360. -/
def composeParton (y : Parton → ℚ) (fwd : Bool) (parts : List Parton) : Except Err (Str × List Parton) :=
  let i := forwardIdx y fwd parts
  if h : i < parts.length then trace parts[i].acol parts[i].col (parts.eraseIdx i) (Str.empty.add parts[i])
  else .error .outOfRange

/-- The search for the next parton of a leg: place and new colour, stringprocess.cc:1475-1491. -/
def legSearch (sign : Bool) (c : Nat) (i : Nat) : List Parton → Option (Nat × Nat)
  | [] => none
  | q :: qs =>
    if sign = true ∧ c = q.col then some (i, q.acol)
    else if sign = false ∧ c = q.acol then some (i, q.col)
    else legSearch sign c (i + 1) qs

/-- One leg: the loop `while (!found_leg)`, stringprocess.cc:1474-1516; `nj`: number of junctions left. -/
def leg (sign : Bool) (nj c : Nat) (rest : List Parton) (s : Str) : Except Err (Nat × List Parton × Str) :=
  match legSearch sign c 0 rest with
  | none => if nj = 0 then .error .notIdentified else .ok (c, rest, s)
  | some (i, c') =>
    if h : i < rest.length then
      if c' = 0 then .ok (0, rest.eraseIdx i, s.add rest[i])
      else leg sign nj c' (rest.eraseIdx i) (s.add rest[i])
    else .error .outOfRange
termination_by rest.length
decreasing_by simp [List.length_eraseIdx, h]; omega

/-- `find_junction_leg`: all legs, stringprocess.cc:1465-1523. -/
def findLegs (sign : Bool) (nj : Nat) : List Nat → List Parton → Str → Except Err (List Nat × List Parton × Str)
  | [], rest, s => .ok ([], rest, s)
  | c :: cs, rest, s =>
    if c = 0 then
      match findLegs sign nj cs rest s with
      | .error e => .error e
      | .ok (l, r, t) => .ok (0 :: l, r, t)
    else
      match leg sign nj c rest s with
      | .error e => .error e
      | .ok (c', r, t) =>
        match findLegs sign nj cs r t with
        | .error e => .error e
        | .ok (l, r', t') => .ok (c' :: l, r', t')

/-- The legs of another junction against one open leg: what is left of the leg, the count, what is left of the legs of the junction,
stringprocess.cc:1418-1424. -/
def matchLeg (c n : Nat) : List Nat → Nat × Nat × List Nat
  | [] => (c, n, [])
  | k :: ks =>
    if c = k then
      let r := matchLeg 0 (n + 1) ks
      (r.1, r.2.1, 0 :: r.2.2)
    else
      let r := matchLeg c n ks
      (r.1, r.2.1, k :: r.2.2)

/-- All open legs, stringprocess.cc:1412-1425. -/
def matchLegs (n : Nat) (new : List Nat) : List Nat → List Nat × Nat × List Nat
  | [] => ([], n, new)
  | c :: cs =>
    if c = 0 then
      let r := matchLegs n new cs
      (0 :: r.1, r.2)
    else
      let m := matchLeg c n new
      let r := matchLegs m.2.1 m.2.2 cs
      (m.1 :: r.1, r.2)

/-- The junctions connected to the open legs: new legs, junctions moved, junctions kept, stringprocess.cc:1397-1457.  The code
collects the places of the junctions and moves them afterwards. -/
def connect (sign : Bool) (col : List Nat) : List Junction → List Nat × List Junction × List Junction
  | [] => (col, [], [])
  | j :: js =>
    if sign ≠ decide (j.kind % 2 = 1) then
      let r := connect sign col js
      (r.1, r.2.1, j :: r.2.2)
    else
      let m := matchLegs 0 j.legs col
      if m.2.1 > 0 then
        let r := connect sign (m.1 ++ m.2.2.filter (· ≠ 0)) js
        (r.1, j :: r.2.1, r.2.2)
      else
        let r := connect sign m.1 js
        (r.1, r.2.1, j :: r.2.2)

/-- The loop `while (!found_string)`, stringprocess.cc:1384-1459; `none`: not finished after `fuel` rounds. -/
def junctionLoop : (fuel : Nat) → Bool → List Nat → Event → Str → Option (Except Err (Str × Event))
  | 0, _, _, _, _ => none
  | n + 1, sign, col, ev, s =>
    match findLegs sign ev.juncs.length col ev.parts s with
    | .error e => some (.error e)
    | .ok (col', rest, t) =>
      if col'.all (· = 0) then some (.ok (t, ⟨rest, ev.juncs⟩))
      else
        let r := connect (!sign) col' ev.juncs
        junctionLoop n (!sign) r.1 ⟨rest, r.2.2⟩ { t with juncs := t.juncs ++ r.2.1 }

/-- `compose_string_junction` with the first junction `j`, stringprocess.cc:1362-1463. -/
def composeJunction (fuel : Nat) (j : Junction) (ev : Event) : Option (Except Err (Str × Event)) :=
  junctionLoop fuel (decide (j.kind % 2 = 1)) j.legs ev { Str.empty with juncs := [j] }

/-- The loop `while (event_intermediate_.size() > 1)`, stringprocess.cc:687-760, with `find_forward_string`: the strings and the
junctions left; `none`: not finished after `fuel` rounds. -/
def hardLoop (y : Parton → ℚ) : (fuel : Nat) → Bool → Event → Option (Except Err (List Str × List Junction))
  | 0, _, _ => none
  | n + 1, fwd, ev =>
    if ev.parts = [] then some (.ok ([], ev.juncs))
    else
      match ev.juncs with
      | j :: js =>
        match composeJunction n j ⟨ev.parts, js⟩ with
        | none => none
        | some (.error e) => some (.error e)
        | some (.ok (s, ev')) =>
          match hardLoop y n (!decide (s.sys.2.2.1 > 0)) ev' with
          | none => none
          | some (.error e) => some (.error e)
          | some (.ok (l, r)) => some (.ok (s :: l, r))
      | [] =>
        match composeParton y fwd ev.parts with
        | .error e => some (.error e)
        | .ok (s, rest) =>
          match hardLoop y n (!fwd) ⟨rest, []⟩ with
          | none => none
          | some (.error e) => some (.error e)
          | some (.ok (l, r)) => some (.ok (s :: l, r))

end Verif.Hard
