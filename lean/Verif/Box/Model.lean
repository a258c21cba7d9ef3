import Mathlib.Data.Rat.Floor
import Mathlib.Data.Fin.VecNotation
/-
Model of periodic boxes: `enforce_periodic_boundaries` (algorithms.h),
`BoxModus::impose_boundary_conditions` (boxmodus.cc) and `WallCrossActionsFinder`
(wallcrossingaction.cc).  Doubles are exact rationals.
-/
namespace Verif.Box

/-- One iteration of the loop in `enforce_periodic_boundaries`, algorithms.h:58-65: the new
value and whether it was wrapped. -/
def wrap1 (length x : ℚ) : ℚ × Bool :=
  if x < 0 then (x + length, true)
  else if x ≥ length then (x - length, true)
  else (x, false)

/-- `enforce_periodic_boundaries`, algorithms.h:52-68: the values afterwards and the
returned flag. -/
def enforce (length : ℚ) : List ℚ → List ℚ × Bool
  | [] => ([], false)
  | x :: xs =>
    let r := wrap1 length x
    let rs := enforce length xs
    (r.1 :: rs.1, r.2 || rs.2)

/-- A particle: time and position (`position()`), velocity (`velocity()`), and everything
else (type, momentum, id, history) as an opaque payload. -/
structure Part (α : Type) where
  t : ℚ
  r : Fin 3 → ℚ
  v : Fin 3 → ℚ
  rest : α

/-- The position with periodic boundaries enforced, boxmodus.cc:235-237 (only the three
spatial components are passed). -/
def wrapPos {α : Type} (length : ℚ) (p : Part α) : Part α × Bool :=
  let e := enforce length [p.r 0, p.r 1, p.r 2]
  ({ p with r := ![e.1.getD 0 0, e.1.getD 1 0, e.1.getD 2 0] }, e.2)

/-- `impose_boundary_conditions`, boxmodus.cc:230-253: the particles afterwards, the
returned number of wraps, and the wall crossings handed to every output that is neither a
dilepton nor a photon output, as (incoming, outgoing). -/
def impose {α : Type} (length : ℚ) : List (Part α) → List (Part α) × Nat × List (Part α × Part α)
  | [] => ([], 0, [])
  | p :: ps =>
    let w := wrapPos length p
    let rs := impose length ps
    if w.2 then (w.1 :: rs.1, rs.2.1 + 1, (p, w.1) :: rs.2.2)
    else (p :: rs.1, rs.2.1, rs.2.2)

/-- `really_small`, constants.h:41. -/
def small : ℚ := 1 / 1000000

/-- The time at which one coordinate reaches the wall it moves to,
wallcrossingaction.cc:24-29. -/
def axisTime (l tmax r v : ℚ) : ℚ :=
  if v > small then (l - r) / v else if v < -small then -r / v else tmax + 1

/-- One iteration of the loop over the axes, wallcrossingaction.cc:24-33; the state is
`i_cross` (`none` for -1) and `time_until_crossing`. -/
def scanStep {α : Type} (l tmax : ℚ) (p : Part α) (s : Option (Fin 3) × ℚ) (i : Fin 3) :
    Option (Fin 3) × ℚ :=
  let t := axisTime l tmax (p.r i) (p.v i)
  if t < s.2 then (some i, t) else s

/-- The loop over the axes, wallcrossingaction.cc:21-34. -/
def scan {α : Type} (l tmax : ℚ) (p : Part α) : Option (Fin 3) × ℚ :=
  [0, 1, 2].foldl (scanStep l tmax p) (none, tmax)

/-- A wall crossing action: incoming and outgoing particle and the time until it happens. -/
structure Crossing (α : Type) where
  (before after : Part α)
  time : ℚ

/-- The body of the particle loop, wallcrossingaction.cc:19-47. -/
def findOne {α : Type} (l tmax : ℚ) (p : Part α) : Option (Crossing α) :=
  match scan l tmax p with
  | (none, _) => none
  | (some i, t) =>
    let q := fun j => p.r j + p.v j * t
    some ⟨p, { p with t := p.t + t, r := Function.update q i (if p.v i > 0 then 0 else l) }, t⟩

/-- `WallCrossActionsFinder::find_actions_in_cell`, wallcrossingaction.cc:14-50. -/
def find {α : Type} (l tmax : ℚ) (ps : List (Part α)) : List (Crossing α) :=
  ps.filterMap (findOne l tmax)

end Verif.Box
