import Mathlib.Algebra.Order.Field.Basic
import Mathlib.Algebra.Order.Ring.Abs
import Mathlib.Data.Fin.VecNotation

/-
Model of `Action::get_interaction_point` and `Action::assign_formation_time_to_outgoing_particles`,
action.cc:68-110 and 191-251, over any linearly ordered field.
-/
namespace Verif.Inter

variable {K : Type} [Field K] [LinearOrder K] [IsStrictOrderedRing K]

/-- An incoming particle: time, place and velocity. -/
structure Inc (K : Type) where
  t : K
  x : Fin 3 → K
  v : Fin 3 → K

/-- `propagated_position`, action.cc:73-75. -/
def Inc.at (p : Inc K) (time : K) : Fin 3 → K := fun i => p.x i + p.v i * (time - p.t)

/-- The correction of one coordinate for periodic boundaries, action.cc:93-101. -/
def wrap (L x1 x2 y : K) : K :=
  if |x1 - x2| > 1 / 2 * L then
    if y ≥ 1 / 2 * L then y - 1 / 2 * L else y + 1 / 2 * L
  else y

/-- `get_interaction_point`, action.cc:68-110: time and place; `none` if the assertion on the number
of particles fails or the index is out of range (and for an empty list of particles, where it divides
zero by zero). -/
def interactionPoint (time boxLength : K) (stochasticIdx : ℤ) (inc : List (Inc K)) :
    Option (K × (Fin 3 → K)) :=
  if inc = [] then none
  else if 0 ≤ stochasticIdx then
    (inc[stochasticIdx.toNat]?).map fun p => (p.t, p.x)
  else
    let mean : Fin 3 → K := fun i => (inc.map fun p => p.at time i).sum / (inc.length : K)
    if boxLength > 0 then
      match inc with
      | [a, b] => some (time, fun i => wrap boxLength (a.at time i) (b.at time i) (mean i))
      | _ => none
    else some (time, mean)

/-- The members of a particle that describe its formation. -/
structure Form (K : Type) where
  begin : K
  formed : K
  scale : K
deriving DecidableEq

/-- `std::min_element` with the comparison `lt` on a non-empty list: the first smallest element. -/
def firstBest (lt : Form K → Form K → Bool) : Form K → List (Form K) → Form K
  | a, [] => a
  | a, b :: l => firstBest lt (if lt b a then b else a) l

/-- `last_formed_in_part`, action.cc:194-218 (`std::max_element` keeps the first element unless a
later one is larger); `none`: no incoming particle. -/
def lastFormed : List (Form K) → Option (Form K)
  | [] => none
  | a :: l =>
    if l.all fun b => decide (|a.formed - b.formed| < 1 / 1000000) then
      some (firstBest (fun x y => decide (x.scale < y.scale)) a l)
    else some (firstBest (fun x y => decide (y.formed < x.formed)) a l)

/-- The formation of one outgoing particle if the last incoming one forms later, action.cc:224-243. -/
def outUnformed (time : K) (last : Form K) (o : Form K) : Form K :=
  if o.scale < 1 then
    if last.formed > o.formed then ⟨time, last.formed, last.scale * o.scale⟩
    else { o with scale := last.scale * o.scale }
  else ⟨last.begin, last.formed, last.scale⟩

/-- The formation of one outgoing particle if all incoming ones are formed, action.cc:244-250. -/
def outFormed (time : K) (o : Form K) : Form K :=
  if o.scale = 1 then { o with begin := time, formed := time } else o

/-- `assign_formation_time_to_outgoing_particles`, action.cc:191-251. -/
def assignFormation (time : K) (inc out : List (Form K)) : Option (List (Form K)) :=
  (lastFormed inc).map fun last =>
    if last.formed > time then out.map (outUnformed time last) else out.map (outFormed time)

end Verif.Inter
