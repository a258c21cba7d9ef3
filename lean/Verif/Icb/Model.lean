import Mathlib.Data.Multiset.AddSub
import Mathlib.Algebra.Order.Group.Multiset
import Mathlib.Algebra.BigOperators.Group.Multiset.Basic
import Mathlib.Algebra.Order.Ring.Rat
import Mathlib.Algebra.Order.Field.Rat
/-
Model of the books kept during an event and closed at its end: counters of `Experiment::perform_action`, experiment.h:2262-2330, their reset in
`initialize_new_event`, experiment.h:2143-2153, and the checks of `final_output`, experiment.h:3098-3174. A particle is its energy, all ensembles are in one
multiset. Simplified: energies are exact rationals; an action conserves or not, `before != after`, is energy and one Boolean for everything else.
-/
namespace Verif.Icb

/-- Kinds of actions with a treatment of their own, action.cc:484-538 and experiment.h:2324-2330. -/
inductive Kind
  | string | weakDecay | freeforall | wall | fluid | other
  deriving DecidableEq

/-- An action: its kind, the energies of incoming and outgoing particles and whether charges and momenta agree. -/
structure Act where
  kind : Kind
  inc : Multiset ℚ
  out : Multiset ℚ
  sameRest : Bool

/-- Books and particles. -/
structure St where
  parts : Multiset ℚ
  initial : ℚ
  total : ℕ
  walls : ℕ
  discarded : ℕ
  crossings : ℕ
  removed : ℚ
  violated : ℚ

/-- Beginning of an event, experiment.h:2143-2153: whatever was in the books is dropped. -/
def start (parts : Multiset ℚ) : St := ⟨parts, parts.sum, 0, 0, 0, 0, 0, 0⟩

/-- `check_conservation`, action.cc:484-538 and fluidizationaction.cc:33-54: the energy violation, `none` for an exception. -/
def check (a : Act) : Option ℚ :=
  match a.kind with
  | .fluid => if a.out = 0 then some 0 else none
  | k =>
    if a.inc.sum = a.out.sum ∧ a.sameRest = true then some 0
    else match k with
      | .string => some (a.out.sum - a.inc.sum)
      | .weakDecay => some 0
      | .freeforall => some 0
      | _ => none

/-- `perform_action`, experiment.h:2262-2330 with `Action::perform`, action.cc:128-158: `lattice` says that potentials affect thresholds, then nothing is checked.
Rejected actions (Pauli blocking, core particles) do not change the books listed here and are left out.
The energy removed is that of the single incoming particle. -/
def perform (lattice : Bool) (s : St) (a : Act) : Option St :=
  if a.inc ≤ s.parts then (if lattice then some 0 else check a).map fun v =>
    let s := { s with parts := s.parts - a.inc + a.out, violated := s.violated + v, total := s.total + 1 }
    let s := if a.kind = .wall then { s with walls := s.walls + 1 } else s
    if a.kind = .fluid then { s with crossings := s.crossings + 1, removed := s.removed + a.inc.sum } else s
  else some { s with discarded := s.discarded + 1 }

/-- The actions of an event one after the other. -/
def run (lattice : Bool) (s : St) : List Act → Option St
  | [] => some s
  | a :: as => (perform lattice s a).bind fun t => run lattice t as

/-- `really_small`, constants.h:41. -/
def reallySmall : ℚ := 1 / 1000000

/-- `std::fabs(x / y - 1.) > really_small` in floating point, experiment.h:3104-3109: for `y = 0` the quotient is infinite or, for `x = 0`, not a number and
the comparison false. -/
def deviates (x y : ℚ) : Bool :=
  if y = 0 then decide (x ≠ 0) else decide (reallySmall < |x / y - 1|)

/-- What is reported at the end of an event. -/
inductive Report
  | remaining
  | hypersurface (interactions crossings : ℕ)
  | usual (warn : Bool) (interactions : ℕ)
  deriving DecidableEq

/-- `precent_discarded`, experiment.h:3130-3134. -/
def percent (s : St) : ℚ := if 0 < s.total then (s.discarded : ℚ) * 100 / s.total else 0

/-- `final_output`, experiment.h:3098-3159: exception, report of the hypersurface or usual report. The differences are of unsigned numbers. -/
def report (ic stochastic : Bool) (s : St) : Report :=
  if ic ∧ s.parts.card = 0 then
    if deviates (s.initial + s.violated) s.removed then .remaining else .hypersurface (s.total - s.walls - s.crossings) s.crossings
  else .usual (stochastic && decide (1 < percent s)) (s.total - s.walls)

/-- Unformed particles at the end, experiment.h:3162-3169: two loops with a counter. -/
def unformed (endTime : ℚ) (ens : List (List ℚ)) : ℕ :=
  ens.foldl (fun n ps => ps.foldl (fun n t => if endTime < t then n + 1 else n) n) 0

end Verif.Icb
