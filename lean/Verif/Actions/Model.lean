import Mathlib.Data.List.Perm.Basic
import Mathlib.Order.Defs.LinearOrder
/-
Model of the action queue `smash::Actions`, /repo/src/include/smash/actions.h.
-/
namespace Verif.Actions

/-- `std::is_heap` with respect to `cmp` (C++ standard [alg.heap.operations]):
no element is smaller than its parent, i.e. `cmp(parent, child)` never holds. -/
def IsHeap {A : Type} (cmp : A → A → Bool) (l : List A) : Prop :=
  ∀ i j (hi : i < l.length) (hj : j < l.length), 0 < j → i = (j - 1) / 2 →
    cmp l[i] l[j] = false

/-- The contract of `std::make_heap`, `std::push_heap`, `std::pop_heap` from the
C++ standard ([make.heap], [push.heap], [pop.heap]). Simplification: the standard
library is modelled by this contract; the theorems hold for every implementation
that fulfils it. -/
structure StdHeap {A : Type} (cmp : A → A → Bool) where
  makeHeap : List A → List A
  pushHeap : List A → List A
  popHeap : List A → List A
  make_perm : ∀ l, (makeHeap l).Perm l
  make_heap : ∀ l, IsHeap cmp (makeHeap l)
  push_perm : ∀ l, (pushHeap l).Perm l
  push_heap : ∀ l x, IsHeap cmp l → IsHeap cmp (pushHeap (l ++ [x]))
  pop_perm : ∀ l, (popHeap l).Perm l
  pop_heap : ∀ l, IsHeap cmp l → IsHeap cmp (popHeap l).dropLast
  pop_last : ∀ x l, IsHeap cmp (x :: l) → (popHeap (x :: l)).getLast? = some x

variable {A T : Type} [LinearOrder T]

/-- `Actions::cmp`, actions.h:122-124. Execution times are elements of any linear
order (doubles without NaN). -/
def cmp (time : A → T) (a b : A) : Bool := decide (time b < time a)

variable (time : A → T) (H : StdHeap (cmp time))

/-- `Actions::Actions(ActionList&&)`, actions.h:42-44. The state is `data_`. -/
def construct (l : List A) : List A := H.makeHeap l

/-- `Actions::insert(ActionPtr&&)`, actions.h:92-95. -/
def insert (s : List A) (a : A) : List A := H.pushHeap (s ++ [a])

/-- `Actions::insert(ActionList&&)`, actions.h:79-83. -/
def insertList (s : List A) (l : List A) : List A := l.foldl (insert time H) s

/-- `Actions::pop`, actions.h:59-67; `none` is the exception. -/
def pop (s : List A) : Option (A × List A) :=
  if s.isEmpty then none
  else
    let d := H.popHeap s
    match d.getLast? with
    | none => none
    | some a => some (a, d.dropLast)

/-- `Actions::earliest_time`, actions.h:70; `none` is undefined behaviour
(`front()` of an empty vector). -/
def earliestTime (s : List A) : Option T := s.head?.map time

/-- `*Actions::begin()`, actions.h:104-106 (`crbegin`). -/
def begin (s : List A) : Option A := s.getLast?

/-- The mutating calls. -/
inductive Op (A : Type) where
  | insert (a : A)
  | insertList (l : List A)
  | pop
  | clear

/-- One call on (queue, list of everything popped so far, newest first);
`clear()` is actions.h:101. -/
def step (s : List A × List A) : Op A → Option (List A × List A)
  | .insert a => some (insert time H s.1 a, s.2)
  | .insertList l => some (insertList time H s.1 l, s.2)
  | .pop =>
    match pop time H s.1 with
    | none => none
    | some (a, s') => some (s', a :: s.2)
  | .clear => some ([], s.2)

/-- A history of calls. -/
def run (s : List A × List A) : List (Op A) → Option (List A × List A)
  | [] => some s
  | op :: ops =>
    match step time H s op with
    | none => none
    | some s' => run s' ops

/-- The loop `while (!actions.is_empty()) { act = actions.pop(); ... }`
(experiment.h), at most `n` rounds. -/
def drain : Nat → List A → List A
  | 0, _ => []
  | n + 1, s =>
    match pop time H s with
    | none => []
    | some (a, s') => a :: drain n s'

end Verif.Actions
