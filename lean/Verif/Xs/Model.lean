import Mathlib.Algebra.Order.Field.Basic
import Mathlib.Data.List.Sort

/-
Model of the cross section dump, /repo/src/scatteractionsfinder.cc:640-1105: the tree of decays after
a collision, the final-state cross sections and the printed table.

Particle types are numbers.  Cross sections, masses and energies are elements of any linearly ordered
field.  Names of tree nodes (only used by `print`) are dropped.
-/
namespace Verif.Xs

variable {K : Type} [Field K] [LinearOrder K] [IsStrictOrderedRing K]

/-- What the tree takes from the particle types: pole mass, stability, decay modes (branching ratio
and products) and the alphabetical order of the names (as a rank). -/
structure Env (K : Type) where
  mass : Nat → K
  stable : Nat → Bool
  modes : Nat → List (K × List Nat)
  rank : Nat → Nat

/-- `decaytree::Node`, scatteractionsfinder.cc:678-840, without the names and the types of the action
itself. -/
inductive Tree (K : Type) where
  | node (weight : K) (state : List Nat) (children : List (Tree K))

/-- `state.erase(std::find(...))` for all `initial_particles`, scatteractionsfinder.cc:741-743;
`none`: erasing `end()`, which is undefined. -/
def eraseAll : List Nat → List Nat → Option (List Nat)
  | state, [] => some state
  | state, p :: ps => if p ∈ state then eraseAll (state.erase p) ps else none

/-- The state of the new node in `add_action`, scatteractionsfinder.cc:736-756 (the order of types
with equal names is unspecified). -/
def newState (env : Env K) (state initial final : List Nat) : Option (List Nat) :=
  (eraseAll state initial).map fun s =>
    (s ++ final).insertionSort (fun a b => env.rank a ≤ env.rank b)

/-- The sum of the pole masses. -/
def massOf (env : Env K) (l : List Nat) : K := (l.map env.mass).sum

/-- The modes that are not skipped, scatteractionsfinder.cc:894-904. -/
def allowed (env : Env K) (p : Nat) (sqrtsDecay : K) : List (K × List Nat) :=
  (env.modes p).filter fun m => !decide (massOf env m.2 > sqrtsDecay)

/-- The children for the modes of one particle, scatteractionsfinder.cc:905-912; `rec` is the
recursive call. -/
def modeNodes (env : Env K) (rec : K → List Nat → K → Option (Tree K)) (norm sd : K)
    (state : List Nat) (p : Nat) : List (K × List Nat) → Option (List (Tree K))
  | [] => some []
  | m :: ms => do
    let s ← newState env state [p] m.2
    let t ← rec (norm * m.1) s sd
    let ts ← modeNodes env rec norm sd state p ms
    return t :: ts

/-- The loop over the state, scatteractionsfinder.cc:890-921; the Boolean tells that a resonance
cannot decay (`node.weight_ = 0; return`). -/
def stateNodes (env : Env K) (rec : K → List Nat → K → Option (Tree K)) (norm smm : K)
    (state : List Nat) : List Nat → Option (List (Tree K) × Bool)
  | [] => some ([], true)
  | p :: ps =>
    if env.stable p then stateNodes env rec norm smm state ps
    else
      let sd := smm + env.mass p
      match allowed env p sd with
      | [] => some ([], false)
      | m :: ms => do
        let ts ← modeNodes env rec norm sd state p (m :: ms)
        let r ← stateNodes env rec norm smm state ps
        return (ts ++ r.1, r.2)

/-- `n_unstable`, scatteractionsfinder.cc:880-887. -/
def nUnstable (env : Env K) (state : List Nat) : Nat := state.countP fun p => !env.stable p

/-- `norm`, scatteractionsfinder.cc:888-889. -/
def normOf (env : Env K) (state : List Nat) : K :=
  if nUnstable env state ≠ 0 then 1 / (nUnstable env state : K) else 1

/-- `add_decays`, scatteractionsfinder.cc:869-922, for a node with the given weight and state.  The
recursion of the code ends because decay products are lighter; here it is cut off after `fuel`
levels (`none`). -/
def addDecays (env : Env K) : Nat → K → List Nat → K → Option (Tree K)
  | 0, _, _, _ => none
  | fuel + 1, w, state, sqrts => do
    let r ← stateNodes env (addDecays env fuel) (normOf env state) (sqrts - massOf env state) state
      state
    return .node (if r.2 then w else 0) state r.1

mutual
/-- `final_state_cross_sections_helper` for depth > 0, scatteractionsfinder.cc:798-839: the states
without children and the product of the weights. -/
def leaves : Tree K → K → List (List Nat × K)
  | .node w s [], f => [(s, f * w)]
  | .node w _ (c :: cs), f => leavesAll (c :: cs) (f * w)
/-- The loop over the children. -/
def leavesAll : List (Tree K) → K → List (List Nat × K)
  | [], _ => []
  | c :: cs, f => leaves c f ++ leavesAll cs f
end

/-- The children of the root made in `dump_cross_sections`, scatteractionsfinder.cc:971-1016: one for
every process with positive cross section. -/
def processNodes (env : Env K) (fuel : Nat) (a b : Nat) (sqrts : K) :
    List (K × List Nat) → Option (List (Tree K))
  | [] => some []
  | x :: xs =>
    if x.1 ≤ 0 then processNodes env fuel a b sqrts xs
    else do
      let s ← newState env [a, b] [a, b] x.2
      let t ← addDecays env fuel x.1 s sqrts
      let ts ← processNodes env fuel a b sqrts xs
      return t :: ts

/-- `tree.final_state_cross_sections()` for the processes at one energy,
scatteractionsfinder.cc:764-770, 967-1024; a root without children is itself a final state, with
weight 1. -/
def finalStates (env : Env K) (fuel : Nat) (a b : Nat) (sqrts : K) (procs : List (K × List Nat)) :
    Option (List (List Nat × K)) := do
  let ts ← processNodes env fuel a b sqrts procs
  return match ts with
    | [] => [([a, b], 1)]
    | _ => leavesAll ts 1

/-! Names are elements of any linearly ordered type. -/

variable {N : Type} [LinearOrder N]

/-- The merging loop of `deduplicate` on the sorted list, scatteractionsfinder.cc:936-950. -/
def mergeAdjacent : List (N × K) → List (N × K)
  | [] => []
  | [a] => [a]
  | a :: b :: t =>
    if a.1 = b.1 then mergeAdjacent ((a.1, a.2 + b.2) :: t) else a :: mergeAdjacent (b :: t)
termination_by l => l.length

/-- `deduplicate`, scatteractionsfinder.cc:931-951. -/
def deduplicate (l : List (N × K)) : List (N × K) :=
  mergeAdjacent (l.insertionSort fun x y => x.1 ≤ y.1)

/-! ### The table -/

/-- `xs_dump`: for every channel name the pairs of energy and cross section. -/
abbrev Dump (N K : Type) := N → List (K × K)

/-- Adding one process to the table, scatteractionsfinder.cc:979-997 (`really_small` = 1e-6). -/
def addXs (d : Dump N K) (sqrts : K) (p : N × K) : Dump N K :=
  if p.2 ≤ 0 then d
  else fun n =>
    if n = p.1 then
      match (d n).getLast? with
      | some l =>
        if |l.1 - sqrts| < 1 / 1000000 then (d n).dropLast ++ [(l.1, l.2 + p.2)]
        else d n ++ [(sqrts, p.2)]
      | none => [(sqrts, p.2)]
    else d n

/-- The processes of one energy, scatteractionsfinder.cc:967-1017 with `final_state` false; the
column "total" is modelled separately. -/
def addPoint (procs : K → List (N × K)) (d : Dump N K) (sqrts : K) : Dump N K :=
  (procs sqrts).foldl (fun d p => addXs d sqrts p) d

/-- The loop over the momentum points, scatteractionsfinder.cc:951-1040; `energies` are the values of
√s of the points. -/
def dumpAll (procs : K → List (N × K)) (energies : List K) : Dump N K :=
  energies.foldl (addPoint procs) fun _ => []

/-- A printed number, scatteractionsfinder.cc:1088-1100. -/
def printed (d : Dump N K) (n : N) (sqrts : K) : K :=
  match (d n).dropWhile (fun e => decide (e.1 < sqrts)) with
  | e :: _ => if |e.1 - sqrts| < 1 / 1000000 then e.2 else 0
  | [] => 0

/-- The momenta `plab.at(i)` that are used, scatteractionsfinder.cc:958-970: the number of points is
taken before duplicates are removed (`plab` sorted); `none` is `std::out_of_range`. -/
def momenta (plab : List K) : Option (List K) :=
  let n := plab.length
  let u := (plab.insertionSort (· ≤ ·)).destutter (· ≠ ·)
  (List.range n).mapM fun i => u[i]?

end Verif.Xs
