import Mathlib.Data.Rat.Floor
import Mathlib.Data.Nat.Find
/-
Model of the collision-finding grid, /repo/src/grid.cc and
/repo/src/include/smash/grid.h.
Positions are exact rationals (simplification: no rounding in the index
computation except the explicit `nextafter` margin).
-/
namespace Verif.Grid

/-- Three components (`std::array<_, 3>`, `ThreeVector`). -/
@[ext] structure V3 (α : Type) where
  x : α
  y : α
  z : α
  deriving DecidableEq, Repr

/-- `GridOptions`, grid.h:24-29. -/
inductive Options where
  | normal | periodic
  deriving DecidableEq, Repr

/-- `CellSizeStrategy`, grid.h:32-43. -/
inductive Strategy where
  | optimal | largest
  deriving DecidableEq, Repr

/-- `CellNumberLimitation`, grid.h:54-60. -/
inductive Limit where
  | none | particleNumber
  deriving DecidableEq, Repr

/-- The parts of a particle the grid looks at. `active` is
`xsec_scaling_factor(timestep_duration) > 0`. -/
structure Part where
  id : Nat
  pos : V3 ℚ
  active : Bool
  deriving DecidableEq, Repr

/-- Exceptions (`overflowError`, `boxTooSmall`, `badCast`) and undefined
behaviour (`intOverflow`, `oob`, `emptyFront`). -/
inductive Err where
  | overflowError | boxTooSmall | badCast | intOverflow | oob | emptyFront
  deriving DecidableEq, Repr

/-- The members `number_of_cells_` and `cells_` (grid.h:178-181). -/
structure Grid where
  n : V3 Int
  cells : List (List Part)
  deriving DecidableEq, Repr

/-! ## Construction -/

/-- `GridBase::find_min_and_length`, grid.cc:86-112. `front()` of an empty list is
undefined behaviour. -/
def findMinAndLength : List Part → Except Err (V3 ℚ × V3 ℚ)
  | [] => .error .emptyFront
  | first :: rest =>
    let ps := first :: rest
    let lo := ps.foldl (fun m p =>
      ⟨min m.x p.pos.x, min m.y p.pos.y, min m.z p.pos.z⟩) first.pos
    let hi := ps.foldl (fun m p =>
      (⟨max m.x p.pos.x, max m.y p.pos.y, max m.z p.pos.z⟩ : V3 ℚ)) first.pos
    .ok (lo, ⟨hi.x - lo.x, hi.y - lo.y, hi.z - lo.z⟩)

/-- `floor(cbrt(n))`, grid.cc:146-147. -/
def cbrtFloor (n : Nat) : Nat := Nat.findGreatest (fun k => k ^ 3 ≤ n) n

/-- `max_cells`, grid.cc:145-148. -/
def maxCells (o : Options) (count : Nat) : Int :=
  match o with
  | .normal => cbrtFloor count
  | .periodic => max 2 (cbrtFloor count)

/-- Number of cells from the length, grid.cc:157-171. -/
def rawCells (st : Strategy) (l len : ℚ) : Except Err Int :=
  if st = .largest then .ok 2
  else if len > (2 ^ 31 - 1) / (1 / l) then .error .overflowError
  else .ok ⌊len * (1 / l)⌋

/-- Adjustment of the number of cells, grid.cc:172-195. -/
def limitCells (o : Options) (lim : Limit) (maxC n₀ : Int) : Except Err Int :=
  if n₀ = 0 ∧ o ≠ .periodic then .ok 1
  else if n₀ < 2 ∧ o = .periodic then .error .boxTooSmall
  else if lim = .particleNumber ∧ n₀ > maxC then .ok maxC
  else .ok n₀

/-- The index factor, grid.cc:153-155 and :196-207. `prev f` is
`nextafter(f, 0.)`; in exact arithmetic the `while` loop runs at most once, because
`prev f < f`. -/
def indexFactor (prev : ℚ → ℚ) (l len : ℚ) (n : Int) : ℚ :=
  if len ≥ l then
    if (n / len) * len ≥ n then prev (n / len) else n / len
  else 1 / l

/-- Body of the loop over the axes, grid.cc:156-208. -/
def axis (o : Options) (st : Strategy) (lim : Limit) (prev : ℚ → ℚ) (maxC : Int)
    (l len : ℚ) : Except Err (Int × ℚ) := do
  let n₀ ← rawCells st l len
  let n ← limitCells o lim maxC n₀
  return (n, indexFactor prev l len n)

/-- `Grid::make_index`, grid.cc:283-287. -/
def makeIndex (n : V3 Int) (c : V3 Int) : Int := (c.z * n.y + c.y) * n.x + c.x

/-- `numeric_cast<int>` of an integral value (numeric_cast.h). -/
def toI32 (x : Int) : Except Err Int :=
  if -2 ^ 31 ≤ x ∧ x < 2 ^ 31 then .ok x else .error .badCast

/-- `cell_index_for`, grid.cc:247-255. -/
def cellIndexFor (n : V3 Int) (f lo : V3 ℚ) (p : Part) : Except Err Int := do
  let x ← toI32 ⌊(p.pos.x - lo.x) * f.x⌋
  let y ← toI32 ⌊(p.pos.y - lo.y) * f.y⌋
  let z ← toI32 ⌊(p.pos.z - lo.z) * f.z⌋
  return makeIndex n ⟨x, y, z⟩

/-- The loop grid.cc:256-277. An index outside `cells_` is the outcome `oob`
(the check of :262 exists only in debug builds). -/
def place (n : V3 Int) (f lo : V3 ℚ) (incl : Bool) :
    List Part → List (List Part) → Except Err (List (List Part))
  | [], cells => .ok cells
  | p :: ps, cells =>
    if !incl && !p.active then place n f lo incl ps cells
    else do
      let idx ← cellIndexFor n f lo p
      if 0 ≤ idx ∧ idx < cells.length then
        place n f lo incl ps (cells.modify idx.toNat (· ++ [p]))
      else .error .oob

/-- `Grid::Grid` with given minimum and length, grid.cc:118-281.
`cell_volume_` is not modelled. `prev` is `nextafter(·, 0.)`. The product of the
cell numbers is an `int` (:241-242). -/
def build (o : Options) (prev : ℚ → ℚ) (lo len : V3 ℚ) (ps : List Part) (l : ℚ)
    (lim : Limit) (incl : Bool) (st : Strategy) : Except Err Grid := do
  if o = .normal ∧ st = .largest then
    return { n := ⟨1, 1, 1⟩, cells := [ps] }
  else
    let maxC := maxCells o ps.length
    let ax ← axis o st lim prev maxC l len.x
    let ay ← axis o st lim prev maxC l len.y
    let az ← axis o st lim prev maxC l len.z
    let n : V3 Int := ⟨ax.1, ay.1, az.1⟩
    if o = .normal ∧ n.x ≤ 2 ∧ n.y ≤ 2 ∧ n.z ≤ 2 then
      return { n := ⟨1, 1, 1⟩, cells := [ps.filter (fun p => incl || p.active)] }
    else if n.x * n.y * n.z ≥ 2 ^ 31 then .error .intOverflow
    else
      let cells ← place n ⟨ax.2, ay.2, az.2⟩ lo incl ps
        (List.replicate (n.x * n.y * n.z).toNat [])
      return { n := n, cells := cells }

/-- The public constructor from a particle list, grid.h:110-120. -/
def buildAuto (o : Options) (prev : ℚ → ℚ) (ps : List Part) (l : ℚ)
    (lim : Limit) (incl : Bool) (st : Strategy) : Except Err Grid := do
  let (lo, len) ← findMinAndLength ps
  build o prev lo len ps l lim incl st

/-! ## Iteration -/

/-- A callback invocation: `search_cell_callback(cells_[i])`, or
`neighbor_cell_callback(search, cells_[j])` where `search` is `cells_[i]` translated
by `shift` box lengths. -/
inductive Call where
  | search (i : Int)
  | neighbor (i : Int) (shift : V3 Int) (j : Int)
  deriving DecidableEq, Repr

/-- `0, 1, …, n-1`. -/
def upTo (n : Int) : List Int := (List.range n.toNat).map (fun k : Nat => (k : Int))

/-- The triple loop over `z`, `y`, `x` (grid.cc:304-306 and :383, :391, :404). -/
def coords (n : V3 Int) : List (V3 Int) :=
  (upTo n.z).flatMap fun z => (upTo n.y).flatMap fun y => (upTo n.x).map fun x => ⟨x, y, z⟩

/-- The cells with the running `search_cell_index`. -/
def numbered (n : V3 Int) : List (V3 Int × Nat) := (coords n).zipIdx

/-- `dz_list`, grid.cc:313. -/
def dzList (n z : Int) : List Int := if z = n - 1 then [0] else [0, 1]

/-- `dy_list` and `dx_list`, grid.cc:314-323. -/
def dyxList (n y : Int) : List Int :=
  if n = 1 then [0] else if y = 0 then [0, 1] else if y = n - 1 then [-1, 0] else [-1, 0, 1]

/-- Body of the cell loop of `Grid<Normal>::iterate_cells`, grid.cc:307-334. -/
def normalCell (n : V3 Int) (ci : V3 Int × Nat) : List Call :=
  .search ci.2 ::
    (dzList n.z ci.1.z).flatMap fun dz =>
      (dyxList n.y ci.1.y).flatMap fun dy =>
        (dyxList n.x ci.1.x).flatMap fun dx =>
          let di := makeIndex n ⟨dx, dy, dz⟩
          if di > 0 then [.neighbor ci.2 ⟨0, 0, 0⟩ (ci.2 + di)] else []

/-- `Grid<Normal>::iterate_cells`, grid.cc:294-339: the sequence of callbacks. -/
def normalCalls (n : V3 Int) : List Call := (numbered n).flatMap (normalCell n)

/-- `NeedsToWrap`, grid.cc:349. -/
inductive Wrap where
  | plus | no | minus
  deriving DecidableEq, Repr

/-- `NeighborLookup`, grid.cc:352-357. -/
structure NL where
  index : Int
  wrap : Wrap
  deriving DecidableEq, Repr

/-- `dz_list`, grid.cc:384-390 (the wrap flag is only ever set in the last round). -/
def zEntries (n z : Int) : List NL :=
  [⟨z, .no⟩, if z + 1 = n then ⟨0, .minus⟩ else ⟨z + 1, .no⟩]

/-- `dy_list`, grid.cc:392-403, and `dx_list`, :405-416. -/
def yxEntries (n y : Int) : List NL :=
  if y = 0 then [⟨y, .no⟩, ⟨y + 1, .no⟩, ⟨n - 1, .plus⟩]
  else if y + 1 = n then [⟨y, .no⟩, ⟨y - 1, .no⟩, ⟨0, .minus⟩]
  else [⟨y, .no⟩, ⟨y - 1, .no⟩, ⟨y + 1, .no⟩]

/-- Local variables of the neighbour loops: `virtual_search_index`, `wrap_vector`,
`current_wrap_vector` (the latter two in units of the box lengths), and the total
translation applied to `search` so far. -/
structure St where
  v : V3 Int
  w : V3 Int
  cur : V3 Int
  off : V3 Int
  deriving DecidableEq, Repr

/-- The `dx` loop, grid.cc:444-477. -/
def dxLoop (n : V3 Int) (i : Int) (dz dy : NL) : List NL → St → List Call × St
  | [], s => ([], s)
  | dx :: rest, s =>
    let s := match dx.wrap with
      | .minus => { s with w := { s.w with x := -1 }, v := { s.v with x := -1 } }
      | .plus => { s with w := { s.w with x := 1 }, v := { s.v with x := n.x } }
      | .no => s
    let j := makeIndex n ⟨dx.index, dy.index, dz.index⟩
    if j ≤ makeIndex n s.v then dxLoop n i dz dy rest s
    else
      let s := if s.w ≠ s.cur then
          { s with
            off := ⟨s.off.x + (s.w.x - s.cur.x), s.off.y + (s.w.y - s.cur.y),
              s.off.z + (s.w.z - s.cur.z)⟩
            cur := s.w }
        else s
      let r := dxLoop n i dz dy rest s
      (.neighbor i s.off j :: r.1, r.2)

/-- The `dy` loop, grid.cc:435-480. `a` is `search_index`. -/
def dyLoop (n : V3 Int) (i : Int) (a : V3 Int) (dz : NL) : List NL → St → List Call × St
  | [], s => ([], s)
  | dy :: rest, s =>
    let s := match dy.wrap with
      | .minus => { s with w := { s.w with y := -1 }, v := { s.v with y := -1 } }
      | .plus => { s with w := { s.w with y := 1 }, v := { s.v with y := n.y } }
      | .no => s
    let r := dxLoop n i dz dy (yxEntries n.x a.x) s
    let s := { r.2 with v := { r.2.v with x := a.x }, w := { r.2.w with x := 0 } }
    let r' := dyLoop n i a dz rest s
    (r.1 ++ r'.1, r'.2)

/-- The `dz` loop, grid.cc:429-483. -/
def dzLoop (n : V3 Int) (i : Int) (a : V3 Int) : List NL → St → List Call × St
  | [], s => ([], s)
  | dz :: rest, s =>
    let s := if dz.wrap = .minus then
        { s with w := { s.w with z := -1 }, v := { s.v with z := -1 } }
      else s
    let r := dyLoop n i a dz (yxEntries n.y a.y) s
    let s := { r.2 with v := { r.2.v with y := a.y }, w := { r.2.w with y := 0 } }
    let r' := dzLoop n i a rest s
    (r.1 ++ r'.1, r'.2)

/-- Body of the cell loop of `Grid<PeriodicBoundaries>::iterate_cells`,
grid.cc:418-483. -/
def periodicCell (n : V3 Int) (ci : V3 Int × Nat) : List Call :=
  .search ci.2 ::
    (dzLoop n ci.2 ci.1 (zEntries n.z ci.1.z)
      { v := ci.1, w := ⟨0, 0, 0⟩, cur := ⟨0, 0, 0⟩, off := ⟨0, 0, 0⟩ }).1

/-- `Grid<PeriodicBoundaries>::iterate_cells`, grid.cc:361-487. -/
def periodicCalls (n : V3 Int) : List Call := (numbered n).flatMap (periodicCell n)

end Verif.Grid
