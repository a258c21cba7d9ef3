import Mathlib.Data.Rat.Floor
import Mathlib.Algebra.Module.Basic
/-
Model of `RectangularLattice<T>`, /repo/src/include/smash/lattice.h.

Doubles are exact rationals; `int` values are integers, with the range checked where the
constructor multiplies the cell numbers, in `positive_modulo` and in `numeric_cast` (all
other index arithmetic stays below the number of nodes, which the constructor has
computed as an `int`).  An access outside the vector is the error `outOfBounds`; debug
asserts are not modelled.  Log messages are dropped.
-/
namespace Verif.Lattice

/-- A triple (`std::array<_, 3>`, `ThreeVector`). -/
structure V3 (α : Type) where
  (x y z : α)
  deriving DecidableEq, Repr

/-- Outcomes other than a value. `overflow` and `outOfBounds` are undefined behaviour. -/
inductive Err where
  | invalidArgument | runtimeError | domainError | lengthError | overflow | outOfBounds
  deriving DecidableEq, Repr

/-- A value of type `int`, or signed overflow. -/
def i32 (x : Int) : Except Err Int :=
  if -2 ^ 31 ≤ x ∧ x < 2 ^ 31 then .ok x else .error .overflow

/-- `numeric_cast<int>` of an integral double, numeric_cast.h:69-91. -/
def castInt (x : Int) : Except Err Int :=
  if -2 ^ 31 ≤ x ∧ x < 2 ^ 31 then .ok x else .error .domainError

/-- The members, lattice.h:834-849 (`when_update_` is only reported back, dropped). -/
structure Lat (T : Type) where
  data : List T
  sizes : V3 ℚ
  n : V3 Int
  cell : V3 ℚ
  vol : ℚ
  origin : V3 ℚ
  periodic : Bool

/-- `lattice_[i]`, lattice.h:186-188. -/
def Lat.get {T : Type} (L : Lat T) (i : Int) : Except Err T :=
  if i < 0 then .error .outOfBounds
  else match L.data[i.toNat]? with
    | some v => .ok v
    | none => .error .outOfBounds

/-- Cell sizes `l[i] / n[i]`, lattice.h:74 and :827-829. -/
def cells (l : V3 ℚ) (n : V3 Int) : V3 ℚ := ⟨l.x / n.x, l.y / n.y, l.z / n.z⟩

/-- The constructor, lattice.h:68-92; `d` is the value `T()`. -/
def construct {T : Type} (d : T) (l : V3 ℚ) (n : V3 Int) (orig : V3 ℚ) (per : Bool) :
    Except Err (Lat T) := do
  let p ← i32 (n.x * n.y)
  let p ← i32 (p * n.z)
  if p < 0 then .error .lengthError
  else if n.x < 1 ∨ n.y < 1 ∨ n.z < 1 ∨ l.x < 0 ∨ l.y < 0 ∨ l.z < 0 then
    .error .invalidArgument
  else
    let c := cells l n
    return { data := List.replicate p.toNat d, sizes := l, n := n, cell := c,
             vol := c.x * c.y * c.z, origin := orig, periodic := per }

/-- `out_of_bounds`, lattice.h:116-123. -/
def outOfBounds {T : Type} (L : Lat T) (ix iy iz : Int) : Bool :=
  !L.periodic && (decide (ix < 0) || decide (ix ≥ L.n.x) || decide (iy < 0) ||
    decide (iy ≥ L.n.y) || decide (iz < 0) || decide (iz ≥ L.n.z))

/-- `cell_center(ix, iy, iz)`, lattice.h:133-137. -/
def center {T : Type} (L : Lat T) (ix iy iz : Int) : V3 ℚ :=
  ⟨L.origin.x + L.cell.x * (ix + 1 / 2), L.origin.y + L.cell.y * (iy + 1 / 2),
    L.origin.z + L.cell.z * (iz + 1 / 2)⟩

/-- `cell_center(index)`, lattice.h:147-153 (C++ `%` and `/`). -/
def centerOf {T : Type} (L : Lat T) (index : Int) : V3 ℚ :=
  let ix := index.tmod L.n.x
  let index := index.tdiv L.n.x
  let iy := index.tmod L.n.y
  let iz := index.tdiv L.n.y
  center L ix iy iz

/-- `index1d`, lattice.h:207-212. -/
def index1d {T : Type} (L : Lat T) (ix iy iz : Int) : Int := ix + L.n.x * (iy + iz * L.n.y)

/-- `index_left`, lattice.h:223-229. -/
def indexLeft {T : Type} (L : Lat T) (ix iy iz : Int) : Int :=
  if ix = 0 then
    if L.periodic then index1d L (L.n.x - 1) iy iz else index1d L ix iy iz
  else index1d L (ix - 1) iy iz

/-- `index_right`, lattice.h:240-246. -/
def indexRight {T : Type} (L : Lat T) (ix iy iz : Int) : Int :=
  if ix = L.n.x - 1 then
    if L.periodic then index1d L 0 iy iz else index1d L ix iy iz
  else index1d L (ix + 1) iy iz

/-- `index_down`, lattice.h:257-263. -/
def indexDown {T : Type} (L : Lat T) (ix iy iz : Int) : Int :=
  if iy = 0 then
    if L.periodic then index1d L ix (L.n.y - 1) iz else index1d L ix iy iz
  else index1d L ix (iy - 1) iz

/-- `index_up`, lattice.h:274-280. -/
def indexUp {T : Type} (L : Lat T) (ix iy iz : Int) : Int :=
  if iy = L.n.y - 1 then
    if L.periodic then index1d L ix 0 iz else index1d L ix iy iz
  else index1d L ix (iy + 1) iz

/-- `index_backward`, lattice.h:291-297. -/
def indexBackward {T : Type} (L : Lat T) (ix iy iz : Int) : Int :=
  if iz = 0 then
    if L.periodic then index1d L ix iy (L.n.z - 1) else index1d L ix iy iz
  else index1d L ix iy (iz - 1)

/-- `index_forward`, lattice.h:308-314. -/
def indexForward {T : Type} (L : Lat T) (ix iy iz : Int) : Int :=
  if iz = L.n.z - 1 then
    if L.periodic then index1d L ix iy 0 else index1d L ix iy iz
  else index1d L ix iy (iz + 1)

/-- `positive_modulo`, lattice.h:860-866: `(i + (n << 8)) % n`. -/
def positiveModulo (i n : Int) : Except Err Int := do
  let s ← i32 (n * 256)
  let t ← i32 (i + s)
  return t.tmod n

/-- `node`, lattice.h:531-538. -/
def node {T : Type} (L : Lat T) (ix iy iz : Int) : Except Err T :=
  if L.periodic then do
    let a ← positiveModulo ix L.n.x
    let b ← positiveModulo iy L.n.y
    let c ← positiveModulo iz L.n.z
    L.get (a + L.n.x * (b + L.n.y * c))
  else L.get (ix + L.n.x * (iy + L.n.y * iz))

/-- One coordinate of the cell containing a point: `floor((r - origin) / cell_size)`,
lattice.h:555-560, :739-744. -/
def cellOf (r orig c : ℚ) : Except Err Int := castInt ⌊(r - orig) / c⌋

/-- `value_at`, lattice.h:554-568: the returned flag and the value stored in the output
argument. -/
def valueAt {T : Type} (d : T) (L : Lat T) (r : V3 ℚ) : Except Err (Bool × T) := do
  let ix ← cellOf r.x L.origin.x L.cell.x
  let iy ← cellOf r.y L.origin.y L.cell.y
  let iz ← cellOf r.z L.origin.z L.cell.z
  if outOfBounds L ix iy iz then return (false, d)
  else do
    let v ← node L ix iy iz
    return (true, v)

/-- One call `func(lattice_[index], ix, iy, iz)`. -/
structure Visit where
  (index ix iy iz : Int)
  deriving DecidableEq, Repr

/-- `for (int i = lo; i < hi; i++)`: the values of `i`. -/
def loop (lo hi : Int) : List Int := (List.range (hi - lo).toNat).map fun k : Nat => lo + k

/-- `lattice_[index]` is evaluated as a reference for every call; an index outside the
storage is undefined. -/
def visit {T : Type} (L : Lat T) (index ix iy iz : Int) : Except Err Visit :=
  if 0 ≤ index ∧ index < L.data.length then .ok ⟨index, ix, iy, iz⟩ else .error .outOfBounds

/-- `iterate_sublattice`, lattice.h:580-611: the sequence of calls. In the periodic case
`positive_modulo` of the outer indices is evaluated in the outer loops; as it has no
effect it is evaluated here per node. -/
def iterateSublattice {T : Type} (L : Lat T) (lo hi : V3 Int) : Except Err (List Visit) := do
  let l ← (loop lo.z hi.z).mapM fun iz => do
    let l ← (loop lo.y hi.y).mapM fun iy => do
      (loop lo.x hi.x).mapM fun ix => do
        if L.periodic then
          let c ← positiveModulo iz L.n.z
          let b ← positiveModulo iy L.n.y
          let a ← positiveModulo ix L.n.x
          visit L (a + L.n.x * (b + c * L.n.y)) ix iy iz
        else visit L (ix + L.n.x * (iy + iz * L.n.y)) ix iy iz
    return l.flatten
  return l.flatten

/-- Lower and upper bounds in one direction, lattice.h:634-637 and :703-706. -/
def bounds (p orig rcut c : ℚ) : Except Err (Int × Int) := do
  let l ← castInt ⌈(p - orig - rcut) / c - 1 / 2⌉
  let u ← castInt ⌈(p - orig + rcut) / c - 1 / 2⌉
  return (l, u)

/-- The clamping loop body, lattice.h:642-650 and :711-719; `none` is the early `return`. -/
def clamp (n : Int) (b : Int × Int) : Option (Int × Int) :=
  let l := if b.1 < 0 then 0 else b.1
  let u := if b.2 > n then n else b.2
  if l > n ∨ u < 0 then none else some (l, u)

/-- `iterate_in_rectangle`, lattice.h:692-723. -/
def iterateInRectangle {T : Type} (L : Lat T) (p : V3 ℚ) (r : V3 ℚ) :
    Except Err (List Visit) := do
  let bx ← bounds p.x L.origin.x r.x L.cell.x
  let bY ← bounds p.y L.origin.y r.y L.cell.y
  let bz ← bounds p.z L.origin.z r.z L.cell.z
  if L.periodic then iterateSublattice L ⟨bx.1, bY.1, bz.1⟩ ⟨bx.2, bY.2, bz.2⟩
  else
    match clamp L.n.x bx, clamp L.n.y bY, clamp L.n.z bz with
    | some bx, some bY, some bz => iterateSublattice L ⟨bx.1, bY.1, bz.1⟩ ⟨bx.2, bY.2, bz.2⟩
    | _, _, _ => return []

/-- `iterate_in_cube`, lattice.h:626-654: the same code with one radius. -/
def iterateInCube {T : Type} (L : Lat T) (p : V3 ℚ) (r : ℚ) : Except Err (List Visit) :=
  iterateInRectangle L p ⟨r, r, r⟩

/-- `iterate_nearest_neighbors`, lattice.h:736-772: the calls `func(lattice_[j], j, i)`. -/
def iterateNearest {T : Type} (L : Lat T) (p : V3 ℚ) : Except Err (List (Int × Int)) := do
  let ix ← cellOf p.x L.origin.x L.cell.x
  let iy ← cellOf p.y L.origin.y L.cell.y
  let iz ← cellOf p.z L.origin.z L.cell.z
  let i := index1d L ix iy iz
  [i, indexLeft L ix iy iz, indexRight L ix iy iz, indexDown L ix iy iz, indexUp L ix iy iz,
    indexBackward L ix iy iz, indexForward L ix iy iz].mapM fun j => do
    let _ ← visit L j ix iy iz
    return (j, i)

/-- `identical_to_lattice`, lattice.h:782-797; `really_small = 1e-6` (constants.h:41). -/
def identical {T U : Type} (L : Lat T) (M : Lat U) : Bool :=
  let small : ℚ := 1 / 1000000
  decide (L.n.x = M.n.x) && decide (L.n.y = M.n.y) && decide (L.n.z = M.n.z) &&
  decide (|L.sizes.x - M.sizes.x| < small) && decide (|L.sizes.y - M.sizes.y| < small) &&
  decide (|L.sizes.z - M.sizes.z| < small) && decide (|L.origin.x - M.origin.x| < small) &&
  decide (|L.origin.y - M.origin.y| < small) && decide (|L.origin.z - M.origin.z| < small) &&
  decide (L.periodic = M.periodic)

section gradient
variable {T : Type} [AddCommGroup T] [Module ℚ T]

/-- One component of the gradient at node `index`: position `i` of `n` in that direction,
stride `d` and stride `D` of the next direction (`D = n * d`), `inv = 0.5 / cell_size`.
lattice.h:350-367, :369-386, :388-405 (and :458-507), which are the same code with
`(d, D)` = `(dix, diy)`, `(diy, diz)`, `(diz, d)`. -/
def diff (L : Lat T) (inv : ℚ) (index i n d D : Int) : Except Err T :=
  if i = 0 then
    if L.periodic then do
      let a ← L.get (index + d)
      let b ← L.get (index + D - d)
      return inv • (a - b)
    else do
      let a ← L.get (index + d)
      let b ← L.get index
      return inv • ((2 : ℚ) • (a - b))
  else if i = n - 1 then
    if L.periodic then do
      let a ← L.get (index - D + d)
      let b ← L.get (index - d)
      return inv • (a - b)
    else do
      let a ← L.get index
      let b ← L.get (index - d)
      return inv • ((2 : ℚ) • (a - b))
  else do
    let a ← L.get (index + d)
    let b ← L.get (index - d)
    return inv • (a - b)

/-- The three spatial derivatives at a node. -/
def gradAt (L : Lat T) (ix iy iz : Int) : Except Err (V3 T) := do
  let index := ix + (L.n.x * iy + L.n.x * L.n.y * iz)
  let gx ← diff L (1 / 2 / L.cell.x) index ix L.n.x 1 L.n.x
  let gy ← diff L (1 / 2 / L.cell.y) index iy L.n.y L.n.x (L.n.x * L.n.y)
  let gz ← diff L (1 / 2 / L.cell.z) index iz L.n.z (L.n.x * L.n.y) (L.n.x * L.n.y * L.n.z)
  return ⟨gx, gy, gz⟩

/-- `grad_lat[index] = v`. -/
def Lat.put {U : Type} (G : Lat U) (index : Int) (v : U) : Except Err (Lat U) :=
  if 0 ≤ index ∧ index < G.data.length then .ok { G with data := G.data.set index.toNat v }
  else .error .outOfBounds

/-- The triple loop `for iz, for iy, for ix`, lattice.h:344-348: the node coordinates in
order. -/
def nodes (n : V3 Int) : List (V3 Int) :=
  (loop 0 n.z).flatMap fun iz => (loop 0 n.y).flatMap fun iy => (loop 0 n.x).map fun ix =>
    ⟨ix, iy, iz⟩

/-- The loop over all nodes with a node function `f`. -/
def fillLoop {U : Type} (L : Lat T) (f : V3 Int → Except Err U) :
    List (V3 Int) → Lat U → Except Err (Lat U)
  | [], G => .ok G
  | c :: cs, G => do
    let v ← f c
    let G ← G.put (c.x + (L.n.x * c.y + L.n.x * L.n.y * c.z)) v
    fillLoop L f cs G

/-- `compute_gradient_lattice`, lattice.h:322-409. -/
def computeGradient (L : Lat T) (G : Lat (V3 T)) : Except Err (Lat (V3 T)) :=
  if L.n.x < 2 ∨ L.n.y < 2 ∨ L.n.z < 2 then .error .runtimeError
  else if !identical L G then .error .invalidArgument
  else fillLoop L (fun c => gradAt L c.x c.y c.z) (nodes L.n) G

/-- The node function of `compute_four_gradient_lattice`, lattice.h:455-512: time
derivative from the old lattice, then the spatial derivatives. -/
def fourGradAt (L old : Lat T) (dt : ℚ) (c : V3 Int) : Except Err (T × V3 T) := do
  let index := c.x + (L.n.x * c.y + L.n.x * L.n.y * c.z)
  let a ← L.get index
  let b ← old.get index
  let g ← gradAt L c.x c.y c.z
  return ((1 / dt) • (a - b), g)

/-- `compute_four_gradient_lattice`, lattice.h:420-516. -/
def computeFourGradient (L old : Lat T) (dt : ℚ) (G : Lat (T × V3 T)) :
    Except Err (Lat (T × V3 T)) :=
  if L.n.x < 2 ∨ L.n.y < 2 ∨ L.n.z < 2 then .error .runtimeError
  else if !identical L G then .error .invalidArgument
  else fillLoop L (fourGradAt L old dt) (nodes L.n) G

end gradient

/-- `reset_and_resize`, lattice.h:812-831; `d` is `T()`. -/
def resetAndResize {T : Type} (d : T) (L : Lat T) (newLength newOrigin : Option (V3 ℚ))
    (newCells : Option (V3 Int)) : Except Err (Lat T) :=
  if newLength.isNone ∧ newOrigin.isNone ∧ newCells.isNone then .error .invalidArgument
  else
    let sizes := newLength.getD L.sizes
    let n := newCells.getD L.n
    let c := cells sizes n
    .ok { L with data := L.data.map fun _ => d, sizes := sizes,
                 origin := newOrigin.getD L.origin, n := n, cell := c,
                 vol := c.x * c.y * c.z }

end Verif.Lattice
