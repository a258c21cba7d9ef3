import Mathlib.Algebra.Order.Floor.Ring
import Mathlib.Algebra.Order.Field.Basic
/-! # Model of the set-up of the lattice (experiment.h:1748-1848, lattice.h:68-92)

From the section `Lattice` of the input file to sizes, numbers of cells and origin of the lattices of the
experiment. Exact arithmetic in a linear ordered field stands for doubles; reading of the configuration is
modelled elsewhere, here the values given by the user are optional values. -/
namespace Verif.Lat

/-- `std::array<T, 3>`. -/
structure V3 (α : Type) where
  x : α
  y : α
  z : α
  deriving DecidableEq, Repr

/-- The same number in all directions. -/
def V3.all {α : Type} (a : α) : V3 α := ⟨a, a, a⟩

/-- The modus, with the number which the lattice depends on: `sqrt_s_NN()` (collidermodus.h:134), `length()`
(boxmodus.h:137, listmodus.h) or `radius()` (spheremodus.h:81). -/
inductive Modus (K : Type) where
  | collider (sqrts : K) | box (length : K) | sphere (radius : K) | list | listBox (length : K)

/-- `is_box()`: boxmodus.h:135, listmodus.h:347. -/
def Modus.isBox {K : Type} : Modus K → Bool
  | .box _ | .listBox _ => true
  | _ => false

/-- `SmearingMode`. -/
inductive Smearing where
  | gaussian | discrete | triangular
  deriving DecidableEq, Repr

/-- The section `Lattice`. -/
structure Given (K : Type) where
  automatic : Bool
  periodic : Option Bool
  sizes : Option (V3 K)
  cells : Option (V3 Int)
  origin : Option (V3 K)

/-- Sizes, numbers of cells and origin of a lattice, and whether it is continued periodically. -/
structure Geometry (K : Type) where
  sizes : V3 K
  cells : V3 Int
  origin : V3 K
  periodic : Bool
  deriving DecidableEq, Repr

/-- Exceptions; `ub` is undefined behaviour, `tooLarge` the exception of `std::vector::resize`. -/
inductive Err where
  | missing | allGiven | list | cast | ub | tooLarge | badSizes
  deriving DecidableEq, Repr

/-- The values of an `int`. -/
def isInt (n : Int) : Bool := decide (-2147483648 ≤ n) && decide (n ≤ 2147483647)

/-- `numeric_cast<int>` of a number without fraction — src/include/smash/numeric_cast.h:70-95 (see `Cast`). -/
def toInt (n : Int) : Except Err Int := if isInt n then .ok n else .error .cast

variable {K : Type} [Field K] [LinearOrder K] [IsStrictOrderedRing K] [FloorRing K]

/-- `nucleon_mass` — src/include/smash/constants.h:62. -/
def nucleonMass : K := 938 / 1000

/-- The loop that imposes a minimal extension — src/include/smash/experiment.h:1796-1806: one direction. -/
def widen (l o : K) : K × K := if l < 30 then (30, -(1 / 2) * 30) else (l, o)

/-- The lattice of the collider — src/include/smash/experiment.h:1783-1817: sizes, cells and origin. -/
def colliderDefault (sqrts tEnd : K) (sm : Smearing) : Except Err (V3 K × V3 Int × V3 K) :=
  let gamma := sqrts / (2 * nucleonMass)
  let maxZ := 5 / gamma + tEnd
  let maxXY := 5 + 7 / 10 * tEnd
  let wx := widen (2 * maxXY) (-maxXY)
  let wz := widen (2 * maxZ) (-maxZ)
  match toInt ⌈wx.1 / (8 / 10)⌉ with
  | .error e => .error e
  | .ok nxy =>
    let factor := if sm = .discrete ∨ sm = .triangular then gamma else 1
    match toInt ⌈wz.1 / (8 / 10) * factor⌉ with
    | .error e => .error e
    | .ok nz => .ok (⟨wx.1, wx.1, wz.1⟩, ⟨nxy, nxy, nz⟩, ⟨wx.2, wx.2, wz.2⟩)

/-- The lattice of the box — src/include/smash/experiment.h:1818-1823. -/
def boxDefault (length : K) : Except Err (V3 K × V3 Int × V3 K) :=
  match toInt ⌈length / (5 / 10)⌉ with
  | .error e => .error e
  | .ok n => .ok (.all length, .all n, .all 0)

/-- The lattice of the sphere — src/include/smash/experiment.h:1824-1833. -/
def sphereDefault (radius tEnd : K) : Except Err (V3 K × V3 Int × V3 K) :=
  let maxD := radius + tEnd
  match toInt ⌈2 * maxD / (8 / 10)⌉ with
  | .error e => .error e
  | .ok n => .ok (.all (2 * maxD), .all n, .all (-maxD))

/-- The defaults — src/include/smash/experiment.h:1776-1834; the order of the cases is the one of the code. -/
def defaults (m : Modus K) (tEnd : K) (sm : Smearing) : Except Err (V3 K × V3 Int × V3 K) :=
  match m with
  | .list => .error .list
  | .collider s => colliderDefault s tEnd sm
  | .box l | .listBox l => boxDefault l
  | .sphere r => sphereDefault r tEnd

/-- The geometry asked for — src/include/smash/experiment.h:1750-1842. -/
def geometry (m : Modus K) (tEnd : K) (sm : Smearing) (g : Given K) : Except Err (Geometry K) :=
  let per := g.periodic.getD m.isBox
  match g.automatic, g.sizes, g.cells, g.origin with
  | false, some l, some n, some o => .ok ⟨l, n, o, per⟩
  | false, _, _, _ => .error .missing
  | true, some _, some _, some _ => .error .allGiven
  | true, l, n, o =>
    match defaults m tEnd sm with
    | .error e => .error e
    | .ok (dl, dn, dor) => .ok ⟨l.getD dl, n.getD dn, o.getD dor, per⟩

/-- The constructor of a lattice — src/include/smash/lattice.h:68-92: the storage is resized before the check,
with a product of numbers of type `int`; a negative product becomes a huge unsigned number. Simplification:
memory suffices for every other size. -/
def construct (g : Geometry K) : Except Err (Geometry K) :=
  let n := g.cells
  if !isInt (n.x * n.y) || !isInt (n.x * n.y * n.z) then .error .ub
  else if n.x * n.y * n.z < 0 then .error .tooLarge
  else if n.x < 1 ∨ n.y < 1 ∨ n.z < 1 ∨ g.sizes.x < 0 ∨ g.sizes.y < 0 ∨ g.sizes.z < 0 then .error .badSizes
  else .ok g

/-- The lattice of the experiment. -/
def lattice (m : Modus K) (tEnd : K) (sm : Smearing) (g : Given K) : Except Err (Geometry K) :=
  match geometry m tEnd sm g with
  | .error e => .error e
  | .ok g => construct g

end Verif.Lat
