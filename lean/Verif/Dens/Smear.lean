import Verif.Lattice.Iterate

/-
Model of the discrete and the triangular smearing in `update_lattice_with_list_of_particles`
(density.h:535-634). Doubles are exact rationals. A node holds one component of the currents of the
positive and of the negative charges.
-/
namespace Verif.Dens
open Verif.Lattice

/-- One component of `jmu_pos_` and `jmu_neg_`, density.h:482-484. -/
structure Node where
  (pos neg : ℚ)
  deriving DecidableEq

/-- `DensityOnLattice::add_particle`, density.h:322-329; `vel` is the component of (1, velocity). -/
def Node.addParticle (n : Node) (vel w : ℚ) : Node :=
  if w > 0 then ⟨n.pos + vel * w, n.neg⟩ else ⟨n.pos, n.neg + vel * w⟩

/-- `jmu_net`, density.h:406. -/
def Node.net (n : Node) : ℚ := n.pos + n.neg

/-- A particle: position, `density_factor`, the component of (1, velocity), collisions. -/
structure Charge where
  pos : V3 ℚ
  factor : ℚ
  vel : ℚ
  collisions : ℕ

/-- The parameters of the smearing, density.h:92-180. -/
structure Par where
  (ntest nens : ℕ)
  onlyParticipants : Bool
  central : ℚ
  range : ℚ

/-- The weights of the discrete smearing, density.h:584-606: (node, weight) in the order of the
calls. -/
def discreteWeights (P : Par) (L : Lat Node) (c : Charge) : Except Err (List (Int × ℚ)) := do
  let vCell := L.cell.x * L.cell.y * L.cell.z
  let big := P.central
  let small := (1 - big) / 6
  let common := c.factor / (P.ntest * P.nens * vCell)
  let l ← iterateNearest L c.pos
  return l.map fun v => (v.1, common * (if v.1 = v.2 then big else small))

/-- The weights of the triangular smearing, density.h:607-634. -/
def triangularWeights (P : Par) (L : Lat Node) (c : Charge) : Except Err (List (Int × ℚ)) := do
  let rad : V3 ℚ := ⟨P.range * L.cell.x, P.range * L.cell.y, P.range * L.cell.z⟩
  let pre := 1 / (P.ntest * P.nens * rad.x * rad.x * rad.y * rad.y * rad.z * rad.z)
  let common := c.factor * pre
  let l ← iterateInRectangle L c.pos rad
  return l.map fun v =>
    let cc := center L v.ix v.iy v.iz
    (v.index, common * (rad.x - |cc.x - c.pos.x|) * (rad.y - |cc.y - c.pos.y|) *
      (rad.z - |cc.z - c.pos.z|))

/-- The calls `node.add_particle(part, weight)`. -/
def deposit (vel : ℚ) : List (Int × ℚ) → Lat Node → Except Err (Lat Node)
  | [], L => .ok L
  | (i, w) :: ws, L => do
    let n ← L.get i
    let L ← L.put i (n.addParticle vel w)
    deposit vel ws L

/-- `lat->reset()`, lattice.h:84: all nodes get the default value. -/
def reset (L : Lat Node) : Lat Node := { L with data := L.data.map fun _ => ⟨0, 0⟩ }

/-- The particles that contribute, density.h:552-561. -/
def contributes (P : Par) (c : Charge) : Bool :=
  !(P.onlyParticipants && c.collisions == 0) && !decide (|c.factor| < 1 / 1000000)

/-- The loop over the particles, density.h:551-636, for either smearing. -/
def update (weights : Lat Node → Charge → Except Err (List (Int × ℚ))) (P : Par) :
    List Charge → Lat Node → Except Err (Lat Node)
  | [], L => .ok L
  | c :: cs, L =>
    if contributes P c then do
      let ws ← weights L c
      let L ← deposit c.vel ws L
      update weights P cs L
    else update weights P cs L

end Verif.Dens
