import Verif.Tdo.Model
import Verif.Dens.Props
import Verif.Emt.Landau
import Verif.Dens.Norm

/-
What the user guide promises for `thermodynamics.dat`: the columns in their order, and each number as
a sum over all particles of all ensembles.
-/
namespace Verif.Tdo.Spec
open Verif.Kin Verif.Emt Verif.Dens Verif.Tdo

/-- Particles as they occur: positive energies, masses that are not tiny. -/
def Physical (ens : List (List TPart)) : Prop :=
  ∀ p ∈ ens.flatten, 0 < p.mom.t ∧ 1 / 1000000 ≤ p.mom.abs

/-- The smearing weight of a particle at the point: Lorentz factor times Gaussian of the distance in
the rest frame of the particle, zero beyond the cut-off. -/
noncomputable def bell (P : Params) (r : V3) (p : TPart) : ℝ :=
  if restDistSqr p.mom (p.pos.sub r) ≤ P.rCut ^ 2
  then p.mom.t / p.mom.abs * Real.exp (-restDistSqr p.mom (p.pos.sub r) / (2 * P.sigma ^ 2)) else 0

/-- Does the particle count for a density type: a participant if only these are wanted, with a charge
of that type? -/
def Counts (P : Params) (d : Td.Dens) (p : TPart) : Prop :=
  (P.onlyParticipants = true → p.collisions ≠ 0) ∧ 1 / 1000000 ≤ |p.factor d|

open Classical in
/-- The weight of a particle in the current of a density type. -/
noncomputable def weightJ (o : Opt) (P : Params) (d : Td.Dens) (p : TPart) : ℝ :=
  if Counts P d p then
    p.factor d * (if o.smearing = true then bell P o.position p * P.normFactor else 1)
  else 0

open Classical in
/-- The weight of a particle in the energy-momentum tensor: the same, but particles with a tiny
smearing weight are left out. -/
noncomputable def weightT (o : Opt) (P : Params) (p : TPart) : ℝ :=
  if Counts P o.densType p ∧ (o.smearing = true → 1 / 1000000 ≤ bell P o.position p) then
    p.factor o.densType * (if o.smearing = true then bell P o.position p * P.normFactor else 1)
  else 0

/-- A sum over all particles of all ensembles. -/
noncomputable def total (ens : List (List TPart)) (f : TPart → ℝ) : ℝ := (ens.flatten.map f).sum

/-- The current of a density type: the sum of weight times (1, velocity). -/
noncomputable def J (o : Opt) (P : Params) (d : Td.Dens) (ens : List (List TPart)) : V4 :=
  ⟨total ens fun p => weightJ o P d p,
   total ens fun p => weightJ o P d p * p.mom.velocity.x,
   total ens fun p => weightJ o P d p * p.mom.velocity.y,
   total ens fun p => weightJ o P d p * p.mom.velocity.z⟩

/-- The energy-momentum tensor: the sum of weight times p^mu p^nu / p^0. -/
noncomputable def T (o : Opt) (P : Params) (ens : List (List TPart)) (mu nu : Fin 4) : ℝ :=
  total ens fun p => weightT o P p * (up p.mom mu * up p.mom nu / p.mom.t)

/-- The same in a frame that moves with velocity `v`: the momenta are boosted. -/
noncomputable def TIn (v : V3) (o : Opt) (P : Params) (ens : List (List TPart)) (mu nu : Fin 4) : ℝ :=
  total ens fun p => weightT o P p * (up (boost p.mom v) mu * up (boost p.mom v) nu / p.mom.t)

/-- The order of the ten columns of a tensor. -/
def order : List (Fin 4 × Fin 4) :=
  [(0, 0), (0, 1), (0, 2), (0, 3), (1, 1), (1, 2), (1, 3), (2, 2), (2, 3), (3, 3)]

/-- The values of a line after the time, in the documented order; `v` is the velocity of the Landau
frame. -/
noncomputable def values (v : V3) (o : Opt) (P : Params) (ens : List (List TPart)) : List ℝ :=
  (if o.rhoEckart then [Real.sqrt |(J o P o.densType ens).sqr|] else []) ++
  (if o.tmn then order.map fun i => T o P ens i.1 i.2 else []) ++
  (if o.tmnLandau then order.map fun i => TIn v o P ens i.1 i.2 else []) ++
  (if o.vLandau then [v.x, v.y, v.z] else []) ++
  (if o.jQBS then
    [(J o P .charge ens).t, (J o P .charge ens).x, (J o P .charge ens).y, (J o P .charge ens).z,
     (J o P .baryon ens).t, (J o P .baryon ens).x, (J o P .baryon ens).y, (J o P .baryon ens).z,
     (J o P .strangeness ens).t, (J o P .strangeness ens).x, (J o P .strangeness ens).y,
     (J o P .strangeness ens).z]
   else [])

/-- The groups of columns: the text in the header and the number of columns. -/
def groups (o : Opt) : List (String × ℕ) :=
  let volume := if o.smearing then "/fm^3" else ""
  [("# time [fm], ", 1)] ++
  (if o.rhoEckart then [("rho_eckart [fm^-3], ", 1)] else []) ++
  (if o.tmn then [("tmn [GeV" ++ volume ++ "] 00 01 02 03 11 12 13 22 23 33, ", 10)] else []) ++
  (if o.tmnLandau then
    [("tmn_landau [GeV" ++ volume ++ "] 00 01 02 03 11 12 13 22 23 33, ", 10)] else []) ++
  (if o.vLandau then [("v_landau x y z, ", 3)] else []) ++
  (if o.jQBS then [("j_QBS [(Q,B,S)" ++ volume ++ "] (0 1 2 3)x3", 12)] else [])

/-- An output is possible unless the density is asked for and the current is space-like. -/
def Fine (o : Opt) (P : Params) (ens : List (List TPart)) : Prop :=
  o.rhoEckart = true → -(1 / 1000000) < (J o P o.densType ens).sqr

end Verif.Tdo.Spec
