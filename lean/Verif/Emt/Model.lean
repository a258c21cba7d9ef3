import Verif.Kin.Model
import Mathlib.LinearAlgebra.Matrix.Notation
import Mathlib.Algebra.BigOperators.Fin

/-
Model of energymomentumtensor.h/.cc. Doubles are exact real numbers. The eigenvalue solver of
Eigen is an argument: for every tensor it gives four eigenvalues with their eigenvectors.
-/
namespace Verif.Emt
open Verif.Kin Matrix

/-- What can go wrong: `std::invalid_argument`. -/
inductive Err
  | invalidArgument
  deriving DecidableEq

/-- `Tmn_`, energymomentumtensor.h:27, 141: the ten stored components. -/
abbrev Tmn := Fin 10 → ℝ

/-- `indices`, energymomentumtensor.h:55-58. -/
def indices : List (Fin 10) := [0, 1, 2, 3, 1, 4, 5, 6, 2, 5, 7, 8, 3, 6, 8, 9]

/-- `tmn_index`, energymomentumtensor.h:53-66. -/
def tmnIndex (mu nu : Int) : Except Err (Fin 10) :=
  if mu < 4 ∧ nu < 4 ∧ mu ≥ 0 ∧ nu ≥ 0 then .ok (indices.getD (mu + 4 * nu).toNat 0)
  else .error .invalidArgument

/-- The default constructor, energymomentumtensor.h:32: all components zero. -/
def zero : Tmn := fun _ => 0

/-- `operator+=`, `operator-=`, `operator*=`, `operator/=`,
energymomentumtensor.h:153-203. -/
def add (a b : Tmn) : Tmn := fun i => a i + b i
@[inherit_doc add] def sub (a b : Tmn) : Tmn := fun i => a i - b i
@[inherit_doc add] def scale (a : Tmn) (f : ℝ) : Tmn := fun i => a i * f
@[inherit_doc add] noncomputable def divide (a : Tmn) (f : ℝ) : Tmn := fun i => a i / f

/-- `operator*` of a four-vector and a number, fourvector.h:398-412. -/
def smul4 (p : V4) (f : ℝ) : V4 := ⟨p.t * f, p.x * f, p.y * f, p.z * f⟩

/-- `add_particle(mom)`, energymomentumtensor.cc:145-157. -/
noncomputable def addMom (T : Tmn) (mom : V4) : Tmn :=
  let tmp := mom.vec.div mom.t
  add T ![mom.t, mom.x, mom.y, mom.z, mom.x * tmp.x, mom.x * tmp.y, mom.x * tmp.z,
    mom.y * tmp.y, mom.y * tmp.z, mom.z * tmp.z]

/-- `add_particle(p, factor)`, energymomentumtensor.cc:159-163. -/
noncomputable def addParticle (T : Tmn) (mom : V4) (factor : ℝ) : Tmn :=
  if factor ≠ 0 then addMom T (smul4 mom factor) else T

/-- The matrix `A` in `landau_frame_4velocity`, energymomentumtensor.cc:40-46. -/
def mixed (T : Tmn) : Matrix (Fin 4) (Fin 4) ℝ :=
  !![T 0, T 1, T 2, T 3; -T 1, -T 4, -T 5, -T 6; -T 2, -T 5, -T 7, -T 8; -T 3, -T 6, -T 8, -T 9]

/-- The search for the largest eigenvalue, energymomentumtensor.cc:53-58. -/
noncomputable def maxIndex (val : Fin 4 → ℝ) : Fin 4 :=
  (List.finRange 4).foldl (fun m i => if val m < val i then i else m) 0

/-- `landau_frame_4velocity`, energymomentumtensor.cc:23-113, for the real parts `val`, `vec` of
the eigenvalues and eigenvectors that Eigen returns. The messages are left out. -/
noncomputable def landau (val : Fin 4 → ℝ) (vec : Fin 4 → V4) : V4 :=
  let e := vec (maxIndex val)
  let tmp : V4 := if e.t < 0 then ⟨-e.t, -e.x, -e.y, -e.z⟩ else e
  let uSqr := tmp.sqr
  if uSqr > 1 / 1000000 then smul4 tmp (1 / Real.sqrt uSqr) else ⟨1, 0, 0, 0⟩

/-- The matrix `A` in `boosted`, energymomentumtensor.cc:119-124. -/
def full (T : Tmn) : Matrix (Fin 4) (Fin 4) ℝ :=
  !![T 0, T 1, T 2, T 3; T 1, T 4, T 5, T 6; T 2, T 5, T 7, T 8; T 3, T 6, T 8, T 9]

/-- The matrix `L` in `boosted`, energymomentumtensor.cc:126-132. -/
noncomputable def boostMatrix (u : V4) : Matrix (Fin 4) (Fin 4) ℝ :=
  let tmp := u.vec.div (1 + u.t)
  !![u.t, u.x, u.y, u.z;
     u.x, u.x * tmp.x + 1, u.y * tmp.x, u.z * tmp.x;
     u.y, u.x * tmp.y, u.y * tmp.y + 1, u.z * tmp.y;
     u.z, u.x * tmp.z, u.y * tmp.z, u.z * tmp.z + 1]

/-- `boosted`, energymomentumtensor.cc:115-143. -/
noncomputable def boosted (T : Tmn) (u : V4) : Tmn :=
  let L := boostMatrix u
  let R := L * full T * L
  ![R 0 0, R 0 1, R 0 2, R 0 3, R 1 1, R 1 2, R 1 3, R 2 2, R 2 3, R 3 3]

end Verif.Emt
