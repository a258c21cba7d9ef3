import Verif.Coll.Model
import Mathlib.Analysis.SpecialFunctions.Exp
import Mathlib.MeasureTheory.Integral.IntervalIntegral.Basic

/-!
Model of deformed nuclei: deformednucleus.cc, their creation in collidermodus.cc and the parts of nucleus.cc they use.
Real numbers instead of doubles; the integrators of GSL are exact; random numbers are arguments.
-/

namespace Verif.Deform
open Verif.Kin Real

/-- `y_l_m`, deformednucleus.cc:195-213, the branch l = 2, m = 0. -/
noncomputable def y20 (cosx : ℝ) : ℝ := 1 / 4 * √(5 / π) * (3 * (cosx * cosx) - 1)

/-- `y_l_m`, the branch l = 2, m = 2, deformednucleus.cc:198-200. -/
noncomputable def y22 (cosx phi : ℝ) : ℝ :=
  let sinx2 := 1 - cosx * cosx
  1 / 4 * √(15 / (2 * π)) * sinx2 * cos (2 * phi)

/-- `y_l_m`, the branch l = 3, m = 0, deformednucleus.cc:201-203. -/
noncomputable def y30 (cosx : ℝ) : ℝ := 1 / 4 * √(7 / π) * (5 * cosx * (cosx * cosx) - 3 * cosx)

/-- `y_l_m`, the branch l = 4, m = 0, deformednucleus.cc:204-206. -/
noncomputable def y40 (cosx : ℝ) : ℝ :=
  3 / 16 * √(1 / π) * (35 * (cosx * cosx) * (cosx * cosx) - 30 * (cosx * cosx) + 3)

/-- `y_l_m`, deformednucleus.cc:195-213; `none`: exception. -/
noncomputable def yLM (l m : ℤ) (cosx phi : ℝ) : Option ℝ :=
  if l = 2 ∧ m = 0 then some (y20 cosx)
  else if l = 2 ∧ m = 2 then some (y22 cosx phi)
  else if l = 3 ∧ m = 0 then some (y30 cosx)
  else if l = 4 ∧ m = 0 then some (y40 cosx)
  else none

/-- A `DeformedNucleus` without its nucleons: `number_of_particles`, `nuclear_radius_`, `diffusiveness_`,
`saturation_density_` (nucleus.h) and `beta2_`, `gamma_`, `beta3_`, `beta4_` (deformednucleus.h:150-157). -/
structure Nucleus where
  A : ℕ
  radius : ℝ
  diff : ℝ
  sat : ℝ
  beta2 : ℝ
  gamma : ℝ
  beta3 : ℝ
  beta4 : ℝ

/-- The radius in the direction of the angles, as it occurs in `nucleon_density` and
`nucleon_density_unnormalized`, deformednucleus.cc:218-226 and 233-241. -/
noncomputable def Nucleus.surface (n : Nucleus) (cosx phi : ℝ) : ℝ :=
  n.radius * (1 + n.beta2 * (cos n.gamma * y20 cosx + √2 * sin n.gamma * y22 cosx phi) +
    n.beta3 * y30 cosx + n.beta4 * y40 cosx)

/-- `DeformedNucleus::nucleon_density`, deformednucleus.cc:215-227. -/
noncomputable def Nucleus.density (n : Nucleus) (r cosx phi : ℝ) : ℝ :=
  n.sat / (1 + exp ((r - n.surface cosx phi) / n.diff))

/-- `DeformedNucleus::nucleon_density_unnormalized`, deformednucleus.cc:229-242. -/
noncomputable def Nucleus.shape (n : Nucleus) (r cosx phi : ℝ) : ℝ :=
  1 / (1 + exp ((r - n.surface cosx phi) / n.diff))

/-- `Nucleus::nucleon_density_unnormalized`, nucleus.cc:559-561. -/
noncomputable def Nucleus.roundShape (n : Nucleus) (r : ℝ) : ℝ :=
  1 / (exp ((r - n.radius) / n.diff) + 1)

/-- `Nucleus::nucleon_density`, nucleus.cc:554-557. -/
noncomputable def Nucleus.roundDensity (n : Nucleus) (r : ℝ) : ℝ :=
  n.sat / (exp ((r - n.radius) / n.diff) + 1)

/-- `DeformedNucleus::integrant_nucleon_density_phi`, deformednucleus.cc:244-256. -/
noncomputable def Nucleus.phiIntegral (n : Nucleus) (r cosx : ℝ) : ℝ :=
  ∫ phi in (0 : ℝ)..2 * π, n.shape r cosx phi

/-- `DeformedNucleus::calculate_saturation_density`, deformednucleus.cc:258-287. -/
noncomputable def Nucleus.saturation (n : Nucleus) : ℝ :=
  if n.gamma = 0 then
    n.A / ∫ t in (1 / 100 : ℝ)..1, ∫ cosx in (-1 : ℝ)..1,
      2 * π * ((1 - t) / t) ^ 2 * n.shape ((1 - t) / t) cosx 0 / t ^ 2
  else
    n.A / ∫ t in (1 / 100 : ℝ)..1, ∫ cosx in (-1 : ℝ)..1,
      ((1 - t) / t) ^ 2 * n.phiIntegral ((1 - t) / t) cosx / t ^ 2

/-- `Nucleus::calculate_saturation_density`, nucleus.cc:563-577. -/
noncomputable def Nucleus.roundSaturation (n : Nucleus) : ℝ :=
  n.A / ∫ t in (1 / 100 : ℝ)..1, ∫ _cosx in (-1 : ℝ)..1,
    2 * π * ((1 - t) / t) ^ 2 * n.roundShape ((1 - t) / t) / t ^ 2

/-! ### Configuration -/

inductive Err
  | woodsSaxon     -- some of Diffusiveness, Radius and Saturation_Density
  | automatic      -- automatic deformation with parameters
  | noBeta         -- manual deformation without parameters
  | gammaOnly      -- Gamma without Beta_2
  | unknown        -- no deformation parameters for the nucleus
  | rotation       -- random rotation with angles
  deriving DecidableEq, Repr

/-- `Nucleus::default_nuclear_radius`, nucleus.h:351-361. -/
noncomputable def defaultRadius (A : ℕ) : ℝ :=
  if A ≤ 16 then 6 / 5 * (A : ℝ) ^ ((1 : ℝ) / 3)
  else 112 / 100 * (A : ℝ) ^ ((1 : ℝ) / 3) - 86 / 100 * (A : ℝ) ^ (-(1 : ℝ) / 3)

/-- `Nucleus::set_parameters_automatic`, nucleus.cc:306-364: radius and diffusiveness; `nTest`: test particles. -/
noncomputable def woodsSaxon (A Z nTest : ℕ) : ℝ × ℝ :=
  if A = 1 then (if nTest = 1 then 0 else 1 - exp (-((nTest : ℝ) - 1) * (1 / 10)), if nTest = 1 then -1 else 1 / 50)
  else if A = 238 ∧ Z = 92 then (686 / 100, 556 / 1000)
  else if A = 208 ∧ Z = 82 then (667 / 100, 54 / 100)
  else if A = 197 ∧ Z = 79 then (655 / 100, 523 / 1000)
  else if A = 129 ∧ Z = 54 then (536 / 100, 59 / 100)
  else if A = 63 ∧ Z = 29 then (420641 / 100000, 5977 / 10000)
  else if A = 96 then
    if Z = 40 then (502 / 100, 46 / 100)
    else if Z = 44 then (5085 / 1000, 46 / 100)
    else (112 / 100 * (A : ℝ) ^ ((1 : ℝ) / 3) - 86 / 100 * (A : ℝ) ^ (-(1 : ℝ) / 3), 54 / 100)
  else (defaultRadius A, if A ≤ 16 then 545 / 1000 else 54 / 100)

/-- The keys of the section Projectile or Target used here. -/
structure Section where
  A : ℕ
  Z : ℕ
  diff : Option ℝ
  radius : Option ℝ
  sat : Option ℝ
  automatic : Bool
  beta2 : Option ℝ
  beta3 : Option ℝ
  beta4 : Option ℝ
  gamma : Option ℝ

/-- The constructor of `Nucleus` from the configuration, nucleus.cc:38-82; no virtual calls in a constructor reach
`DeformedNucleus`, whose deformation parameters start as 0. -/
noncomputable def base (s : Section) (nTest : ℕ) : Except Err Nucleus :=
  match s.diff, s.radius, s.sat with
  | some d, some r, some rho => .ok ⟨s.A, r, d, rho, 0, 0, 0, 0⟩
  | none, none, none =>
    let n : Nucleus := ⟨s.A, (woodsSaxon s.A s.Z nTest).1, (woodsSaxon s.A s.Z nTest).2, 0, 0, 0, 0, 0⟩
    .ok { n with sat := n.roundSaturation }
  | _, _, _ => .error .woodsSaxon

/-- `set_deformation_parameters_automatic`, deformednucleus.cc:75-164: `beta2_` and `beta4_`. -/
noncomputable def deformation (A Z : ℕ) : Option (ℝ × ℝ) :=
  if A = 238 then (if Z = 92 then some (28 / 100, 93 / 1000) else none)
  else if A = 208 then (if Z = 82 then some (0, 0) else none)
  else if A = 197 then (if Z = 79 then some (-(131 / 1000), -(31 / 1000)) else none)
  else if A = 129 then (if Z = 54 then some (162 / 1000, -(3 / 1000)) else none)
  else if A = 63 then (if Z = 29 then some (162 / 1000, -(6 / 1000)) else none)
  else if A = 96 then
    if Z = 40 then some (0, 0) else if Z = 44 then some (158 / 1000, 0) else none
  else none

/-- The constructor of `DeformedNucleus`, deformednucleus.cc:27-37, and
`set_deformation_parameters_from_config`, deformednucleus.cc:166-199. -/
noncomputable def construct (s : Section) (nTest : ℕ) : Except Err Nucleus :=
  match base s nTest with
  | .error e => .error e
  | .ok n =>
    if s.automatic then
      match deformation s.A s.Z with
      | none => .error .unknown
      | some (b2, b4) =>
        let n := { n with beta2 := b2, beta4 := b4 }
        .ok { n with sat := n.saturation }
    else .ok { n with beta2 := s.beta2.getD n.beta2, gamma := s.gamma.getD n.gamma,
                      beta3 := s.beta3.getD n.beta3, beta4 := s.beta4.getD n.beta4 }

/-- `ColliderModus::create_deformed_nucleus`, collidermodus.cc:423-475. -/
noncomputable def create (s : Section) (nTest : ℕ) : Except Err Nucleus :=
  let beta := s.beta2.isSome || s.beta3.isSome || s.beta4.isSome
  if s.automatic && (beta || s.gamma.isSome) then .error .automatic
  else if !s.automatic && !beta then .error .noBeta
  else if !s.automatic && (s.gamma.isSome && !s.beta2.isSome) then .error .gammaOnly
  else construct s nTest

/-! ### Positions -/

/-- `radius_max`, deformednucleus.cc:56-58. -/
noncomputable def Nucleus.range (n : Nucleus) : ℝ := n.radius / n.diff + n.radius * n.diff

/-- One iteration of `DeformedNucleus::distribute_nucleon`, deformednucleus.cc:52-73: the random numbers are those for
the angles (`distribute_isotropically`, angles.h:199-203), the radius and the acceptance; the position as radius,
cosine and azimuth; `none`: rejected. -/
noncomputable def Nucleus.trial (n : Nucleus) (phi cosx u w : ℝ) : Option (ℝ × ℝ × ℝ) :=
  let r := n.range * u ^ ((1 : ℝ) / 3)
  if w > n.density r cosx phi / n.sat then none else some (r, cosx, phi)

/-- The loop of `distribute_nucleon`; `none`: the random numbers are used up. -/
noncomputable def Nucleus.draw (n : Nucleus) : List (ℝ × ℝ × ℝ × ℝ) → Option (ℝ × ℝ × ℝ)
  | [] => none
  | (phi, cosx, u, w) :: l =>
    match n.trial phi cosx u w with
    | some x => some x
    | none => n.draw l

/-- The vector returned, deformednucleus.cc:72: `threevec` (angles.h) times the radius. -/
noncomputable def vector (x : ℝ × ℝ × ℝ) : V3 :=
  ⟨x.1 * (√(1 - x.2.1 ^ 2) * cos x.2.2), x.1 * (√(1 - x.2.1 ^ 2) * sin x.2.2), x.1 * x.2.1⟩

/-- The density used for the Fermi momentum of a nucleon at `pos`, nucleus.cc:436-440, for a nucleus centred at the
origin (`arrange_nucleons` centres it). -/
noncomputable def Nucleus.fermiDensity (n : Nucleus) (pos : V3) : ℝ :=
  n.density pos.abs (cos pos.theta) pos.phi

/-- Orientation options, nucleus.cc:366-393: random rotation and the angles theta, phi, psi. -/
structure Orientation where
  random : Bool
  theta : Option ℝ
  phi : Option ℝ
  psi : Option ℝ

/-- `set_orientation_from_config`, nucleus.cc:366-393: random rotation and the angles theta, phi, psi. -/
noncomputable def orient (o : Orientation) : Except Err (Bool × ℝ × ℝ × ℝ) :=
  if o.random && (o.theta.isSome || o.phi.isSome || o.psi.isSome) then .error .rotation
  else .ok (o.random, o.theta.getD 0, o.phi.getD 0, o.psi.getD 0)

/-- `random_euler_angles`, nucleus.cc:547-552: phi, theta, psi. -/
noncomputable def eulerAngles (u v w : ℝ) : ℝ × ℝ × ℝ := (2 * π * u, arccos (2 * v - 1), 2 * π * w)

/-- The angles used in `rotate`, nucleus.cc:395-413: phi, theta, psi. -/
noncomputable def angles (o : Bool × ℝ × ℝ × ℝ) (u v w : ℝ) : ℝ × ℝ × ℝ :=
  if o.1 then eulerAngles u v w else (o.2.2.1, o.2.1, o.2.2.2)

end Verif.Deform
