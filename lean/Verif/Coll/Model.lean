import Verif.Kin.Rot
import Mathlib.Analysis.SpecialFunctions.Pow.Real
/-
Model of nuclei and of the collider modus: nucleus.cc, nucleus.h, collidermodus.cc,
alphaclusterednucleus.cc, customnucleus.cc.  Real numbers instead of doubles; random draws are
arguments.
-/
namespace Verif.Coll
open Verif.Kin Real

inductive Species | proton | neutron | other (code : Nat)
deriving DecidableEq

inductive Label | nothing | projectile | target
deriving DecidableEq

/-- What is used of `ParticleData` in nuclei, particledata.h. -/
structure Nuc where
  species : Species
  /-- pole mass -/
  mass : ℝ
  pos : V4
  mom : V4
  /-- formation time -/
  form : ℝ
  label : Label

/-- Proton or neutron. -/
def Nuc.isNucleon (n : Nuc) : Bool := n.species = .proton ∨ n.species = .neutron

/-- `set_4momentum(mass, mom)`, particledata.h:187-202. -/
noncomputable def onShell (m : ℝ) (p : V3) : V4 := V4.mk' (√(m * m + p.dot p)) p

/-- A particle as created by `emplace_back(type)` and `set_4momentum`, nucleus.cc:514-515; position
and formation time of a default constructed particle are zero. -/
noncomputable def fresh (s : Species) (m : ℝ) : Nuc :=
  ⟨s, m, ⟨0, 0, 0, 0⟩, onShell m ⟨0, 0, 0⟩, 0, .nothing⟩

/-- `Nucleus::fill_from_list`, nucleus.cc:506-518: species, mass and number in the order of the map;
`t`: number of test particles. Numbers are not negative. -/
noncomputable def fillFromList (list : List (Species × ℝ × Nat)) (t : Nat) : List Nuc :=
  list.flatMap fun e => List.replicate (e.2.2 * t) (fresh e.1 e.2.1)

/-- `Nucleus::number_of_particles`, nucleus.h:159-171; `none`: exception. -/
def numberOfParticles (l : List Nuc) (t : Nat) : Option Nat :=
  let nop := l.length / t
  if nop * t ≠ l.length then none else some nop

/-- `Nucleus::number_of_protons`, nucleus.h:178-196. -/
def numberOfProtons (l : List Nuc) (t : Nat) : Option Nat :=
  let c := (l.filter fun n => n.species = .proton).length
  if c / t * t ≠ c then none else some (c / t)

/-- Sum of four-vectors. -/
def sum4 (l : List V4) : V4 := l.foldr V4.add ⟨0, 0, 0, 0⟩

/-- Sum of three-vectors. -/
def sum3 (l : List V3) : V3 := l.foldr V3.add ⟨0, 0, 0⟩

/-- `Nucleus::mass`, nucleus.cc:84-90. -/
noncomputable def massOf (l : List Nuc) (t : Nat) : ℝ := (l.map fun n => n.mom.abs).sum / t

/-- `Nucleus::center`, nucleus.cc:538-545. -/
noncomputable def center (l : List Nuc) : V4 :=
  let s := sum4 (l.map (·.pos))
  ⟨s.t / l.length, s.x / l.length, s.y / l.length, s.z / l.length⟩

/-- `Nucleus::align_center`, nucleus.h:217-223. -/
noncomputable def alignCenter (l : List Nuc) : List Nuc :=
  l.map fun n => { n with pos := n.pos.sub (center l) }

/-- `Nucleus::rotate`, nucleus.cc:395-413, for given Euler angles. -/
noncomputable def rotate (phi theta psi : ℝ) (l : List Nuc) : List Nuc :=
  if phi ≠ 0 ∨ theta ≠ 0 ∨ psi ≠ 0 then
    l.map fun n => { n with pos := V4.mk' n.pos.t (n.pos.vec.rotate phi theta psi) }
  else l

/-- `Nucleus::arrange_nucleons`, nucleus.cc:289-304; `draw i`: position drawn for nucleon `i`. -/
noncomputable def arrange (draw : Nat → V3) (phi theta psi : ℝ) (l : List Nuc) : List Nuc :=
  rotate phi theta psi (alignCenter (l.mapIdx fun i n =>
    { n with mom := onShell n.mass ⟨0, 0, 0⟩, pos := V4.mk' 0 (draw i) }))

/-- The radius drawn in `distribute_nucleon`, nucleus.cc:250-282, for the branch selected by `which`
and random numbers `u1`, `u2`, `u3`; `r`: nuclear radius, `d`: diffusiveness. -/
noncomputable def drawnRadius (r d which u1 u2 u3 : ℝ) : ℝ :=
  let rs := r / d
  let p2 := 3 / rs
  let p3 := 2 * p2 / rs
  let t := if which < 0 then rs * (u1 ^ ((1 : ℝ) / 3) - 1)
    else
      let t := -log u1
      if which ≥ p2 then
        let t := t - log u2
        if which ≥ p2 + p3 then t - log u3 else t
      else t
  (t + rs) * d

/-- `hbarc`, constants.h. -/
noncomputable def hbarc : ℝ := 197327053 / 1000000000

/-- The size of the momentum drawn in `generate_fermi_momenta`, nucleus.cc:442-449; `n` of `a`
nucleons are of the same kind. -/
noncomputable def fermiDraw (rho u : ℝ) (n a : Nat) : ℝ :=
  hbarc * (3 * π * π * (rho * n / a) * u) ^ ((1 : ℝ) / 3)

/-- `Nucleus::generate_fermi_momenta`, nucleus.cc:415-474; `draw i`: momentum drawn for particle `i`. -/
noncomputable def fermi (draw : Nat → V3) (l : List Nuc) : List Nuc :=
  let a := (l.filter fun n => n.species = .neutron).length + (l.filter fun n => n.species = .proton).length
  let l1 := l.mapIdx fun i n => if n.isNucleon then { n with mom := V4.mk' n.mom.t (draw i) } else n
  let ptot := sum3 ((l1.filter (·.isNucleon)).map fun n => n.mom.vec)
  if a = 0 then l1
  else l1.map fun n =>
    if n.isNucleon then { n with mom := onShell n.mass (n.mom.vec.sub (ptot.div a)) } else n

/-- `Nucleus::boost`, nucleus.cc:476-504. -/
noncomputable def boostNucleus (beta : ℝ) (l : List Nuc) : List Nuc :=
  let oneOverGamma := √(1 - beta * beta)
  let gamma := 1 / oneOverGamma
  l.map fun n => { n with
    pos := ⟨n.pos.t, n.pos.x, n.pos.y, n.pos.z * oneOverGamma⟩
    mom := onShell n.mass ⟨n.mom.x, n.mom.y, gamma * (beta * n.mom.t + n.mom.z)⟩ }

/-- `Nucleus::shift`, nucleus.cc:520-530. -/
noncomputable def shift (z x t : ℝ) (l : List Nuc) : List Nuc :=
  l.map fun n => { n with pos := ⟨t, n.pos.x + x, n.pos.y, n.pos.z + z⟩, form := t }

/-! ### Collider modus -/

inductive Frame | centerOfVelocity | centerOfMass | fixedTarget
deriving DecidableEq

/-- `ColliderModus::get_velocities`, collidermodus.cc:616-642. -/
noncomputable def getVelocities (f : Frame) (s ma mb : ℝ) : ℝ × ℝ :=
  match f with
  | .centerOfVelocity => (centerOfVelocityV s ma mb, -centerOfVelocityV s ma mb)
  | .centerOfMass =>
    let p := pCMS s ma mb
    (p / √(ma * ma + p * p), -p / √(mb * mb + p * p))
  | .fixedTarget => (fixedTargetV s ma mb, 0)

/-- A nucleus and its parameters. -/
structure Nucleus where
  parts : List Nuc
  radius : ℝ
  diffusiveness : ℝ

/-- Everything drawn at random for one event. -/
structure Draws where
  posA : Nat → V3
  posB : Nat → V3
  fermiA : Nat → V3
  fermiB : Nat → V3
  euler : ℝ × ℝ × ℝ
  euler' : ℝ × ℝ × ℝ
  phi : ℝ

inductive Err | superluminal | division
deriving DecidableEq

/-- `ColliderModus::rotate_reaction_plane`, collidermodus.cc:573-582. -/
noncomputable def rotatePlane (phi : ℝ) (l : List Nuc) : List Nuc :=
  l.map fun n => { n with
    pos := V4.mk' n.pos.t (n.pos.vec.rotZ phi)
    mom := V4.mk' n.mom.t (n.mom.vec.rotZ phi) }

/-- `ColliderModus::initial_conditions`, collidermodus.cc:499-571: the particles (projectile first) and
the start time. `useFermi`: Fermi motion on or frozen. Division by a vanishing velocity is an error
here; the code continues with an infinite time. -/
noncomputable def initialConditions (f : Frame) (s : ℝ) (t : Nat) (a b : Nucleus) (useFermi : Bool)
    (dz impact : ℝ) (d : Draws) : Except Err (List Nuc × List Nuc × ℝ) :=
  let pa := arrange d.posA d.euler.1 d.euler.2.1 d.euler.2.2 a.parts
  let pb := arrange d.posB d.euler'.1 d.euler'.2.1 d.euler'.2.2 b.parts
  let v := getVelocities f s (massOf pa t) (massOf pb t)
  if v.1 ≥ 1 ∨ v.2 ≥ 1 then .error .superluminal
  else if v.1 = 0 then .error .division
  else
    let pa := if useFermi then fermi d.fermiA pa else pa
    let pb := if useFermi then fermi d.fermiB pb else pb
    let pa := boostNucleus v.1 pa
    let pb := boostNucleus v.2 pb
    let da := max 0 a.diffusiveness
    let db := max 0 b.diffusiveness
    let time := -dz / |v.1|
    let za := -dz - √(1 - v.1 * v.1) * (a.radius + da)
    let zb := dz * |v.2 / v.1| + √(1 - v.2 * v.2) * (b.radius + db)
    let pa := shift za (impact / 2) time pa
    let pb := shift zb (-impact / 2) time pb
    .ok (rotatePlane d.phi pa, rotatePlane d.phi pb, time)

/-- The ways to give the collision energy, collidermodus.cc:110-234. -/
inductive Energy
  | sqrtsNN (x : ℝ)
  | eTot (x : ℝ)
  | eKin (x : ℝ)
  | pLab (x : ℝ)
  | eTot2 (p t : ℝ)
  | eKin2 (p t : ℝ)
  | pLab2 (p t : ℝ)

/-- Total squared energy and energy per nucleon pair from one of the options, collidermodus.cc:110-234;
`none`: exception. `MA`, `MB`: masses of the nuclei, `na`, `nb`: numbers of nucleons. -/
noncomputable def energyOption (MA MB : ℝ) (na nb : Nat) : Energy → Option (ℝ × ℝ)
  | .sqrtsNN e =>
    let ma := MA / na
    let mb := MB / nb
    if e ≤ ma + mb then none
    else some ((e * e - ma * ma - mb * mb) * MA * MB / (ma * mb) + MA * MA + MB * MB, e)
  | .eTot e =>
    if e < 0 then none
    else some (sFromEtot (e * na) MA MB, √(sFromEtot e (MA / na) (MB / nb)))
  | .eKin e =>
    if e < 0 then none
    else some (sFromEkin (e * na) MA MB, √(sFromEkin e (MA / na) (MB / nb)))
  | .pLab e =>
    if e < 0 then none
    else some (sFromPlab (e * na) MA MB, √(sFromPlab e (MA / na) (MB / nb)))
  | .eTot2 p t =>
    if p < 0 ∨ t < 0 then none
    else some (sFromEtot2 (p * na) (t * nb) MA MB, √(sFromEkin2 p t (MA / na) (MB / nb)))
  | .eKin2 p t =>
    if p < 0 ∨ t < 0 then none
    else some (sFromEkin2 (p * na) (t * nb) MA MB, √(sFromEkin2 p t (MA / na) (MB / nb)))
  | .pLab2 p t =>
    if p < 0 ∨ t < 0 then none
    else some (sFromPlab2 (p * na) (t * nb) MA MB, √(sFromPlab2 p t (MA / na) (MB / nb)))

/-- The collision energy from all options that are given, collidermodus.cc:102-245. -/
noncomputable def collisionEnergy (MA MB : ℝ) (na nb : Nat) (given : List Energy) : Option (ℝ × ℝ) :=
  match given with
  | [e] => energyOption MA MB na nb e
  | _ => none

/-- `Sampling::Quadratic` of `sample_impact`, collidermodus.cc:586-593. -/
noncomputable def impactQuadratic (bmin bmax u : ℝ) : ℝ := √(bmin * bmin + u * (bmax * bmax - bmin * bmin))

/-- `Sampling::Custom` of `sample_impact`, collidermodus.cc:594-607: one entry of `draws` is the pair of
random numbers of an iteration; inner `none`: the assertion fails, outer `none`: the draws are used up. -/
noncomputable def impactCustom (f : ℝ → ℝ) (ymax : ℝ) : List (ℝ × ℝ) → Option (Option ℝ)
  | [] => none
  | (b, w) :: l =>
    let p := f b / ymax
    if p < 1 then (if w > p then impactCustom f ymax l else some (some b)) else some none

/-! ### Alpha clusters -/

/-- The vertices of the tetrahedron, alphaclusterednucleus.h:70-74. -/
noncomputable def vertices : List V3 :=
  [⟨1, 0, 0⟩, ⟨-1 / 3, √8 / 3, 0⟩, ⟨-1 / 3, -√8 / 6, √24 / 6⟩, ⟨-1 / 3, -√8 / 6, -√24 / 6⟩]

/-- `scale_tetrahedron_vertex_positions`, alphaclusterednucleus.cc:75-80. -/
noncomputable def scaleVertices (side : ℝ) (l : List V3) : List V3 :=
  l.map fun p => (((p.div p.abs).smul (√6)).div 4).smul side

/-- The vertex used for the `i`-th call of `distribute_nucleon`, alphaclusterednucleus.cc:66-73; the
calls are counted over all events. -/
def vertexOf (calls : Nat) : Nat := calls % 4

end Verif.Coll
