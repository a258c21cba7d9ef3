import Verif.Dens.Model
import Verif.Coll.Model
import Verif.Pdg.Model
import Mathlib.Analysis.SpecialFunctions.Pow.Real
import Mathlib.Analysis.SpecialFunctions.Trigonometric.Arctan
/-!
Model of potentials.h/.cc, fields.cc, the update of the potential lattices (experiment.h) and
`update_momenta` (propagation.cc). Real numbers instead of doubles; expressions that give no number are
`.nan`, dereferenced null pointers are `.null`.
-/
namespace Verif.Pot
open Verif.Kin Verif.Emt

inductive Err
  | nan | null | noRoot | spacelike
  deriving DecidableEq

/-- constants.h:29, 38, 41, 44, 52, 99 and 102. -/
noncomputable def hbarc : ℝ := 197327053 / 1000000000
@[inherit_doc hbarc] noncomputable def mev : ℝ := 1 / 1000
@[inherit_doc hbarc] noncomputable def reallySmall : ℝ := 1 / 1000000
@[inherit_doc hbarc] noncomputable def verySmall : ℝ := 1 / 1000000000000000
@[inherit_doc hbarc] noncomputable def rho0 : ℝ := 168 / 1000
@[inherit_doc hbarc] noncomputable def fineStructure : ℝ := 72973525698 / 10000000000000
@[inherit_doc hbarc] noncomputable def elementaryCharge : ℝ := Real.sqrt (fineStructure * 4 * Real.pi)

open Classical in
/-- `std::pow` of a base which is negative (not a number for the exponents used with such a base), zero with a
negative exponent (infinite, `.nan` here) or otherwise. -/
noncomputable def pow (x y : ℝ) : Except Err ℝ :=
  if x < 0 ∨ (x = 0 ∧ y < 0) then .error .nan else .ok (x ^ y)

open Classical in
/-- `sgn` in potentials.cc:78, 107, 171, 206 and 313: -1 for zero. -/
noncomputable def sgn (x : ℝ) : ℝ := if x > 0 then 1 else -1

/-- The parameters of the potentials (potentials.cc:18-69). `gamma`: the exponent of the symmetry potential if
configured; `terms`: coefficients in GeV and powers of VDF. -/
structure Pars where
  (skyrme symmetry coulomb vdf momDep outside : Bool)
  (a b tau sPot : ℝ)
  gamma : Option ℝ
  sat : ℝ
  terms : List (ℝ × ℝ)
  (c lambda : ℝ)

/-- `skyrme_pot`, potentials.cc:73-82. -/
noncomputable def skyrmePot (rho A B tau : ℝ) : Except Err ℝ := do
  let tmp := rho / rho0
  let pw ← pow |tmp| tau
  .ok (mev * sgn tmp * (A * |tmp| + B * pw))

/-- `symmetry_S`, potentials.cc:84-91, with the exponent. -/
noncomputable def symmetryS (g rhoB : ℝ) : Except Err ℝ := do
  let p ← pow (rhoB / rho0) (2 / 3)
  let q ← pow (rhoB / rho0) g
  .ok (123 / 10 * p + 20 * q)

open Classical in
/-- `symmetry_pot`, potentials.cc:92-101. -/
noncomputable def symmetryPot (P : Pars) (rhoI rhoB : ℝ) : Except Err ℝ := do
  let pot := mev * 2 * P.sPot * rhoI / rho0
  match P.gamma with
  | none => .ok pot
  | some g =>
    let s ← symmetryS g rhoB
    if rhoB = 0 then .error .nan
    else .ok (pot + mev * s * rhoI * rhoI / (rhoB * rhoB))

open Classical in
/-- `abs_rhoB` in potentials.cc:108-112, 209-212 and fields.cc:53-57. -/
noncomputable def absRho (rho : ℝ) : ℝ := if |rho| < verySmall then verySmall else |rho|

/-- `F_2`, potentials.cc:115-120 and 224-229 (the saturation density is positive). -/
noncomputable def vdfF2 (P : Pars) (rho : ℝ) : ℝ :=
  (P.terms.map fun e => e.1 * absRho rho ^ (e.2 - 2) / P.sat ^ (e.2 - 1)).sum * sgn rho

/-- `F_1`, potentials.cc:216-222. -/
noncomputable def vdfF1 (P : Pars) (rho : ℝ) : ℝ :=
  (P.terms.map fun e => e.1 * (e.2 - 2) * absRho rho ^ (e.2 - 3) / P.sat ^ (e.2 - 1)).sum * sgn rho

/-- `vdf_pot`, potentials.cc:103-123. -/
noncomputable def vdfPot (P : Pars) (rho : ℝ) (j : V4) : V4 := smul4 j (vdfF2 P rho)

/-- `force_scale`, potentials.cc:158-164. -/
noncomputable def forceScale (pdg : Nat) : ℝ × Int :=
  (((3 - |Pdg.strangeness pdg| : Int) : ℝ) / 3 * (Pdg.baryonNumber pdg : Int), Pdg.baryonNumber pdg)

/-- `dV_drho` in `skyrme_force`, potentials.cc:173-177. -/
noncomputable def dSkyrme (P : Pars) (rho : ℝ) : Except Err ℝ := do
  let pw ← pow (|rho| / rho0) (P.tau - 1)
  .ok (sgn rho * (P.a + P.b * P.tau * pw) * mev / rho0)

/-- An electric and a magnetic force. -/
abbrev Force := V3 × V3

def zero3 : V3 := ⟨0, 0, 0⟩
def noForce : Force := (zero3, zero3)

/-- `skyrme_force`, potentials.cc:166-182. -/
noncomputable def skyrmeForce (P : Pars) (rho : ℝ) (gradJ0 dj curl : V3) : Except Err Force := do
  if P.skyrme then
    let d ← dSkyrme P rho
    .ok (zero3.sub ((gradJ0.add dj).smul d), zero3.add (curl.smul d))
  else .ok noForce

open Classical in
/-- `dVsym_drhoI3`, potentials.cc:250-258. -/
noncomputable def dSymI (P : Pars) (rhoB rhoI : ℝ) : Except Err ℝ := do
  let t1 := 2 * P.sPot / rho0
  match P.gamma with
  | none => .ok (mev * t1)
  | some g =>
    let s ← symmetryS g rhoB
    if rhoB = 0 then .error .nan
    else .ok (mev * (t1 + 2 * rhoI * s / (rhoB * rhoB)))

open Classical in
/-- `dVsym_drhoB`, potentials.cc:260-271. -/
noncomputable def dSymB (P : Pars) (rhoB rhoI : ℝ) : Except Err ℝ := do
  match P.gamma with
  | none => .ok 0
  | some g =>
    let p ← pow (rhoB / rho0) (-1 / 3)
    let q ← pow (rhoB / rho0) g
    let s ← symmetryS g rhoB
    if rhoB = 0 then .error .nan
    else
      let t1 := 82 / 10 * p / rho0 + 20 * g * q / rhoB
      let t2 := -2 * s / rhoB
      .ok (mev * (t1 + t2) * rhoI * rhoI / (rhoB * rhoB))

/-- What the forces need of a current: density, current, gradient of the zeroth component, time derivative and
curl of the vector. -/
structure Node where
  rho : ℝ
  j : V4
  (gradJ0 djdt curl : V3)

/-- `symmetry_force`, potentials.cc:184-197. -/
noncomputable def symmetryForce (P : Pars) (I B : Node) : Except Err Force := do
  if P.symmetry then
    let di ← dSymI P B.rho I.rho
    let db ← dSymB P B.rho I.rho
    .ok (zero3.sub (((I.gradJ0.add I.djdt).smul di).add ((B.gradJ0.add B.djdt).smul db)),
      zero3.add ((I.curl.smul di).add (B.curl.smul db)))
  else .ok noForce

/-- `vdf_force` from derivatives of the current, potentials.cc:199-236. -/
noncomputable def vdfForce (P : Pars) (rho drhodt : ℝ) (gradRho cross : V3) (B : Node) : Force :=
  if P.vdf then
    (zero3.sub ((((gradRho.smul B.j.t).add (B.j.vec.smul drhodt)).smul (vdfF1 P rho)).add
        ((B.gradJ0.add B.djdt).smul (vdfF2 P rho))),
      zero3.add ((cross.smul (vdfF1 P rho)).add (B.curl.smul (vdfF2 P rho))))
  else noForce

/-- `vdf_force` from derivatives of the field, potentials.cc:239-248. -/
def vdfForceA (P : Pars) (gradA0 dAdt curlA : V3) : Force :=
  if P.vdf then (zero3.sub (gradA0.add dAdt), zero3.add curlA) else noForce

/-- A derivative of the rest frame density, potentials.cc:318-332. -/
noncomputable def drho (rho : ℝ) (j dj : V4) : ℝ :=
  1 / rho * (j.t * dj.t - j.x * dj.x - j.y * dj.y - j.z * dj.z)

open Classical in
/-- The density by which is divided, potentials.cc:312-316. -/
noncomputable def safeRho (rho : ℝ) : ℝ := if |rho| < verySmall then sgn rho * verySmall else rho

/-- The node with what `current_eckart` computes. -/
noncomputable def nodeOf (c : Dens.Current) : Node := ⟨c.rho, c.jmu, c.gradJ0, c.dt.vec, c.curl⟩

/-- The part of `all_forces` for VDF, potentials.cc:306-343. -/
noncomputable def vdfAll (P : Pars) (B : Dens.Current) : Force :=
  let rho := safeRho B.rho
  let dt := drho rho B.jmu B.dt
  let g : V3 := ⟨drho rho B.jmu B.dx, drho rho B.jmu B.dy, drho rho B.jmu B.dz⟩
  vdfForce P rho dt g (g.cross B.jmu.vec) (nodeOf B)

/-- `all_forces`, potentials.cc:273-347, for the currents of baryon number and of isospin at the point: the
second force is that of the symmetry potential. -/
noncomputable def allForces (P : Pars) (B I : Dens.Current) : Except Err (Force × Force) := do
  let fb ← (if P.skyrme then skyrmeForce P B.rho B.gradJ0 B.dt.vec B.curl else .ok noForce)
  let fi ← (if P.symmetry then symmetryForce P (nodeOf I) (nodeOf B) else .ok noForce)
  .ok (if P.vdf then vdfAll P B else fb, fi)

/-! ### Potential at a point -/

/-- `potential`, potentials.cc:125-156: `hadronic` is `is_baryon() || is_nucleus()`, `iso3` is
`isospin3_rel()`. -/
noncomputable def potential (P : Pars) (pdg : Nat) (iso3 : ℝ) (B I : Dens.Current) : Except Err ℝ := do
  if !(Pdg.isBaryon pdg || Pdg.isNucleus pdg) then .ok 0
  else
    let u ← (if P.skyrme then do
        let u ← skyrmePot B.rho P.a P.b P.tau
        .ok ((forceScale pdg).1 * u)
      else .ok 0)
    let v ← (if P.symmetry then do
        let v ← symmetryPot P I.rho B.rho
        .ok (((forceScale pdg).2 : ℝ) * (v * iso3))
      else .ok 0)
    .ok (u + v + if P.vdf then (forceScale pdg).1 * (vdfPot P B.rho B.jmu).t else 0)

/-! ### Momentum dependence -/

open Classical in
/-- `std::cbrt`. -/
noncomputable def cbrt (x : ℝ) : ℝ := if x < 0 then -((-x) ^ ((1 : ℝ) / 3)) else x ^ ((1 : ℝ) / 3)

/-- `fermi_momentum` in 1/fm, potentials.h:728-730 (degeneracy 4). -/
noncomputable def fermiMomentum (rho : ℝ) : ℝ := cbrt (6 * Real.pi * Real.pi * rho / 4)

/-- The value for a particle at rest, potentials.h:732-736. -/
noncomputable def momAtRest (kF C L : ℝ) : ℝ :=
  mev * 4 * C / (Real.pi * Real.pi * rho0) * (L * L * kF - L ^ 3 * Real.arctan (kF / L))

/-- The value for a moving particle with momentum `k` in 1/fm, potentials.h:737-751. -/
noncomputable def momMoving (k kF C L : ℝ) : ℝ :=
  mev * (2 * 4 * C * Real.pi * L ^ 3 / ((2 * Real.pi) ^ 3 * rho0) *
    ((kF * kF + L * L - k * k) / (2 * k * L) * Real.log (((k + kF) ^ 2 + L * L) / ((k - kF) ^ 2 + L * L)) +
      2 * kF / L - 2 * (Real.arctan ((k + kF) / L) - Real.arctan ((k - kF) / L))))

open Classical in
/-- `momentum_dependent_part`, potentials.h:721-752; `p` in GeV. -/
noncomputable def momPart (p rho C L : ℝ) : ℝ :=
  if p / hbarc < reallySmall then momAtRest (fermiMomentum rho) C L
  else momMoving (p / hbarc) (fermiMomentum rho) C L

open Classical in
/-- `FourVector::abs`, fourvector.h:463-471. -/
noncomputable def abs4 (j : V4) : Except Err ℝ :=
  if j.sqr > -reallySmall then .ok (Real.sqrt |j.sqr|) else .error .spacelike

open Classical in
/-- `beta_LRF`, potentials.h:686-687. -/
noncomputable def betaLRF (j : V4) : V3 := if j.t > reallySmall then j.vec.div j.t else zero3

open Classical in
/-- `pmu_LRF`, potentials.h:689-692. -/
noncomputable def toLRF (j p : V4) : V4 :=
  if (betaLRF j).abs > reallySmall then boost p (betaLRF j) else p

/-- `energy_LRF`, potentials.h:693-696. -/
noncomputable def energyLRF (P : Pars) (pLRF rho m : ℝ) : Except Err ℝ := do
  let u ← skyrmePot rho P.a P.b P.tau
  .ok (Real.sqrt (m * m + pLRF * pLRF) + u + momPart pLRF rho P.c P.lambda)

/-- `root_eq_potentials`, potentials.h:679-705. -/
noncomputable def rootEq (P : Pars) (e : ℝ) (p : V3) (j : V4) (m : ℝ) : Except Err ℝ := do
  let rho ← abs4 j
  let q := (toLRF j (V4.mk' e p)).vec.abs
  let eL ← energyLRF P q rho m
  .ok (e * e - p.sqr - (eL * eL - q * q))

open Classical in
/-- The scan of `calculation_frame_energy`, potentials.h:144-191, around `g`; `coin` is
`random::uniform_int(0, 1)` of each round. The number of rounds is bounded by `fuel` (see `C128_ends`). -/
noncomputable def scan (solve : ℝ → ℝ → Option ℝ) (g : ℝ) (coin : Nat → Bool) :
    Nat → ℝ → ℝ → Option (Except Err ℝ)
  | 0, _, _ => none
  | fuel + 1, lo, hi =>
    match solve lo hi with
    | some x => some (.ok x)
    | none =>
      if ¬ lo > g - 100 ∧ ¬ hi < g + 100 then some (.error .noRoot)
      else if ¬ lo > g - 100 then scan solve g coin fuel lo (hi + 1 / 10)
      else if ¬ hi < g + 100 then scan solve g coin fuel (lo - 1 / 10) hi
      else if coin fuel then scan solve g coin fuel lo (hi + 1 / 10)
      else scan solve g coin fuel (lo - 1 / 10) hi

/-- The loop over `interval_half_widths`, potentials.h:129-142. -/
noncomputable def widths (solve : ℝ → ℝ → Option ℝ) (g : ℝ) : List ℝ → Option ℝ
  | [] => none
  | w :: ws => match solve (g - w) (g + w) with
    | some x => some x
    | none => widths solve g ws

/-- `calculation_frame_energy`, potentials.h:118-192, with `g` the energy without potentials; `solve` is
`RootSolver1D::try_find_root`. -/
noncomputable def frameEnergy (solve : ℝ → ℝ → Option ℝ) (g : ℝ) (coin : Nat → Bool) (fuel : Nat) :
    Option (Except Err ℝ) :=
  match widths solve g [5 / 100, 5 / 10, 5, 50] with
  | some x => some (.ok x)
  | none => scan solve g coin fuel (g - 1 / 10) (g + 1 / 10)

/-- The current at a place, potentials.h:80-98: from the lattice, from the particles, or `none`. -/
def currentAt (lat : Option (V3 → Option V4)) (outside : Bool) (direct : V3 → V4) (r : V3) : Option V4 :=
  match (match lat with | some l => l r | none => none) with
  | some j => some j
  | none => if outside then some (direct r) else none

/-- `single_particle_energy_gradient`, potentials.h:65-105; `energy` is `calculation_frame_energy` for the
momentum and mass of the particle; `none` stands for the returned zero vector. -/
noncomputable def energyGradient (cur : V3 → Option V4) (energy : V4 → Except Err ℝ) (d r : V3) :
    Except Err (Option V3) := do
  let comp (step : V3) (h : ℝ) : Except Err (Option ℝ) :=
    match cur (r.sub step), cur (r.add step) with
    | some l, some h' => do
      let el ← energy l
      let eh ← energy h'
      .ok (some ((eh - el) / (2 * h)))
    | _, _ => .ok none
  let x ← comp ⟨d.x, 0, 0⟩ d.x
  match x with
  | none => .ok none
  | some x =>
    let y ← comp ⟨0, d.y, 0⟩ d.y
    match y with
    | none => .ok none
    | some y =>
      let z ← comp ⟨0, 0, d.z⟩ d.z
      match z with
      | none => .ok none
      | some z => .ok (some ⟨x, y, z⟩)

/-! ### Coulomb -/

open Classical in
/-- `E_field_integrand`, potentials.h:365-374. -/
noncomputable def eIntegrand (pos : V3) (rho : ℝ) (point : V3) : V3 :=
  let dr := point.sub pos
  if dr.abs < reallySmall then zero3 else (dr.smul (elementaryCharge * rho)).div (dr.abs ^ 3)

open Classical in
/-- `B_field_integrand`, potentials.h:383-393. -/
noncomputable def bIntegrand (pos : V3) (j : V3) (point : V3) : V3 :=
  let dr := point.sub pos
  if dr.abs < reallySmall then zero3 else ((j.cross dr).smul elementaryCharge).div (dr.abs ^ 3)

/-- `integrate_volume`, lattice.h:667-677, over the cells of the cube with their centres, values, and the
volume of a cell. -/
noncomputable def integrateVolume {T : Type} (f : V3 → T → V3 → V3) (vol : ℝ) (point : V3) : List (V3 × T) → V3
  | [] => zero3
  | c :: cs => ((f c.1 c.2 point).smul vol).add (integrateVolume f vol point cs)

/-! ### Momenta -/

/-- What `update_momenta` needs of a particle. -/
structure Part where
  pdg : Nat
  iso3 : ℝ
  pole : ℝ
  mom : V4
  pos : V4

open Classical in
/-- `effective_mass`, particledata.cc:25-33. -/
noncomputable def effMass (p : Part) : Except Err ℝ := if p.pole < reallySmall then .ok p.pole else abs4 p.mom

/-- The surroundings: the lattices (`none`: null pointer; the inner `none`: outside), the forces computed from
the list of all particles, and the gradient of the energy. -/
structure Env where
  (fb fi em : Option (V3 → Option Force))
  all : V3 → Except Err (Force × Force)
  grad : Part → Except Err V3

/-- A lookup in a lattice: `value_at` sets the variable to the default if the point is outside. -/
def valueAt (l : Option (V3 → Option Force)) (r : V3) : Except Err (Bool × Force) :=
  match l with
  | none => .error .null
  | some f => match f r with
    | some v => .ok (true, v)
    | none => .ok (false, noForce)

/-- The variables `FB`, `FI3`, `EM_fields` of `update_momenta`, which live through the loop. -/
structure Vars where
  (fb fi em : Force)

/-- Condition on the lattice of one kind of force, propagation.cc:163-167: the lookup happens only if it is
needed and all earlier ones were successful. -/
def lookup (go used : Bool) (l : Option (V3 → Option Force)) (r : V3) (old : Force) :
    Except Err (Bool × Force) := do
  if go && used then
    let v ← valueAt l r
    .ok v
  else .ok (go, old)

/-- The force on one particle and the new values of the variables, propagation.cc:153-206; `none`: the particle
is left alone. -/
noncomputable def forceOn (P : Pars) (E : Env) (s : Vars) (p : Part) : Except Err (Option V3 × Vars) := do
  if !(Pdg.isBaryon p.pdg || Pdg.isNucleus p.pdg) then .ok (none, s)
  else
    let r := p.pos.vec
    let possibly := (if P.skyrme then E.fb.isSome else true) && (if P.vdf then E.fb.isSome else true) &&
      (if P.symmetry then E.fi.isSome else true)
    let a ← lookup possibly P.skyrme E.fb r s.fb
    let b ← lookup a.1 P.vdf E.fb r a.2
    let c ← lookup b.1 P.symmetry E.fi r s.fi
    if !c.1 && !P.outside then .ok (none, ⟨b.2, c.2, s.em⟩)
    else
      let fb := if !P.skyrme && !P.vdf then noForce else b.2
      let fi := if !P.symmetry then noForce else c.2
      let f ← (if !c.1 then E.all r else .ok (fb, fi))
      let v := p.mom.velocity
      let iso := (f.2.1.add (v.cross f.2.2)).smul (((forceScale p.pdg).2 : ℝ) * p.iso3)
      let nuclear ← (if P.momDep then do
          let g ← E.grad p
          .ok ((g.neg.smul (forceScale p.pdg).1).add iso)
        else .ok (((f.1.1.add (v.cross f.1.2)).smul (forceScale p.pdg).1).add iso))
      if P.coulomb then
        let e ← valueAt E.em r
        .ok (some (if e.1 then nuclear.add ((e.2.1.add (v.cross e.2.2)).smul
          (hbarc * (Pdg.charge p.pdg : Int) * elementaryCharge)) else nuclear), ⟨f.1, f.2, e.2⟩)
      else .ok (some nuclear, ⟨f.1, f.2, s.em⟩)

/-- `set_4momentum(effective_mass, p + F dt)`, propagation.cc:208-209. -/
noncomputable def kick (dt : ℝ) (p : Part) (f : V3) : Except Err Part := do
  let m ← effMass p
  .ok { p with mom := Coll.onShell m (p.mom.vec.add (f.smul dt)) }

/-- One round of the loop. -/
noncomputable def updateOne (P : Pars) (E : Env) (dt : ℝ) (s : Vars) (p : Part) : Except Err (Part × Vars) := do
  let f ← forceOn P E s p
  match f.1 with
  | none => .ok (p, f.2)
  | some F => do
    let q ← kick dt p F
    .ok (q, f.2)

/-- `update_momenta`, propagation.cc:131-231, over all particles of all ensembles (the warning about the time
step left out). -/
noncomputable def updateMomenta (P : Pars) (E : Env) (dt : ℝ) : Vars → List Part → Except Err (List Part)
  | _, [] => .ok []
  | s, p :: ps => do
    let q ← updateOne P E dt s p
    let qs ← updateMomenta P E dt q.2 ps
    .ok (q.1 :: qs)

/-! ### Lattices -/

/-- One node of the lattices: the forces kept, and the four-potentials. -/
structure Cell where
  (fb fi : Force)
  (ub ui : V4)

/-- The pointers to lattices which are not null: density of baryon number and isospin, and potentials. -/
structure Lats where
  (jB jI ub ui : Bool)

/-- The lattices that are created, experiment.h:1879-1917 and 1932-1941; `configured`: there is a lattice in the
configuration; `printB`: the baryon density is printed. -/
def created (P : Pars) (configured printB : Bool) : Lats :=
  if configured then ⟨P.skyrme || P.vdf || printB, P.symmetry, P.skyrme || P.vdf, P.symmetry⟩
  else ⟨false, false, false, false⟩

open Classical in
/-- `flow_four_velocity`, experiment.h:2941-2943. -/
noncomputable def flow (n : Node) : V4 := if |n.rho| > verySmall then smul4 n.j (1 / n.rho) else ⟨0, 0, 0, 0⟩

/-- The part of `update_potentials` for Skyrme and symmetry potential at one node, experiment.h:2928-2966. -/
noncomputable def skyrmeNode (P : Pars) (L : Lats) (B I : Node) (c : Cell) : Except Err Cell := do
  if (P.skyrme || P.symmetry) && L.jB then
    if !L.ub then .error .null
    else
      let c1 ← (if P.skyrme then do
          let u ← skyrmePot B.rho P.a P.b P.tau
          let f ← skyrmeForce P B.rho B.gradJ0 B.djdt B.curl
          .ok { c with ub := smul4 (flow B) u, fb := f }
        else .ok c)
      if P.symmetry && L.jI then
        let u ← symmetryPot P I.rho B.rho
        let f ← symmetryForce P I B
        .ok { c1 with ui := smul4 (flow I) u, fi := f }
      else .ok c1
  else .ok c

/-- The part for VDF, experiment.h:2984-3014: `direct` gives the derivatives of the field if they are computed
directly, otherwise the chain rule is used with the derivatives of the density. -/
noncomputable def vdfNode (P : Pars) (L : Lats) (B : Node) (drhodt : ℝ) (gradRho cross : V3)
    (direct : Option (V3 × V3 × V3)) (c : Cell) : Cell :=
  if P.vdf && L.jB then
    { c with
      ub := vdfPot P B.rho B.j
      fb := match direct with
        | none => vdfForce P B.rho drhodt gradRho cross B
        | some (g, d, k) => vdfForceA P g d k }
  else c

/-- `field_at_i`, fields.cc:47-72. -/
noncomputable def fieldAt (P : Pars) (rho : ℝ) (j : V4) : V4 :=
  smul4 j (P.terms.map fun e => sgn rho * e.1 * (absRho rho / P.sat) ^ (e.2 - 2) / P.sat).sum

end Verif.Pot
