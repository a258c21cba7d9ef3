import Verif.Kin.Rot
import Verif.Coll.Model
import Verif.Rand.Model
import Verif.Pdg.Model
/-!
Model of the initial conditions of box and sphere (boxmodus.cc, spheremodus.cc) and of the momentum
distributions they use (distributions.cc, quantumsampling.cc).

Real numbers instead of doubles. Random numbers are arguments: `canonical` in [0, 1),
`canonical_nonzero` in (0, 1]. The rejection loops take a list with the numbers of each round; if the
list ends before a round is accepted the result is `.endless`. The ratio of Bessel functions is an
argument. Multiplicities are natural numbers (a negative one would be converted to a huge unsigned one).
-/
namespace Verif.Ini
open Verif.Kin

inductive Err
  | endless | nan | missing | spacelike
  deriving DecidableEq

/-! ### distributions.cc -/

/-- `density_integrand_mass`, distributions.cc:42-46. -/
noncomputable def densityMass (e p2 T : ℝ) : ℝ := p2 * Real.sqrt p2 * Real.exp (-e / T)

/-- `density_integrand_1M_IC`, distributions.cc:48-53. -/
noncomputable def density1M (e p2 T : ℝ) : ℝ :=
  (3 / 20 * (p2 / (T * T)) - 6 / 5 * (e / T) + 14 / 5) * Real.exp (-e / T) * p2

/-- `density_integrand_2M_IC`, distributions.cc:55-64. -/
noncomputable def density2M (e p2 T : ℝ) : ℝ :=
  (75 / 100 + 125 / 1000 * (p2 / (T * T)) - 1 / 30 * (p2 * e / (T * T * T)) +
    1 / 480 * (p2 * p2 / (T * T * T * T))) * Real.exp (-e / T) * p2

/-- `juttner_distribution_func`, distributions.cc:74-84. -/
noncomputable def juttner (p m T mu s : ℝ) : ℝ :=
  let B := Real.exp (-(Real.sqrt (p * p + m * m) - mu) / T)
  B / (1 + s * B)

open Classical in
/-- A rejection loop with an upper bound `top` for the probability: `draw u` is proposed and accepted
unless `uniform(0, top) > prob`. -/
noncomputable def reject (draw prob : ℝ → ℝ) (top : ℝ) : List (ℝ × ℝ) → Except Err ℝ
  | [] => .error .endless
  | (u, w) :: r => if Rand.uniform 0 top w > prob (draw u) then reject draw prob top r else .ok (draw u)

/-- The momentum at which `density_integrand_mass` is taken to be largest, squared,
distributions.cc:97-100. -/
noncomputable def pNonEqSq (T m : ℝ) : ℝ :=
  1 / 2 * (9 * T * T + T * Real.sqrt (81 * T * T + 36 * m * m))

/-- `probability_max` of `sample_momenta_non_eq_mass`, distributions.cc:101-103. -/
noncomputable def nonEqTop (T m : ℝ) : ℝ :=
  2 * densityMass (Real.sqrt (pNonEqSq T m + m * m)) (pNonEqSq T m) T

open Classical in
/-- `sample_momenta_non_eq_mass`, distributions.cc:86-118; the square root of a negative number is not
a number. -/
noncomputable def sampleNonEq (T m : ℝ) (r : List (ℝ × ℝ)) : Except Err ℝ :=
  if 50 * 50 * T * T - m * m < 0 then .error .nan
  else
    let top := Real.sqrt (50 * 50 * T * T - m * m)
    reject (fun u => Rand.uniform 0 top u)
      (fun p => densityMass (Real.sqrt (p * p + m * m)) (p * p) T) (nonEqTop T m) r

open Classical in
/-- `energy_average`, distributions.cc:124-133 and 160-170; `ratio x` is `K1(x) / K2(x)`. -/
noncomputable def energyAverage (ratio : ℝ → ℝ) (T m : ℝ) : ℝ :=
  if m > 0 then 3 * T + m * ratio (m / T) else 3 * T

/-- `probability_max` of the two moment distributions, distributions.cc:134-142 and 171-179. -/
noncomputable def momentTop (g : ℝ → ℝ → ℝ → ℝ) (ratio : ℝ → ℝ) (T m : ℝ) : ℝ :=
  16 * g (energyAverage ratio T m)
    ((energyAverage ratio T m - m) * (energyAverage ratio T m + m)) T

/-- `sample_momenta_1M_IC` and `sample_momenta_2M_IC`, distributions.cc:120-155 and 157-192: `g` is
the integrand; the loop is over energies. -/
noncomputable def sampleMoment (g : ℝ → ℝ → ℝ → ℝ) (ratio : ℝ → ℝ) (T m : ℝ) (r : List (ℝ × ℝ)) :
    Except Err ℝ := do
  let e ← reject (fun u => Rand.uniform m (50 * T) u) (fun e => g e ((e - m) * (e + m)) T)
    (momentTop g ratio T m) r
  .ok (Real.sqrt ((e - m) * (e + m)))

/-- The random numbers of one round of `sample_momenta_from_thermal`: `r0` and `c` from `canonical`,
the others from `canonical_nonzero`. -/
structure Round where
  (r0 r1 r2 r3 c : ℝ)

/-- `I1`, `I2`, `I3`, distributions.cc:215-217. -/
def thermalWeights (T m : ℝ) : ℝ × ℝ × ℝ := (m * m, 2 * m * T, 2 * T * T)

open Classical in
/-- How many exponentially distributed terms the kinetic energy has, distributions.cc:218-232. -/
noncomputable def thermalBranch (T m r0 : ℝ) : Nat :=
  let w := thermalWeights T m
  let tot := w.1 + w.2.1 + w.2.2
  if r0 < w.1 / tot then 1 else if r0 < (w.1 + w.2.1) / tot then 2 else 3

/-- The kinetic energy `K`, distributions.cc:219-232. -/
noncomputable def kinetic (T : ℝ) (n : Nat) (R : Round) : ℝ :=
  if n = 1 then -T * Real.log R.r1
  else if n = 2 then -T * Real.log (R.r1 * R.r2)
  else -T * Real.log (R.r1 * R.r2 * R.r3)

open Classical in
/-- The momentum proposed in one round and the probability with which it is accepted,
distributions.cc:202-208 and 214-235. -/
noncomputable def thermalRound (T m : ℝ) (R : Round) : ℝ × ℝ :=
  if T > 6 / 10 * m then
    let p := T * (-Real.log R.r1 + -Real.log R.r2 + -Real.log R.r3)
    (p, Real.exp ((p - Real.sqrt (p * p + m * m)) / T))
  else
    let e := kinetic T (thermalBranch T m R.r0) R + m
    let p := Real.sqrt ((e + m) * (e - m))
    (p, p / e)

open Classical in
/-- `sample_momenta_from_thermal`, distributions.cc:194-241. -/
noncomputable def thermal (T m : ℝ) : List Round → Except Err ℝ
  | [] => .error .endless
  | R :: r => if R.c < (thermalRound T m R).2 then .ok (thermalRound T m R).1 else thermal T m r

/-- `sample_momenta_IC_ES`, distributions.cc:243-252. -/
noncomputable def sampleES (T : ℝ) (r : ℝ × ℝ × ℝ × ℝ) : ℝ :=
  3 / 4 * T * (-Real.log r.1 + -Real.log r.2.1 + -Real.log r.2.2.1 + -Real.log r.2.2.2)

/-! ### quantumsampling.cc -/

/-- `p_max_root_equation`, quantumsampling.cc:34-45. -/
noncomputable def pMaxEquation (p m T mu s : ℝ) : ℝ :=
  let e := Real.sqrt (p * p + m * m)
  2 * (1 + s * Real.exp (-(e - mu) / T)) - p * p / (T * e)

/-- `quantum_statistics`, quantumsampling.cc:229 and 267: `j` is twice the spin. -/
def statistics (j : Nat) : ℝ := if j % 2 = 0 then -1 else 1

/-- `maximum_of_the_distribution`, quantumsampling.cc:176-205, for the momentum found by the root finder. -/
noncomputable def distrMax (pmax m T mu s : ℝ) : ℝ := pmax * pmax * juttner pmax m T mu s

/-- What the root finders return for one species: the chemical potential and the momentum at which the
distribution is largest. -/
structure Solved where
  (mu pmax : ℝ)

/-- The constructor of `QuantumSampling`, quantumsampling.cc:211-244: entries for the species in the
list of multiplicities and no others. -/
def quantumTable (mults : List (Nat × Nat)) (solve : Nat → Solved) (pdg : Nat) : Option Solved :=
  if mults.any (fun e => e.1 == pdg) then some (solve pdg) else none

open Classical in
/-- The loop of `QuantumSampling::sample`, quantumsampling.cc:270-277; a division by 0 gives infinity or, for p = 0, no
number, and both end the loop. -/
noncomputable def quantumLoop (m T mu s top : ℝ) : List (ℝ × ℝ) → Except Err ℝ
  | [] => .error .endless
  | (u, c) :: r =>
    let p := Rand.uniform 0 10 u
    if top ≠ 0 ∧ c > p * p * juttner p m T mu s / top then quantumLoop m T mu s top r else .ok p

/-- `QuantumSampling::sample`, quantumsampling.cc:257-280: `find(pdg)->second` for a species which is
not in the map is undefined. -/
noncomputable def quantumSample (table : Nat → Option Solved) (mass : Nat → ℝ) (spin : Nat → Nat) (T : ℝ)
    (pdg : Nat) (r : List (ℝ × ℝ)) : Except Err ℝ :=
  match table pdg with
  | none => .error .missing
  | some q =>
    let s := statistics (spin pdg)
    quantumLoop (mass pdg) T q.mu s (distrMax q.pmax (mass pdg) T q.mu s) r

/-! ### Box and sphere -/

/-- What the initial conditions set of a particle. -/
structure Part where
  pdg : Nat
  mom : V4
  pos : V4
  form : ℝ

/-- The configured distribution of momenta, forwarddeclarations.h:129-161. -/
inductive Distr
  | peaked | boltzmann | quantum | es | m1 | m2 | massive
  deriving DecidableEq

/-- Random numbers of one particle: the mass drawn by `sample_mass_thermal`, those of the momentum, its
direction, and those of the position. -/
structure Draw where
  mass : ℝ
  rounds : List Round
  pairs : List (ℝ × ℝ)
  es : ℝ × ℝ × ℝ × ℝ
  dir : Angles
  u : ℝ × ℝ × ℝ
  posDir : Angles

/-- The configuration of box and sphere. `mults`: the configured multiplicities; `drawn`: the numbers
drawn from the Poisson distributions if thermal multiplicities are used. `size`: length of the box or
radius of the sphere. -/
structure Cfg where
  T : ℝ
  size : ℝ
  start : ℝ
  distr : Distr
  widths : Bool
  thermalMult : Bool
  mults : List (Nat × Nat)
  drawn : List (Nat × Nat)
  testparticles : Nat
  mass : Nat → ℝ
  spin : Nat → Nat
  solve : Nat → Solved
  ratio : ℝ → ℝ

/-- The species of the created particles, boxmodus.cc:117-148 and spheremodus.cc:159-194. -/
def species (C : Cfg) : List Nat :=
  if C.thermalMult then C.drawn.flatMap fun e => List.replicate e.2 e.1
  else C.mults.flatMap fun e => List.replicate (e.2 * C.testparticles) e.1

/-- `init_multipl_`: empty with thermal multiplicities, boxmodus.cc:82-85, spheremodus.cc:52-55. -/
def initMult (C : Cfg) : List (Nat × Nat) := if C.thermalMult then [] else C.mults

/-- Mass and absolute momentum of one particle, boxmodus.cc:155-177 and spheremodus.cc:203-236. -/
noncomputable def radial (C : Cfg) (pdg : Nat) (d : Draw) : Except Err (ℝ × ℝ) := do
  match C.distr with
  | .peaked => .ok (C.mass pdg, 3 * C.T)
  | .boltzmann =>
    let m := if C.widths then d.mass else C.mass pdg
    let p ← thermal C.T m d.rounds
    .ok (m, p)
  | .quantum =>
    let p ← quantumSample (quantumTable (initMult C) C.solve) C.mass C.spin C.T pdg d.pairs
    .ok (C.mass pdg, p)
  | .es => .ok (C.mass pdg, sampleES C.T d.es)
  | .m1 =>
    let p ← sampleMoment density1M C.ratio C.T (C.mass pdg) d.pairs
    .ok (C.mass pdg, p)
  | .m2 =>
    let p ← sampleMoment density2M C.ratio C.T (C.mass pdg) d.pairs
    .ok (C.mass pdg, p)
  | .massive =>
    let p ← sampleNonEq C.T (C.mass pdg) d.pairs
    .ok (C.mass pdg, p)

/-- Position in the box, boxmodus.cc:186: three uniform numbers between 0 and the length. -/
noncomputable def boxPos (L : ℝ) (d : Draw) : V3 :=
  ⟨Rand.uniform 0 L d.u.1, Rand.uniform 0 L d.u.2.1, Rand.uniform 0 L d.u.2.2⟩

/-- Position in the sphere, spheremodus.cc:243-249. -/
noncomputable def spherePos (R : ℝ) (d : Draw) : V3 :=
  d.posDir.threevec.smul (d.u.1 ^ ((1 : ℝ) / 3) * R)

/-- One particle of the first loop, boxmodus.cc:153-190 and spheremodus.cc:200-251. -/
noncomputable def place (pos : ℝ → Draw → V3) (C : Cfg) (pdg : Nat) (d : Draw) : Except Err Part := do
  let mp ← radial C pdg d
  .ok ⟨pdg, Coll.onShell mp.1 (d.dir.threevec.smul mp.2), V4.mk' C.start (pos C.size d), C.start⟩

/-- The first loop over all particles. -/
def fill (f : Nat → Draw → Except Err Part) : List Nat → List Draw → Except Err (List Part)
  | [], _ => .ok []
  | _ :: _, [] => .error .endless
  | s :: ss, d :: ds => do
    let p ← f s d
    let ps ← fill f ss ds
    .ok (p :: ps)

/-- The loop that shifts all momenta, boxmodus.cc:195-204 and spheremodus.cc:270-277;
`FourVector::abs` (fourvector.h:463-471) throws for space-like momenta. -/
noncomputable def recenter (total : V4) (l : List Part) : Except Err (List Part) :=
  open Classical in
  if ∃ p ∈ l, p.mom.sqr ≤ -(1 / 1000000) then .error .spacelike
  else .ok (l.map fun p =>
    { p with mom := Coll.onShell (Real.sqrt |p.mom.sqr|) (p.mom.vec.sub (total.vec.div l.length)) })

/-- The jet of the box, boxmodus.cc:207-216: species and momentum. -/
noncomputable def boxJet (C : Cfg) : Option (Nat × ℝ) → List Part
  | none => []
  | some (pdg, p) =>
    [⟨pdg, Coll.onShell (C.mass pdg) ⟨p, 0, 0⟩, ⟨C.start, 0, 0, 0⟩, C.start⟩]

/-- `BoxModus::initial_conditions`, boxmodus.cc:108-228: the particles and the returned time. -/
noncomputable def box (C : Cfg) (jet : Option (Nat × ℝ)) (ds : List Draw) : Except Err (List Part × ℝ) := do
  let l ← fill (place boxPos C) (species C) ds
  let l ← recenter (Coll.sum4 (l.map (·.mom))) l
  .ok (l ++ boxJet C jet, C.start)

/-- The jets of the sphere, spheremodus.cc:280-301. -/
structure Jet where
  pdg : Nat
  mom : ℝ
  pos : V3
  back : Bool
  separation : ℝ

/-- The particles created for the jets, spheremodus.cc:280-301. -/
noncomputable def sphereJets (C : Cfg) : Option Jet → List Part
  | none => []
  | some j =>
    let disp : V3 := ⟨(if j.back then j.separation else 0) / 2, 0, 0⟩
    ⟨j.pdg, Coll.onShell (C.mass j.pdg) ⟨j.mom, 0, 0⟩, V4.mk' C.start (j.pos.add disp), C.start⟩ ::
    (if j.back then
      let anti := if Pdg.hasAntiparticle j.pdg then Pdg.getAntiparticle j.pdg else j.pdg
      [⟨anti, Coll.onShell (C.mass anti) ⟨-j.mom, 0, 0⟩, V4.mk' C.start (j.pos.sub disp), C.start⟩]
    else [])

/-- The velocity with which a particle is boosted, spheremodus.cc:258-262; at the centre the direction
is not a number. -/
noncomputable def flowVelocity (v0 n R : ℝ) (p : Part) : Except Err V3 :=
  let r := Real.sqrt p.pos.vec.sqr
  open Classical in
  if r = 0 then .error .nan
  else .ok (((p.pos.vec.div r).smul (-1 * v0)).smul ((r / R) ^ n))

/-- The boost of one particle, spheremodus.cc:257-265. -/
noncomputable def flow (v0 n R : ℝ) (p : Part) : Except Err Part := do
  let v ← flowVelocity v0 n R p
  .ok { p with mom := boost p.mom v }

/-- The loop over all particles, spheremodus.cc:256-266. -/
noncomputable def flowAll (v0 n R : ℝ) : List Part → Except Err (List Part)
  | [] => .ok []
  | p :: ps => do
    let q ← flow v0 n R p
    let qs ← flowAll v0 n R ps
    .ok (q :: qs)

open Classical in
/-- `SphereModus::initial_conditions`, spheremodus.cc:153-314: `momentum_total` is increased in the
first loop and again in the loop which boosts. -/
noncomputable def sphere (C : Cfg) (v0 n : ℝ) (jet : Option Jet) (ds : List Draw) :
    Except Err (List Part × ℝ) := do
  let l ← fill (place spherePos C) (species C) ds
  let total := Coll.sum4 (l.map (·.mom))
  let lt ← (if v0 > 0 then do
      let l' ← flowAll v0 n C.size l
      (.ok (l', total.add (Coll.sum4 (l'.map (·.mom)))) : Except Err (List Part × V4))
    else .ok (l, total))
  let l ← recenter lt.2 lt.1
  .ok (l ++ sphereJets C jet, C.start)

/-- The checks in the constructor of `SphereModus`, spheremodus.cc:86-96. -/
def accepts (v0 n T : ℝ) : Prop := ¬ v0 > 1 ∧ ¬ T ≤ 0 ∧ ¬ n < 0

end Verif.Ini
