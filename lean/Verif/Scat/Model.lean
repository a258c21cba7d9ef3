import Verif.Kin.Model
import Mathlib.Analysis.SpecialFunctions.Pow.Real
import Mathlib.Analysis.Real.Pi.Bounds
/-
Model of the collision finder: scatteractionsfinder.h/.cc, the distance and velocity functions of
scatteraction.cc and the cross section scaling of particledata.cc.

Doubles are exact real numbers (NaN formation times are `none`). Cross sections and the weights of
multi-particle reactions are arbitrary functions. Random numbers are arbitrary functions of the
list of particles they are drawn for: within one search every list is examined at most once
(theorem `C53_candidates`), so every sequence of draws is such a function.
-/
namespace Verif.Scat
open Verif.Kin

/-- `really_small`, constants.h:41. -/
noncomputable def reallySmall : ℝ := 1 / 1000000
/-- `fm2_mb`, constants.h:32. -/
noncomputable def fm2mb : ℝ := 1 / 10

/-- `CollisionCriterion`, forwarddeclarations.h. -/
inductive Crit | geometric | stochastic | covariant
deriving DecidableEq

/-- `BelongsTo`, forwarddeclarations.h. -/
inductive BelongsTo | nothing | projectile | target
deriving DecidableEq

/-- The fields of `ParticleData` used by the finder. -/
structure P where
  id : Int
  pos : V4
  mom : V4
  belongs : BelongsTo := .nothing
  ncoll : Nat := 0
  process : Nat := 0
  isPion : Bool := false
  formation : Option ℝ := some 0
  beginFormation : Option ℝ := some 0
  initialScaling : ℝ := 1

/-- `xsec_scaling_factor`, particledata.cc:125-165; `power` is the static `formation_power_`; NaN
is `none`. -/
noncomputable def scalingFactor (power : ℝ) (p : P) (deltaTime : ℝ) : Option ℝ :=
  match p.formation, p.beginFormation with
  | some form, some begin_ =>
    let t := p.pos.t + deltaTime
    if power ≤ 0 then
      if t < form then some p.initialScaling else some 1
    else if form ≤ t then some 1
    else if begin_ ≥ t then some p.initialScaling
    else some (p.initialScaling + (1 - p.initialScaling) *
      ((t - begin_) / (form - begin_)) ^ power)
  | _, _ => none

/-- Finder parameters, and the functions the finder calls that are not modelled. `multi` is
`included_multi` restricted to the four reactions, in the order Meson_3to1, Deuteron_3to2,
A3_Nuclei_4to2, NNbar_5to2; `maxXs` is the numerator of `max_transverse_distance_sqr`. -/
structure Env where
  crit : Crit
  allowWithin : Bool
  testparticles : Nat
  warnOnly : Bool
  power : ℝ
  maxXs : ℝ
  meson31 : Bool
  deuteron32 : Bool
  a342 : Bool
  nnbar52 : Bool
  /-- `act->cross_section()` in mb -/
  xs : P → P → ℝ
  /-- `get_total_weight()` of a multi-particle reaction -/
  weight : List P → ℝ
  /-- the draw of the collision time -/
  drawTime : List P → ℝ
  /-- the draw that decides on the collision -/
  draw : List P → ℝ

/-- Exceptions the finder throws. -/
inductive Err | invalidId | highProb
deriving DecidableEq

/-- What is kept of a `ScatterAction`: its incoming particles and `time_until_collision`. -/
structure Act where
  incoming : List P
  time : ℝ

/-- The momentum used for the collision time, scatteractionsfinder.h:83-98 (`beam_momentum` for
nucleons of the initial nuclei without interaction). -/
def usedMom (beam : List V4) (p : P) : V4 :=
  if p.id.toNat < beam.length ∧ p.ncoll = 0 then beam.getD p.id.toNat p.mom else p.mom

/-- The covariant branch of `collision_time`, scatteractionsfinder.h:100-121. -/
noncomputable def covTime (x1 x2 p1 p2 : V4) : ℝ :=
  let dx := x1.sub x2
  let den := (p1.dot p2) ^ 2 - p1.sqr * p2.sqr
  if |den| < reallySmall * reallySmall then -1
  else
    let time1 := (p2.sqr * p1.dot dx - p1.dot p2 * p2.dot dx) * p1.t / den
    let time2 := -(p1.sqr * p2.dot dx - p1.dot p2 * p1.dot dx) * p2.t / den
    (time1 + time2) / 2

/-- The geometric branch of `collision_time`, scatteractionsfinder.h:131-141. -/
noncomputable def geoTime (x1 x2 p1 p2 : V4) : ℝ :=
  let dv := (p1.vec.smul p2.t).sub (p2.vec.smul p1.t)
  if dv.sqr < reallySmall then -1
  else
    let dr := x1.vec.sub x2.vec
    (-(dr.dot dv)) * (p1.t * p2.t / dv.sqr)

/-- `collision_time`, scatteractionsfinder.h:67-144. -/
noncomputable def collisionTime (e : Env) (beam : List V4) (a b : P) (dt : ℝ) : Except Err ℝ :=
  if e.crit = .stochastic then .ok (dt * e.drawTime [a, b])
  else if a.id < 0 ∨ b.id < 0 then .error .invalidId
  else if e.crit = .covariant then
    .ok (covTime a.pos b.pos (usedMom beam a) (usedMom beam b))
  else .ok (geoTime a.pos b.pos (usedMom beam a) (usedMom beam b))

/-- `transverse_distance_sqr`, scatteraction.cc:366-400, `beta_cm`, scatteraction.cc:335-337, and
`ParticleData::boost`, particledata.h:343-346. -/
noncomputable def transverseDist2 (xa xb pa pb : V4) : ℝ :=
  let v := (pa.add pb).velocity
  let dr := (boost xa v).vec.sub (boost xb v).vec
  let dp := (boost pa v).vec.sub (boost pb v).vec
  if dp.sqr < reallySmall then dr.sqr
  else
    let result := dr.sqr - dr.dot dp * dr.dot dp / dp.sqr
    if result > 0 then result else 0

/-- `cov_transverse_distance_sqr`, scatteraction.cc:402-428. -/
noncomputable def covTransverseDist2 (xa xb pa pb : V4) : ℝ :=
  let dx := xa.sub xb
  if (pa.vec.sub pb.vec).sqr < reallySmall then -dx.sqr
  else
    let b2 := -dx.sqr - (pa.sqr * (pb.dot dx) ^ 2 + pb.sqr * (pa.dot dx) ^ 2
      - 2 * pa.dot pb * pa.dot dx * pb.dot dx) / ((pa.dot pb) ^ 2 - pa.sqr * pb.sqr)
    if b2 > 0 then b2 else 0

/-- `lambda_tilde`, action.h:315-322. -/
noncomputable def lambdaTilde (a b c : ℝ) : ℝ :=
  let res := (a - b - c) * (a - b - c) - 4 * b * c
  if res < 0 then 0 else res

/-- `relative_velocity`, scatteraction.cc:357-364, with the effective masses of particledata.cc:25-33
taken from the momenta. -/
noncomputable def relativeVelocity (pa pb : V4) : ℝ :=
  Real.sqrt (lambdaTilde (pa.add pb).sqr pa.sqr pb.sqr) / (2 * pa.t * pb.t)

/-- `distance_squared`, scatteractionsfinder.cc:281-286. -/
noncomputable def distance2 (c : Crit) (a b : P) : ℝ :=
  match c with
  | .geometric => transverseDist2 a.pos b.pos a.mom b.mom
  | .covariant => covTransverseDist2 a.pos b.pos a.mom b.mom
  | .stochastic => 0

/-- `max_transverse_distance_sqr`, scatteractionsfinder.h:225-230. -/
noncomputable def maxDist2 (e : Env) : ℝ := e.maxXs / e.testparticles * fm2mb * (1 / Real.pi)

/-- The ban of collisions inside a nucleus, scatteractionsfinder.cc:225-239. -/
def banned (e : Env) (a b : P) : Bool :=
  !e.allowWithin &&
    (((a.belongs == .projectile && b.belongs == .projectile) ||
      (a.belongs == .target && b.belongs == .target)) &&
     (a.ncoll == 0 && b.ncoll == 0))

/-- Cross section with scaling factors, scatteractionsfinder.cc:302-307; `none` is NaN, which
results from a NaN scaling factor. -/
noncomputable def scaledXs (e : Env) (a b : P) (t : ℝ) : Option ℝ :=
  (scalingFactor e.power a t).bind fun fa => (scalingFactor e.power b t).map fun fb =>
    e.xs a b * fm2mb / e.testparticles * fa * fb

/-- `d > x` where `x` may be NaN: comparisons with NaN are false. -/
def Gt (d : ℝ) (x : Option ℝ) : Prop := ∃ y, x = some y ∧ d > y
/-- `d >= x` where `x` may be NaN. -/
def Ge (d : ℝ) (x : Option ℝ) : Prop := ∃ y, x = some y ∧ d ≥ y
/-- `x > d` where `x` may be NaN. -/
def Lt (d : ℝ) (x : Option ℝ) : Prop := ∃ y, x = some y ∧ y > d

open Classical in
/-- The decision of the stochastic criterion, scatteractionsfinder.cc:309-340 and 419-446. -/
noncomputable def decide (e : Env) (prob : Option ℝ) (act : Act) : Except Err (Option Act) :=
  if Lt 1 prob ∧ e.warnOnly = false then .error .highProb
  else if Gt (e.draw act.incoming) prob then .ok none
  else .ok (some act)

open Classical in
/-- The rest of `check_collision_two_part` once the time is known,
scatteractionsfinder.cc:250-373. -/
noncomputable def afterTime (e : Env) (a b : P) (dt vol t : ℝ) : Except Err (Option Act) :=
  if t < 0 ∨ t ≥ dt then .ok none
  else if e.crit ≠ .stochastic ∧ distance2 e.crit a b ≥ maxDist2 e then .ok none
  else if e.crit = .stochastic then
    decide e ((scaledXs e a b t).map fun x => x * relativeVelocity a.mom b.mom * dt / vol)
      ⟨[a, b], t⟩
  else if a.process > 0 ∧ a.process = b.process then .ok none
  else if Ge (distance2 e.crit a b) ((scaledXs e a b t).map fun x => x * (1 / Real.pi)) then .ok none
  else .ok (some ⟨[a, b], t⟩)

/-- `check_collision_two_part`, scatteractionsfinder.cc:217-373. -/
noncomputable def checkTwo (e : Env) (beam : List V4) (a b : P) (dt vol : ℝ) :
    Except Err (Option Act) :=
  if banned e a b then .ok none
  else if e.crit = .stochastic ∧ vol < reallySmall then .ok none
  else (collisionTime e beam a b dt).bind (afterTime e a b dt vol)

/-- `check_collision_multi_part`, scatteractionsfinder.cc:375-450. -/
noncomputable def checkMulti (e : Env) (l : List P) (dt vol : ℝ) : Except Err (Option Act) :=
  if e.allowWithin = false ∧
      ((l.all (·.belongs == .projectile) || l.all (·.belongs == .target)) &&
        l.all (·.ncoll == 0)) = true then .ok none
  else if vol < reallySmall then .ok none
  else decide e (some (e.weight l / (e.testparticles : ℝ) ^ (l.length - 1)))
    ⟨l, dt * e.drawTime l⟩

/-- The lists of particles `find_actions_in_cell` examines, in its order,
scatteractionsfinder.cc:452-515. -/
def cellCandidates (e : Env) (search : List P) : List (List P) :=
  search.flatMap fun p1 => search.flatMap fun p2 =>
    (if p1.id < p2.id then [[p1, p2]] else []) ++
    (if e.meson31 || e.deuteron32 || e.a342 || e.nnbar52 then
      search.flatMap fun p3 =>
        (if (e.deuteron32 || e.meson31) ∧ p1.id < p2.id ∧ p2.id < p3.id then [[p1, p2, p3]]
          else []) ++
        search.flatMap fun p4 =>
          (if e.a342 ∧ p1.id < p2.id ∧ p2.id < p3.id ∧ p3.id < p4.id then [[p1, p2, p3, p4]]
            else []) ++
          (if e.nnbar52 ∧ search.length ≥ 5 then
            search.flatMap fun p5 =>
              if (p1.id < p2.id ∧ p2.id < p3.id ∧ p3.id < p4.id ∧ p4.id < p5.id) ∧
                  (p1.isPion ∧ p2.isPion ∧ p3.isPion ∧ p4.isPion ∧ p5.isPion)
                then [[p1, p2, p3, p4, p5]] else []
          else [])
    else [])

/-- Which check a list gets: pairs `check_collision_two_part`, longer lists
`check_collision_multi_part`. -/
noncomputable def check (e : Env) (beam : List V4) (dt vol : ℝ) (l : List P) :
    Except Err (Option Act) :=
  match l with
  | [a, b] => checkTwo e beam a b dt vol
  | l => checkMulti e l dt vol

/-- Examine lists one after the other and collect the actions; an exception ends the search. -/
noncomputable def collect (e : Env) (beam : List V4) (dt vol : ℝ) :
    List (List P) → Except Err (List Act)
  | [] => .ok []
  | l :: ls =>
    (check e beam dt vol l).bind fun r =>
      (collect e beam dt vol ls).bind fun rest => .ok (r.toList ++ rest)

/-- `find_actions_in_cell`, scatteractionsfinder.cc:452-515. -/
noncomputable def findInCell (e : Env) (search : List P) (dt vol : ℝ) (beam : List V4) :
    Except Err (List Act) :=
  collect e beam dt vol (cellCandidates e search)

/-- The pairs `find_actions_with_neighbors` examines, scatteractionsfinder.cc:517-536. -/
def neighborCandidates (e : Env) (search neighbors : List P) : List (List P) :=
  if e.crit = .stochastic then [] else
  search.flatMap fun p1 => neighbors.map fun p2 => [p1, p2]

/-- `find_actions_with_neighbors`, scatteractionsfinder.cc:517-536 (the cell volume has its default
0, scatteractionsfinder.h). -/
noncomputable def findWithNeighbors (e : Env) (search neighbors : List P) (dt : ℝ)
    (beam : List V4) : Except Err (List Act) :=
  collect e beam dt 0 (neighborCandidates e search neighbors)

/-- The pairs `find_actions_with_surrounding_particles` examines,
scatteractionsfinder.cc:538-564. -/
def surroundingCandidates (e : Env) (search surrounding : List P) : List (List P) :=
  if e.crit = .stochastic then [] else
  surrounding.flatMap fun p2 =>
    if search.any (fun p => p.id == p2.id) then []
    else search.map fun p1 => [p1, p2]

/-- `find_actions_with_surrounding_particles`, scatteractionsfinder.cc:538-564. -/
noncomputable def findWithSurrounding (e : Env) (search surrounding : List P) (dt : ℝ)
    (beam : List V4) : Except Err (List Act) :=
  collect e beam dt 0 (surroundingCandidates e search surrounding)

end Verif.Scat
