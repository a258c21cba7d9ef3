import Verif.Scat.Model
/-
Model of propagation.cc (free motion and expansion of space) and of hypersurfacecrossingfinder.cc.
Doubles are exact real numbers.
-/
namespace Verif.Stream
open Verif.Kin Verif.Scat

/-- The fields of `ParticleData` used here, on top of those of the collision finder. -/
structure SP extends P where
  poleMass : ℝ
  core : Bool := false
  lastColl : Option ℝ := none

/-- The velocity used to move a particle: `propagate_straight_line`, propagation.cc:65-76, and
`find_actions_in_cell`, hypersurfacecrossingfinder.cc:48-58. -/
noncomputable def moveVel (beam : List V4) (p : SP) : V3 :=
  if p.id.toNat < beam.length ∧ p.ncoll = 0 then (beam.getD p.id.toNat p.mom).velocity
  else p.mom.velocity

/-- The body of the loop of `propagate_straight_line`, propagation.cc:49-83. The assertions are
not part of a release build and not modelled. -/
noncomputable def moveOne (beam : List V4) (toTime : ℝ) (p : SP) : SP :=
  let dt := toTime - p.pos.t
  let pos := p.pos.add (V4.mk' 0 ((moveVel beam p).smul dt))
  { p with pos := { pos with t := toTime } }

/-- `propagate_straight_line`, propagation.cc:44-85: the particles and the returned time. -/
noncomputable def propagate (beam : List V4) (toTime : ℝ) (ps : List SP) : List SP × ℝ :=
  (ps.map (moveOne beam toTime), ((ps.getLast?).map (fun p => toTime - p.pos.t)).getD 0)

/-- `set_formation_time`, particledata.h:264-272. -/
def setFormation (p : SP) (t : ℝ) : SP :=
  { p with formation := some t, beginFormation := some t,
           lastColl := if p.lastColl = none then some t else p.lastColl }

/-- The body of the loop of `backpropagate_straight_line`, propagation.cc:89-105. -/
noncomputable def backOne (toTime : ℝ) (p : SP) : SP :=
  let t := p.pos.t
  let dt := toTime - t
  let r := p.pos.vec.add (p.mom.velocity.smul dt)
  let p := { p with pos := V4.mk' toTime r }
  let p := setFormation p t
  { p with initialScaling := 0 }

/-- `backpropagate_straight_line`, propagation.cc:87-107. -/
noncomputable def backpropagate (toTime : ℝ) (ps : List SP) : List SP := ps.map (backOne toTime)

/-- `ExpansionMode`, forwarddeclarations.h:171-176. -/
inductive Expansion | none | masslessFRW | massiveFRW | exponential
deriving DecidableEq

/-- `calc_hubble`, propagation.cc:21-41. -/
noncomputable def calcHubble (mode : Expansion) (b time : ℝ) : ℝ :=
  match mode with
  | .none => 0
  | .masslessFRW => b / (2 * (b * time + 1))
  | .massiveFRW => 2 * b / (3 * (b * time + 1))
  | .exponential => b * time

/-- The body of the loop of `expand_space_time`, propagation.cc:109-134, with
`set_4momentum(mass, mom)`, particledata.h:186-188. -/
noncomputable def expandOne (h dt : ℝ) (p : SP) : SP :=
  let deltaMom := V4.mk' 0 ((p.mom.vec.smul h).smul dt)
  let dist := V4.mk' 0 ((p.pos.vec.smul h).smul dt)
  let mom := (p.mom.sub deltaMom).vec
  { p with pos := p.pos.add dist,
           mom := V4.mk' (Real.sqrt (p.poleMass * p.poleMass + mom.dot mom)) mom }

/-- `expand_space_time`, propagation.cc:109-134. -/
noncomputable def expand (mode : Expansion) (b time dt : ℝ) (ps : List SP) : List SP :=
  ps.map (expandOne (calcHubble mode b time) dt)

/-! ### Crossing of the hypersurface -/

/-- `tau`, fourvector.h:478-480 (NaN for a negative argument; only used for `|t| > |z|`). -/
noncomputable def tau (x : V4) : ℝ := Real.sqrt (x.t * x.t - x.z * x.z)

/-- `crosses_hypersurface`, hypersurfacecrossingfinder.cc:117-150. -/
noncomputable def crosses (before after : V4) (tau0 : ℝ) : Bool :=
  if |before.t| > |before.z| ∧ |after.t| > |after.z| then
    if tau before ≤ tau0 ∧ tau0 ≤ tau after then true else false
  else if ¬ |before.t| > |before.z| ∧ |after.t| > |after.z| then
    if tau after ≥ tau0 then true else false
  else false

/-- `sol1` of `coordinates_on_hypersurface`, hypersurfacecrossingfinder.cc:155-173. -/
noncomputable def sol1 (before after : V4) (tau0 : ℝ) : ℝ :=
  let m := (after.z - before.z) / (after.t - before.t)
  let n := before.z - m * before.t
  n * m / (1 - m * m) + Real.sqrt ((1 - m * m) * tau0 * tau0 + n * n) / (1 - m * m)

/-- `coordinates_on_hypersurface`, hypersurfacecrossingfinder.cc:152-188; `v` is the velocity of
the particle before propagation. -/
noncomputable def crossingPoint (before after : V4) (v : V3) (tau0 : ℝ) : V4 :=
  let s := sol1 before after tau0
  let pos := before.add (V4.mk' 0 (v.smul (s - before.t)))
  { pos with t := s }

/-- `rapidity`, particledata.h:410 and fourvector.h:482-484: `atanh(z / t)`. -/
noncomputable def rapidity (p : V4) : ℝ := Real.log ((1 + p.z / p.t) / (1 - p.z / p.t)) / 2

/-- The kinematic cuts, hypersurfacecrossingfinder.cc:73-101 (0 means no cut). -/
noncomputable def withinCuts (rapCut pTCut : ℝ) (p : SP) : Bool :=
  !(if rapCut > 0 ∧ |rapidity p.mom| > rapCut then true else false) &&
  !(if pTCut > 0 ∧ Real.sqrt (p.mom.x * p.mom.x + p.mom.y * p.mom.y) > pTCut then true else false)

/-- What the finder does for one particle, hypersurfacecrossingfinder.cc:23-113: the crossing
position of the proposed action, if any (its time is the time component minus the present time). -/
noncomputable def findCrossing (beam : List V4) (tau0 rapCut pTCut dt : ℝ) (p : SP) : Option V4 :=
  let t0 := p.pos.t
  let tEnd := t0 + dt
  if tEnd < 0 then none
  else if p.core then none
  else
    let pos := p.pos.add (V4.mk' 0 ((moveVel beam p).smul dt))
    let after : V4 := { pos with t := tEnd }
    if crosses p.pos after tau0 ∧ withinCuts rapCut pTCut p then
      some (crossingPoint p.pos after p.mom.velocity tau0)
    else none

end Verif.Stream
