import Verif.Kin.Model
import Verif.Pdg.Model
import Mathlib.Analysis.SpecialFunctions.Pow.Real
/-
Model of action.h/action.cc (channel selection, conservation check, phase-space sampling,
history), the parts of scatteraction.cc that handle channel weights, quantumnumbers.h,
processbranch.h (process types) and particledata.cc (history, cross-section scaling).
-/
namespace Verif.Act
open Verif.Kin

/-- `ProcessType`, processbranch.h:39-90. -/
inductive PType where
  | none | elastic | twoToOne | twoToTwo | twoToThree | twoToFour | twoToFive | decay | wall
  | thermalization | fluidization | fluidizationNoRemoval | bremsstrahlung | multi3MesonsToOne
  | multi3To2 | multi4To2 | multi5To2 | stringAX | stringXB | stringDD | stringAnn | stringND
  | stringHard | failedString | freeforall
  deriving DecidableEq, Repr

/-- The integer values of the enumerators, processbranch.h:39-90. -/
def PType.code : PType → Nat
  | none => 0 | elastic => 1 | twoToOne => 2 | twoToTwo => 3 | twoToThree => 4 | twoToFour => 15
  | twoToFive => 13 | decay => 5 | wall => 6 | thermalization => 7 | fluidization => 8
  | fluidizationNoRemoval => 21 | bremsstrahlung => 9 | multi3MesonsToOne => 10 | multi3To2 => 11
  | multi4To2 => 14 | multi5To2 => 12 | stringAX => 41 | stringXB => 42 | stringDD => 43
  | stringAnn => 44 | stringND => 45 | stringHard => 46 | failedString => 47 | freeforall => 90

/-- `is_string_soft_process`, processbranch.cc:18-24. -/
def isStringSoft (p : PType) : Bool :=
  p == .stringAX || p == .stringXB || p == .stringDD || p == .stringAnn || p == .stringND

/-! ### Channel selection -/

/-- A channel: an identification (which channel it is) and its weight. -/
structure Chan (α : Type) where
  (id : Nat) (w : α)

/-- List of channels and accumulated total. -/
structure Chans (α : Type) where
  (list : List (Chan α)) (total : α)

section
variable {α : Type} [LinearOrder α] [Zero α]

/-- `add_process`, action.h:140-148; `add` is the (rounded) addition of doubles. -/
def addProcess (add : α → α → α) (s : Chans α) (p : Chan α) : Chans α :=
  if p.w > 0 then ⟨s.list ++ [p], add s.total p.w⟩ else s

/-- `add_processes`, action.h:157-168. -/
def addProcesses (add : α → α → α) (s : Chans α) (ps : List (Chan α)) : Chans α :=
  ps.foldl (addProcess add) s

/-- The loop of `choose_channel`, action.h:420-428. -/
def chooseLoop (add : α → α → α) (r : α) : α → List (Chan α) → Option (Chan α)
  | _, [] => none
  | sum, p :: ps =>
    let sum' := add sum p.w
    if r ≤ sum' then some p else chooseLoop add r sum' ps

/-- `choose_channel`, action.h:415-435, with the random number drawn; `none`: abort. -/
def chooseChannel (add : α → α → α) (l : List (Chan α)) (r : α) : Option (Chan α) :=
  chooseLoop add r 0 l
end

/-- Channels of a `ScatterAction`: list, sum of partial cross sections and, if the total is
parametrised, its value (scatteraction.h:275-335). -/
structure Scatter where
  (chans : Chans ℝ) (param : Option ℝ)

/-- `rescale_outgoing_branches`, scatteraction.cc:200-239 (`really_small` = 1e-6). -/
noncomputable def rescale (s : Scatter) (elasticId : Nat) : Scatter :=
  match s.param with
  | none => s
  | some tot =>
    if s.chans.total < 1 / 1000000 then
      { s with chans := addProcess (· + ·) s.chans ⟨elasticId, tot⟩ }
    else
      let f := tot / s.chans.total
      { s with chans := { s.chans with list := s.chans.list.map fun c => { c with w := c.w * f } } }

/-- The total weight `generate_final_state` passes to `choose_channel`,
scatteraction.cc:60-63. -/
def Scatter.drawTotal (s : Scatter) : ℝ := s.param.getD s.chans.total

/-- `get_total_weight` without the scaling factors of the incoming particles,
scatteraction.cc:324-328. -/
def Scatter.totalWeight (s : Scatter) : ℝ := s.chans.total

/-! ### Conservation -/

/-- What `add_values` (quantumnumbers.h:128-136) reads from a particle, and whether its type
is stable. -/
structure Part where
  (mom : Q4) (pdg : Nat) (stable : Bool)

/-- Addition of doubles (exact for finite ones). -/
def Dbl.add (x y : Dbl) : Dbl :=
  match x, y with
  | some x, some y => some (x + y)
  | _, _ => none

/-- `FourVector::operator+=`, fourvector.h:360-367. -/
def Q4.add (a b : Q4) : Q4 := ⟨Dbl.add a.t b.t, Dbl.add a.x b.x, Dbl.add a.y b.y, Dbl.add a.z b.z⟩

/-- `QuantumNumbers`, quantumnumbers.h:53-63, 262-300. -/
structure QN where
  (mom : Q4) (charge isospin3 strangeness charmness bottomness baryon : Int)

/-- The default constructor, quantumnumbers.h:56-63. -/
def QN.zero : QN := ⟨⟨some 0, some 0, some 0, some 0⟩, 0, 0, 0, 0, 0, 0⟩

/-- `add_values`, quantumnumbers.h:128-136. -/
def QN.addValues (q : QN) (p : Part) : QN :=
  ⟨Q4.add q.mom p.mom, q.charge + Pdg.charge p.pdg, q.isospin3 + Pdg.isospin3 p.pdg,
    q.strangeness + Pdg.strangeness p.pdg, q.charmness + Pdg.charmness p.pdg,
    q.bottomness + Pdg.bottomness p.pdg, q.baryon + Pdg.baryonNumber p.pdg⟩

/-- `QuantumNumbers(const ParticleList&)`, quantumnumbers.h:118-122. -/
def QN.ofList (l : List Part) : QN := l.foldl QN.addValues QN.zero

/-- `operator==`, quantumnumbers.h:205-210. -/
def QN.eq (a b : QN) : Bool :=
  Q4.eq a.mom b.mom && a.charge == b.charge && a.isospin3 == b.isospin3 &&
  a.strangeness == b.strangeness && a.charmness == b.charmness &&
  a.bottomness == b.bottomness && a.baryon == b.baryon

/-- Outcomes of `check_conservation`. -/
inductive Check where
  | returned (violation : Dbl)
  | threw
  | ub
  deriving DecidableEq

/-- `check_conservation`, action.cc:484-538. -/
def checkConservation (t : PType) (inc out : List Part) : Check :=
  let before := QN.ofList inc
  let after := QN.ofList out
  if !QN.eq before after then
    if isStringSoft t || t == .stringHard then
      .returned (Dbl.add after.mom.t (before.mom.t.map (-·)))
    else if t == .decay then
      match inc with
      | [] => .ub
      | p :: _ => if p.stable then .returned (some 0) else .threw
    else if t == .freeforall then .returned (some 0)
    else .threw
  else .returned (some 0)

/-! ### Phase space -/

/-- `set_4momentum(mass, mom)`, particledata.h:187-189. -/
noncomputable def onShell (m : ℝ) (p : V3) : V4 := V4.mk' (Real.sqrt (m * m + p.dot p)) p

/-- `sample_angles`, action.cc:282-303, for the direction `u` drawn by
`distribute_isotropically`. -/
noncomputable def sampleAngles (m1 m2 ecm : ℝ) (u : V3) : V4 × V4 :=
  let pcm := pCM ecm m1 m2
  (onShell m1 (u.smul pcm), onShell m2 (u.neg.smul pcm))

/-- `std::partial_sum` of the masses, action.cc:340-341. -/
def msum (m : ℕ → ℝ) : ℕ → ℝ
  | 0 => m 0
  | i + 1 => msum m i + m (i + 1)

/-- The vector `Minv` before the shift by `msum`: 0, the `n - 2` random numbers and
`sqrts - msum_all`, sorted, action.cc:374-379. -/
noncomputable def sortedT (x : ℝ) (us : List ℝ) : List ℝ :=
  (0 :: us ++ [x]).mergeSort (fun a b => decide (a ≤ b))

/-- `Minv`, action.cc:374-382, for `n = us.length + 2` particles. -/
noncomputable def minv (sqrts : ℝ) (m : ℕ → ℝ) (us : List ℝ) (i : ℕ) : ℝ :=
  (sortedT (sqrts - msum m (us.length + 1)) us).getD i 0 + msum m i

/-- Momenta before the boosts, action.cc:407-423: `u i` is the direction drawn for `i ≥ 1`. -/
noncomputable def initialMomenta (M m : ℕ → ℝ) (u : ℕ → V3) (i : ℕ) : V4 :=
  if i = 0 then
    let pcm := pCM (M 1) (M 0) (m 1)
    V4.mk' (Real.sqrt (m 0 * m 0 + pcm * pcm)) ((u 1).smul (-pcm))
  else
    let pcm := pCM (M i) (M (i - 1)) (m i)
    V4.mk' (Real.sqrt (m i * m i + pcm * pcm)) ((u i).smul pcm)

/-- `beta[i]`, action.cc:415-418 with `i + 2` in place of `i`. -/
noncomputable def betaOf (M m : ℕ → ℝ) (u : ℕ → V3) (i : ℕ) : V3 :=
  let pcm := pCM (M (i + 2)) (M (i + 1)) (m (i + 2))
  ((u (i + 2)).smul pcm).div (Real.sqrt (pcm * pcm + M (i + 1) * M (i + 1)))

/-- Boosting the first `i + 2` particles, action.cc:435-438. -/
noncomputable def boostFirst (p : ℕ → V4) (i : ℕ) (b : V3) (j : ℕ) : V4 :=
  if j ≤ i + 1 then boost (p j) b else p j

/-- The loop over `i`, action.cc:425-439, up to `k` iterations. -/
noncomputable def boostLoop (M m : ℕ → ℝ) (u : ℕ → V3) : ℕ → ℕ → V4
  | 0 => initialMomenta M m u
  | k + 1 => boostFirst (boostLoop M m u k) k (betaOf M m u k)

/-- `sample_manybody_phasespace_impl`, action.cc:316-447, for `n = us.length + 2` particles with
masses `m 0, …`: `us` are the random numbers of the accepted attempt (action.cc:376-378) and `u`
the directions. `none`: not enough energy (action.cc:344-352). The rejection loop only decides
which `us` is used. -/
noncomputable def manyBody (sqrts : ℝ) (m : ℕ → ℝ) (us : List ℝ) (u : ℕ → V3) : Option (ℕ → V4) :=
  if sqrts ≤ msum m (us.length + 1) then none
  else some (boostLoop (minv sqrts m us) m u us.length)

/-- Boost of the outgoing particles to the computational frame,
scatteraction.cc:112-114, decayaction.cc: every momentum is boosted by minus the velocity of
the total momentum. -/
noncomputable def toLab (ptot p : V4) : V4 := boost p ptot.velocity.neg

/-! ### History and cross-section scaling -/

/-- `HistoryData`, particledata.h:31-49. -/
structure Hist where
  (ncoll : Int) (pid : Nat) (ptype : PType) (time : Option ℚ) (p1 p2 : Nat)
  deriving DecidableEq

/-- `set_history`, particledata.cc:35-86; `parents` are the PDG codes of the incoming
particles. `none`: read beyond the end of the list. -/
def setHistory (h : Hist) (ncoll : Int) (pid : Nat) (pt : PType) (time : Option ℚ)
    (parents : List Nat) : Option Hist :=
  let h := if pt ≠ .wall ∧ pt ≠ .fluidizationNoRemoval then
    { h with ncoll := ncoll, time := time } else h
  let h := { h with pid := pid, ptype := pt }
  match pt with
  | .decay | .wall => do
    let a ← parents[0]?
    pure { h with p1 := a, p2 := 0 }
  | .elastic | .failedString | .fluidization | .fluidizationNoRemoval => pure h
  | .twoToOne | .twoToTwo | .twoToThree | .twoToFour | .twoToFive | .stringAX | .stringXB
  | .stringDD | .stringAnn | .stringND | .stringHard | .bremsstrahlung => do
    let a ← parents[0]?
    let b ← parents[1]?
    pure { h with p1 := a, p2 := b }
  | .thermalization | .multi3MesonsToOne | .multi3To2 | .multi4To2 | .multi5To2 | .freeforall
  | .none => pure { h with p1 := 0, p2 := 0 }

/-- The history part of `Action::perform`, action.cc:131-139. -/
def performHistory (t : PType) (pid : Nat) (time : Option ℚ) (parents : List Nat) (h : Hist) :
    Option Hist :=
  if t ≠ .wall ∧ t ≠ .fluidizationNoRemoval then setHistory h (h.ncoll + 1) pid t time parents
  else some h

/-- `replace` in `Action::perform`, action.cc:144-146. -/
def performReplaces (t : PType) : Bool := t != .elastic && t != .wall && t != .fluidizationNoRemoval

/-- `xsec_scaling_factor`, particledata.cc:125-166, at time `t`, for formation times that are
numbers. -/
noncomputable def xsecScaling (init tBegin tForm power t : ℝ) : ℝ :=
  if power ≤ 0 then
    if t < tForm then init else 1
  else if tForm ≤ t then 1
  else if tBegin ≥ t then init
  else init + (1 - init) * Real.rpow ((t - tBegin) / (tForm - tBegin)) power

/-- `set_unpolarized_spin_vector`, particledata.cc:88-123, for massive particles with spin; `s`
are the three normally distributed numbers. -/
noncomputable def unpolarizedSpin (p : V4) (s : V3) : V4 := boost (V4.mk' 0 s) p.velocity

end Verif.Act
