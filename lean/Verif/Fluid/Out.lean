import Verif.Fluid.Model
import Mathlib.Tactic.Linarith
import Mathlib.Tactic.NormNum
import Mathlib.Tactic.SplitIfs
/-
C135: the file of initial conditions for vHLLE.
-/
namespace Verif.Fluid
open Verif.Kin Verif.Act

/-! ## Specification -/

/-- The lines a sequence of calls should leave: one for the start and one for the end of every
event, and one for every particle taken out that had interacted; spectators are left out. -/
def linesOf : List Call → List Line
  | [] => []
  | .start ev ens _ :: cs => .start ev ens :: linesOf cs
  | .finish ev ens _ :: cs => .finish ev ens :: linesOf cs
  | .time :: cs => linesOf cs
  | .fluidized p :: cs => if p.ncoll = 0 then linesOf cs else .part p :: linesOf cs

/-- The particles taken out. -/
def taken : List Call → List FP
  | [] => []
  | .fluidized p :: cs => p :: taken cs
  | .start _ _ _ :: cs => taken cs
  | .finish _ _ _ :: cs => taken cs
  | .time :: cs => taken cs

/-- The proper time squared. -/
def tau2 (p : FP) : ℝ := p.pos.t * p.pos.t - p.pos.z * p.pos.z

/-- Every event has one ensemble. -/
def OneEnsemble : Call → Prop
  | .start _ _ n => n = 1
  | .finish _ _ n => n = 1
  | _ => True

/-! ## Theorems -/

theorem run_lines (cs : List Call) : ∀ (o o' : Out), o.run cs = (o', none) →
    o'.lines = o.lines ++ linesOf cs := by
  induction cs with
  | nil => intro o o' h; simp [Out.run] at h; simp [linesOf, ← h]
  | cons c cs ih =>
    intro o o' h
    rw [Out.run] at h
    cases hc : o.call c with
    | mk o1 e =>
      rw [hc] at h
      cases e with
      | some e => simp at h
      | none =>
        have h := ih o1 o' h
        rw [h]
        cases c with
        | start a b n =>
          simp only [Out.call] at hc
          split_ifs at hc <;> simp at hc
          simp [← hc, linesOf]
        | finish a b n =>
          simp only [Out.call] at hc
          split_ifs at hc <;> simp at hc
          simp [← hc, linesOf]
        | time =>
          simp [Out.call] at hc
          simp [← hc, linesOf]
        | fluidized p =>
          simp only [Out.call] at hc
          have hl : o1.lines = (if p.ncoll = 0 then o else { o with lines := o.lines ++ [.part p] }).lines := by
            generalize (if p.ncoll = 0 then o else { o with lines := o.lines ++ [.part p] }) = o2 at hc
            split_ifs at hc <;> simp at hc <;> rw [← hc]
          rw [hl]
          by_cases hz : p.ncoll = 0 <;> simp [hz, linesOf]

/-- Without exception, the file holds exactly the lines it should, in the order of the calls. -/
theorem C135_lines (cs : List Call) (o : Out) (h : Out.init.run cs = (o, none)) :
    o.lines = linesOf cs := by
  simpa [Out.init] using run_lines cs _ _ h

/-- Spectators are never in the file, whatever happens. -/
theorem C135_spectators (cs : List Call) : ∀ (o o' : Out) (e : Option OErr), o.run cs = (o', e) →
    (∀ p, Line.part p ∈ o.lines → p.ncoll ≠ 0) → ∀ p, Line.part p ∈ o'.lines → p.ncoll ≠ 0 := by
  induction cs with
  | nil => intro o o' e h h0; simp [Out.run] at h; rw [← h.1]; exact h0
  | cons c cs ih =>
    intro o o' e h h0
    rw [Out.run] at h
    have step : ∀ p, Line.part p ∈ (o.call c).1.lines → p.ncoll ≠ 0 := by
      cases c with
      | start a b n => simp only [Out.call]; split_ifs <;> simpa using h0
      | finish a b n => simp only [Out.call]; split_ifs <;> simpa using h0
      | time => simpa [Out.call] using h0
      | fluidized q =>
        simp only [Out.call]
        intro p hp
        by_cases hz : q.ncoll = 0
        · apply h0
          simp only [hz, if_true] at hp
          split_ifs at hp <;> exact hp
        · simp only [hz, if_false] at hp
          have : Line.part p ∈ o.lines ++ [Line.part q] := by split_ifs at hp <;> exact hp
          rcases List.mem_append.1 this with h | h
          · exact h0 p h
          · simp at h; rw [h]; exact hz
    cases hc : o.call c with
    | mk o1 e1 =>
      rw [hc] at h step
      cases e1 with
      | some e1 => simp at h; rw [← h.1]; exact step
      | none => exact ih o1 o' e h step

theorem tau_some {p : FP} (h : 0 ≤ tau2 p) : tau p.pos = some (Real.sqrt (tau2 p)) := by
  unfold tau
  unfold tau2 at *
  rw [if_neg (not_lt.2 h)]

theorem tau_none {p : FP} (h : tau2 p < 0) : tau p.pos = none := by
  unfold tau
  unfold tau2 at h
  rw [if_pos h]

theorem run_after (cs : List Call) : ∀ (o : Out) (b : ℝ), o.proper = some b → 0 ≤ b →
    ((∃ o', o.run cs = (o', none)) ↔ (∀ c ∈ cs, OneEnsemble c) ∧
      ∀ q ∈ taken cs, 0 ≤ tau2 q ∧ Real.sqrt (tau2 q) - b < 1 / 1000000) := by
  induction cs with
  | nil => intro o b _ _; simp [Out.run, taken]
  | cons c cs ih =>
    intro o b hb h0
    rw [Out.run]
    cases c with
    | start x y n =>
      simp only [Out.call]
      by_cases hn : n = 1
      · simp only [hn, ne_eq, not_true_eq_false, if_false]
        refine (ih _ b ?_ h0).trans ?_
        · exact hb
        · simp [OneEnsemble, taken]
      · simp [hn, OneEnsemble]
    | finish x y n =>
      simp only [Out.call]
      by_cases hn : n = 1
      · simp only [hn, ne_eq, not_true_eq_false, if_false]
        refine (ih _ b ?_ h0).trans ?_
        · exact hb
        · simp [OneEnsemble, taken]
      · simp [hn, OneEnsemble]
    | time =>
      simp only [Out.call]
      rw [ih _ b hb h0]
      simp [OneEnsemble, taken]
    | fluidized p =>
      simp only [Out.call]
      set o1 := if p.ncoll = 0 then o else { o with lines := o.lines ++ [.part p] } with ho1
      have hp : o1.proper = some b := by rw [ho1]; split_ifs <;> exact hb
      have hneg : negative o1.proper = false := by rw [hp]; simpa [negative] using h0
      rw [hneg]
      simp only [Bool.false_eq_true, if_false]
      have key : notLater (tau p.pos) o1.proper = true ↔
          0 ≤ tau2 p ∧ Real.sqrt (tau2 p) - b < 1 / 1000000 := by
        rw [hp]
        by_cases ht : 0 ≤ tau2 p
        · rw [tau_some ht]; simp [notLater, reallySmall, ht]
        · rw [tau_none (not_le.1 ht)]; simp [notLater, ht]
      by_cases hk : notLater (tau p.pos) o1.proper = true
      · rw [if_pos hk]
        dsimp only
        rw [ih o1 b hp h0]
        simp only [List.forall_mem_cons, OneEnsemble, taken, true_and]
        constructor
        · rintro ⟨a, d⟩; exact ⟨a, key.1 hk, d⟩
        · rintro ⟨a, _, d⟩; exact ⟨a, d⟩
      · rw [if_neg hk]
        simp only [taken, List.forall_mem_cons]
        constructor
        · rintro ⟨o', h⟩; simp at h
        · rintro ⟨_, h, _⟩; exact absurd (key.2 h) hk

/-- When the calls are accepted: one ensemble per event, and no particle taken out has a proper
time later than that of the first one (up to the tolerance). -/
theorem C135_accepted (before after : List Call) (p : FP)
    (hb : taken before = []) (hp : 0 ≤ tau2 p) :
    (∃ o, Out.init.run (before ++ .fluidized p :: after) = (o, none)) ↔
      (∀ c ∈ before, OneEnsemble c) ∧ (∀ c ∈ after, OneEnsemble c) ∧
      ∀ q ∈ taken after, 0 ≤ tau2 q ∧ Real.sqrt (tau2 q) < Real.sqrt (tau2 p) + 1 / 1000000 := by
  have first : ∀ (before : List Call) (o : Out), o.proper = some (-1) → taken before = [] →
      ((∃ o', o.run (before ++ .fluidized p :: after) = (o', none)) ↔
      (∀ c ∈ before, OneEnsemble c) ∧ (∀ c ∈ after, OneEnsemble c) ∧
      ∀ q ∈ taken after, 0 ≤ tau2 q ∧ Real.sqrt (tau2 q) - Real.sqrt (tau2 p) < 1 / 1000000) := by
    intro before
    induction before with
    | nil =>
      intro o ho _
      rw [List.nil_append, Out.run]
      simp only [Out.call]
      set o1 := if p.ncoll = 0 then o else { o with lines := o.lines ++ [.part p] } with ho1
      have hpr : o1.proper = some (-1) := by rw [ho1]; split_ifs <;> exact ho
      have hneg : negative o1.proper = true := by rw [hpr]; simp [negative]
      rw [hneg]
      simp only [if_true]
      rw [run_after after _ (Real.sqrt (tau2 p)) (tau_some hp) (Real.sqrt_nonneg _)]
      simp
    | cons c cs ih =>
      intro o ho ht
      rw [List.cons_append, Out.run]
      cases c with
      | start x y n =>
        simp only [Out.call]
        by_cases hn : n = 1
        · simp only [hn, ne_eq, not_true_eq_false, if_false]
          refine (ih _ ?_ (by simpa [taken] using ht)).trans ?_
          · exact ho
          · simp [OneEnsemble]
        · simp [hn, OneEnsemble]
      | finish x y n =>
        simp only [Out.call]
        by_cases hn : n = 1
        · simp only [hn, ne_eq, not_true_eq_false, if_false]
          refine (ih _ ?_ (by simpa [taken] using ht)).trans ?_
          · exact ho
          · simp [OneEnsemble]
        · simp [hn, OneEnsemble]
      | time =>
        simp only [Out.call]
        rw [ih _ ho (by simpa [taken] using ht)]
        simp [OneEnsemble]
      | fluidized q => simp [taken] at ht
  rw [first before Out.init rfl hb]
  simp only [sub_lt_iff_lt_add']

/-- A particle of the examples, at time `t` in the origin. -/
noncomputable def atTime (t : ℝ) : FP :=
  ⟨0, 0, 1, ⟨t, 0, 0, 0⟩, ⟨1, 0, 0, 0⟩, 0, 0, 1, false, 1, .twoToTwo, 0⟩

/-- Finding: the check that all particles have the same proper time looks only for later ones:
particles taken out at an earlier proper time are accepted. -/
theorem C135_same_time_false : ∃ (cs : List Call) (o : Out), Out.init.run cs = (o, none) ∧
    ∃ p ∈ taken cs, ∃ q ∈ taken cs, 0 ≤ tau2 p ∧ 0 ≤ tau2 q ∧
      Real.sqrt (tau2 q) + 1 ≤ Real.sqrt (tau2 p) := by
  have h := (C135_accepted [.start 0 0 1] [.fluidized (atTime 1), .finish 0 0 1] (atTime 2)
    (by simp [taken]) (by norm_num [tau2, atTime])).2
  have e : ∀ t : ℝ, 0 ≤ t → Real.sqrt (tau2 (atTime t)) = t := by
    intro t ht
    have : tau2 (atTime t) = t * t := by simp [tau2, atTime]
    rw [this, Real.sqrt_mul_self ht]
  obtain ⟨o, ho⟩ := h ⟨by simp [OneEnsemble], by simp [OneEnsemble], by
    simp only [taken, List.mem_singleton, forall_eq]
    rw [e 1 (by norm_num), e 2 (by norm_num)]
    exact ⟨by norm_num [tau2, atTime], by norm_num⟩⟩
  refine ⟨_, o, ho, atTime 2, by simp [taken], atTime 1, by simp [taken], ?_, ?_, ?_⟩
  · norm_num [tau2, atTime]
  · norm_num [tau2, atTime]
  · rw [e 1 (by norm_num), e 2 (by norm_num)]; norm_num

/-- The first particle of a run may even be outside of the light cone, where the proper time is
not a number; after it, every other particle is refused. -/
theorem C135_nan (p q : FP) (hp : tau2 p < 0) :
    (∃ o, Out.init.run [.fluidized p] = (o, none)) ∧
    ∃ o, Out.init.run [.fluidized p, .fluidized q] = (o, some .properTime) := by
  constructor
  · by_cases hz : p.ncoll = 0
    · simp [Out.run, Out.call, Out.init, negative, hz]
    · simp [Out.run, Out.call, Out.init, negative, hz]
  · by_cases hz : p.ncoll = 0 <;> by_cases hz' : q.ncoll = 0 <;>
      simp [Out.run, Out.call, Out.init, negative, hz, hz', tau_none hp, notLater]

end Verif.Fluid
