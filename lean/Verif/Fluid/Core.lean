import Verif.Fluid.Model
import Mathlib.Tactic.SplitIfs
import Mathlib.Tactic.Tauto
/-
C133: core particles stay core, hand it on to what they produce, and meet the others only in
elastic collisions.
-/
namespace Verif.Fluid
open Verif.Kin Verif.Act

/-! ## Specification -/

/-- A particle as the specification sees it: the flag of the program, and whether it or one of its
ancestors was made fluid. -/
structure Tagged where
  flag : Bool
  fluid : Bool

/-- Ancestry: who of the outgoing particles descends from fluid. In an elastic collision the
particles stay what they are, a fluidization makes its particle fluid, and everything else
descends from all incoming particles. -/
def descends (k : Kind) (inc : List Bool) (n : Nat) : List Bool :=
  match k with
  | .scatter .elastic => inc
  | .fluidize => inc.map fun _ => true
  | _ => List.replicate n (inc.any fun b => b)

/-- One action: the particles before are `others` and `inc` (in whatever order), `n` the number of
outgoing ones where it is not fixed. -/
inductive Step : List Tagged → List Tagged → Prop where
  | act (k : Kind) (before others inc after : List Tagged) (n : Nat)
      (perm : before.Perm (inc ++ others))
      (single : k = .decay ∨ k = .fluidize → inc.length = 1)
      (nonempty : inc ≠ [])
      (flags : (after.map Tagged.flag) = coresOut k (inc.map Tagged.flag) n)
      (fluids : (after.map Tagged.fluid) = descends k (inc.map Tagged.fluid) n)
      (notMulti : k ≠ .multi) : Step before (after ++ others)

/-- Histories. -/
inductive Run (s : List Tagged) : List Tagged → Prop where
  | start : Run s s
  | step {t u : List Tagged} : Run s t → Step t u → Run s u

/-! ## Theorems -/

theorem coresOut_eq (k : Kind) (l : List Bool) (n : Nat) (hk : k ≠ .multi)
    (hs : k = .decay ∨ k = .fluidize → l.length = 1) : coresOut k l n = descends k l n := by
  cases k with
  | scatter t =>
    unfold coresOut descends
    cases t <;> simp <;> exact .inr rfl
  | decay =>
    match l, hs (by simp) with
    | [b], _ => simp [coresOut, descends]
  | multi => exact absurd rfl hk
  | fluidize =>
    match l, hs (by simp) with
    | [b], _ => simp [coresOut, descends]

theorem tagged_eq {a : List Tagged} (h : ∀ p ∈ a, p.flag = p.fluid) :
    a.map Tagged.flag = a.map Tagged.fluid := List.map_congr_left h

/-- In every history of scatterings, decays and fluidizations, starting without fluid, the flag
says exactly whether the particle or one of its ancestors was made fluid: it is never lost and
nothing else gets it. -/
theorem C133_inherited (s t : List Tagged) (h : Run s t) (h0 : ∀ p ∈ s, p.flag = p.fluid) :
    ∀ p ∈ t, p.flag = p.fluid := by
  induction h with
  | start => exact h0
  | step _ st ih =>
    cases st with
    | act k before others inc after n perm single nonempty flags fluids notMulti =>
      have hinc : ∀ p ∈ inc, p.flag = p.fluid := fun p hp =>
        ih p (perm.mem_iff.2 (by simp [hp]))
      have hoth : ∀ p ∈ others, p.flag = p.fluid := fun p hp =>
        ih p (perm.mem_iff.2 (by simp [hp]))
      rw [coresOut_eq k _ n notMulti (by simpa using single), tagged_eq hinc, ← fluids] at flags
      intro p hp
      rcases List.mem_append.1 hp with hp | hp
      · obtain ⟨i, hi, rfl⟩ := List.getElem_of_mem hp
        have h1 : (after.map Tagged.flag)[i]? = (after.map Tagged.fluid)[i]? := by rw [flags]
        simpa [hi] using h1
      · exact hoth p hp

/-- Finding: multi-particle reactions lose it: their products are not core even if all incoming
particles are. -/
theorem C133_multi_false : ∃ (cores : List Bool) (n : Nat), (∀ b ∈ cores, b = true) ∧
    cores.length = 3 ∧ coreGate (some .multi3To2) cores = .ok true ∧
    coresOut .multi cores n = [false, false] :=
  ⟨[true, true, true], 2, by simp, rfl, rfl, rfl⟩

/-- When the type of the action is known: it goes on unless it would make a core particle fluid
again, or mixes core and others in something other than an elastic collision. -/
theorem C133_gate (t : PType) (cores : List Bool) :
    coreGate (some t) cores = .ok true ↔
      (∃ b ∈ cores, b = true) → t ≠ .fluidizationNoRemoval ∧
        (t ≠ .elastic → ∀ b ∈ cores, b = true) := by
  unfold coreGate
  by_cases h : cores.any id = true
  · rw [if_pos h]
    have h' : ∃ b ∈ cores, b = true := by simpa using h
    dsimp only
    split_ifs with h1 h2
    · simp [h1]; simpa using h
    · have : (Except.ok (cores.all id) : Except Err Bool) = .ok true ↔ ∀ b ∈ cores, b = true := by
        simp
      rw [this]
      exact ⟨fun a _ => ⟨h1, fun _ => a⟩, fun a => (a h').2 h2⟩
    · simp only [true_iff]
      exact fun _ => ⟨h1, fun h3 => absurd h3 h2⟩
  · rw [if_neg h]
    simp only [true_iff]
    intro h'
    exact absurd (by simpa using h') h

/-- Without core particles every action goes on, without reading the type. -/
theorem C133_no_core (t : Option PType) (cores : List Bool) (h : ∀ b ∈ cores, b = false) :
    coreGate t cores = .ok true := by
  unfold coreGate
  rw [if_neg]
  intro hh
  obtain ⟨b, hb, e⟩ := List.any_eq_true.1 hh
  rw [h b hb] at e
  simp at e

/-- Finding: scatterings and decays have no type at this point: with a core particle among the
incoming ones an uninitialised member is read. -/
theorem C133_uninitialised (cores : List Bool) (h : ∃ b ∈ cores, b = true) :
    coreGate none cores = .error .uninitialised := by
  unfold coreGate
  rw [if_pos (by simpa using h)]

/-- Whatever that memory holds: an elastic collision of a core particle with another particle is
carried out only if it happens to hold the number of `Elastic`. -/
theorem C133_garbage (g : PType) :
    coreGate (some g) [true, false] = .ok true ↔ g = .elastic := by
  rw [C133_gate]
  constructor
  · intro h
    by_contra h'
    simpa using (h ⟨true, by simp, rfl⟩).2 h' false (by simp)
  · rintro rfl
    simp

/-- A fluidization without removal keeps the particle and everything about it, except that it is
core afterwards; its history does not change. With removal the particle is gone. -/
theorem C133_fluidize (p : FP) (time : ℝ) :
    (fluidizeOut false p).map (performed .fluidizationNoRemoval time) = [{ p with core := true }] ∧
    fluidizeOut true p = [] := by
  simp [fluidizeOut, performed]

/-- The check after it accepts exactly that: nothing left with removal; without, one particle and
the same quantum numbers. -/
theorem C133_check (remove : Bool) (same : List FP → List FP → Bool) (inc out : List FP) :
    fluidizeCheck remove same inc out = .ok () ↔
      if remove = true then out = [] else same inc out = true ∧ out ≠ [] := by
  unfold fluidizeCheck
  cases remove <;> simp
  · split_ifs with h1 h2 <;> simp_all

/-- The program's own fluidizations pass the check. -/
theorem C133_check_passes (remove : Bool) (same : List FP → List FP → Bool) (p : FP)
    (hs : ∀ q : FP, same [q] [{ q with core := true }] = true) :
    fluidizeCheck remove same [p] (fluidizeOut remove p) = .ok () := by
  rw [C133_check]
  cases remove <;> simp [fluidizeOut, hs]

/-- A history: one particle becomes fluid and then scatters inelastically with another core
particle. -/
example : ∃ s t : List Tagged, Run s t ∧ (∀ p ∈ s, p.flag = p.fluid) ∧ ∃ p ∈ t, p.flag = true := by
  let a : Tagged := ⟨false, false⟩
  let b : Tagged := ⟨true, true⟩
  refine ⟨[a, a], [b, b, b], .step (.step (.step .start
    (.act .fluidize [a, a] [a] [a] [b] 0 (.refl _) (by simp) (by simp) rfl rfl (by simp)))
    (.act .fluidize [b, a] [b] [a] [b] 0 (List.Perm.swap _ _ _) (by simp) (by simp) rfl rfl
      (by simp)))
    (.act (.scatter .twoToThree) [b, b] [] [b, b] [b, b, b] 3 (.refl _) (by simp) (by simp) rfl rfl
      (by simp)), ?_, ?_⟩
  · simp [a]
  · exact ⟨b, by simp, rfl⟩

end Verif.Fluid
