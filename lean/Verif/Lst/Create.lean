import Mathlib.Tactic.Linarith
import Mathlib.Tactic.Positivity
import Mathlib.Tactic.NormNum
import Mathlib.Tactic.Ring
import Verif.Lst.Model
/-
Particles created from external data are on the mass shell (C83) and start together (C84).
-/
namespace Verif.Lst
open Verif.Kin Verif.Stream

/-- The mass the new particle is meant to have. -/
noncomputable def wantedMass (ty : Ty) (mass : ℝ) : ℝ :=
  if ty.stable = true ∧ 1 / 1000000 < |mass - ty.poleMass| then ty.poleMass else mass

theorem onShell_sqr (m : ℝ) (p : V3) : (onShell m p).sqr = m * m ∧ (onShell m p).vec = p ∧
    0 ≤ (onShell m p).t := by
  have h : 0 ≤ m * m + p.dot p := by
    unfold V3.dot
    nlinarith [mul_self_nonneg m, mul_self_nonneg p.x, mul_self_nonneg p.y, mul_self_nonneg p.z]
  refine ⟨?_, rfl, Real.sqrt_nonneg _⟩
  have e : (onShell m p).sqr = Real.sqrt (m * m + p.dot p) * Real.sqrt (m * m + p.dot p) - p.dot p := rfl
  rw [e, Real.mul_self_sqrt h]
  ring

/-- **C83.** A particle made from external data keeps the given position and three-momentum, and its
energy is such that the squared mass is the wanted one within 10^-6: the mass given, or that of the
species if it is stable and the given one differs by more than 10^-6.  The energy given is changed
only if it has to be. -/
theorem C83_on_shell {ty : Ty} {mass : ℝ} {pos mom : D4} {x p : V4} (hx : pos.get = some x)
    (hp : mom.get = some p) :
    ∃ q, create (some ty) mass pos mom = .ok q ∧ q.pos = x ∧ q.mom.vec = p.vec ∧
      |q.mom.sqr - wantedMass ty mass * wantedMass ty mass| ≤ 1 / 1000000 ∧
      (q.mom ≠ p → q.mom.sqr = wantedMass ty mass * wantedMass ty mass ∧ 0 ≤ q.mom.t) ∧
      ((ty.stable = true → |mass - ty.poleMass| ≤ 1 / 1000000) →
        |p.sqr - mass * mass| ≤ 1 / 1000000 → q.mom = p) ∧
      q.formation = x.t ∧ q.scaling = 1 := by
  refine ⟨⟨x, chooseMom ty mass p, x.t, 1⟩, by unfold create; rw [hx, hp], rfl, ?_⟩
  dsimp only
  unfold chooseMom wantedMass
  by_cases h1 : ty.stable = true ∧ 1 / 1000000 < |mass - ty.poleMass|
  · rw [if_pos h1, if_pos h1]
    obtain ⟨e1, e2, e3⟩ := onShell_sqr ty.poleMass p.vec
    refine ⟨e2, ?_, fun _ => ⟨e1, e3⟩, ?_, rfl, rfl⟩
    · rw [e1, sub_self, abs_zero]; norm_num
    · intro h _
      exact absurd h1.2 (not_lt.2 (h h1.1))
  · rw [if_neg h1, if_neg h1]
    by_cases h2 : 1 / 1000000 < |p.sqr - mass * mass|
    · rw [if_pos h2]
      obtain ⟨e1, e2, e3⟩ := onShell_sqr mass p.vec
      refine ⟨e2, ?_, fun _ => ⟨e1, e3⟩, ?_, rfl, rfl⟩
      · rw [e1, sub_self, abs_zero]; norm_num
      · intro _ h
        exact absurd h2 (not_lt.2 h)
    · rw [if_neg h2]
      exact ⟨rfl, not_lt.1 h2, fun h => absurd rfl h, fun _ _ => rfl, rfl, rfl⟩

/-- **C83.** A particle is refused exactly if a component is not a number (reported as such) or, with
proper components, the species is not known. -/
theorem C83_refused {ty : Option Ty} {mass : ℝ} {pos mom : D4} :
    (create ty mass pos mom = .error .nan ↔ pos.get = none ∨ mom.get = none) ∧
    (create ty mass pos mom = .error .pdgNotFound ↔
      pos.get.isSome ∧ mom.get.isSome ∧ ty = none) := by
  unfold create
  cases pos.get <;> cases mom.get <;> cases ty <;> simp

/-- **C83.** A vector is a number only if all its components are. -/
theorem C83_nan (v : D4) : v.get = none ↔ v.t = none ∨ v.x = none ∨ v.y = none ∨ v.z = none := by
  obtain ⟨t, x, y, z⟩ := v
  cases t <;> cases x <;> cases y <;> cases z <;> simp [D4.get]

/-- **C83 (violated).** The energy of an unstable particle is kept although it is negative, if its
square is right. -/
theorem C83_negative_energy_false :
    ∃ q, create (some ⟨1, false⟩) 1 ⟨some 0, some 0, some 0, some 0⟩ ⟨some (-1), some 0, some 0, some 0⟩ =
      .ok q ∧ q.mom.t = -1 := by
  obtain ⟨q, h, -, -, -, -, h2, -⟩ := C83_on_shell (ty := ⟨1, false⟩) (mass := 1)
    (pos := ⟨some 0, some 0, some 0, some 0⟩) (mom := ⟨some (-1), some 0, some 0, some 0⟩) rfl rfl
  refine ⟨q, h, ?_⟩
  rw [h2 (by simp) (by norm_num [V4.sqr, V4.dot, V3.dot, V4.vec])]

/-! ### Start time -/

theorem timeLoop_spec : ∀ (ps : List SP) (first earliest diff : ℝ), earliest ≤ first → 0 ≤ diff →
    ∃ e d, timeLoop (some (first, earliest, diff)) ps = some (first, e, d) ∧
      e ≤ earliest ∧ (∀ p ∈ ps, e ≤ p.pos.t) ∧ (e = earliest ∨ ∃ p ∈ ps, p.pos.t = e) ∧
      d = diff + (ps.map fun p => |p.pos.t - first|).sum := by
  intro ps
  induction ps with
  | nil => intro f e d _ _; exact ⟨e, d, rfl, le_rfl, by simp, Or.inl rfl, by simp⟩
  | cons p ps ih =>
    intro f e d he hd
    rw [timeLoop]
    obtain ⟨e', d', h1, h2, h3, h4, h5⟩ := ih f (if p.pos.t < e then p.pos.t else e)
      (d + |p.pos.t - f|) (by split_ifs with h <;> linarith) (by positivity)
    have hm : (if p.pos.t < e then p.pos.t else e) ≤ e ∧
        (if p.pos.t < e then p.pos.t else e) ≤ p.pos.t := by
      split_ifs with h
      · exact ⟨h.le, le_rfl⟩
      · exact ⟨le_rfl, not_lt.1 h⟩
    refine ⟨e', d', h1, le_trans h2 hm.1, ?_, ?_, ?_⟩
    · intro q hq
      rcases List.mem_cons.1 hq with rfl | hq
      · exact le_trans h2 hm.2
      · exact h3 q hq
    · rcases h4 with h4 | ⟨q, hq, h4⟩
      · split_ifs at h4 with h
        · exact Or.inr ⟨p, List.mem_cons_self, h4.symm⟩
        · exact Or.inl h4
      · exact Or.inr ⟨q, List.mem_cons_of_mem _ hq, h4⟩
    · rw [h5, List.map_cons, List.sum_cons]; ring

/-- **C84.** The returned start time is the earliest time of the particles read. -/
theorem C84_earliest {ps : List SP} (h : ps ≠ []) :
    (∀ p ∈ ps, (startTogether ps).2 ≤ p.pos.t) ∧ ∃ p ∈ ps, p.pos.t = (startTogether ps).2 := by
  cases ps with
  | nil => exact absurd rfl h
  | cons p ps =>
    obtain ⟨e, d, h1, h2, h3, h4, -⟩ := timeLoop_spec ps p.pos.t p.pos.t 0 le_rfl le_rfl
    have hs : (startTogether (p :: ps)).2 = e := by
      unfold startTogether
      rw [timeLoop, h1]
      dsimp only
      split_ifs <;> rfl
    rw [hs]
    constructor
    · intro q hq
      rcases List.mem_cons.1 hq with rfl | hq
      · exact h2
      · exact h3 q hq
    · rcases h4 with h4 | ⟨q, hq, h4⟩
      · exact ⟨p, List.mem_cons_self, h4.symm⟩
      · exact ⟨q, List.mem_cons_of_mem _ hq, h4⟩

theorem le_sum_of_mem {f : SP → ℝ} (h : ∀ x, 0 ≤ f x) {l : List SP} {x : SP} (hx : x ∈ l) :
    f x ≤ (l.map f).sum := by
  induction l with
  | nil => cases hx
  | cons y l ih =>
    rw [List.map_cons, List.sum_cons]
    have hl : 0 ≤ (l.map f).sum := List.sum_nonneg fun z hz => by
      obtain ⟨w, -, rfl⟩ := List.mem_map.1 hz
      exact h w
    rcases List.mem_cons.1 hx with rfl | hx
    · linarith
    · linarith [ih hx, h y]

theorem pair_le_sum {f : SP → ℝ} (h : ∀ x, 0 ≤ f x) {l : List SP} {x y : SP} (hx : x ∈ l)
    (hy : y ∈ l) (hne : x ≠ y) : f x + f y ≤ (l.map f).sum := by
  induction l with
  | nil => cases hx
  | cons z l ih =>
    rw [List.map_cons, List.sum_cons]
    rcases List.mem_cons.1 hx with rfl | hx'
    · rcases List.mem_cons.1 hy with rfl | hy'
      · exact absurd rfl hne
      · linarith [le_sum_of_mem h hy']
    · rcases List.mem_cons.1 hy with rfl | hy'
      · linarith [le_sum_of_mem h hx']
      · linarith [ih hx' hy', h z]

/-- **C84.** After reading, either every particle was moved back in a straight line to the start time,
or nothing was changed and all times are within 10^-6 of it. -/
theorem C84_together {ps : List SP} (h : ps ≠ []) :
    ((startTogether ps).1 = backpropagate (startTogether ps).2 ps ∧
      ∀ p ∈ (startTogether ps).1, p.pos.t = (startTogether ps).2) ∨
    ((startTogether ps).1 = ps ∧ ∀ p ∈ ps, |p.pos.t - (startTogether ps).2| ≤ 1 / 1000000) := by
  have hmin := C84_earliest h
  cases ps with
  | nil => exact absurd rfl h
  | cons p ps =>
    obtain ⟨e, d, h1, h2, h3, h4, h5⟩ := timeLoop_spec ps p.pos.t p.pos.t 0 le_rfl le_rfl
    have e1 : startTogether (p :: ps) =
        if d > 1 / 1000000 then (backpropagate e (p :: ps), e) else (p :: ps, e) := by
      unfold startTogether
      rw [timeLoop, h1]
    rw [e1] at hmin ⊢
    by_cases hd : d > 1 / 1000000
    · rw [if_pos hd]
      refine Or.inl ⟨rfl, ?_⟩
      intro q hq
      unfold backpropagate at hq
      obtain ⟨r, -, rfl⟩ := List.mem_map.1 hq
      rfl
    · rw [if_neg hd] at hmin ⊢
      refine Or.inr ⟨rfl, ?_⟩
      dsimp only at hmin ⊢
      have hsum : ((p :: ps).map fun q => |q.pos.t - p.pos.t|).sum = d := by
        rw [List.map_cons, List.sum_cons, sub_self, abs_zero, h5]
      obtain ⟨r, hr, hre⟩ := hmin.2
      intro q hq
      by_cases hqr : q = r
      · rw [hqr, hre, sub_self, abs_zero]; norm_num
      · have hp := pair_le_sum (f := fun q => |q.pos.t - p.pos.t|) (fun _ => abs_nonneg _) hq hr hqr
        rw [hsum] at hp
        have h6 := abs_sub_abs_le_abs_sub (q.pos.t - p.pos.t) (r.pos.t - p.pos.t)
        have h7 : |q.pos.t - e| ≤ |q.pos.t - p.pos.t| + |r.pos.t - p.pos.t| := by
          rw [← hre, show q.pos.t - r.pos.t = (q.pos.t - p.pos.t) - (r.pos.t - p.pos.t) by ring]
          exact abs_sub _ _
        linarith [not_lt.1 hd]

/-- The two cases occur. -/
example (p q : SP) (hp : p.pos.t = 1) (hq : q.pos.t = 3) :
    (startTogether [p, q]) = (backpropagate 1 [p, q], 1) := by
  have : |(3 : ℝ) - 1| = 2 := by norm_num
  simp only [startTogether, timeLoop, hp, hq]
  norm_num

/-- **C84.** Without particles the start time is zero. -/
theorem C84_empty : startTogether [] = ([], 0) := rfl

/-! ### Validation -/

/-- **C84.** A list of particles is refused exactly if three of them have the same printed position. -/
theorem C84_validation {K : Type} [DecidableEq K] (keys : List K) :
    tooMany keys = true ↔ ∃ k, 3 ≤ keys.count k := by
  unfold tooMany
  rw [List.any_eq_true]
  constructor
  · rintro ⟨k, -, h⟩
    exact ⟨k, Nat.succ_le_of_lt (by simpa using h)⟩
  · rintro ⟨k, h⟩
    refine ⟨k, ?_, by simpa using Nat.lt_of_succ_le h⟩
    rw [List.mem_dedup]
    exact List.count_pos_iff.1 (by omega)

end Verif.Lst
