import Mathlib.Tactic.Linarith
import Mathlib.Tactic.NormNum
import Mathlib.Tactic.FieldSimp
import Mathlib.Tactic.Ring
import Mathlib.Algebra.Order.Field.Basic
import Verif.Icb.Model
/-!
C186: the books of an event and the checks at its end.
-/
namespace Verif.Icb

theorem perform_valid {lattice : Bool} {s t : St} {a : Act} (hv : a.inc ≤ s.parts) (h : perform lattice s a = some t) :
    ∃ v, (if lattice then some 0 else check a) = some v ∧ t.parts = s.parts - a.inc + a.out ∧ t.initial = s.initial ∧
      t.violated = s.violated + v ∧ t.total = s.total + 1 ∧ t.discarded = s.discarded ∧
      t.walls = s.walls + (if a.kind = .wall then 1 else 0) ∧ t.crossings = s.crossings + (if a.kind = .fluid then 1 else 0) ∧
      t.removed = s.removed + (if a.kind = .fluid then a.inc.sum else 0) := by
  unfold perform at h
  rw [if_pos hv] at h
  cases hc : (if lattice then some 0 else check a) with
  | none => rw [hc] at h; simp at h
  | some v =>
    rw [hc] at h
    simp only [Option.map_some, Option.some.injEq] at h
    refine ⟨v, rfl, ?_⟩
    rw [← h]
    cases a.kind <;> simp

theorem perform_invalid {lattice : Bool} {s t : St} {a : Act} (hv : ¬ a.inc ≤ s.parts) (h : perform lattice s a = some t) :
    t = { s with discarded := s.discarded + 1 } := by
  unfold perform at h
  rw [if_neg hv] at h
  exact (Option.some.inj h).symm

theorem run_induct {lattice : Bool} {P : St → Prop} (as : List Act) (hstep : ∀ s t, ∀ a ∈ as, P s → perform lattice s a = some t → P t)
    {s t : St} (h0 : P s) (h : run lattice s as = some t) : P t := by
  induction as generalizing s with
  | nil => exact Option.some.inj h ▸ h0
  | cons a as ih =>
    unfold run at h
    cases hp : perform lattice s a with
    | none => rw [hp] at h; simp at h
    | some u =>
      rw [hp] at h
      exact ih (fun s t b hb => hstep s t b (List.mem_cons_of_mem _ hb)) (hstep s u a List.mem_cons_self h0 hp) h

theorem sum_update {P i o : Multiset ℚ} (h : i ≤ P) : (P - i + o).sum = P.sum - i.sum + o.sum := by
  obtain ⟨r, rfl⟩ := Multiset.le_iff_exists_add.1 h
  rw [add_tsub_cancel_left, Multiset.sum_add, Multiset.sum_add]; ring

/-- Actions whose energy is accounted for: not the decays of stable particles and the changes from outside that create or destroy energy. -/
def Accounted (a : Act) : Prop := a.kind = .weakDecay ∨ a.kind = .freeforall → a.inc.sum = a.out.sum

/-- **C186**, balance: after any history of actions the energy of the particles and the energy removed at the hypersurface make up the energy at the beginning and
the energy violated by PYTHIA, if potentials do not affect thresholds and no energy is created or destroyed by decays of stable particles or from outside. -/
theorem C186_balance (parts : Multiset ℚ) (as : List Act) (t : St) (ha : ∀ a ∈ as, Accounted a) (h : run false (start parts) as = some t) :
    t.parts.sum + t.removed = parts.sum + t.violated ∧ t.initial = parts.sum := by
  refine run_induct (P := fun t => t.parts.sum + t.removed = parts.sum + t.violated ∧ t.initial = parts.sum) as ?_ (by simp [start]) h
  rintro s t a hm ⟨hs, hi⟩ hp
  by_cases hv : a.inc ≤ s.parts
  · obtain ⟨v, hc, h1, h2, h3, -, -, -, -, h7⟩ := perform_valid hv hp
    rw [h1, h2, h3, h7, sum_update hv]
    refine ⟨?_, hi⟩
    have hacc := ha a hm
    unfold Accounted at hacc
    simp only [Bool.false_eq_true, if_false] at hc
    unfold check at hc
    cases hk : a.kind <;> rw [hk] at hc hacc <;> simp only at hc
    case fluid =>
      split_ifs at hc with h0
      · cases hc
        rw [h0]; simp; linarith
    all_goals
      simp only [reduceCtorEq, or_false, false_or, or_true, or_self, true_imp_iff, if_false, false_imp_iff, imp_true_iff] at hacc ⊢
      split_ifs at hc with h0 <;> simp only [Option.some.injEq, reduceCtorEq] at hc
      all_goals first
        | (obtain ⟨h0, -⟩ := h0; linarith)
        | linarith
  · rw [perform_invalid hv hp]; exact ⟨hs, hi⟩

/-- **C186**, no false alarm: if in such an event all particles are removed, the check at the end passes. -/
theorem C186_no_alarm (parts : Multiset ℚ) (as : List Act) (t : St) (ha : ∀ a ∈ as, Accounted a) (h : run false (start parts) as = some t)
    (h0 : t.parts = 0) (stoch : Bool) : report true stoch t = .hypersurface (t.total - t.walls - t.crossings) t.crossings := by
  obtain ⟨hb, hi⟩ := C186_balance parts as t ha h
  rw [h0, Multiset.sum_zero, zero_add] at hb
  have hd : deviates (t.initial + t.violated) t.removed = false := by
    unfold deviates
    rw [hi, ← hb]
    split_ifs with hr
    · simp [hr]
    · rw [div_self hr]; simp [reallySmall]
  unfold report
  rw [if_pos ⟨rfl, by rw [h0]; rfl⟩, hd]
  simp

/-- **C186**, alarm: the exception is thrown exactly in runs for initial conditions without particles left, if the energy that should have been removed differs
from the energy that was by more than a millionth of the latter. -/
theorem C186_alarm (ic stoch : Bool) (s : St) : report ic stoch s = .remaining ↔
    ic = true ∧ s.parts = 0 ∧ 1 / 1000000 * |s.removed| < |s.initial + s.violated - s.removed| := by
  have hd : ∀ x y : ℚ, deviates x y = true ↔ 1 / 1000000 * |y| < |x - y| := by
    intro x y
    unfold deviates
    split_ifs with hy
    · simp [hy]
    · have hp : 0 < |y| := abs_pos.2 hy
      have : x / y - 1 = (x - y) / y := by field_simp
      rw [decide_eq_true_iff, this, abs_div, lt_div_iff₀ hp, reallySmall]
  unfold report
  by_cases hc : ic = true ∧ s.parts.card = 0
  · rw [if_pos hc]
    rw [← hd]
    cases hv : deviates (s.initial + s.violated) s.removed
    · simp
    · simp [hc.1, Multiset.card_eq_zero.1 hc.2]
  · rw [if_neg hc]
    constructor
    · intro h; cases h
    · rintro ⟨h1, h2, -⟩
      exact absurd ⟨h1, by rw [h2]; rfl⟩ hc

/-- **C186**, counters: the actions performed are a part of the actions tried, in their order; they are counted once each, wall crossings and removals at the
hypersurface also in their own counters, the energy removed is that of the removed particles, and all other actions count as discarded. -/
theorem C186_counters (lattice : Bool) (parts : Multiset ℚ) (as : List Act) (t : St) (h : run lattice (start parts) as = some t) :
    ∃ done : List Act, done.Sublist as ∧ t.total = done.length ∧ t.total + t.discarded = as.length ∧
      t.walls = (done.filter fun a => decide (a.kind = .wall)).length ∧ t.crossings = (done.filter fun a => decide (a.kind = .fluid)).length ∧
      t.removed = ((done.filter fun a => decide (a.kind = .fluid)).map fun a => a.inc.sum).sum := by
  have key : ∀ (as : List Act) (s t : St), run lattice s as = some t → ∃ done : List Act, done.Sublist as ∧ t.total = s.total + done.length ∧
      t.total + t.discarded = s.total + s.discarded + as.length ∧
      t.walls = s.walls + (done.filter fun a => decide (a.kind = .wall)).length ∧
      t.crossings = s.crossings + (done.filter fun a => decide (a.kind = .fluid)).length ∧
      t.removed = s.removed + ((done.filter fun a => decide (a.kind = .fluid)).map fun a => a.inc.sum).sum := by
    intro as
    induction as with
    | nil => intro s t h; cases Option.some.inj h; exact ⟨[], List.Sublist.refl _, by simp⟩
    | cons a as ih =>
      intro s t h
      unfold run at h
      cases hp : perform lattice s a with
      | none => rw [hp] at h; simp at h
      | some u =>
        rw [hp] at h
        obtain ⟨done, d0, d1, d2, d3, d4, d5⟩ := ih u t h
        by_cases hv : a.inc ≤ s.parts
        · obtain ⟨v, -, -, -, -, h4, h5, h6, h7, h8⟩ := perform_valid hv hp
          refine ⟨a :: done, d0.cons_cons a, ?_, ?_, ?_, ?_, ?_⟩
          · rw [d1, h4, List.length_cons]; omega
          · rw [d2, h4, h5, List.length_cons]; omega
          · rw [d3, h6]; by_cases hk : a.kind = .wall <;> simp [hk]; omega
          · rw [d4, h7]; by_cases hk : a.kind = .fluid <;> simp [hk]; omega
          · rw [d5, h8]; by_cases hk : a.kind = .fluid <;> simp [hk]; ring
        · have := perform_invalid hv hp
          subst this
          refine ⟨done, d0.cons a, d1, ?_, d3, d4, d5⟩
          rw [d2, List.length_cons]; simp only; omega
  obtain ⟨done, d0, d1, d2, d3, d4, d5⟩ := key as (start parts) t h
  refine ⟨done, d0, ?_, ?_, ?_, ?_, ?_⟩
  · simpa [start] using d1
  · simpa [start] using d2
  · simpa [start] using d3
  · simpa [start] using d4
  · simpa [start] using d5

/-- **C186**, differences: the numbers of interactions reported, differences of unsigned numbers, never wrap around. -/
theorem C186_differences (lattice : Bool) (parts : Multiset ℚ) (as : List Act) (t : St) (h : run lattice (start parts) as = some t) :
    t.walls + t.crossings ≤ t.total := by
  obtain ⟨done, -, d1, -, d3, d4, -⟩ := C186_counters lattice parts as t h
  rw [d1, d3, d4]
  clear d1 d3 d4
  induction done with
  | nil => simp
  | cons a done ih =>
    cases hk : a.kind <;> simp [hk] at ih ⊢ <;> omega

/-- **C186**, warning: with the stochastic criterion too many discarded interactions are reported exactly if there was an interaction and their number exceeds one
percent of the interactions. -/
theorem C186_warning (stoch : Bool) (s : St) (h : s.parts ≠ 0) :
    (∃ n, report true stoch s = .usual true n) ↔ stoch = true ∧ 0 < s.total ∧ s.total < 100 * s.discarded := by
  have hc : ¬ (true = true ∧ s.parts.card = 0) := fun x => h (Multiset.card_eq_zero.1 x.2)
  unfold report
  rw [if_neg hc]
  simp only [Report.usual.injEq, exists_and_left, exists_eq', and_true, Bool.and_eq_true, decide_eq_true_iff]
  refine and_congr_right fun _ => ?_
  unfold percent
  split_ifs with ht
  · have hq : (0 : ℚ) < s.total := by exact_mod_cast ht
    rw [lt_div_iff₀ hq, one_mul]
    constructor
    · intro h
      refine ⟨ht, ?_⟩
      have : (s.total : ℚ) < ((100 * s.discarded : ℕ) : ℚ) := by push_cast; linarith
      exact_mod_cast this
    · rintro ⟨-, h⟩
      have : (s.total : ℚ) < ((100 * s.discarded : ℕ) : ℚ) := by exact_mod_cast h
      push_cast at this; linarith
  · constructor
    · intro h; norm_num at h
    · rintro ⟨h, -⟩; exact absurd h ht

/-- **C186**, unformed particles: their number over all ensembles. -/
theorem C186_unformed (endTime : ℚ) (ens : List (List ℚ)) :
    unformed endTime ens = (ens.flatten.filter fun t => decide (endTime < t)).length := by
  have h1 : ∀ (ps : List ℚ) (n : ℕ), ps.foldl (fun n t => if endTime < t then n + 1 else n) n =
      n + (ps.filter fun t => decide (endTime < t)).length := by
    intro ps
    induction ps with
    | nil => intro n; simp
    | cons t ps ih =>
      intro n
      rw [List.foldl_cons, ih]
      by_cases ht : endTime < t
      · simp [ht]; omega
      · simp [ht]
  have h2 : ∀ (ens : List (List ℚ)) (n : ℕ), ens.foldl (fun n ps => ps.foldl (fun n t => if endTime < t then n + 1 else n) n) n =
      n + (ens.flatten.filter fun t => decide (endTime < t)).length := by
    intro ens
    induction ens with
    | nil => intro n; simp
    | cons ps ens ih =>
      intro n
      rw [List.foldl_cons, ih, h1]
      simp; omega
  unfold unformed
  rw [h2]; simp

/-- One particle removed from outside, the other at the hypersurface. -/
def taken : List Act := [⟨.freeforall, {1}, 0, false⟩, ⟨.fluid, {1}, 0, true⟩]

theorem taken_run : run false (start {1, 1}) taken = some ⟨0, 2, 2, 0, 0, 1, 1, 0⟩ := by
  have h1 : perform false (start {1, 1}) ⟨.freeforall, {1}, 0, false⟩ = some ⟨{1}, 2, 1, 0, 0, 0, 0, 0⟩ := by
    unfold perform
    rw [if_pos (by decide)]
    have : ({1, 1} : Multiset ℚ) - {1} + 0 = {1} := by decide
    simp [start, check, this]; norm_num
  have h2 : perform false ⟨{1}, 2, 1, 0, 0, 0, 0, 0⟩ ⟨.fluid, {1}, 0, true⟩ = some ⟨0, 2, 2, 0, 0, 1, 1, 0⟩ := by
    unfold perform
    rw [if_pos (by decide)]
    simp [check]
  unfold taken run
  rw [h1]
  simp only [Option.bind_some]
  unfold run
  rw [h2]
  rfl

/-- **C186**, finding: after particles have been taken away from outside, all others being removed at the hypersurface, the event ends with the exception that
energy remains in the system. -/
theorem C186_outside_false : ∃ (parts : Multiset ℚ) (as : List Act) (t : St), run false (start parts) as = some t ∧ t.parts = 0 ∧
    ∀ stoch, report true stoch t = .remaining :=
  ⟨_, _, _, taken_run, rfl, fun _ => (C186_alarm _ _ _).2 ⟨rfl, rfl, by norm_num⟩⟩

/-- **C186**, finding: if every interaction is discarded, their share is reported as zero percent and there is no warning. -/
theorem C186_discarded_false : ∃ (parts : Multiset ℚ) (as : List Act) (t : St), run false (start parts) as = some t ∧ 0 < t.discarded ∧
    t.total = 0 ∧ percent t = 0 ∧ ∃ n, report false true t = .usual false n := by
  refine ⟨{1}, [⟨.other, {2}, {2}, true⟩], ⟨{1}, 1, 0, 0, 1, 0, 0, 0⟩, ?_, by norm_num, rfl, by simp [percent], 0, by simp [report, percent]⟩
  unfold run perform
  rw [if_neg (by decide)]
  simp [run, start]

/-- The hypotheses are met: a string process that violates energy, a wall crossing and the removal of all particles. -/
example : ∃ t, run false (start {3}) [⟨.string, {3}, {4}, true⟩, ⟨.wall, {4}, {4}, true⟩, ⟨.fluid, {4}, 0, true⟩] = some t ∧ t.parts = 0 ∧
    ∀ a ∈ [(⟨.string, {3}, {4}, true⟩ : Act), ⟨.wall, {4}, {4}, true⟩, ⟨.fluid, {4}, 0, true⟩], Accounted a := by
  refine ⟨⟨0, 3, 3, 1, 0, 1, 4, 1⟩, ?_, rfl, ?_⟩
  · simp [run, perform, start, check]; norm_num
  · intro a ha
    simp only [List.mem_cons, List.not_mem_nil, or_false] at ha
    rcases ha with rfl | rfl | rfl <;> simp [Accounted]

end Verif.Icb
