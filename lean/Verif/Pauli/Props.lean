import Verif.Pauli.Model
import Mathlib.Tactic.Ring
import Mathlib.Tactic.FieldSimp
import Mathlib.Tactic.Linarith
import Mathlib.Tactic.NormNum
import Mathlib.Tactic.Positivity
import Mathlib.MeasureTheory.Integral.IntervalIntegral.IntegrationByParts

/-
C102: Pauli blocking.
-/
namespace Verif.Pauli
open Verif.Kin

/-! ### When an action is blocked -/

/-- C102: a wall crossing is never blocked. -/
theorem C102_wall (c : Cfg) (w : ℕ → ℝ) (ens : List (List P)) (inc out : List P) (u : ℕ → ℝ) :
    isBlocked c w true ens inc out u = false := rfl

/-- C102: any other action is blocked exactly if for one of its outgoing baryons the phase-space
density of identical particles is larger than the random number drawn for it (the k-th random number
for the k-th baryon). -/
theorem C102_blocked_iff (c : Cfg) (w : ℕ → ℝ) (ens : List (List P)) (inc out : List P) (u : ℕ → ℝ) :
    isBlocked c w false ens inc out u = true ↔
      ∃ k q, (out.filter fun q => q.baryon)[k]? = some q ∧
        u k < dens c w q.pos q.mom ens q.pdg inc := by
  simp only [isBlocked, Bool.false_eq_true, if_false]
  induction out generalizing u with
  | nil => simp [blockedLoop]
  | cons q qs ih =>
    simp only [blockedLoop]
    by_cases hb : q.baryon
    · simp only [hb, if_true, List.filter_cons]
      by_cases hd : dens c w q.pos q.mom ens q.pdg inc > u 0
      · simp only [hd, if_true, true_iff]
        exact ⟨0, q, by simp, hd⟩
      · simp only [hd, if_false, ih]
        constructor
        · rintro ⟨k, q', h1, h2⟩
          exact ⟨k + 1, q', by simpa using h1, h2⟩
        · rintro ⟨k, q', h1, h2⟩
          rcases k with _ | k
          · simp only [List.getElem?_cons_zero, Option.some.injEq] at h1
            subst h1
            exact absurd h2 hd
          · exact ⟨k, q', by simpa using h1, h2⟩
    · simp only [hb, Bool.false_eq_true, if_false, ih, List.filter_cons]

/-! ### Which particles count -/

/-- The particles that count: identical ones inside the averaging volume that do not carry the number
of an incoming particle. -/
def Counts (c : Cfg) (r p : V3) (pdg : ℕ) (inc : List P) (q : P) : Prop :=
  q.pdg = pdg ∧ (q.mom.sub p).sqr ≤ c.rp ^ 2 ∧ (q.pos.sub r).sqr < (c.rr + c.rc) ^ 2 ∧
    ∀ d ∈ inc, q.id ≠ d.id

/-- A particle that does not count contributes nothing. -/
theorem contrib_zero (c : Cfg) (w : ℕ → ℝ) (r p : V3) (pdg : ℕ) (inc : List P) (q : P)
    (h : ¬ Counts c r p pdg inc q) : contrib c w r p pdg inc q = 0 := by
  simp only [contrib]
  split_ifs with h1 h2 h3 h4 h5
  · rfl
  · rfl
  · rfl
  · rfl
  · exfalso
    refine h ⟨not_not.1 h1, ?_, ?_, ?_⟩
    · rw [sq]; exact not_lt.1 h2
    · rw [sq]; exact not_le.1 h3
    · intro d hd he
      exact h4 (List.any_eq_true.2 ⟨d, hd, by simpa using he⟩)
  · rfl

/-- C102: if no identical particle counts, the density is zero and (random numbers not being
negative) nothing is blocked. -/
theorem C102_alone (c : Cfg) (w : ℕ → ℝ) (ens : List (List P)) (inc out : List P) (u : ℕ → ℝ)
    (hu : ∀ k, 0 ≤ u k)
    (h : ∀ q ∈ out, q.baryon → ∀ e ∈ ens, ∀ x ∈ e, ¬ Counts c q.pos q.mom q.pdg inc x) :
    isBlocked c w false ens inc out u = false := by
  rw [Bool.eq_false_iff, Ne, C102_blocked_iff]
  rintro ⟨k, q, hq, hlt⟩
  have hm := List.mem_of_getElem? hq
  obtain ⟨hm1, hm2⟩ := List.mem_filter.1 hm
  have : dens c w q.pos q.mom ens q.pdg inc = 0 := by
    have h0 : (ens.map fun ps => (ps.map (contrib c w q.pos q.mom q.pdg inc)).sum).sum = 0 := by
      apply List.sum_eq_zero
      intro y hy
      obtain ⟨e, he, rfl⟩ := List.mem_map.1 hy
      apply List.sum_eq_zero
      intro z hz
      obtain ⟨x, hx, rfl⟩ := List.mem_map.1 hz
      exact contrib_zero c w _ _ _ _ _ (h q hm1 hm2 e he x hx)
    simp [dens, h0]
  rw [this] at hlt
  exact absurd hlt (not_lt.2 (hu k))

/-- C102: the density is an average over ensembles and test particles: `n + 1` identical ensembles
with each particle represented `t + 1` times give the same as one ensemble of the particles. -/
theorem C102_average (c : Cfg) (w : ℕ → ℝ) (r p : V3) (e : List P) (pdg : ℕ) (inc : List P)
    (n t : ℕ) :
    dens { c with nens := n + 1, ntest := t + 1 } w r p
        (List.replicate (n + 1) (e.flatMap fun x => List.replicate (t + 1) x)) pdg inc
      = dens { c with nens := 1, ntest := 1 } w r p [e] pdg inc := by
  have hc : ∀ m k, contrib { c with nens := m, ntest := k } w r p pdg inc =
      contrib c w r p pdg inc := fun _ _ => rfl
  have hs : ((e.flatMap fun x => List.replicate (t + 1) x).map (contrib c w r p pdg inc)).sum =
      ((t + 1 : ℕ) : ℝ) * (e.map (contrib c w r p pdg inc)).sum := by
    induction e with
    | nil => simp
    | cons x xs ih =>
      rw [List.flatMap_cons, List.map_append, List.sum_append, ih, List.map_replicate,
        List.sum_replicate, List.map_cons, List.sum_cons, nsmul_eq_mul]
      ring
  simp only [dens, hc, hs, List.map_replicate, List.sum_replicate, List.map_cons, List.map_nil,
    List.sum_cons, List.sum_nil, add_zero, nsmul_eq_mul]
  have : ((n + 1 : ℕ) : ℝ) ≠ 0 := by positivity
  have : ((t + 1 : ℕ) : ℝ) ≠ 0 := by positivity
  push_cast at *
  field_simp

/-- C102 (partial: only between the two neighbouring entries): the contribution of a particle at
distance `d` is between the entries of the table for the distances next to `d`. -/
theorem C102_between_partial (c : Cfg) (w : ℕ → ℝ) (r p : V3) (pdg : ℕ) (inc : List P) (q : P)
    (hq : Counts c r p pdg inc q) (hR : 0 < c.rr + c.rc) (i : ℕ) (hi : i + 1 < tableSize)
    (h1 : (c.rr + c.rc) / tableSize * i ≤ Real.sqrt (q.pos.sub r).sqr)
    (h2 : Real.sqrt (q.pos.sub r).sqr < (c.rr + c.rc) / tableSize * (i + 1)) :
    min (w i) (w (i + 1)) ≤ contrib c w r p pdg inc q ∧
      contrib c w r p pdg inc q ≤ max (w i) (w (i + 1)) := by
  obtain ⟨a1, a2, a3, a4⟩ := hq
  have hT : (0 : ℝ) < (tableSize : ℝ) := by norm_num [tableSize]
  have e1 : (i : ℝ) ≤ Real.sqrt (q.pos.sub r).sqr / (c.rr + c.rc) * tableSize := by
    rw [div_mul_eq_mul_div, le_div_iff₀ hR]
    rw [div_mul_eq_mul_div, div_le_iff₀ hT] at h1
    linarith
  have e2 : Real.sqrt (q.pos.sub r).sqr / (c.rr + c.rc) * tableSize < (i : ℝ) + 1 := by
    rw [div_mul_eq_mul_div, div_lt_iff₀ hR]
    rw [div_mul_eq_mul_div, lt_div_iff₀ hT] at h2
    linarith
  have hfl : ⌊Real.sqrt (q.pos.sub r).sqr / (c.rr + c.rc) * tableSize⌋₊ = i :=
    (Nat.floor_eq_iff (le_trans (Nat.cast_nonneg i) e1)).2 ⟨e1, e2⟩
  have hdis : inc.any (fun d => decide (q.id = d.id)) = false := by
    rw [List.any_eq_false]
    intro d hd
    simpa using a4 d hd
  have hval : contrib c w r p pdg inc q =
      w i * (Real.sqrt (q.pos.sub r).sqr / (c.rr + c.rc) * tableSize - i) +
        w (i + 1) * (1 - (Real.sqrt (q.pos.sub r).sqr / (c.rr + c.rc) * tableSize - i)) := by
    simp only [contrib, a1, ne_eq, not_true_eq_false, if_false, hdis, hfl, hi, if_true,
      Bool.false_eq_true]
    rw [if_neg (not_lt.2 (by rw [← sq]; exact a2)), if_neg (not_le.2 (by rw [← sq]; exact a3))]
  rw [hval]
  have hx0 : 0 ≤ Real.sqrt (q.pos.sub r).sqr / (c.rr + c.rc) * tableSize - i := by linarith
  have hx1 : Real.sqrt (q.pos.sub r).sqr / (c.rr + c.rc) * tableSize - i ≤ 1 := by linarith
  generalize Real.sqrt (q.pos.sub r).sqr / (c.rr + c.rc) * tableSize - i = x at *
  have hy : 0 ≤ 1 - x := by linarith
  constructor
  · have h3 := mul_le_mul_of_nonneg_right (min_le_left (w i) (w (i + 1))) hx0
    have h4 := mul_le_mul_of_nonneg_right (min_le_right (w i) (w (i + 1))) hy
    linarith
  · have h3 := mul_le_mul_of_nonneg_right (le_max_left (w i) (w (i + 1))) hx0
    have h4 := mul_le_mul_of_nonneg_right (le_max_right (w i) (w (i + 1))) hy
    linarith

/-- A proton at the origin at rest. -/
def atOrigin (n : ℤ) : P := ⟨n, 2212, true, ⟨0, 0, 0⟩, ⟨0, 0, 0⟩⟩

/-- The default parameters (radii 1.86 fm, 0.08 GeV, cutoff 2.2 fm, width 1 fm). -/
noncomputable def defaults : Cfg := ⟨1, 22 / 10, 186 / 100, 8 / 100, 1, 1, 197327053 / 1000000000⟩

/-- The proton at the origin counts for a proton at the origin that is made from other particles. -/
theorem atOrigin_counts : Counts defaults ⟨0, 0, 0⟩ ⟨0, 0, 0⟩ 2212 [atOrigin 1, atOrigin 2] (atOrigin 7) := by
  refine ⟨rfl, ?_, ?_, by simp [atOrigin]⟩ <;>
    norm_num [atOrigin, defaults, V3.sub, V3.sqr, V3.dot]

theorem contrib_origin (w : ℕ → ℝ) (inc : List P) (n : ℤ) (h : ∀ d ∈ inc, n ≠ d.id) :
    contrib defaults w ⟨0, 0, 0⟩ ⟨0, 0, 0⟩ 2212 inc (atOrigin n) = w 1 := by
  have hdis : inc.any (fun d => decide (n = d.id)) = false := by
    rw [List.any_eq_false]
    intro d hd
    simpa using h d hd
  norm_num [contrib, atOrigin, defaults, V3.sub, V3.sqr, V3.dot, hdis, tableSize]
  intro x hx hxx
  exact absurd (of_decide_eq_true hxx) (h x hx)

/-- C102 fails: the two entries of the table are interchanged in the interpolation.  A particle at
distance zero contributes the entry for the first non-zero distance, not the one for zero. -/
theorem C102_interpolation_false :
    ∃ (c : Cfg) (w : ℕ → ℝ) (q : P), Counts c ⟨0, 0, 0⟩ ⟨0, 0, 0⟩ 2212 [] q ∧
      q.pos = ⟨0, 0, 0⟩ ∧ contrib c w ⟨0, 0, 0⟩ ⟨0, 0, 0⟩ 2212 [] q ≠ w 0 := by
  refine ⟨defaults, fun k => k, atOrigin 7, ?_, rfl, ?_⟩
  · refine ⟨rfl, ?_, ?_, by simp⟩ <;> norm_num [atOrigin, defaults, V3.sub, V3.sqr, V3.dot]
  · rw [contrib_origin _ _ _ (by simp)]
    norm_num

/-- C102 fails with several ensembles: particles are told apart from the incoming ones by their
number only, which is unique only within one ensemble.  A proton of another ensemble sitting exactly
at the place of the outgoing proton is ignored if it has the number of the incoming one. -/
theorem C102_ensembles_false :
    ∃ (inc other : P), inc.pos ≠ other.pos ∧
      ∀ w, dens { defaults with nens := 2 } w other.pos other.mom [[], [other]] other.pdg [inc] = 0 ∧
        dens { defaults with nens := 2 } w other.pos other.mom [[], [other]] other.pdg [] = w 1 / 2 := by
  refine ⟨⟨7, 2212, true, ⟨5, 0, 0⟩, ⟨0, 0, 0⟩⟩, atOrigin 7, ?_, ?_⟩
  · simp [atOrigin]
  · intro w
    constructor
    · norm_num [dens, contrib, atOrigin, defaults, V3.sub, V3.sqr, V3.dot]
    · have h := contrib_origin w [] 7 (by simp)
      have h' : contrib { defaults with nens := 2 } w ⟨0, 0, 0⟩ ⟨0, 0, 0⟩ 2212 [] (atOrigin 7) = w 1 := h
      have e : dens { defaults with nens := 2 } w (atOrigin 7).pos (atOrigin 7).mom [[], [atOrigin 7]]
          (atOrigin 7).pdg [] = (contrib { defaults with nens := 2 } w ⟨0, 0, 0⟩ ⟨0, 0, 0⟩ 2212 []
            (atOrigin 7)) / 1 / 2 := by
        simp [dens, atOrigin, defaults]
      rw [e, h']
      ring

end Verif.Pauli
