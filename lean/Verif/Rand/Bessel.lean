import Mathlib.Tactic.Linarith
import Mathlib.Tactic.Positivity
import Mathlib.Tactic.FieldSimp
import Mathlib.Tactic.NormNum
import Mathlib.Tactic.Ring
import Mathlib.Data.Rat.Cast.CharZero
import Mathlib.Analysis.Real.Sqrt
import Verif.Rand.Model
/-
The ratio of Bessel functions used by the thermaliser's sampler (C82).
-/
namespace Verif.Rand

/-- Specification: the documented lower bound on the ratio I_(n+1)(a) / I_n(a). -/
noncomputable def ratioLow (n : ℕ) (a : ℝ) : ℝ :=
  a / (Real.sqrt (a ^ 2 + ((n : ℝ) + 1) ^ 2) + ((n : ℝ) + 1))

/-- Specification: the documented upper bound. -/
noncomputable def ratioHigh (n : ℕ) (a : ℝ) : ℝ :=
  a / (Real.sqrt (a ^ 2 + (n : ℝ) ^ 2) + (n : ℝ))

theorem sqrt_facts {a : ℝ} (ha : 0 < a) (k : ℝ) :
    0 < Real.sqrt (a ^ 2 + k ^ 2) ∧ Real.sqrt (a ^ 2 + k ^ 2) * Real.sqrt (a ^ 2 + k ^ 2) = a ^ 2 + k ^ 2 :=
  ⟨Real.sqrt_pos.2 (by positivity), Real.mul_self_sqrt (by positivity)⟩

theorem low_pos {a : ℝ} (ha : 0 < a) (n : ℕ) : 0 < ratioLow n a := by
  have := (sqrt_facts ha ((n : ℝ) + 1)).1
  unfold ratioLow
  positivity

/-- A value below the upper bound gives one above the lower bound in the next iteration. -/
theorem step_low {a x : ℝ} (ha : 0 < a) (k : ℕ) (hx0 : 0 ≤ x) (hx : x ≤ ratioHigh (k + 1) a) :
    ratioLow k a ≤ 1 / (1 / a * 2 * ((k + 1 : ℕ) : ℝ) + x) := by
  unfold ratioHigh at hx
  unfold ratioLow
  push_cast at hx ⊢
  obtain ⟨hs, hs2⟩ := sqrt_facts ha ((k : ℝ) + 1)
  generalize Real.sqrt (a ^ 2 + ((k : ℝ) + 1) ^ 2) = s at *
  have hk : (0 : ℝ) ≤ k := Nat.cast_nonneg k
  rw [div_le_div_iff₀ (by positivity) (by positivity)]
  have hxm : x * (s + (k + 1)) ≤ a := (le_div_iff₀ (by positivity)).1 hx
  have h2 : a * (1 / a * 2 * ((k : ℝ) + 1) + x) = 2 * ((k : ℝ) + 1) + a * x := by
    field_simp
  rw [h2, one_mul]
  -- `a x (s + k + 1) ≤ a² = (s - k - 1)(s + k + 1)`
  have h3 : a * x * (s + (k + 1)) ≤ (s - (k + 1)) * (s + (k + 1)) := by nlinarith
  have h4 := le_of_mul_le_mul_right h3 (by positivity)
  linarith

/-- A value above the lower bound gives one below the upper bound in the next iteration. -/
theorem step_high {a x : ℝ} (ha : 0 < a) (k : ℕ) (hx : ratioLow (k + 1) a ≤ x) :
    1 / (1 / a * 2 * ((k + 1 : ℕ) : ℝ) + x) ≤ ratioHigh k a := by
  have hx0 : 0 < x := lt_of_lt_of_le (low_pos ha _) hx
  unfold ratioLow at hx
  unfold ratioHigh
  push_cast at hx ⊢
  obtain ⟨hs, hs2⟩ := sqrt_facts ha ((k : ℝ) + 1 + 1)
  obtain ⟨ht, ht2⟩ := sqrt_facts ha (k : ℝ)
  generalize Real.sqrt (a ^ 2 + ((k : ℝ) + 1 + 1) ^ 2) = s at *
  generalize Real.sqrt (a ^ 2 + (k : ℝ) ^ 2) = t at *
  have hk : (0 : ℝ) ≤ k := Nat.cast_nonneg k
  rw [div_le_div_iff₀ (by positivity) (by positivity)]
  have hxm : a ≤ x * (s + (k + 1 + 1)) := (div_le_iff₀ (by positivity)).1 hx
  have h2 : a * (1 / a * 2 * ((k : ℝ) + 1) + x) = 2 * ((k : ℝ) + 1) + a * x := by
    field_simp
  rw [h2, one_mul]
  have h3 : (s - (k + 1 + 1)) * (s + (k + 1 + 1)) ≤ a * x * (s + (k + 1 + 1)) := by nlinarith
  have h4 := le_of_mul_le_mul_right h3 (by positivity)
  have h5 : t ≤ s := by nlinarith
  linarith

theorem loop_bounds {a : ℝ} (ha : 0 < a) (n : ℕ) : ∀ (m : ℕ) (x : ℝ), 0 ≤ x →
    (x ≤ ratioHigh (n + 2 * m) a → besselLoop n a (2 * m) x ≤ ratioHigh n a) ∧
    (ratioLow (n + 2 * m) a ≤ x → ratioLow n a ≤ besselLoop n a (2 * m) x) := by
  intro m
  induction m with
  | zero => intro x _; exact ⟨fun h => h, fun h => h⟩
  | succ m ih =>
    intro x hx
    have e : besselLoop n a (2 * (m + 1)) x = besselLoop n a (2 * m)
        (1 / (1 / a * 2 * ((n + 2 * m + 1 : ℕ) : ℝ) +
          1 / (1 / a * 2 * ((n + 2 * m + 1 + 1 : ℕ) : ℝ) + x))) := by
      rw [show 2 * (m + 1) = 2 * m + 1 + 1 by ring, besselLoop, besselLoop]
      rfl
    have h1 : 0 ≤ 1 / (1 / a * 2 * ((n + 2 * m + 1 + 1 : ℕ) : ℝ) + x) := by positivity
    have h2 : 0 ≤ 1 / (1 / a * 2 * ((n + 2 * m + 1 : ℕ) : ℝ) +
          1 / (1 / a * 2 * ((n + 2 * m + 1 + 1 : ℕ) : ℝ) + x)) := by positivity
    rw [e]
    constructor
    · intro h
      refine (ih _ h2).1 (step_high ha (n + 2 * m) ?_)
      exact step_low ha (n + 2 * m + 1) hx (by rwa [show n + 2 * m + 1 + 1 = n + 2 * (m + 1) by ring])
    · intro h
      refine (ih _ h2).2 (step_low ha (n + 2 * m) h1 ?_)
      exact step_high ha (n + 2 * m + 1) (by rwa [show n + 2 * m + 1 + 1 = n + 2 * (m + 1) by ring])

/-- **C82.** The computed ratio of Bessel functions is positive and never above the documented upper
bound, whatever the order and the argument. -/
theorem C82_upper {a : ℝ} (ha : 0 < a) (n : ℕ) : besselRatio n a ≤ ratioHigh n a := by
  have h : (0 : ℝ) ≤ ratioHigh (n + 2 * 100) a := by
    have := (sqrt_facts ha ((n + 2 * 100 : ℕ) : ℝ)).1
    unfold ratioHigh
    positivity
  exact (loop_bounds ha n 100 0 le_rfl).1 h

/-- **C82 (partial).** It is also not below the lower bound if the square of the argument is at most
four times the order at which the recursion starts.  Missing: larger arguments, where 200 terms are
not enough, see `C82_lower_false`. -/
theorem C82_lower_partial {a : ℝ} (ha : 0 < a) (n : ℕ) (h : a ^ 2 ≤ 4 * (n + 200)) :
    ratioLow n a ≤ besselRatio n a := by
  have e : besselRatio n a = besselLoop n a (2 * 99)
      (1 / (1 / a * 2 * ((n + 2 * 99 + 1 : ℕ) : ℝ) +
        1 / (1 / a * 2 * ((n + 2 * 99 + 1 + 1 : ℕ) : ℝ) + 0))) := by
    unfold besselRatio
    rw [show 200 = 2 * 99 + 1 + 1 by rfl, besselLoop, besselLoop]
  rw [e]
  refine (loop_bounds ha n 99 _ (by positivity)).2 (step_low ha (n + 2 * 99) (by positivity) ?_)
  unfold ratioHigh
  obtain ⟨hs, hs2⟩ := sqrt_facts ha ((n + 2 * 99 + 1 : ℕ) : ℝ)
  generalize hS : Real.sqrt (a ^ 2 + ((n + 2 * 99 + 1 : ℕ) : ℝ) ^ 2) = s at *
  rw [div_le_div_iff₀ (by positivity) (by positivity)]
  have h2 : a * (1 / a * 2 * ((n + 2 * 99 + 1 + 1 : ℕ) : ℝ) + 0) = 2 * ((n : ℝ) + 200) := by
    push_cast
    field_simp
    ring
  rw [h2, one_mul]
  push_cast at hs2 ⊢
  have hn : (0 : ℝ) ≤ n := Nat.cast_nonneg n
  have : s ≤ n + 201 := by
    by_contra hc
    rw [not_le] at hc
    nlinarith
  linarith

theorem besselLoop_cast (n : ℕ) (a : ℚ) : ∀ (i : ℕ) (x : ℚ),
    ((besselLoop n a i x : ℚ) : ℝ) = besselLoop n (a : ℝ) i (x : ℝ) := by
  intro i
  induction i with
  | zero => intro x; rfl
  | succ i ih =>
    intro x
    rw [besselLoop, besselLoop, ih]
    push_cast
    rfl

/-- **C82 (violated).** For large arguments the recursion has not converged: the ratio of orders 1
and 0 at 10^6 is above 0.99 but the computed one below 0.05, and the assertion fails. -/
theorem C82_lower_false : besselRatio 0 (1000000 : ℝ) < ratioLow 0 1000000 := by
  have h1 : besselRatio 0 (1000000 : ℚ) < 1 / 2 := by decide +kernel
  have h2 : besselRatio 0 (1000000 : ℝ) < 1 / 2 := by
    have h : ((besselRatio 0 (1000000 : ℚ) : ℚ) : ℝ) < ((1 / 2 : ℚ) : ℝ) := Rat.cast_lt.2 h1
    unfold besselRatio at h
    rw [besselLoop_cast] at h
    push_cast at h
    exact h
  refine lt_trans h2 ?_
  unfold ratioLow
  obtain ⟨hs, hs2⟩ := sqrt_facts (a := 1000000) (by norm_num) (((0 : ℕ) : ℝ) + 1)
  rw [lt_div_iff₀ (by positivity)]
  generalize Real.sqrt _ = s at *
  have : s ≤ 1000001 := by
    by_contra hc
    rw [not_le] at hc
    norm_num at hs2
    nlinarith
  norm_num
  linarith

example : ratioLow 3 10 ≤ besselRatio 3 (10 : ℝ) ∧ besselRatio 3 (10 : ℝ) ≤ ratioHigh 3 10 :=
  ⟨C82_lower_partial (by norm_num) 3 (by norm_num), C82_upper (by norm_num) 3⟩

end Verif.Rand
