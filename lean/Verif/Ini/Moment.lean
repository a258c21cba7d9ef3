import Verif.Ini.Thermal
import Mathlib.Tactic.NormNum
/-! C123: the distributions out of equilibrium: envelopes and ranges. -/
namespace Verif.Ini
open Real

theorem nonEq_root {T m : ℝ} (hT : 0 < T) (hm : 0 ≤ m) : 0 < pNonEqSq T m ∧
    pNonEqSq T m = 3 * T * √(pNonEqSq T m + m * m) := by
  have hs : √(81 * T * T + 36 * m * m) ^ 2 = 81 * T * T + 36 * m * m := sq_sqrt (by positivity)
  have hp : 0 < pNonEqSq T m := by unfold pNonEqSq; positivity
  refine ⟨hp, ?_⟩
  have h2 : pNonEqSq T m ^ 2 = (3 * T) ^ 2 * (pNonEqSq T m + m * m) := by
    unfold pNonEqSq
    generalize √(81 * T * T + 36 * m * m) = s at *
    linear_combination (T ^ 2 / 4) * hs
  have h3 : √(pNonEqSq T m ^ 2) = √((3 * T) ^ 2 * (pNonEqSq T m + m * m)) := by rw [h2]
  rw [sqrt_sq hp.le, sqrt_mul (by positivity), sqrt_sq (by positivity)] at h3
  exact h3

/-- **C123** (massive particles out of equilibrium). The momentum taken for the maximum of
`p³ exp(-E/T)` is its maximum, so the bound of the loop, twice that value, is above the density at every
momentum. -/
theorem C123_massive {T m : ℝ} (hT : 0 < T) (hm : 0 ≤ m) {p : ℝ} (hp : 0 ≤ p) :
    p ^ 3 * exp (-energy m p / T) ≤ √(pNonEqSq T m) ^ 3 * exp (-energy m √(pNonEqSq T m) / T) ∧
    densityMass √(p * p + m * m) (p * p) T = p ^ 3 * exp (-energy m p / T) ∧
    nonEqTop T m = 2 * (√(pNonEqSq T m) ^ 3 * exp (-energy m √(pNonEqSq T m) / T)) := by
  obtain ⟨hy, hroot⟩ := nonEq_root hT hm
  have hE : energy m √(pNonEqSq T m) = √(pNonEqSq T m + m * m) := by
    unfold energy
    rw [sq_sqrt hy.le]
    congr 2
    ring
  refine ⟨?_, ?_, ?_⟩
  · rcases hp.eq_or_lt with rfl | hp
    · have : (0 : ℝ) ^ 3 * exp (-energy m 0 / T) = 0 := by ring
      rw [this]
      positivity
    · rw [hE]
      have hs2 : √(pNonEqSq T m + m * m) ^ 2 = pNonEqSq T m + m * m := sq_sqrt (by positivity)
      have hs0 : 0 < √(pNonEqSq T m + m * m) := sqrt_pos.2 (by positivity)
      have he2 : energy m p ^ 2 = p ^ 2 + m ^ 2 := sq_sqrt (by positivity)
      have he0 : 0 < energy m p := sqrt_pos.2 (by positivity)
      generalize √(pNonEqSq T m + m * m) = F at *
      generalize pNonEqSq T m = y at *
      generalize energy m p = E at *
      have hFm : 0 < F - m := by
        by_contra hc
        nlinarith
      have hEm : 0 < E - m := by
        by_contra hc
        nlinarith [pow_pos hp 2]
      have hyF : y = (F - m) * (F + m) := by linear_combination -hs2
      have hpE : p ^ 2 = (E - m) * (E + m) := by linear_combination -he2
      have hl : log (p ^ 2) ≤ log y + 2 * F * (E - F) / y := by
        rw [hpE, log_mul hEm.ne' (by linarith)]
        have l1 : log ((E - m) / (F - m)) ≤ (E - m) / (F - m) - 1 := log_le_sub_one_of_pos (by positivity)
        have l2 : log ((E + m) / (F + m)) ≤ (E + m) / (F + m) - 1 :=
          log_le_sub_one_of_pos (div_pos (by linarith) (by linarith))
        rw [log_div hEm.ne' hFm.ne'] at l1
        rw [log_div (by linarith) (by linarith)] at l2
        have e : (E - m) / (F - m) - 1 + ((E + m) / (F + m) - 1) = 2 * F * (E - F) / y := by
          have h1 : F - m ≠ 0 := hFm.ne'
          have h2 : F + m ≠ 0 := by linarith
          rw [hyF]
          field_simp
          ring
        have hly : log y = log (F - m) + log (F + m) := by
          rw [hyF, log_mul hFm.ne' (by linarith)]
        rw [hly, ← e]
        linarith
      have hq : 2 * F * (E - F) / y = 2 / 3 * ((E - F) / T) := by
        rw [hroot]
        field_simp
      rw [hq, log_pow] at hl
      push_cast at hl
      have hsy : 0 < √y := sqrt_pos.2 hy
      have hlsy : log √y = log y / 2 := log_sqrt hy.le
      have a1 : p ^ 3 * exp (-E / T) = exp (3 * log p + -E / T) := by
        rw [exp_add, show 3 * log p = log (p ^ 3) by rw [log_pow]; norm_num, exp_log (by positivity)]
      have a2 : √y ^ 3 * exp (-F / T) = exp (3 * log √y + -F / T) := by
        rw [exp_add, show 3 * log √y = log (√y ^ 3) by rw [log_pow]; norm_num, exp_log (by positivity)]
      rw [a1, a2, exp_le_exp, hlsy]
      have e3 : (E - F) / T = -F / T - -E / T := by ring
      rw [e3] at hl
      linarith
  · unfold densityMass energy
    rw [sqrt_mul_self hp, show p ^ 2 + m ^ 2 = p * p + m * m by ring]
    ring
  · unfold nonEqTop densityMass
    rw [hE]
    have := sq_sqrt hy.le
    generalize √(pNonEqSq T m + m * m) = F
    rw [show √(pNonEqSq T m) ^ 3 = √(pNonEqSq T m) ^ 2 * √(pNonEqSq T m) by ring, this]

/-- **C123** (massive, range). The momenta returned are not negative and belong to energies up to 50 T. -/
theorem C123_massive_range {T m : ℝ} {r : List (ℝ × ℝ)} {p : ℝ}
    (hr : ∀ e ∈ r, 0 ≤ e.1 ∧ e.1 ≤ 1) (h : sampleNonEq T m r = .ok p) :
    0 ≤ p ∧ p ^ 2 + m ^ 2 ≤ (50 * T) ^ 2 := by
  unfold sampleNonEq at h
  split at h
  · cases h
  · rename_i hc
    obtain ⟨pre, u, w, post, rfl, rfl, _⟩ := (C123_first _ _ _ _ _).1 h
    obtain ⟨h0, h1⟩ := hr (u, w) (by simp)
    have hs := sqrt_nonneg (50 * 50 * T * T - m * m)
    have hs2 : √(50 * 50 * T * T - m * m) ^ 2 = 50 * 50 * T * T - m * m := sq_sqrt (not_lt.1 hc)
    have e : Rand.uniform 0 √(50 * 50 * T * T - m * m) u = u * √(50 * 50 * T * T - m * m) := by
      unfold Rand.uniform; ring
    rw [e]
    refine ⟨mul_nonneg h0 hs, ?_⟩
    have h2 : u ^ 2 ≤ 1 := by nlinarith
    have : (u * √(50 * 50 * T * T - m * m)) ^ 2 ≤ 50 * 50 * T * T - m * m := by
      rw [mul_pow, hs2]
      nlinarith [not_lt.1 hc]
    linarith

/-- **C123** fails for masses above 50 T: the range of momenta is not a number. -/
theorem C123_massive_false {T m : ℝ} (hT : 0 < T) (hm : 50 * T < m) (r : List (ℝ × ℝ)) :
    sampleNonEq T m r = .error .nan := by
  unfold sampleNonEq
  rw [if_pos]
  nlinarith

/-- **C123** (moments, massless). For massless particles the two densities are positive at every energy
and below the bounds of the loops. -/
theorem C123_moments {T e : ℝ} (hT : 0 < T) (he : 0 < e) (ratio : ℝ → ℝ) :
    (0 < density1M e ((e - 0) * (e + 0)) T ∧
      density1M e ((e - 0) * (e + 0)) T ≤ momentTop density1M ratio T 0) ∧
    (0 < density2M e ((e - 0) * (e + 0)) T ∧
      density2M e ((e - 0) * (e + 0)) T ≤ momentTop density2M ratio T 0) := by
  obtain ⟨x, rfl⟩ : ∃ x, e = x * T := ⟨e / T, by field_simp⟩
  have hx : 0 < x := pos_of_mul_pos_left he hT.le
  have hE := exp_pos (-x)
  have hexp : 1 + x + x ^ 2 / 2 + x ^ 3 / 6 + x ^ 4 / 24 + x ^ 5 / 120 + x ^ 6 / 720 ≤ exp x := by
    have := sum_le_exp_of_nonneg hx.le 7
    simp only [Finset.sum_range_succ, Finset.sum_range_zero, Nat.factorial] at this
    norm_num at this
    linarith
  have h3 : exp (3 : ℝ) ≤ 20.3 := by
    have h := exp_one_lt_d9
    have : exp (3 : ℝ) = exp 1 ^ 3 := by rw [← exp_nat_mul]; norm_num
    rw [this]
    calc exp 1 ^ 3 ≤ (2.7182818286 : ℝ) ^ 3 := pow_le_pow_left₀ (exp_pos _).le h.le 3
      _ ≤ 20.3 := by norm_num
  have hm3 : 1 / 20.3 ≤ exp (-3 : ℝ) := by
    rw [exp_neg, one_div]
    exact inv_anti₀ (exp_pos _) h3
  have key (a b : ℝ) (ha : 0 ≤ b) (h : a ≤ b / 20.3 * exp x) : a * exp (-x) ≤ b * exp (-3) := by
    have h1 : a * exp (-x) ≤ b / 20.3 * exp x * exp (-x) := mul_le_mul_of_nonneg_right h hE.le
    rw [mul_assoc, ← exp_add, add_neg_cancel, exp_zero] at h1
    have h2 : b * (1 / 20.3) ≤ b * exp (-3) := mul_le_mul_of_nonneg_left hm3 ha
    have h3 : b / 20.3 * 1 = b * (1 / 20.3) := by ring
    linarith
  have e1 : density1M (x * T) ((x * T - 0) * (x * T + 0)) T =
      T ^ 2 * ((3 / 20 * x ^ 2 - 6 / 5 * x + 14 / 5) * x ^ 2 * exp (-x)) := by
    unfold density1M
    rw [show -(x * T) / T = -x by field_simp]
    field_simp
    ring
  have e2 : density2M (x * T) ((x * T - 0) * (x * T + 0)) T =
      T ^ 2 * ((75 / 100 + 125 / 1000 * x ^ 2 - 1 / 30 * x ^ 3 + 1 / 480 * x ^ 4) * x ^ 2 * exp (-x)) := by
    unfold density2M
    rw [show -(x * T) / T = -x by field_simp]
    field_simp
    ring
  have t1 : momentTop density1M ratio T 0 = T ^ 2 * (396 / 5 * exp (-3)) := by
    unfold momentTop energyAverage density1M
    rw [if_neg (lt_irrefl _), show -(3 * T) / T = -3 by field_simp]
    field_simp
    ring
  have t2 : momentTop density2M ratio T 0 = T ^ 2 * (1647 / 10 * exp (-3)) := by
    unfold momentTop energyAverage density2M
    rw [if_neg (lt_irrefl _), show -(3 * T) / T = -3 by field_simp]
    field_simp
    ring
  rw [e1, e2, t1, t2]
  have hT2 : 0 < T ^ 2 := by positivity
  have q1 : 0 < 3 / 20 * x ^ 2 - 6 / 5 * x + 14 / 5 := by nlinarith [sq_nonneg (x - 4)]
  have q2 : 0 < 75 / 100 + 125 / 1000 * x ^ 2 - 1 / 30 * x ^ 3 + 1 / 480 * x ^ 4 := by
    nlinarith [sq_nonneg (x ^ 2 - 8 * x - 6), sq_nonneg (x - 6)]
  have p2 := pow_pos hx 2
  have p3 := pow_pos hx 3
  have p4 := pow_pos hx 4
  have p5 := pow_pos hx 5
  have p6 := pow_pos hx 6
  refine ⟨⟨by positivity, ?_⟩, ⟨by positivity, ?_⟩⟩
  · apply mul_le_mul_of_nonneg_left _ hT2.le
    apply key _ _ (by norm_num)
    have : (396 / 5 : ℝ) / 20.3 * (1 + x + x ^ 2 / 2 + x ^ 3 / 6 + x ^ 4 / 24 + x ^ 5 / 120 + x ^ 6 / 720) ≤
        396 / 5 / 20.3 * exp x := mul_le_mul_of_nonneg_left hexp (by norm_num)
    refine le_trans ?_ this
    norm_num
    nlinarith [mul_nonneg hx.le (sq_nonneg (x - 1))]
  · apply mul_le_mul_of_nonneg_left _ hT2.le
    apply key _ _ (by norm_num)
    have : (1647 / 10 : ℝ) / 20.3 * (1 + x + x ^ 2 / 2 + x ^ 3 / 6 + x ^ 4 / 24 + x ^ 5 / 120 + x ^ 6 / 720) ≤
        1647 / 10 / 20.3 * exp x := mul_le_mul_of_nonneg_left hexp (by norm_num)
    refine le_trans ?_ this
    norm_num
    nlinarith

/-- **C123** (moments, range). A momentum returned belongs to an energy between the mass and 50 T at which
the density is at least the number drawn. -/
theorem C123_moments_range {g : ℝ → ℝ → ℝ → ℝ} {ratio : ℝ → ℝ} {T m : ℝ} (hm : 0 ≤ m) (hmT : m ≤ 50 * T)
    {r : List (ℝ × ℝ)} {p : ℝ} (hr : ∀ e ∈ r, 0 ≤ e.1 ∧ e.1 ≤ 1)
    (h : sampleMoment g ratio T m r = .ok p) :
    ∃ e, m ≤ e ∧ e ≤ 50 * T ∧ 0 ≤ p ∧ e ^ 2 = p ^ 2 + m ^ 2 := by
  unfold sampleMoment at h
  cases hc : reject (fun u => Rand.uniform m (50 * T) u) (fun e => g e ((e - m) * (e + m)) T)
    (momentTop g ratio T m) r with
  | error e => rw [hc] at h; cases h
  | ok e =>
    rw [hc] at h
    injection h with h
    obtain ⟨pre, u, w, post, rfl, rfl, _⟩ := (C123_first _ _ _ _ _).1 hc
    obtain ⟨h0, h1⟩ := hr (u, w) (by simp)
    have hu : m ≤ Rand.uniform m (50 * T) u ∧ Rand.uniform m (50 * T) u ≤ 50 * T := by
      unfold Rand.uniform
      constructor <;> nlinarith
    refine ⟨_, hu.1, hu.2, by rw [← h]; exact sqrt_nonneg _, ?_⟩
    rw [← h, sq_sqrt (mul_nonneg (by linarith) (by linarith))]
    ring

/-- **C123** fails for particles with a mass of 6 T, such as nucleons at 156 MeV: the bounds of both loops
are negative (the ratio of the Bessel functions is 0.79 there). -/
theorem C123_moments_false {T : ℝ} (hT : 0 < T) (ratio : ℝ → ℝ) (h1 : 7 / 10 ≤ ratio 6) (h2 : ratio 6 ≤ 1) :
    momentTop density1M ratio T (6 * T) < 0 ∧ momentTop density2M ratio T (6 * T) < 0 := by
  have hr : 6 * T / T = 6 := by field_simp
  obtain ⟨k, hk⟩ : ∃ k, k = ratio 6 := ⟨_, rfl⟩
  have hav : energyAverage ratio T (6 * T) = (3 + 6 * k) * T := by
    unfold energyAverage
    rw [if_pos (by positivity), hr, hk]
    ring
  rw [← hk] at h1 h2
  have hexp := exp_pos (-((3 + 6 * k) * T) / T)
  have hq : 0 < (3 + 6 * k) ^ 2 - 36 := by nlinarith
  unfold momentTop
  rw [hav]
  generalize hx : 3 + 6 * k = x at *
  have hx1 : 72 / 10 ≤ x := by linarith
  have hx2 : x ≤ 9 := by linarith
  constructor
  · have : density1M (x * T) ((x * T - 6 * T) * (x * T + 6 * T)) T =
        (3 / 20 * (x ^ 2 - 36) - 6 / 5 * x + 14 / 5) * (exp (-(x * T) / T) * (T ^ 2 * (x ^ 2 - 36))) := by
      unfold density1M
      generalize exp (-(x * T) / T) = E
      field_simp
      ring
    rw [this]
    have hn : 3 / 20 * (x ^ 2 - 36) - 6 / 5 * x + 14 / 5 < 0 := by nlinarith
    have : 0 < exp (-(x * T) / T) * (T ^ 2 * (x ^ 2 - 36)) := by positivity
    nlinarith
  · have : density2M (x * T) ((x * T - 6 * T) * (x * T + 6 * T)) T =
        (75 / 100 + 125 / 1000 * (x ^ 2 - 36) - 1 / 30 * ((x ^ 2 - 36) * x) + 1 / 480 * (x ^ 2 - 36) ^ 2) *
          (exp (-(x * T) / T) * (T ^ 2 * (x ^ 2 - 36))) := by
      unfold density2M
      generalize exp (-(x * T) / T) = E
      field_simp
      ring
    rw [this]
    have hn : 75 / 100 + 125 / 1000 * (x ^ 2 - 36) - 1 / 30 * ((x ^ 2 - 36) * x) +
        1 / 480 * (x ^ 2 - 36) ^ 2 < 0 := by
      have hy : 0 ≤ (x - 72 / 10) * (9 - x) := mul_nonneg (by linarith) (by linarith)
      nlinarith [mul_nonneg hy (by linarith : 0 ≤ x), mul_nonneg hy hy, mul_nonneg hy (sq_nonneg x)]
    have : 0 < exp (-(x * T) / T) * (T ^ 2 * (x ^ 2 - 36)) := by positivity
    nlinarith

/-- A proposal which is accepted: pions at 150 MeV, proposed at the top of the distribution. -/
example : ∃ p, reject (fun u => u) (fun u => u * (2 - u)) 1 [(0, 1 / 2), (1, 1 / 2)] = .ok p ∧ p = 1 := by
  refine ⟨1, ?_, rfl⟩
  unfold reject reject Rand.uniform
  norm_num

/-- Pions at 150 MeV are hot, protons are cold; both are light enough for the cut at 50 T. -/
example : (6 / 10 * (138 / 1000) : ℝ) < 150 / 1000 ∧ (150 / 1000 : ℝ) ≤ 6 / 10 * (938 / 1000) ∧
    ¬ 50 * (150 / 1000 : ℝ) < 938 / 1000 := by norm_num

end Verif.Ini
