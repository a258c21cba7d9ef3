import Verif.Low.Fit

/-!
C145: consequences for the smoothed data.
-/

namespace Verif.Low

open Finset

/-! ### Few neighbours, vanishing residuals -/

/-- With two neighbours a point is fitted by itself. -/
theorem fit_two {x y g : ℕ → ℝ} {n i : ℕ} {v : ℝ} (hx : Increasing x n) (h1 : 1 ≤ i) (h2 : i ≤ n)
    (h : Spec.LocalFit x y g n 2 i v) : v = y i := by
  obtain ⟨l, u, hu, ⟨n1, n2, n3, n4, n5⟩, h⟩ := h
  have hul : u = l + 1 := by omega
  subst hul
  have hlu : x l < x (l + 1) := hx l (l + 1) n1 (by omega) n4
  dsimp only at h
  have hz : ∀ j, 1 ≤ j → j ≤ n → j ≠ i →
      Spec.tricube (max (x i - x l) (x (l + 1) - x i)) |x j - x i| = 0 := by
    intro j hj1 hj2 hji
    have hd : max (x i - x l) (x (l + 1) - x i) ≤ |x j - x i| := by
      by_cases hin : l ≤ j ∧ j ≤ l + 1
      · rcases Nat.lt_or_ge l i with hl | hl
        · have e1 : i = l + 1 := by omega
          have e2 : j = l := by omega
          subst e1 e2
          rw [abs_sub_comm, abs_of_pos (by linarith)]
          exact max_le (le_refl _) (by linarith)
        · have e1 : i = l := by omega
          have e2 : j = l + 1 := by omega
          subst e1 e2
          rw [abs_of_pos (by linarith)]
          exact max_le (by linarith) (le_refl _)
      · have a1 := n5 j hj1 hj2 hin l (le_refl _) (by omega)
        have a2 := n5 j hj1 hj2 hin (l + 1) (by omega) (le_refl _)
        rw [abs_sub_comm] at a1
        exact max_le ((le_abs_self _).trans a1) ((le_abs_self _).trans a2)
    have hp : 0 < max (x i - x l) (x (l + 1) - x i) := by
      rcases lt_or_ge (x l) (x i) with h | h
      · exact lt_max_of_lt_left (by linarith)
      · exact lt_max_of_lt_right (by linarith)
    unfold Spec.tricube
    rw [if_neg (by linarith), if_neg (by linarith)]
  generalize hW : (fun j => Spec.tricube (max (x i - x l) (x (l + 1) - x i)) |x j - x i| * g j) = W at h
  have hW0 : ∀ j ∈ Icc 1 n, j ≠ i → W j = 0 := by
    intro j hj hji
    rw [mem_Icc] at hj
    rw [← hW]
    dsimp only
    rw [hz j hj.1 hj.2 hji, zero_mul]
  have hmem : i ∈ Icc 1 n := by rw [mem_Icc]; exact ⟨h1, h2⟩
  have hs : ∀ q : ℕ → ℝ, ∑ j ∈ Icc 1 n, W j * q j = W i * q i := by
    intro q
    apply sum_eq_single_of_mem i hmem
    intro j hj hji
    rw [hW0 j hj hji, zero_mul]
  have hs1 : ∑ j ∈ Icc 1 n, W j = W i := by
    apply sum_eq_single_of_mem i hmem
    intro j hj hji
    exact hW0 j hj hji
  rcases h with ⟨-, h⟩ | ⟨h3, h⟩
  · exact h
  · rw [hs1] at h3
    have hmean : ∀ q : ℕ → ℝ, Spec.wmean W q n = q i := by
      intro q
      unfold Spec.wmean
      rw [hs, hs1]
      field_simp
    simp only [hmean] at h
    rcases h with ⟨h, -⟩ | ⟨-, h⟩
    · exfalso
      have := inc_le hx (le_refl 1) (j := n) (by omega) (le_refl n)
      simp at h
      linarith
    · exact h

/-- **C145 (few neighbours).** If the span covers less than three points, the smoother returns the data. -/
theorem C145_few (x y : ℕ → ℝ) (n iter : ℕ) (span : ℝ) (hn : 3 ≤ n) (hx : Increasing x n) (h0 : 0 ≤ span)
    (hs : span * n < 3 - 1 / 1000000) :
    ∃ ys, smooth x y n span iter 0 = some ys ∧ ∀ i, 1 ≤ i → i ≤ n → ys i = y i := by
  obtain ⟨ys, e, h⟩ := C145_regression x y n iter span hn hx
  refine ⟨ys, e, ?_⟩
  have hp : points n span = 2 := by
    unfold points
    have : ⌊span * n + 1 / 10000000⌋₊ < 3 := by
      rw [Nat.floor_lt (by positivity)]
      push_cast
      linarith
    omega
  rw [hp] at h
  have : ∀ m g, Spec.Smoothed x y n 2 m g ys → ∀ i, 1 ≤ i → i ≤ n → ys i = y i := by
    intro m
    induction m with
    | zero => intro g h i h1 h2; exact fit_two hx h1 h2 (h i h1 h2)
    | succ m ih =>
      rintro g ⟨fit, M, -, -, h⟩
      exact ih _ h
  exact this _ _ h

/-- The partial sort of two equal elements. -/
theorem psort_equal (r : ℕ → ℝ) (h : r 0 = r 1) (k : ℕ) (hk : k < 2) : ∃ b, psort r 2 k = some b ∧ b 0 = r 0 ∧ b 1 = r 0 := by
  have hkv : r k = r 0 := by
    rcases (by omega : k = 0 ∨ k = 1) with c | c
    · rw [c]
    · rw [c, h]
  have e1 : scanUp r (r 0) 2 0 = some 0 := by simp [scanUp]
  have e2 : scanDown r (r 0) 1 = some 1 := by simp [scanDown, h]
  refine ⟨swap r 0 1, ?_, by rw [swap_l, h], by rw [swap_r]⟩
  have hp : partition 2 (r k) (2 + 1) r 0 1 = some (swap r 0 1, 1, 0) := by
    rw [hkv]
    simp [partition, e1, e2]
  rcases (by omega : k = 0 ∨ k = 1) with c | c
  · subst c
    simp [psort, select, hp]
  · subst c
    simp [psort, select, hp]

/-- **C145 (one or two points).** One or two points are returned unchanged. -/
theorem C145_short (x y : ℕ → ℝ) (n iter : ℕ) (span : ℝ) (h1 : 1 ≤ n) (h2 : n ≤ 2) (hx : Increasing x n) :
    ∃ ys, smooth x y n span iter 0 = some ys ∧ ∀ i, 1 ≤ i → i ≤ n → ys i = y i := by
  rcases (by omega : n = 1 ∨ n = 2) with h | h
  · subst h
    refine ⟨fun _ => y 1, by simp [smooth], fun i h1 h2 => ?_⟩
    have : i = 1 := by omega
    rw [this]
  · subst h
    have hp : points 2 span = 2 := by
      have := points_bounds span (le_refl 2)
      omega
    have hpass : ∀ rw' prev, (∀ j, 0 ≤ weights rw' j) →
        ∃ zs, pass x y 2 2 0 rw' prev = some zs ∧ ∀ i, 1 ≤ i → i ≤ 2 → zs i = y i := by
      intro rw' prev hg
      obtain ⟨zs, e, h⟩ := pass_spec (y := y) hx (le_refl 2) (le_refl 2) rw' prev
      refine ⟨zs, e, fun i h1 h2 => ?_⟩
      obtain ⟨l, u, c1, c2, c3⟩ := h i h1 h2
      rw [c3]
      exact fit_two hx h1 h2 (lowest_fit hx rw' hg (le_refl 2) c1 c2)
    have hit : ∀ m rw' prev, (∀ j, 0 ≤ weights rw' j) →
        ∃ zs, iterate x y 2 2 0 m rw' prev = some zs ∧ ∀ i, 1 ≤ i → i ≤ 2 → zs i = y i := by
      intro m
      induction m with
      | zero => exact hpass
      | succ m ih =>
        intro rw' prev hg
        obtain ⟨zs, e, h⟩ := hpass rw' prev hg
        have z0 : |y (0 + 1) - zs (0 + 1)| = 0 := by rw [h (0 + 1) (by omega) (by omega)]; simp
        have z1 : |y (1 + 1) - zs (1 + 1)| = 0 := by rw [h (1 + 1) (by omega) (by omega)]; simp
        obtain ⟨b, e1, b0, b1⟩ := psort_equal (fun i => |y (i + 1) - zs (i + 1)|) (z0.trans z1.symm) 1 (by omega)
        obtain ⟨c, e2, c0, c1⟩ := psort_equal b (b0.trans b1.symm) 0 (by omega)
        have hc : cmad (fun i => |y (i + 1) - zs (i + 1)|) 2 = some (3 * (c 1 + c 0)) := by
          simp [cmad, e1, e2]
        obtain ⟨ws, e3, h3⟩ := ih (some fun j => robust (3 * (c 1 + c 0)) |y j - zs j|) zs (fun j => by
          show 0 ≤ robust _ _
          rw [robust_eq]
          exact bisquare_nonneg _ _)
        refine ⟨ws, ?_, h3⟩
        unfold iterate
        rw [e]
        simp only [Option.bind_eq_bind, Option.bind_some, hc, e3]
    obtain ⟨zs, e, h⟩ := hit iter none (fun _ => 0) (fun _ => zero_le_one)
    refine ⟨zs, ?_, h⟩
    unfold smooth
    rw [if_neg (by omega), if_neg (by omega), hp, e]

/-- Without weights the value of the point is returned. -/
theorem fit_zero {x y : ℕ → ℝ} {n ns i : ℕ} {v : ℝ} {g : ℕ → ℝ} (hg : ∀ j, g j = 0) (h : Spec.LocalFit x y g n ns i v) :
    v = y i := by
  obtain ⟨l, u, -, -, h⟩ := h
  rcases h with ⟨-, h⟩ | ⟨h3, -⟩
  · exact h
  · exfalso
    simp [hg] at h3

open Classical in
theorem median_zero {y fit : ℕ → ℝ} {n : ℕ} {M : ℝ}
    (hmaj : n / 2 < ((range n).filter fun j => y (j + 1) = fit (j + 1)).card)
    (hM : Spec.Median (fun j => |y (j + 1) - fit (j + 1)|) n M) : M = 0 := by
  have hstat : ∀ k v, k ≤ n / 2 → Spec.OrderStat (fun j => |y (j + 1) - fit (j + 1)|) n k v → v = 0 := by
    intro k v hk ⟨s1, s2⟩
    have hv : 0 ≤ v := by
      by_contra hc
      have : ((range n).filter fun j => |y (j + 1) - fit (j + 1)| ≤ v).card = 0 := by
        rw [card_eq_zero, filter_eq_empty_iff]
        intro j _ h'
        have := abs_nonneg (y (j + 1) - fit (j + 1))
        linarith
      have h' : k < 0 := by
        rw [← this]
        convert s2
      omega
    by_contra hc
    have hpos : 0 < v := lt_of_le_of_ne hv (Ne.symm hc)
    have hle : ((range n).filter fun j => y (j + 1) = fit (j + 1)).card ≤
        ((range n).filter fun j => |y (j + 1) - fit (j + 1)| < v).card := by
      apply card_le_card
      intro j hj
      rw [mem_filter] at hj ⊢
      refine ⟨hj.1, ?_⟩
      rw [hj.2]
      simpa using hpos
    have s1' : ((range n).filter fun j => |y (j + 1) - fit (j + 1)| < v).card ≤ k := by convert s1
    have hmaj' : n / 2 < ((range n).filter fun j => y (j + 1) = fit (j + 1)).card := by convert hmaj
    omega
  obtain ⟨p, q, hp, hq, hMv⟩ := hM
  rw [hMv, hstat _ p (le_refl _) hp, hstat _ q (by omega) hq]
  simp

open Classical in
/-- **C145 (exact fits).** If a robustness iteration finds more than half of the points fitted exactly, all weights become zero
and the following iterations return the data, including every outlier. -/
theorem C145_exact_majority (x y : ℕ → ℝ) (n ns m : ℕ) (fit ys : ℕ → ℝ)
    (hmaj : n / 2 < ((range n).filter fun j => y (j + 1) = fit (j + 1)).card)
    (M : ℝ) (hM : Spec.Median (fun j => |y (j + 1) - fit (j + 1)|) n M)
    (h : Spec.Smoothed x y n ns m (fun j => Spec.bisquare (6 * M) |y j - fit j|) ys) :
    ∀ i, 1 ≤ i → i ≤ n → ys i = y i := by
  have hM0 := median_zero hmaj hM
  subst hM0
  have : ∀ m g, (∀ j, g j = 0) → Spec.Smoothed x y n ns m g ys → ∀ i, 1 ≤ i → i ≤ n → ys i = y i := by
    intro m
    induction m with
    | zero => intro g hg h i h1 h2; exact fit_zero hg (h i h1 h2)
    | succ m ih =>
      rintro g hg ⟨fit', M', hf, hM', h⟩ i h1 h2
      have hall : ((range n).filter fun j => y (j + 1) = fit' (j + 1)) = range n := by
        rw [filter_eq_self]
        intro j hj
        rw [mem_range] at hj
        exact (fit_zero hg (hf (j + 1) (by omega) (by omega))).symm
      have hM0 : M' = 0 := median_zero (by rw [hall, card_range]; omega) hM'
      subst hM0
      refine ih _ ?_ h i h1 h2
      intro j
      simp [Spec.bisquare]
  refine this m _ ?_ h
  intro j
  simp [Spec.bisquare]

/-! ### Data on a line, scaled data, negative values -/

theorem quad_zero {E S : ℝ} (h : ∀ t : ℝ, 0 ≤ 2 * t * E + t ^ 2 * S) : E = 0 := by
  by_contra hE
  have hS : 0 < |S| + 1 := by positivity
  have h1 := h (-E / (|S| + 1))
  have h2 : S ≤ |S| := le_abs_self S
  have h3 : 0 ≤ |S| := abs_nonneg S
  have h4 : 0 < E ^ 2 := by positivity
  have e : 2 * (-E / (|S| + 1)) * E + (-E / (|S| + 1)) ^ 2 * S = E ^ 2 * (S - 2 * (|S| + 1)) / (|S| + 1) ^ 2 := by
    field_simp
    ring
  rw [e] at h1
  have h5 : E ^ 2 * (S - 2 * (|S| + 1)) / (|S| + 1) ^ 2 < 0 :=
    div_neg_of_neg_of_pos (mul_neg_of_pos_of_neg h4 (by linarith)) (by positivity)
  linarith

/-- The best line satisfies the normal equations. -/
theorem best_normal {x y W : ℕ → ℝ} {n : ℕ} {t v : ℝ} (h : Spec.BestLine x y W n t v) :
    ∃ a b, v = a + b * t ∧ ∑ j ∈ Icc 1 n, W j * (y j - (a + b * x j)) = 0 ∧
      ∑ j ∈ Icc 1 n, W j * (y j - (a + b * x j)) * x j = 0 := by
  obtain ⟨a, b, e, h⟩ := h
  refine ⟨a, b, e, ?_, ?_⟩
  · apply quad_zero (S := ∑ j ∈ Icc 1 n, W j)
    intro t
    have := h (a - t) b
    have e : ∑ j ∈ Icc 1 n, W j * (y j - (a - t + b * x j)) ^ 2 =
        (∑ j ∈ Icc 1 n, W j * (y j - (a + b * x j)) ^ 2) +
          (2 * t * (∑ j ∈ Icc 1 n, W j * (y j - (a + b * x j))) + t ^ 2 * ∑ j ∈ Icc 1 n, W j) := by
      simp only [mul_sum, ← sum_add_distrib]
      apply sum_congr rfl
      intro j _
      ring
    linarith
  · apply quad_zero (S := ∑ j ∈ Icc 1 n, W j * x j ^ 2)
    intro t
    have := h a (b - t)
    have e : ∑ j ∈ Icc 1 n, W j * (y j - (a + (b - t) * x j)) ^ 2 =
        (∑ j ∈ Icc 1 n, W j * (y j - (a + b * x j)) ^ 2) +
          (2 * t * (∑ j ∈ Icc 1 n, W j * (y j - (a + b * x j)) * x j) + t ^ 2 * ∑ j ∈ Icc 1 n, W j * x j ^ 2) := by
      simp only [mul_sum, ← sum_add_distrib]
      apply sum_congr rfl
      intro j _
      ring
    linarith

/-- **C145 (signs).** Smoothed values of positive data can be negative: nothing keeps the smoothed cross sections
positive. -/
theorem C145_positive_false : ∃ (x y ys : ℕ → ℝ), Increasing x 4 ∧ (∀ i, 0 < y i) ∧ smooth x y 4 1 0 0 = some ys ∧
    ys 1 < 0 := by
  let x : ℕ → ℝ := fun i => i
  let y : ℕ → ℝ := fun i => if i ≤ 2 then 1 else 100
  have hx : Increasing x 4 := fun i j _ h _ => by
    show (i : ℝ) < j
    exact_mod_cast h
  obtain ⟨ys, e, h⟩ := C145_regression x y 4 0 1 (by norm_num) hx
  refine ⟨x, y, ys, hx, fun i => ?_, e, ?_⟩
  · show 0 < if i ≤ 2 then (1 : ℝ) else 100
    split_ifs <;> norm_num
  · have hp : points 4 1 = 4 := by
      have := C145_points 4 4 1 (by norm_num) (by norm_num) (by norm_num)
      simpa using this
    rw [hp] at h
    obtain ⟨l, u, hu, ⟨n1, n2, n3, n4, -⟩, h⟩ := h 1 (le_refl _) (by norm_num)
    have hl : l = 1 := by omega
    have hu' : u = 4 := by omega
    subst hl hu'
    have hS4 : ∀ q : ℕ → ℝ, ∑ j ∈ Icc 1 4, q j = q 1 + q 2 + q 3 + q 4 := by
      intro q
      simp [Finset.sum_Icc_succ_top]
    dsimp only at h
    generalize hW : (fun j => Spec.tricube (max (x 1 - x 1) (x 4 - x 1)) |x j - x 1| * 1) = W at h
    have w1 : W 1 = 1 := by rw [← hW]; norm_num [x, Spec.tricube]
    have w2 : W 2 = (26 / 27) ^ 3 := by rw [← hW]; norm_num [x, Spec.tricube]
    have w3 : W 3 = (19 / 27) ^ 3 := by rw [← hW]; norm_num [x, Spec.tricube]
    have w4 : W 4 = 0 := by rw [← hW]; norm_num [x, Spec.tricube]
    rcases h with ⟨h, -⟩ | ⟨-, h⟩
    · have : W 1 = 0 := by rw [← hW]; exact h 1 (le_refl _) (by norm_num)
      rw [w1] at this
      norm_num at this
    · rcases h with ⟨-, h⟩ | ⟨h, -⟩
      · obtain ⟨a, b, ev, h1, h2⟩ := best_normal h
        rw [hS4, w1, w2, w3, w4] at h1 h2
        norm_num [x, y] at h1 h2 ev
        rw [ev]
        linarith
      · exfalso
        rw [Real.sqrt_le_iff] at h
        have h' := h.2
        simp only [Spec.wmean, hS4, w1, w2, w3, w4, x] at h'
        norm_num at h'

/-! ### The specification determines the result -/

theorem spread_eq {x W : ℕ → ℝ} {n : ℕ} (hS : 0 < ∑ j ∈ Icc 1 n, W j) :
    Spec.wmean W (fun j => (x j - Spec.wmean W x n) ^ 2) n * (∑ j ∈ Icc 1 n, W j) ^ 2 =
      (∑ j ∈ Icc 1 n, W j) * (∑ j ∈ Icc 1 n, W j * x j * x j) - (∑ j ∈ Icc 1 n, W j * x j) ^ 2 := by
  have hm : Spec.wmean W x n = (∑ j ∈ Icc 1 n, W j * x j) / ∑ j ∈ Icc 1 n, W j := rfl
  generalize Spec.wmean W x n = m at *
  have e : ∑ j ∈ Icc 1 n, W j * (x j - m) ^ 2 =
      (∑ j ∈ Icc 1 n, W j * x j * x j) - 2 * m * (∑ j ∈ Icc 1 n, W j * x j) + m * m * ∑ j ∈ Icc 1 n, W j := by
    simp only [mul_sum, ← sum_add_distrib, ← sum_sub_distrib]
    apply sum_congr rfl
    intro j _
    ring
  unfold Spec.wmean
  rw [e]
  generalize (∑ j ∈ Icc 1 n, W j) = S at *
  generalize (∑ j ∈ Icc 1 n, W j * x j) = X at *
  generalize (∑ j ∈ Icc 1 n, W j * x j * x j) = Y at *
  rw [hm]
  field_simp
  ring

theorem normal_unique {x y W : ℕ → ℝ} {n : ℕ} {a b a' b' : ℝ} (hS : 0 < ∑ j ∈ Icc 1 n, W j)
    (hc : 0 < Spec.wmean W (fun j => (x j - Spec.wmean W x n) ^ 2) n)
    (h1 : ∑ j ∈ Icc 1 n, W j * (y j - (a + b * x j)) = 0) (h2 : ∑ j ∈ Icc 1 n, W j * (y j - (a + b * x j)) * x j = 0)
    (h1' : ∑ j ∈ Icc 1 n, W j * (y j - (a' + b' * x j)) = 0)
    (h2' : ∑ j ∈ Icc 1 n, W j * (y j - (a' + b' * x j)) * x j = 0) : a = a' ∧ b = b' := by
  have e1 : (a' - a) * (∑ j ∈ Icc 1 n, W j) + (b' - b) * (∑ j ∈ Icc 1 n, W j * x j) =
      (∑ j ∈ Icc 1 n, W j * (y j - (a + b * x j))) - ∑ j ∈ Icc 1 n, W j * (y j - (a' + b' * x j)) := by
    simp only [mul_sum, ← sum_add_distrib, ← sum_sub_distrib]
    apply sum_congr rfl
    intro j _
    ring
  have e2 : (a' - a) * (∑ j ∈ Icc 1 n, W j * x j) + (b' - b) * (∑ j ∈ Icc 1 n, W j * x j * x j) =
      (∑ j ∈ Icc 1 n, W j * (y j - (a + b * x j)) * x j) - ∑ j ∈ Icc 1 n, W j * (y j - (a' + b' * x j)) * x j := by
    simp only [mul_sum, ← sum_add_distrib, ← sum_sub_distrib]
    apply sum_congr rfl
    intro j _
    ring
  rw [h1, h1', sub_zero] at e1
  rw [h2, h2', sub_zero] at e2
  have hd : 0 < (∑ j ∈ Icc 1 n, W j) * (∑ j ∈ Icc 1 n, W j * x j * x j) - (∑ j ∈ Icc 1 n, W j * x j) ^ 2 := by
    rw [← spread_eq hS]
    positivity
  generalize (∑ j ∈ Icc 1 n, W j) = S at *
  generalize (∑ j ∈ Icc 1 n, W j * x j) = X at *
  generalize (∑ j ∈ Icc 1 n, W j * x j * x j) = Y at *
  have hb : (b' - b) * (S * Y - X ^ 2) = 0 := by linear_combination S * e2 - X * e1
  have hb0 : b' - b = 0 := by
    rcases mul_eq_zero.1 hb with h | h
    · exact h
    · exact absurd h hd.ne'
  have ha : (a' - a) * S = 0 := by linear_combination e1 - X * hb0
  have ha0 : a' - a = 0 := by
    rcases mul_eq_zero.1 ha with h | h
    · exact h
    · exact absurd h hS.ne'
  exact ⟨by linarith, by linarith⟩

theorem window_lt {x : ℕ → ℝ} {n ns i l u l' u' : ℕ} (hx : Increasing x n) (hu : u + 1 = l + ns) (hu' : u' + 1 = l' + ns)
    (hl : l < l') (h : Spec.Nearest x n i l u) (h' : Spec.Nearest x n i l' u') :
    max (x i - x l) (x u - x i) = max (x i - x l') (x u' - x i) := by
  obtain ⟨a1, a2, a3, a4, a5⟩ := h
  obtain ⟨b1, b2, b3, b4, b5⟩ := h'
  have c1 := a5 u' (by omega) b4 (by omega) l (le_refl _) (by omega)
  have c2 := a5 u' (by omega) b4 (by omega) u (by omega) (le_refl _)
  have c3 := b5 l a1 (by omega) (by omega) l' (le_refl _) (by omega)
  have c4 := b5 l a1 (by omega) (by omega) u' (by omega) (le_refl _)
  have d1 := inc_le hx a1 a2 (by omega)
  have d2 := inc_le hx (i := i) (j := u) (by omega) a3 a4
  have d3 := inc_le hx b1 b2 (by omega)
  have d4 := inc_le hx (i := i) (j := u') (by omega) b3 b4
  rw [abs_sub_comm (x l), abs_of_nonneg (a := x i - x l) (by linarith)] at c1 c3 c4
  rw [abs_of_nonneg (a := x u' - x i) (by linarith)] at c1 c2 c4
  rw [abs_of_nonneg (a := x u - x i) (by linarith)] at c2
  rw [abs_sub_comm (x l'), abs_of_nonneg (a := x i - x l') (by linarith)] at c3
  rw [max_eq_left (by linarith), max_eq_right (by linarith)]
  linarith

theorem window_unique {x : ℕ → ℝ} {n ns i l u l' u' : ℕ} (hx : Increasing x n) (hu : u + 1 = l + ns) (hu' : u' + 1 = l' + ns)
    (h : Spec.Nearest x n i l u) (h' : Spec.Nearest x n i l' u') :
    max (x i - x l) (x u - x i) = max (x i - x l') (x u' - x i) := by
  rcases lt_trichotomy l l' with hl | hl | hl
  · exact window_lt hx hu hu' hl h h'
  · have : u = u' := by omega
    rw [hl, this]
  · exact (window_lt hx hu' hu hl h' h).symm

theorem fit_unique {x y g g' : ℕ → ℝ} {n ns i : ℕ} {v v' : ℝ} (hx : Increasing x n)
    (hg : ∀ j, 1 ≤ j → j ≤ n → g j = g' j) (h : Spec.LocalFit x y g n ns i v) (h' : Spec.LocalFit x y g' n ns i v') :
    v = v' := by
  obtain ⟨l, u, hu, hN, h⟩ := h
  obtain ⟨l', u', hu', hN', h'⟩ := h'
  rw [← window_unique hx hu hu' hN hN'] at h'
  have h1n : 1 ≤ n := le_trans hN.1 (le_trans hN.2.1 (le_trans hN.2.2.1 hN.2.2.2.1))
  dsimp only at h h'
  have hr : 0 ≤ (x n - x 1) / 1000 := by
    have := inc_le hx (le_refl 1) h1n (le_refl n)
    linarith
  generalize hW : (fun j => Spec.tricube (max (x i - x l) (x u - x i)) |x j - x i| * g j) = W at h
  generalize hW' : (fun j => Spec.tricube (max (x i - x l) (x u - x i)) |x j - x i| * g' j) = W' at h'
  have hWW : ∀ j ∈ Icc 1 n, W j = W' j := by
    intro j hj
    rw [mem_Icc] at hj
    rw [← hW, ← hW']
    dsimp only
    rw [hg j hj.1 hj.2]
  have hs : ∀ q : ℕ → ℝ, ∑ j ∈ Icc 1 n, W' j * q j = ∑ j ∈ Icc 1 n, W j * q j := by
    intro q
    apply sum_congr rfl
    intro j hj
    rw [hWW j hj]
  have hs1 : ∑ j ∈ Icc 1 n, W' j = ∑ j ∈ Icc 1 n, W j := sum_congr rfl fun j hj => (hWW j hj).symm
  have hm : ∀ q : ℕ → ℝ, Spec.wmean W' q n = Spec.wmean W q n := by
    intro q
    unfold Spec.wmean
    rw [hs, hs1]
  have hb : ∀ t w, Spec.BestLine x y W' n t w ↔ Spec.BestLine x y W n t w := by
    intro t w
    unfold Spec.BestLine
    simp only [hs]
  simp only [hm, hb, hs1] at h'
  have hz : (∀ j, 1 ≤ j → j ≤ n → W j = 0) → ∑ j ∈ Icc 1 n, W j = 0 := fun h0 =>
    sum_eq_zero fun j hj => by
      rw [mem_Icc] at hj
      exact h0 j hj.1 hj.2
  have e0 : (∀ j, 1 ≤ j → j ≤ n → Spec.tricube (max (x i - x l) (x u - x i)) |x j - x i| * g j = 0) →
      ∀ j, 1 ≤ j → j ≤ n → W j = 0 := by
    intro h0 j h1 h2
    rw [← hW]
    exact h0 j h1 h2
  have e0' : (∀ j, 1 ≤ j → j ≤ n → Spec.tricube (max (x i - x l) (x u - x i)) |x j - x i| * g' j = 0) →
      ∀ j, 1 ≤ j → j ≤ n → W j = 0 := by
    intro h0 j h1 h2
    rw [hWW j (by rw [mem_Icc]; exact ⟨h1, h2⟩), ← hW']
    exact h0 j h1 h2
  rcases h with ⟨h1, h2⟩ | ⟨h1, h2⟩
  · rcases h' with ⟨-, h4⟩ | ⟨h3, -⟩
    · rw [h2, h4]
    · rw [hz (e0 h1)] at h3
      exact absurd h3 (lt_irrefl _)
  · rcases h' with ⟨h3, -⟩ | ⟨-, h4⟩
    · rw [hz (e0' h3)] at h1
      exact absurd h1 (lt_irrefl _)
    · rcases h2 with ⟨s1, b1⟩ | ⟨s1, b1⟩
      · rcases h4 with ⟨-, b2⟩ | ⟨s2, -⟩
        · obtain ⟨a, b, ev, n1, n2⟩ := best_normal b1
          obtain ⟨a', b', ev', n1', n2'⟩ := best_normal b2
          have := normal_unique h1 (Real.sqrt_pos.1 (lt_of_le_of_lt hr s1)) n1 n2 n1' n2'
          rw [ev, ev', this.1, this.2]
        · exact absurd s1 (not_lt.2 s2)
      · rcases h4 with ⟨s2, -⟩ | ⟨-, b2⟩
        · exact absurd s2 (not_lt.2 s1)
        · rw [b1, b2]

open Classical in
theorem stat_unique {r : ℕ → ℝ} {n k : ℕ} {v v' : ℝ} (h : Spec.OrderStat r n k v) (h' : Spec.OrderStat r n k v') :
    v = v' := by
  have key : ∀ {v v' : ℝ}, Spec.OrderStat r n k v → Spec.OrderStat r n k v' → ¬ v < v' := by
    intro v v' h h' hlt
    have : ((range n).filter fun m => r m ≤ v).card ≤ ((range n).filter fun m => r m < v').card := by
      apply card_le_card
      intro m hm
      rw [mem_filter] at hm ⊢
      exact ⟨hm.1, lt_of_le_of_lt hm.2 hlt⟩
    have a := h.2
    have b := h'.1
    omega
  rcases lt_trichotomy v v' with c | c | c
  · exact absurd c (key h h')
  · exact c
  · exact absurd c (key h' h)

open Classical in
theorem stat_congr {r r' : ℕ → ℝ} {n k : ℕ} {v : ℝ} (hr : ∀ m, m < n → r m = r' m) (h : Spec.OrderStat r n k v) :
    Spec.OrderStat r' n k v := by
  unfold Spec.OrderStat at h ⊢
  have e1 : ((range n).filter fun m => r' m < v) = (range n).filter fun m => r m < v := by
    apply filter_congr
    intro m hm
    rw [hr m (mem_range.1 hm)]
  have e2 : ((range n).filter fun m => r' m ≤ v) = (range n).filter fun m => r m ≤ v := by
    apply filter_congr
    intro m hm
    rw [hr m (mem_range.1 hm)]
  rw [e1, e2]
  exact h

theorem median_unique {r r' : ℕ → ℝ} {n : ℕ} {v v' : ℝ} (hr : ∀ m, m < n → r m = r' m) (h : Spec.Median r n v)
    (h' : Spec.Median r' n v') : v = v' := by
  obtain ⟨p, q, hp, hq, e⟩ := h
  obtain ⟨p', q', hp', hq', e'⟩ := h'
  rw [e, e', stat_unique (stat_congr hr hp) hp', stat_unique (stat_congr hr hq) hq']

/-- **C145 (unique).** The specification determines the smoothed values. -/
theorem C145_unique (x y : ℕ → ℝ) (n ns : ℕ) (hx : Increasing x n) : ∀ (m : ℕ) (g g' ys ys' : ℕ → ℝ),
    (∀ j, 1 ≤ j → j ≤ n → g j = g' j) → Spec.Smoothed x y n ns m g ys → Spec.Smoothed x y n ns m g' ys' →
    ∀ i, 1 ≤ i → i ≤ n → ys i = ys' i := by
  intro m
  induction m with
  | zero =>
    intro g g' ys ys' hg h h' i h1 h2
    exact fit_unique hx hg (h i h1 h2) (h' i h1 h2)
  | succ m ih =>
    rintro g g' ys ys' hg ⟨fit, M, hf, hM, h⟩ ⟨fit', M', hf', hM', h'⟩
    have hfit : ∀ i, 1 ≤ i → i ≤ n → fit i = fit' i := fun i h1 h2 => fit_unique hx hg (hf i h1 h2) (hf' i h1 h2)
    have hMM : M = M' := median_unique (fun m hm => by
      rw [hfit (m + 1) (by omega) (by omega)]) hM hM'
    refine ih _ _ ys ys' ?_ h h'
    intro j h1 h2
    rw [hMM, hfit j h1 h2]

/-! ### Scaled and shifted data -/

theorem wmean_affine {W f : ℕ → ℝ} {n : ℕ} (α β : ℝ) (hS : 0 < ∑ j ∈ Icc 1 n, W j) :
    Spec.wmean W (fun j => α * f j + β) n = α * Spec.wmean W f n + β := by
  unfold Spec.wmean
  have e : ∑ j ∈ Icc 1 n, W j * (α * f j + β) = α * (∑ j ∈ Icc 1 n, W j * f j) + β * ∑ j ∈ Icc 1 n, W j := by
    simp only [mul_sum, ← sum_add_distrib]
    apply sum_congr rfl
    intro j _
    ring
  rw [e]
  generalize (∑ j ∈ Icc 1 n, W j) = S at *
  field_simp

theorem best_affine {x y W : ℕ → ℝ} {n : ℕ} {t v : ℝ} (hW : ∀ j ∈ Icc 1 n, 0 ≤ W j) (α β : ℝ)
    (h : Spec.BestLine x y W n t v) : Spec.BestLine x (fun j => α * y j + β) W n t (α * v + β) := by
  obtain ⟨a, b, ev, h1, h2⟩ := best_normal h
  refine ⟨α * a + β, α * b, by rw [ev]; ring, normal_best hW ?_ ?_⟩
  · have e : ∑ j ∈ Icc 1 n, W j * (α * y j + β - (α * a + β + α * b * x j)) =
        α * ∑ j ∈ Icc 1 n, W j * (y j - (a + b * x j)) := by
      simp only [mul_sum]
      apply sum_congr rfl
      intro j _
      ring
    rw [e, h1, mul_zero]
  · have e : ∑ j ∈ Icc 1 n, W j * (α * y j + β - (α * a + β + α * b * x j)) * x j =
        α * ∑ j ∈ Icc 1 n, W j * (y j - (a + b * x j)) * x j := by
      simp only [mul_sum]
      apply sum_congr rfl
      intro j _
      ring
    rw [e, h2, mul_zero]

theorem fit_affine {x y g : ℕ → ℝ} {n ns i : ℕ} {v : ℝ} (hns : 2 ≤ ns) (hx : Increasing x n) (hg : ∀ j, 0 ≤ g j) (α β : ℝ)
    (h : Spec.LocalFit x y g n ns i v) : Spec.LocalFit x (fun j => α * y j + β) g n ns i (α * v + β) := by
  obtain ⟨l, u, hu, hN, h⟩ := h
  refine ⟨l, u, hu, hN, ?_⟩
  obtain ⟨n1, n2, n3, n4, -⟩ := hN
  dsimp only at h ⊢
  have hpos : 0 < max (x i - x l) (x u - x i) := by
    have hlu := hx l u n1 (by omega) n4
    rcases lt_or_ge (x l) (x i) with h | h
    · exact lt_max_of_lt_left (by linarith)
    · exact lt_max_of_lt_right (by linarith)
  rcases h with ⟨h1, h2⟩ | ⟨h1, h2⟩
  · exact Or.inl ⟨h1, by rw [h2]⟩
  · refine Or.inr ⟨h1, ?_⟩
    rcases h2 with ⟨s, b⟩ | ⟨s, b⟩
    · exact Or.inl ⟨s, best_affine (fun j _ => mul_nonneg (tricube_nonneg hpos (abs_nonneg _)) (hg j)) α β b⟩
    · refine Or.inr ⟨s, ?_⟩
      rw [b, ← wmean_affine α β h1]

open Classical in
theorem stat_scale {r : ℕ → ℝ} {n k : ℕ} {v c : ℝ} (hc : 0 < c) (h : Spec.OrderStat r n k v) :
    Spec.OrderStat (fun m => c * r m) n k (c * v) := by
  unfold Spec.OrderStat at h ⊢
  simp only [mul_lt_mul_iff_right₀ hc, mul_le_mul_iff_right₀ hc]
  exact h

theorem bisquare_scale {c M r : ℝ} (hc : 0 < c) : Spec.bisquare (c * M) (c * r) = Spec.bisquare M r := by
  unfold Spec.bisquare
  by_cases h : M = 0
  · rw [if_pos h, if_pos (by rw [h, mul_zero])]
  · rw [if_neg h, if_neg (mul_ne_zero hc.ne' h)]
    have e : c * r / (c * M) = r / M := by field_simp
    rw [e]
    have e1 : c * r ≤ c * M / 1000 ↔ r ≤ M / 1000 := by
      rw [mul_div_assoc, mul_le_mul_iff_right₀ hc]
    have e2 : c * r ≤ 999 / 1000 * (c * M) ↔ r ≤ 999 / 1000 * M := by
      rw [mul_left_comm, mul_le_mul_iff_right₀ hc]
    simp only [e1, e2]

theorem smoothed_affine {x y : ℕ → ℝ} {n ns : ℕ} (hns : 2 ≤ ns) (hx : Increasing x n) {α : ℝ} (hα : α ≠ 0) (β : ℝ) :
    ∀ (m : ℕ) (g ys : ℕ → ℝ), (∀ j, 0 ≤ g j) → Spec.Smoothed x y n ns m g ys →
      Spec.Smoothed x (fun j => α * y j + β) n ns m g (fun j => α * ys j + β) := by
  intro m
  induction m with
  | zero =>
    intro g ys hg h i h1 h2
    exact fit_affine hns hx hg α β (h i h1 h2)
  | succ m ih =>
    rintro g ys hg ⟨fit, M, hf, ⟨p, q, hp, hq, hM⟩, h⟩
    have hα' : 0 < |α| := abs_pos.2 hα
    have ea : ∀ j, |α * y j + β - (α * fit j + β)| = |α| * |y j - fit j| := by
      intro j
      rw [← abs_mul]
      congr 1
      ring
    refine ⟨fun j => α * fit j + β, |α| * M, fun i h1 h2 => fit_affine hns hx hg α β (hf i h1 h2), ?_, ?_⟩
    · refine ⟨|α| * p, |α| * q, ?_, ?_, by rw [hM]; ring⟩
      · simp only [ea]
        exact stat_scale hα' hp
      · simp only [ea]
        exact stat_scale hα' hq
    · have := ih _ ys (fun j => bisquare_nonneg (6 * M) |y j - fit j|) h
      simp only [ea]
      have e : ∀ j, Spec.bisquare (6 * (|α| * M)) (|α| * |y j - fit j|) = Spec.bisquare (6 * M) |y j - fit j| := by
        intro j
        rw [mul_left_comm, bisquare_scale hα']
      simp only [e]
      exact this

/-- **C145 (units).** Smoothing commutes with a change of the unit or the zero of the ordinates: for every factor other than zero
and every shift the smoothed values change in the same way. -/
theorem C145_units (x y : ℕ → ℝ) (n iter : ℕ) (span α β : ℝ) (hn : 3 ≤ n) (hx : Increasing x n) (hα : α ≠ 0) :
    ∃ ys zs, smooth x y n span iter 0 = some ys ∧ smooth x (fun i => α * y i + β) n span iter 0 = some zs ∧
      ∀ i, 1 ≤ i → i ≤ n → zs i = α * ys i + β := by
  obtain ⟨ys, e, h⟩ := C145_regression x y n iter span hn hx
  obtain ⟨zs, e', h'⟩ := C145_regression x (fun i => α * y i + β) n iter span hn hx
  refine ⟨ys, zs, e, e', ?_⟩
  exact C145_unique x _ n _ hx iter _ _ zs _ (fun _ _ _ => rfl) h'
    (smoothed_affine (points_bounds span (by omega)).1 hx hα β iter _ ys (fun _ => zero_le_one) h)

theorem fit_const {x g : ℕ → ℝ} {n ns i : ℕ} {v β : ℝ} (hns : 2 ≤ ns) (hx : Increasing x n) (hg : ∀ j, 0 ≤ g j)
    (h : Spec.LocalFit x (fun _ => β) g n ns i v) : v = β := by
  have h0 := fit_affine hns hx hg 0 β h
  have e : (fun j : ℕ => 0 * (fun _ : ℕ => β) j + β) = fun _ => β := by
    funext j
    ring
  rw [e] at h0
  have := fit_unique hx (fun _ _ _ => rfl) h h0
  linarith

/-- **C145 (constant data).** Constant data are returned unchanged. -/
theorem C145_constant (x : ℕ → ℝ) (n iter : ℕ) (span β : ℝ) (hn : 3 ≤ n) (hx : Increasing x n) :
    ∃ ys, smooth x (fun _ => β) n span iter 0 = some ys ∧ ∀ i, 1 ≤ i → i ≤ n → ys i = β := by
  obtain ⟨ys, e, h⟩ := C145_regression x (fun _ => β) n iter span hn hx
  refine ⟨ys, e, ?_⟩
  have hns := (points_bounds span (n := n) (by omega)).1
  have : ∀ m g, (∀ j, 0 ≤ g j) → Spec.Smoothed x (fun _ => β) n (points n span) m g ys →
      ∀ i, 1 ≤ i → i ≤ n → ys i = β := by
    intro m
    induction m with
    | zero => intro g hg h i h1 h2; exact fit_const hns hx hg (h i h1 h2)
    | succ m ih =>
      rintro g hg ⟨fit, M, -, -, h⟩
      exact ih _ (fun j => bisquare_nonneg _ _) h
  exact this _ _ (fun _ => zero_le_one) h

/-- **C145 (lines).** Data on a straight line are returned unchanged, if in all local fits the weighted points are spread over
more than a thousandth of the range. -/
theorem C145_line_partial (x : ℕ → ℝ) (n iter : ℕ) (span a b : ℝ) (hn : 3 ≤ n) (hx : Increasing x n)
    (hs : ∀ i l u, u + 1 = l + points n span → Spec.Nearest x n i l u →
      let W := fun j => Spec.tricube (max (x i - x l) (x u - x i)) |x j - x i| * 1
      (x n - x 1) / 1000 < Real.sqrt (Spec.wmean W (fun j => (x j - Spec.wmean W x n) ^ 2) n)) :
    ∃ ys, smooth x (fun i => a + b * x i) n span iter 0 = some ys ∧ ∀ i, 1 ≤ i → i ≤ n → ys i = a + b * x i := by
  classical
  obtain ⟨ys, e, h⟩ := C145_regression x (fun i => a + b * x i) n iter span hn hx
  refine ⟨ys, e, ?_⟩
  have hfit : ∀ i v, Spec.LocalFit x (fun i => a + b * x i) (fun _ => 1) n (points n span) i v → v = a + b * x i := by
    rintro i v ⟨l, u, hu, hN, h⟩
    have hsp := hs i l u hu hN
    dsimp only at h hsp
    rcases h with ⟨-, h⟩ | ⟨h1, h2⟩
    · exact h
    · rcases h2 with ⟨-, h2⟩ | ⟨h2, -⟩
      · obtain ⟨a', b', ev, n1, n2⟩ := best_normal h2
        have hr : 0 ≤ (x n - x 1) / 1000 := by
          have := inc_le hx (le_refl 1) (j := n) (by omega) (le_refl n)
          linarith
        have := normal_unique (a' := a) (b' := b) h1 (Real.sqrt_pos.1 (lt_of_le_of_lt hr hsp)) n1 n2
          (sum_eq_zero fun j _ => by ring) (sum_eq_zero fun j _ => by ring)
        rw [ev, this.1, this.2]
      · exact absurd hsp (not_lt.2 h2)
  cases iter with
  | zero => exact fun i h1 h2 => hfit i _ (h i h1 h2)
  | succ m =>
    obtain ⟨fit, M, hf, hM, h⟩ := h
    refine C145_exact_majority x _ n _ m fit ys ?_ M hM h
    have hall : ((range n).filter fun j => (fun i => a + b * x i) (j + 1) = fit (j + 1)) = range n := by
      rw [filter_eq_self]
      intro j hj
      rw [mem_range] at hj
      exact (hfit (j + 1) _ (hf (j + 1) (by omega) (by omega))).symm
    have : n / 2 < ((range n).filter fun j => (fun i => a + b * x i) (j + 1) = fit (j + 1)).card := by
      rw [hall, card_range]
      omega
    convert this

example (i l u : ℕ) (hu : u + 1 = l + points 4 1) (hN : Spec.Nearest (fun i => (i : ℝ)) 4 i l u) :
    let x : ℕ → ℝ := fun i => i
    let W := fun j => Spec.tricube (max (x i - x l) (x u - x i)) |x j - x i| * 1
    (x 4 - x 1) / 1000 < Real.sqrt (Spec.wmean W (fun j => (x j - Spec.wmean W x 4) ^ 2) 4) := by
  have hp : points 4 1 = 4 := by
    have := C145_points 4 4 1 (by norm_num) (by norm_num) (by norm_num)
    simpa using this
  rw [hp] at hu
  obtain ⟨n1, n2, n3, n4, -⟩ := hN
  have hl : l = 1 := by omega
  have hu' : u = 4 := by omega
  subst hl hu'
  intro x W
  have hS4 : ∀ q : ℕ → ℝ, ∑ j ∈ Icc 1 4, q j = q 1 + q 2 + q 3 + q 4 := by
    intro q
    simp [Finset.sum_Icc_succ_top]
  rw [Real.lt_sqrt (by norm_num [x])]
  simp only [Spec.wmean, hS4, W, x]
  rcases (by omega : i = 1 ∨ i = 2 ∨ i = 3 ∨ i = 4) with h | h | h | h <;> subst h <;>
    norm_num [Spec.tricube, abs_of_nonneg, abs_of_neg]

/-- **C145 (clusters).** Without that condition they are not: points which are close together on the scale of all data are
replaced by their mean. -/
theorem C145_line_false : ∃ (x ys : ℕ → ℝ), Increasing x 5 ∧ smooth x x 5 (4 / 5) 0 0 = some ys ∧ ys 1 ≠ x 1 := by
  let x : ℕ → ℝ := fun i => if i ≤ 4 then i else 10000 * i
  have hx : Increasing x 5 := fun i j _ h hj => by
    show (if i ≤ 4 then (i : ℝ) else 10000 * i) < if j ≤ 4 then (j : ℝ) else 10000 * j
    have hij : (i : ℝ) < j := by exact_mod_cast h
    have hi0 : (0 : ℝ) ≤ i := Nat.cast_nonneg i
    rw [if_pos (show i ≤ 4 by omega)]
    split_ifs <;> linarith
  obtain ⟨ys, e, h⟩ := C145_regression x x 5 0 (4 / 5) (by norm_num) hx
  refine ⟨x, ys, hx, e, ?_⟩
  have hp : points 5 (4 / 5) = 4 := by
    have := C145_points 5 4 (4 / 5) (by norm_num) (by norm_num) (by norm_num)
    simpa using this
  rw [hp] at h
  obtain ⟨l, u, hu, ⟨n1, n2, n3, n4, -⟩, h⟩ := h 1 (le_refl _) (by norm_num)
  have hl : l = 1 := by omega
  have hu' : u = 4 := by omega
  subst hl hu'
  have hS5 : ∀ q : ℕ → ℝ, ∑ j ∈ Icc 1 5, q j = q 1 + q 2 + q 3 + q 4 + q 5 := by
    intro q
    simp [Finset.sum_Icc_succ_top]
  dsimp only at h
  generalize hW : (fun j => Spec.tricube (max (x 1 - x 1) (x 4 - x 1)) |x j - x 1| * 1) = W at h
  have w1 : W 1 = 1 := by rw [← hW]; norm_num [x, Spec.tricube]
  have w2 : W 2 = (26 / 27) ^ 3 := by rw [← hW]; norm_num [x, Spec.tricube]
  have w3 : W 3 = (19 / 27) ^ 3 := by rw [← hW]; norm_num [x, Spec.tricube]
  have w4 : W 4 = 0 := by rw [← hW]; norm_num [x, Spec.tricube]
  have w5 : W 5 = 0 := by rw [← hW]; norm_num [x, Spec.tricube]
  rcases h with ⟨h, -⟩ | ⟨-, h⟩
  · have : W 1 = 0 := by rw [← hW]; exact h 1 (le_refl _) (by norm_num)
    rw [w1] at this
    norm_num at this
  · rcases h with ⟨h, -⟩ | ⟨-, h⟩
    · exfalso
      have h' := (Real.lt_sqrt (by norm_num [x])).1 h
      simp only [Spec.wmean, hS5, w1, w2, w3, w4, w5, x] at h'
      norm_num at h'
    · rw [h]
      simp only [Spec.wmean, hS5, w1, w2, w3, w4, w5, x]
      norm_num

end Verif.Low
