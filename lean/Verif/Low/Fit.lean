import Verif.Low.Sort
import Mathlib.Tactic.FieldSimp
import Mathlib.Tactic.Positivity
import Mathlib.Tactic.LinearCombination

/-!
C145: the smoother is robust locally weighted regression.
-/

namespace Verif.Low

open Finset

/-- The values of `x` increase. -/
def Increasing (x : ℕ → ℝ) (n : ℕ) : Prop := ∀ i j, 1 ≤ i → i < j → j ≤ n → x i < x j

theorem inc_le {x : ℕ → ℝ} {n : ℕ} (hx : Increasing x n) {i j : ℕ} (h1 : 1 ≤ i) (h2 : i ≤ j) (h3 : j ≤ n) : x i ≤ x j := by
  rcases Nat.eq_or_lt_of_le h2 with h | h
  · rw [h]
  · exact (hx i j h1 h h3).le

theorem kern_eq {h r : ℝ} (hr : r ≤ 999 / 1000 * h) : kern h r = Spec.tricube h r := by
  unfold kern Spec.tricube
  by_cases c : r ≤ h / 1000
  · rw [if_pos (by linarith), if_pos c]
  · rw [if_neg (by intro h'; apply c; linarith), if_neg c, if_pos hr]
    ring

/-- The weighted sums of the fit are sums over all points with the weights of the specification. -/
theorem collect_sum {x : ℕ → ℝ} {n : ℕ} (hx : Increasing x n) (g : ℕ → ℝ) (xs h : ℝ) (q : ℕ → ℝ) (w : ℕ → ℝ → ℝ)
    (hw : ∀ j v, w j v = v * g j) (h0 : 0 < h) : ∀ f j, 1 ≤ j → j + f = n + 1 →
    wsum (collect x w xs h f j) q = ∑ m ∈ Ico j (n + 1), Spec.tricube h |x m - xs| * g m * q m
  | 0, j, _, e => by
    have : j = n + 1 := by omega
    subst this
    simp [collect, wsum]
  | f + 1, j, hj, e => by
    have ih := collect_sum hx g xs h q w hw h0 f (j + 1) (by omega) (by omega)
    rw [Finset.sum_eq_sum_Ico_succ_bot (by omega)]
    unfold collect
    dsimp only
    by_cases c1 : |x j - xs| ≤ 0.999 * h
    · rw [if_pos c1, ← ih, ← kern_eq (by linarith)]
      simp [wsum, hw]
    · rw [if_neg c1]
      by_cases c2 : x j > xs
      · rw [if_pos c2]
        have hz : ∀ m ∈ Ico j (n + 1), Spec.tricube h |x m - xs| * g m * q m = 0 := by
          intro m hm
          rw [mem_Ico] at hm
          have h1 : x j ≤ x m := inc_le hx hj hm.1 (by omega)
          have h2 : |x j - xs| ≤ |x m - xs| := by
            rw [abs_of_pos (by linarith), abs_of_pos (by linarith)]
            linarith
          have h3 : (0 : ℝ) < |x j - xs| := abs_pos.2 (by linarith)
          unfold Spec.tricube
          rw [if_neg, if_neg] <;> [ring; skip; skip] <;> intro h' <;> apply c1 <;> nlinarith
        have := Finset.sum_eq_zero hz
        rw [Finset.sum_eq_sum_Ico_succ_bot (by omega)] at this
        rw [this]
        simp [wsum]
      · rw [if_neg c2, ← ih]
        have hz : Spec.tricube h |x j - xs| = 0 := by
          unfold Spec.tricube
          rw [if_neg, if_neg] <;> intro h' <;> apply c1 <;> linarith
        rw [hz]
        simp [wsum]

theorem wsum_div (l : List (ℕ × ℝ)) (a : ℝ) (q : ℕ → ℝ) : wsum (l.map fun p => (p.1, p.2 / a)) q = wsum l q / a := by
  induction l with
  | nil => simp [wsum]
  | cons p l ih =>
    simp only [wsum, List.map_cons, List.sum_cons] at ih ⊢
    rw [ih]
    ring

theorem wsum_mul (l : List (ℕ × ℝ)) (k q : ℕ → ℝ) :
    wsum (l.map fun p => (p.1, p.2 * k p.1)) q = wsum l fun j => k j * q j := by
  induction l with
  | nil => simp [wsum]
  | cons p l ih =>
    simp only [wsum, List.map_cons, List.sum_cons] at ih ⊢
    rw [ih]
    ring

theorem tricube_nonneg {h r : ℝ} (h0 : 0 < h) (hr : 0 ≤ r) : 0 ≤ Spec.tricube h r := by
  unfold Spec.tricube
  split_ifs with h1 h2
  · exact zero_le_one
  · apply pow_nonneg
    have h3 : r / h ≤ 1 := by rw [div_le_one h0]; linarith
    have h4 : 0 ≤ r / h := by positivity
    have := pow_le_one₀ h4 h3 (n := 3)
    linarith
  · exact le_refl _

/-- Normal equations are sufficient. -/
theorem normal_best {x y W : ℕ → ℝ} {n : ℕ} (hW : ∀ j ∈ Icc 1 n, 0 ≤ W j) {a b : ℝ}
    (h1 : ∑ j ∈ Icc 1 n, W j * (y j - (a + b * x j)) = 0)
    (h2 : ∑ j ∈ Icc 1 n, W j * (y j - (a + b * x j)) * x j = 0) (a' b' : ℝ) :
    (∑ j ∈ Icc 1 n, W j * (y j - (a + b * x j)) ^ 2) ≤ ∑ j ∈ Icc 1 n, W j * (y j - (a' + b' * x j)) ^ 2 := by
  have e : ∑ j ∈ Icc 1 n, W j * (y j - (a' + b' * x j)) ^ 2 =
      (∑ j ∈ Icc 1 n, W j * (y j - (a + b * x j)) ^ 2) +
        2 * (a - a') * (∑ j ∈ Icc 1 n, W j * (y j - (a + b * x j))) +
        2 * (b - b') * (∑ j ∈ Icc 1 n, W j * (y j - (a + b * x j)) * x j) +
        ∑ j ∈ Icc 1 n, W j * ((a - a') + (b - b') * x j) ^ 2 := by
    simp only [mul_sum, ← sum_add_distrib]
    apply sum_congr rfl
    intro j _
    ring
  rw [e, h1, h2]
  have : 0 ≤ ∑ j ∈ Icc 1 n, W j * ((a - a') + (b - b') * x j) ^ 2 :=
    sum_nonneg fun j hj => mul_nonneg (hW j hj) (sq_nonneg _)
  linarith

theorem best_line {x y W : ℕ → ℝ} {n : ℕ} (hW : ∀ j ∈ Icc 1 n, 0 ≤ W j) {S m c t v : ℝ} (hS : 0 < S) (hc : 0 < c)
    (eS : S = ∑ j ∈ Icc 1 n, W j) (em : m = (∑ j ∈ Icc 1 n, W j * x j) / S)
    (ec : c = (∑ j ∈ Icc 1 n, W j * ((x j - m) * (x j - m))) / S)
    (ev : v = (∑ j ∈ Icc 1 n, W j * (((t - m) / c * (x j - m) + 1) * y j)) / S) :
    Spec.BestLine x y W n t v := by
  have e2 : ∑ j ∈ Icc 1 n, W j * ((x j - m) * (x j - m)) =
      (∑ j ∈ Icc 1 n, W j * x j * x j) - 2 * m * (∑ j ∈ Icc 1 n, W j * x j) + m * m * ∑ j ∈ Icc 1 n, W j := by
    simp only [mul_sum, ← sum_add_distrib, ← sum_sub_distrib]
    apply sum_congr rfl
    intro j _
    ring
  have e3 : ∑ j ∈ Icc 1 n, W j * (((t - m) / c * (x j - m) + 1) * y j) =
      (t - m) / c * ((∑ j ∈ Icc 1 n, W j * x j * y j) - m * ∑ j ∈ Icc 1 n, W j * y j) +
        ∑ j ∈ Icc 1 n, W j * y j := by
    simp only [mul_sum, ← sum_add_distrib, ← sum_sub_distrib]
    apply sum_congr rfl
    intro j _
    ring
  have e4 : ∀ a b, ∑ j ∈ Icc 1 n, W j * (y j - (a + b * x j)) =
      (∑ j ∈ Icc 1 n, W j * y j) - a * (∑ j ∈ Icc 1 n, W j) - b * ∑ j ∈ Icc 1 n, W j * x j := by
    intro a b
    simp only [mul_sum, ← sum_sub_distrib]
    apply sum_congr rfl
    intro j _
    ring
  have e5 : ∀ a b, ∑ j ∈ Icc 1 n, W j * (y j - (a + b * x j)) * x j =
      (∑ j ∈ Icc 1 n, W j * x j * y j) - a * (∑ j ∈ Icc 1 n, W j * x j) - b * ∑ j ∈ Icc 1 n, W j * x j * x j := by
    intro a b
    simp only [mul_sum, ← sum_sub_distrib]
    apply sum_congr rfl
    intro j _
    ring
  rw [e2, ← eS] at ec
  rw [e3] at ev
  have hS0 := hS.ne'
  have hc0 := hc.ne'
  have em' : (∑ j ∈ Icc 1 n, W j * x j) = m * S := by rw [em]; field_simp
  have ec' : (∑ j ∈ Icc 1 n, W j * x j * x j) = S * c + m * m * S := by
    rw [em', eq_div_iff hS0] at ec
    linear_combination -ec
  refine ⟨(∑ j ∈ Icc 1 n, W j * y j) / S -
      ((∑ j ∈ Icc 1 n, W j * x j * y j) - m * ∑ j ∈ Icc 1 n, W j * y j) / (S * c) * m,
    ((∑ j ∈ Icc 1 n, W j * x j * y j) - m * ∑ j ∈ Icc 1 n, W j * y j) / (S * c), ?_, normal_best hW ?_ ?_⟩
  · rw [ev]
    field_simp
    ring
  · rw [e4, em', ← eS]
    field_simp
    ring
  · rw [e5, em', ec']
    field_simp
    ring

/-- The robustness weights of the specification. -/
def weights : Option (ℕ → ℝ) → ℕ → ℝ
  | none => fun _ => 1
  | some g => g

/-- One fit is the local regression of the specification. -/
theorem lowest_fit {x y : ℕ → ℝ} {n ns i l u : ℕ} (hx : Increasing x n) (rw' : Option (ℕ → ℝ))
    (hg : ∀ j, 0 ≤ weights rw' j) (hns : 2 ≤ ns) (hu : u + 1 = l + ns) (hN : Spec.Nearest x n i l u) :
    Spec.LocalFit x y (weights rw') n ns i ((lowest x y n (x i) l u rw').getD (y i)) := by
  refine ⟨l, u, hu, hN, ?_⟩
  obtain ⟨h1, h2, h3, h4, h5⟩ := hN
  have hxi : x l ≤ x i := inc_le hx h1 h2 (by omega)
  have hxu : x i ≤ x u := inc_le hx (by omega) h3 h4
  have hlu : x l < x u := hx l u h1 (by omega) h4
  have hpos : 0 < max (x i - x l) (x u - x i) := by
    rcases lt_or_ge (x l) (x i) with h | h
    · exact lt_max_of_lt_left (by linarith)
    · exact lt_max_of_lt_right (by linarith)
  have hout : ∀ j, 1 ≤ j → j < l → Spec.tricube (max (x i - x l) (x u - x i)) |x j - x i| = 0 := by
    intro j hj1 hj2
    have a1 := h5 j hj1 (by omega) (by omega) l (le_refl _) (by omega)
    have a2 := h5 j hj1 (by omega) (by omega) u (by omega) (le_refl _)
    rw [abs_sub_comm, abs_of_nonneg (by linarith)] at a1
    rw [abs_of_nonneg (a := x u - x i) (by linarith)] at a2
    have a3 := max_le a1 a2
    unfold Spec.tricube
    rw [if_neg (by linarith), if_neg (by linarith)]
  generalize hH : max (x i - x l) (x u - x i) = h at *
  have hsum : ∀ q : ℕ → ℝ, wsum (collect x (userWeight rw') (x i) h (n + 1 - l) l) q
      = ∑ j ∈ Icc 1 n, Spec.tricube h |x j - x i| * weights rw' j * q j := by
    intro q
    rw [collect_sum hx (weights rw') (x i) h q _ (by intro j v; cases rw' <;> simp [weights, userWeight]) hpos _ l h1 (by omega)]
    have hsub : Ico l (n + 1) ⊆ Icc 1 n := by
      intro j hj
      rw [mem_Ico] at hj
      rw [mem_Icc]
      omega
    apply sum_subset hsub
    intro j hj hj'
    rw [mem_Icc] at hj
    rw [mem_Ico] at hj'
    rw [hout j hj.1 (by omega)]
    ring
  unfold lowest
  dsimp only
  rw [hH]
  simp only [wsum_div, hsum]
  generalize hWd : (fun j => Spec.tricube h |x j - x i| * weights rw' j) = W
  have hW' : ∀ j, Spec.tricube h |x j - x i| * weights rw' j = W j := fun j => congrFun hWd j
  simp only [hW', mul_one]
  have hW : ∀ j ∈ Icc 1 n, 0 ≤ W j := fun j _ => by
    rw [← hW']
    exact mul_nonneg (tricube_nonneg hpos (abs_nonneg _)) (hg j)
  by_cases hS : ∑ j ∈ Icc 1 n, W j ≤ 0
  · left
    rw [if_pos hS]
    refine ⟨fun j hj1 hj2 => ?_, rfl⟩
    have := sum_nonneg hW
    exact (sum_eq_zero_iff_of_nonneg hW).1 (le_antisymm hS this) j (by rw [mem_Icc]; exact ⟨hj1, hj2⟩)
  · right
    rw [if_neg hS]
    refine ⟨not_le.1 hS, ?_⟩
    rw [if_pos hpos]
    have hm : (∑ j ∈ Icc 1 n, W j * x j) / (∑ j ∈ Icc 1 n, W j) = Spec.wmean W x n := rfl
    rw [hm]
    have hcc : (∑ j ∈ Icc 1 n, W j * ((x j - Spec.wmean W x n) * (x j - Spec.wmean W x n))) / (∑ j ∈ Icc 1 n, W j) =
        Spec.wmean W (fun j => (x j - Spec.wmean W x n) ^ 2) n := by
      simp only [Spec.wmean, sq]
    rw [hcc]
    by_cases hsp : Real.sqrt (Spec.wmean W (fun j => (x j - Spec.wmean W x n) ^ 2) n) > (x n - x 1) / 1000
    · left
      refine ⟨hsp, ?_⟩
      rw [if_pos (by linarith)]
      have hr : 0 ≤ x n - x 1 := by
        have := inc_le hx (le_refl 1) (j := n) (by omega) (le_refl n)
        linarith
      refine best_line hW (not_le.1 hS) (Real.sqrt_pos.1 (lt_of_le_of_lt (by linarith) hsp)) rfl rfl hcc.symm ?_
      rw [wsum_mul _ (fun j => (x i - Spec.wmean W x n) / Spec.wmean W (fun j => (x j - Spec.wmean W x n) ^ 2) n *
        (x j - Spec.wmean W x n) + 1), wsum_div, hsum]
      simp only [hW', Option.getD_some]
      rfl
    · right
      refine ⟨not_lt.1 hsp, ?_⟩
      rw [if_neg (by intro h'; apply hsp; linarith), wsum_div, hsum]
      simp only [hW', Option.getD_some, Spec.wmean]

theorem skipped_none (x : ℕ → ℝ) (i : ℕ) (ys : ℕ → ℝ) {last : ℕ} (h : last + 1 = i) : skipped x last i ys = ys := by
  funext j
  unfold skipped
  rw [if_neg (by omega)]

theorem close_none {x : ℕ → ℝ} {n i : ℕ} (hx : Increasing x n) (h1 : 1 ≤ i) (h2 : i ≤ n) (ys : ℕ → ℝ) :
    close x (x i + 0) (n - i) (i + 1) i ys = (i + 1, i, ys) := by
  rcases Nat.eq_or_lt_of_le h2 with h | h
  · subst h
    simp [close]
  · obtain ⟨f, hf⟩ : ∃ f, n - i = f + 1 := ⟨n - i - 1, by omega⟩
    have := hx i (i + 1) h1 (by omega) (by omega)
    rw [hf]
    unfold close
    rw [if_pos (by linarith)]

/-- The loop over the points fits every point in a window of nearest neighbours. -/
theorem passLoop_spec {x y : ℕ → ℝ} {n ns : ℕ} (hx : Increasing x n) (hns : 2 ≤ ns) (rw' : Option (ℕ → ℝ)) :
    ∀ f nl i ys, 1 ≤ nl → nl + ns ≤ n + 1 → 1 ≤ i → i ≤ n → nl ≤ i →
      (∀ j, 1 ≤ j → j < nl → x (nl + ns - 1) - x i < x i - x j) →
      (n + 1 - (nl + ns)) + (n - i) < f →
      (∀ k, 1 ≤ k → k < i → ∃ l u, u + 1 = l + ns ∧ Spec.Nearest x n k l u ∧
        ys k = (lowest x y n (x k) l u rw').getD (y k)) →
      ∃ zs, passLoop x y n 0 rw' f ⟨nl, nl + ns - 1, i - 1, i, ys⟩ = some zs ∧
        ∀ k, 1 ≤ k → k ≤ n → ∃ l u, u + 1 = l + ns ∧ Spec.Nearest x n k l u ∧
          zs k = (lowest x y n (x k) l u rw').getD (y k) := by
  intro f
  induction f with
  | zero => intro nl i ys _ _ _ _ _ _ h; omega
  | succ f ih =>
    intro nl i ys h1 h2 h3 h4 h5 hW hf hys
    unfold passLoop
    dsimp only
    rw [if_neg (by omega)]
    by_cases hm : nl + ns - 1 < n ∧ x i - x nl > x (nl + ns - 1 + 1) - x i
    · rw [if_pos hm]
      have hlt : nl < i := by
        by_contra hc
        have : nl = i := by omega
        subst this
        have := hx nl (nl + ns - 1 + 1) h1 (by omega) (by omega)
        linarith [hm.2]
      have e : nl + ns - 1 + 1 = nl + 1 + ns - 1 := by omega
      rw [e]
      rw [e] at hm
      refine ih (nl + 1) i ys (by clear hys; omega) (by clear hys; omega) h3 h4 hlt ?_ (by clear hys; omega) hys
      · intro j hj1 hj2
        have := inc_le hx hj1 (j := nl) (by omega) (by omega)
        linarith [hm.2]
    · rw [if_neg hm]
      have hiu : i ≤ nl + ns - 1 := by
        by_contra hc
        apply hm
        refine ⟨by omega, ?_⟩
        have a1 := inc_le hx (i := nl + ns - 1 + 1) (j := i) (by omega) (by omega) h4
        have a2 := hx nl i h1 (by omega) h4
        linarith
      have hN : Spec.Nearest x n i nl (nl + ns - 1) := by
        refine ⟨h1, h5, hiu, by omega, ?_⟩
        intro j hj1 hj2 hj3 k hk1 hk2
        rcases Nat.lt_or_ge j nl with hj | hj
        · have b1 := hW j hj1 hj
          have b2 := hx j i hj1 (by omega) h4
          have b3 := inc_le hx hj1 (j := k) (by omega) (by omega)
          have b4 := inc_le hx (i := k) (j := nl + ns - 1) (by omega) hk2 (by omega)
          rw [abs_sub_comm (x j), abs_of_pos (a := x i - x j) (by linarith), abs_le]
          constructor <;> linarith
        · have hj' : nl + ns - 1 < j := by omega
          have b1 : x i - x nl ≤ x (nl + ns - 1 + 1) - x i := by
            by_contra hc
            exact hm ⟨by omega, not_le.1 hc⟩
          have b2 := inc_le hx (i := nl + ns - 1 + 1) (j := j) (by omega) (by omega) hj2
          have b3 := inc_le hx h1 hk1 (j := k) (by omega)
          have b4 := inc_le hx (i := k) (j := j) (by omega) (by omega) hj2
          have b5 := hx i j h3 (by omega) hj2
          rw [abs_of_pos (a := x j - x i) (by linarith), abs_le]
          constructor <;> linarith
      rw [skipped_none x i _ (by omega), close_none hx h3 h4]
      dsimp only
      have hys' : ∀ k, 1 ≤ k → k < i + 1 → ∃ l u, u + 1 = l + ns ∧ Spec.Nearest x n k l u ∧
          Function.update ys i ((lowest x y n (x i) nl (nl + ns - 1) rw').getD (y i)) k =
            (lowest x y n (x k) l u rw').getD (y k) := by
        intro k hk1 hk2
        by_cases hki : k = i
        · subst hki
          exact ⟨nl, nl + ns - 1, by omega, hN, by rw [Function.update_self]⟩
        · obtain ⟨l, u, c1, c2, c3⟩ := hys k hk1 (by omega)
          exact ⟨l, u, c1, c2, by rw [Function.update_of_ne hki, c3]⟩
      by_cases hn : i ≥ n
      · rw [if_pos hn]
        exact ⟨_, rfl, fun k hk1 hk2 => hys' k hk1 (by omega)⟩
      · rw [if_neg hn]
        have e : max (i + 1) (i + 1 - 1) = i + 1 := by omega
        rw [e]
        clear hys
        have e2 : i = i + 1 - 1 := by omega
        have hlt : x i < x (i + 1) := hx i (i + 1) h3 (by omega) (by omega)
        have := ih (nl) (i + 1) (Function.update ys i ((lowest x y n (x i) nl (nl + ns - 1) rw').getD (y i)))
          h1 h2 (by omega) (by omega) (by omega) (fun j hj1 hj2 => by
            have := hW j hj1 hj2
            linarith) (by omega) hys'
        rw [Nat.add_sub_cancel] at this
        exact this

theorem robust_eq {cm r : ℝ} : robust cm r = Spec.bisquare cm r := by
  unfold robust Spec.bisquare
  by_cases h : cm = 0
  · rw [if_pos h, if_pos h]
  · rw [if_neg h, if_neg h]
    by_cases c : r ≤ cm / 1000
    · rw [if_pos (by linarith), if_pos c]
    · rw [if_neg (by intro h'; apply c; linarith), if_neg c]
      by_cases d : r ≤ 999 / 1000 * cm
      · rw [if_pos (by linarith), if_pos d]
        ring
      · rw [if_neg (by intro h'; apply d; linarith), if_neg d]

theorem bisquare_nonneg (cm r : ℝ) : 0 ≤ Spec.bisquare cm r := by
  unfold Spec.bisquare
  split_ifs
  · exact le_refl _
  · exact zero_le_one
  · positivity
  · exact le_refl _

theorem pass_spec {x y : ℕ → ℝ} {n ns : ℕ} (hx : Increasing x n) (hns : 2 ≤ ns) (hn : ns ≤ n) (rw' : Option (ℕ → ℝ))
    (prev : ℕ → ℝ) : ∃ zs, pass x y n ns 0 rw' prev = some zs ∧
      ∀ k, 1 ≤ k → k ≤ n → ∃ l u, u + 1 = l + ns ∧ Spec.Nearest x n k l u ∧
          zs k = (lowest x y n (x k) l u rw').getD (y k) := by
  have := passLoop_spec (y := y) hx hns rw' (2 * n + 1) 1 1 prev (le_refl _) (by omega) (le_refl _) (by omega) (le_refl _)
    (fun j h1 h2 => by omega) (by omega) (fun k h1 h2 => by omega)
  have e : 1 + ns - 1 = ns := by omega
  rw [e] at this
  exact this

theorem iterate_spec {x y : ℕ → ℝ} {n ns : ℕ} (hx : Increasing x n) (hns : 2 ≤ ns) (hn : ns ≤ n) (hn3 : 3 ≤ n) :
    ∀ m rw' prev, (∀ j, 0 ≤ weights rw' j) →
      ∃ zs, iterate x y n ns 0 m rw' prev = some zs ∧ Spec.Smoothed x y n ns m (weights rw') zs
  | 0, rw', prev, hg => by
    obtain ⟨zs, e, h⟩ := pass_spec (y := y) hx hns hn rw' prev
    refine ⟨zs, e, fun i h1 h2 => ?_⟩
    obtain ⟨l, u, c1, c2, c3⟩ := h i h1 h2
    rw [c3]
    exact lowest_fit hx rw' hg hns c1 c2
  | m + 1, rw', prev, hg => by
    obtain ⟨ys, e, h⟩ := pass_spec (y := y) hx hns hn rw' prev
    obtain ⟨M, hM, e2⟩ := C146_median (fun i => |y (i + 1) - ys (i + 1)|) n hn3
    obtain ⟨zs, e3, h3⟩ := iterate_spec (y := y) hx hns hn hn3 m (some fun j => robust (6 * M) |y j - ys j|) ys
      (fun j => by
        show 0 ≤ robust _ _
        rw [robust_eq]
        exact bisquare_nonneg _ _)
    refine ⟨zs, ?_, ys, M, fun i h1 h2 => ?_, hM, ?_⟩
    · unfold iterate
      rw [e]
      simp only [Option.bind_eq_bind, Option.bind_some, e2, e3]
    · obtain ⟨l, u, c1, c2, c3⟩ := h i h1 h2
      rw [c3]
      exact lowest_fit hx rw' hg hns c1 c2
    · have : weights (some fun j => robust (6 * M) |y j - ys j|) = fun j => Spec.bisquare (6 * M) |y j - ys j| := by
        funext j
        exact robust_eq
      rw [this] at h3
      exact h3

theorem points_bounds {n : ℕ} (span : ℝ) (h : 2 ≤ n) : 2 ≤ points n span ∧ points n span ≤ n := by
  unfold points
  omega

/-- **C145 (local regression).** For data with increasing abscissae (at least three points) the smoother ends without reading
outside of the data, for every span and every number of robustness iterations, and returns the robust locally weighted
regression of the specification. -/
theorem C145_regression (x y : ℕ → ℝ) (n iter : ℕ) (span : ℝ) (hn : 3 ≤ n) (hx : Increasing x n) :
    ∃ ys, smooth x y n span iter 0 = some ys ∧ Spec.Smoothed x y n (points n span) iter (fun _ => 1) ys := by
  obtain ⟨b1, b2⟩ := points_bounds span (n := n) (by omega)
  obtain ⟨zs, e, h⟩ := iterate_spec (y := y) hx b1 b2 hn iter none (fun _ => 0) (fun j => zero_le_one)
  refine ⟨zs, ?_, h⟩
  unfold smooth
  rw [if_neg (by omega), if_neg (by omega), e]

example : Increasing (fun i => (i : ℝ)) 5 := fun i j _ h _ => by
  show (i : ℝ) < j
  exact_mod_cast h

/-- **C145 (number of neighbours).** The local fits use the given fraction of the points (rounded down), at least two. -/
theorem C145_points (n k : ℕ) (span : ℝ) (hn : 2 ≤ n) (h1 : (k : ℝ) ≤ span * n) (h2 : span * n < k + 1 - 1 / 1000000) :
    points n span = max 2 (min n k) := by
  unfold points
  have : ⌊span * n + 1 / 10000000⌋₊ = k := by
    rw [Nat.floor_eq_iff (by have : (0 : ℝ) ≤ k := Nat.cast_nonneg k; linarith)]
    constructor <;> linarith
  rw [this]

end Verif.Low
