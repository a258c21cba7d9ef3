import Verif.Wid.Model
import Mathlib.Algebra.BigOperators.Ring.Finset
import Mathlib.Algebra.Order.BigOperators.Group.Finset
import Mathlib.Tactic.Ring
import Mathlib.Tactic.FieldSimp
import Mathlib.Tactic.Linarith
import Mathlib.Tactic.LinearCombination
import Mathlib.Tactic.Positivity
import Mathlib.Tactic.NormNum

/-!
The form factors.
-/

namespace Verif.Wid

open Verif Kin

/-- Coefficients of |g_l|² as a polynomial in x². -/
noncomputable def coef : ℕ → ℕ → ℝ
  | 0, 0 => 1
  | 0, _ + 1 => 0
  | l + 1, 0 => (2 * l + 1) ^ 2 * coef l 0
  | l + 1, k + 1 => (2 * l + 1 - k) / (k + 1) * coef l k

theorem coef_above {l k : ℕ} (h : l < k) : coef l k = 0 := by
  induction l generalizing k with
  | zero => cases k with
    | zero => omega
    | succ k => rfl
  | succ l ih => cases k with
    | zero => omega
    | succ k => rw [coef, ih (by omega), mul_zero]

theorem coef_pos {l k : ℕ} (h : k ≤ l) : 0 < coef l k := by
  induction l generalizing k with
  | zero =>
    have : k = 0 := by omega
    subst this; simp [coef]
  | succ l ih => cases k with
    | zero => rw [coef]; have := ih (k := 0) (by omega); positivity
    | succ k =>
      rw [coef]
      have h1 : (k : ℝ) ≤ l := by exact_mod_cast (by omega : k ≤ l)
      have h2 : (0 : ℝ) ≤ l := by positivity
      have := ih (k := k) (by omega)
      have h3 : (0 : ℝ) < 2 * l + 1 - k := by linarith
      positivity

theorem coef_top (l : ℕ) : coef l l = 1 := by
  induction l with
  | zero => rfl
  | succ l ih => rw [coef, ih]; have : (l : ℝ) + 1 ≠ 0 := by positivity
                 field_simp; ring

theorem coef_step (l k : ℕ) : ((k : ℝ) + 1) * coef (l + 1) (k + 1) = (2 * l + 1 - k) * coef l k := by
  rw [coef]
  have : (k : ℝ) + 1 ≠ 0 := by positivity
  field_simp

theorem coef_ratio (l k : ℕ) : 2 * ((l : ℝ) + 1 - k) * coef (l + 1) k =
    (2 * l + 2 - k) * (2 * l + 1 - k) * (2 * l + 1 - 2 * k) * coef l k := by
  induction k generalizing l with
  | zero => rw [coef]; push_cast; ring
  | succ k ih =>
    cases l with
    | zero =>
      cases k with
      | zero => simp [coef]
      | succ k => rw [coef_above (by omega : 0 + 1 < k + 1 + 1), coef_above (by omega : 0 < k + 1 + 1)]; ring
    | succ l =>
      have e := ih l
      have s1 := coef_step (l + 1) k
      have s2 := coef_step l k
      have hk : (k : ℝ) + 1 ≠ 0 := by positivity
      push_cast at *
      apply mul_left_cancel₀ hk
      linear_combination (2 * ((l : ℝ) + 1 + 1 - (k + 1))) * s1 + (2 * ((l : ℝ) + 1) + 1 - k) * e -
        (2 * ((l : ℝ) + 1) + 2 - (k + 1)) * (2 * ((l : ℝ) + 1) + 1 - (k + 1)) *
          (2 * ((l : ℝ) + 1) + 1 - 2 * (k + 1)) * s2

theorem coef_rec0 (l : ℕ) : coef (l + 2) 0 = (2 * l + 3) ^ 2 * coef (l + 1) 0 := by
  rw [coef]; push_cast; ring

theorem coef_rec1 (l : ℕ) : coef (l + 2) 1 = (2 * l + 3) * (2 * l + 1) * coef (l + 1) 1 := by
  have h1 := coef_step (l + 1) 0
  have h2 := coef_step l 0
  simp only [Nat.zero_add] at h1 h2
  push_cast at h1 h2
  have h3 : coef (l + 1) 0 = (2 * l + 1) ^ 2 * coef l 0 := by rw [coef]
  rw [h3] at h1
  linear_combination h1 - (2 * (l : ℝ) + 3) * (2 * l + 1) * h2

theorem coef_rec (l k : ℕ) : coef (l + 2) (k + 2) =
    (2 * l + 3) * (2 * l + 3 - 2 * (k + 2)) * coef (l + 1) (k + 2) + coef l k := by
  by_cases hk : l < k
  · rw [coef_above (by omega), coef_above (by omega), coef_above hk]; ring
  · have h1 := coef_ratio (l + 1) (k + 2)
    have s1 := coef_step (l + 1) (k + 1)
    have s2 := coef_step l k
    have hk' : (k : ℝ) ≤ l := by exact_mod_cast (by omega : k ≤ l)
    have n1 : (2 * (l : ℝ) + 2 - k) ≠ 0 := by have : (0 : ℝ) ≤ l := by positivity
                                              linarith
    have n2 : (2 * (l : ℝ) + 1 - k) ≠ 0 := by have : (0 : ℝ) ≤ l := by positivity
                                              linarith
    push_cast at *
    apply mul_left_cancel₀ (mul_ne_zero n1 n2)
    linear_combination (2 * (l : ℝ) + 3) * h1 + ((k : ℝ) + 1) * s1 + (2 * (l : ℝ) + 2 - k) * s2

/-- |g_l|² as a polynomial in t = x². -/
noncomputable def poly (l : ℕ) (t : ℝ) : ℝ := ∑ k ∈ Finset.range (l + 1), coef l k * t ^ k

/-- t times its derivative. -/
noncomputable def tpoly (l : ℕ) (t : ℝ) : ℝ := ∑ k ∈ Finset.range (l + 1), (k : ℝ) * coef l k * t ^ k

theorem poly_more (l n : ℕ) (t : ℝ) (h : l + 1 ≤ n) :
    poly l t = ∑ k ∈ Finset.range n, coef l k * t ^ k := by
  unfold poly
  apply Finset.sum_subset
  · intro k hk; simp only [Finset.mem_range] at *; omega
  · intro k _ hk
    simp only [Finset.mem_range] at hk
    rw [coef_above (by omega), zero_mul]

theorem tpoly_more (l n : ℕ) (t : ℝ) (h : l + 1 ≤ n) :
    tpoly l t = ∑ k ∈ Finset.range n, (k : ℝ) * coef l k * t ^ k := by
  unfold tpoly
  apply Finset.sum_subset
  · intro k hk; simp only [Finset.mem_range] at *; omega
  · intro k _ hk
    simp only [Finset.mem_range] at hk
    rw [coef_above (by omega), mul_zero, zero_mul]

theorem tpoly_succ (l : ℕ) (t : ℝ) :
    tpoly (l + 1) t = t * ((2 * l + 1) * poly l t - tpoly l t) := by
  unfold tpoly poly
  rw [Finset.sum_range_succ', Finset.mul_sum, ← Finset.sum_sub_distrib, Finset.mul_sum]
  simp only [Nat.cast_zero, zero_mul, add_zero]
  apply Finset.sum_congr rfl
  intro k _
  have := coef_step l k
  push_cast
  linear_combination t ^ (k + 1) * this

theorem poly_rec (l : ℕ) (t : ℝ) : poly (l + 2) t =
    (2 * l + 3) ^ 2 * poly (l + 1) t - 2 * (2 * l + 3) * tpoly (l + 1) t + t ^ 2 * poly l t := by
  rw [poly_more (l + 2) (l + 3) t (by omega), poly_more (l + 1) (l + 3) t (by omega),
    tpoly_more (l + 1) (l + 3) t (by omega)]
  unfold poly
  simp only [Finset.sum_range_succ' _ (l + 2), Finset.sum_range_succ' _ (l + 1)]
  simp only [Nat.zero_add, pow_zero, pow_one, mul_one, Nat.cast_zero, Nat.cast_one, zero_mul, one_mul,
    add_zero, coef_rec0, coef_rec1]
  have : ∑ k ∈ Finset.range (l + 1), coef (l + 2) (k + 1 + 1) * t ^ (k + 1 + 1) =
      (2 * l + 3) ^ 2 * ∑ k ∈ Finset.range (l + 1), coef (l + 1) (k + 1 + 1) * t ^ (k + 1 + 1) -
      2 * (2 * l + 3) * ∑ k ∈ Finset.range (l + 1),
        ((k + 1 + 1 : ℕ) : ℝ) * coef (l + 1) (k + 1 + 1) * t ^ (k + 1 + 1) +
      t ^ 2 * ∑ k ∈ Finset.range (l + 1), coef l k * t ^ k := by
    rw [Finset.mul_sum, Finset.mul_sum, Finset.mul_sum, ← Finset.sum_sub_distrib,
      ← Finset.sum_add_distrib]
    apply Finset.sum_congr rfl
    intro k _
    rw [show k + 1 + 1 = k + 2 from rfl, coef_rec l k]
    push_cast
    ring
  rw [this]
  ring

/-- The sequence computed by the loop. -/
noncomputable def gseq (x : ℝ) : ℕ → ℂ
  | 0 => 1
  | 1 => ⟨1, -x⟩
  | l + 2 => ((2 * (l + 1) + 1 : ℕ) : ℂ) * gseq x (l + 1) - ((x * x : ℝ) : ℂ) * gseq x l

theorem bwLoop_eq (x : ℝ) (n l : ℕ) :
    bwLoop (x * x) n (l + 1) (gseq x l) (gseq x (l + 1)) ((x * x) ^ (l + 1)) =
      (gseq x (l + 1 + n), (x * x) ^ (l + 1 + n)) := by
  induction n generalizing l with
  | zero => rfl
  | succ n ih =>
    rw [bwLoop]
    have := ih (l + 1)
    rw [show l + 1 + (n + 1) = l + 1 + 1 + n by omega, ← this, gseq, pow_succ (x * x) (l + 1)]

theorem g_props (x : ℝ) (l : ℕ) :
    Complex.normSq (gseq x l) = poly l (x * x) ∧
    Complex.normSq (gseq x (l + 1)) = poly (l + 1) (x * x) ∧
    x * x * ((gseq x l).re * (gseq x (l + 1)).re + (gseq x l).im * (gseq x (l + 1)).im) =
      tpoly (l + 1) (x * x) := by
  induction l with
  | zero =>
    refine ⟨?_, ?_, ?_⟩
    · simp [gseq, poly, coef]
    · simp [gseq, poly, coef, Complex.normSq_apply, Finset.sum_range_succ]
    · simp [gseq, tpoly, coef, Finset.sum_range_succ]
  | succ l ih =>
    obtain ⟨h1, h2, h3⟩ := ih
    have er : (gseq x (l + 2)).re = (2 * (l + 1) + 1 : ℝ) * (gseq x (l + 1)).re - x * x * (gseq x l).re := by
      rw [gseq]
      simp only [Complex.sub_re, Complex.mul_re, Complex.natCast_re, Complex.natCast_im,
        Complex.ofReal_re, Complex.ofReal_im]
      push_cast; ring
    have ei : (gseq x (l + 2)).im = (2 * (l + 1) + 1 : ℝ) * (gseq x (l + 1)).im - x * x * (gseq x l).im := by
      rw [gseq]
      simp only [Complex.sub_im, Complex.mul_im, Complex.natCast_re, Complex.natCast_im,
        Complex.ofReal_re, Complex.ofReal_im]
      push_cast; ring
    refine ⟨h2, ?_, ?_⟩
    · rw [poly_rec, ← h3, ← h2, ← h1]
      simp only [Complex.normSq_apply, er, ei]
      ring
    · rw [tpoly_succ, ← h3, ← h2, er, ei]
      simp only [Complex.normSq_apply]
      push_cast
      ring

/-- Every Blatt-Weisskopf function is a quotient of polynomials with positive coefficients. -/
theorem blatt_eq (p : ℝ) (L : ℕ) :
    blattWeisskopfSqr p L = ((p / hbarc) ^ 2) ^ L / poly L ((p / hbarc) ^ 2) := by
  unfold blattWeisskopfSqr
  have hx : p * (1 / hbarc) = p / hbarc := by ring
  match L with
  | 0 => simp [poly, coef]
  | 1 =>
    simp only [Nat.cast_one, one_ne_zero, if_false, if_true, hx]
    simp [poly, coef, Finset.sum_range_succ, sq]
  | L + 2 =>
    have n0 : ((L + 2 : ℕ) : Int) ≠ 0 := by omega
    have n1 : ((L + 2 : ℕ) : Int) ≠ 1 := by omega
    have n2 : (((L + 2 : ℕ) : Int) - 1).toNat = L + 1 := by omega
    simp only [n0, n1, n2, if_false, hx]
    have := bwLoop_eq (p / hbarc) (L + 1) 0
    simp only [Nat.zero_add, pow_one] at this
    rw [show gseq (p / hbarc) 0 = 1 from rfl,
      show gseq (p / hbarc) 1 = ⟨1, -(p / hbarc)⟩ from rfl] at this
    rw [this, show 1 + (L + 1) = L + 2 by omega, (g_props (p / hbarc) (L + 2)).1, sq]

theorem poly_ge (L : ℕ) {t : ℝ} (ht : 0 ≤ t) : t ^ L ≤ poly L t := by
  unfold poly
  rw [Finset.sum_range_succ, coef_top, one_mul]
  have : 0 ≤ ∑ k ∈ Finset.range L, coef L k * t ^ k := Finset.sum_nonneg fun k hk => by
    have := coef_pos (l := L) (k := k) (by simp at hk; omega)
    positivity
  linarith

theorem poly_ge0 (L : ℕ) {t : ℝ} (ht : 0 ≤ t) : coef L 0 ≤ poly L t := by
  unfold poly
  rw [Finset.sum_range_succ', pow_zero, mul_one]
  have : 0 ≤ ∑ k ∈ Finset.range L, coef L (k + 1) * t ^ (k + 1) := Finset.sum_nonneg fun k hk => by
    have := coef_pos (l := L) (k := k + 1) (by simp at hk; omega)
    positivity
  linarith

theorem poly_pos (L : ℕ) {t : ℝ} (ht : 0 ≤ t) : 0 < poly L t :=
  lt_of_lt_of_le (coef_pos (by omega)) (poly_ge0 L ht)

theorem hbarc_pos : 0 < hbarc := by norm_num [hbarc]

theorem hbarc_ne : hbarc ≠ 0 := hbarc_pos.ne'

theorem poly_cross (L : ℕ) {s t : ℝ} (hs : 0 ≤ s) (h : s ≤ t) : s ^ L * poly L t ≤ t ^ L * poly L s := by
  unfold poly
  rw [Finset.mul_sum, Finset.mul_sum]
  apply Finset.sum_le_sum
  intro k hk
  simp only [Finset.mem_range] at hk
  have c := coef_pos (l := L) (k := k) (by omega)
  obtain ⟨j, rfl⟩ : ∃ j, L = k + j := ⟨L - k, by omega⟩
  have h1 : s ^ j ≤ t ^ j := pow_le_pow_left₀ hs h j
  have h2 : 0 ≤ coef (k + j) k * s ^ k * t ^ k := by have : 0 ≤ t := hs.trans h
                                                     positivity
  have := mul_le_mul_of_nonneg_left h1 h2
  rw [pow_add, pow_add]
  linarith

theorem poly_cross_lt (L : ℕ) {s t : ℝ} (hL : 0 < L) (hs : 0 ≤ s) (h : s < t) :
    s ^ L * poly L t < t ^ L * poly L s := by
  have ht : 0 < t := lt_of_le_of_lt hs h
  have e : ∀ a : ℝ, poly L a = coef L 0 + ∑ k ∈ Finset.range L, coef L (k + 1) * a ^ (k + 1) := by
    intro a; unfold poly; rw [Finset.sum_range_succ', pow_zero, mul_one, add_comm]
  rw [e, e, mul_add, mul_add]
  have h0 : s ^ L * coef L 0 < t ^ L * coef L 0 :=
    mul_lt_mul_of_pos_right (pow_lt_pow_left₀ h hs (by omega)) (coef_pos (by omega))
  have h1 : s ^ L * ∑ k ∈ Finset.range L, coef L (k + 1) * t ^ (k + 1) ≤
      t ^ L * ∑ k ∈ Finset.range L, coef L (k + 1) * s ^ (k + 1) := by
    rw [Finset.mul_sum, Finset.mul_sum]
    apply Finset.sum_le_sum
    intro k hk
    simp only [Finset.mem_range] at hk
    have c := coef_pos (l := L) (k := k + 1) (by omega)
    obtain ⟨j, rfl⟩ : ∃ j, L = k + 1 + j := ⟨L - (k + 1), by omega⟩
    have h1 : s ^ j ≤ t ^ j := pow_le_pow_left₀ hs h.le j
    have h2 : 0 ≤ coef (k + 1 + j) (k + 1) * s ^ (k + 1) * t ^ (k + 1) := by positivity
    have := mul_le_mul_of_nonneg_left h1 h2
    rw [pow_add s (k + 1) j, pow_add t (k + 1) j]
    linarith
  linarith

/-- **C116.** The squared form factor lies between 0 and 1. -/
theorem C116_range (p : ℝ) (L : ℕ) : 0 ≤ blattWeisskopfSqr p L ∧ blattWeisskopfSqr p L ≤ 1 := by
  rw [blatt_eq]
  have ht : (0 : ℝ) ≤ (p / hbarc) ^ 2 := sq_nonneg _
  exact ⟨div_nonneg (by positivity) (poly_pos L ht).le, (div_le_one (poly_pos L ht)).2 (poly_ge L ht)⟩

/-- **C116.** For L > 0 it increases strictly with the momentum. -/
theorem C116_monotone {p q : ℝ} (L : ℕ) (hL : 0 < L) (hp : 0 ≤ p) (h : p < q) :
    blattWeisskopfSqr p L < blattWeisskopfSqr q L := by
  rw [blatt_eq, blatt_eq]
  have h1 : p / hbarc < q / hbarc := by
    apply div_lt_div_of_pos_right h hbarc_pos
  have h0 : 0 ≤ p / hbarc := div_nonneg hp hbarc_pos.le
  have h2 : (p / hbarc) ^ 2 < (q / hbarc) ^ 2 := pow_lt_pow_left₀ h1 h0 (by norm_num)
  rw [div_lt_div_iff₀ (poly_pos L (sq_nonneg _)) (poly_pos L (sq_nonneg _))]
  exact poly_cross_lt L hL (sq_nonneg _) h2

/-- **C116.** It vanishes exactly for L > 0 at zero momentum, and is 1 for L = 0. -/
theorem C116_zero (p : ℝ) (L : ℕ) :
    (blattWeisskopfSqr p L = 0 ↔ 0 < L ∧ p = 0) ∧ blattWeisskopfSqr p 0 = 1 := by
  constructor
  · rw [blatt_eq, div_eq_zero_iff]
    have := (poly_pos L (sq_nonneg (p / hbarc))).ne'
    simp only [this, or_false]
    constructor
    · intro h
      have hL : L ≠ 0 := by rintro rfl; simp at h
      refine ⟨by omega, ?_⟩
      have h1 := pow_eq_zero_iff hL |>.1 h
      have h2 := pow_eq_zero_iff (n := 2) (by norm_num) |>.1 h1
      rcases div_eq_zero_iff.1 h2 with h3 | h3
      · exact h3
      · exact absurd h3 hbarc_ne
    · rintro ⟨hL, rfl⟩
      simp [hL.ne']
  · simp [blattWeisskopfSqr]

/-- **C116.** For large momenta it approaches 1. -/
theorem C116_large (L : ℕ) : ∃ c : ℝ, 0 ≤ c ∧ ∀ p : ℝ, hbarc ≤ p →
    1 - c / p ^ 2 ≤ blattWeisskopfSqr p L := by
  refine ⟨hbarc ^ 2 * ∑ k ∈ Finset.range L, coef L k, ?_, ?_⟩
  · have : 0 ≤ ∑ k ∈ Finset.range L, coef L k := Finset.sum_nonneg fun k hk =>
      (coef_pos (by simp at hk; omega)).le
    positivity
  · intro p hp
    have hp0 : 0 < p := lt_of_lt_of_le hbarc_pos hp
    rw [blatt_eq]
    have ht : 1 ≤ (p / hbarc) ^ 2 := by
      have : 1 ≤ p / hbarc := (one_le_div hbarc_pos).2 hp
      nlinarith
    have hc : hbarc ^ 2 * ∑ k ∈ Finset.range L, coef L k =
        (∑ k ∈ Finset.range L, coef L k) * hbarc ^ 2 := by ring
    have e : hbarc ^ 2 * (∑ k ∈ Finset.range L, coef L k) / p ^ 2 =
        (∑ k ∈ Finset.range L, coef L k) / (p / hbarc) ^ 2 := by
      have := hbarc_ne
      field_simp
    rw [e]
    generalize (p / hbarc) ^ 2 = t at ht
    have t0 : 0 < t := by linarith
    rw [sub_le_iff_le_add, ← sub_le_iff_le_add', one_sub_div (poly_pos L t0.le).ne',
      div_le_div_iff₀ (poly_pos L t0.le) t0]
    have h1 : (poly L t - t ^ L) * t ≤ (∑ k ∈ Finset.range L, coef L k) * t ^ L := by
      unfold poly
      rw [Finset.sum_range_succ, coef_top, one_mul, add_sub_cancel_right, Finset.sum_mul, Finset.sum_mul]
      apply Finset.sum_le_sum
      intro k hk
      simp only [Finset.mem_range] at hk
      have c := coef_pos (l := L) (k := k) (by omega)
      have : t ^ (k + 1) ≤ t ^ L := pow_le_pow_right₀ ht (by omega)
      have := mul_le_mul_of_nonneg_left this c.le
      rw [pow_succ] at this
      linarith
    have h2 : 0 ≤ ∑ k ∈ Finset.range L, coef L k := Finset.sum_nonneg fun k hk =>
      (coef_pos (by simp at hk; omega)).le
    exact h1.trans (mul_le_mul_of_nonneg_left (poly_ge L t0.le) h2)

/-- **C116.** For small momenta it behaves like p^(2L). -/
theorem C116_small (L : ℕ) : ∃ c d : ℝ, 0 < c ∧ 0 < d ∧ ∀ p : ℝ, 0 ≤ p → p ≤ hbarc →
    c * p ^ (2 * L) ≤ blattWeisskopfSqr p L ∧ blattWeisskopfSqr p L ≤ d * p ^ (2 * L) := by
  have hh := hbarc_pos
  refine ⟨1 / (hbarc ^ (2 * L) * poly L 1), 1 / (hbarc ^ (2 * L) * coef L 0), ?_, ?_, ?_⟩
  · have := poly_pos L (zero_le_one (α := ℝ)); positivity
  · have := coef_pos (l := L) (k := 0) (by omega); positivity
  · intro p hp h
    rw [blatt_eq]
    have t0 : (0 : ℝ) ≤ (p / hbarc) ^ 2 := sq_nonneg _
    have t1 : (p / hbarc) ^ 2 ≤ 1 := by
      have h1 : p / hbarc ≤ 1 := (div_le_one hh).2 h
      have h0 : 0 ≤ p / hbarc := by positivity
      nlinarith
    have e : p ^ (2 * L) = hbarc ^ (2 * L) * ((p / hbarc) ^ 2) ^ L := by
      rw [← pow_mul, div_pow]; field_simp
    rw [e]
    generalize (p / hbarc) ^ 2 = t at t0 t1
    have c0 := coef_pos (l := L) (k := 0) (by omega)
    have m1 : poly L t ≤ poly L 1 := by
      unfold poly
      apply Finset.sum_le_sum
      intro k hk
      have c := coef_pos (l := L) (k := k) (by simp at hk; omega)
      exact mul_le_mul_of_nonneg_left (by rw [one_pow]; exact pow_le_one₀ t0 t1) c.le
    have q := poly_pos L t0
    have q1 := poly_pos L (zero_le_one (α := ℝ))
    have e1 : ∀ a : ℝ, 0 < a → 1 / (hbarc ^ (2 * L) * a) * (hbarc ^ (2 * L) * t ^ L) = t ^ L / a := by
      intro a ha; field_simp
    rw [e1 _ q1, e1 _ c0]
    exact ⟨div_le_div_of_nonneg_left (by positivity) q m1,
      div_le_div_of_nonneg_left (by positivity) c0 (poly_ge0 L t0)⟩

/-- **C116.** The additional form factor of unstable daughters is 1 at the pole and at the threshold,
larger in between and smaller above both. -/
theorem C116_post (m M0 thr L : ℝ) (hL : 0 < L) (hm : 0 ≤ m) (ht : 0 ≤ thr) (hM : thr < M0) :
    postFFSqr M0 M0 thr L = 1 ∧ postFFSqr thr M0 thr L = 1 ∧ 0 < postFFSqr m M0 thr L ∧
      (thr < m → m < M0 → 1 < postFFSqr m M0 thr L) ∧ (M0 < m → postFFSqr m M0 thr L < 1) := by
  have hL4 : 0 < L * L * L * L := by positivity
  unfold postFFSqr
  simp only
  generalize L * L * L * L = a at hL4
  have d : ∀ y : ℝ, 0 < a + y * y := fun y => by have := mul_self_nonneg y; linarith
  refine ⟨?_, ?_, ?_, ?_, ?_⟩
  · rw [show M0 * M0 - (thr * thr + M0 * M0) * (1 / 2) = -((thr * thr - M0 * M0) * (1 / 2)) by ring,
      neg_mul_neg, div_self (d _).ne', one_mul]
  · rw [show thr * thr - (thr * thr + M0 * M0) * (1 / 2) = (thr * thr - M0 * M0) * (1 / 2) by ring,
      div_self (d _).ne', one_mul]
  · have h1 := d ((thr * thr - M0 * M0) * (1 / 2))
    have h2 := d (m * m - (thr * thr + M0 * M0) * (1 / 2))
    positivity
  · intro h1 h2
    have h3 : 1 < (a + (thr * thr - M0 * M0) * (1 / 2) * ((thr * thr - M0 * M0) * (1 / 2))) /
        (a + (m * m - (thr * thr + M0 * M0) * (1 / 2)) * (m * m - (thr * thr + M0 * M0) * (1 / 2))) := by
      rw [one_lt_div (d _)]
      have e1 : 0 < m * m - thr * thr := by nlinarith
      have e2 : 0 < M0 * M0 - m * m := by nlinarith
      nlinarith [mul_pos e1 e2]
    nlinarith
  · intro h1
    have h3 : (a + (thr * thr - M0 * M0) * (1 / 2) * ((thr * thr - M0 * M0) * (1 / 2))) /
        (a + (m * m - (thr * thr + M0 * M0) * (1 / 2)) * (m * m - (thr * thr + M0 * M0) * (1 / 2))) < 1 := by
      rw [div_lt_one (d _)]
      have e1 : 0 < m * m - thr * thr := by nlinarith
      have e2 : 0 < m * m - M0 * M0 := by nlinarith
      nlinarith [mul_pos e1 e2]
    have h4 : 0 ≤ (a + (thr * thr - M0 * M0) * (1 / 2) * ((thr * thr - M0 * M0) * (1 / 2))) /
        (a + (m * m - (thr * thr + M0 * M0) * (1 / 2)) * (m * m - (thr * thr + M0 * M0) * (1 / 2))) :=
      div_nonneg (d _).le (d _).le
    nlinarith

/-- D waves: x⁴/(9 + 3x² + x⁴). -/
example (p : ℝ) : blattWeisskopfSqr p 2 =
    (p / hbarc) ^ 4 / (9 + 3 * (p / hbarc) ^ 2 + (p / hbarc) ^ 4) := by
  rw [show (2 : Int) = ((2 : ℕ) : Int) from rfl, blatt_eq]
  simp [poly, coef, Finset.sum_range_succ]
  ring_nf

/-- ρ → ππ-like numbers meet the hypotheses of `C116_post`. -/
example : (0 : ℝ) < 8 / 10 ∧ (0 : ℝ) ≤ 1 ∧ (0 : ℝ) ≤ 28 / 100 ∧ (28 / 100 : ℝ) < 776 / 1000 := by norm_num

end Verif.Wid
