import Verif.Quad.Model
import Mathlib.MeasureTheory.Integral.IntervalIntegral.Basic
import Mathlib.Tactic.Linarith
import Mathlib.Tactic.NormNum
/-
C173: numerical integration.
-/
namespace Verif.Quad
open MeasureTheory

/-- Specification: a value with one of the two precisions. -/
def Precise (p : Prec) (I v : ℝ) : Prop := |I - v| ≤ p.abs ∨ |I - v| ≤ p.rel * |v|

/-- The contract of an algorithm for an interval: without error code the error is not underestimated. -/
def Honest1 (A : Alg1) : Prop := ∀ f a b p, (A f a b p).1 = 0 → |(∫ x in a..b, f x) - (A f a b p).2.value| ≤ (A f a b p).2.error

/-- The contract of an algorithm for the unit square. -/
def Honest2 (A : Alg2) : Prop := ∀ f p, (A f p).1 = 0 → |(∫ x in (0 : ℝ)..1, ∫ y in (0 : ℝ)..1, f x y) - (A f p).2.value| ≤ (A f p).2.error

theorem check_ok {p : Prec} {r s : Result} (h : check p r = .ok s) : s = r ∧ r.error ≤ max p.abs (r.value * p.rel) := by
  unfold check at h
  split_ifs at h with hc
  exact ⟨(Except.ok.inj h).symm, not_lt.1 hc⟩

theorem precise_of {p : Prec} (hp : 0 ≤ p.rel) {I v e : ℝ} (h : |I - v| ≤ e) (he : e ≤ max p.abs (v * p.rel)) : Precise p I v := by
  rcases le_max_iff.1 he with h' | h'
  · exact .inl (h.trans h')
  · refine .inr (h.trans (h'.trans ?_))
    rw [mul_comm]
    exact mul_le_mul_of_nonneg_left (le_abs_self v) hp

/-- **C173.** What is returned for an interval is the integral with the required precision. -/
theorem C173_interval {A : Alg1} (hA : Honest1 A) {p : Prec} (hp : 0 ≤ p.rel) {a b : ℝ} {f : ℝ → ℝ} {r : Result}
    (h : integrate1 A p a b f = .ok r) : Precise p (∫ x in a..b, f x) r.value := by
  unfold integrate1 at h
  dsimp only at h
  split_ifs at h with hc
  obtain ⟨rfl, he⟩ := check_ok h
  exact precise_of hp (hA f a b p (not_not.1 hc)) he

/-- The integral over the unit square is that over the rectangle. -/
theorem unitCube_integral (min1 max1 min2 max2 : ℝ) (f : ℝ → ℝ → ℝ) :
    (∫ x in (0 : ℝ)..1, ∫ y in (0 : ℝ)..1, unitCube min1 (max1 - min1) min2 (max2 - min2) f x y) = ∫ x in min1..max1, ∫ y in min2..max2, f x y := by
  unfold unitCube
  have inner : ∀ x, (∫ y in (0 : ℝ)..1, f (min1 + (max1 - min1) * x) (min2 + (max2 - min2) * y) * (max1 - min1) * (max2 - min2)) =
      (∫ y in min2..max2, f (min1 + (max1 - min1) * x) y) * (max1 - min1) := by
    intro x
    have h := intervalIntegral.smul_integral_comp_add_mul (a := 0) (b := 1) (f := fun y => f (min1 + (max1 - min1) * x) y) (max2 - min2) min2
    rw [smul_eq_mul, mul_zero, add_zero, mul_one, add_sub_cancel] at h
    rw [← h, intervalIntegral.integral_mul_const, intervalIntegral.integral_mul_const]
    ring
  have e : (fun x => ∫ y in (0 : ℝ)..1, f (min1 + (max1 - min1) * x) (min2 + (max2 - min2) * y) * (max1 - min1) * (max2 - min2)) =
      fun x => (∫ y in min2..max2, f (min1 + (max1 - min1) * x) y) * (max1 - min1) := funext inner
  rw [e, intervalIntegral.integral_mul_const, mul_comm]
  have h := intervalIntegral.smul_integral_comp_add_mul (a := 0) (b := 1) (f := fun x => ∫ y in min2..max2, f x y) (max1 - min1) min1
  rw [smul_eq_mul, mul_zero, add_zero, mul_one, add_sub_cancel] at h
  exact h

/-- **C173.** What is returned for a rectangle is the integral over it with the required precision. -/
theorem C173_rectangle {A : Alg2} (hA : Honest2 A) {p : Prec} (hp : 0 ≤ p.rel) {min1 max1 min2 max2 : ℝ} (h1 : min1 ≤ max1) (h2 : min2 ≤ max2)
    {f : ℝ → ℝ → ℝ} {r : Result} (h : integrate2 A p min1 max1 min2 max2 f = .ok r) :
    Precise p (∫ x in min1..max1, ∫ y in min2..max2, f x y) r.value := by
  unfold integrate2 at h
  rw [if_neg (by push Not; exact ⟨h1, h2⟩)] at h
  dsimp only at h
  split_ifs at h with hc
  obtain ⟨rfl, he⟩ := check_ok h
  rw [← unitCube_integral]
  exact precise_of hp (hA _ p (not_not.1 hc)) he

/-- **C173.** Limits in the wrong order are an error, unless the difference is that of rounding; the integral is zero then. -/
theorem C173_limits (A : Alg2) (p : Prec) {min1 max1 min2 max2 : ℝ} (h : max1 < min1 ∨ max2 < min2) (f : ℝ → ℝ → ℝ) :
    (integrate2 A p min1 max1 min2 max2 f = .ok ⟨0, 0⟩ ∧ min1 - max1 < 1 / 10 ^ 15 ∧ min2 - max2 < 1 / 10 ^ 15) ∨
    (integrate2 A p min1 max1 min2 max2 f = .error .limits ∧ (1 / 10 ^ 15 ≤ min1 - max1 ∨ 1 / 10 ^ 15 ≤ min2 - max2)) := by
  unfold integrate2
  rw [if_pos h]
  split_ifs with hc
  · exact .inl ⟨rfl, by linarith [hc.1], by linarith [hc.2]⟩
  · refine .inr ⟨rfl, ?_⟩
    by_contra hn
    push Not at hn
    exact hc ⟨by linarith [hn.1], by linarith [hn.2]⟩

/-- **C173**, in part: a value that is not negative, with an estimated error that meets one of the precisions, is returned. Missing: values
below zero. -/
theorem C173_returned_partial {A : Alg1} {p : Prec} {a b : ℝ} {f : ℝ → ℝ} (hc : (A f a b p).1 = 0) (hv : 0 ≤ (A f a b p).2.value)
    (he : (A f a b p).2.error ≤ p.abs ∨ (A f a b p).2.error ≤ p.rel * |(A f a b p).2.value|) :
    integrate1 A p a b f = .ok (A f a b p).2 := by
  unfold integrate1 check
  dsimp only
  rw [if_neg (not_not.2 hc), if_neg]
  rw [not_lt]
  rcases he with h | h
  · exact h.trans (le_max_left _ _)
  · rw [abs_of_nonneg hv, mul_comm] at h
    exact h.trans (le_max_right _ _)

/-- **C173**, errors: an error code of the algorithm is never ignored. -/
theorem C173_code (A : Alg1) (B : Alg2) (p : Prec) (a b : ℝ) (f : ℝ → ℝ) (g : ℝ → ℝ → ℝ) (h : (A f a b p).1 ≠ 0) {min1 max1 min2 max2 : ℝ}
    (h1 : min1 ≤ max1) (h2 : min2 ≤ max2) (hB : (B (fun x y => g (min1 + (max1 - min1) * x) (min2 + (max2 - min2) * y) * (max1 - min1) * (max2 - min2)) p).1 ≠ 0) :
    integrate1 A p a b f = .error .code ∧ integrate2 B p min1 max1 min2 max2 g = .error .code := by
  constructor
  · unfold integrate1
    dsimp only
    rw [if_pos h]
  · unfold integrate2
    rw [if_neg (by push Not; exact ⟨h1, h2⟩)]
    exact if_pos hB

/-- The precision that is used if none is given, integrate.h:178-182. -/
noncomputable def standard : Prec := ⟨1 / 10 ^ 9, 5 / 10000⟩

/-- **C173**, the complement: with the relative error 1e-4, which is better than required, the integral of a function is returned and
that of its negative is not. -/
theorem C173_returned_false : ∃ A : Alg1, Honest1 A ∧ ∃ f : ℝ → ℝ,
    (A f 0 1 standard).1 = 0 ∧ (A f 0 1 standard).2.error ≤ standard.rel * |(A f 0 1 standard).2.value| ∧
    integrate1 A standard 0 1 f = .ok (A f 0 1 standard).2 ∧
    (A (fun x => -f x) 0 1 standard).1 = 0 ∧
    (A (fun x => -f x) 0 1 standard).2.error ≤ standard.rel * |(A (fun x => -f x) 0 1 standard).2.value| ∧
    integrate1 A standard 0 1 (fun x => -f x) = .error .precision := by
  refine ⟨fun f a b _ => (0, ⟨∫ x in a..b, f x, 1 / 10000⟩), ?_, fun _ => 1, ?_⟩
  · intro f a b p _
    simp only [sub_self, abs_zero]
    norm_num
  · have i1 : (∫ _ in (0 : ℝ)..1, (1 : ℝ)) = 1 := by simp
    have i2 : (∫ _ in (0 : ℝ)..1, -(1 : ℝ)) = -1 := by simp
    unfold integrate1 check standard
    simp only [i1, i2]
    norm_num

/-- The contracts can be met. -/
example : ∃ A : Alg1, ∃ B : Alg2, Honest1 A ∧ Honest2 B ∧ ∃ r, integrate2 B standard 0 1 0 1 (fun _ _ => 1) = .ok r := by
  refine ⟨fun f a b _ => (0, ⟨∫ x in a..b, f x, 0⟩), fun f _ => (0, ⟨∫ x in (0 : ℝ)..1, ∫ y in (0 : ℝ)..1, f x y, 0⟩), ?_, ?_, ?_⟩
  · intro f a b p _
    simp
  · intro f p _
    simp
  · unfold integrate2 check standard
    norm_num

end Verif.Quad
