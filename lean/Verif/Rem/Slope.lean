import Verif.Rem.Run
import Mathlib.Analysis.Calculus.Deriv.Pow
import Mathlib.Analysis.Calculus.Deriv.Mul
/-
C169: the factor of the rapidities in the iteration.
-/
namespace Verif.Rem
open Verif.Kin Verif.Frag Real

variable {b : V3 × V3 × V3}

theorem total_shift_t (f d : ℝ) (l : List V4) : (total (l.map (shiftOne b f d))).t = (l.map fun p => mTr b p * cosh (f * rap b p + d)).sum := by
  induction l with
  | nil => rfl
  | cons p l ih => rw [List.map_cons, List.map_cons, List.sum_cons, ← ih]; rfl

theorem total_shift_vec (f d : ℝ) (l : List V4) : (total (l.map (shiftOne b f d))).vec =
    (total l).vec.add (b.1.smul ((l.map fun p => mTr b p * sinh (f * rap b p + d)).sum - (total l).vec.dot b.1)) := by
  induction l with
  | nil => simp [total, V4.vec, V3.add, V3.smul, V3.dot]
  | cons p l ih =>
    rw [List.map_cons, List.map_cons, List.sum_cons, total, total]
    have e : ∀ q r : V4, (q.add r).vec = q.vec.add r.vec := fun _ _ => rfl
    rw [e, e, ih]
    unfold shiftOne V4.mk' V4.vec V3.add V3.smul V3.dot
    ext <;> simp only <;> ring

theorem mink_shift (hb : Orthonormal b) (f d : ℝ) (l : List V4) :
    minkowski (total (l.map (shiftOne b f d))) (total (l.map (shiftOne b f d))) =
    (l.map fun p => mTr b p * cosh (f * rap b p + d)).sum ^ 2 - (l.map fun p => mTr b p * sinh (f * rap b p + d)).sum ^ 2 +
    ((total l).vec.dot b.1 ^ 2 - (total l).vec.dot (total l).vec) := by
  rw [mink_self, total_shift_t, total_shift_vec]
  obtain ⟨-, -, -, k4⟩ := moved_dot hb (total l).vec ((l.map fun p => mTr b p * sinh (f * rap b p + d)).sum - (total l).vec.dot b.1)
  rw [k4]; ring

theorem deriv_sum (g g' : V4 → ℝ → ℝ) (x : ℝ) (h : ∀ p, HasDerivAt (g p) (g' p x) x) (l : List V4) :
    HasDerivAt (fun f => (l.map fun p => g p f).sum) (l.map fun p => g' p x).sum x := by
  induction l with
  | nil => simpa using hasDerivAt_const x (0 : ℝ)
  | cons p l ih =>
    simp only [List.map_cons, List.sum_cons]
    exact (h p).add ih

theorem sum_back (hb : Orthonormal b) {l : List V4} (h : ∀ p ∈ l, Timelike p) :
    (l.map fun p => mTr b p * cosh (rap b p)).sum = (total l).t ∧ (l.map fun p => mTr b p * sinh (rap b p)).sum = (total l).vec.dot b.1 := by
  constructor
  · rw [List.map_congr_left fun p hp => mTr_cosh hb (h p hp)]
    clear h
    induction l with
    | nil => rfl
    | cons p l ih => rw [List.map_cons, List.sum_cons, ih]; rfl
  · rw [List.map_congr_left fun p hp => mTr_sinh hb (h p hp), total_dot]

/-- **C169.** The slope of the iteration is the derivative of the squared mass of the hadrons with respect to the factor by which their
rapidities, measured from that of the string, are multiplied. -/
theorem C169_slope (hb : Orthonormal b) {ev : Event} (h : ∀ p ∈ ev.had, Timelike p) (hs : ev.sys = sum4 ev.had) :
    HasDerivAt (fun f => minkowski (shift b f ((1 - f) * rap b ev.sys) ev).sys (shift b f ((1 - f) * rap b ev.sys) ev).sys) (slope b ev) 1 := by
  rw [← total_sum4] at hs
  have lin1 : ∀ p : V4, HasDerivAt (fun f : ℝ => f * rap b p + (1 - f) * rap b ev.sys) (rap b p - rap b ev.sys) 1 := by
    intro p
    have := (((hasDerivAt_id (1 : ℝ)).mul_const (rap b p))).add (((hasDerivAt_id (1 : ℝ)).const_sub 1).mul_const (rap b ev.sys))
    exact this.congr_deriv (by ring)
  have at1 : ∀ p : V4, 1 * rap b p + (1 - 1) * rap b ev.sys = rap b p := fun p => by ring
  have dE : HasDerivAt (fun f => (ev.had.map fun p => mTr b p * cosh (f * rap b p + (1 - f) * rap b ev.sys)).sum)
      (ev.had.map fun p => mTr b p * (rap b p - rap b ev.sys) * sinh (rap b p)).sum 1 := by
    refine deriv_sum (fun p f => mTr b p * cosh (f * rap b p + (1 - f) * rap b ev.sys))
      (fun p _ => mTr b p * (rap b p - rap b ev.sys) * sinh (rap b p)) 1 (fun p => ?_) ev.had
    have := ((lin1 p).cosh).const_mul (mTr b p)
    rw [at1] at this
    exact this.congr_deriv (by ring)
  have dP : HasDerivAt (fun f => (ev.had.map fun p => mTr b p * sinh (f * rap b p + (1 - f) * rap b ev.sys)).sum)
      (ev.had.map fun p => mTr b p * (rap b p - rap b ev.sys) * cosh (rap b p)).sum 1 := by
    refine deriv_sum (fun p f => mTr b p * sinh (f * rap b p + (1 - f) * rap b ev.sys))
      (fun p _ => mTr b p * (rap b p - rap b ev.sys) * cosh (rap b p)) 1 (fun p => ?_) ev.had
    have := ((lin1 p).sinh).const_mul (mTr b p)
    rw [at1] at this
    exact this.congr_deriv (by ring)
  have := ((dE.pow 2).sub (dP.pow 2)).add_const ((total ev.had).vec.dot b.1 ^ 2 - (total ev.had).vec.dot (total ev.had).vec)
  simp only [at1, (sum_back hb h).1, (sum_back hb h).2] at this
  refine (this.congr_of_eventuallyEq (Filter.Eventually.of_forall fun f => ?_)).congr_deriv ?_
  · exact mink_shift hb f _ ev.had
  · unfold slope
    rw [hs]
    simp only [Nat.cast_ofNat, Nat.reduceSub, pow_one]
    ring

theorem slope_form (hb : Orthonormal b) {ev : Event} (hs : Timelike ev.sys) :
    slope b ev = 2 * mTr b ev.sys * (ev.had.map fun p => mTr b p * ((rap b p - rap b ev.sys) * sinh (rap b p - rap b ev.sys))).sum := by
  have e1 := mTr_cosh hb hs
  have e2 := mTr_sinh hb hs
  unfold slope
  dsimp only
  rw [← e1, ← e2]
  have : ∀ l : List V4, mTr b ev.sys * cosh (rap b ev.sys) * (l.map fun p => mTr b p * (rap b p - rap b ev.sys) * sinh (rap b p)).sum -
      mTr b ev.sys * sinh (rap b ev.sys) * (l.map fun p => mTr b p * (rap b p - rap b ev.sys) * cosh (rap b p)).sum =
      mTr b ev.sys * (l.map fun p => mTr b p * ((rap b p - rap b ev.sys) * sinh (rap b p - rap b ev.sys))).sum := by
    intro l
    induction l with
    | nil => simp
    | cons p l ih =>
      simp only [List.map_cons, List.sum_cons]
      rw [Real.sinh_sub (rap b p) (rap b ev.sys)] at *
      linear_combination ih
  rw [this]; ring

theorem mul_sinh_nonneg (x : ℝ) : 0 ≤ x * sinh x := by
  rcases le_total 0 x with h | h
  · exact mul_nonneg h (Real.sinh_nonneg_iff.2 h)
  · exact mul_nonneg_of_nonpos_of_nonpos h (Real.sinh_nonpos_iff.2 h)

theorem mul_sinh_pos {x : ℝ} (h : x ≠ 0) : 0 < x * sinh x := by
  rcases lt_or_gt_of_ne h with h | h
  · exact mul_pos_of_neg_of_neg h (Real.sinh_neg_iff.2 h)
  · exact mul_pos h (Real.sinh_pos_iff.2 h)

/-- **C169.** Unless all hadrons have the same rapidity, the rapidities are spread (multiplied by a number between 1 and 2) when the mass of
the hadrons is too small, and compressed (by a number between 0 and 1) when it is too large: a hadron never overtakes
another one in the iteration. -/
theorem C169_factor (hb : Orthonormal b) {ev : Event} (h : ∀ p ∈ ev.had, Timelike p) (hs : ev.sys = sum4 ev.had)
    (hne : ∃ p ∈ ev.had, ∃ q ∈ ev.had, rap b p ≠ rap b q) (d : ℝ) :
    0 < factor d (slope b ev) ∧ factor d (slope b ev) < 2 ∧ (1 < factor d (slope b ev) ↔ 0 < d) := by
  rw [← total_sum4] at hs
  have T : Timelike ev.sys := by
    obtain ⟨p, hp, -⟩ := hne
    rw [hs]; exact total_timelike (List.ne_nil_of_mem hp) h
  have hsl : 0 < slope b ev := by
    rw [slope_form hb T]
    refine mul_pos (mul_pos two_pos (mTr_pos hb T)) ?_
    have hex : ∃ p ∈ ev.had, rap b p - rap b ev.sys ≠ 0 := by
      by_contra hc
      push Not at hc
      obtain ⟨p, hp, q, hq, hpq⟩ := hne
      have := hc p hp
      have := hc q hq
      exact hpq (by linarith)
    obtain ⟨p, hp, hp0⟩ := hex
    have nn : ∀ x ∈ ev.had.map (fun p => mTr b p * ((rap b p - rap b ev.sys) * sinh (rap b p - rap b ev.sys))), 0 ≤ x := by
      intro x hx
      obtain ⟨q, hq, rfl⟩ := List.mem_map.1 hx
      exact mul_nonneg (mTr_pos hb (h q hq)).le (mul_sinh_nonneg _)
    refine lt_of_lt_of_le (mul_pos (mTr_pos hb (h p hp)) (mul_sinh_pos hp0)) ?_
    exact List.single_le_sum nn _ (List.mem_map.2 ⟨p, hp, rfl⟩)
  unfold factor
  rw [if_neg hsl.ne']
  have ht1 := Real.abs_tanh_lt_one (d / slope b ev)
  rw [abs_lt] at ht1
  refine ⟨by linarith, by linarith, ?_⟩
  rw [lt_add_iff_pos_right, Real.tanh_eq_sinh_div_cosh, div_pos_iff_of_pos_right (Real.cosh_pos _), Real.sinh_pos_iff]
  exact div_pos_iff_of_pos_right hsl

end Verif.Rem
