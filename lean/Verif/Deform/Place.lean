import Verif.Deform.Setup
import Mathlib.MeasureTheory.Function.JacobianOneDim
import Mathlib.Analysis.Complex.ExponentialBounds

/-! Positions of the nucleons and normalisation of deformed nuclei: C163. -/

namespace Verif.Deform
open Verif.Kin Real MeasureTheory

/-! ### Changes of variables -/

theorem cube_subst {c : ℝ} (hc : 0 < c) (g : ℝ → ℝ) :
    ∫ u in (0 : ℝ)..1, g (c * u ^ ((1 : ℝ) / 3)) = 3 / c ^ 3 * ∫ r in (0 : ℝ)..c, r ^ 2 * g r := by
  have himg : (fun r : ℝ => (r / c) ^ 3) '' Set.Icc 0 c = Set.Icc 0 1 := by
    ext u
    constructor
    · rintro ⟨r, ⟨h0, h1⟩, rfl⟩
      have : 0 ≤ r / c := by positivity
      have : r / c ≤ 1 := (div_le_one hc).2 h1
      exact ⟨by positivity, pow_le_one₀ (by positivity) this⟩
    · rintro ⟨h0, h1⟩
      refine ⟨c * u ^ ((1 : ℝ) / 3), ⟨by positivity, ?_⟩, ?_⟩
      · have : u ^ ((1 : ℝ) / 3) ≤ 1 := rpow_le_one h0 h1 (by norm_num)
        nlinarith
      · simp only
        rw [mul_div_cancel_left₀ _ hc.ne', ← rpow_natCast, ← rpow_mul h0]
        norm_num
  have hinj : Set.InjOn (fun r : ℝ => (r / c) ^ 3) (Set.Icc 0 c) := by
    intro a ha b hb h
    have h1 : 0 ≤ a / c := div_nonneg ha.1 hc.le
    have h2 : 0 ≤ b / c := div_nonneg hb.1 hc.le
    have := (pow_left_inj₀ h1 h2 (by norm_num)).1 h
    field_simp at this
    exact this
  have hder : ∀ r ∈ Set.Icc (0 : ℝ) c,
      HasDerivWithinAt (fun r : ℝ => (r / c) ^ 3) (3 * r ^ 2 / c ^ 3) (Set.Icc 0 c) r := by
    intro r _
    have := (((hasDerivAt_id r).div_const c).pow 3).hasDerivWithinAt (s := Set.Icc 0 c)
    refine this.congr_deriv ?_
    simp
    field_simp
  have key := integral_image_eq_integral_abs_deriv_smul measurableSet_Icc hder hinj
    (fun u => g (c * u ^ ((1 : ℝ) / 3)))
  rw [himg] at key
  rw [intervalIntegral.integral_of_le zero_le_one, intervalIntegral.integral_of_le hc.le,
    ← integral_Icc_eq_integral_Ioc, ← integral_Icc_eq_integral_Ioc, key, ← integral_const_mul]
  refine setIntegral_congr_fun measurableSet_Icc fun r hr => ?_
  have h1 : 0 ≤ r / c := div_nonneg hr.1 hc.le
  have e : c * ((r / c) ^ 3) ^ ((1 : ℝ) / 3) = r := by
    rw [← rpow_natCast, ← rpow_mul h1]
    norm_num
    field_simp
  simp only [smul_eq_mul, e]
  rw [abs_of_nonneg (by positivity)]
  ring

theorem inv_subst (g : ℝ → ℝ) :
    ∫ t in (1 / 100 : ℝ)..1, g ((1 - t) / t) / t ^ 2 = ∫ r in (0 : ℝ)..99, g r := by
  have himg : (fun t : ℝ => (1 - t) / t) '' Set.Icc (1 / 100) 1 = Set.Icc 0 99 := by
    ext r
    constructor
    · rintro ⟨t, ⟨h0, h1⟩, rfl⟩
      have : 0 < t := by linarith
      refine ⟨div_nonneg (by linarith) this.le, ?_⟩
      simp only
      rw [div_le_iff₀ this]
      linarith
    · rintro ⟨h0, h1⟩
      have : 0 < 1 + r := by linarith
      refine ⟨1 / (1 + r), ⟨?_, ?_⟩, ?_⟩
      · rw [div_le_div_iff₀ (by norm_num) this]; linarith
      · rw [div_le_one this]; linarith
      · simp only
        field_simp
        ring
  have hinj : Set.InjOn (fun t : ℝ => (1 - t) / t) (Set.Icc (1 / 100) 1) := by
    intro a ha b hb h
    have h1 : 0 < a := by linarith [ha.1]
    have h2 : 0 < b := by linarith [hb.1]
    simp only at h
    field_simp at h
    linarith
  have hder : ∀ t ∈ Set.Icc (1 / 100 : ℝ) 1,
      HasDerivWithinAt (fun t : ℝ => (1 - t) / t) (-1 / t ^ 2) (Set.Icc (1 / 100) 1) t := by
    intro t ht
    have h1 : t ≠ 0 := by linarith [ht.1]
    have := (((hasDerivAt_id t).const_sub 1).div (hasDerivAt_id t) h1).hasDerivWithinAt (s := Set.Icc (1 / 100) 1)
    refine this.congr_deriv ?_
    simp only [id]
    congr 1
    ring
  have key := integral_image_eq_integral_abs_deriv_smul measurableSet_Icc hder hinj g
  rw [himg] at key
  rw [intervalIntegral.integral_of_le (by norm_num), intervalIntegral.integral_of_le (by norm_num),
    ← integral_Icc_eq_integral_Ioc, ← integral_Icc_eq_integral_Ioc, key]
  refine setIntegral_congr_fun measurableSet_Icc fun t ht => ?_
  have h1 : 0 < t := by linarith [ht.1]
  simp only [smul_eq_mul]
  rw [abs_div, abs_neg, abs_one, abs_of_pos (by positivity)]
  ring

/-! ### The law of the positions -/

theorem accept {q : ℝ} (h0 : 0 ≤ q) (h1 : q ≤ 1) (a : ℝ) :
    ∫ w in (0 : ℝ)..1, (if w > q then 0 else a) = a * q := by
  have hi : ∀ x y : ℝ, IntervalIntegrable (fun w => if w > q then (0 : ℝ) else a) volume x y := by
    intro x y
    have : (fun w => if w > q then (0 : ℝ) else a) = Set.indicator (Set.Iic q) fun _ => a := by
      ext w
      by_cases h : w > q
      · rw [if_pos h, Set.indicator_of_notMem (by simpa using h)]
      · rw [if_neg h, Set.indicator_of_mem (by simpa using h)]
    rw [this]
    have hc : IntervalIntegrable (fun _ : ℝ => a) MeasureTheory.volume x y := continuous_const.intervalIntegrable _ _
    exact ⟨hc.1.indicator measurableSet_Iic, hc.2.indicator measurableSet_Iic⟩
  rw [← intervalIntegral.integral_add_adjacent_intervals (hi 0 q) (hi q 1)]
  have e1 : ∫ w in (0 : ℝ)..q, (if w > q then (0 : ℝ) else a) = ∫ w in (0 : ℝ)..q, a := by
    apply intervalIntegral.integral_congr
    intro w hw
    rw [Set.uIcc_of_le h0] at hw
    exact if_neg (not_lt.2 hw.2)
  have e2 : ∫ w in q..1, (if w > q then (0 : ℝ) else a) = ∫ w in q..1, (0 : ℝ) := by
    apply intervalIntegral.integral_congr_ae
    filter_upwards with w hw
    rw [Set.uIoc_of_le h1] at hw
    exact if_pos hw.1
  rw [e1, e2]
  simp
  ring

theorem ratio {n : Nucleus} (hs : 0 < n.sat) (r x phi : ℝ) :
    0 ≤ n.density r x phi / n.sat ∧ n.density r x phi / n.sat ≤ 1 := by
  unfold Nucleus.density
  have := exp_pos ((r - n.surface x phi) / n.diff)
  constructor
  · positivity
  · rw [div_div, div_le_one (by positivity)]
    nlinarith

/-- **C163.** The nucleons have the deformed Woods-Saxon distribution within the sampled range: for uniform random
numbers the mean of any quantity over the accepted trials of one iteration is its integral over space with the density,
with one constant factor that does not depend on the quantity. -/
theorem C163_law {n : Nucleus} (hr : 0 < n.radius) (hd : 0 < n.diff) (hs : 0 < n.sat) (g : ℝ → ℝ → ℝ → ℝ) :
    (∫ phi in (0 : ℝ)..2 * π, ∫ x in (-1 : ℝ)..1, ∫ u in (0 : ℝ)..1, ∫ w in (0 : ℝ)..1,
      match n.trial phi x u w with
      | none => 0
      | some (r, x', phi') => g r x' phi') =
    3 / n.range ^ 3 / n.sat * ∫ phi in (0 : ℝ)..2 * π, ∫ x in (-1 : ℝ)..1, ∫ r in (0 : ℝ)..n.range,
      r ^ 2 * (n.density r x phi * g r x phi) := by
  have hR : 0 < n.range := by unfold Nucleus.range; positivity
  rw [← intervalIntegral.integral_const_mul]
  apply intervalIntegral.integral_congr
  intro phi _
  simp only
  rw [← intervalIntegral.integral_const_mul]
  apply intervalIntegral.integral_congr
  intro x _
  simp only
  have e : ∀ u, (∫ w in (0 : ℝ)..1, match n.trial phi x u w with
      | none => 0
      | some (r, x', phi') => g r x' phi') =
      (fun r => n.density r x phi * g r x phi / n.sat) (n.range * u ^ ((1 : ℝ) / 3)) := by
    intro u
    obtain ⟨q0, q1⟩ := ratio hs (n.range * u ^ ((1 : ℝ) / 3)) x phi
    have : ∀ w, (match n.trial phi x u w with
      | none => 0
      | some (r, x', phi') => g r x' phi') =
        if w > n.density (n.range * u ^ ((1 : ℝ) / 3)) x phi / n.sat then 0
        else g (n.range * u ^ ((1 : ℝ) / 3)) x phi := by
      intro w
      unfold Nucleus.trial
      simp only
      split_ifs with h <;> rfl
    simp only [this]
    rw [accept q0 q1]
    ring
  refine (intervalIntegral.integral_congr (fun u _ => e u)).trans ?_
  refine (cube_subst hR (fun r => n.density r x phi * g r x phi / n.sat)).trans ?_
  have : ∀ r, r ^ 2 * (n.density r x phi * g r x phi / n.sat) =
      1 / n.sat * (r ^ 2 * (n.density r x phi * g r x phi)) := fun r => by ring
  simp only [this]
  rw [intervalIntegral.integral_const_mul]
  ring

/-- **C163.** The result is the first trial that is accepted; its distance from the centre is in the sampled range.
-/
theorem C163_draw (n : Nucleus) (l : List (ℝ × ℝ × ℝ × ℝ)) (x : ℝ × ℝ × ℝ) :
    n.draw l = some x ↔ ∃ pre phi c u w post, l = pre ++ (phi, c, u, w) :: post ∧
      (∀ p ∈ pre, p.2.2.2 > n.density (n.range * p.2.2.1 ^ ((1 : ℝ) / 3)) p.2.1 p.1 / n.sat) ∧
      w ≤ n.density (n.range * u ^ ((1 : ℝ) / 3)) c phi / n.sat ∧ x = (n.range * u ^ ((1 : ℝ) / 3), c, phi) := by
  induction l with
  | nil => simp [Nucleus.draw]
  | cons a l ih =>
    obtain ⟨phi, c, u, w⟩ := a
    rw [Nucleus.draw]
    by_cases h : w > n.density (n.range * u ^ ((1 : ℝ) / 3)) c phi / n.sat
    · have : n.trial phi c u w = none := if_pos h
      rw [this]
      simp only
      rw [ih]
      constructor
      · rintro ⟨pre, p, c', u', w', post, rfl, h1, h2, h3⟩
        refine ⟨(phi, c, u, w) :: pre, p, c', u', w', post, rfl, ?_, h2, h3⟩
        intro q hq
        rcases List.mem_cons.1 hq with rfl | hq
        · exact h
        · exact h1 q hq
      · rintro ⟨pre, p, c', u', w', post, e, h1, h2, h3⟩
        cases pre with
        | nil =>
          cases e
          exact absurd h (not_lt.2 h2)
        | cons q pre =>
          cases e
          exact ⟨pre, p, c', u', w', post, rfl, fun q hq => h1 q (List.mem_cons_of_mem _ hq), h2, h3⟩
    · have : n.trial phi c u w = some (n.range * u ^ ((1 : ℝ) / 3), c, phi) := if_neg h
      rw [this]
      simp only
      constructor
      · intro e
        cases e
        exact ⟨[], phi, c, u, w, l, rfl, by simp, not_lt.1 h, rfl⟩
      · rintro ⟨pre, p, c', u', w', post, e, h1, h2, h3⟩
        cases pre with
        | nil => cases e; rw [h3]
        | cons q pre =>
          cases e
          exact absurd (h1 _ List.mem_cons_self) h

/-! ### The range of the positions -/

theorem bounds {x : ℝ} (hx : -1 ≤ x) (hx1 : x ≤ 1) : |y20 x| ≤ 0.635 ∧ |y40 x| ≤ 0.855 := by
  have hp := pi_gt_d2
  have hs : x * x ≤ 1 := by nlinarith
  have h0 : 0 ≤ x * x := mul_self_nonneg x
  have q5 : √(5 / π) ≤ 1.27 := by
    apply sqrt_le_iff.2
    refine ⟨by norm_num, ?_⟩
    rw [div_le_iff₀ pi_pos]
    nlinarith
  have q1 : √(1 / π) ≤ 0.57 := by
    apply sqrt_le_iff.2
    refine ⟨by norm_num, ?_⟩
    rw [div_le_iff₀ pi_pos]
    nlinarith
  have p5 := sqrt_nonneg (5 / π)
  have p1 := sqrt_nonneg (1 / π)
  constructor
  · unfold y20
    rw [abs_mul, abs_of_nonneg (by positivity)]
    have : |3 * (x * x) - 1| ≤ 2 := abs_le.2 ⟨by linarith, by linarith⟩
    calc 1 / 4 * √(5 / π) * |3 * (x * x) - 1| ≤ 1 / 4 * 1.27 * 2 := by gcongr
      _ = 0.635 := by norm_num
  · unfold y40
    rw [abs_mul, abs_of_nonneg (by positivity)]
    have : |35 * (x * x) * (x * x) - 30 * (x * x) + 3| ≤ 8 := abs_le.2 ⟨by nlinarith [sq_nonneg (x * x - 3 / 7)],
      by nlinarith⟩
    calc 3 / 16 * √(1 / π) * |35 * (x * x) * (x * x) - 30 * (x * x) + 3| ≤ 3 / 16 * 0.57 * 8 := by gcongr
      _ = 0.855 := by norm_num

/-- **C163.** The range covers the nuclei with known parameters: for an automatic nucleus with its default radius and
diffusiveness, the density outside of the sampled range is less than 1/2000 of the one in the centre. For other values
this is not so, see `C163_range_false`. -/
theorem C163_range_partial {s : Section} {t : ℕ} {n : Nucleus} (h : create s t = .ok n) (ha : s.automatic = true)
    (hw : s.radius = none) (hs : 0 < n.sat) {r x phi : ℝ} (hr : n.range < r) (hx : -1 ≤ x) (hx1 : x ≤ 1) :
    n.density r x phi < n.sat / 2000 := by
  obtain ⟨-, -, h3, h4, -⟩ := C163_parameters h
  obtain ⟨hk, hb3, hg⟩ := h4 ha
  have hws := h3 hw
  obtain ⟨l20, l40⟩ := bounds hx hx1
  have hsurf : n.surface x phi = n.radius * (1 + n.beta2 * y20 x + n.beta4 * y40 x) := by
    unfold Nucleus.surface
    rw [hb3, hg]
    simp
  suffices hsuff : 0 < n.diff ∧ 8 ≤ (r - n.surface x phi) / n.diff by
    obtain ⟨hd, h8⟩ := hsuff
    unfold Nucleus.density
    have e8 : (2000 : ℝ) ≤ exp 8 := by
      have h1 : (2.7 : ℝ) ≤ exp 1 := by have := exp_one_gt_d9; linarith
      have : exp 8 = exp 1 ^ 8 := by rw [← exp_nat_mul]; norm_num
      rw [this]
      calc (2000 : ℝ) ≤ 2.7 ^ 8 := by norm_num
        _ ≤ exp 1 ^ 8 := by gcongr
    have := exp_le_exp.2 h8
    apply div_lt_div_of_pos_left hs (by norm_num)
    linarith
  rw [hsurf]
  unfold Nucleus.range at hr
  have a1 := abs_le.1 l20
  have a2 := abs_le.1 l40
  generalize y20 x = a at *
  generalize y40 x = b at *
  unfold known at hk
  simp only [List.mem_cons, List.not_mem_nil, or_false, Prod.mk.injEq] at hk
  rcases hk with ⟨⟨eA, eZ⟩, e2, e4⟩ | ⟨⟨eA, eZ⟩, e2, e4⟩ | ⟨⟨eA, eZ⟩, e2, e4⟩ | ⟨⟨eA, eZ⟩, e2, e4⟩ |
    ⟨⟨eA, eZ⟩, e2, e4⟩ | ⟨⟨eA, eZ⟩, e2, e4⟩ | ⟨⟨eA, eZ⟩, e2, e4⟩ <;>
  · rw [eA, eZ] at hws
    unfold woodsSaxon at hws
    norm_num at hws
    obtain ⟨er, ed⟩ := hws
    rw [e2, e4, er, ed]
    rw [er, ed] at hr
    refine ⟨by norm_num, ?_⟩
    rw [le_div_iff₀ (by norm_num)]
    norm_num at *
    linarith

/-- **C163.** The range mixes up units, radius over diffusiveness plus radius times diffusiveness, and can cut the
surface off: with Radius 3 and Diffusiveness 1 no nucleon is ever placed beyond 6, where the density is more than 1/60 of
the one in the centre. -/
theorem C163_range_false : ∃ n : Nucleus,
    create ⟨16, 8, some 1, some 3, some 0.16, false, some 0.1, none, none, none⟩ 1 = .ok n ∧
    (∀ l x, (∀ p ∈ l, 0 ≤ p.2.2.1 ∧ p.2.2.1 ≤ 1) → n.draw l = some x → x.1 ≤ 6) ∧
    n.sat / 60 < n.density 6.1 1 0 := by
  refine ⟨⟨16, 3, 1, 0.16, 0.1, 0, 0, 0⟩, ?_, ?_, ?_⟩
  · simp [create, construct, base]
  · intro l x hl hx
    obtain ⟨pre, phi, c, u, w, post, rfl, -, -, rfl⟩ := (C163_draw _ _ _).1 hx
    obtain ⟨h0, h1⟩ := hl (phi, c, u, w) (by simp)
    have : u ^ ((1 : ℝ) / 3) ≤ 1 := rpow_le_one h0 h1 (by norm_num)
    simp only [Nucleus.range]
    nlinarith
  · unfold Nucleus.density Nucleus.surface
    simp only [cos_zero, sin_zero, one_mul, mul_zero, zero_mul, add_zero]
    have hy : 0 ≤ y20 1 := by unfold y20; have := sqrt_nonneg (5 / π); nlinarith
    apply div_lt_div_of_pos_left (by norm_num) (by positivity)
    have h4 : exp 4 < 59 := by
      have h1 : exp 1 < 2.7183 := by have := exp_one_lt_d9; linarith
      have : exp 4 = exp 1 ^ 4 := by rw [← exp_nat_mul]; norm_num
      rw [this]
      calc exp 1 ^ 4 < 2.7183 ^ 4 := by gcongr
        _ < 59 := by norm_num
    have : exp ((6.1 - 3 * (1 + 0.1 * y20 1)) / 1) ≤ exp 4 := exp_le_exp.2 (by norm_num; linarith)
    linarith

/-! ### Normalisation -/

/-- The density adds up to the number of nucleons, up to 99 fm. -/
def Normalised (n : Nucleus) : Prop :=
  ∫ r in (0 : ℝ)..99, ∫ x in (-1 : ℝ)..1, ∫ phi in (0 : ℝ)..2 * π, r ^ 2 * n.density r x phi = n.A

/-- The volume within 99 fm, weighted with the Woods-Saxon distribution without normalisation. -/
noncomputable def weight (n : Nucleus) : ℝ :=
  ∫ r in (0 : ℝ)..99, ∫ x in (-1 : ℝ)..1, ∫ phi in (0 : ℝ)..2 * π, r ^ 2 * n.shape r x phi

theorem shape_cont (n : Nucleus) : Continuous fun p : (ℝ × ℝ) × ℝ => n.shape p.1.1 p.1.2 p.2 := by
  unfold Nucleus.shape Nucleus.surface y20 y22 y30 y40
  refine continuous_const.div (by fun_prop) fun p => ?_
  have := exp_pos ((p.1.1 - n.radius * (1 + n.beta2 * (cos n.gamma * (1 / 4 * √(5 / π) * (3 * (p.1.2 * p.1.2) - 1)) +
    √2 * sin n.gamma * (1 / 4 * √(15 / (2 * π)) * (1 - p.1.2 * p.1.2) * cos (2 * p.2))) +
    n.beta3 * (1 / 4 * √(7 / π) * (5 * p.1.2 * (p.1.2 * p.1.2) - 3 * p.1.2)) +
    n.beta4 * (3 / 16 * √(1 / π) * (35 * (p.1.2 * p.1.2) * (p.1.2 * p.1.2) - 30 * (p.1.2 * p.1.2) + 3)))) / n.diff)
  positivity

theorem shape_pos (n : Nucleus) (r x phi : ℝ) : 0 < n.shape r x phi := by
  unfold Nucleus.shape
  have := exp_pos ((r - n.surface x phi) / n.diff)
  positivity

theorem weight_pos (n : Nucleus) : 0 < weight n := by
  unfold weight
  have hc := shape_cont n
  have c1 : Continuous fun p : ℝ × ℝ => ∫ phi in (0 : ℝ)..2 * π, p.1 ^ 2 * n.shape p.1 p.2 phi := by
    apply intervalIntegral.continuous_parametric_intervalIntegral_of_continuous'
    exact (by fun_prop : Continuous fun p : (ℝ × ℝ) × ℝ => p.1.1 ^ 2).mul hc
  have c2 : Continuous fun r : ℝ => ∫ x in (-1 : ℝ)..1, ∫ phi in (0 : ℝ)..2 * π, r ^ 2 * n.shape r x phi := by
    apply intervalIntegral.continuous_parametric_intervalIntegral_of_continuous'
    exact c1
  apply intervalIntegral.intervalIntegral_pos_of_pos_on (c2.intervalIntegrable _ _) _ (by norm_num)
  intro r hr
  apply intervalIntegral.intervalIntegral_pos_of_pos_on _ _ (by norm_num)
  · exact (c1.comp (by fun_prop : Continuous fun x : ℝ => (r, x))).intervalIntegrable _ _
  intro x _
  apply intervalIntegral.intervalIntegral_pos_of_pos_on _ _ (by positivity)
  · have : Continuous fun phi : ℝ => r ^ 2 * n.shape r x phi :=
      continuous_const.mul (hc.comp (by fun_prop : Continuous fun phi : ℝ => ((r, x), phi)))
    exact this.intervalIntegrable _ _
  intro phi _
  have := shape_pos n r x phi
  have := hr.1
  positivity

theorem density_weight (n : Nucleus) :
    (∫ r in (0 : ℝ)..99, ∫ x in (-1 : ℝ)..1, ∫ phi in (0 : ℝ)..2 * π, r ^ 2 * n.density r x phi) =
      n.sat * weight n := by
  unfold weight
  rw [← intervalIntegral.integral_const_mul]
  congr 1; ext r
  rw [← intervalIntegral.integral_const_mul]
  congr 1; ext x
  rw [← intervalIntegral.integral_const_mul]
  congr 1; ext phi
  unfold Nucleus.density Nucleus.shape
  ring

theorem saturation_eq (n : Nucleus) : n.saturation = n.A / weight n := by
  unfold Nucleus.saturation
  split_ifs with h
  · congr 1
    have e : ∀ t : ℝ, (∫ cosx in (-1 : ℝ)..1, 2 * π * ((1 - t) / t) ^ 2 * n.shape ((1 - t) / t) cosx 0 / t ^ 2) =
        (fun r => ∫ x in (-1 : ℝ)..1, ∫ phi in (0 : ℝ)..2 * π, r ^ 2 * n.shape r x phi) ((1 - t) / t) / t ^ 2 := by
      intro t
      simp only
      rw [← intervalIntegral.integral_div]
      congr 1; ext x
      have : ∀ phi, n.shape ((1 - t) / t) x phi = n.shape ((1 - t) / t) x 0 := by
        intro phi
        unfold Nucleus.shape Nucleus.surface
        rw [h]
        simp
      simp only [this]
      rw [intervalIntegral.integral_const, smul_eq_mul]
      ring
    exact (intervalIntegral.integral_congr (fun t _ => e t)).trans
      (inv_subst (fun r => ∫ x in (-1 : ℝ)..1, ∫ phi in (0 : ℝ)..2 * π, r ^ 2 * n.shape r x phi))
  · congr 1
    have e : ∀ t : ℝ, (∫ cosx in (-1 : ℝ)..1, ((1 - t) / t) ^ 2 * n.phiIntegral ((1 - t) / t) cosx / t ^ 2) =
        (fun r => ∫ x in (-1 : ℝ)..1, ∫ phi in (0 : ℝ)..2 * π, r ^ 2 * n.shape r x phi) ((1 - t) / t) / t ^ 2 := by
      intro t
      simp only
      rw [← intervalIntegral.integral_div]
      congr 1; ext x
      rw [intervalIntegral.integral_const_mul]
      rfl
    exact (intervalIntegral.integral_congr (fun t _ => e t)).trans
      (inv_subst (fun r => ∫ x in (-1 : ℝ)..1, ∫ phi in (0 : ℝ)..2 * π, r ^ 2 * n.shape r x phi))

/-- The undeformed nucleus. -/
def undeformed (n : Nucleus) : Nucleus := { n with beta2 := 0, beta3 := 0, beta4 := 0, gamma := 0 }

theorem undeformed_shape (n : Nucleus) (r x phi : ℝ) : (undeformed n).shape r x phi = n.roundShape r := by
  unfold Nucleus.shape Nucleus.roundShape Nucleus.surface undeformed
  simp [add_comm]

theorem roundSaturation_eq (n : Nucleus) : n.roundSaturation = n.A / weight (undeformed n) := by
  have := saturation_eq (undeformed n)
  unfold Nucleus.saturation at this
  rw [if_pos (show (undeformed n).gamma = 0 from rfl)] at this
  simp only [undeformed_shape] at this
  exact this

/-- **C163.** With an automatic deformation the density of the nucleus adds up to its number of nucleons, whatever its
radius and diffusiveness are, triaxial or not. -/
theorem C163_normalised {s : Section} {t : ℕ} {n : Nucleus} (h : create s t = .ok n) (ha : s.automatic = true) :
    Normalised n := by
  unfold Normalised
  rw [density_weight]
  unfold create at h
  simp only at h
  split_ifs at h
  unfold construct at h
  cases hm : base s t with
  | error e => rw [hm] at h; cases h
  | ok m =>
    rw [hm] at h
    simp only at h
    rw [if_pos ha] at h
    cases hd : deformation s.A s.Z with
    | none => rw [hd] at h; cases h
    | some b =>
      rw [hd] at h
      cases h
      have v : ∀ c, weight { m with beta2 := b.1, beta4 := b.2, sat := c } =
        weight { m with beta2 := b.1, beta4 := b.2 } := fun c => rfl
      simp only
      rw [v, saturation_eq]
      have := weight_pos { m with beta2 := b.1, beta4 := b.2 }
      field_simp

/-- **C163.** The same for `calculate_saturation_density` with any parameters. -/
theorem C163_saturation (n : Nucleus) : Normalised { n with sat := n.saturation } := by
  unfold Normalised
  rw [density_weight]
  have v : weight { n with sat := n.saturation } = weight n := rfl
  simp only
  rw [v, saturation_eq]
  have := weight_pos n
  field_simp

example : ∃ n, create uranium 1 = .ok n ∧ Normalised n := by
  obtain ⟨n, hn⟩ := (C163_accepted uranium 1).2 (by
    refine ⟨⟨rfl, rfl⟩, fun _ => ⟨rfl, rfl, rfl, rfl, (0.28, 0.093), ?_⟩, fun h => ?_⟩
    · simp [known, uranium]
    · cases h)
  exact ⟨n, hn, C163_normalised hn rfl⟩

theorem axial {n : Nucleus} (hg : n.gamma = 0) (r x phi : ℝ) : n.shape r x phi = n.shape r x 0 := by
  unfold Nucleus.shape Nucleus.surface
  rw [hg]
  simp

theorem weight_axial {n : Nucleus} (hg : n.gamma = 0) :
    weight n = ∫ r in (0 : ℝ)..99, ∫ x in (-1 : ℝ)..1, 2 * π * (r ^ 2 * n.shape r x 0) := by
  unfold weight
  congr 1; ext r
  congr 1; ext x
  simp only [axial hg r x]
  rw [intervalIntegral.integral_const, smul_eq_mul]
  ring

/-- **C163.** With a manual deformation and the default Woods-Saxon parameters the saturation density is that of the
spherical nucleus, so that the density adds up to the number of nucleons exactly if the deformation does not change the
weighted volume. -/
theorem C163_manual {s : Section} {t : ℕ} {n : Nucleus} (h : create s t = .ok n) (ha : s.automatic = false)
    (hw : s.radius = none) (hA : 0 < s.A) : Normalised n ↔ weight n = weight (undeformed n) := by
  unfold Normalised
  rw [density_weight]
  unfold create at h
  simp only at h
  split_ifs at h
  unfold construct at h
  cases hm : base s t with
  | error e => rw [hm] at h; cases h
  | ok m =>
    rw [hm] at h
    simp only at h
    rw [if_neg (by rw [ha]; simp)] at h
    have hn := Except.ok.inj h
    have hsat : n.sat = n.A / weight (undeformed n) := by
      unfold base at hm
      split at hm
      · rename_i h2 _; rw [hw] at h2; cases h2
      · have hm := Except.ok.inj hm
        rw [← hn, ← hm]
        simp only
        rw [roundSaturation_eq]
        rfl
      · cases hm
    have hAn : n.A = s.A := by
      unfold base at hm
      split at hm
      · rw [← hn, ← Except.ok.inj hm]
      · rw [← hn, ← Except.ok.inj hm]
      · cases hm
    have hp := weight_pos (undeformed n)
    have hA' : (0 : ℝ) < n.A := by rw [hAn]; exact_mod_cast hA
    rw [hsat]
    constructor
    · intro e
      field_simp at e
      exact e
    · intro e
      rw [e]
      field_simp

/-- A uranium nucleus with a (huge) manual deformation. -/
noncomputable def manual : Section := ⟨238, 92, none, none, none, false, some 50, none, none, none⟩

/-- **C163.** So with a manual deformation the density does not add up to the number of nucleons. -/
theorem C163_manual_false : ∃ n, create manual 1 = .ok n ∧ ¬ Normalised n := by
  obtain ⟨n, hn⟩ := (C163_accepted manual 1).2 (by
    refine ⟨⟨rfl, rfl⟩, fun h => ?_, fun _ => ⟨?_, ?_⟩⟩
    · cases h
    · simp [manual]
    · simp [manual])
  refine ⟨n, hn, ?_⟩
  rw [C163_manual hn rfl rfl (by norm_num [manual])]
  obtain ⟨-, -, h3, -, h5⟩ := C163_parameters hn
  obtain ⟨b2, b3, b4, hg⟩ := h5 rfl
  have hws := h3 rfl
  simp only [manual, Option.getD_some, Option.getD_none] at b2 b3 b4 hg
  unfold manual woodsSaxon at hws
  norm_num at hws
  obtain ⟨er, ed⟩ := hws
  apply ne_of_gt
  have hp := pi_pos
  rw [weight_axial hg, weight_axial (n := undeformed n) rfl]
  have cont : ∀ m : Nucleus, Continuous fun p : ℝ × ℝ => 2 * π * (p.1 ^ 2 * m.shape p.1 p.2 0) := by
    intro m
    exact continuous_const.mul ((by fun_prop : Continuous fun p : ℝ × ℝ => p.1 ^ 2).mul
      ((shape_cont m).comp (by fun_prop : Continuous fun p : ℝ × ℝ => (p, (0 : ℝ)))))
  have cont2 : ∀ m : Nucleus, Continuous fun r : ℝ => ∫ x in (-1 : ℝ)..1, 2 * π * (r ^ 2 * m.shape r x 0) := by
    intro m
    exact intervalIntegral.continuous_parametric_intervalIntegral_of_continuous' (cont m) _ _
  have up : (∫ r in (0 : ℝ)..99, ∫ x in (-1 : ℝ)..1, 2 * π * (r ^ 2 * (undeformed n).shape r x 0)) ≤
      ∫ r in (0 : ℝ)..99, 4 * π * (144 + r ^ 2 / 2000) := by
    apply intervalIntegral.integral_mono_on (by norm_num) ((cont2 _).intervalIntegrable _ _)
      (Continuous.intervalIntegrable (by fun_prop) _ _)
    intro r hr
    simp only [undeformed_shape]
    rw [intervalIntegral.integral_const, smul_eq_mul]
    have : r ^ 2 * n.roundShape r ≤ 144 + r ^ 2 / 2000 := by
      unfold Nucleus.roundShape
      rw [er, ed]
      have he := exp_pos ((r - 343 / 50) / (139 / 250))
      by_cases h12 : r ≤ 12
      · have h1 : 1 / (exp ((r - 343 / 50) / (139 / 250)) + 1) ≤ 1 := by
          rw [div_le_one (by positivity)]; linarith
        have h2 : r ^ 2 ≤ 144 := by nlinarith [hr.1]
        have h3 : 0 ≤ r ^ 2 := sq_nonneg r
        nlinarith
      · have h8 : 8 ≤ (r - 343 / 50) / (139 / 250) := by
          rw [le_div_iff₀ (by norm_num)]; linarith
        have e8 : (2000 : ℝ) ≤ exp 8 := by
          have h1 : (2.7 : ℝ) ≤ exp 1 := by have := exp_one_gt_d9; linarith
          have : exp 8 = exp 1 ^ 8 := by rw [← exp_nat_mul]; norm_num
          rw [this]
          calc (2000 : ℝ) ≤ 2.7 ^ 8 := by norm_num
            _ ≤ exp 1 ^ 8 := by gcongr
        have h9 := exp_le_exp.2 h8
        have h1 : 1 / (exp ((r - 343 / 50) / (139 / 250)) + 1) ≤ 1 / 2000 :=
          div_le_div_of_nonneg_left (by norm_num) (by norm_num) (by linarith)
        have h3 : 0 ≤ r ^ 2 := sq_nonneg r
        nlinarith
    have hh : (1 - -1) * (2 * π * (r ^ 2 * n.roundShape r)) = 4 * π * (r ^ 2 * n.roundShape r) := by ring
    rw [hh]
    gcongr
  have lo : (∫ r in (0 : ℝ)..99, 1 / 5 * π * r ^ 2) ≤
      ∫ r in (0 : ℝ)..99, ∫ x in (-1 : ℝ)..1, 2 * π * (r ^ 2 * n.shape r x 0) := by
    apply intervalIntegral.integral_mono_on (by norm_num) (Continuous.intervalIntegrable (by fun_prop) _ _)
      ((cont2 _).intervalIntegrable _ _)
    intro r hr
    have ci : ∀ a b, IntervalIntegrable (fun x : ℝ => 2 * π * (r ^ 2 * n.shape r x 0)) MeasureTheory.volume a b :=
      fun a b => ((cont n).comp (by fun_prop : Continuous fun x : ℝ => (r, x))).intervalIntegrable _ _
    rw [← intervalIntegral.integral_add_adjacent_intervals (ci (-1) (4 / 5)) (ci (4 / 5) 1)]
    have p1 : 0 ≤ ∫ x in (-1 : ℝ)..(4 / 5), 2 * π * (r ^ 2 * n.shape r x 0) := by
      apply intervalIntegral.integral_nonneg (by norm_num)
      intro x _
      have := shape_pos n r x 0
      positivity
    have p2 : (∫ x in (4 / 5 : ℝ)..1, π * r ^ 2) ≤ ∫ x in (4 / 5 : ℝ)..1, 2 * π * (r ^ 2 * n.shape r x 0) := by
      apply intervalIntegral.integral_mono_on (by norm_num) (continuous_const.intervalIntegrable _ _) (ci _ _)
      intro x hx
      have hq : (1.2 : ℝ) ≤ √(5 / π) := by
        apply le_sqrt_of_sq_le
        rw [le_div_iff₀ hp]
        have := pi_lt_d2
        nlinarith
      have hy : 0.27 ≤ y20 x := by
        unfold y20
        have : (0.92 : ℝ) ≤ 3 * (x * x) - 1 := by nlinarith [hx.1]
        nlinarith
      have hS : 99 ≤ n.surface x 0 := by
        unfold Nucleus.surface
        rw [b2, b3, b4, hg, er]
        simp only [cos_zero, sin_zero, one_mul, mul_zero, zero_mul, add_zero]
        linarith
      have hsh : 1 / 2 ≤ n.shape r x 0 := by
        unfold Nucleus.shape
        have : exp ((r - n.surface x 0) / n.diff) ≤ 1 := by
          apply exp_le_one_iff.2
          apply div_nonpos_of_nonpos_of_nonneg
          · linarith [hr.2]
          · rw [ed]; norm_num
        have := exp_pos ((r - n.surface x 0) / n.diff)
        exact div_le_div_of_nonneg_left (by norm_num) (by positivity) (by linarith)
      have h3 : 0 ≤ r ^ 2 := sq_nonneg r
      nlinarith [mul_nonneg hp.le h3]
    rw [intervalIntegral.integral_const, smul_eq_mul] at p2
    linarith
  have eu : (∫ r in (0 : ℝ)..99, 4 * π * (144 + r ^ 2 / 2000)) = 4 * π * (144 * 99 + 99 ^ 3 / 6000) := by
    have hd : ∀ r ∈ Set.uIcc (0 : ℝ) 99, HasDerivAt (fun r => 4 * π * (144 * r + r ^ 3 / 6000))
        (4 * π * (144 + r ^ 2 / 2000)) r := by
      intro r _
      have h1 : HasDerivAt (fun r : ℝ => 144 * r) 144 r := by simpa using (hasDerivAt_id r).const_mul 144
      have h2 : HasDerivAt (fun r : ℝ => r ^ 3 / 6000) (3 * r ^ 2 / 6000) r := by
        simpa using (hasDerivAt_pow 3 r).div_const 6000
      refine ((h1.add h2).const_mul (4 * π)).congr_deriv ?_
      ring
    rw [intervalIntegral.integral_eq_sub_of_hasDerivAt hd (Continuous.intervalIntegrable (by fun_prop) _ _)]
    ring
  have el : (∫ r in (0 : ℝ)..99, 1 / 5 * π * r ^ 2) = 1 / 5 * π * (99 ^ 3 / 3) := by
    have hd : ∀ r ∈ Set.uIcc (0 : ℝ) 99, HasDerivAt (fun r => 1 / 5 * π * (r ^ 3 / 3)) (1 / 5 * π * r ^ 2) r := by
      intro r _
      have h2 : HasDerivAt (fun r : ℝ => r ^ 3 / 3) (3 * r ^ 2 / 3) r := by
        simpa using (hasDerivAt_pow 3 r).div_const 3
      refine (h2.const_mul (1 / 5 * π)).congr_deriv ?_
      ring
    rw [intervalIntegral.integral_eq_sub_of_hasDerivAt hd (Continuous.intervalIntegrable (by fun_prop) _ _)]
    ring
  rw [eu] at up
  rw [el] at lo
  refine lt_of_le_of_lt up (lt_of_lt_of_le ?_ lo)
  nlinarith

/-! ### The density at the nucleons -/

theorem vector_abs {r x phi : ℝ} (hr : 0 ≤ r) (hx : -1 ≤ x) (hx1 : x ≤ 1) : (vector (r, x, phi)).abs = r := by
  unfold V3.abs V3.dot vector
  simp only
  have h : (0 : ℝ) ≤ 1 - x ^ 2 := by nlinarith
  have e : r * (√(1 - x ^ 2) * cos phi) * (r * (√(1 - x ^ 2) * cos phi)) +
      r * (√(1 - x ^ 2) * sin phi) * (r * (√(1 - x ^ 2) * sin phi)) + r * x * (r * x) = r ^ 2 := by
    have s := sq_sqrt h
    have c := sin_sq_add_cos_sq phi
    linear_combination (r ^ 2 * (cos phi ^ 2 + sin phi ^ 2)) * s + r ^ 2 * (1 - x ^ 2) * c
  rw [e, sqrt_sq hr]

/-- **C163.** The Fermi momentum of a nucleon is drawn for the density at the place where the nucleon is, in a
nucleus that is not rotated and not triaxial. -/
theorem C163_fermi_partial {n : Nucleus} (hg : n.gamma = 0) {r x phi : ℝ} (hr : 0 < r) (hx : -1 ≤ x) (hx1 : x ≤ 1) :
    n.fermiDensity (vector (r, x, phi)) = n.density r x phi := by
  have ha := vector_abs (phi := phi) hr.le hx hx1
  have ht : cos (vector (r, x, phi)).theta = x := by
    unfold V3.theta
    simp only [ha]
    rw [if_pos hr]
    have : (vector (r, x, phi)).z / r = x := by
      unfold vector
      simp only
      field_simp
    rw [this, cos_arccos hx hx1]
  unfold Nucleus.fermiDensity
  rw [ha, ht]
  unfold Nucleus.density Nucleus.surface
  rw [hg]
  simp

/-- **C163.** In a nucleus that is rotated the density is looked up in the wrong direction: the nucleon is rotated,
the density is not. -/
theorem C163_fermi_false : ∃ (n : Nucleus) (x : ℝ × ℝ × ℝ) (phi theta psi : ℝ),
    create ⟨16, 8, some 1, some 1, some 1, false, some 1, none, none, none⟩ 1 = .ok n ∧ n.draw [(0, 1, 1 / 8, 0)] = some x ∧
    n.fermiDensity ((vector x).rotate phi theta psi) ≠ n.density x.1 x.2.1 x.2.2 := by
  refine ⟨⟨16, 1, 1, 1, 1, 0, 0, 0⟩, (1, 1, 0), 0, π / 2, 0, ?_, ?_, ?_⟩
  · simp [create, construct, base]
  · rw [C163_draw]
    have h8 : ((1 / 8 : ℝ)) ^ ((1 : ℝ) / 3) = 1 / 2 := by
      have : (1 / 8 : ℝ) = (1 / 2) ^ (3 : ℝ) := by norm_num
      rw [this, ← rpow_mul (by norm_num)]
      norm_num
    refine ⟨[], 0, 1, 1 / 8, 0, [], rfl, by simp, (ratio (by norm_num) _ _ _).1, ?_⟩
    rw [h8]
    norm_num [Nucleus.range]
  · have hv : vector (1, 1, 0) = ⟨0, 0, 1⟩ := by
      unfold vector
      norm_num
    have hrot : V3.rotate ⟨0, 0, 1⟩ 0 (π / 2) 0 = ⟨0, -1, 0⟩ := by
      unfold V3.rotate
      simp
    rw [hv, hrot]
    have ha : V3.abs ⟨0, -1, 0⟩ = 1 := by
      unfold V3.abs V3.dot
      norm_num
    have ht : cos (V3.theta ⟨0, -1, 0⟩) = 0 := by
      unfold V3.theta
      simp [ha]
    unfold Nucleus.fermiDensity
    rw [ha, ht]
    unfold Nucleus.density Nucleus.surface
    simp only [cos_zero, sin_zero, one_mul, mul_zero, zero_mul, add_zero, div_one]
    have hq : 0 < √(5 / π) := sqrt_pos.2 (by positivity)
    intro h
    have h1 : y20 0 = y20 1 := by
      have e0 := exp_pos (1 - (1 + y20 0))
      have e1 := exp_pos (1 - (1 + y20 1))
      rw [div_eq_div_iff (by positivity) (by positivity)] at h
      have : exp (1 - (1 + y20 0)) = exp (1 - (1 + y20 1)) := by linarith
      have := exp_injective this
      linarith
    unfold y20 at h1
    nlinarith

end Verif.Deform
