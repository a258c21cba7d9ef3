import Verif.Coll.Model
import Mathlib.MeasureTheory.Integral.IntervalIntegral.FundThmCalculus
import Mathlib.MeasureTheory.Measure.Lebesgue.Basic
import Mathlib.Analysis.SpecialFunctions.ExpDeriv
import Mathlib.Analysis.SpecialFunctions.Log.Deriv
import Mathlib.Tactic.Linarith
import Mathlib.Tactic.Ring
import Mathlib.Tactic.FieldSimp
import Mathlib.Tactic.Positivity
import Mathlib.Tactic.LinearCombination
/-! C97: nucleons are distributed like a Woods-Saxon density. -/
namespace Verif.Coll
open Real MeasureTheory

/-! ### Model of the branches of `distribute_nucleon` -/

/-- The scaled distance `t` of branch I, nucleus.cc:261. -/
noncomputable def inside (rs u : ℝ) : ℝ := rs * (u ^ ((1 : ℝ) / 3) - 1)

/-- The probabilities of the branches up to a common factor, nucleus.cc:251-254: widths of the intervals of
`which_range`. -/
noncomputable def branchWeights (rs : ℝ) : ℝ × ℝ × ℝ × ℝ :=
  let p2 := 3 / rs
  let p3 := 2 * p2 / rs
  let p4 := 1 * p3 / rs
  (1, p2, p3, p4)

/-- The branch of a value of `which_range`, nucleus.cc:260-270: 0 for the inside, otherwise the number of
exponentially distributed summands. -/
noncomputable def branchOf (rs which : ℝ) : Nat :=
  let w := branchWeights rs
  if which < 0 then 0 else if which ≥ w.2.1 then (if which ≥ w.2.1 + w.2.2.1 then 3 else 2) else 1

/-- The probability to keep `t`, nucleus.cc:279. -/
noncomputable def keep (t : ℝ) : ℝ := 1 / (1 + exp (-|t|))

/-- `woods_saxon`, nucleus.cc:286-288. -/
noncomputable def woodsSaxon (radius d r : ℝ) : ℝ := r * r / (exp ((r - radius) / d) + 1)

/-! ### Distribution functions of the branches (specification) -/

/-- The probability that `-log u ≤ t` for `u` uniform in (0, 1]. -/
noncomputable def cdf1 (t : ℝ) : ℝ := volume.real {u : ℝ | 0 < u ∧ u ≤ 1 ∧ -log u ≤ t}

/-- The probability that `-log u1 - log u2 ≤ t`. -/
noncomputable def cdf2 (t : ℝ) : ℝ := ∫ u in (0 : ℝ)..1, cdf1 (t + log u)

/-- The probability that `-log u1 - log u2 - log u3 ≤ t`. -/
noncomputable def cdf3 (t : ℝ) : ℝ := ∫ u in (0 : ℝ)..1, cdf2 (t + log u)

/-- The probability that branch I gives at most `t`. -/
noncomputable def cdf0 (rs t : ℝ) : ℝ := volume.real {u : ℝ | 0 ≤ u ∧ u ≤ 1 ∧ inside rs u ≤ t}

theorem cdf1_eq (t : ℝ) : cdf1 t = if t ≤ 0 then 0 else 1 - exp (-t) := by
  unfold cdf1
  by_cases h : t < 0
  · have : {u : ℝ | 0 < u ∧ u ≤ 1 ∧ -log u ≤ t} = ∅ := by
      ext u
      simp only [Set.mem_setOf_eq, Set.mem_empty_iff_false, iff_false, not_and, not_le]
      intro h0 h1
      have := log_nonpos h0.le h1
      linarith
    rw [this, if_pos h.le]
    simp
  · have ht : 0 ≤ t := not_lt.1 h
    have : {u : ℝ | 0 < u ∧ u ≤ 1 ∧ -log u ≤ t} = Set.Icc (exp (-t)) 1 := by
      ext u
      simp only [Set.mem_setOf_eq, Set.mem_Icc]
      constructor
      · rintro ⟨h0, h1, h2⟩
        exact ⟨(le_log_iff_exp_le h0).1 (by linarith), h1⟩
      · rintro ⟨h1, h2⟩
        have h0 : 0 < u := lt_of_lt_of_le (exp_pos _) h1
        exact ⟨h0, h2, by have := (le_log_iff_exp_le h0).2 h1; linarith⟩
    rw [this]
    have he : exp (-t) ≤ 1 := by rw [exp_le_one_iff]; linarith
    have hv : volume.real (Set.Icc (exp (-t)) 1) = 1 - exp (-t) := by
      rw [Measure.real, Real.volume_Icc, ENNReal.toReal_ofReal (by linarith)]
    rw [hv]
    split_ifs with h0
    · have : t = 0 := le_antisymm h0 ht
      rw [this]; simp
    · rfl

/-- One more exponentially distributed summand. -/
theorem conv (F G : ℝ → ℝ) (t : ℝ) (ht : 0 < t) (hF : ∀ x, x ≤ 0 → F x = 0)
    (hG : ∀ u, exp (-t) ≤ u → u ≤ 1 → HasDerivAt G (F (t + log u)) u)
    (hc : ContinuousOn (fun u => F (t + log u)) (Set.Icc (exp (-t)) 1)) :
    ∫ u in (0 : ℝ)..1, F (t + log u) = G 1 - G (exp (-t)) := by
  have he0 := exp_pos (-t)
  have he1 : exp (-t) ≤ 1 := by rw [exp_le_one_iff]; linarith
  have hz : Set.EqOn (fun _ : ℝ => (0 : ℝ)) (fun u => F (t + log u)) (Set.uIoc 0 (exp (-t))) := by
    intro u hu
    rw [Set.uIoc_of_le he0.le] at hu
    have : log u ≤ -t := (log_le_iff_le_exp hu.1).2 hu.2
    exact (hF _ (by linarith)).symm
  have i1 : IntervalIntegrable (fun u => F (t + log u)) volume 0 (exp (-t)) :=
    (intervalIntegrable_const (c := (0 : ℝ))).congr hz
  have i2 : IntervalIntegrable (fun u => F (t + log u)) volume (exp (-t)) 1 := by
    apply ContinuousOn.intervalIntegrable
    rw [Set.uIcc_of_le he1]
    exact hc
  rw [← intervalIntegral.integral_add_adjacent_intervals i1 i2]
  have z : ∫ u in (0 : ℝ)..exp (-t), F (t + log u) = 0 := by
    rw [← intervalIntegral.integral_congr_ae (f := fun _ : ℝ => (0 : ℝ))]
    · simp
    · exact Filter.Eventually.of_forall fun u hu => hz hu
  rw [z, zero_add]
  apply intervalIntegral.integral_eq_sub_of_hasDerivAt _ i2
  intro u hu
  rw [Set.uIcc_of_le he1] at hu
  exact hG u hu.1 hu.2

theorem cdf2_eq (t : ℝ) : cdf2 t = if t ≤ 0 then 0 else 1 - exp (-t) * (1 + t) := by
  unfold cdf2
  by_cases h : t ≤ 0
  · rw [if_pos h, ← intervalIntegral.integral_congr_ae (f := fun _ : ℝ => (0 : ℝ))]
    · simp
    · refine Filter.Eventually.of_forall fun u hu => ?_
      rw [Set.uIoc_of_le zero_le_one] at hu
      have := log_nonpos hu.1.le hu.2
      rw [cdf1_eq, if_pos (by linarith)]
  · have ht : 0 < t := not_le.1 h
    rw [if_neg h]
    have he1 : exp (-t) < 1 := by rw [exp_lt_one_iff]; linarith
    have hF : ∀ u, exp (-t) ≤ u → cdf1 (t + log u) = 1 - exp (-t) / u := by
      intro u hu
      have h0 : 0 < u := lt_of_lt_of_le (exp_pos _) hu
      have hl : -t ≤ log u := (le_log_iff_exp_le h0).2 hu
      have hx : exp (-(t + log u)) = exp (-t) / u := by
        rw [neg_add, exp_add, exp_neg (log u), exp_log h0]; rfl
      rw [cdf1_eq]
      split_ifs with hc
      · have : log u = -t := by linarith
        have : u = exp (-t) := by rw [← this, exp_log h0]
        rw [this, div_self (exp_pos _).ne']; ring
      · rw [hx]
    rw [conv cdf1 (fun u => u - exp (-t) * log u) t ht]
    · simp only [log_one, log_exp]; ring
    · intro x hx; rw [cdf1_eq, if_pos hx]
    · intro u hu hu1
      have h0 : 0 < u := lt_of_lt_of_le (exp_pos _) hu
      rw [hF u hu]
      have := (hasDerivAt_id u).sub ((hasDerivAt_log h0.ne').const_mul (exp (-t)))
      exact this.congr_deriv (by rw [div_eq_mul_inv])
    · apply ContinuousOn.congr (f := fun u => 1 - exp (-t) / u)
      · apply ContinuousOn.sub continuousOn_const
        apply ContinuousOn.div continuousOn_const continuousOn_id
        intro u hu
        exact (lt_of_lt_of_le (exp_pos _) hu.1).ne'
      · intro u hu
        exact hF u hu.1

theorem cdf3_eq (t : ℝ) (ht : 0 < t) : cdf3 t = 1 - exp (-t) * (1 + t + t ^ 2 / 2) := by
  unfold cdf3
  have hF : ∀ u, exp (-t) ≤ u → cdf2 (t + log u) = 1 - exp (-t) / u * (1 + t + log u) := by
    intro u hu
    have h0 : 0 < u := lt_of_lt_of_le (exp_pos _) hu
    have hl : -t ≤ log u := (le_log_iff_exp_le h0).2 hu
    have hx : exp (-(t + log u)) = exp (-t) / u := by
      rw [neg_add, exp_add, exp_neg (log u), exp_log h0]; rfl
    rw [cdf2_eq]
    split_ifs with hc
    · have : log u = -t := by linarith
      have : u = exp (-t) := by rw [← this, exp_log h0]
      rw [this, div_self (exp_pos _).ne', log_exp]; ring
    · rw [hx, add_assoc]
  rw [conv cdf2 (fun u => u - exp (-t) * ((1 + t) * log u + log u ^ 2 / 2)) t ht]
  · simp only [log_one, log_exp]; ring
  · intro x hx; rw [cdf2_eq, if_pos hx]
  · intro u hu hu1
    have h0 : 0 < u := lt_of_lt_of_le (exp_pos _) hu
    rw [hF u hu]
    have hl := hasDerivAt_log h0.ne'
    have h2 := ((hl.const_mul (1 + t)).add ((hl.pow 2).div_const 2)).const_mul (exp (-t))
    have := (hasDerivAt_id u).sub h2
    refine this.congr_deriv ?_
    simp only [Nat.cast_ofNat, Nat.add_one_sub_one, pow_one]
    field_simp
  · apply ContinuousOn.congr (f := fun u => 1 - exp (-t) / u * (1 + t + log u))
    · apply ContinuousOn.sub continuousOn_const
      apply ContinuousOn.mul
      · apply ContinuousOn.div continuousOn_const continuousOn_id
        intro u hu
        exact (lt_of_lt_of_le (exp_pos _) hu.1).ne'
      · apply ContinuousOn.add continuousOn_const
        apply ContinuousOn.log continuousOn_id
        intro u hu
        exact (lt_of_lt_of_le (exp_pos _) hu.1).ne'
    · intro u hu
      exact hF u hu.1

theorem cdf0_eq {rs t : ℝ} (hr : 0 < rs) (h1 : -rs ≤ t) (h2 : t ≤ 0) : cdf0 rs t = (1 + t / rs) ^ 3 := by
  unfold cdf0
  have h0 : 0 ≤ 1 + t / rs := by
    have : -1 ≤ t / rs := by rw [le_div_iff₀ hr]; linarith
    linarith
  have h1' : 1 + t / rs ≤ 1 := by
    have : t / rs ≤ 0 := div_nonpos_of_nonpos_of_nonneg h2 hr.le
    linarith
  have hc1 : (1 + t / rs) ^ 3 ≤ 1 := pow_le_one₀ h0 h1'
  have : {u : ℝ | 0 ≤ u ∧ u ≤ 1 ∧ inside rs u ≤ t} = Set.Icc 0 ((1 + t / rs) ^ 3) := by
    ext u
    simp only [Set.mem_setOf_eq, Set.mem_Icc]
    have key : ∀ u, 0 ≤ u → (inside rs u ≤ t ↔ u ≤ (1 + t / rs) ^ 3) := by
      intro u hu
      have hq : inside rs u ≤ t ↔ u ^ ((1 : ℝ) / 3) ≤ 1 + t / rs := by
        unfold inside
        rw [← le_div_iff₀' hr]
        constructor <;> intro h <;> linarith
      rw [hq]
      have h3 : (u ^ ((1 : ℝ) / 3)) ^ 3 = u := by
        rw [← Real.rpow_natCast, ← Real.rpow_mul hu]; norm_num
      constructor
      · intro h
        have := pow_le_pow_left₀ (Real.rpow_nonneg hu _) h 3
        rwa [h3] at this
      · intro h
        rw [← h3] at h
        exact (pow_le_pow_iff_left₀ (Real.rpow_nonneg hu _) h0 (by norm_num)).1 h
    constructor
    · rintro ⟨a, b, c⟩
      exact ⟨a, (key u a).1 c⟩
    · rintro ⟨a, b⟩
      exact ⟨a, b.trans hc1, (key u a).2 b⟩
  rw [this, Measure.real, Real.volume_Icc, ENNReal.toReal_ofReal (by simpa using pow_nonneg h0 3)]
  ring

/-- The densities of the branches. -/
noncomputable def density (rs : ℝ) : Nat → ℝ → ℝ
  | 0, t => if -rs ≤ t ∧ t < 0 then 3 * (t + rs) ^ 2 / rs ^ 3 else 0
  | 1, t => if t < 0 then 0 else exp (-t)
  | 2, t => if t < 0 then 0 else t * exp (-t)
  | 3, t => if t < 0 then 0 else t ^ 2 / 2 * exp (-t)
  | _, _ => 0

/-- **C97**, the densities: branch I has distribution function `cdf0`, whose derivative is `density 0`
between the centre and the surface; the other branches have the distribution functions of one, two and
three exponentially distributed summands, with the derivatives `density 1`, `2`, `3` outside. -/
theorem C97_densities {rs : ℝ} (hr : 0 < rs) :
    (∀ t, -rs < t → t < 0 → HasDerivAt (cdf0 rs) (density rs 0 t) t) ∧
    (∀ t, 0 < t → HasDerivAt cdf1 (density rs 1 t) t ∧ HasDerivAt cdf2 (density rs 2 t) t ∧
      HasDerivAt cdf3 (density rs 3 t) t) := by
  constructor
  · intro t h1 h2
    have hd : HasDerivAt (fun t => (1 + t / rs) ^ 3) (density rs 0 t) t := by
      have := (((hasDerivAt_id t).div_const rs).const_add 1).pow 3
      refine this.congr_deriv ?_
      simp only [density, if_pos (show -rs ≤ t ∧ t < 0 from ⟨h1.le, h2⟩), id]
      norm_num
      field_simp
      ring
    apply hd.congr_of_eventuallyEq
    filter_upwards [Ioo_mem_nhds h1 h2] with x hx
    exact cdf0_eq hr hx.1.le hx.2.le
  · intro t ht
    have hn : ¬ t < 0 := by linarith
    have he : HasDerivAt (fun t => exp (-t)) (-exp (-t)) t := by
      have := (hasDerivAt_neg t).exp
      exact this.congr_deriv (by ring)
    refine ⟨?_, ?_, ?_⟩
    · have hd : HasDerivAt (fun t => 1 - exp (-t)) (density rs 1 t) t :=
        (he.const_sub 1).congr_deriv (by simp [density, hn])
      apply hd.congr_of_eventuallyEq
      filter_upwards [Ioi_mem_nhds ht] with x hx
      rw [cdf1_eq, if_neg (not_le.2 hx)]
    · have hd : HasDerivAt (fun t => 1 - exp (-t) * (1 + t)) (density rs 2 t) t := by
        have := (he.mul ((hasDerivAt_id t).const_add 1)).const_sub 1
        refine this.congr_deriv ?_
        simp only [density, if_neg hn, id]
        ring
      apply hd.congr_of_eventuallyEq
      filter_upwards [Ioi_mem_nhds ht] with x hx
      rw [cdf2_eq, if_neg (not_le.2 hx)]
    · have hd : HasDerivAt (fun t => 1 - exp (-t) * (1 + t + t ^ 2 / 2)) (density rs 3 t) t := by
        have := (he.mul (((hasDerivAt_id t).const_add 1).add (((hasDerivAt_id t).pow 2).div_const 2))).const_sub 1
        refine this.congr_deriv ?_
        simp only [density, if_neg hn, id]
        norm_num
        ring
      apply hd.congr_of_eventuallyEq
      filter_upwards [Ioi_mem_nhds ht] with x hx
      exact cdf3_eq x hx

/-- **C97**, the branches are chosen with probabilities proportional to the weights: the values of
`which_range` of a branch form an interval of that length, and together they fill the range drawn from. -/
theorem C97_weights {rs : ℝ} (hr : 0 < rs) (which : ℝ) :
    let w := branchWeights rs
    (branchOf rs which = 0 ↔ which < 0) ∧ (branchOf rs which = 1 ↔ 0 ≤ which ∧ which < w.2.1) ∧
    (branchOf rs which = 2 ↔ w.2.1 ≤ which ∧ which < w.2.1 + w.2.2.1) ∧
    (branchOf rs which = 3 ↔ w.2.1 + w.2.2.1 ≤ which) ∧
    w = (1, 3 / rs, 6 / rs ^ 2, 6 / rs ^ 3) := by
  intro w
  have h2 : 0 < w.2.1 := by show 0 < 3 / rs; positivity
  have h3 : 0 < w.2.2.1 := by show 0 < 2 * (3 / rs) / rs; positivity
  have hb : branchOf rs which = if which < 0 then 0 else
    if which ≥ w.2.1 then (if which ≥ w.2.1 + w.2.2.1 then 3 else 2) else 1 := rfl
  rw [hb]
  refine ⟨?_, ?_, ?_, ?_, ?_⟩
  · split_ifs with a b c <;> simp [a]
  · split_ifs with a b c
    · simp; intro; linarith
    · simp; intro; linarith
    · simp; intro; linarith
    · simp; exact ⟨not_lt.1 a, not_le.1 b⟩
  · split_ifs with a b c
    · simp; intro; linarith
    · simp; intro; linarith
    · simp; exact ⟨b, not_le.1 c⟩
    · simp; intro; linarith
  · split_ifs with a b c
    · simp; linarith
    · simp; exact c
    · simp; exact not_le.1 c
    · simp; linarith
  · show (1, 3 / rs, 2 * (3 / rs) / rs, 1 * (2 * (3 / rs) / rs) / rs) = _
    simp only [Prod.mk.injEq, true_and]
    refine ⟨?_, ?_⟩ <;> field_simp <;> norm_num

/-- **C97**: the density of the accepted distances, the weighted sum of the densities of the branches
times the probability to keep the value, is proportional to `r² / (1 + exp((r - R)/d))`, inside and outside
the surface, for every radius `R` and diffusiveness `d`. -/
theorem C97_woods_saxon {R d : ℝ} (hR : 0 < R) (hd : 0 < d) {r : ℝ} (hr : 0 ≤ r) :
    let rs := R / d
    let t := r / d - rs
    let w := branchWeights rs
    (w.1 * density rs 0 t + w.2.1 * density rs 1 t + w.2.2.1 * density rs 2 t + w.2.2.2 * density rs 3 t) * keep t =
      3 * d / R ^ 3 * woodsSaxon R d r := by
  intro rs t w
  have hrs : 0 < rs := by positivity
  have hw := (C97_weights hrs 0).2.2.2.2
  have hw' : w = (1, 3 / rs, 6 / rs ^ 2, 6 / rs ^ 3) := hw
  rw [hw']
  have hrt : r = (t + rs) * d := by show r = (r / d - rs + rs) * d; field_simp; ring
  have hRr : R = rs * d := by show R = R / d * d; field_simp
  have hx : (r - R) / d = t := by rw [hrt, hRr]; field_simp; ring
  unfold woodsSaxon
  rw [hx]
  have hcoef : 3 * d / R ^ 3 * (r * r / (exp t + 1)) = 3 * (t + rs) ^ 2 / rs ^ 3 / (exp t + 1) := by
    rw [hrt, hRr]
    have : exp t + 1 ≠ 0 := by positivity
    field_simp
  rw [hcoef]
  unfold keep
  have hep := exp_pos t
  by_cases h : t < 0
  · have hlow : -rs ≤ t := by
      show -rs ≤ r / d - rs
      have : 0 ≤ r / d := by positivity
      linarith
    simp only [density, if_pos h, if_pos (show -rs ≤ t ∧ t < 0 from ⟨hlow, h⟩), mul_zero, add_zero, one_mul]
    rw [abs_of_neg h, neg_neg, add_comm 1 (exp t)]
    field_simp
  · simp only [density, if_neg h, if_neg (show ¬ (-rs ≤ t ∧ t < 0) from fun hc => h hc.2), mul_zero, zero_add]
    rw [abs_of_nonneg (not_lt.1 h), exp_neg]
    have h1 : exp t + 1 ≠ 0 := by positivity
    have h2 : 1 + (exp t)⁻¹ ≠ 0 := by positivity
    field_simp
    ring

/-- The values of the branches are the ones of `drawnRadius`. -/
theorem C97_radius {R d which u1 u2 u3 : ℝ} (hd : d ≠ 0) :
    drawnRadius R d which u1 u2 u3 = R + d * (match branchOf (R / d) which with
      | 0 => inside (R / d) u1
      | 1 => -log u1
      | 2 => -log u1 - log u2
      | _ => -log u1 - log u2 - log u3) := by
  unfold drawnRadius branchOf branchWeights inside
  simp only
  split_ifs <;> simp only <;> field_simp <;> ring

example : (0 : ℝ) < 6.4 ∧ (0 : ℝ) < 0.54 ∧ (0 : ℝ) ≤ 7 := by norm_num

end Verif.Coll
