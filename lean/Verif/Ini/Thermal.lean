import Verif.Ini.Model
import Verif.Coll.WoodsSaxon
import Mathlib.Analysis.SpecialFunctions.Sqrt
import Mathlib.Analysis.SpecialFunctions.Exponential
import Mathlib.Analysis.Complex.ExponentialBounds
import Mathlib.Tactic.Linarith
import Mathlib.Tactic.Ring
import Mathlib.Tactic.FieldSimp
import Mathlib.Tactic.Positivity
import Mathlib.Tactic.LinearCombination
/-! C123: the momenta of the initial state follow the configured distributions. -/
namespace Verif.Ini
open Verif.Coll Real MeasureTheory

/-! ### Rejection -/

/-- **C123** (rejection). The loops return the first proposal which is accepted. -/
theorem C123_first (draw prob : ℝ → ℝ) (top : ℝ) (l : List (ℝ × ℝ)) (x : ℝ) :
    reject draw prob top l = .ok x ↔ ∃ pre u w post, l = pre ++ (u, w) :: post ∧ x = draw u ∧
      w * top ≤ prob (draw u) ∧ ∀ e ∈ pre, prob (draw e.1) < e.2 * top := by
  have hu (w : ℝ) : Rand.uniform 0 top w = w * top := by unfold Rand.uniform; ring
  induction l with
  | nil =>
    simp only [reject, List.nil_eq, List.append_eq_nil_iff, reduceCtorEq, and_false, false_and, exists_false]
  | cons e l ih =>
    obtain ⟨u, w⟩ := e
    rw [reject, hu]
    by_cases h : w * top > prob (draw u)
    · rw [if_pos h]
      refine ih.trans ?_
      constructor
      · rintro ⟨pre, u', w', post, rfl, e1, e2, e3⟩
        refine ⟨(u, w) :: pre, u', w', post, rfl, e1, e2, ?_⟩
        intro e he
        rcases List.mem_cons.1 he with rfl | he
        · exact h
        · exact e3 e he
      · rintro ⟨pre, u', w', post, e0, e1, e2, e3⟩
        cases pre with
        | nil =>
          simp only [List.nil_append, List.cons.injEq, Prod.mk.injEq] at e0
          obtain ⟨⟨rfl, rfl⟩, rfl⟩ := e0
          exact absurd h (not_lt.2 e2)
        | cons a pre =>
          simp only [List.cons_append, List.cons.injEq] at e0
          obtain ⟨rfl, rfl⟩ := e0
          exact ⟨pre, u', w', post, rfl, e1, e2, fun e he => e3 e (List.mem_cons_of_mem _ he)⟩
    · rw [if_neg h]
      constructor
      · intro hx
        cases hx
        exact ⟨[], u, w, l, rfl, rfl, not_lt.1 h, fun e he => absurd he List.not_mem_nil⟩
      · rintro ⟨pre, u', w', post, e0, e1, e2, e3⟩
        cases pre with
        | nil =>
          simp only [List.nil_append, List.cons.injEq, Prod.mk.injEq] at e0
          obtain ⟨⟨rfl, rfl⟩, rfl⟩ := e0
          rw [e1]
        | cons a pre =>
          simp only [List.cons_append, List.cons.injEq] at e0
          obtain ⟨rfl, rfl⟩ := e0
          exact absurd (e3 _ List.mem_cons_self) h

/-- **C123** (rejection, thermal). -/
theorem C123_first_thermal (T m : ℝ) (l : List Round) (x : ℝ) :
    thermal T m l = .ok x ↔ ∃ pre R post, l = pre ++ R :: post ∧ x = (thermalRound T m R).1 ∧
      R.c < (thermalRound T m R).2 ∧ ∀ e ∈ pre, (thermalRound T m e).2 ≤ e.c := by
  induction l with
  | nil =>
    simp only [thermal, List.nil_eq, List.append_eq_nil_iff, reduceCtorEq, and_false, false_and, exists_false]
  | cons e l ih =>
    rw [thermal]
    by_cases h : e.c < (thermalRound T m e).2
    · rw [if_pos h]
      constructor
      · intro hx
        cases hx
        exact ⟨[], e, l, rfl, rfl, h, fun e he => absurd he List.not_mem_nil⟩
      · rintro ⟨pre, R, post, e0, e1, e2, e3⟩
        cases pre with
        | nil =>
          simp only [List.nil_append, List.cons.injEq] at e0
          obtain ⟨rfl, rfl⟩ := e0
          rw [e1]
        | cons a pre =>
          simp only [List.cons_append, List.cons.injEq] at e0
          obtain ⟨rfl, rfl⟩ := e0
          exact absurd h (not_lt.2 (e3 _ List.mem_cons_self))
    · rw [if_neg h, ih]
      constructor
      · rintro ⟨pre, R, post, rfl, e1, e2, e3⟩
        refine ⟨e :: pre, R, post, rfl, e1, e2, ?_⟩
        intro x hx
        rcases List.mem_cons.1 hx with rfl | hx
        · exact not_lt.1 h
        · exact e3 x hx
      · rintro ⟨pre, R, post, e0, e1, e2, e3⟩
        cases pre with
        | nil =>
          simp only [List.nil_append, List.cons.injEq] at e0
          obtain ⟨rfl, rfl⟩ := e0
          exact absurd e2 h
        | cons a pre =>
          simp only [List.cons_append, List.cons.injEq] at e0
          obtain ⟨rfl, rfl⟩ := e0
          exact ⟨pre, R, post, rfl, e1, e2, fun e he => e3 e (List.mem_cons_of_mem _ he)⟩

/-! ### Boltzmann -/

/-- Energy of a momentum. -/
noncomputable def energy (m p : ℝ) : ℝ := √(p ^ 2 + m ^ 2)

theorem density_spec (t : ℝ) (ht : 0 < t) : HasDerivAt cdf1 (exp (-t)) t ∧
    HasDerivAt cdf2 (t * exp (-t)) t ∧ HasDerivAt cdf3 (t ^ 2 / 2 * exp (-t)) t := by
  have h := (C97_densities (rs := 1) one_pos).2 t ht
  simp only [density, if_neg (not_lt.2 ht.le)] at h
  exact h

/-- **C123** (hot). For a temperature above 0.6 m: the proposed momentum is a sum of three exponentially
distributed numbers times the temperature, the density of that sum times the probability of
acceptance is proportional to `p² exp(-E/T)`, and the acceptance is a probability. -/
theorem C123_hot {T m : ℝ} (hT : 0 < T) (hm : 0 ≤ m) (hot : 6 / 10 * m < T) :
    (∀ R : Round, ∀ q, (thermalRound T m R).1 ≤ q ↔ -log R.r1 - log R.r2 - log R.r3 ≤ q / T) ∧
    (∀ R : Round, (thermalRound T m R).2 =
      exp (((thermalRound T m R).1 - energy m (thermalRound T m R).1) / T)) ∧
    (∀ p, 0 < exp ((p - energy m p) / T) ∧ exp ((p - energy m p) / T) ≤ 1) ∧
    (∀ p, 0 < p → ∃ f, HasDerivAt (fun p => cdf3 (p / T)) f p ∧
      f * exp ((p - energy m p) / T) = 1 / (2 * T ^ 3) * (p ^ 2 * exp (-energy m p / T))) := by
  have hh : T > 6 / 10 * m := hot
  refine ⟨?_, ?_, ?_, ?_⟩
  · intro R q
    unfold thermalRound
    rw [if_pos hh]
    dsimp only
    rw [le_div_iff₀ hT]
    constructor <;> intro h <;> linarith
  · intro R
    unfold thermalRound
    rw [if_pos hh]
    dsimp only
    unfold energy
    congr 4
    ring
  · intro p
    refine ⟨exp_pos _, ?_⟩
    rw [exp_le_one_iff]
    apply div_nonpos_of_nonpos_of_nonneg _ hT.le
    have : p ≤ energy m p := by
      unfold energy
      exact le_sqrt_of_sq_le (by nlinarith [sq_nonneg m])
    linarith
  · intro p hp
    have h3 := (density_spec (p / T) (by positivity)).2.2
    have hid : HasDerivAt (fun p => p / T) (1 / T) p := (hasDerivAt_id p).div_const T
    have hd : HasDerivAt (fun p => cdf3 (p / T)) ((p / T) ^ 2 / 2 * exp (-(p / T)) * (1 / T)) p :=
      HasDerivAt.comp (h₂ := cdf3) (h := fun p => p / T) p h3 hid
    refine ⟨_, hd, ?_⟩
    have : exp (-(p / T)) * exp ((p - energy m p) / T) = exp (-energy m p / T) := by
      rw [← exp_add]
      congr 1
      field_simp
      ring
    rw [← this]
    field_simp

theorem kinetic_eq {T : ℝ} {R : Round} (h1 : 0 < R.r1) (h2 : 0 < R.r2) (h3 : 0 < R.r3) :
    kinetic T 1 R = T * -log R.r1 ∧ kinetic T 2 R = T * (-log R.r1 - log R.r2) ∧
    kinetic T 3 R = T * (-log R.r1 - log R.r2 - log R.r3) := by
  unfold kinetic
  refine ⟨?_, ?_, ?_⟩
  · simp
  · simp only [OfNat.ofNat_ne_one, if_false, if_true]
    rw [log_mul h1.ne' h2.ne']; ring
  · norm_num
    rw [log_mul (by positivity) h3.ne', log_mul h1.ne' h2.ne']; ring

/-- **C123** (cold, branches). Otherwise the number of terms in the kinetic energy is 1, 2 or 3 with
probabilities in the ratio m² : 2mT : 2T². -/
theorem C123_branches {T m : ℝ} (hT : 0 < T) (hm : 0 ≤ m) (r0 : ℝ) :
    let tot := m ^ 2 + 2 * m * T + 2 * T ^ 2
    (thermalBranch T m r0 = 1 ↔ r0 < m ^ 2 / tot) ∧
    (thermalBranch T m r0 = 2 ↔ m ^ 2 / tot ≤ r0 ∧ r0 < m ^ 2 / tot + 2 * m * T / tot) ∧
    (thermalBranch T m r0 = 3 ↔ m ^ 2 / tot + 2 * m * T / tot ≤ r0) ∧
    m ^ 2 / tot + 2 * m * T / tot + 2 * T ^ 2 / tot = 1 := by
  intro tot
  have htot : 0 < tot := by positivity
  have e1 : m * m / (m * m + 2 * m * T + 2 * T * T) = m ^ 2 / tot := by
    show _ = m ^ 2 / (m ^ 2 + 2 * m * T + 2 * T ^ 2)
    congr 1 <;> ring
  have e2 : (m * m + 2 * m * T) / (m * m + 2 * m * T + 2 * T * T) = m ^ 2 / tot + 2 * m * T / tot := by
    rw [← add_div]
    show _ = (m ^ 2 + 2 * m * T) / (m ^ 2 + 2 * m * T + 2 * T ^ 2)
    congr 1 <;> ring
  have h2 : 0 ≤ 2 * m * T / tot := by positivity
  unfold thermalBranch thermalWeights
  dsimp only
  rw [e1, e2]
  refine ⟨?_, ?_, ?_, by rw [← add_div, ← add_div]; exact div_self htot.ne'⟩
  · split
    · simp_all
    · split <;> simp_all
  · split
    · rename_i h
      simp only [OfNat.one_ne_ofNat, false_iff, not_and, not_lt]
      intro h'
      linarith
    · rename_i h
      split
      · rename_i h'
        simp only [true_iff]
        exact ⟨not_lt.1 h, h'⟩
      · rename_i h'
        simp only [Nat.reduceEqDiff, false_iff, not_and, not_lt]
        intro _
        exact not_lt.1 h'
  · split
    · rename_i h
      simp only [OfNat.one_ne_ofNat, false_iff, not_le]
      linarith
    · split
      · rename_i h h'
        simp only [Nat.reduceEqDiff, false_iff, not_le]
        exact h'
      · rename_i h h'
        simp only [true_iff]
        exact not_lt.1 h'

/-- **C123** (cold). The proposed momentum belongs to the energy `K + m`; the density of the proposal, the
mixture of the distributions of one, two and three exponentially distributed terms, times the probability
of acceptance `p/E`, is proportional to `p² exp(-E/T)`. -/
theorem C123_cold {T m : ℝ} (hT : 0 < T) (hm : 0 < m) (cold : T ≤ 6 / 10 * m) :
    (∀ R : Round, 0 < R.r1 → R.r1 ≤ 1 → 0 < R.r2 → R.r2 ≤ 1 → 0 < R.r3 → R.r3 ≤ 1 →
      (thermalRound T m R).2 = (thermalRound T m R).1 / energy m (thermalRound T m R).1 ∧
      ∀ q, 0 ≤ q → ((thermalRound T m R).1 ≤ q ↔ (match thermalBranch T m R.r0 with
        | 1 => -log R.r1
        | 2 => -log R.r1 - log R.r2
        | _ => -log R.r1 - log R.r2 - log R.r3) ≤ (energy m q - m) / T)) ∧
    (∀ p, 0 < p → 0 < p / energy m p ∧ p / energy m p < 1) ∧
    (∀ p, 0 < p → ∃ f, HasDerivAt (fun p => m ^ 2 * cdf1 ((energy m p - m) / T) +
          2 * m * T * cdf2 ((energy m p - m) / T) + 2 * T ^ 2 * cdf3 ((energy m p - m) / T)) f p ∧
      f * (p / energy m p) = exp (m / T) / T * (p ^ 2 * exp (-energy m p / T))) := by
  have hc : ¬ T > 6 / 10 * m := not_lt.2 cold
  have hen (p : ℝ) : 0 < energy m p := sqrt_pos.2 (by positivity)
  have hsq (p : ℝ) : energy m p ^ 2 = p ^ 2 + m ^ 2 := sq_sqrt (by positivity)
  have hgt (p : ℝ) (hp : 0 < p) : m < energy m p := by
    have := hsq p
    nlinarith [hen p, pow_pos hp 2]
  refine ⟨?_, ?_, ?_⟩
  · intro R a1 a2 b1 b2 c1 c2
    have la := log_nonpos a1.le a2
    have lb := log_nonpos b1.le b2
    have lc := log_nonpos c1.le c2
    obtain ⟨k1, k2, k3⟩ := kinetic_eq (T := T) a1 b1 c1
    have hk : kinetic T (thermalBranch T m R.r0) R = T * (match thermalBranch T m R.r0 with
        | 1 => -log R.r1
        | 2 => -log R.r1 - log R.r2
        | _ => -log R.r1 - log R.r2 - log R.r3) ∧ 0 ≤ kinetic T (thermalBranch T m R.r0) R := by
      have hb : thermalBranch T m R.r0 = 1 ∨ thermalBranch T m R.r0 = 2 ∨ thermalBranch T m R.r0 = 3 := by
        unfold thermalBranch
        dsimp only
        split
        · exact Or.inl rfl
        · split
          · exact Or.inr (Or.inl rfl)
          · exact Or.inr (Or.inr rfl)
      rcases hb with hb | hb | hb <;> rw [hb]
      · exact ⟨k1, by rw [k1]; exact mul_nonneg hT.le (by linarith)⟩
      · exact ⟨k2, by rw [k2]; exact mul_nonneg hT.le (by linarith)⟩
      · exact ⟨k3, by rw [k3]; exact mul_nonneg hT.le (by linarith)⟩
    obtain ⟨hk, hk0⟩ := hk
    have h1 : thermalRound T m R = (√((kinetic T (thermalBranch T m R.r0) R + m + m) *
        (kinetic T (thermalBranch T m R.r0) R + m - m)), √((kinetic T (thermalBranch T m R.r0) R + m + m) *
        (kinetic T (thermalBranch T m R.r0) R + m - m)) / (kinetic T (thermalBranch T m R.r0) R + m)) := by
      unfold thermalRound
      rw [if_neg hc]
    rw [h1]
    dsimp only
    generalize (match thermalBranch T m R.r0 with
        | 1 => -log R.r1
        | 2 => -log R.r1 - log R.r2
        | _ => -log R.r1 - log R.r2 - log R.r3) = x at *
    rw [hk] at hk0 ⊢
    have hnn : 0 ≤ (T * x + m + m) * (T * x + m - m) := mul_nonneg (by linarith) (by linarith)
    have he : energy m √((T * x + m + m) * (T * x + m - m)) = T * x + m := by
      unfold energy
      rw [sq_sqrt hnn, show (T * x + m + m) * (T * x + m - m) + m ^ 2 = (T * x + m) ^ 2 by ring,
        sqrt_sq (by linarith)]
    refine ⟨by rw [he], ?_⟩
    intro q hq
    rw [le_div_iff₀ hT, sqrt_le_left hq]
    have hq2 := hsq q
    have hq3 := hen q
    constructor
    · intro h
      have : (T * x + m) ^ 2 ≤ energy m q ^ 2 := by rw [hq2]; linarith
      have := abs_le_of_sq_le_sq this hq3.le
      have := (abs_le.1 this).2
      linarith
    · intro h
      have : (T * x + m) ^ 2 ≤ energy m q ^ 2 := pow_le_pow_left₀ (by linarith) (by linarith) 2
      rw [hq2] at this
      linarith
  · intro p hp
    refine ⟨div_pos hp (hen p), ?_⟩
    rw [div_lt_one (hen p)]
    have := hsq p
    nlinarith [hen p, pow_pos hm 2]
  · intro p hp
    have hE : HasDerivAt (energy m) (p / energy m p) p := by
      have h0 : HasDerivAt (fun p : ℝ => p ^ 2 + m ^ 2) (2 * p) p := by
        have := ((hasDerivAt_id p).pow 2).add_const (m ^ 2)
        refine this.congr_deriv ?_
        simp
      have := h0.sqrt (by positivity : p ^ 2 + m ^ 2 ≠ 0)
      refine this.congr_deriv ?_
      show 2 * p / (2 * energy m p) = _
      have := (hen p).ne'
      field_simp
    have hK : HasDerivAt (fun p => (energy m p - m) / T) (p / energy m p / T) p :=
      (hE.sub_const m).div_const T
    have hk0 : 0 < (energy m p - m) / T := div_pos (by linarith [hgt p hp]) hT
    obtain ⟨d1, d2, d3⟩ := density_spec _ hk0
    have hd := (((HasDerivAt.comp p d1 hK).const_mul (m ^ 2)).add
      ((HasDerivAt.comp p d2 hK).const_mul (2 * m * T))).add ((HasDerivAt.comp p d3 hK).const_mul (2 * T ^ 2))
    refine ⟨_, hd, ?_⟩
    have hx : exp (-((energy m p - m) / T)) = exp (m / T) * exp (-energy m p / T) := by
      rw [← exp_add]
      congr 1
      field_simp
      ring
    rw [hx]
    have h2 := hsq p
    have h3 := (hen p).ne'
    generalize energy m p = E at *
    generalize exp (m / T) = A
    generalize exp (-E / T) = B
    field_simp
    ring

/-- The probability that a sum of four exponentially distributed numbers is at most t. -/
noncomputable def cdf4 (t : ℝ) : ℝ := ∫ u in (0 : ℝ)..1, cdf3 (t + log u)

theorem cdf3_zero (t : ℝ) (ht : t ≤ 0) : cdf3 t = 0 := by
  unfold cdf3
  rw [← intervalIntegral.integral_congr_ae (f := fun _ : ℝ => (0 : ℝ))]
  · simp
  · refine Filter.Eventually.of_forall fun u hu => ?_
    rw [Set.uIoc_of_le zero_le_one] at hu
    have := log_nonpos hu.1.le hu.2
    rw [cdf2_eq, if_pos (by linarith)]

theorem cdf4_eq (t : ℝ) (ht : 0 < t) : cdf4 t = 1 - exp (-t) * (1 + t + t ^ 2 / 2 + t ^ 3 / 6) := by
  unfold cdf4
  have hF : ∀ u, exp (-t) ≤ u → cdf3 (t + log u) =
      1 - exp (-t) / u * (1 + (t + log u) + (t + log u) ^ 2 / 2) := by
    intro u hu
    have h0 : 0 < u := lt_of_lt_of_le (exp_pos _) hu
    have hl : -t ≤ log u := (le_log_iff_exp_le h0).2 hu
    have hx : exp (-(t + log u)) = exp (-t) / u := by
      rw [neg_add, exp_add, exp_neg (log u), exp_log h0]; rfl
    by_cases hc : t + log u ≤ 0
    · rw [cdf3_zero _ hc]
      have : log u = -t := by linarith
      have : u = exp (-t) := by rw [← this, exp_log h0]
      rw [this, div_self (exp_pos _).ne', log_exp]; ring
    · rw [cdf3_eq _ (not_le.1 hc), hx]
  rw [conv cdf3 (fun u => u - exp (-t) * (log u + (t + log u) ^ 2 / 2 + (t + log u) ^ 3 / 6)) t ht]
  · simp only [log_one, log_exp]; ring
  · intro x hx; exact cdf3_zero x hx
  · intro u hu hu1
    have h0 : 0 < u := lt_of_lt_of_le (exp_pos _) hu
    rw [hF u hu]
    have hl := hasDerivAt_log h0.ne'
    have hs := hl.const_add t
    have h2 := ((hl.add ((hs.pow 2).div_const 2)).add ((hs.pow 3).div_const 6)).const_mul (exp (-t))
    have := (hasDerivAt_id u).sub h2
    refine this.congr_deriv ?_
    norm_num
    field_simp
    ring
  · apply ContinuousOn.congr (f := fun u => 1 - exp (-t) / u * (1 + (t + log u) + (t + log u) ^ 2 / 2))
    · have hne : ∀ u ∈ Set.Icc (exp (-t)) 1, u ≠ 0 := fun u hu =>
        (lt_of_lt_of_le (exp_pos _) hu.1).ne'
      have hlog : ContinuousOn (fun u => t + log u) (Set.Icc (exp (-t)) 1) :=
        continuousOn_const.add (ContinuousOn.log continuousOn_id hne)
      apply ContinuousOn.sub continuousOn_const
      apply ContinuousOn.mul
      · exact ContinuousOn.div continuousOn_const continuousOn_id hne
      · exact (continuousOn_const.add hlog).add ((hlog.pow 2).div_const 2)
    · intro u hu
      exact hF u hu.1

/-- **C123** (IC_ES). The momentum has a density proportional to `p³ exp(-4p/(3T))`. -/
theorem C123_es {T : ℝ} (hT : 0 < T) :
    (∀ r q, sampleES T r ≤ q ↔
      -log r.1 - log r.2.1 - log r.2.2.1 - log r.2.2.2 ≤ q / (3 / 4 * T)) ∧
    (∀ p, 0 < p → HasDerivAt (fun p => cdf4 (p / (3 / 4 * T)))
      (1 / (6 * (3 / 4 * T) ^ 4) * (p ^ 3 * exp (-(4 * p / (3 * T))))) p) := by
  constructor
  · intro r q
    unfold sampleES
    rw [le_div_iff₀ (by positivity)]
    constructor <;> intro h <;> linarith
  · intro p hp
    have ht : 0 < p / (3 / 4 * T) := by positivity
    have hd : HasDerivAt cdf4 ((p / (3 / 4 * T)) ^ 3 / 6 * exp (-(p / (3 / 4 * T)))) (p / (3 / 4 * T)) := by
      generalize p / (3 / 4 * T) = t at *
      have he : HasDerivAt (fun t => exp (-t)) (-exp (-t)) t := by
        have := (hasDerivAt_neg t).exp
        exact this.congr_deriv (by ring)
      have hd : HasDerivAt (fun t => 1 - exp (-t) * (1 + t + t ^ 2 / 2 + t ^ 3 / 6)) (t ^ 3 / 6 * exp (-t)) t := by
        have := (he.mul ((((hasDerivAt_id t).const_add 1).add (((hasDerivAt_id t).pow 2).div_const 2)).add
          (((hasDerivAt_id t).pow 3).div_const 6))).const_sub 1
        refine this.congr_deriv ?_
        simp only [id]
        norm_num
        ring
      apply hd.congr_of_eventuallyEq
      filter_upwards [Ioi_mem_nhds ht] with x hx
      exact cdf4_eq x hx
    have := HasDerivAt.comp p hd ((hasDerivAt_id p).div_const (3 / 4 * T))
    refine this.congr_deriv ?_
    rw [show p / (3 / 4 * T) = 4 * p / (3 * T) by field_simp]
    field_simp

end Verif.Ini
