import Verif.Chem.Solver
import Verif.Ini.Quantum
import Mathlib.Analysis.SpecialFunctions.Gaussian.GaussianIntegral
import Mathlib.MeasureTheory.Function.JacobianOneDim
import Mathlib.MeasureTheory.Integral.IntegralEqImproper
import Mathlib.Analysis.SpecialFunctions.Integrals.Basic
import Mathlib.Analysis.SpecialFunctions.Trigonometric.DerivHyp

/-! C164: the density as a function of the chemical potential. -/

namespace Verif.Chem
open Verif.Ini Real MeasureTheory Set Filter Topology

/-- The number of particles per volume (in GeV³) and spin state at momentum `p`, times 2π². -/
noncomputable def spectrum (m T mu s p : ℝ) : ℝ := p ^ 2 / (exp ((√(p ^ 2 + m ^ 2) - mu) / T) + s)

/-- The density of an ideal gas of particles with mass `m` and `g` spin states: Fermi for s = 1, Boltzmann for s = 0,
Bose for s = -1. -/
noncomputable def gas (g m T mu s : ℝ) : ℝ := g / (2 * π ^ 2) * ∫ p in Ioi 0, spectrum m T mu s p

/-- The chemical potentials for which there is a gas. -/
def Domain (m s : ℝ) : Set ℝ := {mu | s = 1 ∨ s = 0 ∨ (s = -1 ∧ mu ≤ m)}

/-! ### The substitution -/

theorem spectrum_eq (m T mu s p : ℝ) : p * p * juttner p m T mu s = spectrum m T mu s p := by
  rw [C124_occupation]
  unfold spectrum energy
  ring

/-- **C164.** The density that is calculated is the density of an ideal gas. -/
theorem C164_density (g m T mu s : ℝ) : densityOne g m T mu s = gas g m T mu s := by
  unfold densityOne gas
  rw [show 2 * π * π = 2 * π ^ 2 by ring]
  congr 1
  have him : (fun x : ℝ => (1 - x) / x) '' Ioo 0 1 = Ioi 0 := by
    ext p
    constructor
    · rintro ⟨x, hx, rfl⟩
      exact div_pos (by linarith [hx.2]) hx.1
    · intro hp
      have hp' : (0 : ℝ) < p := hp
      refine ⟨1 / (1 + p), ⟨by positivity, ?_⟩, ?_⟩
      · rw [div_lt_one (by positivity)]; linarith
      · simp only
        field_simp
        ring
  have hd : ∀ x ∈ Ioo (0 : ℝ) 1, HasDerivWithinAt (fun x : ℝ => (1 - x) / x) (-1 / x ^ 2) (Ioo 0 1) x := by
    intro x hx
    have h1 : HasDerivAt (fun x : ℝ => 1 - x) (-1) x := by simpa using (hasDerivAt_id x).const_sub 1
    have := h1.div (hasDerivAt_id x) hx.1.ne'
    refine (this.congr_deriv ?_).hasDerivWithinAt
    simp only [id]
    ring
  have hinj : InjOn (fun x : ℝ => (1 - x) / x) (Ioo 0 1) := by
    intro x hx y hy h
    simp only at h
    rw [div_eq_div_iff hx.1.ne' hy.1.ne'] at h
    nlinarith
  have hs := integral_image_eq_integral_abs_deriv_smul measurableSet_Ioo hd hinj (spectrum m T mu s)
  rw [him] at hs
  rw [hs, intervalIntegral.integral_of_le zero_le_one, integral_Ioc_eq_integral_Ioo]
  apply setIntegral_congr_fun measurableSet_Ioo
  intro x hx
  have hx0 := hx.1.ne'
  simp only [smul_eq_mul]
  rw [← spectrum_eq]
  have : |(-1 : ℝ) / x ^ 2| = 1 / x ^ 2 := by
    rw [abs_div, abs_neg, abs_one, abs_of_pos (pow_pos hx.1 2)]
  rw [this]
  field_simp

/-! ### Bounds -/

theorem mom_int (k : ℕ) {b : ℝ} (hb : 0 < b) : IntegrableOn (fun p : ℝ => p ^ k * exp (-b * p)) (Ioi 0) := by
  have := integrableOn_rpow_mul_exp_neg_mul_rpow (p := 1) (s := k) (b := b)
    (by have : (0 : ℝ) ≤ k := Nat.cast_nonneg k
        linarith) one_pos hb
  refine this.congr_fun ?_ measurableSet_Ioi
  intro p _
  simp

theorem energy_ge_p (m : ℝ) {p : ℝ} (_hp : 0 ≤ p) : p ≤ √(p ^ 2 + m ^ 2) :=
  le_sqrt_of_sq_le (by nlinarith [sq_nonneg m])

theorem energy_le {m p : ℝ} (hm : 0 ≤ m) (hp : 0 ≤ p) : √(p ^ 2 + m ^ 2) ≤ p + m :=
  sqrt_le_iff.2 ⟨by positivity, by nlinarith [mul_nonneg hm hp]⟩

theorem energy_gt {m p : ℝ} (hm : 0 ≤ m) (hp : 0 < p) : m < √(p ^ 2 + m ^ 2) :=
  lt_sqrt_of_sq_lt (by nlinarith [pow_pos hp 2])

theorem denom_pos {m T mu s p : ℝ} (hm : 0 ≤ m) (hT : 0 < T) (h : mu ∈ Domain m s) (hp : 0 < p) :
    0 < exp ((√(p ^ 2 + m ^ 2) - mu) / T) + s := by
  have he := exp_pos ((√(p ^ 2 + m ^ 2) - mu) / T)
  rcases h with rfl | rfl | ⟨rfl, h⟩
  · linarith
  · linarith
  · have : 1 < exp ((√(p ^ 2 + m ^ 2) - mu) / T) :=
      one_lt_exp_iff.2 (div_pos (by linarith [energy_gt hm hp]) hT)
    linarith

theorem spectrum_pos {m T mu s p : ℝ} (hm : 0 ≤ m) (hT : 0 < T) (h : mu ∈ Domain m s) (hp : 0 < p) :
    0 < spectrum m T mu s p := div_pos (pow_pos hp 2) (denom_pos hm hT h hp)

theorem sinh_bound {x : ℝ} (hx : 0 ≤ x) : x * exp (x / 2) ≤ exp x - 1 := by
  have h1 : x ≤ exp (x / 2) - exp (-(x / 2)) := by
    have := self_le_sinh_iff.2 (show 0 ≤ x / 2 by linarith)
    rw [sinh_eq] at this
    linarith
  have h2 : exp x - 1 = (exp (x / 2) - exp (-(x / 2))) * exp (x / 2) := by
    rw [sub_mul, ← exp_add, ← exp_add]
    simp
  rw [h2]
  exact mul_le_mul_of_nonneg_right h1 (exp_pos _).le

/-- A bound that does not depend on the chemical potential, up to some value in the domain. -/
theorem dominated {m T s M : ℝ} (hm : 0 ≤ m) (hT : 0 < T) (hM : M ∈ Domain m s) :
    ∃ b : ℝ → ℝ, IntegrableOn b (Ioi 0) ∧ ∀ mu ≤ M, mu ∈ Domain m s ∧ ∀ p, 0 < p → spectrum m T mu s p ≤ b p := by
  by_cases hs : s = -1
  · subst hs
    have hMm : M ≤ m := by
      rcases hM with h | h | h
      · norm_num at h
      · norm_num at h
      · exact h.2
    refine ⟨fun p => T * exp (m / (2 * T)) * (p ^ 1 * exp (-(1 / (2 * T)) * p)) +
      2 * m * T * exp (m / (2 * T)) * (p ^ 0 * exp (-(1 / (2 * T)) * p)), ?_, ?_⟩
    · exact ((mom_int 1 (by positivity)).const_mul _).add ((mom_int 0 (by positivity)).const_mul _)
    · intro mu hmu
      have hd : mu ∈ Domain m (-1) := .inr (.inr ⟨rfl, hmu.trans hMm⟩)
      refine ⟨hd, ?_⟩
      intro p hp
      have hE := energy_gt hm hp
      set E := √(p ^ 2 + m ^ 2) with hEd
      have hE2 : E ^ 2 = p ^ 2 + m ^ 2 := sq_sqrt (by positivity)
      have hx : 0 < (E - m) / T := div_pos (by linarith) hT
      have h1 : (E - m) / T * exp ((E - m) / T / 2) ≤ exp ((E - mu) / T) + -1 := by
        have a := sinh_bound hx.le
        have b : exp ((E - m) / T) ≤ exp ((E - mu) / T) := by
          apply exp_le_exp.2
          apply div_le_div_of_nonneg_right _ hT.le
          linarith [hmu.trans hMm]
        linarith
      have h2 : spectrum m T mu (-1) p ≤ p ^ 2 / ((E - m) / T * exp ((E - m) / T / 2)) := by
        unfold spectrum
        exact div_le_div_of_nonneg_left (by positivity) (by positivity) h1
      have h3 : p ^ 2 / ((E - m) / T * exp ((E - m) / T / 2)) = T * (E + m) * exp (-((E - m) / T / 2)) := by
        have : p ^ 2 = (E - m) * (E + m) := by linarith [hE2]
        rw [this, exp_neg]
        have : E - m ≠ 0 := by linarith
        field_simp
      have h4 : exp (-((E - m) / T / 2)) ≤ exp (m / (2 * T)) * exp (-(1 / (2 * T)) * p) := by
        rw [← exp_add]
        apply exp_le_exp.2
        have hEp := energy_ge_p m hp.le
        have : m / (2 * T) + -(1 / (2 * T)) * p - -((E - m) / T / 2) = (E - p) / (2 * T) := by
          field_simp
          ring
        have h5 : 0 ≤ (E - p) / (2 * T) := div_nonneg (by linarith) (by positivity)
        linarith
      have h5 := energy_le hm hp.le
      calc spectrum m T mu (-1) p ≤ T * (E + m) * exp (-((E - m) / T / 2)) := by rw [← h3]; exact h2
        _ ≤ T * (p + 2 * m) * (exp (m / (2 * T)) * exp (-(1 / (2 * T)) * p)) := by
            apply mul_le_mul _ h4 (exp_pos _).le (by positivity)
            apply mul_le_mul_of_nonneg_left _ hT.le
            linarith
        _ = _ := by ring
  · have hd : ∀ mu, mu ∈ Domain m s := by
      intro mu
      rcases hM with h | h | h
      · exact .inl h
      · exact .inr (.inl h)
      · exact absurd h.1 hs
    have hs0 : 0 ≤ s := by
      rcases hM with h | h | h
      · rw [h]; norm_num
      · rw [h]
      · exact absurd h.1 hs
    refine ⟨fun p => exp (M / T) * (p ^ 2 * exp (-(1 / T) * p)), (mom_int 2 (by positivity)).const_mul _, ?_⟩
    intro mu hmu
    refine ⟨hd mu, ?_⟩
    intro p hp
    unfold spectrum
    have hEp := energy_ge_p m hp.le
    have h1 : p ^ 2 / (exp ((√(p ^ 2 + m ^ 2) - mu) / T) + s) ≤ p ^ 2 / exp ((√(p ^ 2 + m ^ 2) - mu) / T) :=
      div_le_div_of_nonneg_left (by positivity) (exp_pos _) (by linarith)
    refine h1.trans ?_
    rw [div_eq_mul_inv, ← exp_neg]
    have : exp (-((√(p ^ 2 + m ^ 2) - mu) / T)) ≤ exp (M / T) * exp (-(1 / T) * p) := by
      rw [← exp_add]
      apply exp_le_exp.2
      have h2 : M / T + -(1 / T) * p - -((√(p ^ 2 + m ^ 2) - mu) / T) = (M - mu + (√(p ^ 2 + m ^ 2) - p)) / T := by
        field_simp
        ring
      have h5 : 0 ≤ (M - mu + (√(p ^ 2 + m ^ 2) - p)) / T := div_nonneg (by linarith) hT.le
      linarith
    nlinarith [pow_pos hp 2]

theorem spectrum_meas (m T mu s : ℝ) : Measurable (spectrum m T mu s) := by
  unfold spectrum
  fun_prop

theorem spectrum_int {m T mu s : ℝ} (hm : 0 ≤ m) (hT : 0 < T) (h : mu ∈ Domain m s) :
    IntegrableOn (spectrum m T mu s) (Ioi 0) := by
  obtain ⟨b, hb, hle⟩ := dominated hm hT h
  refine Integrable.mono' hb (spectrum_meas m T mu s).aestronglyMeasurable ?_
  refine (ae_restrict_iff' measurableSet_Ioi).2 (Eventually.of_forall fun p hp => ?_)
  rw [norm_eq_abs, abs_of_pos (spectrum_pos hm hT h hp)]
  exact (hle mu le_rfl).2 p hp

theorem spectrum_lt {m T mu mu' s p : ℝ} (hm : 0 ≤ m) (hT : 0 < T) (h' : mu' ∈ Domain m s) (hlt : mu < mu')
    (hp : 0 < p) : spectrum m T mu s p < spectrum m T mu' s p := by
  unfold spectrum
  apply div_lt_div_of_pos_left (pow_pos hp 2) (denom_pos hm hT h' hp)
  have : exp ((√(p ^ 2 + m ^ 2) - mu') / T) < exp ((√(p ^ 2 + m ^ 2) - mu) / T) :=
    exp_lt_exp.2 (div_lt_div_of_pos_right (by linarith) hT)
  linarith

theorem domain_le {m s mu M : ℝ} (h : M ∈ Domain m s) (hle : mu ≤ M) : mu ∈ Domain m s := by
  rcases h with h | h | h
  · exact .inl h
  · exact .inr (.inl h)
  · exact .inr (.inr ⟨h.1, hle.trans h.2⟩)

theorem integral_pos' {f : ℝ → ℝ} (hf : IntegrableOn f (Ioi 0)) (h : ∀ p, 0 < p → 0 < f p) :
    0 < ∫ p in Ioi (0 : ℝ), f p := by
  rw [setIntegral_pos_iff_support_of_nonneg_ae
    ((ae_restrict_iff' measurableSet_Ioi).2 (Eventually.of_forall fun p hp => (h p hp).le)) hf]
  have : Ioi (0 : ℝ) ⊆ Function.support f ∩ Ioi 0 := fun p hp => ⟨(h p hp).ne', hp⟩
  refine lt_of_lt_of_le ?_ (measure_mono this)
  simp

/-- **C164.** The density is positive and rises with the chemical potential. -/
theorem C164_monotone {g m T s : ℝ} (hg : 0 < g) (hm : 0 ≤ m) (hT : 0 < T) :
    (∀ mu ∈ Domain m s, 0 < gas g m T mu s) ∧ StrictMonoOn (fun mu => gas g m T mu s) (Domain m s) := by
  have hp := pi_pos
  constructor
  · intro mu h
    exact mul_pos (by positivity) (integral_pos' (spectrum_int hm hT h) fun p hp => spectrum_pos hm hT h hp)
  · intro mu h mu' h' hlt
    unfold gas
    apply mul_lt_mul_of_pos_left _ (by positivity)
    have := integral_pos' ((spectrum_int hm hT h').sub (spectrum_int hm hT h))
      (fun p hp => sub_pos.2 (spectrum_lt hm hT h' hlt hp))
    simp only [Pi.sub_apply] at this
    rw [integral_sub (spectrum_int hm hT h') (spectrum_int hm hT h)] at this
    linarith

theorem gas_cont {g m T s : ℝ} (hm : 0 ≤ m) (hT : 0 < T) {M : ℝ} (hM : M ∈ Domain m s) :
    ContinuousOn (fun mu => gas g m T mu s) (Iic M) := by
  intro mu hmu
  unfold gas
  apply ContinuousWithinAt.mul continuousWithinAt_const
  obtain ⟨b, hb, hle⟩ := dominated hm hT hM
  apply continuousWithinAt_of_dominated (bound := b)
  · exact Eventually.of_forall fun mu => (spectrum_meas m T mu s).aestronglyMeasurable
  · filter_upwards [self_mem_nhdsWithin] with mu' hmu'
    refine (ae_restrict_iff' measurableSet_Ioi).2 (Eventually.of_forall fun p hp => ?_)
    rw [norm_eq_abs, abs_of_pos (spectrum_pos hm hT (hle mu' hmu').1 hp)]
    exact (hle mu' hmu').2 p hp
  · exact hb
  · refine (ae_restrict_iff' measurableSet_Ioi).2 (Eventually.of_forall fun p hp => ?_)
    apply ContinuousAt.continuousWithinAt
    unfold spectrum
    have hc : ContinuousAt (fun x => exp ((√(p ^ 2 + m ^ 2) - x) / T) + s) mu := by fun_prop
    exact ContinuousAt.div continuousAt_const hc (denom_pos hm hT (hle mu hmu).1 hp).ne'

/-- A Boltzmann gas. -/
theorem gas_boltzmann (g m T mu : ℝ) : gas g m T mu 0 = exp (mu / T) * gas g m T 0 0 := by
  unfold gas
  rw [mul_left_comm]
  congr 1
  rw [← integral_const_mul]
  apply setIntegral_congr_fun measurableSet_Ioi
  intro p _
  simp only
  unfold spectrum
  rw [add_zero, add_zero, show (√(p ^ 2 + m ^ 2) - 0) / T = mu / T + (√(p ^ 2 + m ^ 2) - mu) / T by ring, exp_add]
  have := (exp_pos (mu / T)).ne'
  have := (exp_pos ((√(p ^ 2 + m ^ 2) - mu) / T)).ne'
  field_simp

theorem gas_mono_s {g m T mu s s' : ℝ} (hg : 0 < g) (hm : 0 ≤ m) (hT : 0 < T) (h : mu ∈ Domain m s)
    (h' : mu ∈ Domain m s') (hs : s ≤ s') : gas g m T mu s' ≤ gas g m T mu s := by
  have hp := pi_pos
  unfold gas
  apply mul_le_mul_of_nonneg_left _ (by positivity)
  apply setIntegral_mono_on (spectrum_int hm hT h') (spectrum_int hm hT h) measurableSet_Ioi
  intro p hp
  unfold spectrum
  exact div_le_div_of_nonneg_left (by positivity) (denom_pos hm hT h hp) (by linarith)

/-- Far below, the density falls exponentially. -/
theorem gas_small {g m T s : ℝ} (hg : 0 < g) (hm : 0 ≤ m) (hT : 0 < T) (h0 : (0 : ℝ) ∈ Domain m s) :
    ∃ C, 0 < C ∧ ∀ mu ≤ 0, gas g m T mu s ≤ C * exp (mu / T) := by
  have hp := pi_pos
  by_cases hs : 0 ≤ s
  · refine ⟨gas g m T 0 0, (C164_monotone hg hm hT).1 _ (.inr (.inl rfl)), fun mu hmu => ?_⟩
    rw [mul_comm, ← gas_boltzmann]
    exact gas_mono_s hg hm hT (.inr (.inl rfl)) (domain_le h0 hmu) hs
  · refine ⟨gas g m T 0 s, (C164_monotone hg hm hT).1 _ h0, fun mu hmu => ?_⟩
    have hd := domain_le h0 hmu
    rw [mul_comm]
    unfold gas
    rw [mul_left_comm]
    apply mul_le_mul_of_nonneg_left _ (by positivity)
    rw [← integral_const_mul]
    apply setIntegral_mono_on (spectrum_int hm hT hd) ((spectrum_int hm hT h0).const_mul _) measurableSet_Ioi
    intro p hp
    have d1 := denom_pos hm hT hd hp
    have d0 := denom_pos hm hT h0 hp
    unfold spectrum
    rw [mul_div_assoc', div_le_div_iff₀ d1 d0]
    have e1 : exp ((√(p ^ 2 + m ^ 2) - 0) / T) = exp (mu / T) * exp ((√(p ^ 2 + m ^ 2) - mu) / T) := by
      rw [← exp_add]
      congr 1
      ring
    have e2 : exp (mu / T) ≤ 1 := exp_le_one_iff.2 (div_nonpos_of_nonpos_of_nonneg hmu hT.le)
    rw [e1]
    have hs : s * 1 ≤ s * exp (mu / T) := mul_le_mul_of_nonpos_left e2 (not_le.1 hs).le
    have p2 := pow_pos (show (0 : ℝ) < p from hp) 2
    nlinarith

/-- A degenerate Fermi gas is as dense as one likes. -/
theorem gas_large {g m T P : ℝ} (hg : 0 < g) (hm : 0 ≤ m) (hT : 0 < T) (hP : 0 < P) :
    g / (2 * π ^ 2) * (P ^ 3 / 6) ≤ gas g m T √(P ^ 2 + m ^ 2) 1 := by
  have hpi := pi_pos
  unfold gas
  apply mul_le_mul_of_nonneg_left _ (by positivity)
  have h1 : ∫ p in Ioc 0 P, p ^ 2 / 2 = P ^ 3 / 6 := by
    rw [← intervalIntegral.integral_of_le hP.le, intervalIntegral.integral_div, integral_pow]
    ring
  have hd : √(P ^ 2 + m ^ 2) ∈ Domain m 1 := .inl rfl
  rw [← h1]
  calc ∫ p in Ioc 0 P, p ^ 2 / 2 ≤ ∫ p in Ioc 0 P, spectrum m T √(P ^ 2 + m ^ 2) 1 p := by
        apply setIntegral_mono_on _ ((spectrum_int hm hT hd).mono_set Ioc_subset_Ioi_self) measurableSet_Ioc
        · intro p hp
          unfold spectrum
          apply div_le_div_of_nonneg_left (by positivity) (by positivity)
          have : exp ((√(p ^ 2 + m ^ 2) - √(P ^ 2 + m ^ 2)) / T) ≤ 1 := by
            apply exp_le_one_iff.2
            apply div_nonpos_of_nonpos_of_nonneg _ hT.le
            have : √(p ^ 2 + m ^ 2) ≤ √(P ^ 2 + m ^ 2) := by
              apply sqrt_le_sqrt
              have := hp.1
              have := hp.2
              nlinarith
            linarith
          linarith
        · exact (Continuous.integrableOn_Icc (by fun_prop)).mono_set Ioc_subset_Icc_self
    _ ≤ ∫ p in Ioi 0, spectrum m T √(P ^ 2 + m ^ 2) 1 p := by
        apply setIntegral_mono_set (spectrum_int hm hT hd)
        · exact (ae_restrict_iff' measurableSet_Ioi).2
            (Eventually.of_forall fun p hp => (spectrum_pos hm hT hd hp).le)
        · exact (Ioc_subset_Ioi_self).eventuallyLE

theorem reach {g m T s M n : ℝ} (hg : 0 < g) (hm : 0 ≤ m) (hT : 0 < T) (h0 : (0 : ℝ) ∈ Domain m s)
    (hM : M ∈ Domain m s) (hn : 0 < n) (hle : n ≤ gas g m T M s) : ∃ mu ≤ M, gas g m T mu s = n := by
  obtain ⟨C, hC, hs⟩ := gas_small hg hm hT h0
  obtain ⟨L, hL0, hLM, hL⟩ : ∃ L ≤ (0 : ℝ), L ≤ M ∧ C * exp (L / T) ≤ n := by
    refine ⟨min (min 0 M) (T * log (n / C)), (min_le_left _ _).trans (min_le_left _ _),
      (min_le_left _ _).trans (min_le_right _ _), ?_⟩
    have : exp (min (min 0 M) (T * log (n / C)) / T) ≤ n / C := by
      rw [← exp_log (div_pos hn hC)]
      apply exp_le_exp.2
      rw [div_le_iff₀ hT, mul_comm, exp_log (div_pos hn hC)]
      exact min_le_right _ _
    calc C * exp (min (min 0 M) (T * log (n / C)) / T) ≤ C * (n / C) := by gcongr
      _ = n := by field_simp
  have hc := (gas_cont (g := g) hm hT hM).mono (show Icc L M ⊆ Iic M from fun x hx => hx.2)
  obtain ⟨mu, hmu, he⟩ := intermediate_value_Icc hLM hc ⟨(hs L hL0).trans hL, hle⟩
  exact ⟨mu, hmu.2, he⟩

/-- **C164.** For fermions every density belongs to exactly one chemical potential. For bosons that is so up to the
critical density, where the chemical potential is the mass; there is none for a larger density. -/
theorem C164_unique {g m T : ℝ} (hg : 0 < g) (hm : 0 ≤ m) (hT : 0 < T) (n : ℝ) (hn : 0 < n) :
    (∃! mu, gas g m T mu 1 = n) ∧
    (n ≤ gas g m T m (-1) → ∃! mu, mu ≤ m ∧ gas g m T mu (-1) = n) ∧
    (gas g m T m (-1) < n → ∀ mu ≤ m, gas g m T mu (-1) ≠ n) := by
  have hpi := pi_pos
  refine ⟨?_, ?_, ?_⟩
  · have mono := (C164_monotone (s := 1) hg hm hT).2
    have hP : ∃ P : ℝ, 0 < P ∧ n ≤ g / (2 * π ^ 2) * (P ^ 3 / 6) := by
      refine ⟨max 1 (12 * π ^ 2 * n / g), lt_of_lt_of_le one_pos (le_max_left _ _), ?_⟩
      set P := max 1 (12 * π ^ 2 * n / g) with hPd
      have h1 : (1 : ℝ) ≤ P := le_max_left _ _
      have h2 : 12 * π ^ 2 * n / g ≤ P := le_max_right _ _
      have h3 : P ≤ P ^ 3 := by nlinarith [mul_nonneg (sub_nonneg.2 h1) (show (0 : ℝ) ≤ P by linarith)]
      have h4 : 12 * π ^ 2 * n ≤ P ^ 3 * g := (div_le_iff₀ hg).1 (h2.trans h3)
      have : g / (2 * π ^ 2) * (P ^ 3 / 6) = P ^ 3 * g / (12 * π ^ 2) := by
        field_simp
        ring
      rw [this, le_div_iff₀ (by positivity)]
      linarith
    obtain ⟨P, hP0, hP⟩ := hP
    obtain ⟨mu, -, he⟩ := reach hg hm hT (.inl rfl) (.inl rfl) hn (hP.trans (gas_large hg hm hT hP0))
    refine ⟨mu, he, fun y hy => ?_⟩
    exact mono.injOn (.inl rfl) (.inl rfl) (hy.trans he.symm)
  · intro hle
    have mono := (C164_monotone (s := -1) hg hm hT).2
    obtain ⟨mu, h1, he⟩ := reach hg hm hT (.inr (.inr ⟨rfl, hm⟩)) (.inr (.inr ⟨rfl, le_rfl⟩)) hn hle
    refine ⟨mu, ⟨h1, he⟩, fun y hy => ?_⟩
    exact mono.injOn (.inr (.inr ⟨rfl, hy.1⟩)) (.inr (.inr ⟨rfl, h1⟩)) (hy.2.trans he.symm)
  · intro hlt mu hmu he
    have mono := (C164_monotone (s := -1) hg hm hT).2.monotoneOn (.inr (.inr ⟨rfl, hmu⟩))
      (.inr (.inr ⟨rfl, le_rfl⟩)) hmu
    linarith

end Verif.Chem
