import Verif.Par.Model
import Mathlib.Tactic.Linarith
import Mathlib.Tactic.NormNum
import Mathlib.Tactic.Positivity
import Mathlib.Tactic.FieldSimp
import Mathlib.Tactic.Ring

/-!
C143: parametrized cross sections are positive at every energy above the threshold.
-/

namespace Verif.Par

open Verif.Kin Real

/-! ### Momenta in the laboratory -/

theorem plab_pos {s : ℝ} (h : 4 * mN * mN < s) : 0 < plabFromS s mN := by
  have hm : 0 < mN := by unfold mN; norm_num
  have h0 : 0 < 4 * mN * mN := by positivity
  unfold plabFromS
  have : 0 < s * (s - 4 * mN * mN) := mul_pos (by linarith) (by linarith)
  positivity

theorem plab2_pos {s ma mb : ℝ} (ha : 0 < ma) (hb : 0 < mb) (h : (ma + mb) ^ 2 < s) :
    0 < plabFromS2 s ma mb := by
  unfold plabFromS2
  have : 0 < (s - (ma + mb) * (ma + mb)) * (s - (ma - mb) * (ma - mb)) := by
    apply mul_pos <;> nlinarith [mul_pos ha hb]
  positivity

theorem heavy_pos {s m1 m2 : ℝ} (h1 : 0 < m1) (h2 : 0 < m2) (h : (m1 + m2) ^ 2 < s) :
    0 < plabHeavy s m1 m2 := by
  unfold plabHeavy
  split_ifs
  · exact plab2_pos h2 h1 (by rw [add_comm]; exact h)
  · exact plab2_pos h1 h2 h

/-- The square of the momentum in the laboratory. -/
theorem plab_sq {s : ℝ} (h : 4 * mN * mN < s) :
    plabFromS s mN ^ 2 * (4 * mN * mN) = s * (s - 4 * mN * mN) := by
  have hm : 0 < mN := by unfold mN; norm_num
  have h0 : 0 < 4 * mN * mN := by positivity
  have : 0 ≤ s * (s - 4 * mN * mN) := mul_nonneg (by linarith) (by linarith)
  unfold plabFromS
  rw [div_pow, sq_sqrt this]
  field_simp
  ring

theorem elasticHigh_pos {p : ℝ} (h : 0 < p) : 0 < elasticHigh p := by
  have h1 := rpow_pos_of_pos h (-1.21)
  unfold elasticHigh
  nlinarith [sq_nonneg (log p - 5.47)]

/-- **C143 (nucleons).** The parametrized elastic and total cross sections of two nucleons are positive at every
energy above the threshold. -/
theorem C143_nucleons (s : ℝ) (h : 4 * mN * mN < s) :
    0 < ppElastic s ∧ 0 < ppTotal s ∧ 0 < npElastic s ∧ 0 < npTotal s := by
  have hp := plab_pos h
  have hm : 0 < mN := by unfold mN; norm_num
  have hs : 0 < s - 4 * mN * mN := by linarith
  have hsq := plab_sq h
  have hE := elasticHigh_pos hp
  simp only [ppElastic, ppTotal, npElastic, npTotal]
  generalize plabFromS s mN = p at *
  have hq : 0 < 48 + 0.522 * log p * log p - 4.51 * log p := by nlinarith [sq_nonneg (log p - 4.32)]
  refine ⟨?_, ?_, ?_, ?_⟩
  · split_ifs with h1 h2 h3 h4
    · positivity
    · positivity
    · have hd : (24 : ℝ) < 1250 / (p + 50) := by rw [lt_div_iff₀ (by linarith)]; linarith
      nlinarith
    · positivity
    · exact hE
  · split_ifs with h1 h2 h3 h4
    · have := rpow_pos_of_pos (show 0 < p / 0.4 by positivity) (-2.104)
      positivity
    · positivity
    · positivity
    · have : 0 < p - 0.9 := by linarith
      positivity
    · exact hq
  · split_ifs with h1 h2 h3 h4
    · have hb : s - 4 * mN * mN < 1 := by
        unfold mN at *
        nlinarith
      have : (6.83 : ℝ) < 17.05 * mN / (s - 4 * mN * mN) := by
        rw [lt_div_iff₀ hs]
        unfold mN at *
        nlinarith
      linarith
    · positivity
    · positivity
    · positivity
    · exact hE
  · split_ifs with h1 h2 h3 h4
    · have := rpow_pos_of_pos hp (-3.2481)
      positivity
    · positivity
    · positivity
    · norm_num
    · exact hq

/-- **C143 (antinucleons).** The parametrized elastic, total and annihilation cross sections of nucleon and antinucleon are
positive at every energy above the threshold, elastic and total are zero below it. -/
theorem C143_antinucleons (s : ℝ) :
    (4 * mN * mN < s → 0 < ppbarElastic s ∧ 0 < ppbarTotal s ∧ 0 < annihilation s) ∧
    (s < 4 * mN * mN → ppbarElastic s = 0 ∧ ppbarTotal s = 0) := by
  constructor
  · intro h
    have hp := plab_pos h
    have hm : 0 < mN := by unfold mN; norm_num
    have hn : ¬s < 4 * mN * mN := not_lt.2 h.le
    have h0 : 0 < s := lt_trans (by positivity) h
    simp only [ppbarElastic, ppbarTotal, annihilation, if_neg hn]
    generalize plabFromS s mN = p at *
    have r1 := rpow_pos_of_pos hp (-1.16)
    have r2 := rpow_pos_of_pos hp (-0.64)
    refine ⟨?_, ?_, ?_⟩
    · split_ifs with h1 h2
      · norm_num
      · have hi : 0 < p⁻¹ := inv_pos.2 hp
        have hi2 : p⁻¹ ≤ 10 / 3 := by
          rw [inv_le_comm₀ hp (by norm_num)]; norm_num at h1 ⊢; linarith
        have e : 18.3 / p - 1.1 / (p * p) = p⁻¹ * (18.3 - 1.1 * p⁻¹) := by field_simp
        have : 0 < p⁻¹ * (18.3 - 1.1 * p⁻¹) := mul_pos hi (by linarith)
        linarith
      · nlinarith [sq_nonneg (log p - 5.12)]
    · split_ifs with h1 h2
      · positivity
      · have : 0 < 43.1 / p + 2.6 / (p * p) := by positivity
        linarith
      · nlinarith [sq_nonneg (log p - 2.3)]
    · positivity
  · intro h
    simp only [ppbarElastic, ppbarTotal, if_pos h, and_self]

theorem xsHigh_pos (s : ℝ) (o : Bool) {ma mb P R1 R2 x0 : ℝ} (hm : 0 < ma + mb) (hx0 : 0 < x0) (hx1 : x0 ≤ 1)
    (hs : x0 * ((ma + mb + 2.1206) * (ma + mb + 2.1206)) ≤ s) (h1 : 0 < R1) (h2 : 0 < R2) (hP : R2 / x0 < P) :
    0 < xsHigh s o ma mb P R1 R2 := by
  have hM : 0 < ma + mb + 2.1206 := by linarith
  have hx : x0 ≤ s / (ma + mb + 2.1206) / (ma + mb + 2.1206) := by
    rw [div_div, le_div_iff₀ (by positivity)]; exact hs
  simp only [xsHigh]
  generalize s / (ma + mb + 2.1206) / (ma + mb + 2.1206) = x at hx
  have hxp : 0 < x := lt_of_lt_of_le hx0 hx
  have r1 := rpow_pos_of_pos hxp (-0.4473)
  have r2 := rpow_pos_of_pos hxp (-0.5486)
  have hb : x ^ (-0.5486 : ℝ) ≤ 1 / x0 := by
    calc x ^ (-0.5486 : ℝ) ≤ x0 ^ (-0.5486 : ℝ) :=
          rpow_le_rpow_of_nonpos hx0 hx (by norm_num)
      _ ≤ x0 ^ (-1 : ℝ) := rpow_le_rpow_of_exponent_ge hx0 hx1 (by norm_num)
      _ = 1 / x0 := by rw [rpow_neg_one, one_div]
  have hb2 : R2 * x ^ (-0.5486 : ℝ) ≤ R2 / x0 := by
    rw [div_eq_mul_one_div]; exact mul_le_mul_of_nonneg_left hb h2.le
  have h3 := mul_pos h1 r1
  have h4 := mul_pos h2 r2
  have h5 : 0 ≤ 0.272 * log x * log x := by nlinarith [sq_nonneg (log x)]
  have h6 : 0 < R2 / x0 := by positivity
  cases o <;> simp only [if_true, if_false, Bool.false_eq_true] <;> linarith

/-- **C143 (high energies).** The total cross sections for high energies are positive at every energy above the threshold
(two nucleons, nucleon and pion); those of particle and antiparticle exceed the others. -/
theorem C143_high (s : ℝ) :
    (4 * mN * mN ≤ s → 0 < ppHigh s ∧ ppHigh s < ppbarHigh s ∧ 0 < npHigh s ∧ npHigh s < npbarHigh s) ∧
    ((mN + mPi) ^ 2 ≤ s → 0 < piplusHigh s ∧ piplusHigh s < piminusHigh s) := by
  have lt : ∀ {ma mb P R1 R2 : ℝ}, 0 < s → 0 < ma + mb → 0 < R2 →
      xsHigh s false ma mb P R1 R2 < xsHigh s true ma mb P R1 R2 := by
    intro ma mb P R1 R2 hs hm h2
    have hx : 0 < s / (ma + mb + 2.1206) / (ma + mb + 2.1206) := by
      have : 0 < ma + mb + 2.1206 := by linarith
      positivity
    simp only [xsHigh, if_true, if_false, Bool.false_eq_true]
    have := mul_pos h2 (rpow_pos_of_pos hx (-0.5486))
    linarith
  constructor
  · intro h
    have h0 : 0 < s := lt_of_lt_of_le (by unfold mN; norm_num) h
    unfold mN at h
    refine ⟨xsHigh_pos s false (x0 := 0.219) ?_ ?_ ?_ ?_ ?_ ?_ ?_, lt h0 ?_ ?_,
      xsHigh_pos s false (x0 := 0.219) ?_ ?_ ?_ ?_ ?_ ?_ ?_, lt h0 ?_ ?_⟩ <;> norm_num at h ⊢ <;> linarith
  · intro h
    have h0 : 0 < s := lt_of_lt_of_le (by unfold mN mPi; norm_num) h
    unfold mN mPi at h
    refine ⟨xsHigh_pos s false (x0 := 0.11) ?_ ?_ ?_ ?_ ?_ ?_ ?_, lt h0 ?_ ?_⟩ <;> norm_num at h ⊢ <;> linarith

/-- **C143 (hard strings).** The cross section for hard strings is zero up to its threshold, positive above and never
decreases with the energy. -/
theorem C143_strings (xs0 e0 l : ℝ) (hx : 0 < xs0) (he : 0 < e0) (hl : 0 < l) (s s' : ℝ) (hs : 0 ≤ s) (hss : s ≤ s') :
    (s ≤ e0 ^ 2 → stringHard s xs0 e0 l = 0) ∧ (e0 ^ 2 < s → 0 < stringHard s xs0 e0 l) ∧
      stringHard s xs0 e0 l ≤ stringHard s' xs0 e0 l := by
  have low : ∀ t, t ≤ e0 ^ 2 → stringHard t xs0 e0 l = 0 := by
    intro t ht
    unfold stringHard
    split_ifs with h
    · rfl
    · have : √t = e0 := le_antisymm (by rw [← sqrt_sq he.le]; exact sqrt_le_sqrt ht) (not_lt.1 h)
      rw [this, div_self he.ne', log_one, zero_rpow hl.ne', mul_zero]
  have ge : ∀ {t}, e0 ^ 2 < t → e0 < √t := fun h => (lt_sqrt he.le).2 h
  have up : ∀ t, e0 ^ 2 < t → 0 < stringHard t xs0 e0 l := by
    intro t ht
    unfold stringHard
    rw [if_neg (not_lt.2 (ge ht).le)]
    exact mul_pos hx (rpow_pos_of_pos (log_pos ((one_lt_div he).2 (ge ht))) l)
  refine ⟨low s, up s, ?_⟩
  rcases le_or_gt s (e0 ^ 2) with h | h
  · rw [low s h]
    rcases le_or_gt s' (e0 ^ 2) with h' | h'
    · rw [low s' h']
    · exact (up s' h').le
  · have h' := lt_of_lt_of_le h hss
    unfold stringHard
    rw [if_neg (not_lt.2 (ge h).le), if_neg (not_lt.2 (ge h').le)]
    apply mul_le_mul_of_nonneg_left _ hx.le
    apply rpow_le_rpow (log_nonneg ((one_le_div he).2 (ge h).le)) _ hl.le
    apply log_le_log (div_pos (lt_trans he (ge h)) he)
    exact div_le_div_of_nonneg_right (sqrt_le_sqrt hss) he.le

/-- **C143 (pions).** The elastic cross sections of pion and nucleon are never negative, whatever the tabulated
data are; the ones for high energies are positive for all masses. -/
theorem C143_pions (pdg res : ℝ → ℝ) (s m1 m2 : ℝ) :
    0 ≤ piplusElastic pdg res s ∧ 0 ≤ piminusElastic pdg res s ∧
    (0 < m1 → 0 < m2 → (m1 + m2) ^ 2 < s → 0 < piplusElasticHigh s m1 m2 ∧ 0 < piplusElasticAQM s m1 m2 ∧
      0 < ppElasticHigh s m1 m2) := by
  have hsub : ∀ a b, 0 ≤ subtract a b := by
    intro a b
    unfold subtract reallySmall
    split_ifs with h
    · norm_num
    · exact not_lt.1 h
  refine ⟨hsub _ _, hsub _ _, fun h1 h2 h => ?_⟩
  have hp := heavy_pos h1 h2 h
  have hh : 0 < piplusElasticHigh s m1 m2 := by
    simp only [piplusElasticHigh]
    have := rpow_pos_of_pos hp (-0.4)
    nlinarith [sq_nonneg (log (plabHeavy s m1 m2))]
  refine ⟨hh, ?_, elasticHigh_pos hp⟩
  unfold piplusElasticAQM
  split_ifs
  · norm_num
  · exact hh

/-- **C143 (deuterons).** Elastic cross sections of deuterons are positive and bounded at every energy. -/
theorem C143_deuterons (s : ℝ) :
    4 < deuteronPion s ∧ deuteronPion s ≤ 68 ∧ 10 < deuteronNucleon s ∧ deuteronNucleon s ≤ 3110 := by
  simp only [deuteronPion, deuteronNucleon]
  generalize √s - 2.172 = t
  generalize s - 7.93 = e
  have ht : (0.065 : ℝ) * 0.065 ≤ t * t + 0.065 * 0.065 := by nlinarith [mul_self_nonneg t]
  have hp : 0 < t * t + 0.065 * 0.065 := by nlinarith [mul_self_nonneg t]
  refine ⟨?_, ?_, ?_, ?_⟩
  · have : 0 < 0.27 / (t * t + 0.065 * 0.065) := by positivity
    linarith
  · have : 0.27 / (t * t + 0.065 * 0.065) ≤ 64 := by
      rw [div_le_iff₀ hp]; nlinarith
    linarith
  · have h1 := exp_pos (-(e * e) / 0.003)
    have h2 := exp_pos (-(e * e) / 0.1)
    linarith
  · have h1 : exp (-(e * e) / 0.003) ≤ 1 := exp_le_one_iff.2 (div_nonpos_of_nonpos_of_nonneg (by nlinarith [mul_self_nonneg e]) (by norm_num))
    have h2 : exp (-(e * e) / 0.1) ≤ 1 := exp_le_one_iff.2 (div_nonpos_of_nonpos_of_nonneg (by nlinarith [mul_self_nonneg e]) (by norm_num))
    linarith

/-- **C143 (kaons).** The cross sections of kaons and nucleons with analytic parametrizations are positive at every energy
above the threshold. -/
theorem C143_kaons (s : ℝ) (h : (mK + mN) ^ 2 < s) :
    0 < kplusElastic s ∧ 0 < kplusnElastic s ∧ 0 < kplusnK0p s ∧ 0 < kminusKbar0n s ∧
    0 < kpPimSp (√s) ∧ 0 < kpPipSm (√s) ∧ 0 < kpPi0S0 (√s) ∧ 0 < kpPi0L (√s) ∧ 0 < knPimS0 (√s) ∧
    0 < knPimL (√s) ∧ (∀ pdg, √s < 1.68 → 0 < kminusElasticExp pdg s) := by
  have hK : 0 < mK := by unfold mK; norm_num
  have hN : 0 < mN := by unfold mN; norm_num
  have hp := plab2_pos hK hN h
  have hs : 0 < s := lt_of_le_of_lt (sq_nonneg _) h
  have hw : (1.432 : ℝ) < √s := by
    apply (lt_sqrt (by norm_num)).2
    refine lt_of_le_of_lt (le_of_eq ?_) h
    unfold mK mN; norm_num
  have hke : 0 < kplusElastic s := by
    simp only [kplusElastic]
    generalize plabFromS2 s mK mN = p at *
    apply div_pos
    · nlinarith [sq_nonneg (p - 1)]
    · nlinarith [sq_nonneg (p - 0.75)]
  refine ⟨hke, ?_, ?_, ?_, ?_, ?_, ?_, ?_, ?_, ?_, ?_⟩
  · unfold kplusnElastic; positivity
  · unfold kplusnK0p; positivity
  · simp only [kminusKbar0n]; positivity
  · have : 0 < √s - 1.38841 := by linarith
    unfold kpPimSp; positivity
  · have : 0 < √s - 1.42318 := by linarith
    unfold kpPipSm; positivity
  · have : 0 < √s - 1.39830305 := by linarith
    unfold kpPi0S0; positivity
  · have : 0 < √s - 1.38786692 := by linarith
    unfold kpPi0L; positivity
  · unfold knPimS0 kpPimSp kpPipSm kpPi0S0
    obtain ⟨b, hb⟩ : ∃ b, b = √s - 1.42318 := ⟨_, rfl⟩
    have hb0 : 0 < b := by rw [hb]; linarith
    have e1 : √s - 1.38841 = b + 0.03477 := by rw [hb]; ring
    have e2 : √s - 1.39830305 = b + 0.02487695 := by rw [hb]; ring
    rw [e1, e2, ← hb, ← mul_div_assoc, sub_pos, div_add_div _ _ (by positivity) (by positivity),
      div_lt_div_iff₀ (by positivity) (by positivity), ← sub_pos]
    ring_nf
    positivity
  · have : 0 < √s - 1.38786692 := by linarith
    unfold knPimL kpPi0L; positivity
  · intro pdg h2
    simp only [kminusElasticExp, if_pos h2]
    have := rpow_pos_of_pos (show 0 < 0.22002795 * 0.22002795 / (0.22002795 * 0.22002795 +
      plabFromS2 s mK mN * plabFromS2 s mK mN) by positivity) 0.64907116
    positivity

/-- **C143 (hyperons).** The cross sections for strangeness exchange of two hyperons are positive above the threshold. -/
theorem C143_hyperons (d pN pL : ℝ) (hd : 0 < d) (hN : 0 < pN) (hL : 0 < pL) :
    0 < lambdaLambda d pN pL ∧ 0 < lambdaSigmaCharged d ∧ 0 < lambdaSigma0 d ∧ 0 < sigma0Sigma0 d ∧
    0 < sigmaSigmaCharged d ∧ 0 < sigmaPlusSigmaMinus d := by
  have r : ∀ e : ℝ, 0 < d ^ e := fun e => rpow_pos_of_pos hd e
  have h0 : 0 < sigma0Sigma0 d := by
    unfold sigma0Sigma0
    split_ifs <;> exact mul_pos (by norm_num) (r _)
  refine ⟨mul_pos (by positivity) (r _), mul_pos (by norm_num) (r _), ?_, h0, mul_pos (by norm_num) h0,
    mul_pos (by norm_num) (r _)⟩
  unfold lambdaSigma0
  split_ifs <;> exact mul_pos (by norm_num) (r _)

/-! ### Examples -/

/-- Two nucleons at √s = 5 GeV, kaon and nucleon at √s = 2 GeV. -/
example : 4 * mN * mN < 25 ∧ (mK + mN) ^ 2 < 4 ∧ (mN + mPi) ^ 2 ≤ 4 := by
  unfold mN mK mPi; norm_num

end Verif.Par
