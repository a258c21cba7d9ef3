import Verif.Par.Props
import Mathlib.Analysis.Complex.ExponentialBounds
import Mathlib.Analysis.SpecialFunctions.Pow.Asymptotics

/-!
C144: relations between parametrized cross sections.
-/

namespace Verif.Par

open Verif.Kin Real

theorem rpow_le_inv {p e : ℝ} (hp : 1 ≤ p) (he : e ≤ -1) : p ^ e ≤ 1 / p := by
  calc p ^ e ≤ p ^ (-1 : ℝ) := rpow_le_rpow_of_exponent_le hp he
    _ = 1 / p := by rw [rpow_neg_one, one_div]

theorem elasticHigh_le {p : ℝ} (h1 : 2.776 ≤ p) (h5 : p ≤ 5) : elasticHigh p ≤ 38.8 := by
  have hl : 0 ≤ log p := log_nonneg (by linarith)
  have hu : log p ≤ 4 := by
    have := log_le_sub_one_of_pos (show 0 < p by linarith)
    linarith
  have hr : p ^ (-1.21 : ℝ) ≤ 1 := rpow_le_one_of_one_le_of_nonpos (by linarith) (by norm_num)
  unfold elasticHigh
  nlinarith

theorem high_le {p : ℝ} (h5 : 5 ≤ p) :
    elasticHigh p ≤ 48 + 0.522 * log p * log p - 4.51 * log p := by
  have hr : p ^ (-1.21 : ℝ) ≤ 1 / p := rpow_le_inv (by linarith) (by norm_num)
  have hi : 1 / p ≤ 1 / 5 := one_div_le_one_div_of_le (by norm_num) h5
  unfold elasticHigh
  nlinarith [sq_nonneg (log p - 3.77)]

/-- **C144 (antinucleons).** The elastic cross section of nucleon and antinucleon never exceeds the total one. -/
theorem C144_antinucleons (s : ℝ) : ppbarElastic s ≤ ppbarTotal s := by
  unfold ppbarElastic ppbarTotal
  split_ifs with h
  · exact le_refl _
  rcases eq_or_lt_of_le (not_lt.1 h) with h0 | h0
  · have e : plabFromS s mN = 0 := by simp [plabFromS, ← h0]
    simp only [e]
    norm_num
  have hp := plab_pos h0
  generalize plabFromS s mN = p at *
  dsimp only
  split_ifs with h1 h2
  · have hq : p * p ≤ 0.09 := by nlinarith
    have : 1 + -1.1 * p * p ≤ exp (-1.1 * p * p) := by
      have := add_one_le_exp (-1.1 * p * p); linarith
    nlinarith
  · have hi : 0 < p⁻¹ := inv_pos.2 hp
    have e : 75 + 43.1 / p + 2.6 / (p * p) - 3.9 * p - (31.6 + 18.3 / p - 1.1 / (p * p) - 3.8 * p)
        = 43.4 + 24.8 * p⁻¹ + 3.7 * (p⁻¹ * p⁻¹) - 0.1 * p := by field_simp; ring
    have : 0 < p⁻¹ * p⁻¹ := mul_pos hi hi
    linarith
  · have hl : 0 ≤ log p := log_nonneg (by linarith)
    have r : p ^ (-1.16 : ℝ) ≤ p ^ (-0.64 : ℝ) := rpow_le_rpow_of_exponent_le (by linarith) (by norm_num)
    have r0 := rpow_pos_of_pos hp (-0.64)
    nlinarith [mul_nonneg hl hl]

/-- The range from 0.8 to 1.5 GeV. -/
theorem mid_le {p : ℝ} (h1 : 0.8 ≤ p) (h2 : p < 1.5) :
    1250 / (p + 50) - 4 * (p - 1.3) * (p - 1.3) ≤ 23.5 + 24.6 / (1 + exp (-(p - 1.2) / 0.1)) := by
  have he : exp 1 < 2.7182818286 := exp_one_lt_d9
  have hpos := exp_pos 1
  have low : ∀ n : ℕ, ∀ a E : ℝ, a ≤ p → (1.2 - a) * 10 = n → exp 1 ^ n ≤ E →
      24.6 / (1 + E) ≤ 24.6 / (1 + exp (-(p - 1.2) / 0.1)) := by
    intro n a E ha hn hE
    apply div_le_div_of_nonneg_left (by norm_num) (by have := exp_pos (-(p - 1.2) / 0.1); linarith)
    have : exp (-(p - 1.2) / 0.1) ≤ exp 1 ^ n := by
      rw [← exp_nat_mul, mul_one, ← hn]
      apply exp_le_exp.2
      rw [div_le_iff₀ (by norm_num)]
      linarith
    linarith
  have e2 : exp 1 ^ 2 ≤ 7.4 := by nlinarith
  have e3 : exp 1 ^ 3 ≤ 20.1 := by
    have : exp 1 ^ 3 = exp 1 ^ 2 * exp 1 := by ring
    rw [this]; nlinarith [sq_nonneg (exp 1)]
  have e4 : exp 1 ^ 4 ≤ 54.7 := by
    have : exp 1 ^ 4 = exp 1 ^ 2 * exp 1 ^ 2 := by ring
    have h2 : exp 1 ^ 2 ≤ 7.3891 := by nlinarith
    rw [this]; nlinarith [sq_nonneg (exp 1)]
  have hp50 : 0 < p + 50 := by linarith
  rcases lt_or_ge p 0.9 with h3 | h3
  · have := low 4 0.8 54.7 h1 (by norm_num) e4
    have hd : 1250 / (p + 50) ≤ 23.94 + 4 * (p - 1.3) * (p - 1.3) := by
      have hq : 0 ≤ 0.9 - p := by linarith
      have hr : 0 ≤ p - 0.8 := by linarith
      rw [div_le_iff₀ hp50]
      nlinarith [mul_nonneg hq hq, mul_nonneg (mul_nonneg hq hq) hr, mul_nonneg hq hr]
    norm_num at this hd ⊢
    linarith
  rcases lt_or_ge p 1 with h4 | h4
  · have := low 3 0.9 20.1 h3 (by norm_num) e3
    have hd : 1250 / (p + 50) ≤ 24.6 := by
      rw [div_le_iff₀ hp50]; linarith
    have := mul_self_nonneg (p - 1.3)
    norm_num at *
    nlinarith
  · have := low 2 1 7.4 h4 (by norm_num) e2
    have hd : 1250 / (p + 50) ≤ 24.6 := by
      rw [div_le_iff₀ hp50]; linarith
    have := mul_self_nonneg (p - 1.3)
    norm_num at *
    nlinarith

/-- **C144 (proton and proton).** The elastic cross section does not exceed the total one, for all momenta in the
laboratory below 0.4 GeV and from 0.435 GeV on. Missing: momenta between them, where the total cross section is the
smaller one (`C144_pp_false`). -/
theorem C144_pp_partial (s : ℝ) (h : 4 * mN * mN < s)
    (hp : plabFromS s mN < 0.4 ∨ 0.435 ≤ plabFromS s mN) : ppElastic s ≤ ppTotal s := by
  have h0 := plab_pos h
  have hsq := plab_sq h
  have hm : 0 < mN := by unfold mN; norm_num
  simp only [ppElastic, ppTotal]
  rcases hp with hp | hp
  · rw [if_pos (by linarith), if_pos hp]
    have hd : 0 < s - 4 * mN * mN := by linarith
    have hs : s < 3.7 := by
      by_contra hc
      unfold mN at *
      nlinarith
    generalize plabFromS s mN = p at *
    have r : (p / 0.4) ^ (-2 : ℝ) ≤ (p / 0.4) ^ (-2.104 : ℝ) :=
      rpow_le_rpow_of_exponent_ge (by positivity) (by rw [div_le_one (by norm_num)]; exact hp.le) (by norm_num)
    have e : (p / 0.4) ^ (-2 : ℝ) = 0.16 / p ^ 2 := by
      rw [show (-2 : ℝ) = -((2 : ℕ) : ℝ) by norm_num, rpow_neg (by positivity), rpow_natCast]
      field_simp
      norm_num
    rw [e] at r
    have h1 : 5.12 * mN / (s - 4 * mN * mN) + 1.67 ≤ 34 * (0.16 / p ^ 2) := by
      have e2 : p ^ 2 = s * (s - 4 * mN * mN) / (4 * mN * mN) := by
        rw [← hsq]; field_simp
      rw [e2, ← sub_nonneg]
      have key : ∀ d : ℝ, 0 < d → 34 * (0.16 / (s * d / (4 * mN * mN))) - (5.12 * mN / d + 1.67)
          = (21.76 * mN * mN - 5.12 * mN * s - 1.67 * d * s) / (s * d) := by
        intro d hd'
        have hs0 : s ≠ 0 := by
          have : 0 < 4 * mN * mN := by positivity
          linarith
        field_simp
        ring
      have this := key _ hd
      rw [this]
      apply div_nonneg
      · unfold mN at *
        nlinarith
      · apply mul_nonneg _ hd.le
        have : 0 < 4 * mN * mN := by positivity
        linarith
    linarith
  · rw [if_neg (by linarith), if_neg (by linarith : ¬plabFromS s mN < 0.4)]
    generalize plabFromS s mN = p at *
    rcases lt_or_ge p 0.8 with h1 | h1
    · rw [if_pos h1, if_pos h1]
    rw [if_neg (not_lt.2 h1), if_neg (not_lt.2 h1)]
    rcases lt_or_ge p 1.5 with h2 | h2
    · rw [if_pos (by linarith), if_pos h2]
      exact mid_le h1 h2
    rw [if_neg (not_lt.2 h2)]
    have hlow : p < 5 → 41 ≤ 41 + 60 * (p - 0.9) * exp (-1.2 * p) := by
      intro _
      have := exp_pos (-1.2 * p)
      have : 0 < p - 0.9 := by linarith
      have : 0 < 60 * (p - 0.9) * exp (-1.2 * p) := by positivity
      linarith
    rcases lt_or_ge p 2 with h3 | h3
    · rw [if_pos h3, if_pos (by linarith)]
      have hd : 1250 / (p + 50) ≤ 25 := by rw [div_le_iff₀ (by linarith)]; linarith
      have := hlow (by linarith)
      nlinarith [mul_self_nonneg (p - 1.3)]
    rw [if_neg (not_lt.2 h3)]
    rcases lt_or_ge p 2.776 with h4 | h4
    · rw [if_pos h4, if_pos (by linarith)]
      have hd : 77 / (p + 1.5) ≤ 25 := by rw [div_le_iff₀ (by linarith)]; linarith
      have := hlow (by linarith)
      linarith
    rw [if_neg (not_lt.2 h4)]
    rcases lt_or_ge p 5 with h5 | h5
    · rw [if_pos h5]
      have := hlow h5
      have := elasticHigh_le h4 h5.le
      linarith
    · rw [if_neg (not_lt.2 h5)]
      exact high_le h5

/-- **C144 (proton and proton), the gap.** At √s ≈ 1.918 GeV (a momentum of 0.41 GeV in the laboratory) the total cross
section is smaller than the elastic one. -/
theorem C144_pp_false : ∃ s : ℝ, 4 * mN * mN < s ∧ ppTotal s < ppElastic s := by
  have h : 4 * mN * mN < 3.68 := by unfold mN; norm_num
  refine ⟨3.68, h, ?_⟩
  have h0 := plab_pos h
  have hsq := plab_sq h
  have hl : 0.409 < plabFromS 3.68 mN := by
    by_contra hc
    unfold mN at *
    nlinarith
  have hu : plabFromS 3.68 mN < 0.41 := by
    by_contra hc
    unfold mN at *
    nlinarith
  simp only [ppElastic, ppTotal]
  generalize plabFromS 3.68 mN = p at *
  rw [if_neg (by linarith), if_pos (by linarith), if_pos (by linarith)]
  have h1 : (p - 0.7) ^ 2 ≤ 0.0848 := by nlinarith
  have h2 : (p - 0.7) ^ 4 ≤ 0.0072 := by
    have : (p - 0.7) ^ 4 = (p - 0.7) ^ 2 * (p - 0.7) ^ 2 := by ring
    rw [this]
    nlinarith [sq_nonneg (p - 0.7)]
  unfold mN
  norm_num at h2 ⊢
  linarith

/-- **C144 (neutron and proton).** The elastic cross section does not exceed the total one for momenta in the laboratory of
1 GeV or more and between 0.525 and 0.8 GeV. Missing: smaller momenta (`C144_np_false`). -/
theorem C144_np_partial (s : ℝ) (h : 4 * mN * mN < s)
    (hp : 1 ≤ plabFromS s mN ∨ 0.525 ≤ plabFromS s mN ∧ plabFromS s mN < 0.8) : npElastic s ≤ npTotal s := by
  have h0 := plab_pos h
  simp only [npElastic, npTotal]
  generalize plabFromS s mN = p at *
  rcases hp with hp | ⟨h1, h2⟩
  · rw [if_neg (by linarith), if_neg (by linarith : ¬p < 0.8), if_neg (by linarith : ¬p < 0.4),
      if_neg (by linarith : ¬p < 1)]
    rcases lt_or_ge p 2 with h3 | h3
    · rw [if_pos h3, if_pos h3]
      have : 31 / √p ≤ 31 := div_le_self (by norm_num) (one_le_sqrt.2 hp)
      linarith
    rw [if_neg (not_lt.2 h3), if_neg (not_lt.2 h3)]
    rcases lt_or_ge p 2.776 with h4 | h4
    · rw [if_pos h4, if_pos (by linarith)]
      rw [div_le_iff₀ (by linarith)]; linarith
    rw [if_neg (not_lt.2 h4)]
    rcases lt_or_ge p 5 with h5 | h5
    · rw [if_pos h5]
      have := elasticHigh_le h4 h5.le
      linarith
    · rw [if_neg (not_lt.2 h5)]
      exact high_le h5
  · rw [if_neg (by linarith), if_pos h2, if_neg (by linarith), if_pos (by linarith)]

/-- **C144 (neutron and proton), small momenta.** At √s ≈ 1.936 GeV (a momentum of 0.5 GeV in the laboratory) the total cross
section is smaller than the elastic one. -/
theorem C144_np_false : ∃ s : ℝ, 4 * mN * mN < s ∧ npTotal s < npElastic s := by
  have h : 4 * mN * mN < 3.75 := by unfold mN; norm_num
  refine ⟨3.75, h, ?_⟩
  have h0 := plab_pos h
  have hsq := plab_sq h
  have hl : 0.49 < plabFromS 3.75 mN := by
    by_contra hc
    unfold mN at *
    nlinarith
  have hu : plabFromS 3.75 mN < 0.5 := by
    by_contra hc
    unfold mN at *
    nlinarith
  simp only [npElastic, npTotal]
  generalize plabFromS 3.75 mN = p at *
  rw [if_neg (by linarith), if_pos (by linarith), if_pos (by linarith)]
  have h1 : |p - 0.95| ≤ 0.46 := abs_le.2 ⟨by linarith, by linarith⟩
  have h2 : |p - 0.95| ^ (2.5 : ℝ) ≤ 0.144 := by
    refine (rpow_le_rpow (abs_nonneg _) h1 (by norm_num)).trans ?_
    have e : ((0.46 : ℝ) ^ (2.5 : ℝ)) ^ 2 = 0.46 ^ 5 := by
      rw [← rpow_natCast, ← rpow_mul (by norm_num), ← rpow_natCast]
      norm_num
    have hpos : (0 : ℝ) ≤ 0.46 ^ (2.5 : ℝ) := by positivity
    by_contra hc
    have : (0.144 : ℝ) ^ 2 < ((0.46 : ℝ) ^ (2.5 : ℝ)) ^ 2 := by
      have := not_le.1 hc
      nlinarith
    rw [e] at this
    norm_num at this
  unfold mN
  norm_num at h2 ⊢
  linarith

/-- **C144 (charges at high energies).** At momenta of 2 GeV and more the elastic, at 5 GeV and more also the total cross
sections of proton and proton and of neutron and proton are the same. -/
theorem C144_isospin (s : ℝ) (h : 2 ≤ plabFromS s mN) :
    ppElastic s = npElastic s ∧ (5 ≤ plabFromS s mN → ppTotal s = npTotal s) := by
  simp only [ppElastic, npElastic, ppTotal, npTotal]
  generalize plabFromS s mN = p at *
  constructor
  · rw [if_neg (by linarith), if_neg (by linarith : ¬p < 0.8), if_neg (by linarith : ¬p < 2),
      if_neg (by linarith : ¬p < 0.525), if_neg (by linarith : ¬p < 0.8), if_neg (by linarith : ¬p < 2)]
  · intro h5
    rw [if_neg (by linarith), if_neg (by linarith : ¬p < 0.8), if_neg (by linarith : ¬p < 1.5),
      if_neg (by linarith : ¬p < 5), if_neg (by linarith : ¬p < 0.4), if_neg (by linarith : ¬p < 1),
      if_neg (by linarith : ¬p < 2), if_neg (by linarith : ¬p < 5)]

/-- **C144 (isospin of kaons).** The kaon cross sections are those of isospin amplitudes: `K⁺` on nucleons with amplitudes of isospin 1 and 0,
`K⁻` to pions and hyperons with the squared amplitudes of isospin 0 and 1 of `πΣ` and that of `πΛ`. -/
theorem C144_kaons (s : ℝ) (h : (mK + mN) ^ 2 < s) :
    (∃ t0 t1 : ℝ, kplusElastic s = t1 ^ 2 ∧ kplusnElastic s = ((t1 + t0) / 2) ^ 2 ∧ kplusnK0p s = ((t1 - t0) / 2) ^ 2) ∧
    (∃ a0 a1 : ℝ, 0 < a0 ∧ 0 < a1 ∧ kpPi0S0 (Real.sqrt s) = a0 / 6 ∧ knPimS0 (Real.sqrt s) = a1 / 2 ∧
      kpPimSp (Real.sqrt s) + kpPipSm (Real.sqrt s) = a0 / 3 + a1 / 2) ∧
    ∃ b : ℝ, 0 < b ∧ kpPi0L (Real.sqrt s) = b / 2 ∧ knPimL (Real.sqrt s) = b := by
  obtain ⟨h1, -, -, -, -, -, h5, h6, h7, -⟩ := C143_kaons s h
  refine ⟨⟨0, Real.sqrt (kplusElastic s), (Real.sq_sqrt h1.le).symm, ?_, ?_⟩, ⟨6 * kpPi0S0 (Real.sqrt s), 2 * knPimS0 (Real.sqrt s),
    by positivity, by positivity, by ring, by ring, by unfold knPimS0; ring⟩, 2 * kpPi0L (Real.sqrt s), by positivity, by ring, rfl⟩
  · rw [add_zero, div_pow, Real.sq_sqrt h1.le, kplusnElastic]; ring
  · rw [sub_zero, div_pow, Real.sq_sqrt h1.le, kplusnK0p]; ring

/-- **C144 (particles and antiparticles at high energies).** The total cross sections of particle-particle and
particle-antiparticle collisions approach each other at high energies, for all parameters. -/
theorem C144_pomeranchuk (ma mb P R1 R2 : ℝ) (hm : 0 < ma + mb) :
    Filter.Tendsto (fun s => xsHigh s true ma mb P R1 R2 - xsHigh s false ma mb P R1 R2) Filter.atTop (nhds 0) := by
  have hM : 0 < ma + mb + 2.1206 := by linarith
  have e : (fun s => xsHigh s true ma mb P R1 R2 - xsHigh s false ma mb P R1 R2) =
      fun s => 2 * R2 * ((fun x : ℝ => x ^ (-0.5486 : ℝ)) (s / (ma + mb + 2.1206) / (ma + mb + 2.1206))) := by
    funext s
    simp only [xsHigh, if_true, if_false, Bool.false_eq_true]
    ring
  rw [e, show (0 : ℝ) = 2 * R2 * 0 by ring]
  apply Filter.Tendsto.const_mul
  have h1 : Filter.Tendsto (fun x : ℝ => x ^ (-0.5486 : ℝ)) Filter.atTop (nhds 0) :=
    tendsto_rpow_neg_atTop (by norm_num)
  exact h1.comp ((Filter.tendsto_id.atTop_div_const hM).atTop_div_const hM)

/-! ### Examples -/

/-- Two nucleons at s = 25 GeV² have more than 5 GeV in the laboratory. -/
example : 4 * mN * mN < 25 ∧ 5 ≤ plabFromS 25 mN := by
  have h : 4 * mN * mN < 25 := by unfold mN; norm_num
  refine ⟨h, ?_⟩
  have hsq := plab_sq h
  have h0 := plab_pos h
  by_contra hc
  unfold mN at *
  nlinarith

end Verif.Par
