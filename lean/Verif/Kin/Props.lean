import Verif.Kin.Model
import Mathlib.Tactic.Linarith
import Mathlib.Tactic.Ring
import Mathlib.Tactic.FieldSimp
import Mathlib.Tactic.Positivity
import Mathlib.Tactic.LinearCombination
/-! C29, C30, C31, C59, C68. -/
namespace Verif.Kin
open Real

/-! ### C29 -/

/-- The Minkowski product, spelled out. -/
def minkowski (a b : V4) : ℝ := a.t * b.t - a.x * b.x - a.y * b.y - a.z * b.z

/-- A velocity below the speed of light. -/
def Subluminal (v : V3) : Prop := v.x ^ 2 + v.y ^ 2 + v.z ^ 2 < 1

theorem gamma_spec {v : V3} (h : Subluminal v) :
    0 < gamma v ∧ v.x ^ 2 + v.y ^ 2 + v.z ^ 2 = 1 - 1 / gamma v ^ 2 := by
  have hs : v.sqr = v.x ^ 2 + v.y ^ 2 + v.z ^ 2 := by unfold V3.sqr V3.dot; ring
  unfold Subluminal at h
  unfold gamma
  rw [hs, if_pos h]
  have hp : 0 < 1 - (v.x ^ 2 + v.y ^ 2 + v.z ^ 2) := by linarith
  have hsq := Real.sqrt_pos.2 hp
  refine ⟨by positivity, ?_⟩
  rw [div_pow, one_pow, Real.sq_sqrt hp.le, one_div_one_div]
  ring

theorem boost_t (a : V4) (v : V3) :
    (boost a v).t = gamma v * (a.t - (a.x * v.x + a.y * v.y + a.z * v.z)) := rfl

/-- **C29**, boosts preserve the Minkowski product. -/
theorem C29_isometry (a b : V4) (v : V3) (h : Subluminal v) :
    minkowski (boost a v) (boost b v) = minkowski a b := by
  obtain ⟨hg, hv⟩ := gamma_spec h
  unfold minkowski boost V4.mk' V3.sub V3.smul V4.vec V3.dot
  simp only
  generalize gamma v = g at hg hv
  have hx : v.x ^ 2 = 1 - 1 / g ^ 2 - v.y ^ 2 - v.z ^ 2 := by linarith
  generalize hp : a.x * v.x + a.y * v.y + a.z * v.z = p
  generalize hq : b.x * v.x + b.y * v.y + b.z * v.z = q
  generalize ht : g * (a.t - p) = t
  generalize hu : g * (b.t - q) = u
  generalize hc : g / (g + 1) = c
  have key : t * u - (-(c * (u + b.t)) * p - c * (t + a.t) * q +
      (1 - 1 / g ^ 2) * (c * (t + a.t)) * (c * (u + b.t))) = a.t * b.t := by
    rw [← ht, ← hu, ← hc]
    field_simp
    ring
  have e : (v.x ^ 2 + v.y ^ 2 + v.z ^ 2) * ((c * (t + a.t)) * (c * (u + b.t))) =
      (1 - 1 / g ^ 2) * ((c * (t + a.t)) * (c * (u + b.t))) := by rw [hv]
  linear_combination key - e + (c * (u + b.t)) * hp + (c * (t + a.t)) * hq

/-- **C29**, boosting by `v` and then by `-v` is the identity. -/
theorem C29_inverse (a : V4) (v : V3) (h : Subluminal v) : boost (boost a v) v.neg = a := by
  obtain ⟨hg, hv⟩ := gamma_spec h
  have hn : gamma v.neg = gamma v := by
    unfold gamma
    have : v.neg.sqr = v.sqr := by unfold V3.neg V3.sqr V3.dot; simp
    rw [this]
  have ht : (boost (boost a v) v.neg).t = a.t := by
    unfold boost V4.mk' V3.sub V3.smul V4.vec V3.dot
    simp only [hn]
    unfold V3.neg
    simp only
    generalize gamma v = g at hg hv
    generalize hp : a.x * v.x + a.y * v.y + a.z * v.z = p
    have key : g * (g * (a.t - p) + (p - (1 - 1 / g ^ 2) * (g / (g + 1) * (g * (a.t - p) + a.t)))) =
        a.t := by
      field_simp
      ring
    linear_combination key + g * hp - g * (g / (g + 1) * (g * (a.t - p) + a.t)) * hv
  have hb : boost (boost a v) v.neg = V4.mk' (boost (boost a v) v.neg).t
      ((boost a v).vec.sub (v.neg.smul (gamma v.neg / (gamma v.neg + 1) *
        ((boost (boost a v) v.neg).t + (boost a v).t)))) := rfl
  rw [hb, ht, hn]
  generalize hc : gamma v / (gamma v + 1) = c
  have hbt : (boost a v).vec = a.vec.sub (v.smul (c * ((boost a v).t + a.t))) := by
    rw [← hc]; rfl
  rw [hbt]
  generalize (boost a v).t = t
  unfold V4.mk' V3.sub V3.smul V3.neg V4.vec
  ext <;> simp only <;> ring

/-- **C29**, boosting a time-like vector by its own velocity brings it to rest: its space
components vanish and its time component is the invariant mass. -/
theorem C29_rest (a : V4) (h0 : 0 < a.t) (h : a.x ^ 2 + a.y ^ 2 + a.z ^ 2 < a.t ^ 2) :
    Subluminal a.velocity ∧
    boost a a.velocity = ⟨Real.sqrt (a.t ^ 2 - a.x ^ 2 - a.y ^ 2 - a.z ^ 2), 0, 0, 0⟩ := by
  have hvel : a.velocity = ⟨a.x / a.t, a.y / a.t, a.z / a.t⟩ := by
    unfold V4.velocity V3.div V3.smul V4.vec
    ext <;> simp only <;> ring
  have hsub : Subluminal a.velocity := by
    rw [hvel]
    unfold Subluminal
    simp only
    rw [div_pow, div_pow, div_pow, ← add_div, ← add_div, div_lt_one (by positivity)]
    exact h
  refine ⟨hsub, ?_⟩
  obtain ⟨hg, hv⟩ := gamma_spec hsub
  have ht : (boost a a.velocity).t = a.t / gamma a.velocity := by
    rw [boost_t]
    have e : a.x * a.velocity.x + a.y * a.velocity.y + a.z * a.velocity.z =
        a.t * (1 - 1 / gamma a.velocity ^ 2) := by
      rw [← hv, hvel]
      simp only
      field_simp
    rw [e]
    field_simp
    ring
  have hm : a.t / gamma a.velocity = Real.sqrt (a.t ^ 2 - a.x ^ 2 - a.y ^ 2 - a.z ^ 2) := by
    symm
    rw [Real.sqrt_eq_iff_mul_self_eq_of_pos (by positivity)]
    have e : a.x ^ 2 + a.y ^ 2 + a.z ^ 2 = a.t ^ 2 * (1 - 1 / gamma a.velocity ^ 2) := by
      rw [← hv, hvel]
      simp only
      field_simp
    have e2 : a.t / gamma a.velocity * (a.t / gamma a.velocity) =
        a.t ^ 2 * (1 / gamma a.velocity ^ 2) := by ring
    rw [e2]
    linarith
  have hb : boost a a.velocity = V4.mk' (boost a a.velocity).t (a.vec.sub (a.velocity.smul
      (gamma a.velocity / (gamma a.velocity + 1) * ((boost a a.velocity).t + a.t)))) := rfl
  have hc : gamma a.velocity / (gamma a.velocity + 1) * (a.t / gamma a.velocity + a.t) = a.t := by
    field_simp
    ring
  rw [hb, ht, hc, hm, hvel]
  unfold V4.mk' V3.sub V3.smul V4.vec
  ext <;> simp only <;> field_simp <;> ring

/-- **C29**, boosts are linear: a boosted sum is the sum of the boosted vectors. -/
theorem C29_linear (a b : V4) (v : V3) :
    boost (a.add b) v = (boost a v).add (boost b v) := by
  unfold boost V4.add V4.mk' V3.sub V3.smul V4.vec V3.dot
  ext <;> simp only <;> ring

/-- At the speed of light and above, the result is not a boost: the time component is 0. -/
theorem C29_not_subluminal (a : V4) (v : V3) (h : ¬ Subluminal v) : boost a v = ⟨0, a.x, a.y, a.z⟩ := by
  have hs : v.sqr = v.x ^ 2 + v.y ^ 2 + v.z ^ 2 := by unfold V3.sqr V3.dot; ring
  have hg : gamma v = 0 := by
    unfold Subluminal at h
    unfold gamma; rw [hs, if_neg h]
  unfold boost V4.mk' V3.sub V3.smul V4.vec
  rw [hg]
  ext <;> simp

example : Subluminal ⟨3 / 5, 0, 0⟩ ∧ (boost ⟨5, 3, 1, 0⟩ ⟨3 / 5, 0, 0⟩).t = 4 := by
  have h : Subluminal ⟨3 / 5, 0, 0⟩ := by unfold Subluminal; norm_num
  refine ⟨h, ?_⟩
  have hg : gamma ⟨3 / 5, 0, 0⟩ = 5 / 4 := by
    unfold gamma V3.sqr V3.dot
    have : Real.sqrt (1 - (3 / 5 * (3 / 5) + 0 * 0 + 0 * 0)) = 4 / 5 := by
      rw [Real.sqrt_eq_iff_mul_self_eq_of_pos] <;> norm_num
    simp only
    rw [this]
    norm_num
  rw [boost_t, hg]
  norm_num

/-! ### C30 -/

theorem pCMsqr_factor {s ma mb : ℝ} (hs : s ≠ 0) :
    pCMsqrS s ma mb = (s - (ma + mb) ^ 2) * (s - (ma - mb) ^ 2) / (4 * s) := by
  unfold pCMsqrS
  simp only
  field_simp
  ring

/-- **C30**, symmetry. -/
theorem C30_symmetric (sqrts ma mb : ℝ) (hs : sqrts ≠ 0) : pCM sqrts ma mb = pCM sqrts mb ma := by
  have h : sqrts * sqrts ≠ 0 := mul_ne_zero hs hs
  unfold pCM pCMS
  simp only
  rw [pCMsqr_factor h, pCMsqr_factor h, add_comm ma mb, ← neg_sub mb ma, neg_sq]

theorem pCM_sq {sqrts ma mb : ℝ} (ha : 0 ≤ ma) (hb : 0 ≤ mb) (h0 : 0 < sqrts)
    (h : ma + mb ≤ sqrts) : pCM sqrts ma mb ^ 2 = pCMsqrS (sqrts * sqrts) ma mb ∧
    0 ≤ pCM sqrts ma mb := by
  have hs : 0 < sqrts * sqrts := by positivity
  have hnn : 0 ≤ pCMsqrS (sqrts * sqrts) ma mb := by
    rw [pCMsqr_factor hs.ne']
    apply div_nonneg (mul_nonneg _ _) (by positivity)
    · nlinarith
    · nlinarith
  unfold pCM pCMS
  simp only
  split_ifs with hp
  · exact ⟨Real.sq_sqrt hp.le, Real.sqrt_nonneg _⟩
  · exact ⟨by nlinarith, le_refl _⟩

theorem energy_a {sqrts ma mb : ℝ} (ha : 0 ≤ ma) (hb : 0 ≤ mb) (h0 : 0 < sqrts)
    (h : ma + mb ≤ sqrts) : Real.sqrt (pCM sqrts ma mb ^ 2 + ma ^ 2) =
      (sqrts ^ 2 + ma ^ 2 - mb ^ 2) / (2 * sqrts) := by
  have hnn : 0 ≤ (sqrts ^ 2 + ma ^ 2 - mb ^ 2) / (2 * sqrts) := by
    apply div_nonneg _ (by positivity)
    nlinarith
  rw [Real.sqrt_eq_iff_mul_self_eq (by positivity) hnn, (pCM_sq ha hb h0 h).1]
  unfold pCMsqrS
  simp only
  field_simp
  ring

/-- **C30**, the energy balance: at or above threshold `pCM` is not negative and is a
momentum with which the two energies add up to `sqrts`. -/
theorem C30_energy_balance (sqrts ma mb : ℝ) (ha : 0 ≤ ma) (hb : 0 ≤ mb) (h0 : 0 < sqrts)
    (h : ma + mb ≤ sqrts) :
    0 ≤ pCM sqrts ma mb ∧
    Real.sqrt (pCM sqrts ma mb ^ 2 + ma ^ 2) + Real.sqrt (pCM sqrts ma mb ^ 2 + mb ^ 2) = sqrts := by
  refine ⟨(pCM_sq ha hb h0 h).2, ?_⟩
  have e2 := energy_a hb ha h0 (by linarith)
  rw [C30_symmetric sqrts mb ma h0.ne'] at e2
  rw [energy_a ha hb h0 h, e2]
  field_simp
  ring

/-- **C30**, and it is the only one. -/
theorem C30_unique (sqrts ma mb p : ℝ) (ha : 0 ≤ ma) (hb : 0 ≤ mb) (h0 : 0 < sqrts) (hp : 0 ≤ p)
    (h : Real.sqrt (p ^ 2 + ma ^ 2) + Real.sqrt (p ^ 2 + mb ^ 2) = sqrts) : p = pCM sqrts ma mb := by
  have h1 : ma ≤ Real.sqrt (p ^ 2 + ma ^ 2) := Real.le_sqrt_of_sq_le (by nlinarith)
  have h2 : mb ≤ Real.sqrt (p ^ 2 + mb ^ 2) := Real.le_sqrt_of_sq_le (by nlinarith)
  obtain ⟨hq, hbal⟩ := C30_energy_balance sqrts ma mb ha hb h0 (by linarith)
  generalize pCM sqrts ma mb = q at hq hbal
  rcases lt_trichotomy p q with hlt | heq | hlt
  · have a1 : Real.sqrt (p ^ 2 + ma ^ 2) < Real.sqrt (q ^ 2 + ma ^ 2) :=
      Real.sqrt_lt_sqrt (by positivity) (by nlinarith)
    have a2 : Real.sqrt (p ^ 2 + mb ^ 2) < Real.sqrt (q ^ 2 + mb ^ 2) :=
      Real.sqrt_lt_sqrt (by positivity) (by nlinarith)
    linarith
  · exact heq
  · have a1 : Real.sqrt (q ^ 2 + ma ^ 2) < Real.sqrt (p ^ 2 + ma ^ 2) :=
      Real.sqrt_lt_sqrt (by positivity) (by nlinarith)
    have a2 : Real.sqrt (q ^ 2 + mb ^ 2) < Real.sqrt (p ^ 2 + mb ^ 2) :=
      Real.sqrt_lt_sqrt (by positivity) (by nlinarith)
    linarith

/-- **C30**, below threshold, as long as `sqrts` is at least the difference of the masses,
the momentum is 0. Missing: even smaller energies (`C30_far_below`). -/
theorem C30_below_partial (sqrts ma mb : ℝ) (ha : 0 ≤ ma) (hb : 0 ≤ mb) (h0 : 0 < sqrts)
    (h : sqrts ≤ ma + mb) (hd : |ma - mb| ≤ sqrts) : pCM sqrts ma mb = 0 := by
  have hs : 0 < sqrts * sqrts := by positivity
  have h1 : sqrts * sqrts - (ma + mb) ^ 2 ≤ 0 := by nlinarith
  have h2 : 0 ≤ sqrts * sqrts - (ma - mb) ^ 2 := by
    have := sq_le_sq' (by linarith [abs_nonneg (ma - mb)]) hd
    rw [sq_abs] at this
    nlinarith
  have : pCMsqrS (sqrts * sqrts) ma mb ≤ 0 := by
    rw [pCMsqr_factor hs.ne']
    apply div_nonpos_of_nonpos_of_nonneg (mul_nonpos_of_nonpos_of_nonneg h1 h2) (by positivity)
  unfold pCM pCMS
  simp only
  rw [if_neg (by linarith)]

/-- At energies below the mass difference, where nothing can happen, `pCM` is not 0. -/
theorem C30_far_below : pCM 1 3 1 ≠ 0 := by
  unfold pCM pCMS pCMsqrS
  simp only
  rw [if_pos (by norm_num)]
  exact (Real.sqrt_pos.2 (by norm_num)).ne'

/-! ### C31 -/

/-- The squared invariant mass of two particles with energies `e1`, `e2` and momenta `p1`,
`p2` along one axis. -/
def invMassSqr (e1 p1 e2 p2 : ℝ) : ℝ := (e1 + e2) ^ 2 - (p1 + p2) ^ 2

/-- The mass shell. -/
def OnShell (e p m : ℝ) : Prop := 0 ≤ e ∧ e ^ 2 = p ^ 2 + m ^ 2

/-- **C31**, fixed target: with a projectile of energy `e` and momentum `p`, and a target at
rest. -/
theorem C31_fixed_target (e p mp mt : ℝ) (h : OnShell e p mp) :
    sFromEtot e mp mt = invMassSqr e p mt 0 ∧
    sFromEkin (e - mp) mp mt = invMassSqr e p mt 0 ∧
    sFromPlab p mp mt = invMassSqr e p mt 0 := by
  obtain ⟨h0, h⟩ := h
  have h1 : sFromEtot e mp mt = invMassSqr e p mt 0 := by
    unfold sFromEtot invMassSqr; linear_combination -h
  refine ⟨h1, ?_, ?_⟩
  · unfold sFromEkin; rw [sub_add_cancel]; exact h1
  · rw [← h1]
    unfold sFromPlab sFromEtot
    have : Real.sqrt (mp * mp + p * p) = e := by
      rw [show mp * mp + p * p = e * e by linear_combination -h, Real.sqrt_mul_self h0]
    rw [this]

/-- **C31**, two beams in opposite directions, energies given: projectile momentum `p ≥ 0`,
target momentum `-q ≤ 0`. -/
theorem C31_two_beams (e1 e2 p q m1 m2 : ℝ) (hp : 0 ≤ p) (hq : 0 ≤ q) (h1 : OnShell e1 p m1)
    (h2 : OnShell e2 q m2) : sFromEtot2 e1 e2 m1 m2 = invMassSqr e1 p e2 (-q) := by
  unfold sFromEtot2 invMassSqr
  have a : Real.sqrt (e1 * e1 - m1 * m1) = p := by
    rw [show e1 * e1 - m1 * m1 = p * p by linear_combination h1.2, Real.sqrt_mul_self hp]
  have b : Real.sqrt (e2 * e2 - m2 * m2) = q := by
    rw [show e2 * e2 - m2 * m2 = q * q by linear_combination h2.2, Real.sqrt_mul_self hq]
  rw [a, b]
  ring

/-- **C31**, two beams, kinetic energies given, equal masses only. Missing: different
masses, where the result is wrong (`C31_Ekin_two_beams_wrong`). -/
theorem C31_Ekin_two_beams_partial (e1 e2 p q m : ℝ) (hp : 0 ≤ p) (hq : 0 ≤ q)
    (h1 : OnShell e1 p m) (h2 : OnShell e2 q m) :
    sFromEkin2 (e1 - m) (e2 - m) m m = invMassSqr e1 p e2 (-q) := by
  unfold sFromEkin2
  rw [sub_add_cancel, sub_add_cancel]
  exact C31_two_beams e1 e2 p q m m hp hq h1 h2

/-- For different masses the two-beam kinetic energy conversion is wrong: projectile of mass
3 and energy 5 (momentum 4), target of mass 1 at rest. -/
theorem C31_Ekin_two_beams_wrong : OnShell 5 4 3 ∧ OnShell 1 0 1 ∧
    sFromEkin2 (5 - 3) (1 - 1) 3 1 ≠ invMassSqr 5 4 1 (-0) := by
  refine ⟨⟨by norm_num, by norm_num⟩, ⟨by norm_num, by norm_num⟩, ?_⟩
  unfold sFromEkin2 sFromEtot2 invMassSqr
  have a : Real.sqrt ((5 - 3 + 1) * (5 - 3 + 1) - 3 * 3) = 0 := by norm_num
  have b : Real.sqrt ((1 - 1 + 1) * (1 - 1 + 1) - 1 * 1) = 0 := by norm_num
  rw [a, b]
  norm_num

/-- What the two-beam momentum conversion computes: the momenta are replaced by the masses in
the momentum balance. -/
theorem C31_plab_two_beams_value (e1 e2 p q m1 m2 : ℝ) (hm1 : 0 ≤ m1) (hm2 : 0 ≤ m2)
    (h1 : OnShell e1 p m1) (h2 : OnShell e2 q m2) :
    sFromPlab2 p q m1 m2 = (e1 + e2) ^ 2 - (m1 - m2) ^ 2 := by
  have a : Real.sqrt (m1 * m1 + p * p) = e1 := by
    rw [show m1 * m1 + p * p = e1 * e1 by linear_combination -h1.2, Real.sqrt_mul_self h1.1]
  have b : Real.sqrt (m2 * m2 + q * q) = e2 := by
    rw [show m2 * m2 + q * q = e2 * e2 by linear_combination -h2.2, Real.sqrt_mul_self h2.1]
  unfold sFromPlab2 sFromEtot2
  rw [a, b, show e1 * e1 - p * p = m1 * m1 by linear_combination h1.2,
    show e2 * e2 - q * q = m2 * m2 by linear_combination h2.2, Real.sqrt_mul_self hm1,
    Real.sqrt_mul_self hm2]

/-- **C31**, two beams, momenta given: right only if the masses differ by as much as the
momenta, in particular for equal masses and momenta. Missing: all other cases
(`C31_plab_two_beams_wrong`). -/
theorem C31_plab_two_beams_partial (e1 e2 p q m1 m2 : ℝ) (hm1 : 0 ≤ m1) (hm2 : 0 ≤ m2)
    (h1 : OnShell e1 p m1) (h2 : OnShell e2 q m2) :
    sFromPlab2 p q m1 m2 = invMassSqr e1 p e2 (-q) ↔ |m1 - m2| = |p - q| := by
  rw [C31_plab_two_beams_value e1 e2 p q m1 m2 hm1 hm2 h1 h2, ← sq_eq_sq_iff_abs_eq_abs]
  unfold invMassSqr
  constructor <;> intro h <;> linarith

/-- The two-beam momentum conversion is wrong for nucleons with different momenta. -/
theorem C31_plab_two_beams_wrong : OnShell 5 4 3 ∧ OnShell 3 0 3 ∧
    sFromPlab2 4 0 3 3 ≠ invMassSqr 5 4 3 (-0) := by
  refine ⟨⟨by norm_num, by norm_num⟩, ⟨by norm_num, by norm_num⟩, ?_⟩
  rw [Ne, C31_plab_two_beams_partial 5 3 4 0 3 3 (by norm_num) (by norm_num) ⟨by norm_num, by norm_num⟩
    ⟨by norm_num, by norm_num⟩]
  norm_num

/-- **C31**, `plab_from_s` undoes `s_from_plab`. -/
theorem C31_plab_inverse (plab mp mt : ℝ) (hp : 0 ≤ plab) (ht : 0 < mt) :
    plabFromS2 (sFromPlab plab mp mt) mp mt = plab ∧
    (mp = mt → plabFromS (sFromPlab plab mp mt) mp = plab) := by
  have hsq : Real.sqrt (mp * mp + plab * plab) ^ 2 = mp * mp + plab * plab :=
    Real.sq_sqrt (add_nonneg (mul_self_nonneg _) (mul_self_nonneg _))
  have h1 : plabFromS2 (sFromPlab plab mp mt) mp mt = plab := by
    unfold plabFromS2 sFromPlab
    generalize Real.sqrt (mp * mp + plab * plab) = e at hsq
    have : (mp * mp + mt * mt + 2 * mt * e - (mp + mt) * (mp + mt)) *
        (mp * mp + mt * mt + 2 * mt * e - (mp - mt) * (mp - mt)) = (2 * mt * plab) * (2 * mt * plab) := by
      linear_combination 4 * mt ^ 2 * hsq
    rw [this, Real.sqrt_mul_self (by positivity)]
    field_simp
  refine ⟨h1, ?_⟩
  rintro rfl
  unfold plabFromS sFromPlab
  generalize Real.sqrt (mp * mp + plab * plab) = e at hsq
  have : (mp * mp + mp * mp + 2 * mp * e) * (mp * mp + mp * mp + 2 * mp * e - 4 * mp * mp) =
      (2 * mp * plab) * (2 * mp * plab) := by
    linear_combination 4 * mp ^ 2 * hsq
  rw [this, Real.sqrt_mul_self (by positivity)]
  field_simp

/-- **C31**, `s_from_plab` undoes `plab_from_s` above threshold. -/
theorem C31_s_inverse (s mp mt : ℝ) (hmp : 0 ≤ mp) (ht : 0 < mt) (hs : (mp + mt) ^ 2 ≤ s) :
    sFromPlab (plabFromS2 s mp mt) mp mt = s := by
  have hr : 0 ≤ (s - (mp + mt) * (mp + mt)) * (s - (mp - mt) * (mp - mt)) :=
    mul_nonneg (by nlinarith) (by nlinarith)
  have hsq := Real.sq_sqrt hr
  unfold sFromPlab plabFromS2
  generalize Real.sqrt ((s - (mp + mt) * (mp + mt)) * (s - (mp - mt) * (mp - mt))) = r at hsq
  have : mp * mp + r / (2 * mt) * (r / (2 * mt)) =
      ((s - mp * mp - mt * mt) / (2 * mt)) * ((s - mp * mp - mt * mt) / (2 * mt)) := by
    field_simp
    linear_combination hsq
  rw [this, Real.sqrt_mul_self (div_nonneg (by nlinarith) (by positivity))]
  field_simp
  ring

example : OnShell 5 4 3 ∧ OnShell 5 3 4 ∧ sFromEtot2 5 5 3 4 = 99 := by
  refine ⟨⟨by norm_num, by norm_num⟩, ⟨by norm_num, by norm_num⟩, ?_⟩
  rw [C31_two_beams 5 5 4 3 3 4 (by norm_num) (by norm_num) ⟨by norm_num, by norm_num⟩
    ⟨by norm_num, by norm_num⟩]
  unfold invMassSqr; norm_num

/-! ### C68: velocities and momentum transfer -/

/-- **C68**, `center_of_velocity_v`: above threshold it is a velocity below 1, and two
particles of the given masses with opposite velocities of this size have squared invariant
mass `s`. -/
theorem C68_center_of_velocity (s ma mb : ℝ) (ha : 0 < ma) (hb : 0 < mb) (hs : (ma + mb) ^ 2 ≤ s) :
    let v := centerOfVelocityV s ma mb
    0 ≤ v ∧ v < 1 ∧
    invMassSqr (ma / Real.sqrt (1 - v ^ 2)) (ma * v / Real.sqrt (1 - v ^ 2))
      (mb / Real.sqrt (1 - v ^ 2)) (-(mb * v / Real.sqrt (1 - v ^ 2))) = s := by
  intro v
  have hab : 0 < 4 * (ma * mb) := by positivity
  have hd : 0 < s - (ma - mb) * (ma - mb) := by nlinarith
  have hn : 0 ≤ s - (ma + mb) * (ma + mb) := by nlinarith
  have hv2 : v ^ 2 = (s - (ma + mb) * (ma + mb)) / (s - (ma - mb) * (ma - mb)) :=
    Real.sq_sqrt (div_nonneg hn hd.le)
  have hnum : s - (ma + mb) * (ma + mb) = s - (ma - mb) * (ma - mb) - 4 * (ma * mb) := by ring
  rw [hnum] at hv2
  obtain ⟨d, hdd⟩ : ∃ d, d = s - (ma - mb) * (ma - mb) := ⟨_, rfl⟩
  have hsd : s = d + (ma - mb) * (ma - mb) := by rw [hdd]; ring
  rw [← hdd] at hd hv2
  have h1 : 1 - v ^ 2 = 4 * (ma * mb) / d := by
    rw [hv2]; field_simp; ring
  have hpos : 0 < 1 - v ^ 2 := by rw [h1]; positivity
  have hv0 : 0 ≤ v := Real.sqrt_nonneg _
  refine ⟨hv0, by nlinarith, ?_⟩
  have hr := Real.sq_sqrt hpos.le
  have hrp := Real.sqrt_pos.2 hpos
  generalize Real.sqrt (1 - v ^ 2) = r at hr hrp
  unfold invMassSqr
  have e : (ma / r + mb / r) ^ 2 - (ma * v / r + -(mb * v / r)) ^ 2 =
      ((ma + mb) ^ 2 - (ma - mb) ^ 2 * v ^ 2) / r ^ 2 := by
    field_simp
    ring
  rw [e, hr, h1, hv2, hsd]
  field_simp
  ring

/-- **C68**, `fixed_target_projectile_v`: the velocity of a projectile hitting a target at
rest with squared invariant mass `s`. -/
theorem C68_fixed_target (s ma mb : ℝ) (ha : 0 < ma) (hb : 0 < mb) (hs : (ma + mb) ^ 2 ≤ s) :
    let v := fixedTargetV s ma mb
    0 ≤ v ∧ v < 1 ∧
    invMassSqr (ma / Real.sqrt (1 - v ^ 2)) (ma * v / Real.sqrt (1 - v ^ 2)) mb 0 = s := by
  intro v
  have hab : 0 < 2 * ma * mb := by positivity
  have hd : 2 * ma * mb ≤ s - ma * ma - mb * mb := by nlinarith
  have hdp : 0 < s - ma * ma - mb * mb := by linarith
  have hg : 0 < 2 * ma * mb / (s - ma * ma - mb * mb) := by positivity
  have hg1 : 2 * ma * mb / (s - ma * ma - mb * mb) ≤ 1 := (div_le_one hdp).2 hd
  have hv : v = Real.sqrt (1 - 2 * ma * mb / (s - ma * ma - mb * mb) *
      (2 * ma * mb / (s - ma * ma - mb * mb))) := rfl
  have hv2 : v ^ 2 = 1 - 2 * ma * mb / (s - ma * ma - mb * mb) *
      (2 * ma * mb / (s - ma * ma - mb * mb)) := by
    rw [hv]
    exact Real.sq_sqrt (by nlinarith)
  have h1 : Real.sqrt (1 - v ^ 2) = 2 * ma * mb / (s - ma * ma - mb * mb) := by
    rw [hv2, sub_sub_cancel, Real.sqrt_mul_self hg.le]
  have hv0 : 0 ≤ v := Real.sqrt_nonneg _
  refine ⟨hv0, by nlinarith [mul_pos hg hg], ?_⟩
  rw [h1]
  generalize hG : 2 * ma * mb / (s - ma * ma - mb * mb) = g at hg hv2
  have hgs : g * (s - ma * ma - mb * mb) = 2 * ma * mb := by
    rw [← hG]; exact div_mul_cancel₀ _ hdp.ne'
  unfold invMassSqr
  have e : (ma / g + mb) ^ 2 - (ma * v / g + 0) ^ 2 =
      (ma ^ 2 * (1 - v ^ 2)) / g ^ 2 + 2 * ma * mb / g + mb ^ 2 := by
    field_simp
    ring
  rw [e, hv2, ← hgs]
  field_simp
  ring

/-- **C68**, `get_t_range`: the range is ordered (the assertion in the code holds), and for
every scattering angle the squared four-momentum transfer `(p1 - p3)²` of the reaction
`1 2 → 3 4` in the centre of mass lies between its ends, which are taken for forward and
backward scattering. -/
theorem C68_t_range (sqrts m1 m2 m3 m4 c : ℝ) (h1 : 0 ≤ m1) (h2 : 0 ≤ m2) (h3 : 0 ≤ m3) (h4 : 0 ≤ m4)
    (h0 : 0 < sqrts) (hi : m1 + m2 ≤ sqrts) (hf : m3 + m4 ≤ sqrts) (hc : -1 ≤ c ∧ c ≤ 1) :
    let t (c : ℝ) : ℝ := (Real.sqrt (pCM sqrts m1 m2 ^ 2 + m1 ^ 2) -
        Real.sqrt (pCM sqrts m3 m4 ^ 2 + m3 ^ 2)) ^ 2 -
      (pCM sqrts m1 m2 ^ 2 + pCM sqrts m3 m4 ^ 2 - 2 * pCM sqrts m1 m2 * pCM sqrts m3 m4 * c)
    (tRange sqrts m1 m2 m3 m4).1 = t 1 ∧ (tRange sqrts m1 m2 m3 m4).2 = t (-1) ∧
    (tRange sqrts m1 m2 m3 m4).2 ≤ t c ∧ t c ≤ (tRange sqrts m1 m2 m3 m4).1 := by
  intro t
  have hpi := (pCM_sq h1 h2 h0 hi).2
  have hpf := (pCM_sq h3 h4 h0 hf).2
  have hdiff : Real.sqrt (pCM sqrts m1 m2 ^ 2 + m1 ^ 2) - Real.sqrt (pCM sqrts m3 m4 ^ 2 + m3 ^ 2) =
      (m1 * m1 - m2 * m2 - m3 * m3 + m4 * m4) / (2 * sqrts) := by
    rw [energy_a h1 h2 h0 hi, energy_a h3 h4 h0 hf]
    field_simp
    ring
  have e1 : (tRange sqrts m1 m2 m3 m4).1 = t 1 := by
    simp only [t, hdiff, tRange]; ring
  have e2 : (tRange sqrts m1 m2 m3 m4).2 = t (-1) := by
    simp only [t, hdiff, tRange]; ring
  have hpp := mul_nonneg hpi hpf
  refine ⟨e1, e2, ?_, ?_⟩
  · rw [e2]; simp only [t]; nlinarith
  · rw [e1]; simp only [t]; nlinarith

/-! ### C59 -/

/-- A finite four-vector. -/
def fin4 (t x y z : ℚ) : Q4 := ⟨some t, some x, some y, some z⟩

/-- **C59**, `<` and `>`: all components. -/
theorem C59_lt (a b c d a' b' c' d' : ℚ) :
    (Q4.lt (fin4 a b c d) (fin4 a' b' c' d') = true ↔ a < a' ∧ b < b' ∧ c < c' ∧ d < d') ∧
    (Q4.gt (fin4 a b c d) (fin4 a' b' c' d') = true ↔ a > a' ∧ b > b' ∧ c > c' ∧ d > d') := by
  simp [Q4.gt, Q4.lt, fin4, Dbl.lt, and_assoc]

/-- **C59**, `<=` holds if all components are smaller or equal, but what it says is only that
not all are greater. Missing: the documented converse, which is false
(`C59_le_wrong`). -/
theorem C59_le_partial (a b c d a' b' c' d' : ℚ) :
    (Q4.le (fin4 a b c d) (fin4 a' b' c' d') = true ↔ a ≤ a' ∨ b ≤ b' ∨ c ≤ c' ∨ d ≤ d') ∧
    (Q4.ge (fin4 a b c d) (fin4 a' b' c' d') = true ↔ a ≥ a' ∨ b ≥ b' ∨ c ≥ c' ∨ d ≥ d') := by
  have h := C59_lt a b c d a' b' c' d'
  constructor
  · rw [Q4.le, Bool.not_eq_true', ← Bool.not_eq_true, h.2]
    simp only [not_and_or, gt_iff_lt, not_lt]
  · rw [Q4.ge, Bool.not_eq_true', ← Bool.not_eq_true, h.1]
    simp only [not_and_or, not_lt, ge_iff_le]

/-- The documentation says "all components are below or equal". -/
theorem C59_le_wrong : Q4.le (fin4 5 0 5 5) (fin4 1 1 1 1) = true := by decide +kernel

theorem almostEqual_symm (x y : Dbl) (e t : ℚ) : almostEqual x y e t = almostEqual y x e t := by
  cases x with
  | none => cases y <;> rfl
  | some x =>
    cases y with
    | none => rfl
    | some y =>
      unfold almostEqual
      simp only
      rw [abs_sub_comm y x, max_comm |y| |x|]
      by_cases h : x = y
      · subst h; simp
      · have h' : ¬ y = x := fun e => h e.symm
        rw [if_neg h, if_neg h']
        by_cases hx : x = 0
        · subst hx
          rw [if_pos rfl]
          by_cases hy : y = 0
          · exact absurd hy.symm h
          · rw [if_neg hy, if_pos rfl]
        · rw [if_neg hx, if_neg hx]

/-- **C59**, `==` is symmetric. -/
theorem C59_eq_symm (a b : Q4) : Q4.eq a b = Q4.eq b a := by
  unfold Q4.eq almostEqualPhysics
  rw [almostEqual_symm a.t, almostEqual_symm a.x, almostEqual_symm a.y, almostEqual_symm a.z]

/-- **C59**, `==` is reflexive exactly on finite vectors. -/
theorem C59_eq_refl (a : Q4) : Q4.eq a a = true ↔
    a.t.isSome = true ∧ a.x.isSome = true ∧ a.y.isSome = true ∧ a.z.isSome = true := by
  have h (x : Dbl) : almostEqualPhysics x x = x.isSome := by
    unfold almostEqualPhysics almostEqual
    cases x with
    | none => rfl
    | some x => simp
  unfold Q4.eq
  rw [h, h, h, h]
  simp [and_assoc]

/-- **C59**, what `==` allows: finite components that differ by at most 1e-4 of the larger
one, or by at most 1e-6 (1e-4 if one of them is 0). -/
theorem C59_eq_meaning (x y : ℚ) : almostEqualPhysics (some x) (some y) = true ↔
    |x - y| ≤ 1 / 10000 * max |x| |y| ∨ |x - y| ≤ 1 / 1000000 ∨
    ((x = 0 ∨ y = 0) ∧ |x - y| ≤ 1 / 10000) := by
  unfold almostEqualPhysics almostEqual smallNumber reallySmall
  simp only
  by_cases h : x = y
  · subst h
    simp
  · rw [if_neg h]
    by_cases hx : x = 0
    · subst hx
      rw [if_pos rfl]
      simp only [zero_sub, abs_neg, abs_zero, true_or, true_and, decide_eq_true_eq]
      have hy : 0 < |y| := abs_pos.2 (fun e => h e.symm)
      rw [max_eq_right hy.le]
      constructor
      · intro h; exact .inr (.inr h)
      · rintro (h | h | h)
        · linarith
        · linarith
        · exact h
    · rw [if_neg hx]
      by_cases hy : y = 0
      · subst hy
        rw [if_pos rfl]
        simp only [sub_zero, abs_zero, or_true, true_and, decide_eq_true_eq]
        have hx : 0 < |x| := abs_pos.2 hx
        rw [max_eq_left hx.le]
        constructor
        · intro h; exact .inr (.inr h)
        · rintro (h | h | h)
          · linarith
          · linarith
          · exact h
      · rw [if_neg hy]
        simp only [Bool.or_eq_true, decide_eq_true_eq, hx, hy, or_self, false_and, or_false]
        exact or_comm

/-- `==` is not transitive, as is to be expected from a tolerance. -/
theorem C59_eq_not_transitive :
    almostEqualPhysics (some 1) (some (10001 / 10000)) = true ∧
    almostEqualPhysics (some (10001 / 10000)) (some (10002 / 10000)) = true ∧
    almostEqualPhysics (some 1) (some (10002 / 10000)) = false := by decide +kernel

end Verif.Kin
