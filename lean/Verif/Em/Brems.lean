import Mathlib.Tactic.Ring
import Mathlib.Tactic.Linarith
import Mathlib.Tactic.Positivity
import Mathlib.Tactic.FieldSimp
import Mathlib.MeasureTheory.Integral.IntervalIntegral.FundThmCalculus
import Mathlib.Analysis.SpecialFunctions.Integrals.Basic
import Mathlib.Analysis.Real.Pi.Bounds
import Verif.Em.Photon

/-!
C141, C142: bremsstrahlung of pions.
-/

namespace Verif.Em

open Verif Kin Act MeasureTheory

/-! ### Reactions -/

/-- **C141.** There is bremsstrahlung exactly for pairs of pions, whatever their order. -/
theorem C141_reactions (T : Tables) (a b : Mes) (r : ℝ) :
    bremsReaction [b, a] = bremsReaction [a, b] ∧
    (bremsChannel T [a, b] r ≠ none ↔ a.Pion ∧ b.Pion) := by
  constructor
  · cases a <;> cases b <;> rfl
  · unfold bremsChannel
    cases a <;> cases b <;> simp only [bremsReaction, Mes.Pion] <;> first | (simp; done) | skip
    all_goals (split_ifs <;> simp)

/-- **C141.** The final state is a pair of pions with the charge of the initial one; the pair stays as it is, or a neutral
pair becomes the other neutral pair: always for π⁰π⁰, by chance for π⁺π⁻. The cross section is positive. -/
theorem C141_channel {T : Tables} {a b : Mes} {r : ℝ} {out : List Mes} {x : ℝ}
    (h : bremsChannel T [a, b] r = some (out, x)) :
    0 < x ∧ (out.map Mes.charge).sum = a.charge + b.charge ∧ out.length = 2 ∧ (∀ m ∈ out, m.Pion) ∧
    (out = [a, b] ∧ [a, b] ≠ [.piZ, .piZ] ∨ out = [.piZ, .piZ] ∧ a ≠ .piZ ∨
      out = [.piP, .piM] ∧ [a, b] = [.piZ, .piZ]) := by
  have p : ∀ y, 0 < positive y := by
    intro y
    unfold positive
    split_ifs with hy
    · norm_num [reallySmall]
    · exact not_le.1 hy
  unfold bremsChannel at h
  cases a <;> cases b <;> simp only [bremsReaction] at h <;>
    first
    | (cases h; refine ⟨p _, ?_, rfl, ?_, ?_⟩ <;> simp [Mes.charge, Mes.Pion]; done)
    | (cases h; done)
    | (split_ifs at h <;> cases h <;> refine ⟨p _, ?_, rfl, ?_, ?_⟩ <;> simp [Mes.charge, Mes.Pion])

/-! ### Momenta -/

/-- The photon energies drawn leave enough energy for two pions of the same mass. -/
theorem C141_energies {E m r : ℝ} (hm : 0 < m) (hE : 2 * m ≤ E) (h0 : 0 ≤ r) (h1 : r ≤ 1) :
    let k := (drawK E m m r).1
    0 ≤ k ∧ k < E ∧ 2 * m ≤ E - k ∧ k ≤ max 0 ((E ^ 2 - (2 * m) ^ 2) / (2 * E)) ∧
    ((drawK E m m r).2 ≠ 0 → 1 / 1000 ≤ k) := by
  intro k
  have e : kMax E m m = (E ^ 2 - (2 * m) ^ 2) / (2 * E) := by unfold kMax; ring
  have hE0 : 0 < E := by linarith
  have top : kMax E m m ≤ E - 2 * m := by
    rw [e, div_le_iff₀ (by positivity)]
    nlinarith [sq_nonneg (E - 2 * m)]
  have km : (0 : ℝ) < kMin := by norm_num [kMin]
  simp only [k]
  unfold drawK
  split_ifs with hk
  · refine ⟨le_rfl, hE0, by simpa using hE, le_max_left _ _, fun h => absurd rfl h⟩
  · rw [not_lt] at hk
    have a1 : 0 ≤ (kMax E m m - kMin) * r := mul_nonneg hk h0
    have a2 : (kMax E m m - kMin) * r ≤ kMax E m m - kMin := by nlinarith
    refine ⟨by simp only; linarith, by simp only; linarith, by simp only; linarith, ?_, fun _ => ?_⟩
    · simp only
      rw [← e]
      exact le_trans (by linarith) (le_max_right _ _)
    · simp only
      have : kMin = 1 / 1000 := rfl
      linarith

/-- **C141.** For pions of different masses the limit is wrong: an energy can be drawn that is not left. -/
theorem C141_energies_false : ∃ E m0 m1 r : ℝ, 0 < m0 ∧ 0 < m1 ∧ m0 + m1 < E ∧ 0 ≤ r ∧ r ≤ 1 ∧
    E - (drawK E m0 m1 r).1 < m0 + m1 := by
  refine ⟨4, 1, 5 / 2, 1, by norm_num, by norm_num, by norm_num, by norm_num, le_rfl, ?_⟩
  unfold drawK kMax kMin
  norm_num

/-- **C141.** Pions and photon are on their mass shells and their momenta add up to zero in the centre of mass, their
energies to E. -/
theorem C141_momenta {E ma mb k : ℝ} (ha : 0 ≤ ma) (hb : 0 ≤ mb) (hk : 0 ≤ k) (hE : ma + mb ≤ E - k) (hp : 0 < E - k)
    {u v : V3} (hu : Unit3 u) (hv : Unit3 v) :
    let f := bremsFinal E ma mb 0 k u v
    HasMass f.1 ma ∧ HasMass f.2.1 mb ∧ HasMass f.2.2 0 ∧ (f.1.add f.2.1).add f.2.2 = ⟨E, 0, 0, 0⟩ ∧
    f.2.2.t = k - k ^ 2 / (2 * E) ∧ HasMass (f.1.add f.2.1) (E - k) := by
  intro f
  have e0 : E - 0 - k = E - k := by ring
  have hE0 : 0 < E := by linarith
  obtain ⟨c1, c2, c3⟩ := pair_boost (pcm := pCM E (E - k) 0) ha hb hp hE hu hv
  obtain ⟨a1, a2, a3⟩ := C34_two_body (E - k) 0 E u.neg hp.le le_rfl hE0 (by linarith) (unit_neg hu)
  have hf : f = bremsFinal E ma mb 0 k u v := rfl
  simp only [bremsFinal, e0] at hf
  have hg : f.2.2 = (sampleAngles (E - k) 0 E u.neg).2 := by
    rw [hf]
    simp only [sampleAngles]
    rw [neg_neg3]
  have hd : (sampleAngles (E - k) 0 E u.neg).1 = f.1.add f.2.1 := by
    rw [hf]
    simp only
    rw [c3]
    simp only [sampleAngles, onShell]
    rw [smul_neg3]
    congr 2
    unfold Unit3 at hu
    unfold V3.dot V3.smul V3.neg
    simp only
    linear_combination (pCM E (E - k) 0) ^ 2 * hu
  rw [hd, ← hg] at a3
  rw [← hg] at a2
  rw [hd] at a1
  refine ⟨by rw [hf]; exact c1, by rw [hf]; exact c2, a2, a3, ?_, a1⟩
  have hq : f.2.2.t = pCM E (E - k) 0 := by
    rw [hf]
    simp only [onShell, V4.mk']
    rw [Real.sqrt_eq_iff_mul_self_eq _ (pCM_sq hp.le le_rfl hE0 (by linarith)).2]
    · unfold Unit3 at hu
      unfold V3.dot V3.smul
      simp only
      linear_combination (pCM E (E - k) 0) ^ 2 * hu
    · unfold V3.dot
      nlinarith [mul_self_nonneg (u.smul (pCM E (E - k) 0)).x, mul_self_nonneg (u.smul (pCM E (E - k) 0)).y,
          mul_self_nonneg (u.smul (pCM E (E - k) 0)).z]
  rw [hq]
  rcases hk.eq_or_lt with rfl | hk
  · have := (pCM_sq hp.le le_rfl hE0 (by linarith : E - 0 + 0 ≤ E)).1
    have z : pCMsqrS (E * E) (E - 0) 0 = 0 := by unfold pCMsqrS; field_simp; ring
    rw [z] at this
    rw [pow_eq_zero_iff two_ne_zero] at this
    rw [this]; ring
  · rw [(cos_eq le_rfl le_rfl hp.le hE0 (by linarith) (by linarith : E - k < E) 0).2.2.1]
    field_simp
    ring

/-- **C141.** So the photon does not have the energy k it was drawn with, and for which its weight is computed, but
less: k is taken as the difference of the invariant masses. -/
theorem C141_photon_energy_false {E ma mb k : ℝ} (ha : 0 ≤ ma) (hb : 0 ≤ mb) (hk : 0 < k) (hE : ma + mb ≤ E - k)
    (hp : 0 < E - k) {u v : V3} (hu : Unit3 u) (hv : Unit3 v) : (bremsFinal E ma mb 0 k u v).2.2.t < k := by
  rw [(C141_momenta ha hb hk.le hE hp hu hv).2.2.2.2.1]
  have hE0 : 0 < E := by linarith
  have : 0 < k ^ 2 / (2 * E) := by positivity
  linarith

/-- The hypotheses hold for pions of mass 1 and energy 4. -/
example : (0 : ℝ) ≤ 1 ∧ (0 : ℝ) < 1 / 2 ∧ (1 : ℝ) + 1 ≤ 4 - 1 / 2 ∧ Unit3 ⟨0, 0, 1⟩ := by
  unfold Unit3; norm_num

/-! ### Weights -/

/-- Cauchy-Schwarz for the mean of a root. -/
theorem mean_sqrt {g : ℝ → ℝ} (hg : Continuous g) (h0 : ∀ r, 0 ≤ g r) :
    (∫ r in (0 : ℝ)..1, Real.sqrt (g r)) ≤ Real.sqrt (∫ r in (0 : ℝ)..1, g r) := by
  apply Real.le_sqrt_of_sq_le
  set c := ∫ r in (0 : ℝ)..1, Real.sqrt (g r)
  have hs : Continuous fun r => Real.sqrt (g r) := by fun_prop
  have nn : 0 ≤ ∫ r in (0 : ℝ)..1, (Real.sqrt (g r) - c) ^ 2 :=
    intervalIntegral.integral_nonneg zero_le_one fun r _ => sq_nonneg _
  have e : ∀ r, (Real.sqrt (g r) - c) ^ 2 = g r - 2 * c * Real.sqrt (g r) + c ^ 2 := by
    intro r
    have := Real.sq_sqrt (h0 r)
    linear_combination this
  simp only [e] at nn
  rw [intervalIntegral.integral_add, intervalIntegral.integral_sub, intervalIntegral.integral_const_mul] at nn
  · simp at nn
    change 0 ≤ _ - 2 * c * c + c ^ 2 at nn
    nlinarith
  · exact hg.intervalIntegrable _ _
  · exact (hs.const_mul _).intervalIntegrable _ _
  · exact (hg.sub (hs.const_mul _)).intervalIntegrable _ _
  · exact intervalIntegrable_const

/-- The mean over the energies and angles drawn of the sum of the weights of the n photons of a collision. -/
noncomputable def meanWeight (n : ℕ) (lo hi sigma : ℝ) (dk dth : ℝ → ℝ) : ℝ :=
  ∫ r in (0 : ℝ)..1, ∫ s in (0 : ℝ)..1,
    n * bremsWeight n (dk (lo + (hi - lo) * r)) (dth (0 + (Real.pi - 0) * s)) (hi - lo) sigma 1 1

theorem meanWeight_eq {n : ℕ} (hn : 0 < n) {lo hi sigma : ℝ} (hlo : lo ≤ hi) {dk dth : ℝ → ℝ}
    (k0 : ∀ k, 0 ≤ dk k) (t0 : ∀ t, 0 ≤ dth t) :
    meanWeight n lo hi sigma dk dth = (∫ r in (0 : ℝ)..1, Real.sqrt ((hi - lo) * dk (lo + (hi - lo) * r))) *
      (∫ s in (0 : ℝ)..1, Real.sqrt (Real.pi * dth (0 + Real.pi * s))) / sigma := by
  unfold meanWeight bremsWeight
  have hn' : (n : ℝ) ≠ 0 := by positivity
  have hpi := Real.pi_pos
  have e : ∀ r s : ℝ, n * (Real.sqrt (dth (0 + (Real.pi - 0) * s) * (Real.pi - 0) *
      (dk (lo + (hi - lo) * r) * (hi - lo))) / (n * sigma) * (1 * 1)) =
      Real.sqrt ((hi - lo) * dk (lo + (hi - lo) * r)) / sigma * Real.sqrt (Real.pi * dth (0 + Real.pi * s)) := by
    intro r s
    rw [sub_zero, Real.sqrt_mul (mul_nonneg (t0 _) hpi.le), mul_comm (dth _), mul_comm (dk _)]
    field_simp
  simp only [e]
  simp only [intervalIntegral.integral_const_mul, intervalIntegral.integral_mul_const]
  rw [intervalIntegral.integral_div]
  ring

/-- **C142.** What the weights give in the mean: at most the cross section of bremsstrahlung over the hadronic one, with
the cross section taken as the geometric mean of the integrals of the two differential ones. -/
theorem C142_mean_partial {n : ℕ} (hn : 0 < n) {lo hi sigma : ℝ} (hlo : lo ≤ hi) (hs : 0 < sigma) {dk dth : ℝ → ℝ}
    (ck : Continuous dk) (ct : Continuous dth) (k0 : ∀ k, 0 ≤ dk k) (t0 : ∀ t, 0 ≤ dth t) :
    meanWeight n lo hi sigma dk dth ≤
      Real.sqrt ((∫ k in lo..hi, dk k) * ∫ t in (0 : ℝ)..Real.pi, dth t) / sigma := by
  rw [meanWeight_eq hn hlo k0 t0]
  have hpi := Real.pi_pos
  have a := mean_sqrt (g := fun r => (hi - lo) * dk (lo + (hi - lo) * r)) (by fun_prop)
    fun r => mul_nonneg (by linarith) (k0 _)
  have b := mean_sqrt (g := fun s => Real.pi * dth (0 + Real.pi * s)) (by fun_prop)
    fun s => mul_nonneg hpi.le (t0 _)
  simp only [intervalIntegral.integral_const_mul] at a b
  have ea := intervalIntegral.smul_integral_comp_add_mul (a := 0) (b := 1) (f := dk) (hi - lo) lo
  have eb := intervalIntegral.smul_integral_comp_add_mul (a := 0) (b := 1) (f := dth) Real.pi 0
  rw [smul_eq_mul, mul_zero, mul_one, add_zero] at ea eb
  rw [add_sub_cancel] at ea
  rw [zero_add] at eb
  rw [ea] at a
  rw [eb] at b
  have i0 : 0 ≤ ∫ k in lo..hi, dk k := intervalIntegral.integral_nonneg hlo fun k _ => k0 k
  rw [Real.sqrt_mul i0]
  apply div_le_div_of_nonneg_right _ hs.le
  exact mul_le_mul a b (intervalIntegral.integral_nonneg zero_le_one fun _ _ => Real.sqrt_nonneg _) (Real.sqrt_nonneg _)

/-- **C142.** In general it is less: with differential cross sections that both integrate to the same cross section, the
mean of the weights is too small. Here dσ/dθ ∝ θ². -/
theorem C142_mean_false : ∃ (dk dth : ℝ → ℝ) (lo hi sigma : ℝ), Continuous dk ∧ Continuous dth ∧ (∀ k, 0 ≤ dk k) ∧
    (∀ t, 0 ≤ dth t) ∧ lo < hi ∧ 0 < sigma ∧ (∫ k in lo..hi, dk k) = 1 ∧ (∫ t in (0 : ℝ)..Real.pi, dth t) = 1 ∧
    ∀ n : ℕ, 0 < n → meanWeight n lo hi sigma dk dth < 1 / sigma := by
  have hpi := Real.pi_pos
  refine ⟨fun _ => 1, fun t => 3 / Real.pi ^ 3 * t ^ 2, 0, 1, 1, continuous_const, by fun_prop, fun _ => zero_le_one,
    fun t => by positivity, one_pos, one_pos, by simp, ?_, ?_⟩
  · rw [intervalIntegral.integral_const_mul, integral_pow]
    field_simp
    norm_num
    ring
  · intro n hn
    rw [meanWeight_eq hn zero_le_one (fun _ => zero_le_one) (fun t => by positivity)]
    have e : ∀ s ∈ Set.uIcc (0 : ℝ) 1, Real.sqrt (Real.pi * (3 / Real.pi ^ 3 * (0 + Real.pi * s) ^ 2)) =
        Real.sqrt 3 * s := by
      intro s hs
      rw [Set.uIcc_of_le zero_le_one] at hs
      rw [show Real.pi * (3 / Real.pi ^ 3 * (0 + Real.pi * s) ^ 2) = 3 * s ^ 2 by field_simp; ring,
        Real.sqrt_mul (by norm_num), Real.sqrt_sq hs.1]
    rw [intervalIntegral.integral_congr e, intervalIntegral.integral_const_mul, integral_id]
    simp
    have : Real.sqrt 3 < 2 := by
      rw [Real.sqrt_lt' (by norm_num)]; norm_num
    linarith

/-- **C142.** For π⁺π⁻ the two final states are drawn in proportion to their cross sections x₁, x₂. -/
theorem C142_two_channels {T : Tables} {a b : Mes} (hab : bremsReaction [a, b] = .pm) :
    let x1 := if 0 < T.opp then T.opp else 1 / 1000000
    let x2 := if 0 < T.toZero then T.toZero else 1 / 1000000
    ∀ r, (bremsChannel T [a, b] r = some ([a, b], x1) ∧ r ≤ x1 / (x1 + x2)) ∨
      (bremsChannel T [a, b] r = some ([.piZ, .piZ], x2) ∧ x1 / (x1 + x2) < r) := by
  intro x1 x2 r
  have p : ∀ y : ℝ, positive y = if 0 < y then y else 1 / 1000000 := by
    intro y
    unfold positive
    by_cases hy : 0 < y
    · rw [if_neg (not_le.2 hy), if_pos hy]
    · rw [if_pos (not_lt.1 hy), if_neg hy]; rfl
  have q : ∀ y : ℝ, 0 < (if 0 < y then y else 1 / 1000000 : ℝ) := by
    intro y
    split_ifs with h
    · exact h
    · norm_num
  have h1 := q T.opp
  have h2 := q T.toZero
  have hx : 0 < x1 + x2 := by simp only [x1, x2]; linarith
  unfold bremsChannel
  rw [hab]
  simp only [p]
  change ((if r * (x1 + x2) ≤ x1 then some ([a, b], x1) else some ([.piZ, .piZ], x2)) = _ ∧ _) ∨
    ((if r * (x1 + x2) ≤ x1 then some ([a, b], x1) else some ([.piZ, .piZ], x2)) = _ ∧ _)
  by_cases hr : r * (x1 + x2) ≤ x1
  · left
    rw [if_pos hr, le_div_iff₀ hx]
    exact ⟨rfl, hr⟩
  · right
    rw [if_neg hr, div_lt_iff₀ hx]
    exact ⟨rfl, not_le.1 hr⟩

/-- **C142.** As the final state drawn is then weighted with its own cross section, and not with the sum, the mean
cross section is (x₁² + x₂²)/(x₁ + x₂): always less than the sum. -/
theorem C142_two_channels_false {T : Tables} {a b : Mes} (hab : bremsReaction [a, b] = .pm) (ho : 0 < T.opp)
    (hz : 0 < T.toZero) {x : ℝ → ℝ} (hx : ∀ r, ∃ out, bremsChannel T [a, b] r = some (out, x r)) :
    (∫ r in (0 : ℝ)..1, x r) = (T.opp ^ 2 + T.toZero ^ 2) / (T.opp + T.toZero) ∧
    (∫ r in (0 : ℝ)..1, x r) < T.opp + T.toZero := by
  have hs : 0 < T.opp + T.toZero := by linarith
  set c := T.opp / (T.opp + T.toZero) with hc
  have c0 : 0 ≤ c := by positivity
  have c1 : c ≤ 1 := by rw [hc, div_le_one hs]; linarith
  have key : ∀ r, (r ≤ c → x r = T.opp) ∧ (c < r → x r = T.toZero) := by
    intro r
    have := C142_two_channels (T := T) hab r
    simp only [if_pos ho, if_pos hz] at this
    obtain ⟨out, hr⟩ := hx r
    rcases this with ⟨h1, h2⟩ | ⟨h1, h2⟩
    · rw [hr, Option.some.injEq, Prod.mk.injEq] at h1
      exact ⟨fun _ => h1.2, fun h => absurd h2 (not_le.2 h)⟩
    · rw [hr, Option.some.injEq, Prod.mk.injEq] at h1
      exact ⟨fun h => absurd h (not_le.2 h2), fun _ => h1.2⟩
  have i1 : IntervalIntegrable x volume 0 c :=
    (intervalIntegrable_const (c := T.opp)).congr (by
      intro r hr
      rw [Set.uIoc_of_le c0] at hr
      exact ((key r).1 hr.2).symm)
  have i2 : IntervalIntegrable x volume c 1 :=
    (intervalIntegrable_const (c := T.toZero)).congr (by
      intro r hr
      rw [Set.uIoc_of_le c1] at hr
      exact ((key r).2 hr.1).symm)
  have e : (∫ r in (0 : ℝ)..1, x r) = (T.opp ^ 2 + T.toZero ^ 2) / (T.opp + T.toZero) := by
    rw [← intervalIntegral.integral_add_adjacent_intervals i1 i2,
      intervalIntegral.integral_congr_ae (g := fun _ => T.opp),
      intervalIntegral.integral_congr_ae (a := c) (b := 1) (g := fun _ => T.toZero)]
    · simp only [intervalIntegral.integral_const, smul_eq_mul]
      rw [hc]
      field_simp
      ring
    · refine Filter.Eventually.of_forall fun r hr => ?_
      rw [Set.uIoc_of_le c1] at hr
      exact (key r).2 hr.1
    · refine Filter.Eventually.of_forall fun r hr => ?_
      rw [Set.uIoc_of_le c0] at hr
      exact (key r).1 hr.2
  refine ⟨e, ?_⟩
  rw [e, div_lt_iff₀ hs]
  nlinarith [mul_pos ho hz]

/-- π⁺π⁻ is such a pair. -/
example : bremsReaction [.piP, .piM] = .pm ∧ bremsReaction [.piM, .piP] = .pm := ⟨rfl, rfl⟩

end Verif.Em
