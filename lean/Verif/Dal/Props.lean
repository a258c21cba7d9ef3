import Mathlib.Tactic.Linarith
import Mathlib.Tactic.NormNum
import Mathlib.Tactic.FieldSimp
import Mathlib.Tactic.Ring
import Mathlib.Tactic.Positivity
import Verif.Dal.Model
/-!
C187: spectra of lepton pairs from Dalitz decays.
-/
namespace Verif.Dal

/-- **C187**, closed channel: nothing is emitted if the pair and the other particle are heavier than the mother. -/
theorem C187_closed (t : Mother) (M ml q mo g f : ℝ) (h : M < q + mo) : diffWidth t M ml q mo g f = .val 0 := by
  unfold diffWidth; rw [if_pos h]

/-- **C187**, phase space of vector mesons: the radicand is the product of the two kinematic factors, so it is the momentum of the pair in the rest frame of the
mother up to a factor. -/
theorem C187_radicand (M q mo : ℝ) (h : 0 ≤ mo) (hM : mo < M) :
    vecRad M q mo * (M ^ 2 - mo ^ 2) ^ 2 = ((M + mo) ^ 2 - q ^ 2) * ((M - mo) ^ 2 - q ^ 2) := by
  have hn : M * M - mo * mo ≠ 0 := by nlinarith
  unfold vecRad
  simp only
  have : M ^ 2 - mo ^ 2 = M * M - mo * mo := by ring
  rw [this]
  have key : ∀ n : ℝ, n ≠ 0 → ((1 + q * q / n) ^ 2 - 4 * (M * M) * (q * q) / (n * n)) * n ^ 2 = (n + q * q) ^ 2 - 4 * (M * M) * (q * q) := by
    intro n hn; field_simp
  rw [key _ hn]
  ring

theorem factors {M q mo : ℝ} (hq : 0 ≤ q) (ho : 0 ≤ mo) (h : q + mo ≤ M) :
    0 ≤ (M + mo) * (M + mo) - q * q ∧ 0 ≤ (M - mo) * (M - mo) - q * q := by
  constructor <;> nlinarith

theorem vecRad_nonneg {M q mo : ℝ} (hq : 0 < q) (ho : 0 ≤ mo) (h : q + mo ≤ M) : 0 ≤ vecRad M q mo := by
  have hM : mo < M := by linarith
  have hr := C187_radicand M q mo ho hM
  obtain ⟨f1, f2⟩ := factors hq.le ho h
  have hp : 0 < (M ^ 2 - mo ^ 2) ^ 2 := by
    have : 0 < M ^ 2 - mo ^ 2 := by nlinarith
    positivity
  by_contra hn
  have h1 : vecRad M q mo * (M ^ 2 - mo ^ 2) ^ 2 < 0 := mul_neg_of_neg_of_pos (not_le.1 hn) hp
  have h2 : 0 ≤ ((M + mo) ^ 2 - q ^ 2) * ((M - mo) ^ 2 - q ^ 2) := by
    apply mul_nonneg <;> nlinarith
  linarith

theorem guard_ok {rad : ℝ} (h : 0 ≤ rad) (k : Res) : guard rad k = k := by
  unfold guard; rw [if_neg (not_lt.2 h)]

theorem root_nonneg {ml q : ℝ} (hl : 0 ≤ ml) (hq : 0 < q) : 0 ≤ rootArg ml q ↔ 2 * ml ≤ q := by
  unfold rootArg
  have hp : 0 < q * q := by positivity
  rw [sub_nonneg, div_le_one hp]
  constructor
  · intro h; nlinarith
  · intro h; nlinarith

theorem phase_ok {ml q x : ℝ} (hl : 0 ≤ ml) (hq : 0 < q) (h : 2 * ml ≤ q) (hx : 0 ≤ x) : ∃ w, withPhaseSpace ml q x = .val w ∧ 0 ≤ w := by
  unfold withPhaseSpace
  rw [if_neg (not_lt.2 ((root_nonneg hl hq).2 h))]
  exact ⟨_, rfl, by positivity⟩

theorem alpha_pos : 0 < alpha := by unfold alpha; norm_num

theorem gammaVi_nonneg {M q mo s d f : ℝ} (hM : 0 ≤ M) (hf : 0 ≤ f) : 0 ≤ gammaVi M q mo s d f := by
  have := alpha_pos
  unfold gammaVi
  have h1 : alpha / 16 * s * s / (M * M * M * (mo * mo)) = alpha / 16 * (s * s) / (M * M * M * (mo * mo)) := by ring
  rw [h1]
  have h2 : 0 ≤ s * s := mul_self_nonneg s
  have h3 : 0 ≤ mo * mo := mul_self_nonneg mo
  positivity

/-- **C187**, in the kinematic range: for a pair above the mass of two leptons and a mother that can decay, the spectrum of every supported mother is a number and not
negative; no assertion fails. -/
theorem C187_nonneg (t : Mother) (M ml q mo g f : ℝ) (ht : t ≠ .unsupported) (hl : 0 < ml) (hq : 2 * ml ≤ q) (ho : 0 ≤ mo) (hM : q + mo ≤ M)
    (hg : 0 ≤ g) (hf : 0 ≤ f) : ∃ w, diffWidth t M ml q mo g f = .val w ∧ 0 ≤ w := by
  have hq0 : 0 < q := by linarith
  have hM0 : 0 < M := by linarith
  have ha := alpha_pos
  have hpi := Real.pi_pos
  obtain ⟨f1, f2⟩ := factors hq0.le ho hM
  unfold diffWidth
  rw [if_neg (not_lt.2 hM)]
  cases t with
  | pseudoscalar =>
    refine phase_ok hl.le hq0 hq ?_
    have h1 : 0 ≤ 1 - q / M * q / M := by
      have : q / M * q / M = (q / M) ^ 2 := by ring
      rw [this]
      have h1 : q / M ≤ 1 := by rw [div_le_one hM0]; linarith
      have h2 : 0 ≤ q / M := by positivity
      nlinarith
    positivity
  | vector =>
    have hr := vecRad_nonneg hq0 ho hM
    simp only
    rw [guard_ok hr]
    refine phase_ok hl.le hq0 hq ?_
    positivity
  | delta =>
    simp only
    rw [guard_ok f1, guard_ok f2]
    refine phase_ok hl.le hq0 hq ?_
    have := gammaVi_nonneg (q := q) (mo := mo) (s := M + mo) (d := M - mo) hM0.le hf
    positivity
  | n1520 =>
    simp only
    rw [guard_ok f2, guard_ok f1]
    refine phase_ok hl.le hq0 hq ?_
    have := gammaVi_nonneg (q := q) (mo := mo) (s := M - mo) (d := M + mo) (f := 108 / 100) hM0.le (by norm_num)
    positivity
  | unsupported => exact absurd rfl ht

/-- **C187**, end of the spectrum: it vanishes where the pair takes all available energy; for pseudoscalar mesons the other particle is a photon. -/
theorem C187_end (t : Mother) (M ml q mo g f : ℝ) (ht : t ≠ .unsupported) (hl : 0 < ml) (hq : 2 * ml ≤ q) (ho : 0 ≤ mo) (hM : M = q + mo)
    (hp : t = .pseudoscalar → mo = 0) : diffWidth t M ml q mo g f = .val 0 := by
  have hq0 : 0 < q := by linarith
  have hM0 : 0 < M := by linarith
  have hph : ∀ x, x = 0 → withPhaseSpace ml q x = .val 0 := by
    intro x hx
    unfold withPhaseSpace
    rw [if_neg (not_lt.2 ((root_nonneg hl.le hq0).2 hq)), hx, zero_mul]
  obtain ⟨f1, f2⟩ := factors hq0.le ho hM.symm.le
  have hz : (M - mo) * (M - mo) - q * q = 0 := by rw [hM]; ring
  unfold diffWidth
  rw [if_neg (by rw [hM]; exact lt_irrefl _)]
  cases t with
  | pseudoscalar =>
    refine hph _ ?_
    have h0 := hp rfl
    have : M = q := by rw [hM, h0, add_zero]
    rw [this, div_self hq0.ne', one_mul, div_self hq0.ne']; simp
  | vector =>
    have hr : vecRad M q mo = 0 := by
      have hlt : mo < M := by linarith
      have h := C187_radicand M q mo ho hlt
      have h2 : (M - mo) ^ 2 - q ^ 2 = 0 := by rw [hM]; ring
      rw [h2, mul_zero] at h
      rcases mul_eq_zero.1 h with h | h
      · exact h
      · have : 0 < M ^ 2 - mo ^ 2 := by nlinarith
        have : 0 < (M ^ 2 - mo ^ 2) ^ 2 := by positivity
        linarith
    simp only
    rw [guard_ok hr.ge, hr, Real.zero_rpow (by norm_num)]
    exact hph _ (by simp)
  | delta =>
    simp only
    rw [guard_ok f1, guard_ok f2]
    exact hph _ (by unfold gammaVi; rw [hz]; simp)
  | n1520 =>
    simp only
    rw [guard_ok f2, guard_ok f1]
    exact hph _ (by unfold gammaVi; rw [hz]; simp)
  | unsupported => exact absurd rfl ht

/-- **C187**, unsupported mothers: an exception, but only if the channel is open. -/
theorem C187_unsupported (M ml q mo g f : ℝ) : diffWidth .unsupported M ml q mo g f = (if M < q + mo then .val 0 else .throw) := by
  unfold diffWidth; rfl

/-- **C187**, values: the published formulas in the kinematic range (Landsberg 1985, (3.8) and (3.4); Krivoruchenko 2001), with the width of the decay of the
virtual photon into leptons. -/
theorem C187_values (M ml q mo g f : ℝ) (hl : 0 < ml) (hq : 2 * ml ≤ q) (ho : 0 < mo) (hM : q + mo ≤ M) :
    let lep := √(1 - 4 * ml ^ 2 / q ^ 2) * (1 + 2 * ml ^ 2 / q ^ 2)
    diffWidth .pseudoscalar M ml q mo g f = .val (4 * alpha / (3 * Real.pi) * g / q * (1 - q ^ 2 / M ^ 2) ^ 3 * f * lep) ∧
    diffWidth .vector M ml q mo g f = .val (2 * alpha / (3 * Real.pi) * g / q *
      ((1 + q ^ 2 / (M ^ 2 - mo ^ 2)) ^ 2 - 4 * M ^ 2 * q ^ 2 / (M ^ 2 - mo ^ 2) ^ 2) ^ ((3 : ℝ) / 2) * f * lep) ∧
    diffWidth .delta M ml q mo g f = .val (2 * alpha / (3 * Real.pi) * (alpha / 16 * (M + mo) ^ 2 / (M ^ 3 * mo ^ 2) *
      √((M + mo) ^ 2 - q ^ 2) * √((M - mo) ^ 2 - q ^ 2) ^ 3 * f) / q * lep) ∧
    diffWidth .n1520 M ml q mo g f = .val (2 * alpha / (3 * Real.pi) * (alpha / 16 * (M - mo) ^ 2 / (M ^ 3 * mo ^ 2) *
      √((M - mo) ^ 2 - q ^ 2) * √((M + mo) ^ 2 - q ^ 2) ^ 3 * (27 / 25)) / q * lep) := by
  have hq0 : 0 < q := by linarith
  obtain ⟨f1, f2⟩ := factors hq0.le ho.le hM
  have hr := vecRad_nonneg hq0 ho.le hM
  have hw : ∀ x, withPhaseSpace ml q x = .val (x * (√(1 - 4 * ml ^ 2 / q ^ 2) * (1 + 2 * ml ^ 2 / q ^ 2))) := by
    intro x
    unfold withPhaseSpace
    rw [if_neg (not_lt.2 ((root_nonneg hl.le hq0).2 hq))]
    unfold rootArg
    rw [pow_two, pow_two]
  have hn : ¬ M < q + mo := not_lt.2 hM
  refine ⟨?_, ?_, ?_, ?_⟩
  · unfold diffWidth
    rw [if_neg hn]
    simp only
    rw [hw]
    have : q / M * q / M = q ^ 2 / M ^ 2 := by ring
    rw [this]
  · unfold diffWidth
    rw [if_neg hn]
    simp only
    rw [guard_ok hr, hw]
    have : vecRad M q mo = (1 + q ^ 2 / (M ^ 2 - mo ^ 2)) ^ 2 - 4 * M ^ 2 * q ^ 2 / (M ^ 2 - mo ^ 2) ^ 2 := by
      unfold vecRad; simp only [pow_two]
    rw [this]
  · unfold diffWidth
    rw [if_neg hn]
    simp only
    rw [guard_ok f1, guard_ok f2, hw]
    have : gammaVi M q mo (M + mo) (M - mo) f = alpha / 16 * (M + mo) ^ 2 / (M ^ 3 * mo ^ 2) *
      √((M + mo) ^ 2 - q ^ 2) * √((M - mo) ^ 2 - q ^ 2) ^ 3 * f := by
      unfold gammaVi
      rw [pow_two (M + mo), pow_two q, pow_two (M - mo)]; ring
    rw [this]
  · unfold diffWidth
    rw [if_neg hn]
    simp only
    rw [guard_ok f2, guard_ok f1, hw]
    have : gammaVi M q mo (M - mo) (M + mo) (108 / 100) = alpha / 16 * (M - mo) ^ 2 / (M ^ 3 * mo ^ 2) *
      √((M - mo) ^ 2 - q ^ 2) * √((M + mo) ^ 2 - q ^ 2) ^ 3 * (27 / 25) := by
      unfold gammaVi
      rw [pow_two (M + mo), pow_two q, pow_two (M - mo)]; ring
    rw [this]

/-- **C187**, below two leptons: for a pair lighter than two leptons the function has no check and returns not a number in an open channel of a pseudoscalar meson; it
relies on its callers. -/
theorem C187_light_false : ∃ M ml q mo g f : ℝ, 0 < ml ∧ 0 < q ∧ q + mo ≤ M ∧ 0 ≤ g ∧ 0 ≤ f ∧ diffWidth .pseudoscalar M ml q mo g f = .nan := by
  refine ⟨1, 1 / 10, 1 / 10, 0, 1, 1, by norm_num, by norm_num, by norm_num, by norm_num, by norm_num, ?_⟩
  unfold diffWidth
  rw [if_neg (by norm_num)]
  simp only
  unfold withPhaseSpace
  rw [if_pos (by unfold rootArg; norm_num)]

/-- The hypotheses are met: `ω → π⁰ e⁺ e⁻` with a pair of 0.3 GeV. -/
example : ∃ w, diffWidth .vector 0.783 0.000511 0.3 0.138 0.0007 1.1 = .val w ∧ 0 ≤ w :=
  C187_nonneg _ _ _ _ _ _ _ (by simp) (by norm_num) (by norm_num) (by norm_num) (by norm_num) (by norm_num) (by norm_num)

end Verif.Dal
