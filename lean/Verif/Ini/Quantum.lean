import Verif.Ini.Place
import Verif.Ini.Thermal
import Mathlib.Analysis.Calculus.Deriv.MeanValue
/-! C124: momenta from Bose and Fermi distributions. -/
namespace Verif.Ini
open Real

/-- **C124** (occupation). The distribution function is `1 / (exp((E - μ)/T) + s)`: Fermi for s = 1, Bose
for s = -1, Boltzmann for s = 0. -/
theorem C124_occupation (p m T mu s : ℝ) :
    juttner p m T mu s = 1 / (exp ((energy m p - mu) / T) + s) := by
  unfold juttner energy
  dsimp only
  rw [show p ^ 2 + m ^ 2 = p * p + m * m by ring]
  generalize √(p * p + m * m) - mu = x
  have h : exp (-x / T) = (exp (x / T))⁻¹ := by rw [neg_div, exp_neg]
  have hp := exp_pos (x / T)
  rw [h]
  generalize exp (x / T) = A at *
  rw [show 1 + s * A⁻¹ = (A + s) / A by field_simp]
  rw [div_div_eq_mul_div, inv_mul_cancel₀ hp.ne']

theorem energy_ge (m p : ℝ) (hm : 0 ≤ m) : m ≤ energy m p := by
  unfold energy
  exact le_sqrt_of_sq_le (by nlinarith [sq_nonneg p])

/-- **C124** (range and monotony). Fermi: between 0 and 1. Bose below the mass: positive. Both rise with the
chemical potential and fall with the momentum. -/
theorem C124_shape {m T : ℝ} (hm : 0 ≤ m) (hT : 0 < T) :
    (∀ p mu, 0 < juttner p m T mu 1 ∧ juttner p m T mu 1 < 1) ∧
    (∀ p mu, mu < m → 0 < juttner p m T mu (-1)) ∧
    (∀ p mu mu', mu < mu' → juttner p m T mu 1 < juttner p m T mu' 1) ∧
    (∀ p mu mu', mu < mu' → mu' < m → juttner p m T mu (-1) < juttner p m T mu' (-1)) ∧
    (∀ p q mu, 0 ≤ p → p < q → juttner q m T mu 1 < juttner p m T mu 1) ∧
    (∀ p q mu, 0 ≤ p → p < q → mu < m → juttner q m T mu (-1) < juttner p m T mu (-1)) := by
  have hgt (p mu : ℝ) (h : mu < m) : 1 < exp ((energy m p - mu) / T) := by
    rw [one_lt_exp_iff]
    exact div_pos (by linarith [energy_ge m p hm]) hT
  have hmu (p : ℝ) {mu mu' : ℝ} (h : mu < mu') : exp ((energy m p - mu') / T) < exp ((energy m p - mu) / T) := by
    rw [exp_lt_exp]
    exact div_lt_div_of_pos_right (by linarith) hT
  have hpq {p q : ℝ} (mu : ℝ) (h0 : 0 ≤ p) (h : p < q) :
      exp ((energy m p - mu) / T) < exp ((energy m q - mu) / T) := by
    rw [exp_lt_exp]
    apply div_lt_div_of_pos_right _ hT
    have : energy m p < energy m q := by
      unfold energy
      exact sqrt_lt_sqrt (by positivity) (by nlinarith)
    linarith
  refine ⟨?_, ?_, ?_, ?_, ?_, ?_⟩
  · intro p mu
    rw [C124_occupation]
    have := exp_pos ((energy m p - mu) / T)
    refine ⟨by positivity, ?_⟩
    rw [div_lt_one (by positivity)]
    linarith
  · intro p mu h
    rw [C124_occupation]
    have := hgt p mu h
    exact div_pos one_pos (by linarith)
  · intro p mu mu' h
    rw [C124_occupation, C124_occupation]
    have h1 := hmu p h
    have := exp_pos ((energy m p - mu') / T)
    exact one_div_lt_one_div_of_lt (by positivity) (by linarith)
  · intro p mu mu' h h'
    rw [C124_occupation, C124_occupation]
    have h1 := hmu p h
    have := hgt p mu' h'
    exact one_div_lt_one_div_of_lt (by linarith) (by linarith)
  · intro p q mu h0 h
    rw [C124_occupation, C124_occupation]
    have h1 := hpq mu h0 h
    have := exp_pos ((energy m p - mu) / T)
    exact one_div_lt_one_div_of_lt (by positivity) (by linarith)
  · intro p q mu h0 h h'
    rw [C124_occupation, C124_occupation]
    have h1 := hpq mu h0 h
    have := hgt p mu h'
    exact one_div_lt_one_div_of_lt (by linarith) (by linarith)

/-! ### The maximum of `p² f(p)` -/

/-- `E` times the equation for the maximum, as a function of the energy. -/
noncomputable def slope (m T mu s E : ℝ) : ℝ :=
  2 * E * (1 + s * exp (-(E - mu) / T)) - (E ^ 2 - m ^ 2) / T

theorem slope_deriv {m T mu s : ℝ} (hT : 0 < T) (E : ℝ) :
    HasDerivAt (slope m T mu s) (2 * (1 + s * exp (-(E - mu) / T)) * (1 - E / T)) E := by
  have h1 : HasDerivAt (fun E => exp (-(E - mu) / T)) (exp (-(E - mu) / T) * (-1 / T)) E := by
    have : HasDerivAt (fun E => -(E - mu) / T) (-1 / T) E := ((hasDerivAt_id E).sub_const mu).neg.div_const T
    exact this.exp
  have h2 : HasDerivAt (fun E : ℝ => 2 * E) 2 E := by
    simpa using (hasDerivAt_id E).const_mul (2 : ℝ)
  have h3 := h2.mul ((h1.const_mul s).const_add 1)
  have h4 : HasDerivAt (fun E : ℝ => (E ^ 2 - m ^ 2) / T) (2 * E / T) E := by
    have := (((hasDerivAt_id E).pow 2).sub_const (m ^ 2)).div_const T
    refine this.congr_deriv ?_
    simp
  refine (h3.sub h4).congr_deriv ?_
  generalize exp (-(E - mu) / T) = B
  field_simp
  ring

/-- The distribution function is that of a gas: occupation numbers are positive above the threshold. -/
def Gas (m T mu s : ℝ) : Prop := ∀ E, m < E → 0 < 1 + s * exp (-(E - mu) / T)

theorem slope_sign {m T mu s : ℝ} (hT : 0 < T) (hm : 0 ≤ m) (hg : Gas m T mu s) {F : ℝ} (hF : m < F)
    (hroot : slope m T mu s F = 0) :
    T < F ∧ (∀ E, m < E → E ≤ F → 0 ≤ slope m T mu s E) ∧ (∀ E, F < E → slope m T mu s E < 0) := by
  have hcont : Continuous (slope m T mu s) :=
    continuous_iff_continuousAt.2 fun E => (slope_deriv hT E).continuousAt
  have hm0 : 0 ≤ slope m T mu s m := by
    have h1 : 0 ≤ 1 + s * exp (-(m - mu) / T) := by
      have hc : ContinuousWithinAt (fun E => 1 + s * exp (-(E - mu) / T)) (Set.Ioi m) m := by
        apply Continuous.continuousWithinAt
        fun_prop
      exact ge_of_tendsto hc (eventually_nhdsWithin_of_forall fun E hE => (hg E hE).le)
    unfold slope
    have : 2 * m * (1 + s * exp (-(m - mu) / T)) - (m ^ 2 - m ^ 2) / T =
      2 * m * (1 + s * exp (-(m - mu) / T)) := by ring
    rw [this]
    positivity
  have up : StrictMonoOn (slope m T mu s) (Set.Icc m T) := by
    apply strictMonoOn_of_deriv_pos (convex_Icc m T) hcont.continuousOn
    intro E hE
    rw [interior_Icc] at hE
    rw [(slope_deriv hT E).deriv]
    have := hg E hE.1
    have h2 : E / T < 1 := (div_lt_one hT).2 hE.2
    apply mul_pos (by linarith) (by linarith)
  have down : StrictAntiOn (slope m T mu s) (Set.Ici (max m T)) := by
    apply strictAntiOn_of_deriv_neg (convex_Ici _) hcont.continuousOn
    intro E hE
    rw [interior_Ici] at hE
    have hE' : max m T < E := hE
    rw [(slope_deriv hT E).deriv]
    have := hg E (lt_of_le_of_lt (le_max_left _ _) hE')
    have h2 : 1 < E / T := (one_lt_div hT).2 (lt_of_le_of_lt (le_max_right _ _) hE')
    have h3 : 0 < 2 * (1 + s * exp (-(E - mu) / T)) := by linarith
    nlinarith
  have hTF : T < F := by
    by_contra hc
    have hFT := not_lt.1 hc
    have := up ⟨le_rfl, hF.le.trans hFT⟩ ⟨hF.le, hFT⟩ hF
    linarith
  have hFm : F ∈ Set.Ici (max m T) := max_le hF.le hTF.le
  refine ⟨hTF, ?_, ?_⟩
  · intro E h1 h2
    by_cases hE : E ≤ T
    · have := up.monotoneOn ⟨le_rfl, h1.le.trans hE⟩ ⟨h1.le, hE⟩ h1.le
      linarith
    · have hE' : E ∈ Set.Ici (max m T) := max_le h1.le (not_le.1 hE).le
      have := down.antitoneOn hE' hFm h2
      linarith
  · intro E h1
    have hE' : E ∈ Set.Ici (max m T) := le_trans hFm h1.le
    have := down hFm hE' h1
    linarith

/-- `p² f(p)` as a function of the energy. -/
noncomputable def weightE (m T mu s E : ℝ) : ℝ := (E ^ 2 - m ^ 2) / (exp ((E - mu) / T) + s)

theorem gas_pos {m T mu s E : ℝ} (hg : Gas m T mu s) (hE : m < E) : 0 < exp ((E - mu) / T) + s := by
  have h := hg E hE
  have h2 : exp (-(E - mu) / T) = (exp ((E - mu) / T))⁻¹ := by rw [neg_div, exp_neg]
  rw [h2] at h
  have hp := exp_pos ((E - mu) / T)
  have : exp ((E - mu) / T) + s = exp ((E - mu) / T) * (1 + s * (exp ((E - mu) / T))⁻¹) := by
    field_simp
  rw [this]
  exact mul_pos hp h

theorem weight_deriv {m T mu s E : ℝ} (hT : 0 < T) (hg : Gas m T mu s) (hE : m < E) :
    HasDerivAt (weightE m T mu s)
      (exp ((E - mu) / T) / (exp ((E - mu) / T) + s) ^ 2 * slope m T mu s E) E := by
  have hne := (gas_pos hg hE).ne'
  have h1 : HasDerivAt (fun E => exp ((E - mu) / T) + s) (exp ((E - mu) / T) * (1 / T)) E := by
    have : HasDerivAt (fun E => (E - mu) / T) (1 / T) E := ((hasDerivAt_id E).sub_const mu).div_const T
    exact this.exp.add_const s
  have h2 : HasDerivAt (fun E : ℝ => E ^ 2 - m ^ 2) (2 * E) E := by
    have := ((hasDerivAt_id E).pow 2).sub_const (m ^ 2)
    refine this.congr_deriv ?_
    simp
  refine (h2.div h1 hne).congr_deriv ?_
  unfold slope
  have h3 : exp (-(E - mu) / T) = (exp ((E - mu) / T))⁻¹ := by rw [neg_div, exp_neg]
  have hp := exp_pos ((E - mu) / T)
  rw [h3]
  generalize exp ((E - mu) / T) = A at *
  field_simp

theorem weight_eq (m T mu s p : ℝ) : p * p * juttner p m T mu s = weightE m T mu s (energy m p) := by
  rw [C124_occupation]
  unfold weightE
  have : energy m p ^ 2 = p ^ 2 + m ^ 2 := sq_sqrt (by positivity)
  rw [this]
  ring

/-- **C124** (maximum). A momentum which solves the equation of the root finder is the only maximum of
`p² f(p)`: the bound of the loop is right, for Bose, Boltzmann and Fermi distributions. -/
theorem C124_maximum {m T mu s q : ℝ} (hT : 0 < T) (hm : 0 ≤ m) (hg : Gas m T mu s) (hq : 0 < q)
    (hroot : pMaxEquation q m T mu s = 0) :
    (∀ p, 0 ≤ p → p * p * juttner p m T mu s ≤ distrMax q m T mu s) ∧
    (∀ p, 0 < p → p ≠ q → pMaxEquation p m T mu s ≠ 0) ∧ 0 < distrMax q m T mu s := by
  have hen (p : ℝ) (hp : 0 < p) : m < energy m p := by
    unfold energy
    exact lt_sqrt_of_sq_lt (by nlinarith [pow_pos hp 2])
  have hsq (p : ℝ) : energy m p ^ 2 = p ^ 2 + m ^ 2 := sq_sqrt (by positivity)
  have heq (p : ℝ) (hp : 0 < p) : slope m T mu s (energy m p) = energy m p * pMaxEquation p m T mu s := by
    have h0 : 0 < energy m p := lt_of_le_of_lt hm (hen p hp)
    unfold slope pMaxEquation
    have : √(p * p + m * m) = energy m p := by
      unfold energy; congr 1; ring
    dsimp only
    rw [this, hsq p]
    generalize exp (-(energy m p - mu) / T) = B
    generalize energy m p = E at *
    field_simp
    ring
  have hF := hen q hq
  have hr : slope m T mu s (energy m q) = 0 := by rw [heq q hq, hroot, mul_zero]
  obtain ⟨hTF, hpos, hneg⟩ := slope_sign hT hm hg hF hr
  have hmono (p p' : ℝ) (h0 : 0 ≤ p) (h : p < p') : energy m p < energy m p' := by
    unfold energy
    exact sqrt_lt_sqrt (by positivity) (by nlinarith)
  have hfac (E : ℝ) (hE : m < E) : 0 ≤ exp ((E - mu) / T) / (exp ((E - mu) / T) + s) ^ 2 := by
    positivity
  have hw0 : 0 < distrMax q m T mu s := by
    unfold distrMax
    rw [weight_eq]
    unfold weightE
    apply div_pos _ (gas_pos hg hF)
    rw [hsq]
    have := pow_pos hq 2
    linarith
  refine ⟨?_, ?_, hw0⟩
  · intro p hp
    rcases hp.eq_or_lt with rfl | hp
    · rw [zero_mul, zero_mul]
      exact hw0.le
    · unfold distrMax
      rw [weight_eq, weight_eq]
      have hE := hen p hp
      rcases le_total (energy m p) (energy m q) with h | h
      · have : MonotoneOn (weightE m T mu s) (Set.Icc (energy m p) (energy m q)) := by
          apply monotoneOn_of_deriv_nonneg (convex_Icc _ _)
          · intro E hE'
            exact (weight_deriv hT hg (lt_of_lt_of_le hE hE'.1)).continuousAt.continuousWithinAt
          · intro E hE'
            rw [interior_Icc] at hE'
            exact (weight_deriv hT hg (hE.trans hE'.1)).differentiableAt.differentiableWithinAt
          · intro E hE'
            rw [interior_Icc] at hE'
            have hmE := hE.trans hE'.1
            rw [(weight_deriv hT hg hmE).deriv]
            exact mul_nonneg (hfac E hmE) (hpos E hmE hE'.2.le)
        exact this ⟨le_rfl, h⟩ ⟨h, le_rfl⟩ h
      · have : AntitoneOn (weightE m T mu s) (Set.Icc (energy m q) (energy m p)) := by
          apply antitoneOn_of_deriv_nonpos (convex_Icc _ _)
          · intro E hE'
            exact (weight_deriv hT hg (lt_of_lt_of_le hF hE'.1)).continuousAt.continuousWithinAt
          · intro E hE'
            rw [interior_Icc] at hE'
            exact (weight_deriv hT hg (hF.trans hE'.1)).differentiableAt.differentiableWithinAt
          · intro E hE'
            rw [interior_Icc] at hE'
            have hmE := hF.trans hE'.1
            rw [(weight_deriv hT hg hmE).deriv]
            exact mul_nonpos_of_nonneg_of_nonpos (hfac E hmE) (hneg E hE'.1).le
        exact this ⟨le_rfl, h⟩ ⟨h, le_rfl⟩ h
  · intro p hp hne h0
    have h1 : slope m T mu s (energy m p) = 0 := by rw [heq p hp, h0, mul_zero]
    rcases lt_or_gt_of_ne hne with h | h
    · have := (slope_sign hT hm hg (hen p hp) h1).2.2 _ (hmono p q hp.le h)
      linarith
    · have := hneg _ (hmono q p hq.le h)
      linarith

/-- Fermi and Boltzmann gases always, Bose gases with a chemical potential up to the mass. -/
theorem C124_gas {m T mu : ℝ} (hT : 0 < T) : Gas m T mu 1 ∧ Gas m T mu 0 ∧ (mu ≤ m → Gas m T mu (-1)) := by
  refine ⟨?_, ?_, ?_⟩
  · intro E _
    have := exp_pos (-(E - mu) / T)
    linarith
  · intro E _
    norm_num
  · intro h E hE
    have : exp (-(E - mu) / T) < 1 := by
      rw [exp_lt_one_iff]
      exact div_neg_of_neg_of_pos (by linarith) hT
    linarith

/-! ### Sampling -/

/-- **C124** (sampling). A momentum is drawn uniformly from [0, 10) GeV and accepted with probability
`p² f(p) / max`, where `f` is the Bose distribution for integer and the Fermi distribution for half-integer
spin; the first accepted one is returned. If the maximum is 0 everything is accepted. -/
theorem C124_sample {table : Nat → Option Solved} {mass : Nat → ℝ} {spin : Nat → Nat} {T : ℝ} {pdg : Nat}
    {q : Solved} (hq : table pdg = some q) (r : List (ℝ × ℝ)) (p : ℝ) :
    let s : ℝ := if spin pdg % 2 = 0 then -1 else 1
    let w := fun p => p ^ 2 / (exp ((energy (mass pdg) p - q.mu) / T) + s)
    quantumSample table mass spin T pdg r = .ok p ↔ ∃ pre u c post, r = pre ++ (u, c) :: post ∧ p = 10 * u ∧
      (w q.pmax = 0 ∨ c ≤ w p / w q.pmax) ∧ ∀ e ∈ pre, w q.pmax ≠ 0 ∧ w (10 * e.1) / w q.pmax < e.2 := by
  intro s w
  have hw (x : ℝ) : x * x * juttner x (mass pdg) T q.mu (statistics (spin pdg)) = w x := by
    rw [C124_occupation]
    show _ = x ^ 2 / (exp ((energy (mass pdg) x - q.mu) / T) + s)
    unfold statistics
    rw [show (if spin pdg % 2 = 0 then (-1 : ℝ) else 1) = s from rfl]
    ring
  have hu (u : ℝ) : Rand.uniform 0 10 u = 10 * u := by unfold Rand.uniform; ring
  unfold quantumSample
  rw [hq]
  dsimp only
  have htop : distrMax q.pmax (mass pdg) T q.mu (statistics (spin pdg)) = w q.pmax := by
    unfold distrMax
    exact hw _
  rw [htop]
  generalize w q.pmax = top
  clear_value w
  induction r with
  | nil =>
    simp only [quantumLoop, List.nil_eq, List.append_eq_nil_iff, reduceCtorEq, and_false, false_and, exists_false]
  | cons e l ih =>
    obtain ⟨u, c⟩ := e
    rw [quantumLoop]
    rw [hu, hw]
    by_cases h : top ≠ 0 ∧ c > w (10 * u) / top
    · rw [if_pos h]
      refine ih.trans ?_
      constructor
      · rintro ⟨pre, u', w', post, rfl, e1, e2, e3⟩
        refine ⟨(u, c) :: pre, u', w', post, rfl, e1, e2, ?_⟩
        intro e he
        rcases List.mem_cons.1 he with rfl | he
        · exact h
        · exact e3 e he
      · rintro ⟨pre, u', w', post, e0, e1, e2, e3⟩
        cases pre with
        | nil =>
          simp only [List.nil_append, List.cons.injEq, Prod.mk.injEq] at e0
          obtain ⟨⟨rfl, rfl⟩, rfl⟩ := e0
          rw [e1] at e2
          rcases e2 with e2 | e2
          · exact absurd e2 h.1
          · exact absurd h.2 (not_lt.2 e2)
        | cons a pre =>
          simp only [List.cons_append, List.cons.injEq] at e0
          obtain ⟨rfl, rfl⟩ := e0
          exact ⟨pre, u', w', post, rfl, e1, e2, fun e he => e3 e (List.mem_cons_of_mem _ he)⟩
    · rw [if_neg h]
      constructor
      · intro hx
        cases hx
        refine ⟨[], u, c, l, rfl, rfl, ?_, fun e he => absurd he List.not_mem_nil⟩
        by_cases h0 : top = 0
        · exact .inl h0
        · exact .inr (not_lt.1 fun hc => h ⟨h0, hc⟩)
      · rintro ⟨pre, u', w', post, e0, e1, e2, e3⟩
        cases pre with
        | nil =>
          simp only [List.nil_append, List.cons.injEq, Prod.mk.injEq] at e0
          obtain ⟨⟨rfl, rfl⟩, rfl⟩ := e0
          rw [e1]
        | cons a pre =>
          simp only [List.cons_append, List.cons.injEq] at e0
          obtain ⟨rfl, rfl⟩ := e0
          exact absurd (e3 _ List.mem_cons_self) h

/-- **C124** (species). Momenta can be drawn for every configured species. -/
theorem C124_species (C : Cfg) (hC : C.thermalMult = false) (pdg : Nat) (h : pdg ∈ species C) :
    ∃ q, quantumTable (initMult C) C.solve pdg = some q := by
  unfold species at h
  rw [hC] at h
  simp only [Bool.false_eq_true, if_false, List.mem_flatMap] at h
  obtain ⟨e, he, hr⟩ := h
  have := List.eq_of_mem_replicate hr
  refine ⟨C.solve pdg, ?_⟩
  unfold quantumTable initMult
  rw [hC, if_pos]
  simp only [Bool.false_eq_true, if_false, List.any_eq_true, beq_iff_eq]
  exact ⟨e, he, this.symm⟩

/-- **C124** fails with thermal multiplicities: the maps are empty then, and an end iterator is
dereferenced for the first particle, in box and sphere. -/
theorem C124_thermal_false (C : Cfg) (hT : C.thermalMult = true) (hQ : C.distr = .quantum) (d : Draw)
    (ds : List Draw) (hn : species C ≠ []) (jet : Option (Nat × ℝ)) (v0 n : ℝ) (j : Option Jet) :
    box C jet (d :: ds) = .error .missing ∧ sphere C v0 n j (d :: ds) = .error .missing := by
  have hf (pos : ℝ → Draw → Kin.V3) : fill (place pos C) (species C) (d :: ds) = .error .missing := by
    cases hs : species C with
    | nil => exact absurd hs hn
    | cons s ss =>
      rw [fill]
      have : place pos C s d = .error .missing := by
        unfold place radial
        rw [hQ]
        dsimp only
        unfold quantumSample quantumTable initMult
        rw [hT]
        rfl
      rw [this]
      rfl
  constructor
  · unfold box
    rw [hf]
    rfl
  · unfold sphere
    rw [hf]
    rfl

/-- Box of thermal multiplicity with one drawn pion: the hypotheses are met. -/
example : ∃ C : Cfg, C.thermalMult = true ∧ C.distr = .quantum ∧ species C = [0x111] :=
  ⟨{ sampleBox with thermalMult := true, distr := .quantum, drawn := [(0x111, 1)] }, rfl, rfl, rfl⟩

/-- Massless Boltzmann gas: the maximum of `p² exp(-p/T)` is at 2T. -/
example : ∀ p, 0 ≤ p → p * p * juttner p 0 1 0 0 ≤ distrMax 2 0 1 0 0 :=
  (C124_maximum one_pos le_rfl (C124_gas (m := 0) (mu := 0) one_pos).2.1 two_pos (by
    unfold pMaxEquation
    rw [show (2 : ℝ) * 2 + 0 * 0 = 2 ^ 2 by norm_num, sqrt_sq (by norm_num)]
    norm_num)).1

end Verif.Ini
