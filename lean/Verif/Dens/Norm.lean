import Verif.Dens.Props

/-
C107: normalisation of the smearing and the rest frame density.
-/
namespace Verif.Dens
open Verif.Kin Verif.Emt Verif.Pauli
open Real

/-- Antiderivative of s² exp(-s²/2σ²). -/
noncomputable def antiSq (sig s : ℝ) : ℝ :=
  -(sig ^ 2 * s * gauss sig s) + sig ^ 3 * sqrt (2 * π) / 2 * erf (s / sqrt 2 / sig)

theorem antiSq_deriv (sig s : ℝ) (hs : 0 < sig) :
    HasDerivAt (antiSq sig) (s ^ 2 * gauss sig s) s := by
  have h1 := gauss_deriv sig s hs
  have h2 := gauss_erf sig s hs
  have h3 : HasDerivAt (fun s : ℝ => sig ^ 2 * s) (sig ^ 2) s := by
    simpa using (hasDerivAt_id s).const_mul (sig ^ 2)
  have h4 := ((h3.mul h1).neg).add (h2.const_mul (sig ^ 3 * sqrt (2 * π) / 2))
  refine HasDerivAt.congr_deriv h4 ?_
  have hp : 0 < sqrt (2 * π) := sqrt_pos.2 (by positivity)
  field_simp
  ring

theorem erf_zero : erf 0 = 0 := by simp [erf]

/-- The integral of the Gaussian over the ball of the cut-off radius, in closed form. -/
theorem ball_integral (sig a : ℝ) (hs : 0 < sig) :
    ∫ s in (0 : ℝ)..(a * sig), 4 * π * s ^ 2 * gauss sig s
      = smearingNorm (2 * sig * sig) * rcutCorrection a := by
  have hc : Continuous fun s : ℝ => 4 * π * s ^ 2 * gauss sig s := by
    unfold gauss; fun_prop
  have hd : ∀ s ∈ Set.uIcc 0 (a * sig),
      HasDerivAt (fun s => 4 * π * antiSq sig s) (4 * π * s ^ 2 * gauss sig s) s := by
    intro s _
    refine HasDerivAt.congr_deriv ((antiSq_deriv sig s hs).const_mul (4 * π)) ?_
    ring
  rw [intervalIntegral.integral_eq_sub_of_hasDerivAt hd (hc.intervalIntegrable _ _)]
  have e1 : a * sig / sqrt 2 / sig = a / sqrt 2 := by field_simp
  have e2 : gauss sig (a * sig) = exp (-(a / sqrt 2) * (a / sqrt 2)) := by
    unfold gauss
    congr 1
    have h2 : sqrt 2 * sqrt 2 = 2 := mul_self_sqrt (by norm_num)
    have h0 : sqrt 2 ≠ 0 := by positivity
    rw [show -(a / sqrt 2) * (a / sqrt 2) = -(a ^ 2) / (sqrt 2 * sqrt 2) by ring, h2]
    field_simp
  have e3 : sqrt (2 * sig * sig * π) = sqrt (2 * π) * sig := by
    rw [show 2 * sig * sig * π = 2 * π * sig ^ 2 by ring, sqrt_mul (by positivity),
      sqrt_sq hs.le]
  simp only [antiSq, smearingNorm, rcutCorrection, e1, e2, e3]
  have e4 : erf (0 / sqrt 2 / sig) = 0 := by simp [erf_zero]
  rw [e4, sqrt_mul (by norm_num : (0:ℝ) ≤ 2) π]
  have hpi : sqrt π ^ 2 = π := sq_sqrt pi_pos.le
  have hp0 : 0 < sqrt π := sqrt_pos.2 pi_pos
  have h2 : sqrt 2 ^ 2 = 2 := sq_sqrt (by norm_num)
  have h20 : 0 < sqrt 2 := by positivity
  field_simp
  rw [h2]
  ring

theorem correction_pos {a : ℝ} (h : 0 < a) : 0 < rcutCorrection a := by
  have hb := ball_integral 1 a one_pos
  have hn : 0 < smearingNorm (2 * 1 * 1) := by
    have := pi_pos
    unfold smearingNorm; positivity
  have hi : 0 < ∫ s in (0 : ℝ)..(a * 1), 4 * π * s ^ 2 * gauss 1 s := by
    apply intervalIntegral.intervalIntegral_pos_of_pos_on
    · exact (by unfold gauss; fun_prop : Continuous fun s : ℝ => 4 * π * s ^ 2 * gauss 1 s).intervalIntegrable _ _
    · intro x hx
      have h1 := hx.1
      have := pi_pos
      have : 0 < gauss 1 x := exp_pos _
      positivity
    · linarith
  rw [hb] at hi
  exact (pos_iff_pos_of_mul_pos hi).1 hn

/-- **C107 (normalisation).** For a particle at rest, the normalised smearing factor integrates to
one over the ball of the cut-off radius, divided by the numbers of test particles and ensembles;
for every width and every cut-off. -/
theorem C107_normalised (P : Params) (hs : 0 < P.sigma) (hc : 0 < P.cutoff) (hn : 0 < P.ntest)
    (he : 0 < P.nens) (m : ℝ) (hm : 0 < m) :
    ∫ s in (0 : ℝ)..P.rCut, 4 * π * s ^ 2 *
        ((smearing P ⟨s, 0, 0⟩ ⟨m, 0, 0, 0⟩ (1 / (⟨m, 0, 0, 0⟩ : V4).abs)).1 * P.normFactor)
      = 1 / ((P.ntest : ℝ) * (P.nens : ℝ)) := by
  have habs : (⟨m, 0, 0, 0⟩ : V4).abs = m := by
    simp [V4.abs, V4.sqr, V4.dot, V4.vec, V3.dot, hm.le]
  have hr : 0 < P.rCut := mul_pos hc hs
  have hval : ∀ s ∈ Set.uIcc 0 P.rCut, 4 * π * s ^ 2 *
      ((smearing P ⟨s, 0, 0⟩ ⟨m, 0, 0, 0⟩ (1 / (⟨m, 0, 0, 0⟩ : V4).abs)).1 * P.normFactor)
      = 4 * π * s ^ 2 * gauss P.sigma s * P.normFactor := by
    intro s hs'
    rw [Set.uIcc_of_le hr.le] at hs'
    have h1 : s * s ≤ P.rCut * P.rCut := mul_self_le_mul_self hs'.1 hs'.2
    have hm' : 0 < (⟨m, 0, 0, 0⟩ : V4).sqr := by
      simp only [V4.sqr, V4.dot, V4.vec, V3.dot]; nlinarith
    have hd : restDistSqr ⟨m, 0, 0, 0⟩ ⟨s, 0, 0⟩ = s ^ 2 := by
      rw [rest_eq hm' hm]
      simp only [V3.sqr, V3.dot, smul4, V4.vec]; ring
    have := (C107_smearing P hm' hm ⟨s, 0, 0⟩).1 (by rw [hd]; nlinarith)
    rw [this, hd, habs, div_self hm.ne']
    simp only [gauss]
    ring
  rw [intervalIntegral.integral_congr hval, intervalIntegral.integral_mul_const]
  have hb := ball_integral P.sigma P.cutoff hs
  rw [Params.rCut, hb]
  have h1 : 0 < smearingNorm (2 * P.sigma * P.sigma) := by
    have := pi_pos
    unfold smearingNorm; positivity
  have h2 := correction_pos hc
  have h3 : (0 : ℝ) < P.ntest := by exact_mod_cast hn
  have h4 : (0 : ℝ) < P.nens := by exact_mod_cast he
  simp only [Params.normFactor]
  generalize smearingNorm (2 * P.sigma * P.sigma) = N at h1
  field_simp

theorem norm_pos (P : Params) (hs : 0 < P.sigma) (hc : 0 < P.cutoff) (hn : 0 < P.ntest)
    (he : 0 < P.nens) : 0 < P.normFactor := by
  have h1 : 0 < smearingNorm (2 * P.sigma * P.sigma) := by
    have := pi_pos
    unfold smearingNorm; positivity
  have h2 := correction_pos hc
  have h3 : (0 : ℝ) < P.ntest := by exact_mod_cast hn
  have h4 : (0 : ℝ) < P.nens := by exact_mod_cast he
  unfold Params.normFactor
  positivity

theorem abs_smul4 (p : V4) {f : ℝ} (hf : 0 ≤ f) : (smul4 p f).abs = p.abs * f := by
  unfold V4.abs
  have : (smul4 p f).sqr = p.sqr * f ^ 2 := by
    simp only [V4.sqr, V4.dot, V4.vec, V3.dot, smul4]; ring
  rw [this, sqrt_mul' _ (sq_nonneg f), sqrt_sq hf]

theorem zero_abs : (⟨0, 0, 0, 0⟩ : V4).abs = 0 := by
  simp [V4.abs, V4.sqr, V4.dot, V4.vec, V3.dot]

/-- **C107 (rest frame density).** If no contributing particle has a negative charge, the returned
rest frame density is the invariant length of the returned current; with only negative charges it
is minus that length. Missing: mixed charges, where the code takes the difference of two lengths
on purpose. -/
theorem C107_rest_density_partial (P : Params) (hs : 0 < P.sigma) (hc : 0 < P.cutoff)
    (hn : 0 < P.ntest) (he : 0 < P.nens) (r : V3) (ps : List Part) :
    ((∀ p ∈ ps, counted P p = true → 0 < p.factor) →
      (current P true r ps).rho = (current P true r ps).jmu.abs) ∧
    ((∀ p ∈ ps, counted P p = true → p.factor < 0) →
      (current P true r ps).rho = -(current P true r ps).jmu.abs) := by
  have hp := norm_pos P hs hc hn he
  constructor
  · intro h
    have e : (ps.filter (counted P)).filter (fun p => !decide (p.factor > 0)) = [] := by
      rw [List.filter_eq_nil_iff]
      intro p hp
      have := h p (List.mem_filter.1 hp).1 (List.mem_filter.1 hp).2
      simp [this]
    simp only [current, e, if_true, List.map_nil]
    have e0 : sumV4 [] = ⟨0, 0, 0, 0⟩ := rfl
    rw [e0, zero_abs]
    have e1 : ∀ q : V4, (smul4 q P.normFactor).add (smul4 ⟨0, 0, 0, 0⟩ P.normFactor)
        = smul4 q P.normFactor := by intro q; simp [V4.add, smul4]
    rw [e1, abs_smul4 _ hp.le, sub_zero]
  · intro h
    have e : (ps.filter (counted P)).filter (fun p => decide (p.factor > 0)) = [] := by
      rw [List.filter_eq_nil_iff]
      intro p hp
      have := h p (List.mem_filter.1 hp).1 (List.mem_filter.1 hp).2
      simp [this.le]
    simp only [current, e, if_true, List.map_nil]
    have e0 : sumV4 [] = ⟨0, 0, 0, 0⟩ := rfl
    rw [e0, zero_abs]
    have e1 : ∀ q : V4, (smul4 ⟨0, 0, 0, 0⟩ P.normFactor).add (smul4 q P.normFactor)
        = smul4 q P.normFactor := by intro q; simp [V4.add, smul4]
    rw [e1, abs_smul4 _ hp.le]
    ring

/-- **C107 (without smearing).** Without smearing the current is the plain sum, but the rest frame
density is still multiplied by the normalisation of the Gaussian: for one particle of charge 1 at
rest the current is (1, 0, 0, 0) and the density is that normalisation. -/
theorem C107_unsmeared_false (P : Params) (h : P.onlyParticipants = false) (r : V3) :
    (current P false r [⟨⟨1, 0, 0, 0⟩, ⟨0, 0, 0⟩, 1, 0⟩]).jmu = ⟨1, 0, 0, 0⟩ ∧
    (current P false r [⟨⟨1, 0, 0, 0⟩, ⟨0, 0, 0⟩, 1, 0⟩]).rho = P.normFactor := by
  have habs : (⟨1, 0, 0, 0⟩ : V4).abs = 1 := by
    simp [V4.abs, V4.sqr, V4.dot, V4.vec, V3.dot]
  have hc : counted P ⟨⟨1, 0, 0, 0⟩, ⟨0, 0, 0⟩, 1, 0⟩ = true := by
    simp only [counted, h, habs]; norm_num
  have hf : [(⟨⟨1, 0, 0, 0⟩, ⟨0, 0, 0⟩, 1, 0⟩ : Part)].filter (counted P)
      = [⟨⟨1, 0, 0, 0⟩, ⟨0, 0, 0⟩, 1, 0⟩] := by simp [hc]
  simp only [current, hf]
  have e1 : flow (⟨⟨1, 0, 0, 0⟩, ⟨0, 0, 0⟩, 1, 0⟩ : Part) = ⟨1, 0, 0, 0⟩ := by
    simp [flow, smul4]
  constructor
  · simp [e1, sumV4, V4.add]
  · simp [e1, sumV4, habs, zero_abs]

/-! ### Derivatives of the rest frame density on the lattice -/

/-- **C107 (density derivative).** With one sign of charge, on a node with a time-like current
whose density is not tiny, the derivative of the density computed from those of the current is the
derivative of the current's invariant length, in each of the four directions. Missing: both signs of
charge (`C107_mixed_derivative_false`). -/
theorem C107_density_derivative_partial (j : ℝ → V4) (dj : V4)
    (ht : HasDerivAt (fun s => (j s).t) dj.t 0) (hx : HasDerivAt (fun s => (j s).x) dj.x 0)
    (hy : HasDerivAt (fun s => (j s).y) dj.y 0) (hz : HasDerivAt (fun s => (j s).z) dj.z 0)
    (hbig : 1 / 1000000000000000 ≤ (j 0).abs) :
    HasDerivAt (fun s => (j s).abs) (rhoDerivative (j 0) ⟨0, 0, 0, 0⟩ dj) 0 := by
  have hpos : 0 < (j 0).abs := lt_of_lt_of_le (by norm_num) hbig
  have hsq : (j 0).sqr ≠ 0 := (Real.sqrt_pos.1 hpos).ne'
  have h1 : HasDerivAt (fun s => (j s).sqr)
      (2 * ((j 0).t * dj.t - (j 0).x * dj.x - (j 0).y * dj.y - (j 0).z * dj.z)) 0 := by
    have := (ht.mul ht).sub (((hx.mul hx).add (hy.mul hy)).add (hz.mul hz))
    refine HasDerivAt.congr_deriv this ?_
    ring
  have h2 := h1.sqrt hsq
  refine HasDerivAt.congr_deriv h2 ?_
  simp only [rhoDerivative, zero_abs, sub_zero]
  rw [if_neg (by rw [not_lt, abs_of_pos hpos]; exact hbig)]
  simp only [V4.add, add_zero]
  change _ / (2 * (j 0).abs) = _
  field_simp

/-- With both signs of charge the formula does not give the derivative of the density that the
lattice returns: for positive charges with current (5, 0, 0, 3) growing at the rate (1, 0, 0, 0)
and resting negative charges the density grows at the rate 5/4, the code computes 4/3. -/
theorem C107_mixed_derivative_false :
    HasDerivAt (fun s : ℝ => (⟨5 + s, 0, 0, 3⟩ : V4).abs - (⟨-1, 0, 0, 0⟩ : V4).abs) (5 / 4) 0 ∧
    rhoDerivative ⟨5, 0, 0, 3⟩ ⟨-1, 0, 0, 0⟩ ⟨1, 0, 0, 0⟩ = 4 / 3 := by
  have hs4 : sqrt 16 = 4 := by
    rw [show (16 : ℝ) = 4 ^ 2 by norm_num, sqrt_sq (by norm_num)]
  constructor
  · have h0 : HasDerivAt (fun s : ℝ => 5 + s) 1 0 := by
      simpa using (hasDerivAt_id (0 : ℝ)).const_add 5
    have h1 : HasDerivAt (fun s : ℝ => (5 + s) * (5 + s) - 9) 10 0 := by
      refine HasDerivAt.congr_deriv ((h0.mul h0).sub_const 9) ?_
      norm_num
    have h2 := (h1.sqrt (by norm_num)).sub_const ((⟨-1, 0, 0, 0⟩ : V4).abs)
    have e : (fun s : ℝ => (⟨5 + s, 0, 0, 3⟩ : V4).abs - (⟨-1, 0, 0, 0⟩ : V4).abs)
        = fun s => sqrt ((5 + s) * (5 + s) - 9) - (⟨-1, 0, 0, 0⟩ : V4).abs := by
      funext s
      simp only [V4.abs, V4.sqr, V4.dot, V4.vec, V3.dot]
      norm_num
    rw [e]
    refine HasDerivAt.congr_deriv h2 ?_
    norm_num [hs4]
  · have e1 : (⟨5, 0, 0, 3⟩ : V4).abs = 4 := by
      simp only [V4.abs, V4.sqr, V4.dot, V4.vec, V3.dot]; norm_num [hs4]
    have e2 : (⟨-1, 0, 0, 0⟩ : V4).abs = 1 := by
      simp [V4.abs, V4.sqr, V4.dot, V4.vec, V3.dot]
    simp only [rhoDerivative, e1, e2, V4.add]
    norm_num

/-- **C107 (participants).** Restricting the density to participants is the same as computing it
from the list without the particles that have not collided yet; without the restriction these
count like all others. -/
theorem C107_participants (P : Params) (smear : Bool) (r : V3) (ps : List Part) :
    current P smear r ps = current { P with onlyParticipants := false } smear r
      (if P.onlyParticipants = true then ps.filter fun p => decide (p.collisions ≠ 0) else ps) := by
  have h : ps.filter (counted P) =
      (if P.onlyParticipants = true then ps.filter fun p => decide (p.collisions ≠ 0) else ps).filter
        (counted { P with onlyParticipants := false }) := by
    split_ifs with h0
    · rw [List.filter_filter]
      apply List.filter_congr
      intro p _
      cases hc : p.collisions <;> simp [counted, h0, hc]
    · apply List.filter_congr
      intro p _
      simp [counted, h0]
  simp only [current, h]
  rfl

/-! ### Examples -/

/-- A moving particle that contributes. -/
example : counted ⟨1, 4, 1, 1, true⟩ ⟨⟨5, 0, 0, 3⟩, ⟨0, 0, 0⟩, 1, 2⟩ = true ∧
    0 < (⟨5, 0, 0, 3⟩ : V4).sqr := by
  have hs4 : sqrt 16 = 4 := by
    rw [show (16 : ℝ) = 4 ^ 2 by norm_num, sqrt_sq (by norm_num)]
  constructor
  · simp only [counted, V4.abs, V4.sqr, V4.dot, V4.vec, V3.dot]; norm_num [hs4]
  · simp only [V4.sqr, V4.dot, V4.vec, V3.dot]; norm_num

/-- A spectator and a participant. -/
example : ([⟨⟨5, 0, 0, 3⟩, ⟨0, 0, 0⟩, 1, 0⟩, ⟨⟨5, 0, 0, 3⟩, ⟨0, 0, 0⟩, 1, 2⟩] : List Part).filter
    (fun p => decide (p.collisions ≠ 0)) = [⟨⟨5, 0, 0, 3⟩, ⟨0, 0, 0⟩, 1, 2⟩] := by simp

end Verif.Dens
