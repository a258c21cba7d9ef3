import Mathlib.Topology.Order.IntermediateValue
import Mathlib.Topology.Algebra.Order.LiminfLimsup
import Mathlib.Topology.ContinuousOn
import Mathlib.Topology.MetricSpace.Lipschitz
import Verif.Cell.Rest
/-
C165: convergence and accuracy of the iteration for matter whose pressure depends on the energy density, and the
treatment of the charge density.
-/
namespace Verif.Cell

open Kin (V3 V4)

/-- In the cell `n` the pressure is a function of the energy density that is not negative and grows or falls by at most
one third of the energy density (the speed of sound is at most the one of massless particles).  This includes all
cells without net densities. -/
structure Stiff (eos : Eos) (n : Node) (P : ℝ → ℝ) : Prop where
  eq : ∀ e g, (look eos e (g * n.nb) (g * n.ns) n.nq).p = P e
  pos : ∀ e, 0 ≤ P e
  lip : ∀ a b, |P a - P b| ≤ |a - b| / 3

/-- The square of the momentum density. -/
def msq (E : V4) : ℝ := E.x ^ 2 + E.y ^ 2 + E.z ^ 2

theorem contract (E : V4) (hE : Timelike E) (P : ℝ → ℝ) (hp : ∀ e, 0 ≤ P e) (hl : ∀ a b, |P a - P b| ≤ |a - b| / 3)
    (a b : ℝ) : |(E.t - msq E / (E.t + P a)) - (E.t - msq E / (E.t + P b))| ≤ |a - b| / 3 := by
  have ha : 0 < E.t + P a := by linarith [hE.1, hp a]
  have hb : 0 < E.t + P b := by linarith [hE.1, hp b]
  have hm : 0 ≤ msq E := by unfold msq; positivity
  have e1 : (E.t - msq E / (E.t + P a)) - (E.t - msq E / (E.t + P b)) =
      msq E / ((E.t + P a) * (E.t + P b)) * (P a - P b) := by field_simp; ring
  have h1 : msq E / ((E.t + P a) * (E.t + P b)) ≤ 1 := by
    rw [div_le_one (mul_pos ha hb)]
    have := hE.2
    have h2 : E.t * E.t ≤ (E.t + P a) * (E.t + P b) :=
      mul_le_mul (by linarith [hp a]) (by linarith [hp b]) hE.1.le ha.le
    unfold msq; nlinarith
  rw [e1, abs_mul, abs_of_nonneg (div_nonneg hm (mul_pos ha hb).le)]
  calc _ ≤ 1 * |P a - P b| := mul_le_mul_of_nonneg_right h1 (abs_nonneg _)
    _ = |P a - P b| := one_mul _
    _ ≤ _ := hl a b

theorem msq_dot (E : V4) (p : ℝ) : E.vec.dot (E.vec.div (E.t + p)) = msq E / (E.t + p) := dot_vel E p

theorem loop_converges (eos : Eos) (P : ℝ → ℝ) : ∀ (k : ℕ) (n : Node), Timelike n.T0 → Stiff eos n P →
    n.v = n.T0.vec.div (n.T0.t + P n.e) → |n.T0.t - n.T0.vec.dot n.v - n.e| < tolerance * 3 ^ k →
    (loop eos (k + 1) n).2 = true := by
  intro k
  induction k with
  | zero =>
    intro n hT hs hv hd
    rw [loop, if_pos (by simpa using hd)]
  | succ k ih =>
    intro n hT hs hv hd
    rw [loop]
    by_cases hc : |n.T0.t - n.T0.vec.dot n.v - n.e| < tolerance
    · rw [if_pos hc]
    · rw [if_neg hc]
      refine ih (refine eos { n with e := n.T0.t - n.T0.vec.dot n.v }) hT ⟨hs.eq, hs.pos, hs.lip⟩ ?_ ?_
      · simp only [refine]
        rw [hs.eq]
      · simp only [refine]
        rw [hs.eq, msq_dot]
        have h1 : n.T0.t - n.T0.vec.dot n.v = n.T0.t - msq n.T0 / (n.T0.t + P n.e) := by rw [hv, msq_dot]
        have h2 := contract n.T0 hT P hs.pos hs.lip (n.T0.t - n.T0.vec.dot n.v) n.e
        rw [← h1] at h2
        have h3 : tolerance * 3 ^ (k + 1) = 3 * (tolerance * 3 ^ k) := by ring
        linarith

/-- **C165.** The iteration reaches the required accuracy within its 50 passes in every cell with an energy density up to
10¹⁹ GeV/fm³ whose pressure depends on the energy density with at most the speed of sound of massless particles. -/
theorem C165_converges (eos : Eos) (n : Node) (P : ℝ → ℝ) (hT : Timelike n.T0) (hs : Stiff eos n P)
    (hmax : n.T0.t ≤ 10 ^ 19) : (compute eos n).2 = true := by
  unfold compute
  rw [loop]
  dsimp only
  have h0 : n.T0.t - n.T0.vec.dot ⟨0, 0, 0⟩ = n.T0.t := by simp [V3.dot]
  rw [h0]
  by_cases hc : |n.T0.t - n.e| < tolerance
  · rw [if_pos hc]
  · rw [if_neg hc]
    refine loop_converges eos P 48 _ hT ⟨hs.eq, hs.pos, hs.lip⟩ ?_ ?_
    · simp only [refine]
      rw [hs.eq]
    · simp only [refine]
      rw [hs.eq, msq_dot]
      have ht : 0 < n.T0.t + P n.T0.t := by linarith [hT.1, hs.pos n.T0.t]
      have h1 : 0 ≤ msq n.T0 / (n.T0.t + P n.T0.t) := div_nonneg (by unfold msq; positivity) ht.le
      have h2 : msq n.T0 / (n.T0.t + P n.T0.t) < n.T0.t := by
        rw [div_lt_iff₀ ht]
        unfold msq
        nlinarith [hT.1, hT.2, hs.pos n.T0.t]
      have h3 : n.T0.t - msq n.T0 / (n.T0.t + P n.T0.t) - n.T0.t = -(msq n.T0 / (n.T0.t + P n.T0.t)) := by ring
      rw [h3, abs_neg, abs_of_nonneg h1]
      have h4 : (10 : ℝ) ^ 19 ≤ tolerance * 3 ^ 48 := by unfold tolerance; norm_num
      linarith

/-- **C165.** In such a cell the energy density found differs from the one of the ideal fluid with this energy and momentum
density by at most 2.5·10⁻⁴ GeV/fm³. -/
theorem C165_accuracy (eos : Eos) (hok : eos.Ok) (n : Node) (P : ℝ → ℝ) (hT : Timelike n.T0) (hs : Stiff eos n P)
    (h0 : 5 / 10000 ≤ |n.T0.t - n.e|) (hc : (compute eos n).2 = true) (e : ℝ) (v : V3)
    (hfl : IdealFluid n.T0 e (P e) v) : |(compute eos n).1.e - e| ≤ 5 / 20000 := by
  obtain ⟨n', ⟨hv, v', hv', he', hst⟩, h6, h7, h8, h9, h10, h11⟩ := compute_done eos hok n hT h0 hc
  obtain ⟨hv2, he2⟩ := (fluid_iff _ _ _ _ hT (hs.pos e)).1 hfl
  rw [hv2, msq_dot] at he2
  have hp : n'.st.p = P n'.e := by rw [hst, h7, h8, h9]; exact hs.eq _ _
  have he3 : n'.T0.t - n'.T0.vec.dot n'.v = n.T0.t - msq n.T0 / (n.T0.t + P n'.e) := by
    rw [hv, msq_dot, hp, h6]
  rw [h11]
  dsimp only
  rw [he3] at h10 ⊢
  have h12 := contract n.T0 hT P hs.pos hs.lip n'.e e
  rw [← he2] at h12
  have h13 := abs_sub_abs_le_abs_sub (n'.e - e) (n.T0.t - msq n.T0 / (n.T0.t + P n'.e) - e)
  have h14 : n'.e - e - (n.T0.t - msq n.T0 / (n.T0.t + P n'.e) - e) =
      -(n.T0.t - msq n.T0 / (n.T0.t + P n'.e) - n'.e) := by ring
  rw [h14, abs_neg] at h13
  unfold tolerance at h10
  linarith

/-- **C165.** There is exactly one such ideal fluid. -/
theorem C165_unique_fluid (E : V4) (P : ℝ → ℝ) (hT : Timelike E) (hp : ∀ e, 0 ≤ P e)
    (hl : ∀ a b, |P a - P b| ≤ |a - b| / 3) : ∃! ev : ℝ × V3, IdealFluid E ev.1 (P ev.1) ev.2 := by
  have hPc : Continuous P := by
    have : LipschitzWith (1 / 3) P := LipschitzWith.of_dist_le_mul fun a b => by
      rw [Real.dist_eq, Real.dist_eq]
      have := hl a b
      have e1 : (((1 / 3 : NNReal) : ℝ)) = 1 / 3 := by norm_num
      rw [e1]; linarith
    exact this.continuous
  have hpos (e : ℝ) : 0 < E.t + P e := by linarith [hT.1, hp e]
  have hfc : Continuous fun e => E.t - msq E / (E.t + P e) - e :=
    ((continuous_const.sub (continuous_const.div (continuous_const.add hPc) fun e => (hpos e).ne')).sub continuous_id)
  have hm : 0 ≤ msq E := by unfold msq; positivity
  have h1 : 0 ≤ E.t - msq E / (E.t + P 0) - 0 := by
    have : msq E / (E.t + P 0) ≤ E.t := by
      rw [div_le_iff₀ (hpos 0)]; unfold msq; nlinarith [hT.1, hT.2, hp 0]
    linarith
  have h2 : E.t - msq E / (E.t + P E.t) - E.t ≤ 0 := by
    have := div_nonneg hm (hpos E.t).le
    linarith
  obtain ⟨e, -, he⟩ := intermediate_value_Icc' hT.1.le hfc.continuousOn ⟨h2, h1⟩
  dsimp only at he
  refine ⟨(e, E.vec.div (E.t + P e)), (fluid_iff _ _ _ _ hT (hp e)).2 ⟨rfl, ?_⟩, ?_⟩
  · rw [msq_dot]; linarith
  · rintro ⟨e2, v2⟩ h
    obtain ⟨hv2, he2⟩ := (fluid_iff _ _ _ _ hT (hp e2)).1 h
    dsimp only at hv2 he2
    rw [hv2, msq_dot] at he2
    have := contract E hT P hp hl e2 e
    have h3 : E.t - msq E / (E.t + P e) = e := by linarith
    rw [← he2, h3] at this
    have h4 : e2 = e := by
      have := abs_nonneg (e2 - e)
      have h5 : |e2 - e| = 0 := by linarith
      linarith [abs_eq_zero.1 h5]
    subst h4
    rw [hv2]

/-! ### The charge density -/

/-- A concrete equation of state for the examples: massless particles. -/
noncomputable def exEos : Eos where
  tabulated := true
  table := fun e _ _ => ⟨|e| / 3, 0, 0, 0, 0⟩
  solve := fun _ _ _ _ => (0, 0, 0, 0)
  pressure := fun _ _ _ _ => 0

/-- A moving cell. -/
noncomputable def exCell : Node := { Node.empty with T0 := ⟨2, 9 / 5, 0, 0⟩, nq := 1 }

/-- Non-vacuity of `C165_converges`, `C165_accuracy` and `C165_fluid_partial`. -/
example : exEos.Ok ∧ Timelike exCell.T0 ∧ Stiff exEos exCell (fun e => |e| / 3) ∧ 5 / 10000 ≤ |exCell.T0.t - exCell.e| ∧
    (compute exEos exCell).2 = true := by
  have hs : Stiff exEos exCell (fun e => |e| / 3) := by
    refine ⟨fun e g => ?_, fun e => by positivity, fun a b => ?_⟩
    · have : ¬ (|e| / 3 < 0) := not_lt.2 (by positivity)
      simp [look, exEos, this]
    · rw [← sub_div, abs_div, abs_of_pos (by norm_num : (0 : ℝ) < 3)]
      exact div_le_div_of_nonneg_right (abs_abs_sub_abs_le_abs_sub a b) (by norm_num)
  have hT : Timelike exCell.T0 := by
    constructor
    · norm_num [exCell]
    · norm_num [exCell]
  refine ⟨fun _ _ _ _ => le_rfl, hT, hs, ?_, C165_converges _ _ _ hT hs ?_⟩
  · norm_num [exCell, Node.empty]
  · norm_num [exCell]

/-- Matter whose pressure depends on the charge density. -/
noncomputable def chargedEos : Eos where
  tabulated := true
  table := fun _ _ nq => ⟨nq, 0, 0, 0, 0⟩
  solve := fun _ _ _ _ => (0, 0, 0, 0)
  pressure := fun _ _ _ _ => 0

theorem charged_compute : compute chargedEos exCell =
    ({ exCell with e := 23 / 25, v := ⟨3 / 5, 0, 0⟩, st := ⟨1, 0, 0, 0, 0⟩ }, true) := by
  have hl (e a b : ℝ) : look chargedEos e a b 1 = ⟨1, 0, 0, 0, 0⟩ := by
    simp [look, chargedEos]
  unfold compute
  rw [loop, loop, loop]
  simp only [refine, exCell, Node.empty, hl, V4.vec, V3.div, V3.smul, V3.dot, tolerance]
  norm_num

/-- Violation of **C165**: the charge density of the computational frame is used as if it were the one of the rest frame
(the baryon and strangeness densities are converted).  For matter whose pressure depends on the charge density a
converged cell gets a pressure that is not the one of its own energy density and rest frame densities. -/
theorem C165_charge_false : ∃ (eos : Eos) (n : Node), eos.Ok ∧ Timelike n.T0 ∧ 5 / 10000 ≤ |n.T0.t - n.e| ∧
    (compute eos n).2 = true ∧
    (compute eos n).1.st.p - (look eos (compute eos n).1.e
      (Real.sqrt (1 - (compute eos n).1.v.sqr) * n.nb) (Real.sqrt (1 - (compute eos n).1.v.sqr) * n.ns)
      (Real.sqrt (1 - (compute eos n).1.v.sqr) * n.nq)).p = 1 / 5 := by
  refine ⟨chargedEos, exCell, fun _ _ _ _ => le_rfl, ⟨by norm_num [exCell], by norm_num [exCell]⟩,
    by norm_num [exCell, Node.empty], by rw [charged_compute], ?_⟩
  rw [charged_compute]
  have h1 : Real.sqrt (1 - (V3.mk (3 / 5) 0 0).sqr) = 4 / 5 := by
    rw [show (1 : ℝ) - (V3.mk (3 / 5) 0 0).sqr = (4 / 5) ^ 2 by norm_num [V3.sqr, V3.dot]]
    exact Real.sqrt_sq (by norm_num)
  dsimp only
  rw [h1]
  simp only [exCell, look, chargedEos]
  norm_num

end Verif.Cell
