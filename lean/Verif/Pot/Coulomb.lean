import Verif.Pot.Update
import Mathlib.Analysis.Real.Pi.Bounds
/-!
C130: electric and magnetic fields.
-/
namespace Verif.Pot
open Verif.Kin Verif.Emt

/-! ### Specification -/

/-- Coulomb's law for two charges in units of the elementary charge at a distance `r` in fm, in GeV/fm:
`alpha hbar c z1 z2 / r²`. -/
noncomputable def coulombLaw (z1 z2 r : ℝ) : ℝ := (1 / 137.035999074) * 0.197327053 * z1 * z2 / r ^ 2

/-! ### Fields -/

theorem smul_abs' (d : V3) (k : ℝ) : (d.smul k).abs = |k| * d.abs := by
  unfold V3.abs V3.dot V3.smul
  simp only
  rw [show d.x * k * (d.x * k) + d.y * k * (d.y * k) + d.z * k * (d.z * k) =
    k ^ 2 * (d.x * d.x + d.y * d.y + d.z * d.z) by ring, Real.sqrt_mul (sq_nonneg k), Real.sqrt_sq_eq_abs]

theorem elementary_sq : elementaryCharge * elementaryCharge = fineStructure * 4 * Real.pi := by
  unfold elementaryCharge
  exact Real.mul_self_sqrt (by unfold fineStructure; have := Real.pi_pos; positivity)

/-- **C130.** The electric field of a charge density in a cell points away from it (for a positive density), and has the
size `e rho / r²`; it vanishes closer than `1e-6` fm. -/
theorem C130_electric (pos point : V3) (rho : ℝ) (h : reallySmall ≤ (point.sub pos).abs) :
    eIntegrand pos rho point =
      (point.sub pos).smul (elementaryCharge * rho / (point.sub pos).abs ^ 3) ∧
    (eIntegrand pos rho point).abs = elementaryCharge * |rho| / (point.sub pos).abs ^ 2 := by
  set d := point.sub pos with hd
  have hp : 0 < d.abs := lt_of_lt_of_le (by unfold reallySmall; norm_num) h
  have he : 0 ≤ elementaryCharge := Real.sqrt_nonneg _
  have e : eIntegrand pos rho point = d.smul (elementaryCharge * rho / d.abs ^ 3) := by
    unfold eIntegrand
    simp only [← hd, if_neg (not_lt.2 h)]
    simp only [V3.div, V3.smul]
    congr 1 <;> ring
  refine ⟨e, ?_⟩
  rw [e]
  rw [smul_abs', abs_div, abs_mul, abs_of_nonneg he, abs_of_pos (pow_pos hp 3)]
  field_simp

/-- **C130.** The magnetic field of a current density in a cell is `e j × r / r³`: perpendicular to both. -/
theorem C130_magnetic (pos point j : V3) (h : reallySmall ≤ (point.sub pos).abs) :
    bIntegrand pos j point = (j.cross (point.sub pos)).smul (elementaryCharge / (point.sub pos).abs ^ 3) ∧
    (bIntegrand pos j point).dot j = 0 ∧ (bIntegrand pos j point).dot (point.sub pos) = 0 := by
  set d := point.sub pos with hd
  have e : bIntegrand pos j point = (j.cross d).smul (elementaryCharge / d.abs ^ 3) := by
    unfold bIntegrand
    simp only [← hd, if_neg (not_lt.2 h)]
    simp only [V3.div, V3.smul]
    congr 1 <;> ring
  refine ⟨e, ?_, ?_⟩ <;> rw [e] <;> simp only [V3.dot, V3.smul, V3.cross] <;> ring

/-- The field at a node is the sum of the contributions of the cells times their volume: cells with the total charge of
one place add up. -/
theorem C130_sum {T : Type} (f : V3 → T → V3 → V3) (vol : ℝ) (point : V3) (cs ds : List (V3 × T)) :
    integrateVolume f vol point (cs ++ ds) =
      (integrateVolume f vol point cs).add (integrateVolume f vol point ds) := by
  induction cs with
  | nil => simp [integrateVolume, zero3, V3.add]
  | cons c cs ih =>
    rw [List.cons_append, integrateVolume, integrateVolume, ih]
    simp only [V3.add]
    congr 1 <;> ring

/-- Charges of opposite sign attract and of equal sign repel: the force on charge `z2` along the line from a cell with
`z1` charges has the sign of the product. -/
theorem C130_direction (pos point : V3) (z1 : ℝ) (z2 : Int) (h : reallySmall ≤ (point.sub pos).abs) (vol : ℝ)
    (hv : 0 < vol) :
    ∃ k > 0, (integrateVolume eIntegrand vol point [(pos, z1 / vol)]).smul (hbarc * z2 * elementaryCharge) =
      (point.sub pos).smul (k * (z1 * z2)) := by
  have hp : 0 < (point.sub pos).abs := lt_of_lt_of_le (by unfold reallySmall; norm_num) h
  have hh : 0 < hbarc := by unfold hbarc; norm_num
  have he : 0 < elementaryCharge := by
    unfold elementaryCharge
    apply Real.sqrt_pos.2
    unfold fineStructure; have := Real.pi_pos; positivity
  refine ⟨hbarc * elementaryCharge * elementaryCharge / (point.sub pos).abs ^ 3, by positivity, ?_⟩
  rw [integrateVolume, integrateVolume, (C130_electric pos point _ h).1]
  simp only [V3.smul, V3.add, zero3, add_zero]
  congr 1 <;> field_simp

/-- **C130 is false for the size of the force**: between two charges it is `4 π` times that of Coulomb's law. (The
elementary charge in these units is `√(4 π α)`, with which the field of a charge is `e/(4 π r²)`; the factor
`1/(4 π)` is missing in the fields.) -/
theorem C130_law_false (pos point : V3) (z1 : ℝ) (z2 : Int) (h : reallySmall ≤ (point.sub pos).abs) (vol : ℝ)
    (hv : 0 < vol) :
    let r := (point.sub pos).abs
    let F := (integrateVolume eIntegrand vol point [(pos, z1 / vol)]).smul (hbarc * z2 * elementaryCharge)
    F = (point.sub pos).smul (4 * Real.pi * (fineStructure * hbarc * z1 * z2 / r ^ 2) / r) ∧
    |fineStructure * hbarc * z1 * z2 / r ^ 2 - coulombLaw z1 z2 r| ≤ 1 / 100000000 * |coulombLaw z1 z2 r| := by
  have hp : 0 < (point.sub pos).abs := lt_of_lt_of_le (by unfold reallySmall; norm_num) h
  intro r F
  constructor
  · show (integrateVolume eIntegrand vol point [(pos, z1 / vol)]).smul _ = _
    rw [integrateVolume, integrateVolume, (C130_electric pos point _ h).1]
    have hs := elementary_sq
    have key : ∀ x : ℝ, (x * (elementaryCharge * (z1 / vol) / (point.sub pos).abs ^ 3) * vol + 0) *
        (hbarc * z2 * elementaryCharge) =
        x * (4 * Real.pi * (fineStructure * hbarc * z1 * z2 / (point.sub pos).abs ^ 2) / (point.sub pos).abs) := by
      intro x
      have : (x * (elementaryCharge * (z1 / vol) / (point.sub pos).abs ^ 3) * vol + 0) *
        (hbarc * z2 * elementaryCharge) = x * (z1 * hbarc * z2 / (point.sub pos).abs ^ 3) *
          (elementaryCharge * elementaryCharge) := by field_simp; ring
      rw [this, hs]
      field_simp
    simp only [V3.smul, V3.add, zero3]
    rw [key, key, key]
  · unfold coulombLaw fineStructure hbarc
    have e : (72973525698 / 10000000000000 : ℝ) * (197327053 / 1000000000) * z1 * z2 / r ^ 2 -
        1 / 137.035999074 * 0.197327053 * z1 * z2 / r ^ 2 =
        (72973525698 / 10000000000000 * 137.035999074 - 1) * (1 / 137.035999074 * 0.197327053 * z1 * z2 / r ^ 2) := by
      ring
    rw [e, abs_mul]
    apply mul_le_mul_of_nonneg_right _ (abs_nonneg _)
    rw [abs_le]; constructor <;> norm_num

/-- A point at one fm from a charge. -/
example : reallySmall ≤ ((⟨1, 0, 0⟩ : V3).sub ⟨0, 0, 0⟩).abs := by
  unfold reallySmall V3.abs V3.dot V3.sub
  simp; norm_num

end Verif.Pot
