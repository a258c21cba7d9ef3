import Verif.Emt.Model
import Verif.Kin.Props
import Mathlib.Tactic.FinCases
import Mathlib.Tactic.Ring
import Mathlib.Tactic.FieldSimp
import Mathlib.Tactic.Linarith
import Mathlib.Tactic.NormNum
import Mathlib.Tactic.Positivity
import Mathlib.Tactic.LinearCombination

/-
C105: the energy-momentum tensor.
-/
namespace Verif.Emt
open Verif.Kin Matrix

/-! ### Specification -/

/-- The components of a four-vector with upper index. -/
def up (p : V4) : Fin 4 → ℝ := ![p.t, p.x, p.y, p.z]

/-- The component (mu, nu) of a tensor, read through the public index function. -/
noncomputable def comp (T : Tmn) (mu nu : Fin 4) : ℝ :=
  match tmnIndex mu.val nu.val with
  | .ok i => T i
  | .error _ => 0

theorem comp_full (T : Tmn) (mu nu : Fin 4) : comp T mu nu = full T mu nu := by
  fin_cases mu <;> fin_cases nu <;> rfl

/-- Two tensors with the same components are the same. -/
theorem ext_comp {T T' : Tmn} (h : ∀ mu nu, comp T mu nu = comp T' mu nu) : T = T' := by
  funext i
  fin_cases i
  · exact h 0 0
  · exact h 0 1
  · exact h 0 2
  · exact h 0 3
  · exact h 1 1
  · exact h 1 2
  · exact h 1 3
  · exact h 2 2
  · exact h 2 3
  · exact h 3 3

/-- **C105 (indices).** Exactly the index pairs with both indices from 0 to 3 are accepted;
two accepted pairs name the same stored component only if they agree up to their order, and
every stored component has a name. -/
theorem C105_index (mu nu : Int) :
    (tmnIndex mu nu = .error .invalidArgument ↔ ¬ ((0 ≤ mu ∧ mu ≤ 3) ∧ (0 ≤ nu ∧ nu ≤ 3))) ∧
    (∀ mu' nu' i, tmnIndex mu nu = .ok i → tmnIndex mu' nu' = .ok i →
      (mu = mu' ∧ nu = nu') ∨ (mu = nu' ∧ nu = mu')) ∧
    tmnIndex mu nu = tmnIndex nu mu ∧
    (∀ i : Fin 10, ∃ a b, tmnIndex a b = .ok i) := by
  have key : ∀ a b c d : Fin 4, indices.getD (a.val + 4 * b.val) 0
      = indices.getD (c.val + 4 * d.val) 0 → (a = c ∧ b = d) ∨ (a = d ∧ b = c) := by
    decide +kernel
  have sym : ∀ a b : Fin 4, indices.getD (a.val + 4 * b.val) 0
      = indices.getD (b.val + 4 * a.val) 0 := by decide +kernel
  have lift : ∀ m n : Int, m < 4 ∧ n < 4 ∧ m ≥ 0 ∧ n ≥ 0 →
      ∃ a b : Fin 4, m = a.val ∧ n = b.val := by
    intro m n h
    exact ⟨⟨m.toNat, by omega⟩, ⟨n.toNat, by omega⟩, by simp only; omega, by simp only; omega⟩
  have cast : ∀ a b : Fin 4, ((a.val : Int) + 4 * (b.val : Int)).toNat = a.val + 4 * b.val := by
    intro a b; omega
  refine ⟨?_, ?_, ?_, ?_⟩
  · unfold tmnIndex
    split
    · rename_i h
      simp only [reduceCtorEq, false_iff, not_not]
      omega
    · rename_i h
      simp only [true_iff]
      omega
  · intro mu' nu' i h h'
    unfold tmnIndex at h h'
    split at h
    · split at h'
      · rename_i h1 h2
        obtain ⟨a, b, rfl, rfl⟩ := lift _ _ h1
        obtain ⟨c, d, rfl, rfl⟩ := lift _ _ h2
        rw [cast] at h h'
        have e := (Except.ok.inj h).trans (Except.ok.inj h').symm
        rcases key a b c d e with ⟨rfl, rfl⟩ | ⟨rfl, rfl⟩
        · exact Or.inl ⟨rfl, rfl⟩
        · exact Or.inr ⟨rfl, rfl⟩
      · cases h'
    · cases h
  · unfold tmnIndex
    by_cases h : mu < 4 ∧ nu < 4 ∧ mu ≥ 0 ∧ nu ≥ 0
    · obtain ⟨a, b, rfl, rfl⟩ := lift _ _ h
      rw [if_pos h, if_pos (by omega), cast, cast, sym]
    · rw [if_neg h, if_neg (by omega)]
  · intro i
    fin_cases i
    · exact ⟨0, 0, rfl⟩
    · exact ⟨0, 1, rfl⟩
    · exact ⟨0, 2, rfl⟩
    · exact ⟨0, 3, rfl⟩
    · exact ⟨1, 1, rfl⟩
    · exact ⟨1, 2, rfl⟩
    · exact ⟨1, 3, rfl⟩
    · exact ⟨2, 2, rfl⟩
    · exact ⟨2, 3, rfl⟩
    · exact ⟨3, 3, rfl⟩

/-! ### Particles -/

/-- The energy-momentum tensor of particles: the sum of p^mu p^nu / p^0. -/
noncomputable def tensorOf (ps : List V4) (mu nu : Fin 4) : ℝ :=
  (ps.map fun p => up p mu * up p nu / p.t).sum

theorem addMom_comp (T : Tmn) (p : V4) (h : p.t ≠ 0) (mu nu : Fin 4) :
    comp (addMom T p) mu nu = comp T mu nu + up p mu * up p nu / p.t := by
  rw [comp_full, comp_full]
  fin_cases mu <;> fin_cases nu <;>
    simp [full, addMom, add, up, V3.div, V3.smul, V4.vec] <;> field_simp

theorem comp_zero (mu nu : Fin 4) : comp zero mu nu = 0 := by
  rw [comp_full]; fin_cases mu <;> fin_cases nu <;> simp [full, zero]

/-- **C105 (particles).** After adding any particles with non-zero energies, in any order, every
component grew by the sum of p^mu p^nu / p^0; in particular the row 0 is the total
four-momentum. -/
theorem C105_particles (ps : List V4) (h : ∀ p ∈ ps, p.t ≠ 0) (T : Tmn) (mu nu : Fin 4) :
    comp (ps.foldl addMom T) mu nu = comp T mu nu + tensorOf ps mu nu ∧
    comp (ps.foldl addMom T) 0 nu = comp T 0 nu + (ps.map fun p => up p nu).sum := by
  induction ps generalizing T with
  | nil => simp [tensorOf]
  | cons p ps ih =>
    have hp := h p (by simp)
    obtain ⟨h1, h2⟩ := ih (fun q hq => h q (by simp [hq])) (addMom T p)
    simp only [List.foldl_cons]
    rw [h1, h2, addMom_comp T p hp, addMom_comp T p hp]
    constructor
    · simp only [tensorOf, List.map_cons, List.sum_cons]; ring
    · simp only [List.map_cons, List.sum_cons]
      have : up p 0 * up p nu / p.t = up p nu := by
        simp only [up, cons_val_zero]; field_simp
      rw [this]; ring

/-- **C105 (weights).** Adding a particle with a weight adds the weight times p^mu p^nu / p^0, for
every weight including zero and negative ones. -/
theorem C105_weight (T : Tmn) (p : V4) (h : p.t ≠ 0) (f : ℝ) (mu nu : Fin 4) :
    comp (addParticle T p f) mu nu = comp T mu nu + f * (up p mu * up p nu / p.t) := by
  unfold addParticle
  split
  · rename_i hf
    rw [addMom_comp _ _ (by simpa [smul4] using ⟨h, hf⟩)]
    have e : ∀ k, up (smul4 p f) k = up p k * f := by
      intro k; fin_cases k <;> simp [up, smul4]
    rw [e, e]
    simp only [smul4]
    field_simp
  · rename_i hf
    have : f = 0 := by simpa using hf
    rw [this]; ring

/-- **C105 (arithmetic).** Sums, differences, multiples and quotients act on each component. -/
theorem C105_arithmetic (a b : Tmn) (f : ℝ) (mu nu : Fin 4) :
    comp (add a b) mu nu = comp a mu nu + comp b mu nu ∧
    comp (sub a b) mu nu = comp a mu nu - comp b mu nu ∧
    comp (scale a f) mu nu = comp a mu nu * f ∧ comp (divide a f) mu nu = comp a mu nu / f := by
  simp only [comp_full]
  fin_cases mu <;> fin_cases nu <;> exact ⟨rfl, rfl, rfl, rfl⟩

/-! ### Boosts -/

/-- A four-velocity: of length one and future-directed. -/
def FourVelocity (u : V4) : Prop := u.sqr = 1 ∧ 0 < u.t

/-- The velocity of the frame that is named by a four-velocity with lower index. -/
noncomputable def frame (u : V4) : V3 := ⟨-u.x / u.t, -u.y / u.t, -u.z / u.t⟩

theorem four_sqr {u : V4} (h : FourVelocity u) : u.t ^ 2 - u.x ^ 2 - u.y ^ 2 - u.z ^ 2 = 1 := by
  have := h.1
  simp only [V4.sqr, V4.dot, V4.vec, V3.dot] at this
  linarith

theorem frame_sqr {u : V4} (h : FourVelocity u) : (frame u).sqr = 1 - 1 / u.t ^ 2 := by
  have h1 := four_sqr h
  have h2 := h.2
  simp only [frame, V3.sqr, V3.dot]
  field_simp
  linarith

theorem frame_gamma {u : V4} (h : FourVelocity u) : gamma (frame u) = u.t := by
  have h2 := h.2
  have hlt : (frame u).sqr < 1 := by
    rw [frame_sqr h]; have : 0 < 1 / u.t ^ 2 := by positivity
    linarith
  unfold gamma
  rw [if_pos hlt, frame_sqr h]
  have : (1 : ℝ) - (1 - 1 / u.t ^ 2) = (1 / u.t) ^ 2 := by field_simp; ring
  rw [this, Real.sqrt_sq (by positivity)]
  field_simp

theorem boost_matrix {u : V4} (h : FourVelocity u) (p : V4) (mu : Fin 4) :
    up (boost p (frame u)) mu = ∑ k, boostMatrix u mu k * up p k := by
  have h2 := h.2
  have h1 := four_sqr h
  have h3 : (1 : ℝ) + u.t ≠ 0 := by positivity
  have h3' : u.t + 1 ≠ 0 := by positivity
  simp only [boost, frame_gamma h]
  fin_cases mu <;>
    simp [up, boostMatrix, Fin.sum_univ_four, V4.mk', V3.sub, V3.smul, V4.vec, V3.dot, frame,
      V3.div] <;>
    field_simp <;> ring

/-- The matrix of the boost to the frame of `u`: column `k` is the boosted unit vector. -/
noncomputable def Lambda (u : V4) (mu k : Fin 4) : ℝ :=
  up (boost ⟨if k = 0 then 1 else 0, if k = 1 then 1 else 0, if k = 2 then 1 else 0,
    if k = 3 then 1 else 0⟩ (frame u)) mu

theorem lambda_eq {u : V4} (h : FourVelocity u) (mu k : Fin 4) :
    Lambda u mu k = boostMatrix u mu k := by
  unfold Lambda
  rw [boost_matrix h]
  fin_cases k <;> simp [up, Fin.sum_univ_four]

theorem boostMatrix_symm (u : V4) (mu nu : Fin 4) : boostMatrix u mu nu = boostMatrix u nu mu := by
  fin_cases mu <;> fin_cases nu <;> simp [boostMatrix, V3.div, V3.smul, V4.vec] <;> ring

theorem boosted_comp (T : Tmn) (u : V4) (mu nu : Fin 4) :
    comp (boosted T u) mu nu = (boostMatrix u * full T * boostMatrix u) mu nu := by
  have hT : (full T).transpose = full T := by
    ext i j; fin_cases i <;> fin_cases j <;> rfl
  have hL : (boostMatrix u).transpose = boostMatrix u := by
    ext i j; exact boostMatrix_symm u j i
  have hs : ∀ i j, (boostMatrix u * full T * boostMatrix u) i j
      = (boostMatrix u * full T * boostMatrix u) j i := by
    intro i j
    have : (boostMatrix u * full T * boostMatrix u).transpose
        = boostMatrix u * full T * boostMatrix u := by
      rw [transpose_mul, transpose_mul, hT, hL, Matrix.mul_assoc]
    exact congrFun (congrFun this j) i |>.symm ▸ rfl
  rw [comp_full]
  fin_cases mu <;> fin_cases nu <;> first | rfl | exact hs _ _

/-- **C105 (boost).** For a four-velocity with lower index, the boosted tensor is the Lorentz
transform of the tensor into the frame of that velocity. -/
theorem C105_boost (T : Tmn) {u : V4} (h : FourVelocity u) (mu nu : Fin 4) :
    comp (boosted T u) mu nu = ∑ a, ∑ b, Lambda u mu a * Lambda u nu b * comp T a b := by
  rw [boosted_comp]
  simp only [lambda_eq h, Matrix.mul_apply, comp_full, Fin.sum_univ_four]
  rw [boostMatrix_symm u 0 nu, boostMatrix_symm u 1 nu, boostMatrix_symm u 2 nu,
    boostMatrix_symm u 3 nu]
  ring

/-- **C105 (boosted particles).** Boosting the tensor of some particles gives the sum of
p'^mu p'^nu / p^0 over their boosted momenta p'. -/
theorem C105_boosted_particles (ps : List V4) (h0 : ∀ p ∈ ps, p.t ≠ 0) {u : V4}
    (h : FourVelocity u) (mu nu : Fin 4) :
    comp (boosted (ps.foldl addMom zero) u) mu nu
      = (ps.map fun p => up (boost p (frame u)) mu * up (boost p (frame u)) nu / p.t).sum := by
  rw [C105_boost _ h]
  have e : ∀ a b, comp (ps.foldl addMom zero) a b = tensorOf ps a b := by
    intro a b
    rw [(C105_particles ps h0 zero a b).1, comp_zero, zero_add]
  simp only [e, lambda_eq h]
  clear e h0
  induction ps with
  | nil => simp [tensorOf]
  | cons p ps ih =>
    simp only [List.map_cons, List.sum_cons]
    rw [← ih]
    simp only [tensorOf, List.map_cons, List.sum_cons, boost_matrix h, Fin.sum_univ_four]
    ring

/-- The four-velocity with lower index of the inverse boost. -/
def opposite (u : V4) : V4 := ⟨u.t, -u.x, -u.y, -u.z⟩

theorem opposite_mul {u : V4} (h : FourVelocity u) :
    boostMatrix (opposite u) * boostMatrix u = 1 := by
  have h1 := four_sqr h
  have h2 := h.2
  have h3 : (1 : ℝ) + u.t ≠ 0 := by positivity
  ext i j
  fin_cases i <;> fin_cases j <;>
    simp [boostMatrix, Matrix.mul_apply, Fin.sum_univ_four, opposite, V3.div, V3.smul, V4.vec] <;>
    field_simp <;> grind

/-- **C105 (there and back).** Boosting with the opposite velocity undoes a boost, and boosting
with velocity zero changes nothing. -/
theorem C105_there_and_back (T : Tmn) {u : V4} (h : FourVelocity u) :
    boosted (boosted T u) (opposite u) = T ∧ boosted T ⟨1, 0, 0, 0⟩ = T := by
  have hop : FourVelocity (opposite u) := by
    refine ⟨?_, h.2⟩
    have := four_sqr h
    simp only [V4.sqr, V4.dot, V4.vec, V3.dot, opposite]
    linarith
  have hm : boostMatrix u * boostMatrix (opposite u) = 1 := by
    have := opposite_mul hop
    simpa [opposite] using this
  constructor
  · apply ext_comp
    intro mu nu
    have hf : full (boosted T u) = boostMatrix u * full T * boostMatrix u := by
      ext i j
      rw [← comp_full, boosted_comp]
    rw [boosted_comp, hf, comp_full]
    have : boostMatrix (opposite u) * (boostMatrix u * full T * boostMatrix u) *
        boostMatrix (opposite u)
        = (boostMatrix (opposite u) * boostMatrix u) * full T *
          (boostMatrix u * boostMatrix (opposite u)) := by
      simp only [Matrix.mul_assoc]
    rw [this, opposite_mul h, hm, Matrix.one_mul, Matrix.mul_one]
  · apply ext_comp
    intro mu nu
    have : boostMatrix ⟨1, 0, 0, 0⟩ = 1 := by
      ext i j
      fin_cases i <;> fin_cases j <;> simp [boostMatrix, V3.div, V3.smul, V4.vec]
    rw [boosted_comp, this, comp_full, Matrix.one_mul, Matrix.mul_one]

/-- The trace with the metric (1, -1, -1, -1). -/
noncomputable def trace (T : Tmn) : ℝ := comp T 0 0 - comp T 1 1 - comp T 2 2 - comp T 3 3

/-- **C105 (trace).** The trace does not depend on the frame. -/
theorem C105_trace (T : Tmn) {u : V4} (h : FourVelocity u) : trace (boosted T u) = trace T := by
  have h1 := four_sqr h
  have h2 := h.2
  have h3 : (1 : ℝ) + u.t ≠ 0 := by positivity
  have hL : ∀ a b : Fin 4, boostMatrix u 0 a * boostMatrix u 0 b - boostMatrix u 1 a * boostMatrix u 1 b
      - boostMatrix u 2 a * boostMatrix u 2 b - boostMatrix u 3 a * boostMatrix u 3 b
      = if a = b then (if a = 0 then 1 else -1) else 0 := by
    intro a b
    fin_cases a <;> fin_cases b <;>
      simp [boostMatrix, V3.div, V3.smul, V4.vec] <;> field_simp <;> grind
  have e : trace (boosted T u) = ∑ a, ∑ b, (boostMatrix u 0 a * boostMatrix u 0 b
      - boostMatrix u 1 a * boostMatrix u 1 b - boostMatrix u 2 a * boostMatrix u 2 b
      - boostMatrix u 3 a * boostMatrix u 3 b) * comp T a b := by
    simp only [trace, C105_boost T h, lambda_eq h, Fin.sum_univ_four]
    ring
  rw [e]
  simp only [hL, Fin.sum_univ_four, trace]
  simp
  ring

end Verif.Emt
