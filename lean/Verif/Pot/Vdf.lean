import Verif.Pot.Skyrme
import Mathlib.Analysis.SpecialFunctions.Sqrt
/-!
C126: the vector density functional (VDF) potential.
-/
namespace Verif.Pot
open Verif.Kin Verif.Emt

/-! ### Specification -/

/-- The VDF field of a current `j` with rest frame density `rho` and saturation density `sat`: the sum over the
terms of `C (rho/sat)^(b-2) j/sat`. -/
noncomputable def vdfSpec (sat : ℝ) (terms : List (ℝ × ℝ)) (rho : ℝ) (j : V4) : V4 :=
  let s := (terms.map fun e => e.1 * (rho / sat) ^ (e.2 - 2)).sum / sat
  ⟨s * j.t, s * j.x, s * j.y, s * j.z⟩

/-- The derivative of a four-vector along a curve at zero. -/
def HasDeriv4 (f : ℝ → V4) (d : V4) : Prop :=
  HasDerivAt (fun s => (f s).t) d.t 0 ∧ HasDerivAt (fun s => (f s).x) d.x 0 ∧
  HasDerivAt (fun s => (f s).y) d.y 0 ∧ HasDerivAt (fun s => (f s).z) d.z 0

/-! ### Values -/

theorem sum_factor {α : Type} (l : List α) (f g : α → ℝ) (h : ∀ e ∈ l, f e = g e) :
    (l.map f).sum = (l.map g).sum := by
  rw [List.map_congr_left h]

theorem vdf_term {sat a b : ℝ} (hs : 0 < sat) (ha : 0 < a) :
    a ^ (b - 2) / sat ^ (b - 1) = (a / sat) ^ (b - 2) / sat := by
  rw [Real.div_rpow ha.le hs.le, show b - 1 = (b - 2) + 1 by ring, Real.rpow_add_one hs.ne']
  field_simp

theorem verySmall_pos : 0 < verySmall := by unfold verySmall; norm_num

theorem absRho_pos (rho : ℝ) : 0 < absRho rho := by
  unfold absRho; split_ifs with h
  · exact verySmall_pos
  · exact lt_of_lt_of_le verySmall_pos (not_lt.1 h)

theorem absRho_neg (rho : ℝ) : absRho (-rho) = absRho rho := by unfold absRho; rw [abs_neg]

theorem absRho_of_pos {rho : ℝ} (h : verySmall ≤ rho) : absRho rho = rho := by
  have : 0 < rho := lt_of_lt_of_le verySmall_pos h
  unfold absRho
  rw [abs_of_pos this, if_neg (not_lt.2 h)]

/-- **C126.** In matter the field is the VDF field of the density and the current. -/
theorem C126_value (P : Pars) (hs : 0 < P.sat) {rho : ℝ} (h : verySmall ≤ rho) (j : V4) :
    vdfPot P rho j = vdfSpec P.sat P.terms rho j := by
  have hp : 0 < rho := lt_of_lt_of_le verySmall_pos h
  unfold vdfPot vdfF2 vdfSpec smul4
  rw [absRho_of_pos h, sgn_pos hp, mul_one]
  have e : (P.terms.map fun e => e.1 * rho ^ (e.2 - 2) / P.sat ^ (e.2 - 1)).sum =
      (P.terms.map fun e => e.1 * (rho / P.sat) ^ (e.2 - 2)).sum / P.sat := by
    rw [sum_factor _ _ (fun e => e.1 * (rho / P.sat) ^ (e.2 - 2) * P.sat⁻¹)
      (fun e _ => by rw [mul_div_assoc, vdf_term hs hp]; ring), List.sum_map_mul_right]
    ring
  simp only [e, mul_comm]

/-- In the rest frame the energy of a nucleon is `sum C (rho/sat)^(b-1)`. -/
theorem C126_rest (P : Pars) (hs : 0 < P.sat) {rho : ℝ} (h : verySmall ≤ rho) :
    vdfPot P rho ⟨rho, 0, 0, 0⟩ = ⟨(P.terms.map fun e => e.1 * (rho / P.sat) ^ (e.2 - 1)).sum, 0, 0, 0⟩ := by
  have hp : 0 < rho := lt_of_lt_of_le verySmall_pos h
  rw [C126_value P hs h]
  unfold vdfSpec
  simp only [mul_zero]
  congr 1
  rw [div_mul_eq_mul_div, mul_div_assoc, ← List.sum_map_mul_right]
  refine sum_factor _ _ _ fun e _ => ?_
  rw [mul_assoc, ← Real.rpow_add_one (by positivity), show e.2 - 2 + 1 = e.2 - 1 by ring]

/-- The field kept on the lattice of fields is the one of the potential. -/
theorem C126_field (P : Pars) (hs : 0 < P.sat) (rho : ℝ) (j : V4) : fieldAt P rho j = vdfPot P rho j := by
  unfold fieldAt vdfPot vdfF2
  congr 1
  rw [← List.sum_map_mul_right]
  refine sum_factor _ _ _ fun e _ => ?_
  rw [mul_div_assoc e.1, vdf_term hs (absRho_pos rho)]
  ring

/-- **C126 is false for antimatter**: the field of the mirrored surroundings is the same, where it should be the
opposite; with the opposite scale the antiparticle has the opposite energy instead of the same. -/
theorem C126_antimatter_false (P : Pars) {rho : ℝ} (h : rho ≠ 0) (j : V4) (d : Nat) :
    vdfPot P (-rho) (smul4 j (-1)) = vdfPot P rho j ∧
    (forceScale (Pdg.getAntiparticle d)).1 * (vdfPot P (-rho) (smul4 j (-1))).t =
      -((forceScale d).1 * (vdfPot P rho j).t) := by
  have hs : sgn (-rho) = -sgn rho := by
    rcases lt_or_gt_of_ne h with h | h
    · rw [sgn_pos (neg_pos.2 h), sgn_neg h.le, neg_neg]
    · rw [sgn_pos h, sgn_neg (neg_lt_zero.2 h).le]
  have e : vdfPot P (-rho) (smul4 j (-1)) = vdfPot P rho j := by
    unfold vdfPot vdfF2 smul4
    simp only [absRho_neg, hs]
    congr 1 <;> ring
  refine ⟨e, ?_⟩
  rw [e, C125_antiparticle]
  ring

/-! ### Forces -/

theorem sum_deriv (l : List (ℝ × ℝ)) (f g : ℝ × ℝ → ℝ → ℝ) (x : ℝ)
    (h : ∀ e ∈ l, HasDerivAt (f e) (g e x) x) :
    HasDerivAt (fun r => (l.map fun e => f e r).sum) ((l.map fun e => g e x).sum) x := by
  induction l with
  | nil => simpa using hasDerivAt_const x (0 : ℝ)
  | cons e l ih =>
    simp only [List.map_cons, List.sum_cons]
    exact (h e (List.mem_cons_self ..)).add (ih fun e he => h e (List.mem_cons_of_mem _ he))

theorem vdfF2_deriv (P : Pars) {rho : ℝ} (h : verySmall < rho) : HasDerivAt (vdfF2 P) (vdfF1 P rho) rho := by
  have hp : 0 < rho := verySmall_pos.trans h
  have h1 : HasDerivAt (fun r : ℝ => (P.terms.map fun e => e.1 * r ^ (e.2 - 2) / P.sat ^ (e.2 - 1)).sum)
      ((P.terms.map fun e => e.1 * (e.2 - 2) * rho ^ (e.2 - 3) / P.sat ^ (e.2 - 1)).sum) rho := by
    refine sum_deriv _ (fun e r => e.1 * r ^ (e.2 - 2) / P.sat ^ (e.2 - 1))
      (fun e r => e.1 * (e.2 - 2) * r ^ (e.2 - 3) / P.sat ^ (e.2 - 1)) rho fun e _ => ?_
    have := (((hasDerivAt_id rho).rpow_const (p := e.2 - 2) (Or.inl hp.ne')).const_mul e.1).div_const
      (P.sat ^ (e.2 - 1))
    refine HasDerivAt.congr_deriv this ?_
    simp only [id]
    rw [show e.2 - 2 - 1 = e.2 - 3 by ring]
    ring
  have h2 : vdfF1 P rho = (P.terms.map fun e => e.1 * (e.2 - 2) * rho ^ (e.2 - 3) / P.sat ^ (e.2 - 1)).sum := by
    unfold vdfF1; rw [absRho_of_pos h.le, sgn_pos hp, mul_one]
  rw [h2]
  refine h1.congr_of_eventuallyEq ?_
  filter_upwards [lt_mem_nhds h] with r hr
  unfold vdfF2
  rw [absRho_of_pos hr.le, sgn_pos (verySmall_pos.trans hr), mul_one]

/-- The rest frame density of a timelike current. -/
noncomputable def density (j : V4) : ℝ := Real.sqrt (j.t ^ 2 - j.x ^ 2 - j.y ^ 2 - j.z ^ 2)

theorem density_deriv {j : ℝ → V4} {d : V4} (h : HasDeriv4 j d) (hp : 0 < density (j 0)) :
    HasDerivAt (fun s => density (j s)) (drho (density (j 0)) (j 0) d) 0 := by
  obtain ⟨h0, h1, h2, h3⟩ := h
  have hne : (j 0).t ^ 2 - (j 0).x ^ 2 - (j 0).y ^ 2 - (j 0).z ^ 2 ≠ 0 := by
    intro e; unfold density at hp; rw [e, Real.sqrt_zero] at hp; exact lt_irrefl _ hp
  have := ((((h0.pow 2).sub (h1.pow 2)).sub (h2.pow 2)).sub (h3.pow 2)).sqrt hne
  refine HasDerivAt.congr_deriv this ?_
  unfold drho
  change _ / (2 * density (j 0)) = _
  simp only [Nat.cast_ofNat, pow_one, Nat.add_one_sub_one, Nat.reduceSub]
  field_simp

/-- The derivative of the field along a curve of currents. -/
theorem field_deriv (P : Pars) {j : ℝ → V4} {d : V4} (h : HasDeriv4 j d) (hp : verySmall < density (j 0)) :
    HasDeriv4 (fun s => vdfPot P (density (j s)) (j s))
      ((smul4 (j 0) (vdfF1 P (density (j 0)) * drho (density (j 0)) (j 0) d)).add
        (smul4 d (vdfF2 P (density (j 0))))) := by
  have h1 := HasDerivAt.comp (h₂ := vdfF2 P) (h := fun s => density (j s)) 0 (vdfF2_deriv P hp)
    (density_deriv h (verySmall_pos.trans hp))
  obtain ⟨a, b, c, e⟩ := h
  refine ⟨?_, ?_, ?_, ?_⟩
  · refine HasDerivAt.congr_deriv (a.mul h1) ?_
    simp only [V4.add, smul4]; ring
  · refine HasDerivAt.congr_deriv (b.mul h1) ?_
    simp only [V4.add, smul4]; ring
  · refine HasDerivAt.congr_deriv (c.mul h1) ?_
    simp only [V4.add, smul4]; ring
  · refine HasDerivAt.congr_deriv (e.mul h1) ?_
    simp only [V4.add, smul4]; ring

/-- **C126.** In matter the force computed from the current and its derivatives is `-grad A0 - dA/dt` and
`curl A` of the field `A`. The currents along time and the three axes through the point are `jt`, `jx`, `jy`, `jz`;
`B` holds their derivatives as `current_eckart` does. -/
theorem C126_force (P : Pars) (hv : P.vdf = true) (B : Dens.Current) (jt jx jy jz : ℝ → V4)
    (h0 : jt 0 = B.jmu ∧ jx 0 = B.jmu ∧ jy 0 = B.jmu ∧ jz 0 = B.jmu)
    (ht : HasDeriv4 jt B.dt) (hx : HasDeriv4 jx B.dx) (hy : HasDeriv4 jy B.dy) (hz : HasDeriv4 jz B.dz)
    (hr : B.rho = density B.jmu) (hp : verySmall < B.rho)
    (hg : B.gradJ0 = ⟨B.dx.t, B.dy.t, B.dz.t⟩)
    (hc : B.curl = ⟨B.dy.z - B.dz.y, B.dz.x - B.dx.z, B.dx.y - B.dy.x⟩) :
    ∃ at' ax ay az : V4,
      HasDeriv4 (fun s => vdfPot P (density (jt s)) (jt s)) at' ∧
      HasDeriv4 (fun s => vdfPot P (density (jx s)) (jx s)) ax ∧
      HasDeriv4 (fun s => vdfPot P (density (jy s)) (jy s)) ay ∧
      HasDeriv4 (fun s => vdfPot P (density (jz s)) (jz s)) az ∧
      vdfAll P B = (⟨-ax.t - at'.x, -ay.t - at'.y, -az.t - at'.z⟩,
        ⟨ay.z - az.y, az.x - ax.z, ax.y - ay.x⟩) := by
  obtain ⟨e0, e1, e2, e3⟩ := h0
  have hp0 : 0 < B.rho := verySmall_pos.trans hp
  have d0 := field_deriv P ht (by rw [e0, ← hr]; exact hp)
  have d1 := field_deriv P hx (by rw [e1, ← hr]; exact hp)
  have d2 := field_deriv P hy (by rw [e2, ← hr]; exact hp)
  have d3 := field_deriv P hz (by rw [e3, ← hr]; exact hp)
  rw [e0, ← hr] at d0; rw [e1, ← hr] at d1; rw [e2, ← hr] at d2; rw [e3, ← hr] at d3
  refine ⟨_, _, _, _, d0, d1, d2, d3, ?_⟩
  have es : safeRho B.rho = B.rho := by
    unfold safeRho; rw [abs_of_pos hp0, if_neg (not_lt.2 hp.le)]
  unfold vdfAll vdfForce nodeOf
  rw [es, if_pos hv, hg, hc]
  simp only [V3.add, V3.sub, V3.smul, V3.cross, V4.vec, V4.add, smul4, zero3]
  congr 2
  · ring
  · ring
  · ring
  · ring
  · ring
  · ring

/-- The forces from directly computed derivatives of the field agree with those from the chain rule. -/
theorem C126_direct (P : Pars) (hv : P.vdf = true) (B : Dens.Current) (jt jx jy jz : ℝ → V4)
    (h0 : jt 0 = B.jmu ∧ jx 0 = B.jmu ∧ jy 0 = B.jmu ∧ jz 0 = B.jmu)
    (ht : HasDeriv4 jt B.dt) (hx : HasDeriv4 jx B.dx) (hy : HasDeriv4 jy B.dy) (hz : HasDeriv4 jz B.dz)
    (hr : B.rho = density B.jmu) (hp : verySmall < B.rho)
    (hg : B.gradJ0 = ⟨B.dx.t, B.dy.t, B.dz.t⟩)
    (hc : B.curl = ⟨B.dy.z - B.dz.y, B.dz.x - B.dx.z, B.dx.y - B.dy.x⟩)
    (at' ax ay az : V4)
    (kt : HasDeriv4 (fun s => vdfPot P (density (jt s)) (jt s)) at')
    (kx : HasDeriv4 (fun s => vdfPot P (density (jx s)) (jx s)) ax)
    (ky : HasDeriv4 (fun s => vdfPot P (density (jy s)) (jy s)) ay)
    (kz : HasDeriv4 (fun s => vdfPot P (density (jz s)) (jz s)) az) :
    vdfForceA P ⟨ax.t, ay.t, az.t⟩ at'.vec ⟨ay.z - az.y, az.x - ax.z, ax.y - ay.x⟩ = vdfAll P B := by
  obtain ⟨bt, bx, by', bz, qt, qx, qy, qz, e⟩ := C126_force P hv B jt jx jy jz h0 ht hx hy hz hr hp hg hc
  have u : ∀ {f : ℝ → V4} {a b : V4}, HasDeriv4 f a → HasDeriv4 f b → a = b := by
    intro f a b ha hb
    obtain ⟨a0, a1, a2, a3⟩ := ha; obtain ⟨b0, b1, b2, b3⟩ := hb
    have := a0.unique b0; have := a1.unique b1; have := a2.unique b2; have := a3.unique b3
    cases a; cases b; simp_all
  rw [e, u kt qt, u kx qx, u ky qy, u kz qz]
  unfold vdfForceA
  rw [if_pos hv]
  simp only [V3.add, V3.sub, V4.vec, zero3, zero_add]
  congr 2 <;> ring

/-- A current growing along x: the hypotheses of the force theorem hold. -/
example : ∃ (B : Dens.Current) (jt jx jy jz : ℝ → V4),
    (jt 0 = B.jmu ∧ jx 0 = B.jmu ∧ jy 0 = B.jmu ∧ jz 0 = B.jmu) ∧
    HasDeriv4 jt B.dt ∧ HasDeriv4 jx B.dx ∧ HasDeriv4 jy B.dy ∧ HasDeriv4 jz B.dz ∧
    B.rho = density B.jmu ∧ verySmall < B.rho ∧ B.gradJ0 = ⟨B.dx.t, B.dy.t, B.dz.t⟩ ∧
    B.curl = ⟨B.dy.z - B.dz.y, B.dz.x - B.dx.z, B.dx.y - B.dy.x⟩ ∧ B.gradJ0.x ≠ 0 := by
  have c : ∀ j : V4, HasDeriv4 (fun _ => j) ⟨0, 0, 0, 0⟩ := fun j =>
    ⟨hasDerivAt_const .., hasDerivAt_const .., hasDerivAt_const .., hasDerivAt_const ..⟩
  have hd : density ⟨5, 3, 0, 0⟩ = 4 := by
    unfold density
    rw [show (5 : ℝ) ^ 2 - 3 ^ 2 - 0 ^ 2 - 0 ^ 2 = 4 ^ 2 by norm_num, Real.sqrt_sq (by norm_num)]
  refine ⟨⟨4, ⟨5, 3, 0, 0⟩, ⟨1, 0, 0⟩, ⟨0, 0, 0⟩, ⟨0, 0, 0, 0⟩, ⟨1, 0, 0, 0⟩, ⟨0, 0, 0, 0⟩, ⟨0, 0, 0, 0⟩⟩,
    fun _ => ⟨5, 3, 0, 0⟩, fun s => ⟨5 + s, 3, 0, 0⟩, fun _ => ⟨5, 3, 0, 0⟩, fun _ => ⟨5, 3, 0, 0⟩,
    ⟨rfl, by simp, rfl, rfl⟩, c _, ⟨?_, hasDerivAt_const .., hasDerivAt_const .., hasDerivAt_const ..⟩, c _, c _,
    hd.symm, by unfold verySmall; norm_num, rfl, by simp, by norm_num⟩
  simpa using (hasDerivAt_id (0 : ℝ)).const_add 5

end Verif.Pot
