import Verif.Kin.Model
import Mathlib.Analysis.SpecialFunctions.Complex.Arg
import Mathlib.Analysis.SpecialFunctions.Trigonometric.Inverse
import Mathlib.Tactic.Linarith
import Mathlib.Tactic.Ring
import Mathlib.Tactic.FieldSimp
import Mathlib.Tactic.Positivity
import Mathlib.Tactic.LinearCombination
/-! Rotations (threevector.h) and `Angles` (angles.h), over the reals; C67. -/
namespace Verif.Kin
open Real

/-- `std::atan2`. -/
noncomputable def atan2 (y x : ℝ) : ℝ := Complex.arg ⟨x, y⟩

/-- `ThreeVector::get_phi`, threevector.h:279-285. -/
noncomputable def V3.phi (a : V3) : ℝ :=
  if |a.x| < 1 / 1000000 ∧ |a.y| < 1 / 1000000 then 0 else atan2 a.y a.x

/-- `ThreeVector::get_theta`, threevector.h:287-290. -/
noncomputable def V3.theta (a : V3) : ℝ :=
  let r := a.abs
  if r > 0 then Real.arccos (a.z / r) else 0

/-- `ThreeVector::rotate`, threevector.h:292-311. -/
noncomputable def V3.rotate (a : V3) (phi theta psi : ℝ) : V3 :=
  ⟨(cos phi * cos psi - sin phi * cos theta * sin psi) * a.x +
      (-cos phi * sin psi - sin phi * cos theta * cos psi) * a.y + (sin phi * sin theta) * a.z,
    (sin phi * cos psi + cos phi * cos theta * sin psi) * a.x +
      (-sin phi * sin psi + cos phi * cos theta * cos psi) * a.y + (-cos phi * sin theta) * a.z,
    (sin theta * sin psi) * a.x + (sin theta * cos psi) * a.y + cos theta * a.z⟩

/-- `ThreeVector::rotate_around_y`, threevector.h:313-322. -/
noncomputable def V3.rotY (a : V3) (theta : ℝ) : V3 :=
  ⟨cos theta * a.x + sin theta * a.z, a.y, -sin theta * a.x + cos theta * a.z⟩

/-- `ThreeVector::rotate_around_z`, threevector.h:324-333. -/
noncomputable def V3.rotZ (a : V3) (theta : ℝ) : V3 :=
  ⟨cos theta * a.x - sin theta * a.y, sin theta * a.x + cos theta * a.y, a.z⟩

/-- `ThreeVector::rotate_z_axis_to`, threevector.h:335-338. -/
noncomputable def V3.rotZTo (a r : V3) : V3 := (a.rotY r.theta).rotZ r.phi

/-- `Angles`, angles.h:50-190 (without the Euler angle `psi`). -/
structure Angles where
  (phi costheta : ℝ)

/-- `set_phi`, angles.h:205-211. -/
noncomputable def Angles.setPhi (a : Angles) (p : ℝ) : Angles :=
  if p < 0 ∨ p ≥ 2 * π then { a with phi := p - 2 * π * ⌊p / (2 * π)⌋ } else { a with phi := p }

/-- `set_costheta`, angles.h:221-236: the object after the call and whether it returned
(`true`) or threw. -/
noncomputable def Angles.setCosTheta (a : Angles) (c : ℝ) : Angles × Bool :=
  if c < -1 - 1 / 1000000 ∨ c > 1 + 1 / 1000000 then ({ a with costheta := c }, false)
  else if c < -1 then ({ a with costheta := -1 }, true)
  else if c > 1 then ({ a with costheta := 1 }, true)
  else ({ a with costheta := c }, true)

/-- `set_theta`, angles.h:237-241. -/
noncomputable def Angles.setTheta (a : Angles) (t : ℝ) : Angles × Bool := a.setCosTheta (cos t)

/-- `theta`, angles.h:292. -/
noncomputable def Angles.theta (a : Angles) : ℝ := arccos a.costheta

/-- Result of a call of `add_to_theta`. -/
inductive Ret where
  | threw
  | ret (crossed : Bool)
  deriving DecidableEq

/-- `add_to_theta(delta)`, angles.h:243-267. -/
noncomputable def Angles.addToTheta (a : Angles) (d : ℝ) : Angles × Ret :=
  if d < -π ∨ d > π then (a, .threw)
  else
    let s := d + a.theta
    if s > π then
      let r := a.setTheta (2 * π - s)
      if r.2 then (r.1.setPhi (r.1.phi + π), .ret true) else (r.1, .threw)
    else if s < 0 then
      let r := a.setTheta (-s)
      if r.2 then (r.1.setPhi (r.1.phi + π), .ret true) else (r.1, .threw)
    else
      let r := a.setTheta s
      if r.2 then (r.1, .ret false) else (r.1, .threw)

/-- `add_to_theta(delta, reverse)`, angles.h:268-276. -/
noncomputable def Angles.addToTheta2 (a : Angles) (d : ℝ) (reverse : Bool) : Angles × Ret :=
  let r := a.addToTheta ((if reverse then -1 else 1) * d)
  match r.2 with
  | .threw => (r.1, .threw)
  | .ret b => (r.1, .ret (b ^^ reverse))

/-- `threevec` and the projections, angles.h:281-290. -/
noncomputable def Angles.threevec (a : Angles) : V3 :=
  let st := Real.sqrt (1 - a.costheta * a.costheta)
  ⟨st * cos a.phi, st * sin a.phi, a.costheta⟩

/-- Calls a user can make on an `Angles` object; `distribute_isotropically`
(angles.h:199-203) with the two numbers drawn. -/
inductive AOp where
  | setPhi (p : ℝ)
  | setCosTheta (c : ℝ)
  | setTheta (t : ℝ)
  | addToTheta (d : ℝ)
  | addToTheta2 (d : ℝ) (reverse : Bool)
  | isotropic (u w : ℝ)

/-- One call; `none` if it throws. -/
noncomputable def Angles.step (a : Angles) : AOp → Option Angles
  | .setPhi p => some (a.setPhi p)
  | .setCosTheta c => if (a.setCosTheta c).2 then some (a.setCosTheta c).1 else none
  | .setTheta t => if (a.setTheta t).2 then some (a.setTheta t).1 else none
  | .addToTheta d => if (a.addToTheta d).2 = .threw then none else some (a.addToTheta d).1
  | .addToTheta2 d r => if (a.addToTheta2 d r).2 = .threw then none else some (a.addToTheta2 d r).1
  | .isotropic u w => some ⟨u, w⟩

/-! ### C67 -/

/-- Cartesian inner product, spelled out. -/
def inner3 (a b : V3) : ℝ := a.x * b.x + a.y * b.y + a.z * b.z

/-- **C67**, rotations preserve inner products, so lengths and angles. -/
theorem C67_rotations (a b r : V3) (p t q : ℝ) :
    inner3 (a.rotate p t q) (b.rotate p t q) = inner3 a b ∧
    inner3 (a.rotY t) (b.rotY t) = inner3 a b ∧ inner3 (a.rotZ t) (b.rotZ t) = inner3 a b ∧
    inner3 (a.rotZTo r) (b.rotZTo r) = inner3 a b := by
  have hy (a b : V3) (t : ℝ) : inner3 (a.rotY t) (b.rotY t) = inner3 a b := by
    unfold inner3 V3.rotY
    linear_combination (a.x * b.x + a.z * b.z) * sin_sq_add_cos_sq t
  have hz (a b : V3) (t : ℝ) : inner3 (a.rotZ t) (b.rotZ t) = inner3 a b := by
    unfold inner3 V3.rotZ
    linear_combination (a.x * b.x + a.y * b.y) * sin_sq_add_cos_sq t
  refine ⟨?_, hy a b t, hz a b t, ?_⟩
  · have h1 := sin_sq_add_cos_sq p
    have h2 := sin_sq_add_cos_sq t
    have h3 := sin_sq_add_cos_sq q
    unfold inner3 V3.rotate
    simp only
    generalize sin p = sp at *
    generalize cos p = cp at *
    generalize sin t = st at *
    generalize cos t = ct at *
    generalize sin q = sq at *
    generalize cos q = cq at *
    -- the rotation is the product of three rotations
    have e1 (A B A' B' : ℝ) : (cp * A - sp * B) * (cp * A' - sp * B') +
        (sp * A + cp * B) * (sp * A' + cp * B') = A * A' + B * B' := by
      linear_combination (A * A' + B * B') * h1
    have e2 (A B A' B' : ℝ) : (ct * A - st * B) * (ct * A' - st * B') +
        (st * A + ct * B) * (st * A' + ct * B') = A * A' + B * B' := by
      linear_combination (A * A' + B * B') * h2
    have e3 (A B A' B' : ℝ) : (cq * A - sq * B) * (cq * A' - sq * B') +
        (sq * A + cq * B) * (sq * A' + cq * B') = A * A' + B * B' := by
      linear_combination (A * A' + B * B') * h3
    have k1 := e1 (cq * a.x - sq * a.y) (ct * (sq * a.x + cq * a.y) - st * a.z)
      (cq * b.x - sq * b.y) (ct * (sq * b.x + cq * b.y) - st * b.z)
    have k2 := e2 (sq * a.x + cq * a.y) a.z (sq * b.x + cq * b.y) b.z
    have k3 := e3 a.x a.y b.x b.y
    linear_combination k1 + k2 + k3
  · unfold V3.rotZTo
    rw [hz, hy]

/-- **C67**, `rotate_z_axis_to` turns the z axis into the direction of `r`, unless both
transverse components of `r` are below 1e-6. -/
theorem C67_z_axis_partial (r : V3) (h : 1 / 1000000 ≤ |r.x| ∨ 1 / 1000000 ≤ |r.y|) :
    (V3.mk 0 0 1).rotZTo r = ⟨r.x / sqrt (r.x ^ 2 + r.y ^ 2 + r.z ^ 2),
      r.y / sqrt (r.x ^ 2 + r.y ^ 2 + r.z ^ 2), r.z / sqrt (r.x ^ 2 + r.y ^ 2 + r.z ^ 2)⟩ := by
  have hne : r.x ≠ 0 ∨ r.y ≠ 0 := by
    rcases h with h | h
    · left; intro e; rw [e, abs_zero] at h; norm_num at h
    · right; intro e; rw [e, abs_zero] at h; norm_num at h
  have hpt : 0 < r.x ^ 2 + r.y ^ 2 := by
    rcases hne with h | h
    · have := sq_nonneg r.y; positivity
    · have := sq_nonneg r.x; positivity
  have hr2 : 0 < r.x ^ 2 + r.y ^ 2 + r.z ^ 2 := by nlinarith [sq_nonneg r.z]
  have hR : 0 < sqrt (r.x ^ 2 + r.y ^ 2 + r.z ^ 2) := sqrt_pos.2 hr2
  have hRsq := sq_sqrt hr2.le
  have habs : r.abs = sqrt (r.x ^ 2 + r.y ^ 2 + r.z ^ 2) := by
    unfold V3.abs V3.dot; congr 1; ring
  have hth : r.theta = arccos (r.z / sqrt (r.x ^ 2 + r.y ^ 2 + r.z ^ 2)) := by
    unfold V3.theta; rw [habs]; simp only; rw [if_pos hR]
  have hph : r.phi = Complex.arg ⟨r.x, r.y⟩ := by
    unfold V3.phi atan2
    rw [if_neg]
    rintro ⟨a, b⟩
    rcases h with h | h <;> linarith
  generalize hRR : sqrt (r.x ^ 2 + r.y ^ 2 + r.z ^ 2) = R at *
  have hc0 : (⟨r.x, r.y⟩ : ℂ) ≠ 0 := by
    intro e
    rcases hne with h | h
    · exact h (congrArg Complex.re e)
    · exact h (congrArg Complex.im e)
  have hnorm : ‖(⟨r.x, r.y⟩ : ℂ)‖ = sqrt (r.x ^ 2 + r.y ^ 2) := by
    rw [Complex.norm_def, Complex.normSq_mk]; congr 1; ring
  have hpp := sqrt_pos.2 hpt
  have hst : sin r.theta = sqrt (r.x ^ 2 + r.y ^ 2) / R := by
    rw [hth, sin_arccos, ← sqrt_sq hR.le, ← sqrt_div hpt.le, sqrt_sq hR.le]
    congr 1
    rw [div_pow, hRsq]
    field_simp
    ring
  have hct : cos r.theta = r.z / R := by
    rw [hth, cos_arccos]
    · rw [le_div_iff₀ hR]; nlinarith
    · rw [div_le_one hR]; nlinarith
  have hcp : cos r.phi = r.x / sqrt (r.x ^ 2 + r.y ^ 2) := by
    rw [hph, Complex.cos_arg hc0, hnorm]
  have hsp : sin r.phi = r.y / sqrt (r.x ^ 2 + r.y ^ 2) := by
    rw [hph, Complex.sin_arg, hnorm]
  unfold V3.rotZTo V3.rotY V3.rotZ
  rw [hst, hct, hcp, hsp]
  ext <;> simp only <;> field_simp <;> ring

/-- Below 1e-6 the azimuth is taken to be 0, even for a vector that has no other
component: the z axis is turned to the x axis instead of the y axis. -/
theorem C67_tiny_vector : (V3.mk 0 0 1).rotZTo ⟨0, 1 / 10000000, 0⟩ = ⟨1, 0, 0⟩ := by
  have h1 : V3.theta ⟨0, 1 / 10000000, 0⟩ = π / 2 := by
    unfold V3.theta V3.abs V3.dot
    simp only
    rw [if_pos (sqrt_pos.2 (by norm_num)), zero_div, arccos_zero]
  have h2 : V3.phi ⟨0, 1 / 10000000, 0⟩ = 0 := by
    unfold V3.phi
    rw [if_pos]
    constructor
    · simp
    · rw [abs_of_pos (by norm_num)]; norm_num
  unfold V3.rotZTo V3.rotY V3.rotZ
  rw [h1, h2]
  simp

/-- The range an `Angles` object is documented to keep. -/
def InRange (a : Angles) : Prop := 0 ≤ a.phi ∧ a.phi < 2 * π ∧ -1 ≤ a.costheta ∧ a.costheta ≤ 1

theorem setPhi_spec (a : Angles) (p : ℝ) : (a.setPhi p).costheta = a.costheta ∧
    0 ≤ (a.setPhi p).phi ∧ (a.setPhi p).phi < 2 * π ∧
    ∃ n : ℤ, (a.setPhi p).phi = p + n * (2 * π) := by
  have hpi := pi_pos
  unfold Angles.setPhi
  split_ifs with h
  · refine ⟨rfl, ?_, ?_, -⌊p / (2 * π)⌋, ?_⟩
    · have := Int.floor_le (p / (2 * π))
      rw [le_div_iff₀ (by positivity)] at this
      simp only; linarith
    · have := Int.lt_floor_add_one (p / (2 * π))
      rw [div_lt_iff₀ (by positivity)] at this
      simp only; linarith
    · simp only; push_cast; ring
  · rw [not_or] at h
    exact ⟨rfl, by simp only; linarith [h.1], by simp only; linarith [h.2], 0, by simp⟩

theorem setCosTheta_spec (a : Angles) (c : ℝ) (h : (a.setCosTheta c).2 = true) :
    (a.setCosTheta c).1.phi = a.phi ∧ -1 ≤ (a.setCosTheta c).1.costheta ∧
    (a.setCosTheta c).1.costheta ≤ 1 := by
  unfold Angles.setCosTheta at *
  split_ifs at * with h1 h2 h3
  · exact ⟨rfl, by simp, by norm_num⟩
  · exact ⟨rfl, by norm_num, by simp⟩
  · exact ⟨rfl, by simp only; linarith, by simp only; linarith⟩

theorem setTheta_eq (a : Angles) (t : ℝ) : a.setTheta t = (⟨a.phi, cos t⟩, true) := by
  have h1 := neg_one_le_cos t
  have h2 := cos_le_one t
  unfold Angles.setTheta Angles.setCosTheta
  rw [if_neg (by rintro (h | h) <;> linarith), if_neg (by linarith), if_neg (by linarith)]

/-- `add_to_theta` never throws for an increment in [-π, π]. -/
theorem addToTheta_eq (a : Angles) (d : ℝ) (hd : -π ≤ d ∧ d ≤ π) :
    a.addToTheta d =
      if d + a.theta > π then ((⟨a.phi, cos (2 * π - (d + a.theta))⟩ : Angles).setPhi (a.phi + π), .ret true)
      else if d + a.theta < 0 then ((⟨a.phi, cos (-(d + a.theta))⟩ : Angles).setPhi (a.phi + π), .ret true)
      else (⟨a.phi, cos (d + a.theta)⟩, .ret false) := by
  unfold Angles.addToTheta
  rw [if_neg (by rintro (h | h) <;> linarith [hd.1, hd.2])]
  simp only [setTheta_eq, if_true]

/-- **C67**, the ranges are kept by every call that returns, after any history of such
calls. -/
theorem C67_angles_in_range (a : Angles) (ops : List AOp) (h : InRange a)
    (hu : ∀ u w, AOp.isotropic u w ∈ ops → 0 ≤ u ∧ u < 2 * π ∧ -1 ≤ w ∧ w ≤ 1) (b : Angles)
    (hb : ops.foldlM Angles.step a = some b) : InRange b := by
  have one (a b : Angles) (op : AOp) (h : InRange a)
      (hu : ∀ u w, op = AOp.isotropic u w → 0 ≤ u ∧ u < 2 * π ∧ -1 ≤ w ∧ w ≤ 1)
      (hb : a.step op = some b) : InRange b := by
    have add (d : ℝ) (hn : (a.addToTheta d).2 ≠ .threw) : InRange (a.addToTheta d).1 := by
      by_cases hd : -π ≤ d ∧ d ≤ π
      · have c1 (t : ℝ) := neg_one_le_cos t
        have c2 (t : ℝ) := cos_le_one t
        rw [addToTheta_eq a d hd]
        split_ifs with h1 h2
        · obtain ⟨e1, e2, e3, -⟩ := setPhi_spec ⟨a.phi, cos (2 * π - (d + a.theta))⟩ (a.phi + π)
          exact ⟨e2, e3, by rw [e1]; exact c1 _, by rw [e1]; exact c2 _⟩
        · obtain ⟨e1, e2, e3, -⟩ := setPhi_spec ⟨a.phi, cos (-(d + a.theta))⟩ (a.phi + π)
          exact ⟨e2, e3, by rw [e1]; exact c1 _, by rw [e1]; exact c2 _⟩
        · exact ⟨h.1, h.2.1, c1 _, c2 _⟩
      · exfalso
        apply hn
        unfold Angles.addToTheta
        rw [if_pos]
        rw [not_and_or] at hd
        rcases hd with hd | hd
        · left; linarith
        · right; linarith
    have cth (c : ℝ) (hb : (a.setCosTheta c).2 = true) : InRange (a.setCosTheta c).1 := by
      obtain ⟨e1, e2, e3⟩ := setCosTheta_spec a c hb
      exact ⟨by rw [e1]; exact h.1, by rw [e1]; exact h.2.1, e2, e3⟩
    cases op with
    | setPhi p =>
      simp only [Angles.step, Option.some.injEq] at hb
      subst hb
      obtain ⟨e1, e2, e3, -⟩ := setPhi_spec a p
      exact ⟨e2, e3, by rw [e1]; exact h.2.2.1, by rw [e1]; exact h.2.2.2⟩
    | setCosTheta c =>
      simp only [Angles.step] at hb
      split_ifs at hb with hc
      cases hb
      exact cth c hc
    | setTheta t =>
      simp only [Angles.step] at hb
      split_ifs at hb with hc
      cases hb
      exact cth _ hc
    | addToTheta d =>
      simp only [Angles.step] at hb
      split_ifs at hb with hc
      cases hb
      exact add d hc
    | addToTheta2 d r =>
      simp only [Angles.step] at hb
      split_ifs at hb with hc
      cases hb
      unfold Angles.addToTheta2 at *
      simp only at *
      generalize (if r = true then (-1 : ℝ) else 1) * d = x at *
      have hx := add x
      cases hr : (a.addToTheta x).2 with
      | threw => rw [hr] at hc; simp at hc
      | ret bb => simp only; exact hx (by rw [hr]; simp)
    | isotropic u w =>
      simp only [Angles.step, Option.some.injEq] at hb
      subst hb
      exact hu u w rfl
  induction ops generalizing a with
  | nil => simp only [List.foldlM, pure, Option.some.injEq] at hb; subst hb; exact h
  | cons op ops ih =>
    rw [List.foldlM_cons] at hb
    cases hs : a.step op with
    | none => rw [hs] at hb; simp at hb
    | some c =>
      rw [hs] at hb
      exact ih c (one a c op h (fun u w e => hu u w (by simp [e])) hs)
        (fun u w e => hu u w (List.mem_cons_of_mem _ e)) hb

/-- **C67**, `set_phi` keeps the direction: the new azimuth differs by whole turns. -/
theorem C67_set_phi (a : Angles) (p : ℝ) : ∃ n : ℤ, (a.setPhi p).phi = p + n * (2 * π) :=
  (setPhi_spec a p).2.2.2

/-- **C67**, the direction is a unit vector. -/
theorem C67_unit (a : Angles) (h : InRange a) : inner3 a.threevec a.threevec = 1 := by
  have h1 : 0 ≤ 1 - a.costheta * a.costheta := by nlinarith [h.2.2.1, h.2.2.2]
  have h2 := sq_sqrt h1
  unfold inner3 Angles.threevec
  simp only
  generalize sqrt (1 - a.costheta * a.costheta) = s at *
  linear_combination s ^ 2 * sin_sq_add_cos_sq a.phi + h2

/-- **C67**, `add_to_theta` advances the direction along the meridian by the angle `d`:
the new direction is `cos d` times the old one plus `sin d` times the unit vector pointing
south, and the function reports a crossed pole exactly if the polar angle leaves [0, π]. -/
theorem C67_add_to_theta (a : Angles) (d : ℝ) (h : InRange a) (hd : -π ≤ d ∧ d ≤ π) :
    let s := V3.mk (a.costheta * cos a.phi) (a.costheta * sin a.phi)
      (-sqrt (1 - a.costheta ^ 2))
    (a.addToTheta d).1.threevec = (a.threevec.smul (cos d)).add (s.smul (sin d)) ∧
    ((a.addToTheta d).2 = .ret true ↔ d + arccos a.costheta < 0 ∨ π < d + arccos a.costheta) ∧
    (a.addToTheta d).2 ≠ .threw := by
  intro s
  have hpi := pi_pos
  have hth0 : 0 ≤ a.theta := arccos_nonneg _
  have hth1 : a.theta ≤ π := arccos_le_pi _
  have hct : cos a.theta = a.costheta := cos_arccos h.2.2.1 h.2.2.2
  have hst : sin a.theta = sqrt (1 - a.costheta ^ 2) := sin_arccos _
  have hst0 : 0 ≤ sin a.theta := sin_nonneg_of_nonneg_of_le_pi hth0 hth1
  have hold : a.threevec = ⟨sin a.theta * cos a.phi, sin a.theta * sin a.phi, cos a.theta⟩ := by
    unfold Angles.threevec
    rw [hst, hct, sq]
  have hs : s = ⟨cos a.theta * cos a.phi, cos a.theta * sin a.phi, -sin a.theta⟩ := by
    simp only [s]; rw [hst, hct]
  have hvec (b : Angles) (t : ℝ) (hb : b.costheta = cos t) (ht : 0 ≤ sin t) :
      b.threevec = ⟨sin t * cos b.phi, sin t * sin b.phi, cos t⟩ := by
    unfold Angles.threevec
    have : sqrt (1 - b.costheta * b.costheta) = sin t := by
      rw [hb, show 1 - cos t * cos t = sin t * sin t by linear_combination -sin_sq_add_cos_sq t,
        sqrt_mul_self ht]
    rw [this, hb]
  have hshift (p : ℝ) (n : ℤ) (x : Angles) (e : x.phi = (a.phi + π) + n * (2 * π)) :
      cos x.phi = -cos a.phi ∧ sin x.phi = -sin a.phi := by
    rw [e, cos_add_int_mul_two_pi, sin_add_int_mul_two_pi, cos_add_pi, sin_add_pi]
    exact ⟨rfl, rfl⟩
  have hadd := addToTheta_eq a d hd
  have harc : arccos a.costheta = a.theta := rfl
  rw [hadd, hold, hs, harc]
  unfold V3.smul V3.add
  split_ifs with h1 h2
  · obtain ⟨e1, e2, e3, n, e4⟩ := setPhi_spec ⟨a.phi, cos (2 * π - (d + a.theta))⟩ (a.phi + π)
    obtain ⟨f1, f2⟩ := hshift 0 n _ e4
    have hsn : sin (2 * π - (d + a.theta)) = -sin (d + a.theta) := sin_two_pi_sub _
    have hcs : cos (2 * π - (d + a.theta)) = cos (d + a.theta) := cos_two_pi_sub _
    refine ⟨?_, ⟨fun _ => Or.inr h1, fun _ => rfl⟩, by simp⟩
    rw [hvec _ (2 * π - (d + a.theta)) e1 (sin_nonneg_of_nonneg_of_le_pi (by linarith [hd.2])
      (by linarith)), f1, f2, hsn, hcs, sin_add, cos_add]
    ext <;> simp only <;> ring
  · obtain ⟨e1, e2, e3, n, e4⟩ := setPhi_spec ⟨a.phi, cos (-(d + a.theta))⟩ (a.phi + π)
    obtain ⟨f1, f2⟩ := hshift 0 n _ e4
    refine ⟨?_, ⟨fun _ => Or.inl h2, fun _ => rfl⟩, by simp⟩
    rw [hvec _ (-(d + a.theta)) e1 (sin_nonneg_of_nonneg_of_le_pi (by linarith)
      (by linarith [hd.1])), f1, f2, sin_neg, cos_neg, sin_add, cos_add]
    ext <;> simp only <;> ring
  · refine ⟨?_, ⟨fun h => by simp at h, fun h => by rcases h with h | h <;> linarith⟩, by simp⟩
    rw [hvec ⟨a.phi, cos (d + a.theta)⟩ (d + a.theta) rfl
      (sin_nonneg_of_nonneg_of_le_pi (by linarith) (by linarith)), sin_add, cos_add]
    ext <;> simp only <;> ring

/-- **C67**, increments outside [-π, π] are rejected and change nothing, all others are
accepted. -/
theorem C67_add_to_theta_rejects (a : Angles) (d : ℝ) :
    (a.addToTheta d).2 = .threw ↔ d < -π ∨ π < d := by
  constructor
  · intro h
    by_contra hd
    rw [not_or, not_lt, not_lt] at hd
    rw [addToTheta_eq a d hd] at h
    split_ifs at h <;> simp at h
  · intro h
    unfold Angles.addToTheta
    rw [if_pos h]

/-- **C67**, starting in the far hemisphere (`reverse`) the direction moves the other way, and
the result says whether it ends up in the far hemisphere. -/
theorem C67_add_to_theta_reverse (a : Angles) (d : ℝ) (h : InRange a) (hd : -π ≤ d ∧ d ≤ π)
    (reverse : Bool) :
    let s := V3.mk (a.costheta * cos a.phi) (a.costheta * sin a.phi)
      (-sqrt (1 - a.costheta ^ 2))
    let e := if reverse then -d else d
    (a.addToTheta2 d reverse).1.threevec = (a.threevec.smul (cos d)).add (s.smul (sin e)) ∧
    ((a.addToTheta2 d reverse).2 = .ret true ↔
      ((e + arccos a.costheta < 0 ∨ π < e + arccos a.costheta) ↔ reverse = false)) ∧
    (a.addToTheta2 d reverse).2 ≠ .threw := by
  intro s e
  have he : (if reverse then (-1 : ℝ) else 1) * d = e := by
    simp only [e]; cases reverse <;> simp
  have hce : cos e = cos d := by simp only [e]; cases reverse <;> simp
  have hde : -π ≤ e ∧ e ≤ π := by
    simp only [e]; cases reverse
    · exact hd
    · exact ⟨by simp only [if_true]; linarith [hd.2], by simp only [if_true]; linarith [hd.1]⟩
  obtain ⟨h1, h2, h3⟩ := C67_add_to_theta a e h hde
  unfold Angles.addToTheta2
  simp only [he]
  rw [← hce]
  generalize a.addToTheta e = r at *
  obtain ⟨b, r⟩ := r
  cases r with
  | threw => exact absurd rfl h3
  | ret c =>
    refine ⟨h1, ?_, by simp⟩
    rw [← h2]
    cases c <;> cases reverse <;> simp

/-- A rejected `set_costheta` leaves the object with the rejected value. -/
theorem C67_rejected_value_kept (a : Angles) : (a.setCosTheta 2).2 = false ∧
    (a.setCosTheta 2).1.costheta = 2 := by
  unfold Angles.setCosTheta
  rw [if_pos (Or.inr (by norm_num))]
  exact ⟨rfl, rfl⟩

example : InRange ⟨1, 1 / 2⟩ ∧ ((⟨1, 1 / 2⟩ : Angles).addToTheta π).2 = .ret true := by
  have hpi := two_le_pi
  have h : InRange ⟨1, 1 / 2⟩ := ⟨by norm_num, by simp only; linarith, by norm_num, by norm_num⟩
  refine ⟨h, (C67_add_to_theta _ π h ⟨by linarith, le_refl _⟩).2.1.2 (Or.inr ?_)⟩
  have : 0 < arccos (1 / 2 : ℝ) := arccos_pos.2 (by norm_num)
  simp only
  linarith

end Verif.Kin
