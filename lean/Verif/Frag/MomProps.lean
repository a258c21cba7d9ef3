import Verif.Frag.Mom
import Verif.Frag.Ends
import Verif.Kin.Props
import Mathlib.Tactic.NormNum
/-
C89: kinematics of strings.
-/
set_option linter.unusedSimpArgs false
set_option linter.unusedVariables false
namespace Verif.Frag
open Verif.Kin Real

/-- Three vectors of length one, orthogonal to each other, with right-handed orientation. -/
structure Orthonormal (b : V3 × V3 × V3) : Prop where
  n0 : b.1.dot b.1 = 1
  n1 : b.2.1.dot b.2.1 = 1
  n2 : b.2.2.dot b.2.2 = 1
  o01 : b.1.dot b.2.1 = 0
  o02 : b.1.dot b.2.2 = 0
  o12 : b.2.1.dot b.2.2 = 0
  right : b.2.1.cross b.2.2 = b.1

/-- The angles used for a direction that is not along the z axis. -/
theorem angles {e : V3} (h : e.dot e = 1) (hz : |e.z| < 1 - 1 / 100000000) :
    ∃ st et cp sp : ℝ, 0 < et ∧ sin (arccos e.z) = et ∧ cos (arccos e.z) = e.z ∧
      cos (if e.y > 0 then arccos (e.x / √(e.x * e.x + e.y * e.y))
        else -arccos (e.x / √(e.x * e.x + e.y * e.y))) = cp ∧
      sin (if e.y > 0 then arccos (e.x / √(e.x * e.x + e.y * e.y))
        else -arccos (e.x / √(e.x * e.x + e.y * e.y))) = sp ∧
      e.x = et * cp ∧ e.y = et * sp ∧ cp * cp + sp * sp = 1 ∧ et * et + e.z * e.z = 1 := by
  unfold V3.dot at h
  have hz' := abs_lt.mp hz
  have hz1 : e.z * e.z < 1 := by nlinarith [hz'.1, hz'.2]
  have hpos : 0 < e.x * e.x + e.y * e.y := by linarith
  set et := √(e.x * e.x + e.y * e.y) with het
  have het0 : 0 < et := Real.sqrt_pos.mpr hpos
  have hsq : et * et = e.x * e.x + e.y * e.y := Real.mul_self_sqrt hpos.le
  have hsin : sin (arccos e.z) = et := by
    rw [Real.sin_arccos, het]; congr 1; rw [sq]; linarith
  have hcos : cos (arccos e.z) = e.z := Real.cos_arccos (by linarith [hz'.1]) (by linarith [hz'.2])
  have hr1 : -1 ≤ e.x / et := by
    rw [le_div_iff₀ het0]; nlinarith [mul_self_nonneg e.y, mul_self_nonneg (e.x - et), mul_self_nonneg (e.x + et)]
  have hr2 : e.x / et ≤ 1 := by
    rw [div_le_one het0]; nlinarith [mul_self_nonneg e.y, mul_self_nonneg (e.x - et), mul_self_nonneg (e.x + et)]
  have hca : cos (arccos (e.x / et)) = e.x / et := Real.cos_arccos hr1 hr2
  have hsa : sin (arccos (e.x / et)) = |e.y| / et := by
    rw [Real.sin_arccos]
    have : 1 - (e.x / et) ^ 2 = (|e.y| / et) ^ 2 := by
      rw [div_pow, div_pow, sq_abs]
      field_simp
      nlinarith
    rw [this, Real.sqrt_sq (by positivity)]
  refine ⟨et, et, e.x / et, e.y / et, het0, hsin, hcos, ?_, ?_, ?_, ?_, ?_, ?_⟩
  · split_ifs
    · exact hca
    · rw [Real.cos_neg]; exact hca
  · split_ifs with hy
    · rw [hsa, abs_of_pos hy]
    · rw [Real.sin_neg, hsa, abs_of_nonpos (not_lt.mp hy)]; ring
  · field_simp
  · field_simp
  · field_simp; nlinarith
  · linarith

/-- C89: for every unit vector the three vectors are a right-handed orthonormal basis; the first is
the given direction, except for directions within the rounding distance of the z axis, where it is
the axis. -/
theorem C89_basis (e : V3) (h : e.dot e = 1) : Orthonormal (basis e) ∧
    (|e.z| < 1 - 1 / 100000000 → (basis e).1 = e) ∧
    (¬ |e.z| < 1 - 1 / 100000000 → (basis e).1 = ⟨0, 0, if e.z > 0 then 1 else -1⟩) := by
  by_cases hz : |e.z| < 1 - 1 / 100000000
  · obtain ⟨st, et, cp, sp, h0, h1, h2, h3, h4, h5, h6, h7, h8⟩ := angles h hz
    have hb : basis e = (e, ⟨e.z * cp, e.z * sp, -et⟩, ⟨-sp, cp, 0⟩) := by
      unfold basis
      rw [if_pos hz]
      dsimp only
      rw [h3, h4, h1, h2]
    rw [hb]
    refine ⟨⟨h, ?_, ?_, ?_, ?_, ?_, ?_⟩, fun _ => rfl, fun hc => absurd hz hc⟩
    · simp only [V3.dot]; linear_combination e.z * e.z * h7 + h8
    · simp only [V3.dot]; linear_combination h7
    · simp only [V3.dot]
      linear_combination e.z * cp * h5 + e.z * sp * h6 + e.z * et * h7
    · simp only [V3.dot]; linear_combination (-sp) * h5 + cp * h6
    · simp only [V3.dot]; ring
    · simp only [V3.cross]
      ext <;> simp only
      · linear_combination -h5
      · linear_combination -h6
      · linear_combination e.z * h7
  · unfold basis
    rw [if_neg hz]
    by_cases hp : e.z > 0
    · rw [if_pos hp]
      refine ⟨⟨?_, ?_, ?_, ?_, ?_, ?_, ?_⟩, fun hc => absurd hc hz, fun _ => by rw [if_pos hp]⟩ <;>
        simp [V3.dot, V3.cross]
    · rw [if_neg hp]
      refine ⟨⟨?_, ?_, ?_, ?_, ?_, ?_, ?_⟩, fun hc => absurd hc hz, fun _ => by rw [if_neg hp]⟩ <;>
        simp [V3.dot, V3.cross]

example : (V3.mk (3 / 5) 0 (4 / 5)).dot ⟨3 / 5, 0, 4 / 5⟩ = 1 := by norm_num [V3.dot]

theorem half : √(1 / 2 : ℝ) * √(1 / 2) = 1 / 2 := Real.mul_self_sqrt (by norm_num)

theorem dot_neg (e v : V3) : e.dot v.neg = -e.dot v := by unfold V3.dot V3.neg; simp only; ring

/-- The momenta of two strings with opposite transfers add up to the total energy at rest. -/
theorem two_strings (b : V3 × V3 × V3) (ea eb : ℝ) (p : V3) (dp dn qx qy : ℝ) :
    (stringMomentum b (pPos b.1 (V4.mk' ea p) + dp) (pNeg b.1 (V4.mk' ea p) + dn) qx qy).add
      (stringMomentum b (pPos b.1 (V4.mk' eb p.neg) - dp) (pNeg b.1 (V4.mk' eb p.neg) - dn) (-qx) (-qy)) =
    ⟨ea + eb, 0, 0, 0⟩ := by
  have hh := half
  unfold stringMomentum pPos pNeg
  have hn : ∀ e : ℝ, (V4.mk' e p.neg).vec = p.neg := fun _ => rfl
  have hn' : (V4.mk' ea p).vec = p := rfl
  rw [hn, hn', dot_neg]
  generalize b.1.dot p = x
  generalize √(1 / 2 : ℝ) = r at hh
  unfold V4.add V4.mk' V3.add V3.smul
  ext <;> simp only
  · linear_combination 2 * (ea + eb) * hh
  · ring
  · ring
  · ring

/-- C89: in double-diffractive and soft non-diffractive processes the two strings together have the
energy and momentum of the two hadrons in their centre-of-mass frame, for every basis and whatever
transverse momentum and fractions are drawn. -/
theorem C89_two_strings (b : V3 × V3 × V3) (ea eb : ℝ) (p : V3) (xa xb qx qy : ℝ) :
    (doubleDiffractive b (V4.mk' ea p) (V4.mk' eb p.neg) xa xb qx qy).1.add
      (doubleDiffractive b (V4.mk' ea p) (V4.mk' eb p.neg) xa xb qx qy).2 = ⟨ea + eb, 0, 0, 0⟩ ∧
    (nonDiffractive b (V4.mk' ea p) (V4.mk' eb p.neg) xa xb qx qy).1.add
      (nonDiffractive b (V4.mk' ea p) (V4.mk' eb p.neg) xa xb qx qy).2 = ⟨ea + eb, 0, 0, 0⟩ :=
  ⟨two_strings .., two_strings ..⟩

/-- The longitudinal and transverse parts of the momentum of string 1: the light-cone component is
changed by the given amount and the transverse momentum is the one drawn. -/
theorem string_components {b : V3 × V3 × V3} (hb : Orthonormal b) (pp pn qx qy : ℝ) :
    pPos b.1 (stringMomentum b pp pn qx qy) = pp ∧ pNeg b.1 (stringMomentum b pp pn qx qy) = pn ∧
    b.2.1.dot (stringMomentum b pp pn qx qy).vec = qx ∧
    b.2.2.dot (stringMomentum b pp pn qx qy).vec = qy := by
  obtain ⟨n0, n1, n2, o01, o02, o12, -⟩ := hb
  obtain ⟨e0, e1, e2⟩ := b
  have hh := half
  unfold stringMomentum pPos pNeg
  simp only [V4.mk', V4.vec, V3.add, V3.smul, V3.dot] at *
  generalize √(1 / 2 : ℝ) = r at hh
  refine ⟨?_, ?_, ?_, ?_⟩
  · linear_combination (pp - pn) * r * r * n0 + qx * r * o01 + qy * r * o02 + 2 * pp * hh
  · linear_combination -((pp - pn) * r * r) * n0 - qx * r * o01 - qy * r * o02 + 2 * pn * hh
  · linear_combination (pp - pn) * r * o01 + qx * n1 + qy * o12
  · linear_combination (pp - pn) * r * o02 + qx * o12 + qy * n2

/-- C89: the first string of a double-diffractive process gets the transverse momentum that was drawn
and the second the opposite; the momentum transferred to the gluons is such that both gluons, with the
fractions `xa` of p^+ of A and `xb` of p^- of B, stay on the light cone:
`(xa p_A^+ ) q^- = qt^2 / 2` and `(xb p_B^-) (-q^+) = qt^2 / 2`. -/
theorem C89_transfer {b : V3 × V3 × V3} (hb : Orthonormal b) (pA pB : V4) {xa xb : ℝ} (qx qy : ℝ)
    (ha : xa * pPos b.1 pA ≠ 0) (hB : xb * pNeg b.1 pB ≠ 0) :
    let s := doubleDiffractive b pA pB xa xb qx qy
    (b.2.1.dot s.1.vec = qx ∧ b.2.2.dot s.1.vec = qy ∧ b.2.1.dot s.2.vec = -qx ∧ b.2.2.dot s.2.vec = -qy) ∧
    xa * pPos b.1 pA * (pNeg b.1 s.1 - pNeg b.1 pA) = (qx ^ 2 + qy ^ 2) / 2 ∧
    xb * pNeg b.1 pB * (pPos b.1 pA - pPos b.1 s.1) = (qx ^ 2 + qy ^ 2) / 2 := by
  intro s
  have hq : √(qx * qx + qy * qy) * √(qx * qx + qy * qy) = qx * qx + qy * qy :=
    Real.mul_self_sqrt (add_nonneg (mul_self_nonneg _) (mul_self_nonneg _))
  have c1 := string_components hb
    (pPos b.1 pA + -√(qx * qx + qy * qy) * √(qx * qx + qy * qy) / (2 * xb * pNeg b.1 pB))
    (pNeg b.1 pA + √(qx * qx + qy * qy) * √(qx * qx + qy * qy) / (2 * xa * pPos b.1 pA)) qx qy
  have c2 := string_components hb
    (pPos b.1 pB - -√(qx * qx + qy * qy) * √(qx * qx + qy * qy) / (2 * xb * pNeg b.1 pB))
    (pNeg b.1 pB - √(qx * qx + qy * qy) * √(qx * qx + qy * qy) / (2 * xa * pPos b.1 pA)) (-qx) (-qy)
  obtain ⟨d1, d2, d3, d4⟩ := c1
  obtain ⟨f1, f2, f3, f4⟩ := c2
  refine ⟨⟨d3, d4, f3, f4⟩, ?_, ?_⟩
  · have : pNeg b.1 s.1 - pNeg b.1 pA = (qx * qx + qy * qy) / (2 * xa * pPos b.1 pA) := by
      have e : pNeg b.1 s.1 = _ := d2
      rw [e, hq]; ring
    rw [this]
    generalize pPos b.1 pA = y at ha
    have h1 : xa ≠ 0 := left_ne_zero_of_mul ha
    have h2 : y ≠ 0 := right_ne_zero_of_mul ha
    field_simp
  · have : pPos b.1 pA - pPos b.1 s.1 = (qx * qx + qy * qy) / (2 * xb * pNeg b.1 pB) := by
      have e : pPos b.1 s.1 = _ := d1
      rw [e, neg_mul, hq]; ring
    rw [this]
    generalize pNeg b.1 pB = y at hB
    have h1 : xb ≠ 0 := left_ne_zero_of_mul hB
    have h2 : y ≠ 0 := right_ne_zero_of_mul hB
    field_simp

/-- C89: in a non-diffractive process the quark with the fraction `xa` of p^+ leaves hadron A and the
quark with the fraction `xb` of p^- of B joins. -/
theorem C89_quarks {b : V3 × V3 × V3} (hb : Orthonormal b) (pA pB : V4) (xa xb : ℝ) :
    let s := nonDiffractive b pA pB xa xb 0 0
    pPos b.1 s.1 = (1 - xa) * pPos b.1 pA ∧ pNeg b.1 s.1 = pNeg b.1 pA + xb * pNeg b.1 pB ∧
    pPos b.1 s.2 = pPos b.1 pB + xa * pPos b.1 pA ∧ pNeg b.1 s.2 = (1 - xb) * pNeg b.1 pB := by
  intro s
  have hs : s = nonDiffractive b pA pB xa xb 0 0 := rfl
  unfold nonDiffractive at hs
  simp only [mul_zero, add_zero, Real.sqrt_zero, neg_zero, zero_div, sub_zero] at hs
  have c1 := string_components hb (pPos b.1 pA + -xa * pPos b.1 pA) (pNeg b.1 pA + xb * pNeg b.1 pB) 0 0
  have c2 := string_components hb (pPos b.1 pB - -xa * pPos b.1 pA) (pNeg b.1 pB - xb * pNeg b.1 pB) 0 0
  rw [hs]
  refine ⟨?_, c1.2.1, ?_, ?_⟩
  · rw [c1.1]; ring
  · rw [c2.1]; ring
  · rw [c2.2.1]; ring

/-- C89: the hadron and the string of a single-diffractive process are on their mass shells and
together have the centre-of-mass energy and no momentum; the process is possible exactly if the
momentum is larger than the transverse momentum drawn. -/
theorem C89_single {b : V3 × V3 × V3} (hb : Orthonormal b) {sqrts massH massX : ℝ} (hH : 0 ≤ massH)
    (hX : 0 ≤ massX) (h0 : 0 < sqrts) (hs : massH + massX ≤ sqrts) (qx qy : ℝ) {sign : ℝ}
    (hsign : sign = 1 ∨ sign = -1) :
    (pCM sqrts massH massX ^ 2 > qx ^ 2 + qy ^ 2 →
      ∃ h x, singleDiffractive b sqrts massH massX qx qy sign = some (h, x) ∧
        minkowski h h = massH ^ 2 ∧ minkowski x x = massX ^ 2 ∧ h.add x = ⟨sqrts, 0, 0, 0⟩ ∧
        b.2.1.dot h.vec = sign * qx ∧ b.2.2.dot h.vec = sign * qy ∧ 0 ≤ sign * b.1.dot h.vec) ∧
    (¬ pCM sqrts massH massX ^ 2 > qx ^ 2 + qy ^ 2 →
      singleDiffractive b sqrts massH massX qx qy sign = none) := by
  have hp := (pCM_sq hH hX h0 hs).1
  have hbal := (C30_energy_balance sqrts massH massX hH hX h0 hs).2
  have hq : √(qx * qx + qy * qy) * √(qx * qx + qy * qy) = qx * qx + qy * qy :=
    Real.mul_self_sqrt (add_nonneg (mul_self_nonneg _) (mul_self_nonneg _))
  have hP : pCMsqr sqrts massH massX = pCM sqrts massH massX ^ 2 := hp.symm
  unfold singleDiffractive
  dsimp only
  rw [hq, hP]
  generalize pCM sqrts massH massX ^ 2 = P at hbal
  have hss : sign * sign = 1 := by rcases hsign with rfl | rfl <;> norm_num
  constructor
  · intro hgt
    have hgt' : P > qx * qx + qy * qy := by nlinarith
    rw [if_pos hgt']
    have hl : √(P - (qx * qx + qy * qy)) * √(P - (qx * qx + qy * qy)) = P - (qx * qx + qy * qy) :=
      Real.mul_self_sqrt (by linarith)
    have hl0 : 0 ≤ √(P - (qx * qx + qy * qy)) := Real.sqrt_nonneg _
    have hP0 : 0 ≤ P := by nlinarith [mul_self_nonneg qx, mul_self_nonneg qy]
    have e1 : √(P + massH * massH) * √(P + massH * massH) = P + massH * massH :=
      Real.mul_self_sqrt (by nlinarith [mul_self_nonneg massH])
    have e2 : √(P + massX * massX) * √(P + massX * massX) = P + massX * massX :=
      Real.mul_self_sqrt (by nlinarith [mul_self_nonneg massX])
    have hbal' : √(P + massH * massH) + √(P + massX * massX) = sqrts := by
      rw [← sq, ← sq]; exact hbal
    generalize √(P - (qx * qx + qy * qy)) = l at hl hl0
    generalize √(P + massH * massH) = eh at e1 hbal'
    generalize √(P + massX * massX) = ex at e2 hbal'
    obtain ⟨n0, n1, n2, o01, o02, o12, -⟩ := hb
    obtain ⟨b0, b1, b2⟩ := b
    refine ⟨_, _, rfl, ?_, ?_, ?_, ?_, ?_, ?_⟩
    · simp only [minkowski, V4.mk', V3.add, V3.smul, V3.dot] at *
      linear_combination e1 - sign * sign * (l * l * n0 + qx * qx * n1 + qy * qy * n2 + 2 * l * qx * o01 +
        2 * l * qy * o02 + 2 * qx * qy * o12) - (P) * hss - sign * sign * hl
    · simp only [minkowski, V4.mk', V3.add, V3.smul, V3.dot, V3.neg] at *
      linear_combination e2 - sign * sign * (l * l * n0 + qx * qx * n1 + qy * qy * n2 + 2 * l * qx * o01 +
        2 * l * qy * o02 + 2 * qx * qy * o12) - (P) * hss - sign * sign * hl
    · simp only [V4.add, V4.mk', V3.add, V3.smul, V3.neg]
      ext <;> simp only
      · exact hbal'
      · ring
      · ring
      · ring
    · simp only [V4.mk', V4.vec, V3.add, V3.smul, V3.dot] at *
      linear_combination sign * l * o01 + sign * qx * n1 + sign * qy * o12
    · simp only [V4.mk', V4.vec, V3.add, V3.smul, V3.dot] at *
      linear_combination sign * l * o02 + sign * qx * o12 + sign * qy * n2
    · simp only [V4.mk', V4.vec, V3.add, V3.smul, V3.dot] at *
      have : sign * (b0.x * ((b0.x * l + b1.x * qx + b2.x * qy) * sign) +
          b0.y * ((b0.y * l + b1.y * qx + b2.y * qy) * sign) +
          b0.z * ((b0.z * l + b1.z * qx + b2.z * qy) * sign)) = l := by
        linear_combination sign * sign * (l * n0 + qx * o01 + qy * o02) + l * hss
      rw [this]; exact hl0
  · intro hn
    rw [if_neg (by intro hc; apply hn; nlinarith)]

/-- C89: the ends of the two strings of a non-diffractive process are those of the two hadrons, one of
each in each string; every pair of hadrons with baryon numbers up to one is handled. -/
theorem C89_regroup {d0 d1 : Nat} (h0 : Light d0) (h1 : Light d1) (c0 c1 : Choice) :
    ∃ s0 s1, regroup (Pdg.baryonNumber d0) (Pdg.baryonNumber d1) (makeStringEnds d0 c0)
        (makeStringEnds d1 c1) = some (s0, s1) ∧ GoodEnds s0 ∧ GoodEnds s1 ∧
      (∀ j, net [s0.1, s0.2, s1.1, s1.2] j =
        net [(makeStringEnds d0 c0).1, (makeStringEnds d0 c0).2] j +
        net [(makeStringEnds d1 c1).1, (makeStringEnds d1 c1).2] j) ∧
      s0.1 ∈ [(makeStringEnds d0 c0).1, (makeStringEnds d1 c1).1] ∧
      s1.1 ∈ [(makeStringEnds d0 c0).1, (makeStringEnds d1 c1).1] := by
  obtain ⟨g0, -⟩ := C85_ends h0 c0
  obtain ⟨g1, -⟩ := C85_ends h1 c1
  generalize makeStringEnds d0 c0 = a at *
  generalize makeStringEnds d1 c1 = b at *
  have hb : ∀ d, Light d → Pdg.baryonNumber d = 0 ∨ Pdg.baryonNumber d = 1 ∨ Pdg.baryonNumber d = -1 := by
    intro d hd
    rw [Pdg.baryon_hadron hd.hadron]
    unfold Pdg.antiparticleSign
    split_ifs <;> simp
  have n4 : ∀ (x y z w : Int) (j : Fin 5), net [x, y, z, w] j = net [x] j + net [y] j + net [z] j + net [w] j := by
    intro x y z w j
    rw [net_cons, net3]; omega
  have n2 : ∀ (x y : Int) (j : Fin 5), net [x, y] j = net [x] j + net [y] j := fun x y j => net_cons ..
  have k1 := hb d0 h0
  have k2 := hb d1 h1
  unfold regroup
  by_cases c : Pdg.baryonNumber d0 = 1 ∨ (Pdg.baryonNumber d0 = 0 ∧ Pdg.baryonNumber d1 = 1) ∨
      (Pdg.baryonNumber d0 = 0 ∧ Pdg.baryonNumber d1 = 0)
  · rw [if_pos c]
    refine ⟨_, _, rfl, ⟨g1.1, g0.2⟩, ⟨g0.1, g1.2⟩, fun j => ?_, by simp, by simp⟩
    rw [n4, n2, n2]; dsimp only; omega
  · rw [if_neg c, if_pos (by omega)]
    refine ⟨_, _, rfl, ⟨g0.1, g1.2⟩, ⟨g1.1, g0.2⟩, fun j => ?_, by simp, by simp⟩
    rw [n4, n2, n2]; dsimp only; omega

/-! ### Fragments of a string -/

def sum4 (l : List V4) : V4 := l.foldr V4.add ⟨0, 0, 0, 0⟩

theorem boost_zero (v : V3) : boost ⟨0, 0, 0, 0⟩ v = ⟨0, 0, 0, 0⟩ := by
  unfold boost V4.mk' V3.sub V3.smul V4.vec V3.dot
  ext <;> simp

theorem sum_boost (v : V3) (l : List V4) : sum4 (l.map fun p => boost p v) = boost (sum4 l) v := by
  induction l with
  | nil => exact (boost_zero v).symm
  | cons a l ih =>
    have e : sum4 ((a :: l).map fun p => boost p v) = (boost a v).add (sum4 (l.map fun p => boost p v)) := rfl
    rw [e, ih, show sum4 (a :: l) = a.add (sum4 l) from rfl, C29_linear]

/-- C89: if the fragments have the mass of the string as total energy and no total momentum in the rest
frame of the string, then in the centre-of-mass frame they have the momentum of the string. -/
theorem C89_fragments {ps : V4} (h0 : 0 < ps.t) (hm : ps.x ^ 2 + ps.y ^ 2 + ps.z ^ 2 < ps.t ^ 2)
    (l : List V4) (hl : sum4 l = ⟨√(ps.t ^ 2 - ps.x ^ 2 - ps.y ^ 2 - ps.z ^ 2), 0, 0, 0⟩)
    (vcom : V3) (mass kappa soft tc : V4 → ℝ) :
    sum4 (l.map fun p => (appendFragment p ps.velocity vcom (mass p) (kappa p) (soft p) (tc p)).1) = ps := by
  obtain ⟨hsub, hrest⟩ := C29_rest ps h0 hm
  have e : (fun p => (appendFragment p ps.velocity vcom (mass p) (kappa p) (soft p) (tc p)).1) =
      fun p => boost p ps.velocity.neg := rfl
  rw [e, sum_boost, hl, ← hrest, C29_inverse _ _ hsub]

theorem neg_sub_lum {v : V3} (h : Subluminal v) : Subluminal v.neg := by
  unfold Subluminal V3.neg at *
  simpa using h

/-- A vector inside the future light cone stays there. -/
theorem boost_future {a : V4} {v : V3} (hv : Subluminal v) (ht : 0 < a.t)
    (ha : a.x ^ 2 + a.y ^ 2 + a.z ^ 2 < a.t ^ 2) :
    0 < (boost a v).t ∧ (boost a v).x ^ 2 + (boost a v).y ^ 2 + (boost a v).z ^ 2 < (boost a v).t ^ 2 := by
  have hi := C29_isometry a a v hv
  unfold minkowski at hi
  refine ⟨?_, by nlinarith⟩
  rw [boost_t]
  have hg := (gamma_spec hv).1
  apply mul_pos hg
  unfold Subluminal at hv
  have hcs : (a.x * v.x + a.y * v.y + a.z * v.z) ^ 2 ≤
      (a.x ^ 2 + a.y ^ 2 + a.z ^ 2) * (v.x ^ 2 + v.y ^ 2 + v.z ^ 2) := by
    nlinarith [sq_nonneg (a.x * v.y - a.y * v.x), sq_nonneg (a.x * v.z - a.z * v.x),
      sq_nonneg (a.y * v.z - a.z * v.y)]
  have hlt : (a.x * v.x + a.y * v.y + a.z * v.z) ^ 2 < a.t ^ 2 := by
    have h1 : (a.x ^ 2 + a.y ^ 2 + a.z ^ 2) * (v.x ^ 2 + v.y ^ 2 + v.z ^ 2) ≤
        a.x ^ 2 + a.y ^ 2 + a.z ^ 2 := by
      apply mul_le_of_le_one_right (by positivity) hv.le
    linarith
  have := abs_lt_of_sq_lt_sq hlt ht.le
  linarith [(abs_lt.mp this).2]

/-- C89: a massive fragment is formed after the collision. -/
theorem C89_formation {p : V4} (ht : 0 < p.t) (hp : p.x ^ 2 + p.y ^ 2 + p.z ^ 2 < p.t ^ 2) {vs vcom : V3}
    (h1 : Subluminal vs) (h2 : Subluminal vcom) {mass kappa soft : ℝ} (hm : 0 < mass) (hk : 0 < kappa)
    (hs : 0 < soft) (tc : ℝ) : tc < (appendFragment p vs vcom mass kappa soft tc).2 := by
  have hvel : p.velocity = ⟨p.x / p.t, p.y / p.t, p.z / p.t⟩ := by
    unfold V4.velocity V3.div V3.smul V4.vec
    ext <;> simp only <;> ring
  have hsq : p.velocity.sqr < 1 := by
    rw [hvel]
    unfold V3.sqr V3.dot
    simp only
    rw [div_mul_div_comm, div_mul_div_comm, div_mul_div_comm, ← add_div, ← add_div,
      div_lt_one (by positivity)]
    nlinarith
  unfold appendFragment
  dsimp only
  set t := √2 * mass / kappa * (1 / √(1 - p.velocity.sqr)) with htd
  have htp : 0 < t := by
    have : 0 < √(1 - p.velocity.sqr) := Real.sqrt_pos.mpr (by linarith)
    positivity
  have hx : (V4.mk' t (p.velocity.smul t)).x ^ 2 + (V4.mk' t (p.velocity.smul t)).y ^ 2 +
      (V4.mk' t (p.velocity.smul t)).z ^ 2 < (V4.mk' t (p.velocity.smul t)).t ^ 2 := by
    unfold V4.mk' V3.smul
    simp only
    unfold V3.sqr V3.dot at hsq
    have : 0 < t ^ 2 := by positivity
    nlinarith
  obtain ⟨g1, g2⟩ := boost_future (neg_sub_lum h1) (a := V4.mk' t (p.velocity.smul t)) htp hx
  obtain ⟨g3, -⟩ := boost_future (neg_sub_lum h2) g1 g2
  have := mul_pos hs g3
  linarith

example : ∃ p : V4, 0 < p.t ∧ p.x ^ 2 + p.y ^ 2 + p.z ^ 2 < p.t ^ 2 := ⟨⟨2, 1, 0, 0⟩, by norm_num, by norm_num⟩

/-! ### The last two fragments -/

/-- C89: the last two fragments share the light-cone momenta of the string, both are on their mass
shells and move forward in time; this is possible exactly if the transverse mass of the string exceeds
the sum of those of the hadrons. -/
theorem C89_final_two {pp pn mf mb : ℝ} (hp : 0 < pp) (hn : 0 < pn) (hf : 0 < mf) (hb : 0 < mb)
    (flip : Bool) :
    (√(2 * pp * pn) > mf + mb → ∃ pf pb nf nb, finalTwo pp pn mf mb flip = some (pf, pb, nf, nb) ∧
      pf + pb = pp ∧ nf + nb = pn ∧ 2 * pf * nf = mf ^ 2 ∧ 2 * pb * nb = mb ^ 2 ∧
      0 < pf ∧ 0 < pb ∧ 0 < nf ∧ 0 < nb) ∧
    (¬ √(2 * pp * pn) > mf + mb → finalTwo pp pn mf mb flip = none) := by
  have hs : 0 < 2 * pp * pn := by positivity
  have hsq : √(2 * pp * pn) ^ 2 = 2 * pp * pn := Real.sq_sqrt hs.le
  have hr0 : 0 ≤ √(2 * pp * pn) := Real.sqrt_nonneg _
  unfold finalTwo
  dsimp only
  rw [if_neg (not_lt.mpr hs.le)]
  have hfac : ∀ s : ℝ, (s - mf * mf - mb * mb) ^ 2 - 4 * (mf * mf) * (mb * mb) =
      (s - (mf + mb) ^ 2) * (s - (mf - mb) ^ 2) := fun s => by ring
  constructor
  · intro hgt
    rw [if_neg (not_lt.mpr hgt.le)]
    have h1 : 2 * pp * pn > (mf + mb) ^ 2 := by rw [← hsq]; nlinarith
    have h2 : 2 * pp * pn > (mf - mb) ^ 2 := by nlinarith
    have hl : 0 < (2 * pp * pn - mf * mf - mb * mb) ^ 2 - 4 * (mf * mf) * (mb * mb) := by
      rw [hfac]; exact mul_pos (by linarith) (by linarith)
    rw [if_neg (not_le.mpr hl)]
    have hlam : √((2 * pp * pn - mf * mf - mb * mb) ^ 2 - 4 * (mf * mf) * (mb * mb)) ^ 2 =
      (2 * pp * pn - mf * mf - mb * mb) ^ 2 - 4 * (mf * mf) * (mb * mb) := Real.sq_sqrt hl.le
    have hlam0 : 0 < √((2 * pp * pn - mf * mf - mb * mb) ^ 2 - 4 * (mf * mf) * (mb * mb)) :=
      Real.sqrt_pos.mpr hl
    generalize √((2 * pp * pn - mf * mf - mb * mb) ^ 2 - 4 * (mf * mf) * (mb * mb)) = lam at hlam hlam0
    -- the sign of the longitudinal momentum
    obtain ⟨x, hx, hx2⟩ : ∃ x, (if flip = true then -(1 / 2 * lam / (2 * pp * pn)) else 1 / 2 * lam / (2 * pp * pn)) = x ∧
        (2 * (2 * pp * pn) * x) ^ 2 = lam ^ 2 := by
      refine ⟨_, rfl, ?_⟩
      split_ifs <;> field_simp
    rw [hx]
    have hS : 2 * pp * pn ≠ 0 := hs.ne'
    generalize hSd : 2 * pp * pn = S at *
    have kf : (1 / 2 * (1 + (mf * mf - mb * mb) / S) + x) * (1 / 2 * (1 + (mf * mf - mb * mb) / S) - x) =
        mf * mf / S := by
      have : (2 * S * x) ^ 2 = (S - mf * mf - mb * mb) ^ 2 - 4 * (mf * mf) * (mb * mb) := by rw [hx2, hlam]
      field_simp
      nlinarith
    have kb : (1 / 2 * (1 - (mf * mf - mb * mb) / S) + x) * (1 / 2 * (1 - (mf * mf - mb * mb) / S) - x) =
        mb * mb / S := by
      have : (2 * S * x) ^ 2 = (S - mf * mf - mb * mb) ^ 2 - 4 * (mf * mf) * (mb * mb) := by rw [hx2, hlam]
      field_simp
      nlinarith
    have xep : 0 < 1 / 2 * (1 + (mf * mf - mb * mb) / S) := by
      have : 0 < S + (mf * mf - mb * mb) := by nlinarith
      have e : 1 / 2 * (1 + (mf * mf - mb * mb) / S) = (S + (mf * mf - mb * mb)) / (2 * S) := by field_simp
      rw [e]; positivity
    have xen : 0 < 1 / 2 * (1 - (mf * mf - mb * mb) / S) := by
      have : 0 < S - (mf * mf - mb * mb) := by nlinarith
      have e : 1 / 2 * (1 - (mf * mf - mb * mb) / S) = (S - (mf * mf - mb * mb)) / (2 * S) := by field_simp
      rw [e]; positivity
    have hfs : 0 < mf * mf / S := by positivity
    have hbs : 0 < mb * mb / S := by positivity
    generalize hA : 1 / 2 * (1 + (mf * mf - mb * mb) / S) = A at *
    generalize hB : 1 / 2 * (1 - (mf * mf - mb * mb) / S) = B at *
    have hAB : A + B = 1 := by rw [← hA, ← hB]; ring
    have pos : ∀ A y : ℝ, 0 < A → 0 < (A + x) * (A - x) → 0 < A + x ∧ 0 < A - x := by
      intro A y hA h
      rcases pos_and_pos_or_neg_and_neg_of_mul_pos h with h | h
      · exact h
      · exfalso; linarith [h.1, h.2]
    obtain ⟨a1, a2⟩ := pos A 0 xep (by rw [kf]; exact hfs)
    obtain ⟨b1, b2⟩ := pos B 0 xen (by rw [kb]; exact hbs)
    have nf : 1 / 2 * (mf * mf) / ((A + x) * pp) = (A - x) * pn := by
      have e : mf * mf = S * ((A + x) * (A - x)) := by rw [kf]; field_simp
      rw [e, ← hSd]; field_simp
    have nb : 1 / 2 * (mb * mb) / ((B - x) * pp) = (B + x) * pn := by
      have e : mb * mb = S * ((B + x) * (B - x)) := by rw [kb]; field_simp
      rw [e, ← hSd]; field_simp
    refine ⟨_, _, _, _, rfl, ?_, ?_, ?_, ?_, by positivity, by positivity, by positivity, by positivity⟩
    · linear_combination pp * hAB
    · rw [nf, nb]; linear_combination pn * hAB
    · rw [nf]
      have e : mf * mf = S * ((A + x) * (A - x)) := by rw [kf]; field_simp
      rw [sq, e, ← hSd]; ring
    · rw [nb]
      have e : mb * mb = S * ((B + x) * (B - x)) := by rw [kb]; field_simp
      rw [sq, e, ← hSd]; ring
  · intro hle
    by_cases hlt : √(2 * pp * pn) < mf + mb
    · rw [if_pos hlt]
    · rw [if_neg hlt]
      have he : √(2 * pp * pn) = mf + mb := le_antisymm (not_lt.mp hle) (not_lt.mp hlt)
      rw [if_pos]
      rw [hfac, ← hsq, he]
      nlinarith

example : √(2 * (8 : ℝ) * 8) > 1 + 2 := by
  rw [gt_iff_lt, Real.lt_sqrt (by norm_num)]; norm_num

/-- C89: the sampled light-cone momentum fraction is in (0, 1], for every random number in (0, 1]. -/
theorem C89_fraction {a b m u w x : ℝ} (hb : 0 < b) (hm : m ≠ 0) (hu : 0 < u ∧ u ≤ 1)
    (h : zLund a b m u w = some x) : 0 < x ∧ x ≤ 1 := by
  unfold zLund at h
  dsimp only at h
  split_ifs at h
  simp only [Option.some.injEq] at h
  subst h
  have hpos : 0 < b * m * m := by
    have : 0 < m * m := mul_self_pos.mpr hm
    rw [mul_assoc]; positivity
  have h1 : 1 ≤ 1 - log u / (b * m * m) := by
    have : log u / (b * m * m) ≤ 0 := div_nonpos_of_nonpos_of_nonneg (Real.log_nonpos hu.1.le hu.2) hpos.le
    linarith
  have h0 : 0 < 1 - log u / (b * m * m) := by linarith
  exact ⟨by positivity, by rw [div_le_one h0]; exact h1⟩

end Verif.Frag
