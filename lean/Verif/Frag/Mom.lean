import Verif.Kin.Model
import Mathlib.Analysis.SpecialFunctions.Trigonometric.Inverse
import Mathlib.Analysis.SpecialFunctions.Pow.Real
/-
Model of the kinematics of strings in stringprocess.cc, over the reals.
-/
namespace Verif.Frag
open Verif.Kin Real

/-- `make_orthonormal_basis`, stringprocess.cc:1638-1683. -/
noncomputable def basis (e : V3) : V3 × V3 × V3 :=
  if |e.z| < 1 - 1 / 100000000 then
    let theta := arccos e.z
    let et := √(e.x * e.x + e.y * e.y)
    let phi := if e.y > 0 then arccos (e.x / et) else -arccos (e.x / et)
    (e, ⟨cos theta * cos phi, cos theta * sin phi, -sin theta⟩, ⟨-sin phi, cos phi, 0⟩)
  else if e.z > 0 then (⟨0, 0, 1⟩, ⟨1, 0, 0⟩, ⟨0, 1, 0⟩)
  else (⟨0, 0, -1⟩, ⟨0, 1, 0⟩, ⟨1, 0, 0⟩)

/-- `compute_incoming_lightcone_momenta`, stringprocess.cc:1687-1692: the components p^+ and p^-. -/
noncomputable def pPos (e : V3) (p : V4) : ℝ := (p.t + e.dot p.vec) * √(1 / 2)
@[inherit_doc pPos] noncomputable def pNeg (e : V3) (p : V4) : ℝ := (p.t - e.dot p.vec) * √(1 / 2)

/-- The four-momentum of a string, stringprocess.cc:427-439 and 504-517. -/
noncomputable def stringMomentum (b : V3 × V3 × V3) (pp pn qx qy : ℝ) : V4 :=
  V4.mk' ((pp + pn) * √(1 / 2))
    (((b.1.smul ((pp - pn) * √(1 / 2))).add (b.2.1.smul qx)).add (b.2.2.smul qy))

/-- The two strings of `next_DDiff`, stringprocess.cc:412-441; `qx`, `qy`: transverse momentum
transfer, `xa`, `xb`: fractions carried by the gluons. -/
noncomputable def doubleDiffractive (b : V3 × V3 × V3) (pA pB : V4) (xa xb qx qy : ℝ) : V4 × V4 :=
  let qt := √(qx * qx + qy * qy)
  let qpos := -qt * qt / (2 * xb * pNeg b.1 pB)
  let qneg := qt * qt / (2 * xa * pPos b.1 pA)
  (stringMomentum b (pPos b.1 pA + qpos) (pNeg b.1 pA + qneg) qx qy,
   stringMomentum b (pPos b.1 pB - qpos) (pNeg b.1 pB - qneg) (-qx) (-qy))

/-- The two strings of `next_NDiffSoft`, stringprocess.cc:490-517. -/
noncomputable def nonDiffractive (b : V3 × V3 × V3) (pA pB : V4) (xa xb qx qy : ℝ) : V4 × V4 :=
  let qt := √(qx * qx + qy * qy)
  let qpos := -qt * qt / (2 * xb * pNeg b.1 pB)
  let qneg := qt * qt / (2 * xa * pPos b.1 pA)
  let dpos := -xa * pPos b.1 pA - qpos
  let dneg := xb * pNeg b.1 pB - qneg
  (stringMomentum b (pPos b.1 pA + dpos) (pNeg b.1 pA + dneg) qx qy,
   stringMomentum b (pPos b.1 pB - dpos) (pNeg b.1 pB - dneg) (-qx) (-qy))

/-- The hadron and the string of `next_SDiff`, stringprocess.cc:282-315; `none`: the process is
refused. -/
noncomputable def singleDiffractive (b : V3 × V3 × V3) (sqrts massH massX qx qy sign : ℝ) :
    Option (V4 × V4) :=
  let qt := √(qx * qx + qy * qy)
  let p2 := pCMsqr sqrts massH massX
  if p2 > qt * qt then
    let p := (((b.1.smul (√(p2 - qt * qt))).add (b.2.1.smul qx)).add (b.2.2.smul qy)).smul sign
    some (V4.mk' (√(p2 + massH * massH)) p, V4.mk' (√(p2 + massX * massX)) p.neg)
  else none

/-- The ends of the two strings of `next_NDiffSoft`, stringprocess.cc:466-488; `none`: exception. -/
def regroup (barA barB : Int) (a b : Int × Int) : Option ((Int × Int) × (Int × Int)) :=
  if barA = 1 ∨ (barA = 0 ∧ barB = 1) ∨ (barA = 0 ∧ barB = 0) then
    some ((b.1, a.2), (a.1, b.2))
  else if (barA = 0 ∧ barB = -1) ∨ barA = -1 then some ((a.1, b.2), (b.1, a.2))
  else none

/-- `append_final_state`, stringprocess.cc:160-203: momentum and formation time of one fragment.
`p`: momentum in the rest frame of the string, `vs`: velocity of the string, `vcom`: velocity of the
centre-of-mass frame, `mass`: effective mass, `kappa`: string tension, `soft`: scaling of formation
times, `tc`: time of the collision; the case of mass dependent formation times. -/
noncomputable def appendFragment (p : V4) (vs vcom : V3) (mass kappa soft tc : ℝ) : V4 × ℝ :=
  let t := √2 * mass / kappa * (1 / √(1 - p.velocity.sqr))
  let x := boost (boost (V4.mk' t (p.velocity.smul t)) vs.neg) vcom.neg
  (boost p vs.neg, soft * x.t + tc)

/-- `make_lightcone_final_two`, stringprocess.cc:2788-2851: p^+ of both hadrons, p^- of both hadrons;
`flip`: the sign of the longitudinal momentum is changed. -/
noncomputable def finalTwo (pp pn mf mb : ℝ) (flip : Bool) : Option (ℝ × ℝ × ℝ × ℝ) :=
  let s := 2 * pp * pn
  if s < 0 then none
  else if √s < mf + mb then none
  else
    let f := mf * mf
    let b := mb * mb
    let xm := (f - b) / s
    let xep := 1 / 2 * (1 + xm)
    let xen := 1 / 2 * (1 - xm)
    let l2 := (s - f - b) ^ 2 - 4 * f * b
    if l2 ≤ 0 then none
    else
      let x := 1 / 2 * √l2 / s
      let x := if flip then -x else x
      let pf := (xep + x) * pp
      let pb := (xen - x) * pp
      some (pf, pb, 1 / 2 * f / pf, 1 / 2 * b / pb)

/-- One iteration of `sample_zLund`, stringprocess.cc:2864-2882, for random numbers `u` and `w`. -/
noncomputable def zLund (a b m u w : ℝ) : Option ℝ :=
  let inv := 1 - log u / (b * m * m)
  if w ≤ (1 - 1 / inv) ^ a / inv then some (1 / inv) else none

end Verif.Frag
