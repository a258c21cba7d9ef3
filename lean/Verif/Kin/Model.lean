import Mathlib.Data.Real.Sqrt
import Mathlib.Data.Rat.Floor
/-
Model of fourvector.h/.cc, threevector.h (arithmetic), kinematics.h and numerics.h.
Doubles are exact real numbers here; `std::sqrt` is the real square root (used only where its
argument is not negative).
-/
namespace Verif.Kin

/-- `ThreeVector`, threevector.h:31-170. -/
@[ext] structure V3 where
  (x y z : ℝ)

/-- `FourVector`, fourvector.h:33-316. -/
@[ext] structure V4 where
  (t x y z : ℝ)

/-- Three-vector arithmetic, threevector.h:201-262. -/
def V3.neg (a : V3) : V3 := ⟨-a.x, -a.y, -a.z⟩
@[inherit_doc V3.neg] def V3.add (a b : V3) : V3 := ⟨a.x + b.x, a.y + b.y, a.z + b.z⟩
@[inherit_doc V3.neg] def V3.sub (a b : V3) : V3 := ⟨a.x - b.x, a.y - b.y, a.z - b.z⟩
@[inherit_doc V3.neg] def V3.smul (a : V3) (b : ℝ) : V3 := ⟨a.x * b, a.y * b, a.z * b⟩
/-- Inner product, threevector.h:245-247. -/
def V3.dot (a b : V3) : ℝ := a.x * b.x + a.y * b.y + a.z * b.z
/-- `operator/`, threevector.h:255-268: multiplication by `1.0 / a`. -/
noncomputable def V3.div (a : V3) (b : ℝ) : V3 := a.smul (1 / b)
/-- `ThreeVector::sqr`, threevector.h:275. -/
def V3.sqr (a : V3) : ℝ := a.dot a
/-- `ThreeVector::abs`, threevector.h:277. -/
noncomputable def V3.abs (a : V3) : ℝ := Real.sqrt (a.dot a)
/-- `cross_product`, threevector.h:249-253. -/
def V3.cross (a b : V3) : V3 :=
  ⟨a.y * b.z - a.z * b.y, a.z * b.x - a.x * b.z, a.x * b.y - a.y * b.x⟩

/-- `threevec`, fourvector.h:330-332. -/
def V4.vec (a : V4) : V3 := ⟨a.x, a.y, a.z⟩
/-- `FourVector(double, ThreeVector)`, fourvector.h:54-55. -/
def V4.mk' (t : ℝ) (v : V3) : V4 := ⟨t, v.x, v.y, v.z⟩
/-- `operator+`, fourvector.h:360-377. -/
def V4.add (a b : V4) : V4 := ⟨a.t + b.t, a.x + b.x, a.y + b.y, a.z + b.z⟩
/-- `operator-`, fourvector.h:379-396. -/
def V4.sub (a b : V4) : V4 := ⟨a.t - b.t, a.x - b.x, a.y - b.y, a.z - b.z⟩
/-- `velocity`, fourvector.h:334. -/
noncomputable def V4.velocity (a : V4) : V3 := a.vec.div a.t
/-- `Dot`, fourvector.h:456-459. -/
def V4.dot (a b : V4) : ℝ := a.t * b.t - a.vec.dot b.vec
/-- `sqr`, fourvector.h:461. -/
def V4.sqr (a : V4) : ℝ := a.dot a
/-- `abs`, fourvector.h:463-474, for vectors that are not space-like (otherwise it throws or
returns 0). -/
noncomputable def V4.abs (a : V4) : ℝ := Real.sqrt a.sqr

/-- The factor `gamma` in `lorentz_boost`, fourvector.cc:20-23. -/
noncomputable def gamma (v : V3) : ℝ := if v.sqr < 1 then 1 / Real.sqrt (1 - v.sqr) else 0

/-- `lorentz_boost`, fourvector.cc:19-30. -/
noncomputable def boost (a : V4) (v : V3) : V4 :=
  let t' := gamma v * (a.t - a.vec.dot v)
  let c := gamma v / (gamma v + 1) * (t' + a.t)
  V4.mk' t' (a.vec.sub (v.smul c))

/-! ### kinematics.h -/

/-- `center_of_velocity_v`, kinematics.h:29-33. -/
noncomputable def centerOfVelocityV (s ma mb : ℝ) : ℝ :=
  Real.sqrt ((s - (ma + mb) * (ma + mb)) / (s - (ma - mb) * (ma - mb)))

/-- `fixed_target_projectile_v`, kinematics.h:42-45. -/
noncomputable def fixedTargetV (s ma mb : ℝ) : ℝ :=
  let g := 2 * ma * mb / (s - ma * ma - mb * mb)
  Real.sqrt (1 - g * g)

/-- `pCM_sqr_from_s`, kinematics.h:55-60. -/
noncomputable def pCMsqrS (s ma mb : ℝ) : ℝ :=
  let x := s + ma * ma - mb * mb
  x * x * (1 / 4 / s) - ma * ma

/-- `pCM_from_s`, kinematics.h:69-73. -/
noncomputable def pCMS (s ma mb : ℝ) : ℝ :=
  let p := pCMsqrS s ma mb
  if p > 0 then Real.sqrt p else 0

/-- `pCM`, kinematics.h:81-84. -/
noncomputable def pCM (sqrts ma mb : ℝ) : ℝ := pCMS (sqrts * sqrts) ma mb

/-- `pCM_sqr`, kinematics.h:92-95. -/
noncomputable def pCMsqr (sqrts ma mb : ℝ) : ℝ := pCMsqrS (sqrts * sqrts) ma mb

/-- `get_t_range`, kinematics.h:108-119: (t_min, t_max). -/
noncomputable def tRange (sqrts m1 m2 m3 m4 : ℝ) : ℝ × ℝ :=
  let pi := pCM sqrts m1 m2
  let pf := pCM sqrts m3 m4
  let r := (m1 * m1 - m2 * m2 - m3 * m3 + m4 * m4) / (2 * sqrts)
  let t0 := r * r
  (t0 - (pi - pf) * (pi - pf), t0 - (pi + pf) * (pi + pf))

/-- `plab_from_s(s, mass)`, kinematics.h:148-156 (release build, without the checks). -/
noncomputable def plabFromS (s m : ℝ) : ℝ := Real.sqrt (s * (s - 4 * m * m)) / (2 * m)

/-- `plab_from_s(s, m_projectile, m_target)`, kinematics.h:174-188. -/
noncomputable def plabFromS2 (s mp mt : ℝ) : ℝ :=
  Real.sqrt ((s - (mp + mt) * (mp + mt)) * (s - (mp - mt) * (mp - mt))) / (2 * mt)

/-- `s_from_Etot`, fixed target, kinematics.h:197-199. -/
def sFromEtot (e mp mt : ℝ) : ℝ := mp * mp + mt * mt + 2 * mt * e

/-- `s_from_Etot`, two beams, kinematics.h:212-217. -/
noncomputable def sFromEtot2 (ep et mp mt : ℝ) : ℝ :=
  (ep + et) ^ 2 - (Real.sqrt (ep * ep - mp * mp) - Real.sqrt (et * et - mt * mt)) ^ 2

/-- `s_from_Ekin`, fixed target, kinematics.h:226-228. -/
def sFromEkin (ek mp mt : ℝ) : ℝ := sFromEtot (ek + mp) mp mt

/-- `s_from_Ekin`, two beams, kinematics.h:240-243. -/
noncomputable def sFromEkin2 (ekp ekt mp mt : ℝ) : ℝ := sFromEtot2 (ekp + mt) (ekt + mt) mp mt

/-- `s_from_plab`, fixed target, kinematics.h:252-254. -/
noncomputable def sFromPlab (plab mp mt : ℝ) : ℝ :=
  mp * mp + mt * mt + 2 * mt * Real.sqrt (mp * mp + plab * plab)

/-- `s_from_plab`, two beams, kinematics.h:266-270. -/
noncomputable def sFromPlab2 (pp pt mp mt : ℝ) : ℝ :=
  sFromEtot2 (Real.sqrt (mp * mp + pp * pp)) (Real.sqrt (mt * mt + pt * pt)) pp pt

/-! ### Comparisons -/

/-- A double: finite, or infinite / not a number. -/
abbrev Dbl := Option ℚ

/-- `almost_equal_knuthish`, numerics.h:57-78. -/
def almostEqual (x y : Dbl) (eps thr : ℚ) : Bool :=
  match x, y with
  | some x, some y =>
    if x = y then true
    else if x = 0 then decide (|y| ≤ eps)
    else if y = 0 then decide (|x| ≤ eps)
    else decide (|x - y| ≤ thr) || decide (|x - y| ≤ eps * max |x| |y|)
  | _, _ => false

/-- `really_small` and `small_number`, constants.h:41, 46. -/
def reallySmall : ℚ := 1 / 1000000
@[inherit_doc reallySmall] def smallNumber : ℚ := 1 / 10000

/-- `almost_equal_physics`, numerics.h:98-103. -/
def almostEqualPhysics (x y : Dbl) : Bool := almostEqual x y smallNumber reallySmall

/-- Four components. -/
structure Q4 where
  (t x y z : Dbl)

/-- `operator==`, fourvector.cc:32-37. -/
def Q4.eq (a b : Q4) : Bool :=
  almostEqualPhysics a.t b.t && almostEqualPhysics a.x b.x && almostEqualPhysics a.y b.y &&
  almostEqualPhysics a.z b.z

/-- `<` on doubles; with something that is not finite the comparison is left out of the model
(`false`). -/
def Dbl.lt (x y : Dbl) : Bool :=
  match x, y with
  | some x, some y => decide (x < y)
  | _, _ => false

/-- `operator<`, fourvector.h:340-343. -/
def Q4.lt (a b : Q4) : Bool := Dbl.lt a.t b.t && Dbl.lt a.x b.x && Dbl.lt a.y b.y && Dbl.lt a.z b.z
/-- `operator>`, fourvector.h:346-348. -/
def Q4.gt (a b : Q4) : Bool := Q4.lt b a
/-- `operator<=`, fourvector.h:351-353. -/
def Q4.le (a b : Q4) : Bool := !Q4.gt a b
/-- `operator>=`, fourvector.h:356-358. -/
def Q4.ge (a b : Q4) : Bool := !Q4.lt a b

end Verif.Kin
