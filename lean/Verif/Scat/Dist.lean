import Verif.Scat.Model
import Verif.Kin.Props
import Mathlib.Tactic.NormNum
import Mathlib.Tactic.Positivity
import Mathlib.Tactic.FieldSimp
import Mathlib.Tactic.LinearCombination
/-! C77, and the time of closest approach of C53. -/
namespace Verif.Scat
open Verif.Kin

/-! ### Specification -/

/-- Squared distance of two points in space. -/
def dist2 (a b : V3) : ℝ := (a.x - b.x) ^ 2 + (a.y - b.y) ^ 2 + (a.z - b.z) ^ 2

/-- The point reached from `x` after going `s` times the vector `v`. -/
def along (x v : V3) (s : ℝ) : V3 := ⟨x.x + s * v.x, x.y + s * v.y, x.z + s * v.z⟩

/-- The velocity belonging to a four-momentum. -/
noncomputable def vel (p : V4) : V3 := ⟨p.x / p.t, p.y / p.t, p.z / p.t⟩

/-- The space-time point a particle with momentum `p` at `x` reaches after the time `t`. -/
noncomputable def flow (x p : V4) (t : ℝ) : V4 :=
  ⟨x.t + t, x.x + t * (p.x / p.t), x.y + t * (p.y / p.t), x.z + t * (p.z / p.t)⟩

/-- `t` is a time of closest approach of two particles moving uniformly. -/
def Closest (x1 x2 v1 v2 : V3) (t : ℝ) : Prop :=
  ∀ s, dist2 (along x1 v1 t) (along x2 v2 t) ≤ dist2 (along x1 v1 s) (along x2 v2 s)

/-- `d` is the smallest squared distance between the straight lines through `x1` in direction `p1`
and through `x2` in direction `p2`. -/
def LineDistance2 (x1 x2 p1 p2 : V3) (d : ℝ) : Prop :=
  (∀ l m, d ≤ dist2 (along x1 p1 l) (along x2 p2 m)) ∧
  ∃ l m, d = dist2 (along x1 p1 l) (along x2 p2 m)

/-- The velocity of the centre-of-momentum frame. -/
noncomputable def cmVel (pa pb : V4) : V3 :=
  ⟨(pa.x + pb.x) / (pa.t + pb.t), (pa.y + pb.y) / (pa.t + pb.t), (pa.z + pb.z) / (pa.t + pb.t)⟩

/-- The two momenta have a centre-of-momentum frame. -/
def HasCM (pa pb : V4) : Prop :=
  0 < pa.t + pb.t ∧
  (pa.x + pb.x) ^ 2 + (pa.y + pb.y) ^ 2 + (pa.z + pb.z) ^ 2 < (pa.t + pb.t) ^ 2

/-! ### Geometric time -/

theorem dv_sqr (p1 p2 : V4) (h1 : p1.t ≠ 0) (h2 : p2.t ≠ 0) :
    ((p1.vec.smul p2.t).sub (p2.vec.smul p1.t)).sqr =
      (p1.t * p2.t) ^ 2 * dist2 (vel p1) (vel p2) := by
  simp only [V3.sqr, V3.dot, V3.sub, V3.smul, V4.vec, dist2, vel]
  field_simp

/-- **C53**, the geometric collision time is the time of closest approach of the two particles. -/
theorem C53_geometric_time (x1 x2 p1 p2 : V4) (h1 : p1.t ≠ 0) (h2 : p2.t ≠ 0)
    (hv : 1 / 1000000 ≤ (p1.t * p2.t) ^ 2 * dist2 (vel p1) (vel p2)) (t : ℝ) :
    geoTime x1 x2 p1 p2 = t ↔ Closest x1.vec x2.vec (vel p1) (vel p2) t := by
  have hD : 0 < dist2 (vel p1) (vel p2) := by
    by_contra hn
    have : (p1.t * p2.t) ^ 2 * dist2 (vel p1) (vel p2) ≤ 0 :=
      mul_nonpos_of_nonneg_of_nonpos (sq_nonneg _) (not_lt.1 hn)
    linarith
  set D := dist2 (vel p1) (vel p2) with hDdef
  set K := (x1.x - x2.x) * ((vel p1).x - (vel p2).x) + (x1.y - x2.y) * ((vel p1).y - (vel p2).y)
    + (x1.z - x2.z) * ((vel p1).z - (vel p2).z) with hK
  have ht : geoTime x1 x2 p1 p2 = -K / D := by
    unfold geoTime
    simp only
    have hs := dv_sqr p1 p2 h1 h2
    rw [hs, if_neg (not_lt.2 (by unfold reallySmall; exact hv)), ← hDdef]
    have : (x1.vec.sub x2.vec).dot ((p1.vec.smul p2.t).sub (p2.vec.smul p1.t)) =
        p1.t * p2.t * K := by
      rw [hK]
      simp only [V3.dot, V3.sub, V3.smul, V4.vec, vel]
      field_simp
    rw [this]
    field_simp
  have hf : ∀ s, dist2 (along x1.vec (vel p1) s) (along x2.vec (vel p2) s) =
      dist2 x1.vec x2.vec + 2 * s * K + s ^ 2 * D := by
    intro s
    rw [hK, hDdef]
    simp only [dist2, along, V4.vec]
    ring
  have hKt : K = -(-K / D) * D := by field_simp
  rw [ht]
  unfold Closest
  generalize hT : -K / D = T at hKt
  constructor
  · rintro rfl s
    rw [hf, hf, hKt]
    nlinarith [mul_nonneg hD.le (sq_nonneg (s - T))]
  · intro h
    have := h T
    rw [hf, hf, hKt] at this
    have h3 : D * (t - T) ^ 2 ≤ 0 := by nlinarith
    have h4 : (t - T) ^ 2 = 0 := by
      by_contra hne
      have : 0 < (t - T) ^ 2 := lt_of_le_of_ne (sq_nonneg _) (Ne.symm hne)
      have := mul_pos hD this
      linarith
    have := pow_eq_zero_iff (two_ne_zero) |>.1 h4
    linarith

example : (1 : ℝ) / 1000000 ≤ ((⟨1, 1 / 2, 0, 0⟩ : V4).t * (⟨1, -1 / 2, 0, 0⟩ : V4).t) ^ 2 *
    dist2 (vel ⟨1, 1 / 2, 0, 0⟩) (vel ⟨1, -1 / 2, 0, 0⟩) := by
  norm_num [dist2, vel]

/-- Two slow pions are 0.1 fm apart and meet within 2.5 fm, but no collision time is reported
although they do move relative to each other: the threshold is on velocity times energies. -/
theorem C53_slow_pair_false : ∃ x1 x2 p1 p2 : V4,
    p1.t ^ 2 - p1.x ^ 2 - p1.y ^ 2 - p1.z ^ 2 > (13 / 100) ^ 2 ∧
    p2.t ^ 2 - p2.x ^ 2 - p2.y ^ 2 - p2.z ^ 2 > (13 / 100) ^ 2 ∧
    vel p1 ≠ vel p2 ∧ Closest x1.vec x2.vec (vel p1) (vel p2) (7 / 3) ∧
    dist2 (along x1.vec (vel p1) (7 / 3)) (along x2.vec (vel p2) (7 / 3)) = 0 ∧
    geoTime x1 x2 p1 p2 = -1 := by
  refine ⟨⟨0, 0, 0, 0⟩, ⟨0, 1 / 10, 0, 0⟩, ⟨14 / 100, 3 / 1000, 0, 0⟩, ⟨14 / 100, -3 / 1000, 0, 0⟩,
    by norm_num, by norm_num, ?_, ?_, ?_, ?_⟩
  · intro h
    have := congrArg V3.x h
    norm_num [vel] at this
  · intro s
    have : dist2 (along (V4.vec ⟨0, 0, 0, 0⟩) (vel ⟨14 / 100, 3 / 1000, 0, 0⟩) (7 / 3))
      (along (V4.vec ⟨0, 1 / 10, 0, 0⟩) (vel ⟨14 / 100, -3 / 1000, 0, 0⟩) (7 / 3)) = 0 := by
      norm_num [dist2, along, vel, V4.vec]
    rw [this]
    unfold dist2
    positivity
  · norm_num [dist2, along, vel, V4.vec]
  · unfold geoTime
    simp only
    rw [if_pos]
    norm_num [V3.sqr, V3.dot, V3.sub, V3.smul, V4.vec, reallySmall]

/-! ### The centre-of-momentum frame -/

theorem cmVel_eq (pa pb : V4) : (pa.add pb).velocity = cmVel pa pb := by
  unfold V4.velocity V4.add V4.vec V3.div V3.smul cmVel
  ext <;> simp only <;> ring

theorem cm_sub {pa pb : V4} (h : HasCM pa pb) : Subluminal (cmVel pa pb) := by
  rw [← cmVel_eq]
  exact (C29_rest (pa.add pb) h.1 h.2).1

/-- In the centre-of-momentum frame the momenta are opposite and the energy is positive. -/
theorem cm_opposite {pa pb : V4} (h : HasCM pa pb) :
    let A := boost pa (cmVel pa pb)
    let B := boost pb (cmVel pa pb)
    0 < A.t + B.t ∧ B.x = -A.x ∧ B.y = -A.y ∧ B.z = -A.z := by
  obtain ⟨-, hr⟩ := C29_rest (pa.add pb) h.1 h.2
  rw [cmVel_eq, C29_linear] at hr
  simp only
  have ht := congrArg V4.t hr
  have hx := congrArg V4.x hr
  have hy := congrArg V4.y hr
  have hz := congrArg V4.z hr
  simp only [V4.add] at ht hx hy hz
  refine ⟨?_, by linarith, by linarith, by linarith⟩
  rw [ht]
  apply Real.sqrt_pos.2
  have := h.2
  nlinarith

theorem boost_sub (a b : V4) (v : V3) : boost (a.sub b) v = (boost a v).sub (boost b v) := by
  unfold boost V4.sub V4.mk' V3.sub V3.smul V4.vec V3.dot
  ext <;> simp only <;> ring

theorem boost_dot {v : V3} (h : Subluminal v) (a b : V4) : a.dot b = (boost a v).dot (boost b v) := by
  have := C29_isometry a b v h
  unfold minkowski at this
  simp only [V4.dot, V3.dot, V4.vec]
  linarith

/-- The smallest distance of two lines with opposite directions. -/
theorem line_opposite (x1 x2 p1 p2 : V3) (h : p2.x = -p1.x ∧ p2.y = -p1.y ∧ p2.z = -p1.z)
    (hp : 0 < p1.sqr) :
    LineDistance2 x1 x2 p1 p2
      ((x1.sub x2).sqr - ((x1.sub x2).dot p1) ^ 2 / p1.sqr) := by
  obtain ⟨hx, hy, hz⟩ := h
  set q := p1.sqr with hq
  set k := (x1.sub x2).dot p1 with hk
  have hf : ∀ l m, dist2 (along x1 p1 l) (along x2 p2 m) =
      (x1.sub x2).sqr + 2 * (l + m) * k + (l + m) ^ 2 * q := by
    intro l m
    rw [hq, hk]
    simp only [dist2, along, V3.sqr, V3.dot, V3.sub, hx, hy, hz]
    ring
  have hkq : k = (k / q) * q := by field_simp
  constructor
  · intro l m
    rw [hf]
    have e : k ^ 2 / q = (k / q) ^ 2 * q := by field_simp
    rw [e]
    generalize k / q = c at hkq
    rw [hkq]
    nlinarith [mul_nonneg hp.le (sq_nonneg (l + m + c))]
  · refine ⟨-(k / q), 0, ?_⟩
    rw [hf]
    field_simp
    ring

/-- **C77**, geometric criterion: the distance is the smallest distance of the two straight
trajectories in the centre-of-momentum frame. -/
theorem C77_transverse (xa xb pa pb : V4) (h : HasCM pa pb)
    (hp : 1 / 1000000 ≤ dist2 (boost pa (cmVel pa pb)).vec (boost pb (cmVel pa pb)).vec) :
    LineDistance2 (boost xa (cmVel pa pb)).vec (boost xb (cmVel pa pb)).vec
      (boost pa (cmVel pa pb)).vec (boost pb (cmVel pa pb)).vec
      (transverseDist2 xa xb pa pb) := by
  obtain ⟨-, hx, hy, hz⟩ := cm_opposite h
  unfold transverseDist2
  simp only
  rw [cmVel_eq]
  generalize cmVel pa pb = v at *
  generalize boost pa v = A at *
  generalize boost pb v = B at *
  generalize (boost xa v).vec = x1
  generalize (boost xb v).vec = x2
  have hd : (A.vec.sub B.vec).sqr = dist2 A.vec B.vec := by
    simp only [V3.sqr, V3.dot, V3.sub, dist2]; ring
  have h4 : (A.vec.sub B.vec).sqr = 4 * A.vec.sqr := by
    simp only [V3.sqr, V3.dot, V3.sub, V4.vec, hx, hy, hz]; ring
  have hdot : (x1.sub x2).dot (A.vec.sub B.vec) = 2 * (x1.sub x2).dot A.vec := by
    simp only [V3.dot, V3.sub, V4.vec, hx, hy, hz]; ring
  have hpos : 0 < A.vec.sqr := by
    have : 0 < dist2 A.vec B.vec := by linarith
    rw [← hd, h4] at this
    linarith
  rw [if_neg (by rw [hd]; unfold reallySmall; exact not_lt.2 hp), hdot, h4]
  have hl := line_opposite x1 x2 A.vec B.vec ⟨hx, hy, hz⟩ hpos
  have he : (x1.sub x2).sqr - 2 * (x1.sub x2).dot A.vec * (2 * (x1.sub x2).dot A.vec) /
      (4 * A.vec.sqr) = (x1.sub x2).sqr - ((x1.sub x2).dot A.vec) ^ 2 / A.vec.sqr := by
    field_simp
    ring
  rw [he]
  split
  · exact hl
  · rename_i hn
    obtain ⟨l, m, hlm⟩ := hl.2
    have hnn : 0 ≤ (x1.sub x2).sqr - ((x1.sub x2).dot A.vec) ^ 2 / A.vec.sqr := by
      rw [hlm]; unfold dist2; positivity
    have h0 : (x1.sub x2).sqr - ((x1.sub x2).dot A.vec) ^ 2 / A.vec.sqr = 0 := by linarith
    rw [h0] at hl
    exact hl

/-- **C77**, slow pairs in the geometric criterion: the distance is the present distance in the
centre-of-momentum frame. -/
theorem C77_transverse_slow (xa xb pa pb : V4)
    (hp : dist2 (boost pa (cmVel pa pb)).vec (boost pb (cmVel pa pb)).vec < 1 / 1000000) :
    transverseDist2 xa xb pa pb =
      dist2 (boost xa (cmVel pa pb)).vec (boost xb (cmVel pa pb)).vec := by
  unfold transverseDist2
  simp only
  rw [cmVel_eq, if_pos]
  · simp only [V3.sqr, V3.dot, V3.sub, dist2]; ring
  · unfold reallySmall
    refine lt_of_eq_of_lt ?_ hp
    simp only [V3.sqr, V3.dot, V3.sub, dist2]; ring

/-- **C77**, covariant criterion: without boosting, the same smallest distance of the two
trajectories in the centre-of-momentum frame. -/
theorem C77_covariant (xa xb pa pb : V4) (h : HasCM pa pb)
    (hp : 0 < dist2 (boost pa (cmVel pa pb)).vec (boost pb (cmVel pa pb)).vec)
    (hl : 1 / 1000000 ≤ dist2 pa.vec pb.vec) :
    LineDistance2 (boost xa (cmVel pa pb)).vec (boost xb (cmVel pa pb)).vec
      (boost pa (cmVel pa pb)).vec (boost pb (cmVel pa pb)).vec
      (covTransverseDist2 xa xb pa pb) := by
  obtain ⟨hs, hx, hy, hz⟩ := cm_opposite h
  have hv := cm_sub h
  unfold covTransverseDist2
  simp only
  have hd : (pa.vec.sub pb.vec).sqr = dist2 pa.vec pb.vec := by
    simp only [V3.sqr, V3.dot, V3.sub, dist2]; ring
  rw [if_neg (by rw [hd]; unfold reallySmall; exact not_lt.2 hl)]
  unfold V4.sqr
  rw [boost_dot hv pa pb, boost_dot hv pa pa, boost_dot hv pb pb, boost_dot hv pa (xa.sub xb),
    boost_dot hv pb (xa.sub xb), boost_dot hv (xa.sub xb) (xa.sub xb), boost_sub xa xb]
  generalize cmVel pa pb = v at *
  generalize boost pa v = A at *
  generalize boost pb v = B at *
  generalize boost xa v = X at *
  generalize boost xb v = Y at *
  have hpos : 0 < A.vec.sqr := by
    have : dist2 A.vec B.vec = 4 * A.vec.sqr := by
      simp only [dist2, V3.sqr, V3.dot, V4.vec, hx, hy, hz]; ring
    rw [this] at hp
    linarith
  have hl' := line_opposite X.vec Y.vec A.vec B.vec ⟨hx, hy, hz⟩ hpos
  have he : -(X.sub Y).dot (X.sub Y) - (A.dot A * (B.dot (X.sub Y)) ^ 2 +
      B.dot B * (A.dot (X.sub Y)) ^ 2 - 2 * A.dot B * A.dot (X.sub Y) * B.dot (X.sub Y)) /
      ((A.dot B) ^ 2 - A.dot A * B.dot B) =
      (X.vec.sub Y.vec).sqr - ((X.vec.sub Y.vec).dot A.vec) ^ 2 / A.vec.sqr := by
    set q := A.vec.sqr with hq
    set k := (X.vec.sub Y.vec).dot A.vec with hk
    set r := (X.vec.sub Y.vec).sqr with hr
    have e1 : (X.sub Y).dot (X.sub Y) = (X.t - Y.t) ^ 2 - r := by
      rw [hr]; simp only [V4.dot, V4.sub, V4.vec, V3.dot, V3.sub, V3.sqr]; ring
    have e2 : A.dot A = A.t ^ 2 - q := by
      rw [hq]; simp only [V4.dot, V4.vec, V3.dot, V3.sqr]; ring
    have e3 : B.dot B = B.t ^ 2 - q := by
      rw [hq]; simp only [V4.dot, V4.vec, V3.dot, V3.sqr, hx, hy, hz]; ring
    have e4 : A.dot B = A.t * B.t + q := by
      rw [hq]; simp only [V4.dot, V4.vec, V3.dot, V3.sqr, hx, hy, hz]; ring
    have e5 : A.dot (X.sub Y) = A.t * (X.t - Y.t) - k := by
      rw [hk]; simp only [V4.dot, V4.sub, V4.vec, V3.dot, V3.sub]; ring
    have e6 : B.dot (X.sub Y) = B.t * (X.t - Y.t) + k := by
      rw [hk]; simp only [V4.dot, V4.sub, V4.vec, V3.dot, V3.sub, hx, hy, hz]; ring
    rw [e1, e2, e3, e4, e5, e6]
    have hden : (A.t * B.t + q) ^ 2 - (A.t ^ 2 - q) * (B.t ^ 2 - q) = q * (A.t + B.t) ^ 2 := by
      ring
    rw [hden]
    have hne : A.t + B.t ≠ 0 := hs.ne'
    field_simp
    ring
  rw [he]
  split
  · exact hl'
  · rename_i hn
    obtain ⟨l, m, hlm⟩ := hl'.2
    have hnn : 0 ≤ (X.vec.sub Y.vec).sqr - ((X.vec.sub Y.vec).dot A.vec) ^ 2 / A.vec.sqr := by
      rw [hlm]; unfold dist2; positivity
    have h0 : (X.vec.sub Y.vec).sqr - ((X.vec.sub Y.vec).dot A.vec) ^ 2 / A.vec.sqr = 0 := by
      linarith
    rw [h0] at hl'
    exact hl'

/-- The smallest distance is unique. -/
theorem LineDistance2.unique {x1 x2 p1 p2 : V3} {d d' : ℝ} (h : LineDistance2 x1 x2 p1 p2 d)
    (h' : LineDistance2 x1 x2 p1 p2 d') : d = d' := by
  obtain ⟨l, m, e⟩ := h.2
  obtain ⟨l', m', e'⟩ := h'.2
  have := h.1 l' m'
  have := h'.1 l m
  linarith

/-- **C77**, the geometric and the covariant criterion use the same distance. -/
theorem C77_same_distance (xa xb pa pb : V4) (h : HasCM pa pb)
    (hp : 1 / 1000000 ≤ dist2 (boost pa (cmVel pa pb)).vec (boost pb (cmVel pa pb)).vec)
    (hl : 1 / 1000000 ≤ dist2 pa.vec pb.vec) :
    transverseDist2 xa xb pa pb = covTransverseDist2 xa xb pa pb :=
  (C77_transverse xa xb pa pb h hp).unique
    (C77_covariant xa xb pa pb h (by linarith) hl)

/-- The hypotheses hold for two nucleons that collide head on. -/
example : HasCM ⟨2, 1, 0, 0⟩ ⟨2, -1, 0, 0⟩ ∧
    1 / 1000000 ≤ dist2 (V4.vec ⟨2, 1, 0, 0⟩) (V4.vec ⟨2, -1, 0, 0⟩) ∧
    1 / 1000000 ≤ dist2 (boost ⟨2, 1, 0, 0⟩ (cmVel ⟨2, 1, 0, 0⟩ ⟨2, -1, 0, 0⟩)).vec
      (boost ⟨2, -1, 0, 0⟩ (cmVel ⟨2, 1, 0, 0⟩ ⟨2, -1, 0, 0⟩)).vec := by
  have hv : cmVel ⟨2, 1, 0, 0⟩ ⟨2, -1, 0, 0⟩ = ⟨0, 0, 0⟩ := by
    unfold cmVel; ext <;> norm_num
  refine ⟨by norm_num [HasCM], by norm_num [dist2, V4.vec], ?_⟩
  rw [hv]
  norm_num [boost, V4.mk', V3.sub, V3.smul, V4.vec, V3.dot, dist2]

/-- **C77**, the covariant collision time is the mean of the two times (in the computational frame)
at which the particles pass the points of closest approach, which are simultaneous in their
centre-of-momentum frame. -/
theorem C77_covariant_time (x1 x2 p1 p2 : V4) (h : HasCM p1 p2) (h1 : p1.t ≠ 0) (h2 : p2.t ≠ 0)
    (hd : 1 / 1000000 ^ 2 ≤ |(minkowski p1 p2) ^ 2 - minkowski p1 p1 * minkowski p2 p2|) (t : ℝ) :
    covTime x1 x2 p1 p2 = t ↔
    ∃ t1 t2, t = (t1 + t2) / 2 ∧
      (boost (flow x1 p1 t1) (cmVel p1 p2)).t = (boost (flow x2 p2 t2) (cmVel p1 p2)).t ∧
      ∀ l m, dist2 (boost (flow x1 p1 t1) (cmVel p1 p2)).vec
          (boost (flow x2 p2 t2) (cmVel p1 p2)).vec ≤
        dist2 (along (boost (flow x1 p1 t1) (cmVel p1 p2)).vec (boost p1 (cmVel p1 p2)).vec l)
          (along (boost (flow x2 p2 t2) (cmVel p1 p2)).vec (boost p2 (cmVel p1 p2)).vec m) := by
  obtain ⟨hs, hx, hy, hz⟩ := cm_opposite h
  have hv := cm_sub h
  have hmd : ∀ a b : V4, minkowski a b = a.dot b := by
    intro a b; simp only [minkowski, V4.dot, V3.dot, V4.vec]; ring
  rw [hmd, hmd, hmd] at hd
  set den := (p1.dot p2) ^ 2 - p1.dot p1 * p2.dot p2 with hden
  have hne : den ≠ 0 := by
    intro h0
    rw [h0, abs_zero] at hd
    norm_num at hd
  have hq : den = (boost p1 (cmVel p1 p2)).vec.sqr *
      ((boost p1 (cmVel p1 p2)).t + (boost p2 (cmVel p1 p2)).t) ^ 2 := by
    rw [hden, boost_dot hv p1 p2, boost_dot hv p1 p1, boost_dot hv p2 p2]
    generalize boost p1 (cmVel p1 p2) = A at *
    generalize boost p2 (cmVel p1 p2) = B at *
    simp only [V4.dot, V3.sqr, V3.dot, V4.vec, hx, hy, hz]
    ring
  have hqpos : 0 < (boost p1 (cmVel p1 p2)).vec.sqr := by
    have : 0 ≤ (boost p1 (cmVel p1 p2)).vec.sqr := by
      simp only [V3.sqr, V3.dot]
      nlinarith [mul_self_nonneg (boost p1 (cmVel p1 p2)).vec.x,
        mul_self_nonneg (boost p1 (cmVel p1 p2)).vec.y,
        mul_self_nonneg (boost p1 (cmVel p1 p2)).vec.z]
    refine lt_of_le_of_ne this fun h0 => hne ?_
    rw [hq, ← h0]; ring
  -- the condition of the specification is orthogonality to both momenta
  have key : ∀ t1 t2,
      ((boost (flow x1 p1 t1) (cmVel p1 p2)).t = (boost (flow x2 p2 t2) (cmVel p1 p2)).t ∧
      ∀ l m, dist2 (boost (flow x1 p1 t1) (cmVel p1 p2)).vec
          (boost (flow x2 p2 t2) (cmVel p1 p2)).vec ≤
        dist2 (along (boost (flow x1 p1 t1) (cmVel p1 p2)).vec (boost p1 (cmVel p1 p2)).vec l)
          (along (boost (flow x2 p2 t2) (cmVel p1 p2)).vec (boost p2 (cmVel p1 p2)).vec m)) ↔
      p1.dot ((flow x1 p1 t1).sub (flow x2 p2 t2)) = 0 ∧
      p2.dot ((flow x1 p1 t1).sub (flow x2 p2 t2)) = 0 := by
    intro t1 t2
    rw [boost_dot hv p1, boost_dot hv p2, boost_sub]
    generalize boost p1 (cmVel p1 p2) = A at *
    generalize boost p2 (cmVel p1 p2) = B at *
    generalize boost (flow x1 p1 t1) (cmVel p1 p2) = X at *
    generalize boost (flow x2 p2 t2) (cmVel p1 p2) = Y at *
    set k := (X.vec.sub Y.vec).dot A.vec with hk
    set q := A.vec.sqr with hqd
    have eA : A.dot (X.sub Y) = A.t * (X.t - Y.t) - k := by
      rw [hk]; simp only [V4.dot, V4.sub, V4.vec, V3.dot, V3.sub]; ring
    have eB : B.dot (X.sub Y) = B.t * (X.t - Y.t) + k := by
      rw [hk]; simp only [V4.dot, V4.sub, V4.vec, V3.dot, V3.sub, hx, hy, hz]; ring
    have hf : ∀ l m, dist2 (along X.vec A.vec l) (along Y.vec B.vec m) =
        dist2 X.vec Y.vec + 2 * (l + m) * k + (l + m) ^ 2 * q := by
      intro l m
      rw [hk, hqd]
      simp only [dist2, along, V3.dot, V3.sub, V3.sqr, V4.vec, hx, hy, hz]
      ring
    rw [eA, eB]
    simp only [hf]
    constructor
    · rintro ⟨e, hm⟩
      have hk0 : k = 0 := by
        have := hm (-(k / q)) 0
        have e1 : 2 * (-(k / q) + 0) * k + (-(k / q) + 0) ^ 2 * q = -(k ^ 2 / q) := by
          field_simp; ring
        have h0 : k ^ 2 / q ≤ 0 := by linarith
        by_contra hc
        have : 0 < k ^ 2 / q := by positivity
        linarith
      rw [e, hk0]
      constructor <;> ring
    · rintro ⟨ea, eb⟩
      have e : X.t = Y.t := by
        have : (A.t + B.t) * (X.t - Y.t) = 0 := by linarith
        rcases mul_eq_zero.1 this with h0 | h0
        · linarith
        · linarith
      have hk0 : k = 0 := by rw [e] at ea; linarith
      refine ⟨e, fun l m => ?_⟩
      rw [hk0]
      nlinarith [mul_nonneg (sq_nonneg (l + m)) hqpos.le]
  simp only [key]
  set a := p1.dot (x1.sub x2) with ha
  set b := p2.dot (x1.sub x2) with hb
  have f1 : ∀ t1 t2, p1.dot ((flow x1 p1 t1).sub (flow x2 p2 t2)) =
      a + t1 / p1.t * p1.dot p1 - t2 / p2.t * p1.dot p2 := by
    intro t1 t2
    rw [ha]
    simp only [V4.dot, V4.sub, V4.vec, V3.dot, flow]
    field_simp
    ring
  have f2 : ∀ t1 t2, p2.dot ((flow x1 p1 t1).sub (flow x2 p2 t2)) =
      b + t1 / p1.t * p1.dot p2 - t2 / p2.t * p2.dot p2 := by
    intro t1 t2
    rw [hb]
    simp only [V4.dot, V4.sub, V4.vec, V3.dot, flow]
    field_simp
    ring
  have hc : covTime x1 x2 p1 p2 = ((p2.dot p2 * a - p1.dot p2 * b) * p1.t / den +
      -(p1.dot p1 * b - p1.dot p2 * a) * p2.t / den) / 2 := by
    unfold covTime
    simp only [V4.sqr]
    have hn : ¬ |p1.dot p2 ^ 2 - p1.dot p1 * p2.dot p2| < reallySmall * reallySmall := by
      refine not_lt.2 ?_
      refine le_trans (le_of_eq ?_) hd
      unfold reallySmall
      norm_num
    exact if_neg hn
  rw [hc]
  simp only [f1, f2]
  generalize p1.dot p1 = m1 at *
  generalize p2.dot p2 = m2 at *
  generalize p1.dot p2 = s at *
  constructor
  · intro ht
    refine ⟨_, _, ht.symm, ?_, ?_⟩
    · field_simp
      rw [hden]; ring
    · field_simp
      rw [hden]; ring
  · rintro ⟨t1, t2, rfl, g1, g2⟩
    have r1 : t1 = (m2 * a - s * b) * p1.t / den := by
      rw [eq_div_iff hne]
      have : t1 / p1.t * den = m2 * a - s * b := by
        rw [hden]
        linear_combination s * g2 - m2 * g1
      field_simp at this
      linarith
    have r2 : t2 = -(m1 * b - s * a) * p2.t / den := by
      rw [eq_div_iff hne]
      have : t2 / p2.t * den = -(m1 * b - s * a) := by
        rw [hden]
        linear_combination m1 * g2 - s * g1
      field_simp at this
      linarith
    rw [r1, r2]

example : HasCM ⟨2, 1, 0, 0⟩ ⟨2, -1, 0, 0⟩ ∧ (1 : ℝ) / 1000000 ^ 2 ≤
    |(minkowski ⟨2, 1, 0, 0⟩ ⟨2, -1, 0, 0⟩) ^ 2 -
      minkowski ⟨2, 1, 0, 0⟩ ⟨2, 1, 0, 0⟩ * minkowski ⟨2, -1, 0, 0⟩ ⟨2, -1, 0, 0⟩| := by
  norm_num [HasCM, minkowski]

/-- **C77**, the velocity used by the stochastic criterion is the Møller velocity
`sqrt((v1 - v2)² - (v1 × v2)²)`. -/
theorem C77_relative_velocity (pa pb : V4) (h1 : 0 < pa.t) (h2 : 0 < pb.t) :
    relativeVelocity pa pb = Real.sqrt (dist2 (vel pa) (vel pb) -
      (((vel pa).y * (vel pb).z - (vel pa).z * (vel pb).y) ^ 2 +
       ((vel pa).z * (vel pb).x - (vel pa).x * (vel pb).z) ^ 2 +
       ((vel pa).x * (vel pb).y - (vel pa).y * (vel pb).x) ^ 2)) := by
  set w := dist2 (vel pa) (vel pb) -
      (((vel pa).y * (vel pb).z - (vel pa).z * (vel pb).y) ^ 2 +
       ((vel pa).z * (vel pb).x - (vel pa).x * (vel pb).z) ^ 2 +
       ((vel pa).x * (vel pb).y - (vel pa).y * (vel pb).x) ^ 2) with hw
  have hl : ((pa.add pb).sqr - pa.sqr - pb.sqr) * ((pa.add pb).sqr - pa.sqr - pb.sqr) -
      4 * pa.sqr * pb.sqr = (2 * pa.t * pb.t) ^ 2 * w := by
    rw [hw]
    simp only [V4.sqr, V4.dot, V4.add, V4.vec, V3.dot, vel, dist2]
    field_simp
    ring
  have hp : 0 < 2 * pa.t * pb.t := by positivity
  unfold relativeVelocity lambdaTilde
  simp only
  rw [hl, div_eq_iff hp.ne']
  split
  · rename_i hn
    have : w ≤ 0 := by
      by_contra hc
      have := mul_pos (pow_pos hp 2) (not_le.1 hc)
      linarith
    rw [Real.sqrt_eq_zero_of_nonpos this, Real.sqrt_zero, zero_mul]
  · rw [Real.sqrt_mul (sq_nonneg _), Real.sqrt_sq hp.le]
    ring

end Verif.Scat
