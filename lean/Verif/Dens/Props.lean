import Verif.Dens.Model
import Verif.Kin.Props
import Verif.Emt.Props
import Verif.Pauli.Weights

/-
C107: currents and their derivatives at a point.
-/
namespace Verif.Dens
open Verif.Kin Verif.Emt Verif.Pauli
open Real

/-! ### The smearing function -/

/-- The squared distance between a particle at the origin with momentum `p` and a point at `r` (at
the same time in the computational frame), in the particle's rest frame. -/
noncomputable def restDistSqr (p : V4) (r : V3) : ℝ := (boost ⟨0, r.x, r.y, r.z⟩ p.velocity).vec.sqr

theorem rest_eq {p : V4} (hm : 0 < p.sqr) (ht : 0 < p.t) (r : V3) :
    restDistSqr p r
      = r.sqr + r.dot (smul4 p (1 / p.abs)).vec * r.dot (smul4 p (1 / p.abs)).vec := by
  set m := p.abs with hmdef
  have hm0 : 0 < m := Real.sqrt_pos.2 hm
  have hm2 : m ^ 2 = p.t ^ 2 - p.x ^ 2 - p.y ^ 2 - p.z ^ 2 := by
    rw [hmdef, V4.abs, Real.sq_sqrt hm.le]
    simp only [V4.sqr, V4.dot, V4.vec, V3.dot]; ring
  have hv : p.velocity.sqr = 1 - m ^ 2 / p.t ^ 2 := by
    rw [hm2]
    simp only [V4.velocity, V3.div, V3.smul, V3.sqr, V3.dot, V4.vec]
    field_simp
    ring
  have hlt : p.velocity.sqr < 1 := by
    rw [hv]; have : 0 < m ^ 2 / p.t ^ 2 := by positivity
    linarith
  have hg : gamma p.velocity = p.t / m := by
    unfold gamma
    rw [if_pos hlt, hv]
    have : (1 : ℝ) - (1 - m ^ 2 / p.t ^ 2) = (m / p.t) ^ 2 := by field_simp; ring
    rw [this, Real.sqrt_sq (by positivity)]
    field_simp
  have hgm : p.t / m + 1 ≠ 0 := by positivity
  have htm : p.t + m ≠ 0 := by positivity
  simp only [restDistSqr, boost, hg]
  simp only [V4.mk', V4.vec, V3.sub, V3.smul, V3.sqr, V3.dot, V4.velocity, V3.div, smul4]
  have hx : p.x ^ 2 = p.t ^ 2 - m ^ 2 - p.y ^ 2 - p.z ^ 2 := by linarith
  field_simp
  grind

/-- **C107 (smearing).** A particle's smearing factor at a point is its Lorentz factor times the
Gaussian of the distance in the particle's rest frame, up to and including the cut-off radius, and
zero beyond it. -/
theorem C107_smearing (P : Params) {p : V4} (hm : 0 < p.sqr) (ht : 0 < p.t) (r : V3) :
    (restDistSqr p r ≤ P.rCut ^ 2 →
      (smearing P r p (1 / p.abs)).1
        = p.t / p.abs * exp (-restDistSqr p r / (2 * P.sigma ^ 2))) ∧
    (P.rCut ^ 2 < restDistSqr p r → smearing P r p (1 / p.abs) = (0, ⟨0, 0, 0⟩)) := by
  rw [rest_eq hm ht]
  set ur := r.dot (smul4 p (1 / p.abs)).vec with hur
  have hnn : 0 ≤ ur * ur := mul_self_nonneg _
  constructor
  · intro h
    unfold smearing
    rw [if_neg (by rw [Params.rCutSqr, not_lt]; nlinarith)]
    simp only
    rw [← hur, if_neg (by rw [Params.rCutSqr, not_lt]; nlinarith)]
    simp only [Params.twoSigSqrInv, smul4]
    rw [mul_comm]
    congr 1
    · ring
    · congr 1
      rw [mul_one_div]
      congr 1
      ring
  · intro h
    unfold smearing
    by_cases h1 : r.sqr > P.rCutSqr
    · rw [if_pos h1]
    · rw [if_neg h1]
      simp only
      rw [← hur, if_pos (by rw [Params.rCutSqr]; nlinarith)]

/-- The smearing factor along a line. -/
noncomputable def lineSf (P : Params) (p : V4) (mInv : ℝ) (d w : V3) (s : ℝ) : ℝ :=
  (smearing P (d.add (w.smul s)) p mInv).1

/-- **C107 (gradient).** Wherever the distance in the rest frame is not exactly the cut-off radius,
moving the particle in a direction `w` changes its smearing factor at the rate minus `w` times the
returned gradient; equivalently the returned gradient is the derivative with respect to the
position of the point. -/
theorem C107_gradient (P : Params) (p : V4) (d w : V3) (mInv : ℝ)
    (hne : d.sqr + d.dot (smul4 p mInv).vec ^ 2 ≠ P.rCutSqr) (hs : P.sigma ≠ 0) :
    HasDerivAt (lineSf P p mInv d w) (-(smearing P d p mInv).2.dot w) 0 := by
  set u := smul4 p mInv with hu
  let q : ℝ → V3 := fun s => d.add (w.smul s)
  let R : ℝ → ℝ := fun s => (q s).sqr + (q s).dot u.vec * (q s).dot u.vec
  have hq0 : q 0 = d := by simp [q, V3.add, V3.smul]
  have hx : ∀ a b : ℝ, HasDerivAt (fun s : ℝ => a + b * s) b 0 := by
    intro a b
    have := ((hasDerivAt_id (0 : ℝ)).const_mul b).const_add a
    simpa using this
  have hdx := hx d.x w.x
  have hdy := hx d.y w.y
  have hdz := hx d.z w.z
  have hur : HasDerivAt (fun s => (q s).dot u.vec) (w.dot u.vec) 0 := by
    have := ((hdx.mul_const u.x).add (hdy.mul_const u.y)).add (hdz.mul_const u.z)
    refine HasDerivAt.congr_deriv this ?_
    simp [V3.dot, V4.vec]
  have hsq : HasDerivAt (fun s => (q s).sqr) (2 * d.dot w) 0 := by
    have := ((hdx.mul hdx).add (hdy.mul hdy)).add (hdz.mul hdz)
    refine HasDerivAt.congr_deriv this ?_
    simp [V3.dot]; ring
  have hR : HasDerivAt R (2 * d.dot w + 2 * (d.dot u.vec * w.dot u.vec)) 0 := by
    have := hsq.add (hur.mul hur)
    refine HasDerivAt.congr_deriv this ?_
    rw [hq0]; ring
  have hcont : ContinuousAt R 0 := hR.continuousAt
  have hR0 : R 0 = d.sqr + d.dot u.vec ^ 2 := by simp only [R, hq0]; ring
  rcases lt_or_gt_of_ne hne with h | h
  · -- inside
    have hin : ∀ r : V3, r.sqr + r.dot u.vec * r.dot u.vec < P.rCutSqr →
        smearing P r p mInv = (exp (-(r.sqr + r.dot u.vec * r.dot u.vec) * P.twoSigSqrInv) * u.t,
          (((r.add (u.vec.smul (r.dot u.vec))).smul
            (exp (-(r.sqr + r.dot u.vec * r.dot u.vec) * P.twoSigSqrInv) * u.t)).smul
              P.twoSigSqrInv).smul 2) := by
      intro r hr
      have := mul_self_nonneg (r.dot u.vec)
      unfold smearing
      rw [if_neg (by rw [not_lt]; linarith)]
      simp only
      rw [← hu, if_neg (by rw [not_lt]; exact hr.le)]
    have hev : ∀ᶠ s in nhds (0 : ℝ), R s < P.rCutSqr := by
      apply hcont.eventually_lt continuousAt_const
      rw [hR0]; exact h
    have hev2 : lineSf P p mInv d w =ᶠ[nhds 0] fun s => exp (-R s * P.twoSigSqrInv) * u.t := by
      filter_upwards [hev] with s hs
      simp only [lineSf]
      rw [hin _ hs]
    have hmain : HasDerivAt (fun s => exp (-R s * P.twoSigSqrInv) * u.t)
        (exp (-R 0 * P.twoSigSqrInv) *
          (-(2 * d.dot w + 2 * (d.dot u.vec * w.dot u.vec)) * P.twoSigSqrInv) * u.t) 0 :=
      (((hR.neg).mul_const _).exp).mul_const _
    refine HasDerivAt.congr_deriv (hmain.congr_of_eventuallyEq hev2) ?_
    rw [hin d (by rw [← sq]; exact h)]
    simp only [R, hq0]
    simp only [V3.smul, V3.add, V3.dot]
    ring
  · -- outside
    have hout : ∀ r : V3, P.rCutSqr < r.sqr + r.dot u.vec * r.dot u.vec →
        smearing P r p mInv = (0, ⟨0, 0, 0⟩) := by
      intro r hr
      unfold smearing
      by_cases h1 : r.sqr > P.rCutSqr
      · rw [if_pos h1]
      · rw [if_neg h1]
        simp only
        rw [← hu, if_pos hr]
    have hev : ∀ᶠ s in nhds (0 : ℝ), P.rCutSqr < R s := by
      apply continuousAt_const.eventually_lt hcont
      rw [hR0]; exact h
    have hev2 : lineSf P p mInv d w =ᶠ[nhds 0] fun _ => (0 : ℝ) := by
      filter_upwards [hev] with s hs
      simp only [lineSf]
      rw [hout _ hs]
    refine HasDerivAt.congr_deriv ((hasDerivAt_const (0 : ℝ) (0 : ℝ)).congr_of_eventuallyEq hev2) ?_
    rw [hout d (by rw [← sq]; exact h)]
    simp [V3.dot]

/-! ### Currents -/

theorem counted_pos {P : Params} {p : Part} (h : counted P p = true) :
    p.factor ≠ 0 ∧ p.mom.t ≠ 0 ∧ 0 < p.mom.sqr := by
  simp only [counted, Bool.and_eq_true, Bool.not_eq_true', decide_eq_false_iff_not, not_lt] at h
  have hf : p.factor ≠ 0 := by
    intro h0
    have := h.1.2
    rw [h0] at this; norm_num at this
  have hs : 0 < p.mom.sqr := by
    have h2 : 0 < p.mom.abs := lt_of_lt_of_le (by norm_num) h.2
    exact Real.sqrt_pos.1 h2
  refine ⟨hf, ?_, hs⟩
  intro h0
  simp only [V4.sqr, V4.dot, V4.vec, V3.dot, h0] at hs
  nlinarith [mul_self_nonneg p.mom.x, mul_self_nonneg p.mom.y, mul_self_nonneg p.mom.z]

theorem flow_eq {P : Params} {p : Part} (h : counted P p = true) :
    (flow p).t = p.factor ∧ (flow p).x = p.factor * p.mom.velocity.x ∧
    (flow p).y = p.factor * p.mom.velocity.y ∧ (flow p).z = p.factor * p.mom.velocity.z := by
  have := (counted_pos h).2.1
  simp only [flow, smul4, V4.velocity, V3.div, V3.smul, V4.vec]
  refine ⟨by field_simp, by ring, by ring, by ring⟩

/-- One particle's part of a component of the current: its factor times (1, velocity) times its
smearing factor. -/
noncomputable def part (P : Params) (r : V3) (p : Part) : V4 :=
  smul4 ⟨1, p.mom.velocity.x, p.mom.velocity.y, p.mom.velocity.z⟩
    (p.factor * (smearing P (p.pos.sub r) p.mom (1 / p.mom.abs)).1)

theorem sum_split {α : Type} (l : List α) (c : α → Bool) (f : α → ℝ) :
    ((l.filter c).map f).sum + ((l.filter fun p => !c p).map f).sum = (l.map f).sum := by
  induction l with
  | nil => simp
  | cons a l ih =>
    by_cases h : c a = true
    · simp only [List.filter_cons, h, if_true, Bool.not_true, Bool.false_eq_true, if_false,
        List.map_cons, List.sum_cons]
      linarith
    · have h' : c a = false := by simpa using h
      simp only [List.filter_cons, h', Bool.false_eq_true, if_false, Bool.not_false, if_true,
        List.map_cons, List.sum_cons]
      linarith

/-- **C107 (current).** The smeared current is the normalisation times the sum, over the
contributing particles, of charge times (1, velocity) times smearing factor; the returned
derivatives are linear in the particles in the same way. -/
theorem C107_current (P : Params) (r : V3) (ps : List Part) :
    (current P true r ps).jmu
      = smul4 (sumV4 ((ps.filter (counted P)).map (part P r))) P.normFactor := by
  have hcomp : ∀ p ∈ ps.filter (counted P),
      smul4 (flow p) (sfGrad P r p).1 = part P r p := by
    intro p hp
    obtain ⟨h0, h1, h2, h3⟩ := flow_eq (List.mem_filter.1 hp).2
    simp only [smul4, part, sfGrad, h0, h1, h2, h3, V4.mk.injEq]
    refine ⟨by ring, by ring, by ring, by ring⟩
  have e : (ps.filter (counted P)).map (fun p => smul4 (flow p) (sfGrad P r p).1)
      = (ps.filter (counted P)).map (part P r) := List.map_congr_left hcomp
  rw [← e]
  have key := fun g : V4 → ℝ => sum_split (ps.filter (counted P))
    (fun p => decide (p.factor > 0)) (fun p => g (smul4 (flow p) (sfGrad P r p).1))
  simp only [current, if_true, smul4, V4.add, sumV4, List.map_map, Function.comp_def] at key ⊢
  have k1 := key V4.t
  have k2 := key V4.x
  have k3 := key V4.y
  have k4 := key V4.z
  simp only [smul4] at k1 k2 k3 k4
  rw [← k1, ← k2, ← k3, ← k4]
  simp only [V4.mk.injEq]
  refine ⟨by ring, by ring, by ring, by ring⟩

/-- **C107 (derivatives).** Each returned space derivative is the normalisation times the sum of
charge times (1, velocity) times the component of the particle's gradient; the time derivative is
that of particles moving with their velocities. -/
theorem C107_derivatives (P : Params) (smear : Bool) (r : V3) (ps : List Part) :
    let J := current P smear r ps
    let g (p : Part) := (smearing P (p.pos.sub r) p.mom (1 / p.mom.abs)).2
    let v (p : Part) : V4 := ⟨1, p.mom.velocity.x, p.mom.velocity.y, p.mom.velocity.z⟩
    let sum (f : Part → ℝ) : V4 :=
      smul4 (sumV4 ((ps.filter (counted P)).map fun p => smul4 (v p) (p.factor * f p)))
        P.normFactor
    J.dx = sum (fun p => (g p).x) ∧ J.dy = sum (fun p => (g p).y) ∧ J.dz = sum (fun p => (g p).z) ∧
    J.dt = sum (fun p => -(g p).dot p.mom.velocity) := by
  have aux : ∀ f : Part → ℝ, (ps.filter (counted P)).map (fun p => smul4 (flow p) (f p))
      = (ps.filter (counted P)).map (fun p => smul4 ⟨1, p.mom.velocity.x, p.mom.velocity.y,
          p.mom.velocity.z⟩ (p.factor * f p)) := by
    intro f
    refine List.map_congr_left ?_
    intro p hp
    obtain ⟨h0, h1, h2, h3⟩ := flow_eq (List.mem_filter.1 hp).2
    simp only [smul4, h0, h1, h2, h3, V4.mk.injEq]
    refine ⟨by ring, by ring, by ring, by ring⟩
  have auxT : (ps.filter (counted P)).map (timeTerm P r)
      = (ps.filter (counted P)).map (fun p => smul4 ⟨1, p.mom.velocity.x, p.mom.velocity.y,
          p.mom.velocity.z⟩ (p.factor *
            -(smearing P (p.pos.sub r) p.mom (1 / p.mom.abs)).2.dot p.mom.velocity)) := by
    refine List.map_congr_left ?_
    intro p hp
    have hc := (List.mem_filter.1 hp).2
    obtain ⟨h0, h1, h2, h3⟩ := flow_eq hc
    have hf := (counted_pos hc).1
    simp only [timeTerm, sumV4, smul4, h0, h1, h2, h3, List.map_cons, List.map_nil, List.sum_cons,
      List.sum_nil, V4.mk.injEq, V3.dot, sfGrad]
    refine ⟨?_, ?_, ?_, ?_⟩ <;> field_simp <;> ring
  refine ⟨?_, ?_, ?_, ?_⟩
  · simp only [current]; rw [aux]; rfl
  · simp only [current]; rw [aux]; rfl
  · simp only [current]; rw [aux]; rfl
  · simp only [current]; rw [auxT]

theorem sum_lin (l : List Part) (a b c d : Part → ℝ) (h : ∀ p ∈ l, a p + b p + c p + d p = 0) :
    (l.map a).sum + (l.map b).sum + (l.map c).sum + (l.map d).sum = 0 := by
  induction l with
  | nil => simp
  | cons x l ih =>
    have := h x (by simp)
    have := ih (fun p hp => h p (by simp [hp]))
    simp only [List.map_cons, List.sum_cons]
    linarith

/-- **C107 (continuity).** For every set of particles and every point the returned derivatives
satisfy the continuity equation exactly: d_t j^0 + d_x j^x + d_y j^y + d_z j^z = 0; the gradient of
j^0 and the curl are the corresponding combinations of the derivatives. -/
theorem C107_continuity (P : Params) (smear : Bool) (r : V3) (ps : List Part) :
    let J := current P smear r ps
    J.dt.t + J.dx.x + J.dy.y + J.dz.z = 0 ∧
    J.gradJ0 = ⟨J.dx.t, J.dy.t, J.dz.t⟩ ∧
    J.curl = ⟨J.dy.z - J.dz.y, J.dz.x - J.dx.z, J.dx.y - J.dy.x⟩ := by
  refine ⟨?_, ?_, ?_⟩
  · obtain ⟨h1, h2, h3, h4⟩ := C107_derivatives P smear r ps
    simp only [h1, h2, h3, h4]
    have key := sum_lin (ps.filter (counted P))
      (fun p => 1 * (p.factor * -(smearing P (p.pos.sub r) p.mom (1 / p.mom.abs)).2.dot
        p.mom.velocity))
      (fun p => p.mom.velocity.x * (p.factor *
        (smearing P (p.pos.sub r) p.mom (1 / p.mom.abs)).2.x))
      (fun p => p.mom.velocity.y * (p.factor *
        (smearing P (p.pos.sub r) p.mom (1 / p.mom.abs)).2.y))
      (fun p => p.mom.velocity.z * (p.factor *
        (smearing P (p.pos.sub r) p.mom (1 / p.mom.abs)).2.z))
      (fun p _ => by simp only [V3.dot]; ring)
    simp only [smul4, sumV4, List.map_map, Function.comp_def]
    linear_combination P.normFactor * key
  · simp only [current, smul4]
  · simp only [current, smul4, V3.smul, V3.mk.injEq]
    refine ⟨by ring, by ring, by ring⟩

end Verif.Dens
