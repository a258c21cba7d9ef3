import Mathlib.Tactic.Linarith
import Mathlib.Tactic.Ring
import Mathlib.Tactic.FieldSimp
import Mathlib.Tactic.Positivity
import Mathlib.Tactic.NormNum
import Verif.Cell.Model
/-
C165: the rest frame of a lattice cell.
-/
namespace Verif.Cell

open Kin (V3 V4)

/-- Specification: energy density `E.t` and momentum density `E.x, E.y, E.z` of an ideal fluid with energy
density `e` and pressure `p` in its rest frame that moves with velocity `v`. -/
structure IdealFluid (E : V4) (e p : ℝ) (v : V3) : Prop where
  slow : v.x ^ 2 + v.y ^ 2 + v.z ^ 2 < 1
  t : E.t = (e + p) / (1 - (v.x ^ 2 + v.y ^ 2 + v.z ^ 2)) - p
  x : E.x = (e + p) / (1 - (v.x ^ 2 + v.y ^ 2 + v.z ^ 2)) * v.x
  y : E.y = (e + p) / (1 - (v.x ^ 2 + v.y ^ 2 + v.z ^ 2)) * v.y
  z : E.z = (e + p) / (1 - (v.x ^ 2 + v.y ^ 2 + v.z ^ 2)) * v.z

/-- Positive energy that exceeds the absolute value of the momentum. -/
def Timelike (E : V4) : Prop := 0 < E.t ∧ E.x ^ 2 + E.y ^ 2 + E.z ^ 2 < E.t ^ 2

theorem sqr_eq (v : V3) : v.sqr = v.x ^ 2 + v.y ^ 2 + v.z ^ 2 := by
  simp only [V3.sqr, V3.dot]; ring

theorem vel_sqr (E : V4) (p : ℝ) (hE : Timelike E) (hp : 0 ≤ p) : (E.vec.div (E.t + p)).sqr < 1 := by
  have ht : 0 < E.t + p := by linarith [hE.1]
  have : (E.vec.div (E.t + p)).sqr = (E.x ^ 2 + E.y ^ 2 + E.z ^ 2) / (E.t + p) ^ 2 := by
    rw [sqr_eq]; simp only [V3.div, V3.smul, V4.vec]; field_simp
  rw [this, div_lt_one (by positivity)]
  nlinarith [hE.1, hE.2]

theorem dot_vel (E : V4) (p : ℝ) : E.vec.dot (E.vec.div (E.t + p)) = (E.x ^ 2 + E.y ^ 2 + E.z ^ 2) / (E.t + p) := by
  simp only [V3.div, V3.smul, V4.vec, V3.dot]; ring

/-- The two equations that the code solves are the ideal fluid decomposition. -/
theorem fluid_iff (E : V4) (e p : ℝ) (v : V3) (hE : Timelike E) (hp : 0 ≤ p) :
    IdealFluid E e p v ↔ v = E.vec.div (E.t + p) ∧ e = E.t - E.vec.dot v := by
  have ht : 0 < E.t + p := by linarith [hE.1]
  constructor
  · intro h
    have hg : 0 < 1 - (v.x ^ 2 + v.y ^ 2 + v.z ^ 2) := by linarith [h.slow]
    have h1 : (e + p) / (1 - (v.x ^ 2 + v.y ^ 2 + v.z ^ 2)) = E.t + p := by linarith [h.t]
    have hx := h.x; have hy := h.y; have hz := h.z
    rw [h1] at hx hy hz
    have hv : v = E.vec.div (E.t + p) := by
      ext <;> simp only [V3.div, V3.smul, V4.vec] <;> [rw [hx]; rw [hy]; rw [hz]] <;> field_simp
    refine ⟨hv, ?_⟩
    have h2 : e + p = (E.t + p) * (1 - (v.x ^ 2 + v.y ^ 2 + v.z ^ 2)) := by
      rw [← h1]; field_simp
    simp only [V3.dot, V4.vec]
    rw [hx, hy, hz]
    linarith
  · rintro ⟨hv, he⟩
    have hs := vel_sqr E p hE hp
    rw [← hv, sqr_eq] at hs
    have hx : E.x = (E.t + p) * v.x := by rw [hv]; simp only [V3.div, V3.smul, V4.vec]; field_simp
    have hy : E.y = (E.t + p) * v.y := by rw [hv]; simp only [V3.div, V3.smul, V4.vec]; field_simp
    have hz : E.z = (E.t + p) * v.z := by rw [hv]; simp only [V3.div, V3.smul, V4.vec]; field_simp
    have hg : 0 < 1 - (v.x ^ 2 + v.y ^ 2 + v.z ^ 2) := by linarith
    have h1 : (e + p) / (1 - (v.x ^ 2 + v.y ^ 2 + v.z ^ 2)) = E.t + p := by
      rw [div_eq_iff hg.ne', he]
      simp only [V3.dot, V4.vec]
      rw [hx, hy, hz]
      ring
    exact ⟨hs, by rw [h1]; ring, by rw [h1]; exact hx, by rw [h1]; exact hy, by rw [h1]; exact hz⟩

/-- The pressure of every state of the matter is not negative. -/
def Eos.Ok (eos : Eos) : Prop := ∀ T a b c, 0 ≤ eos.pressure T a b c

theorem look_p (eos : Eos) (h : eos.Ok) (e a b c : ℝ) : 0 ≤ (look eos e a b c).p := by
  unfold look
  dsimp only
  by_cases hc : eos.tabulated = false ∨ (eos.table e a c).p < 0
  · rw [if_pos hc]; exact h ..
  · rw [if_neg hc]
    by_contra h'
    exact hc (Or.inr (by linarith))

/-- The velocity and the state of a node come from a complete pass of the iteration. -/
def Done (eos : Eos) (n : Node) : Prop :=
  n.v = n.T0.vec.div (n.T0.t + n.st.p) ∧ ∃ v' : V3, v'.sqr < 1 ∧ n.e = n.T0.t - n.T0.vec.dot v' ∧
    n.st = look eos n.e (Real.sqrt (1 - v'.sqr) * n.nb) (Real.sqrt (1 - v'.sqr) * n.ns) n.nq

theorem done_slow (eos : Eos) (h : eos.Ok) (n : Node) (hT : Timelike n.T0)
    (hi : n.v = ⟨0, 0, 0⟩ ∨ Done eos n) :
    n.v.sqr < 1 ∧ 0 < n.T0.t - n.T0.vec.dot n.v ∧ n.T0.t - n.T0.vec.dot n.v ≤ n.T0.t := by
  rcases hi with hv | ⟨hv, v', -, -, hs⟩
  · rw [hv]
    refine ⟨by simp [V3.sqr, V3.dot], by simpa [V3.dot] using hT.1, by simp [V3.dot]⟩
  · have hp : 0 ≤ n.st.p := by rw [hs]; exact look_p eos h ..
    refine ⟨by rw [hv]; exact vel_sqr _ _ hT hp, ?_, ?_⟩
    · rw [hv, dot_vel]
      have ht : 0 < n.T0.t + n.st.p := by linarith [hT.1]
      have : (n.T0.x ^ 2 + n.T0.y ^ 2 + n.T0.z ^ 2) / (n.T0.t + n.st.p) < n.T0.t := by
        rw [div_lt_iff₀ ht]; nlinarith [hT.1, hT.2]
      linarith
    · rw [hv, dot_vel]
      have ht : 0 < n.T0.t + n.st.p := by linarith [hT.1]
      have : 0 ≤ (n.T0.x ^ 2 + n.T0.y ^ 2 + n.T0.z ^ 2) / (n.T0.t + n.st.p) := by positivity
      linarith

theorem done_refine (eos : Eos) (h : eos.Ok) (n : Node) (hT : Timelike n.T0) (hi : n.v = ⟨0, 0, 0⟩ ∨ Done eos n) :
    Done eos (refine eos { n with e := n.T0.t - n.T0.vec.dot n.v }) :=
  ⟨rfl, n.v, (done_slow eos h n hT hi).1, rfl, rfl⟩

/-- What holds after the loop. -/
theorem loop_spec (eos : Eos) (h : eos.Ok) : ∀ (k : ℕ) (n : Node), Timelike n.T0 →
    (n.v = ⟨0, 0, 0⟩ ∨ Done eos n) → (0 < n.e ∧ n.e ≤ n.T0.t ∨ 0 < k) →
    ((loop eos k n).1.T0 = n.T0 ∧ (loop eos k n).1.nb = n.nb ∧ (loop eos k n).1.ns = n.ns ∧
      (loop eos k n).1.nq = n.nq) ∧
    ((loop eos k n).1.v.sqr < 1 ∧ 0 < (loop eos k n).1.e ∧ (loop eos k n).1.e ≤ n.T0.t) ∧
    ((loop eos k n).2 = true → ∃ n' : Node, (n' = n ∨ Done eos n') ∧
        n'.T0 = n.T0 ∧ n'.nb = n.nb ∧ n'.ns = n.ns ∧ n'.nq = n.nq ∧
        |n'.T0.t - n'.T0.vec.dot n'.v - n'.e| < tolerance ∧
        (loop eos k n).1 = { n' with e := n'.T0.t - n'.T0.vec.dot n'.v }) := by
  intro k
  induction k with
  | zero =>
    intro n hT hi hk
    rcases hk with hk | hk
    · exact ⟨⟨rfl, rfl, rfl, rfl⟩, ⟨(done_slow eos h n hT hi).1, hk⟩, fun hc => by cases hc⟩
    · omega
  | succ k ih =>
    intro n hT hi _
    have hs := done_slow eos h n hT hi
    rw [loop]
    by_cases hc : |n.T0.t - n.T0.vec.dot n.v - n.e| < tolerance
    · rw [if_pos hc]
      exact ⟨⟨rfl, rfl, rfl, rfl⟩, hs, fun _ => ⟨n, Or.inl rfl, rfl, rfl, rfl, rfl, hc, rfl⟩⟩
    · rw [if_neg hc]
      have hd := done_refine eos h n hT hi
      obtain ⟨h1, h2, h3⟩ := ih (refine eos { n with e := n.T0.t - n.T0.vec.dot n.v }) hT (Or.inr hd) (Or.inl hs.2)
      refine ⟨h1, h2, fun hb => ?_⟩
      obtain ⟨n', h4, h5⟩ := h3 hb
      refine ⟨n', Or.inr ?_, h5⟩
      rcases h4 with rfl | h4
      · exact hd
      · exact h4

/-- **C165.** The densities of the cell are not touched; whether or not the iteration converges, the velocity is
below the speed of light and the energy density is positive and at most the one in the computational frame. -/
theorem C165_bounds (eos : Eos) (h : eos.Ok) (n : Node) (hT : Timelike n.T0) :
    let r := (compute eos n).1
    (r.T0 = n.T0 ∧ r.nb = n.nb ∧ r.ns = n.ns ∧ r.nq = n.nq) ∧
    r.v.x ^ 2 + r.v.y ^ 2 + r.v.z ^ 2 < 1 ∧ 0 < r.e ∧ r.e ≤ n.T0.t := by
  have := loop_spec eos h 50 { n with v := ⟨0, 0, 0⟩ } hT (Or.inl rfl) (Or.inr (by norm_num))
  refine ⟨this.1, ?_, this.2.1.2⟩
  rw [← sqr_eq]; exact this.2.1.1

theorem compute_done (eos : Eos) (h : eos.Ok) (n : Node) (hT : Timelike n.T0) (h0 : 5 / 10000 ≤ |n.T0.t - n.e|)
    (hc : (compute eos n).2 = true) : ∃ n' : Node, Done eos n' ∧
      n'.T0 = n.T0 ∧ n'.nb = n.nb ∧ n'.ns = n.ns ∧ n'.nq = n.nq ∧
      |n'.T0.t - n'.T0.vec.dot n'.v - n'.e| < tolerance ∧
      (compute eos n).1 = { n' with e := n'.T0.t - n'.T0.vec.dot n'.v } := by
  obtain ⟨-, -, h3⟩ := loop_spec eos h 50 { n with v := ⟨0, 0, 0⟩ } hT (Or.inl rfl) (Or.inr (by norm_num))
  obtain ⟨n', h4, h5⟩ := h3 hc
  rcases h4 with rfl | h4
  · exfalso
    have := h5.2.2.2.2.1
    simp only [V3.dot, mul_zero, add_zero, sub_zero, tolerance] at this
    linarith
  · exact ⟨n', h4, h5⟩

/-- **C165.** If the iteration converges in a cell that is not empty, the energy density, pressure and velocity
found are exactly the decomposition of the energy and momentum density of the cell as an ideal fluid, and the
pressure, temperature and chemical potentials are those of matter whose energy density differs by less than
5·10⁻⁴ GeV/fm³ and whose baryon and strangeness densities are the ones of the cell divided by the Lorentz factor of
a frame `v'` that gives this energy density.  Missing: the charge density is not divided by this factor, see
`C165_charge_false`. -/
theorem C165_fluid_partial (eos : Eos) (h : eos.Ok) (n : Node) (hT : Timelike n.T0) (h0 : 5 / 10000 ≤ |n.T0.t - n.e|)
    (hc : (compute eos n).2 = true) :
    let r := (compute eos n).1
    IdealFluid n.T0 r.e r.st.p r.v ∧
    ∃ (e' : ℝ) (v' : V3), |r.e - e'| < 5 / 10000 ∧ v'.x ^ 2 + v'.y ^ 2 + v'.z ^ 2 < 1 ∧
      e' = n.T0.t - (n.T0.x * v'.x + n.T0.y * v'.y + n.T0.z * v'.z) ∧
      r.st = look eos e' (Real.sqrt (1 - (v'.x ^ 2 + v'.y ^ 2 + v'.z ^ 2)) * n.nb)
        (Real.sqrt (1 - (v'.x ^ 2 + v'.y ^ 2 + v'.z ^ 2)) * n.ns) n.nq := by
  obtain ⟨n', ⟨hv, v', hv', he', hst⟩, h6, h7, h8, h9, h10, h11⟩ := compute_done eos h n hT h0 hc
  rw [h11]
  rw [h6] at hv he' h10
  rw [h7, h8, h9] at hst
  refine ⟨?_, n'.e, v', ?_, ?_, he', ?_⟩
  · rw [h6]
    refine (fluid_iff _ _ _ _ hT ?_).2 ⟨hv, rfl⟩
    dsimp only
    rw [hst]; exact look_p eos h ..
  · rw [h6]; exact h10
  · rw [← sqr_eq]; exact hv'
  · rw [← sqr_eq]; exact hst

/-- **C165.** A cell can be left out by the test for `T00 + Σ|T0i| < e_crit` exactly because its energy density in the
rest frame is below the critical one: the set of cells above the critical energy density does not depend on whether
the test is used. -/
theorem C165_threshold (eos : Eos) (h : eos.Ok) (n : Node) (hT : Timelike n.T0) (ecrit : ℝ) (hc : 0 ≤ ecrit) :
    (updateNode eos ecrit true n).e > ecrit ↔ (updateNode eos ecrit false n).e > ecrit := by
  have hb := (C165_bounds eos h n hT).2.2.2
  have h2 : updateNode eos ecrit false n = (compute eos n).1 := by simp [updateNode]
  rw [h2]
  unfold updateNode
  by_cases hx : n.T0.t + |n.T0.x| + |n.T0.y| + |n.T0.z| ≥ ecrit
  · rw [if_pos (Or.inr hx)]
  · rw [if_neg (by simpa using hx)]
    constructor
    · intro h'
      simp only [Node.empty] at h'
      linarith
    · intro h'
      have := abs_nonneg n.T0.x; have := abs_nonneg n.T0.y; have := abs_nonneg n.T0.z
      linarith

/-- **C165.** A cell whose energy density changes by less than the tolerance at the first pass is taken at rest and
keeps its old thermal state: for a fresh cell with less than 5·10⁻⁴ GeV/fm³ temperature and pressure are 0. -/
theorem C165_dilute (eos : Eos) (n : Node) (h : |n.T0.t - n.e| < 5 / 10000) :
    compute eos n = ({ n with e := n.T0.t, v := ⟨0, 0, 0⟩ }, true) := by
  unfold compute
  rw [loop]
  have : n.T0.t - n.T0.vec.dot ⟨0, 0, 0⟩ = n.T0.t := by simp [V3.dot]
  dsimp only
  rw [this, if_pos (by simpa [tolerance] using h)]

/-! ### The densities of a cell -/

theorem cone_add (a b : V4) (ha : Timelike a) (hb : 0 ≤ b.t ∧ b.x ^ 2 + b.y ^ 2 + b.z ^ 2 ≤ b.t ^ 2) : Timelike (a.add b) := by
  have h1 : (a.x * b.x + a.y * b.y + a.z * b.z) ^ 2 ≤ (a.x ^ 2 + a.y ^ 2 + a.z ^ 2) * (b.x ^ 2 + b.y ^ 2 + b.z ^ 2) := by
    nlinarith [sq_nonneg (a.x * b.y - a.y * b.x), sq_nonneg (a.x * b.z - a.z * b.x), sq_nonneg (a.y * b.z - a.z * b.y)]
  have h2 : (a.x ^ 2 + a.y ^ 2 + a.z ^ 2) * (b.x ^ 2 + b.y ^ 2 + b.z ^ 2) ≤ (a.t * b.t) ^ 2 := by
    rw [mul_pow]
    exact mul_le_mul ha.2.le hb.2 (by positivity) (by positivity)
  have h3 : a.x * b.x + a.y * b.y + a.z * b.z ≤ a.t * b.t :=
    abs_le_of_sq_le_sq' (h1.trans h2) (mul_nonneg ha.1.le hb.1) |>.2
  refine ⟨by simp only [V4.add]; linarith [ha.1, hb.1], ?_⟩
  simp only [V4.add]
  nlinarith [ha.2, hb.2]

/-- **C165.** Adding massive particles with positive weights puts the energy density above the momentum
density, so the hypothesis `Timelike` holds in every cell that got a particle. -/
theorem C165_timelike (n : Node) (xs : List (Part × ℝ))
    (hn : n.T0 = ⟨0, 0, 0, 0⟩ ∨ Timelike n.T0)
    (hx : ∀ x ∈ xs, 0 < x.2 ∧ Timelike x.1.mom) (hne : n.T0 = ⟨0, 0, 0, 0⟩ → xs ≠ []) :
    Timelike (xs.foldl (fun n x => n.addParticle x.1 x.2) n).T0 := by
  have key (m : Part) (f : ℝ) (hf : 0 < f) (hm : Timelike m.mom) :
      Timelike ⟨m.mom.t * f, m.mom.x * f, m.mom.y * f, m.mom.z * f⟩ := by
    refine ⟨mul_pos hm.1 hf, ?_⟩
    have : (m.mom.x * f) ^ 2 + (m.mom.y * f) ^ 2 + (m.mom.z * f) ^ 2 =
        (m.mom.x ^ 2 + m.mom.y ^ 2 + m.mom.z ^ 2) * f ^ 2 := by ring
    dsimp only
    rw [this, mul_pow]
    exact mul_lt_mul_of_pos_right hm.2 (by positivity)
  induction xs generalizing n with
  | nil =>
    rcases hn with h0 | h0
    · exact absurd rfl (hne h0)
    · exact h0
  | cons x xs ih =>
    have hk := key x.1 x.2 (hx x (by simp)).1 (hx x (by simp)).2
    have ht : Timelike (n.addParticle x.1 x.2).T0 := by
      rcases hn with h0 | h0
      · simp only [Node.addParticle, h0, V4.add, zero_add]
        exact hk
      · exact cone_add _ _ h0 ⟨hk.1.le, hk.2.le⟩
    refine ih _ (Or.inr ht) (fun y hy => hx y (by simp [hy])) (fun h0 => ?_)
    exact absurd ht.1 (by rw [h0]; simp)

/-- **C165.** The densities of a cell are the sums of the particles' momenta and quantum numbers with their weights. -/
theorem C165_sums (xs : List (Part × ℝ)) :
    let n := xs.foldl (fun n x => n.addParticle x.1 x.2) Node.empty
    n.T0.t = (xs.map fun x => x.1.mom.t * x.2).sum ∧ n.T0.x = (xs.map fun x => x.1.mom.x * x.2).sum ∧
    n.T0.y = (xs.map fun x => x.1.mom.y * x.2).sum ∧ n.T0.z = (xs.map fun x => x.1.mom.z * x.2).sum ∧
    n.nb = (xs.map fun x => (x.1.B : ℝ) * x.2).sum ∧ n.ns = (xs.map fun x => (x.1.S : ℝ) * x.2).sum ∧
    n.nq = (xs.map fun x => (x.1.Q : ℝ) * x.2).sum := by
  have gen : ∀ (xs : List (Part × ℝ)) (n : Node),
      let r := xs.foldl (fun n x => n.addParticle x.1 x.2) n
      r.T0.t = n.T0.t + (xs.map fun x => x.1.mom.t * x.2).sum ∧ r.T0.x = n.T0.x + (xs.map fun x => x.1.mom.x * x.2).sum ∧
      r.T0.y = n.T0.y + (xs.map fun x => x.1.mom.y * x.2).sum ∧ r.T0.z = n.T0.z + (xs.map fun x => x.1.mom.z * x.2).sum ∧
      r.nb = n.nb + (xs.map fun x => (x.1.B : ℝ) * x.2).sum ∧ r.ns = n.ns + (xs.map fun x => (x.1.S : ℝ) * x.2).sum ∧
      r.nq = n.nq + (xs.map fun x => (x.1.Q : ℝ) * x.2).sum := by
    intro xs
    induction xs with
    | nil => simp
    | cons x xs ih =>
      intro n
      obtain ⟨h1, h2, h3, h4, h5, h6, h7⟩ := ih (n.addParticle x.1 x.2)
      simp only [List.foldl_cons, List.map_cons, List.sum_cons]
      rw [h1, h2, h3, h4, h5, h6, h7]
      simp only [Node.addParticle, V4.add]
      refine ⟨?_, ?_, ?_, ?_, ?_, ?_, ?_⟩ <;> ring
  have := gen xs Node.empty
  simpa [Node.empty] using this

end Verif.Cell
