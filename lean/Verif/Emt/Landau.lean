import Verif.Emt.Props

/-
C106: the Landau frame of an energy-momentum tensor.
-/
namespace Verif.Emt
open Verif.Kin Matrix

/-- What the eigenvalue solver promises: `val i` is an eigenvalue of `T_mu^nu` with the eigenvector
`vec i`, which has Euclidean length one. (Real eigenvalues.) -/
def Solves (T : Tmn) (val : Fin 4 → ℝ) (vec : Fin 4 → V4) : Prop :=
  ∀ i, (∀ mu, ∑ k, mixed T mu k * up (vec i) k = val i * up (vec i) mu) ∧
    (vec i).t ^ 2 + (vec i).x ^ 2 + (vec i).y ^ 2 + (vec i).z ^ 2 = 1

theorem maxIndex_spec (val : Fin 4 → ℝ) (i : Fin 4) : val i ≤ val (maxIndex val) := by
  have h : ∀ (l : List (Fin 4)) (m : Fin 4),
      val m ≤ val (l.foldl (fun m i => if val m < val i then i else m) m) ∧
      ∀ j ∈ l, val j ≤ val (l.foldl (fun m i => if val m < val i then i else m) m) := by
    intro l
    induction l with
    | nil => intro m; simp
    | cons a l ih =>
      intro m
      simp only [List.foldl_cons, List.mem_cons, forall_eq_or_imp]
      obtain ⟨h1, h2⟩ := ih (if val m < val a then a else m)
      have : val m ≤ val (if val m < val a then a else m) ∧
          val a ≤ val (if val m < val a then a else m) := by
        split
        · rename_i h; exact ⟨h.le, le_refl _⟩
        · rename_i h; exact ⟨le_refl _, not_lt.1 h⟩
      exact ⟨this.1.trans h1, this.2.trans h1, h2⟩
  exact (h (List.finRange 4) 0).2 i (List.mem_finRange i)

/-- The vector before normalisation: the eigenvector with its sign chosen. -/
noncomputable def chosen (val : Fin 4 → ℝ) (vec : Fin 4 → V4) : V4 :=
  let e := vec (maxIndex val)
  if e.t < 0 then ⟨-e.t, -e.x, -e.y, -e.z⟩ else e

theorem landau_eq (val : Fin 4 → ℝ) (vec : Fin 4 → V4) :
    landau val vec = if (chosen val vec).sqr > 1 / 1000000 then
      smul4 (chosen val vec) (1 / Real.sqrt (chosen val vec).sqr) else ⟨1, 0, 0, 0⟩ := rfl

theorem chosen_nonneg (val : Fin 4 → ℝ) (vec : Fin 4 → V4) : 0 ≤ (chosen val vec).t := by
  unfold chosen
  dsimp only
  split
  · rename_i h; simp only; linarith
  · rename_i h; exact not_lt.1 h

theorem sqr_expand (u : V4) : u.sqr = u.t ^ 2 - u.x ^ 2 - u.y ^ 2 - u.z ^ 2 := by
  simp only [V4.sqr, V4.dot, V4.vec, V3.dot]; ring

/-- **C106 (four-velocity).** Whatever the solver returns, the result is a four-velocity: of
length one and with a positive time component. -/
theorem C106_four_velocity (val : Fin 4 → ℝ) (vec : Fin 4 → V4) :
    FourVelocity (landau val vec) := by
  rw [landau_eq]
  split
  · rename_i h
    have hpos : 0 < (chosen val vec).sqr := lt_trans (by norm_num) h
    have hs : 0 < Real.sqrt (chosen val vec).sqr := Real.sqrt_pos.2 hpos
    have hq : Real.sqrt (chosen val vec).sqr ^ 2 = (chosen val vec).sqr := Real.sq_sqrt hpos.le
    refine ⟨?_, ?_⟩
    · have e : (smul4 (chosen val vec) (1 / Real.sqrt (chosen val vec).sqr)).sqr
          = (chosen val vec).sqr / Real.sqrt (chosen val vec).sqr ^ 2 := by
        rw [sqr_expand, sqr_expand (chosen val vec)]
        simp only [smul4]
        field_simp
      rw [e, hq, div_self hpos.ne']
    · have h0 := chosen_nonneg val vec
      have : (chosen val vec).t ≠ 0 := by
        intro h0
        rw [sqr_expand, h0] at hpos
        nlinarith [sq_nonneg (chosen val vec).x, sq_nonneg (chosen val vec).y,
          sq_nonneg (chosen val vec).z]
      have := lt_of_le_of_ne h0 this.symm
      simp only [smul4]
      positivity
  · refine ⟨?_, by norm_num⟩
    rw [sqr_expand]; norm_num

theorem chosen_eigen {T : Tmn} {val : Fin 4 → ℝ} {vec : Fin 4 → V4} (h : Solves T val vec)
    (mu : Fin 4) : ∑ k, mixed T mu k * up (chosen val vec) k
      = val (maxIndex val) * up (chosen val vec) mu := by
  have hi := (h (maxIndex val)).1 mu
  unfold chosen
  dsimp only
  split
  · have e : ∀ k, up (⟨-(vec (maxIndex val)).t, -(vec (maxIndex val)).x, -(vec (maxIndex val)).y,
        -(vec (maxIndex val)).z⟩ : V4) k = - up (vec (maxIndex val)) k := by
      intro k; fin_cases k <;> simp [up]
    simp only [e, mul_neg, Finset.sum_neg_distrib, hi]
  · exact hi

/-- Lowering the index of a vector. -/
def lower (u : V4) : V4 := ⟨u.t, -u.x, -u.y, -u.z⟩

theorem eigen_boost {T : Tmn} {u : V4} {lam : ℝ} (hu : FourVelocity u)
    (h : ∀ mu, ∑ k, mixed T mu k * up u k = lam * up u mu) :
    comp (boosted T u) 0 0 = lam ∧ comp (boosted T u) 0 1 = 0 ∧ comp (boosted T u) 0 2 = 0 ∧
      comp (boosted T u) 0 3 = 0 := by
  have h1 := four_sqr hu
  have h2 := hu.2
  have h3 : (1 : ℝ) + u.t ≠ 0 := by positivity
  have e0 := h 0
  have e1 := h 1
  have e2 := h 2
  have e3 := h 3
  simp [mixed, up, Fin.sum_univ_four] at e0 e1 e2 e3
  have r0 : ∀ j, (boostMatrix u * full T * boostMatrix u) 0 j
      = lam * (u.t * boostMatrix u 0 j - u.x * boostMatrix u 1 j - u.y * boostMatrix u 2 j
        - u.z * boostMatrix u 3 j) := by
    intro j
    have a0 : (boostMatrix u * full T) 0 0 = lam * u.t := by
      simp [Matrix.mul_apply, Fin.sum_univ_four, boostMatrix, full]; linarith
    have a1 : (boostMatrix u * full T) 0 1 = -(lam * u.x) := by
      simp [Matrix.mul_apply, Fin.sum_univ_four, boostMatrix, full]; linarith
    have a2 : (boostMatrix u * full T) 0 2 = -(lam * u.y) := by
      simp [Matrix.mul_apply, Fin.sum_univ_four, boostMatrix, full]; linarith
    have a3 : (boostMatrix u * full T) 0 3 = -(lam * u.z) := by
      simp [Matrix.mul_apply, Fin.sum_univ_four, boostMatrix, full]; linarith
    rw [Matrix.mul_apply, Fin.sum_univ_four, a0, a1, a2, a3]
    ring
  simp only [boosted_comp, r0]
  refine ⟨?_, ?_, ?_, ?_⟩ <;> simp [boostMatrix, V3.div, V3.smul, V4.vec]
  · grind
  all_goals
    right
    field_simp
    grind

/-- **C106 (no flow).** When the eigenvector of the largest eigenvalue is time-like (its square
exceeds the code's threshold), boosting the tensor with the result gives a tensor without any
energy flux and momentum density, whose energy density is that largest eigenvalue. -/
theorem C106_no_flow_partial {T : Tmn} {val : Fin 4 → ℝ} {vec : Fin 4 → V4} (h : Solves T val vec)
    (ht : (vec (maxIndex val)).sqr > 1 / 1000000) :
    comp (boosted T (landau val vec)) 0 1 = 0 ∧ comp (boosted T (landau val vec)) 0 2 = 0 ∧
    comp (boosted T (landau val vec)) 0 3 = 0 ∧
    comp (boosted T (landau val vec)) 0 0 = val (maxIndex val) ∧
    ∀ i, val i ≤ comp (boosted T (landau val vec)) 0 0 := by
  have hc : (chosen val vec).sqr > 1 / 1000000 := by
    have : (chosen val vec).sqr = (vec (maxIndex val)).sqr := by
      unfold chosen
      dsimp only
      split
      · rw [sqr_expand, sqr_expand]; simp only; ring
      · rfl
    rw [this]; exact ht
  have hu := C106_four_velocity val vec
  have he : ∀ mu, ∑ k, mixed T mu k * up (landau val vec) k
      = val (maxIndex val) * up (landau val vec) mu := by
    intro mu
    have e : ∀ k, up (landau val vec) k
        = up (chosen val vec) k * (1 / Real.sqrt (chosen val vec).sqr) := by
      intro k
      rw [landau_eq, if_pos hc]
      fin_cases k <;> simp [up, smul4]
    simp only [e]
    have := chosen_eigen h mu
    rw [← mul_assoc, ← this, Finset.sum_mul]
    refine Finset.sum_congr rfl fun k _ => by ring
  obtain ⟨g0, g1, g2, g3⟩ := eigen_boost hu he
  exact ⟨g1, g2, g3, g0, fun i => by rw [g0]; exact maxIndex_spec val i⟩

/-! ### Physical tensors -/

/-- p·h for a momentum with upper and a vector with lower index. -/
def pair (p h : V4) : ℝ := p.t * h.t + p.x * h.x + p.y * h.y + p.z * h.z

theorem tensorOf_cons (p : V4) (ps : List V4) (a b : Fin 4) :
    tensorOf (p :: ps) a b = up p a * up p b / p.t + tensorOf ps a b := by
  simp only [tensorOf, List.map_cons, List.sum_cons]

theorem up_val (p : V4) : up p 0 = p.t ∧ up p 1 = p.x ∧ up p 2 = p.y ∧ up p 3 = p.z :=
  ⟨rfl, rfl, rfl, rfl⟩

theorem quad_particles (ps : List V4) (h0 : ∀ p ∈ ps, p.t ≠ 0) (h : V4) :
    ∑ a, ∑ b, comp (ps.foldl addMom zero) a b * up h a * up h b
      = (ps.map fun p => pair p h ^ 2 / p.t).sum := by
  have e : ∀ a b, comp (ps.foldl addMom zero) a b = tensorOf ps a b := by
    intro a b
    rw [(C105_particles ps h0 zero a b).1, comp_zero, zero_add]
  simp only [e]
  clear e h0
  induction ps with
  | nil => simp [tensorOf]
  | cons p ps ih =>
    simp only [List.map_cons, List.sum_cons]
    rw [← ih]
    simp only [tensorOf_cons, Fin.sum_univ_four, pair, up_val]
    ring

theorem quad_eigen {T : Tmn} {h : V4} {lam : ℝ}
    (he : ∀ mu, ∑ k, mixed T mu k * up h k = lam * up h mu) :
    ∑ a, ∑ b, comp T a b * up h a * up h b = lam * h.sqr := by
  have e0 := he 0
  have e1 := he 1
  have e2 := he 2
  have e3 := he 3
  simp only [comp_full, Fin.sum_univ_four, sqr_expand]
  simp [mixed, up, Fin.sum_univ_four, full] at e0 e1 e2 e3 ⊢
  linear_combination h.t * e0 - h.x * e1 - h.y * e2 - h.z * e3

/-- **C106 (physical).** For the tensor of particles with positive energies, a positive largest
eigenvalue has a time-like eigenvector; so the frame exists whenever the largest eigenvalue is
positive. Every other eigenvalue of a space-like eigenvector is a pressure: not positive. -/
theorem C106_physical (ps : List V4) (h0 : ∀ p ∈ ps, 0 < p.t) {val : Fin 4 → ℝ}
    {vec : Fin 4 → V4} (h : Solves (ps.foldl addMom zero) val vec) (i : Fin 4) :
    (0 < val i → 0 < (vec i).sqr) ∧ ((vec i).sqr < 0 → val i ≤ 0) ∧
    (0 < (vec i).sqr → 0 ≤ val i) := by
  have hne : ∀ p ∈ ps, p.t ≠ 0 := fun p hp => (h0 p hp).ne'
  have q1 := quad_particles ps hne (vec i)
  have q2 := quad_eigen (h i).1
  rw [q1] at q2
  have hterm : ∀ x ∈ ps.map (fun p => pair p (vec i) ^ 2 / p.t), 0 ≤ x := by
    intro x hx
    obtain ⟨p, hp, rfl⟩ := List.mem_map.1 hx
    have := h0 p hp
    positivity
  have hnn := List.sum_nonneg hterm
  rw [q2] at hnn
  refine ⟨?_, ?_, ?_⟩
  · intro hl
    by_contra hc
    have hc' := not_lt.1 hc
    have hz : val i * (vec i).sqr = 0 := le_antisymm (mul_nonpos_of_nonneg_of_nonpos hl.le hc') hnn
    have hall : ∀ p ∈ ps, pair p (vec i) = 0 := by
      intro p hp
      have hsum : (ps.map (fun p => pair p (vec i) ^ 2 / p.t)).sum = 0 := by rw [q2]; exact hz
      have hle := List.single_le_sum hterm _ (List.mem_map.2 ⟨p, hp, rfl⟩)
      rw [hsum] at hle
      have hp0 := h0 p hp
      have h2 : pair p (vec i) ^ 2 / p.t = 0 := le_antisymm hle (by positivity)
      have h3 : pair p (vec i) ^ 2 = 0 := by
        rcases div_eq_zero_iff.1 h2 with h | h
        · exact h
        · exact absurd h hp0.ne'
      exact pow_eq_zero_iff (two_ne_zero) |>.1 h3
    -- so the eigenvector is in the kernel
    have hk : ∀ mu, ∑ k, comp (ps.foldl addMom zero) mu k * up (vec i) k = 0 := by
      intro mu
      have e : ∀ a b, comp (ps.foldl addMom zero) a b = tensorOf ps a b := by
        intro a b
        rw [(C105_particles ps hne zero a b).1, comp_zero, zero_add]
      simp only [e]
      clear e q1 q2 hterm hnn hz h
      induction ps with
      | nil => simp [tensorOf]
      | cons p ps ih =>
        have := ih (fun q hq => h0 q (by simp [hq])) (fun q hq => hne q (by simp [hq]))
          (fun q hq => hall q (by simp [hq]))
        have hp := hall p (by simp)
        simp only [tensorOf_cons, Fin.sum_univ_four, up_val] at this ⊢
        have e : up p mu / p.t * pair p (vec i) = 0 := by rw [hp]; ring
        simp only [pair] at e
        linear_combination this + e
    have hv : ∀ mu, val i * up (vec i) mu = 0 := by
      intro mu
      rw [← (h i).1 mu]
      have := hk mu
      simp only [comp_full] at this
      fin_cases mu <;> simp [mixed, full, Fin.sum_univ_four] at this ⊢ <;> linarith
    have hz' : ∀ mu, up (vec i) mu = 0 := by
      intro mu
      rcases mul_eq_zero.1 (hv mu) with h | h
      · exact absurd h hl.ne'
      · exact h
    have hn := (h i).2
    have b0 : (vec i).t = 0 := hz' 0
    have b1 : (vec i).x = 0 := hz' 1
    have b2 : (vec i).y = 0 := hz' 2
    have b3 : (vec i).z = 0 := hz' 3
    rw [b0, b1, b2, b3] at hn
    norm_num at hn
  · intro hs
    by_contra hc
    have := mul_neg_of_pos_of_neg (not_le.1 hc) hs
    linarith
  · intro hs
    by_contra hc
    have := mul_neg_of_neg_of_pos (not_le.1 hc) hs
    linarith

/-! ### A fast particle -/

/-- A fast particle along z whose energy and momentum are exact:
E = 5000001/5000, p = 4999999/5000, so E² - p² = 4 · 5000000/5000² = 4/5 > 0. -/
noncomputable def fast : V4 := ⟨5000001 / 5000, 0, 0, 4999999 / 5000⟩

/-- **C106 (fast frames).** The frame of a single massive particle with a Lorentz factor of about
1100 is not found: although the eigenvector is time-like, the result is the laboratory frame, where
the tensor has an energy flux. -/
theorem C106_fast_frame_false :
    fast.sqr > 0 ∧ ∃ val vec, Solves ([fast].foldl addMom zero) val vec ∧
      0 < (vec (maxIndex val)).sqr ∧ landau val vec = ⟨1, 0, 0, 0⟩ ∧
      comp (boosted ([fast].foldl addMom zero) (landau val vec)) 0 3 ≠ 0 := by
  have hnorm : (0 : ℝ) < (5000001 / 5000) ^ 2 + (4999999 / 5000) ^ 2 := by norm_num
  set n := Real.sqrt ((5000001 / 5000) ^ 2 + (4999999 / 5000) ^ 2) with hn
  have hn0 : 0 < n := Real.sqrt_pos.2 hnorm
  have hn2 : n ^ 2 = (5000001 / 5000) ^ 2 + (4999999 / 5000) ^ 2 := Real.sq_sqrt hnorm.le
  let val : Fin 4 → ℝ := ![fast.sqr / fast.t, 0, 0, 0]
  let vec : Fin 4 → V4 := ![⟨fast.t / n, 0, 0, -fast.z / n⟩, ⟨0, 1, 0, 0⟩, ⟨0, 0, 1, 0⟩,
    ⟨fast.z / n, 0, 0, -fast.t / n⟩]
  have hs : fast.sqr = 4 / 5 := by rw [sqr_expand]; norm_num [fast]
  have hmax : maxIndex val = 0 := by
    have hpos : (0 : ℝ) < fast.sqr / fast.t := by rw [hs]; norm_num [fast]
    have : ¬ (fast.sqr / fast.t < 0) := not_lt.2 hpos.le
    simp [maxIndex, List.finRange, val, this]
  have hsol : Solves ([fast].foldl addMom zero) val vec := by
    intro i
    fin_cases i
    · constructor
      · intro mu
        fin_cases mu <;>
          simp [mixed, up, Fin.sum_univ_four, val, vec, addMom, add, zero, V3.div, V3.smul,
            V4.vec, sqr_expand] <;> simp [fast] <;> field_simp <;> norm_num
      · simp [vec, fast, div_pow, hn2]; norm_num
    · constructor
      · intro mu
        fin_cases mu <;>
          simp [mixed, up, Fin.sum_univ_four, val, vec, addMom, add, zero, V3.div, V3.smul,
            V4.vec, fast]
      · simp [vec]
    · constructor
      · intro mu
        fin_cases mu <;>
          simp [mixed, up, Fin.sum_univ_four, val, vec, addMom, add, zero, V3.div, V3.smul,
            V4.vec, fast]
      · simp [vec]
    · constructor
      · intro mu
        fin_cases mu <;>
          simp [mixed, up, Fin.sum_univ_four, val, vec, addMom, add, zero, V3.div, V3.smul,
            V4.vec] <;> simp [fast] <;> field_simp <;> norm_num
      · simp [vec, fast, div_pow, hn2]; norm_num
  have hsq : (vec 0).sqr = 4 / 5 / n ^ 2 := by
    rw [← hs, sqr_expand, sqr_expand]
    simp only [vec, fast, cons_val_zero]
    field_simp
    norm_num
  have hch : chosen val vec = vec 0 := by
    unfold chosen
    rw [hmax]
    dsimp only
    rw [if_neg]
    simp only [vec, cons_val_zero, fast]
    exact not_lt.2 (by positivity)
  have hl : landau val vec = ⟨1, 0, 0, 0⟩ := by
    rw [landau_eq, hch, hsq, hn2, if_neg]
    norm_num
  refine ⟨by rw [hs]; norm_num, val, vec, hsol, ?_, hl, ?_⟩
  · rw [hmax, hsq]; positivity
  · rw [hl, (C105_there_and_back ([fast].foldl addMom zero) (C106_four_velocity val vec)).2,
      (C105_particles [fast] (by simp [fast]) zero 0 3).2, comp_zero]
    simp [up, fast]

/-! ### Examples -/

/-- Two particles flying apart, one of them faster: their tensor has a frame. -/
example : ∃ val vec, Solves ([⟨5, 0, 0, 3⟩, ⟨5, 0, 0, -3⟩].foldl addMom zero) val vec ∧
    (vec (maxIndex val)).sqr > 1 / 1000000 := by
  refine ⟨![10, 0, 0, -18 / 5], ![⟨1, 0, 0, 0⟩, ⟨0, 1, 0, 0⟩, ⟨0, 0, 1, 0⟩, ⟨0, 0, 0, 1⟩], ?_, ?_⟩
  · intro i
    fin_cases i <;> constructor <;> (try intro mu; fin_cases mu) <;>
      simp [mixed, up, Fin.sum_univ_four, addMom, add, zero, V3.div, V3.smul, V4.vec] <;> norm_num
  · have : maxIndex (![10, 0, 0, -18 / 5] : Fin 4 → ℝ) = 0 := by
      have h : ¬ ((10 : ℝ) < -18 / 5) := by norm_num
      have h' : ¬ ((10 : ℝ) < 0) := by norm_num
      simp [maxIndex, List.finRange, h, h']
    rw [this, sqr_expand]
    norm_num

example : FourVelocity ⟨5 / 4, 0, 0, -3 / 4⟩ := ⟨by rw [sqr_expand]; norm_num, by norm_num⟩

end Verif.Emt
