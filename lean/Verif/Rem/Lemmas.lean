import Verif.Rem.Model
import Verif.Frag.MomProps
import Verif.Kin.Props
/-
Lemmas for C169: rapidities, longitudinal boosts, sums of momenta.
-/
namespace Verif.Rem
open Verif.Kin Verif.Frag Real

/-- A particle with positive energy and mass. -/
def Timelike (p : V4) : Prop := 0 < p.t ∧ 0 < minkowski p p

variable {b : V3 × V3 × V3}

theorem sqr_minkowski (p : V4) : p.sqr = minkowski p p := by
  unfold V4.sqr V4.dot minkowski V3.dot V4.vec; ring

theorem cs {e : V3} (h : e.dot e = 1) (v : V3) : v.dot e ^ 2 ≤ v.dot v := by
  have k : v.dot v * e.dot e - v.dot e ^ 2 = (v.x * e.y - v.y * e.x) ^ 2 + (v.y * e.z - v.z * e.y) ^ 2 + (v.z * e.x - v.x * e.z) ^ 2 := by
    unfold V3.dot; ring
  rw [h] at k
  nlinarith [sq_nonneg (v.x * e.y - v.y * e.x), sq_nonneg (v.y * e.z - v.z * e.y), sq_nonneg (v.z * e.x - v.x * e.z)]

theorem half_pos' : 0 < √(1 / 2 : ℝ) := Real.sqrt_pos.2 (by norm_num)
theorem half_sq : √(1 / 2 : ℝ) * √(1 / 2 : ℝ) = 1 / 2 := Real.mul_self_sqrt (by norm_num)

theorem long_lt (hb : Orthonormal b) {p : V4} (h : Timelike p) : |p.vec.dot b.1| < p.t := by
  have k := cs hb.n0 p.vec
  have e : minkowski p p = p.t ^ 2 - p.vec.dot p.vec := by unfold minkowski V3.dot V4.vec; ring
  have h2 := h.2
  rw [e] at h2
  exact abs_lt_of_sq_lt_sq (by linarith) h.1.le

theorem plus_pos (hb : Orthonormal b) {p : V4} (h : Timelike p) : 0 < plus b p := by
  have := abs_lt.1 (long_lt hb h)
  exact mul_pos (by linarith) half_pos'

theorem minus_pos (hb : Orthonormal b) {p : V4} (h : Timelike p) : 0 < minus b p := by
  have := abs_lt.1 (long_lt hb h)
  exact mul_pos (by linarith) half_pos'

theorem mTr_pos (hb : Orthonormal b) {p : V4} (h : Timelike p) : 0 < mTr b p :=
  Real.sqrt_pos.2 (mul_pos (mul_pos two_pos (plus_pos hb h)) (minus_pos hb h))

theorem mTr_exp (hb : Orthonormal b) {p : V4} (h : Timelike p) :
    mTr b p * exp (rap b p) = p.t + p.vec.dot b.1 ∧ mTr b p * exp (-rap b p) = p.t - p.vec.dot b.1 := by
  have h1 := plus_pos hb h
  have h2 := minus_pos hb h
  have hm := mTr_pos hb h
  have hl := abs_lt.1 (long_lt hb h)
  have e2 : exp (rap b p) * exp (rap b p) = plus b p / minus b p := by
    rw [← Real.exp_add, show rap b p + rap b p = log (plus b p / minus b p) by unfold rap; ring, Real.exp_log (div_pos h1 h2)]
  have em : mTr b p * mTr b p = 2 * plus b p * minus b p :=
    Real.mul_self_sqrt (mul_pos (mul_pos two_pos h1) h2).le
  have k1 : (mTr b p * exp (rap b p)) ^ 2 = (p.t + p.vec.dot b.1) ^ 2 := by
    have : (mTr b p * exp (rap b p)) ^ 2 = (mTr b p * mTr b p) * (exp (rap b p) * exp (rap b p)) := by ring
    rw [this, e2, em]
    have : 2 * plus b p * minus b p * (plus b p / minus b p) = 2 * (plus b p * plus b p) := by field_simp
    rw [this]
    unfold plus
    linear_combination 2 * (p.t + p.vec.dot b.1) ^ 2 * half_sq
  have a1 : mTr b p * exp (rap b p) = p.t + p.vec.dot b.1 :=
    (pow_left_inj₀ (mul_pos hm (exp_pos _)).le (by linarith) (by norm_num)).1 k1
  refine ⟨a1, ?_⟩
  have k2 : mTr b p * exp (-rap b p) * (mTr b p * exp (rap b p)) = (p.t - p.vec.dot b.1) * (p.t + p.vec.dot b.1) := by
    have : mTr b p * exp (-rap b p) * (mTr b p * exp (rap b p)) = (mTr b p * mTr b p) * (exp (-rap b p) * exp (rap b p)) := by ring
    rw [this, ← Real.exp_add, neg_add_cancel, Real.exp_zero, em]
    unfold plus minus
    linear_combination 2 * (p.t + p.vec.dot b.1) * (p.t - p.vec.dot b.1) * half_sq
  rw [a1] at k2
  exact mul_right_cancel₀ (by linarith) k2

theorem mTr_cosh (hb : Orthonormal b) {p : V4} (h : Timelike p) : mTr b p * cosh (rap b p) = p.t := by
  obtain ⟨h1, h2⟩ := mTr_exp hb h
  rw [Real.cosh_eq]; linarith

theorem mTr_sinh (hb : Orthonormal b) {p : V4} (h : Timelike p) : mTr b p * sinh (rap b p) = p.vec.dot b.1 := by
  obtain ⟨h1, h2⟩ := mTr_exp hb h
  rw [Real.sinh_eq]; linarith

/-- A rapidity is found again from the momentum. -/
theorem rap_of (p : V4) (m y : ℝ) (hm : 0 < m) (ht : p.t = m * cosh y) (hl : p.vec.dot b.1 = m * sinh y) :
    rap b p = y := by
  have h1 : plus b p = m * exp y * √(1 / 2) := by
    unfold plus; rw [ht, hl, Real.cosh_eq, Real.sinh_eq]; ring
  have h2 : minus b p = m * exp (-y) * √(1 / 2) := by
    unfold minus; rw [ht, hl, Real.cosh_eq, Real.sinh_eq]; ring
  have hh := half_pos'
  have e : plus b p / minus b p = exp (2 * y) := by
    rw [h1, h2, show (2 : ℝ) * y = y - -y by ring, Real.exp_sub]
    have := exp_pos (-y)
    field_simp
  unfold rap
  rw [e, Real.log_exp]; ring

theorem moved_dot (hb : Orthonormal b) (v : V3) (c : ℝ) : (v.add (b.1.smul c)).dot b.1 = v.dot b.1 + c ∧
    (v.add (b.1.smul c)).dot b.2.1 = v.dot b.2.1 ∧ (v.add (b.1.smul c)).dot b.2.2 = v.dot b.2.2 ∧
    (v.add (b.1.smul c)).dot (v.add (b.1.smul c)) = v.dot v + 2 * c * v.dot b.1 + c ^ 2 := by
  obtain ⟨n0, n1, n2, o01, o02, o12, -⟩ := hb
  obtain ⟨e0, e1, e2⟩ := b
  simp only [V3.add, V3.smul, V3.dot] at *
  refine ⟨?_, ?_, ?_, ?_⟩
  · linear_combination c * n0
  · linear_combination c * o01
  · linear_combination c * o02
  · linear_combination c ^ 2 * n0

theorem mink_vec (t : ℝ) (v : V3) : minkowski (V4.mk' t v) (V4.mk' t v) = t ^ 2 - v.dot v := by
  unfold minkowski V4.mk' V3.dot; ring

theorem mink_self (p : V4) : minkowski p p = p.t ^ 2 - p.vec.dot p.vec := by
  unfold minkowski V4.vec V3.dot; ring

/-- What a shift of the rapidity does to a particle. -/
theorem shiftOne_spec (hb : Orthonormal b) (f d : ℝ) {p : V4} (h : Timelike p) :
    Timelike (shiftOne b f d p) ∧ minkowski (shiftOne b f d p) (shiftOne b f d p) = minkowski p p ∧
    (shiftOne b f d p).vec.dot b.2.1 = p.vec.dot b.2.1 ∧ (shiftOne b f d p).vec.dot b.2.2 = p.vec.dot b.2.2 ∧
    rap b (shiftOne b f d p) = f * rap b p + d := by
  have hm := mTr_pos hb h
  obtain ⟨k1, k2, k3, k4⟩ := moved_dot hb p.vec (mTr b p * sinh (f * rap b p + d) - p.vec.dot b.1)
  have hc := Real.cosh_sq (f * rap b p + d)
  have e1 := mTr_cosh hb h
  have e2 := mTr_sinh hb h
  have hc0 := Real.cosh_sq (rap b p)
  have hmink : minkowski (shiftOne b f d p) (shiftOne b f d p) = minkowski p p := by
    unfold shiftOne
    rw [mink_vec, k4, mink_self]
    generalize f * rap b p + d = y at *
    rw [← e1, ← e2]
    linear_combination (mTr b p) ^ 2 * hc - (mTr b p) ^ 2 * hc0
  refine ⟨⟨mul_pos hm (Real.cosh_pos _), hmink ▸ h.2⟩, hmink, k2, k3, ?_⟩
  refine rap_of _ (mTr b p) _ hm rfl ?_
  exact k1.trans (by ring)

/-! ### longitudinal boosts -/

/-- A boost along the first basis vector by the rapidity `d`. -/
noncomputable def lin (b : V3 × V3 × V3) (d : ℝ) (p : V4) : V4 :=
  V4.mk' (cosh d * p.t + sinh d * p.vec.dot b.1) (p.vec.add (b.1.smul (sinh d * p.t + cosh d * p.vec.dot b.1 - p.vec.dot b.1)))

theorem shiftOne_lin (hb : Orthonormal b) (d : ℝ) {p : V4} (h : Timelike p) : shiftOne b 1 d p = lin b d p := by
  have e1 := mTr_cosh hb h
  have e2 := mTr_sinh hb h
  unfold shiftOne lin
  rw [one_mul]
  dsimp only
  rw [Real.cosh_add, Real.sinh_add]
  rw [show mTr b p * (cosh (rap b p) * cosh d + sinh (rap b p) * sinh d) =
    cosh d * (mTr b p * cosh (rap b p)) + sinh d * (mTr b p * sinh (rap b p)) by ring,
    show mTr b p * (sinh (rap b p) * cosh d + cosh (rap b p) * sinh d) =
    sinh d * (mTr b p * cosh (rap b p)) + cosh d * (mTr b p * sinh (rap b p)) by ring, e1, e2]

theorem lin_add (d : ℝ) (p q : V4) : lin b d (p.add q) = (lin b d p).add (lin b d q) := by
  unfold lin V4.add V4.mk' V3.add V3.smul V4.vec V3.dot
  ext <;> simp only <;> ring

theorem lin_zero (d : ℝ) : lin b d ⟨0, 0, 0, 0⟩ = ⟨0, 0, 0, 0⟩ := by
  unfold lin V4.mk' V3.add V3.smul V4.vec V3.dot
  ext <;> simp

theorem total_lin (d : ℝ) : ∀ l : List V4, total (l.map (lin b d)) = lin b d (total l)
  | [] => (lin_zero d).symm
  | p :: l => by
    rw [List.map_cons, total, total_lin d l, total, lin_add]

theorem total_shift (hb : Orthonormal b) (d : ℝ) {l : List V4} (h : ∀ p ∈ l, Timelike p) :
    total (l.map (shiftOne b 1 d)) = lin b d (total l) := by
  rw [← total_lin]
  congr 1
  exact List.map_congr_left fun p hp => shiftOne_lin hb d (h p hp)

theorem timelike_add {p q : V4} (hp : Timelike p) (hq : Timelike q) : Timelike (p.add q) := by
  refine ⟨add_pos hp.1 hq.1, ?_⟩
  obtain ⟨p1, p2⟩ := hp
  obtain ⟨q1, q2⟩ := hq
  have e : minkowski (p.add q) (p.add q) = minkowski p p + minkowski q q + 2 * (p.t * q.t - p.vec.dot q.vec) := by
    unfold minkowski V4.add V3.dot V4.vec; ring
  rw [mink_self] at p2 q2
  have c : p.vec.dot q.vec ^ 2 ≤ p.vec.dot p.vec * q.vec.dot q.vec := by
    have k : p.vec.dot p.vec * q.vec.dot q.vec - p.vec.dot q.vec ^ 2 = (p.vec.x * q.vec.y - p.vec.y * q.vec.x) ^ 2 +
      (p.vec.y * q.vec.z - p.vec.z * q.vec.y) ^ 2 + (p.vec.z * q.vec.x - p.vec.x * q.vec.z) ^ 2 := by
      unfold V3.dot; ring
    nlinarith [sq_nonneg (p.vec.x * q.vec.y - p.vec.y * q.vec.x), sq_nonneg (p.vec.y * q.vec.z - p.vec.z * q.vec.y),
      sq_nonneg (p.vec.z * q.vec.x - p.vec.x * q.vec.z)]
  have pv : 0 ≤ p.vec.dot p.vec :=
    add_nonneg (add_nonneg (mul_self_nonneg _) (mul_self_nonneg _)) (mul_self_nonneg _)
  have qv : 0 ≤ q.vec.dot q.vec :=
    add_nonneg (add_nonneg (mul_self_nonneg _) (mul_self_nonneg _)) (mul_self_nonneg _)
  have c2 : p.vec.dot q.vec ^ 2 < (p.t * q.t) ^ 2 := by
    rw [mul_pow]
    nlinarith [mul_pos p1 p1, mul_pos q1 q1, mul_nonneg pv qv]
  have c3 := abs_lt.1 (abs_lt_of_sq_lt_sq c2 (mul_pos p1 q1).le)
  rw [e, mink_self, mink_self]
  linarith

theorem total_timelike : ∀ {l : List V4}, l ≠ [] → (∀ p ∈ l, Timelike p) → Timelike (total l)
  | [], h, _ => absurd rfl h
  | [p], _, hp => by
    have : total [p] = p := by unfold total total V4.add; ext <;> simp
    rw [this]; exact hp p (by simp)
  | p :: q :: l, _, hp => by
    rw [total]
    exact timelike_add (hp p (by simp)) (total_timelike (by simp) fun x hx => hp x (List.mem_cons_of_mem _ hx))

/-- What a boost does to a momentum. -/
theorem lin_spec (hb : Orthonormal b) (d : ℝ) {p : V4} (h : Timelike p) : Timelike (lin b d p) ∧
    minkowski (lin b d p) (lin b d p) = minkowski p p ∧ (lin b d p).vec.dot b.2.1 = p.vec.dot b.2.1 ∧
    (lin b d p).vec.dot b.2.2 = p.vec.dot b.2.2 ∧ rap b (lin b d p) = rap b p + d := by
  rw [← shiftOne_lin hb d h]
  have := shiftOne_spec hb 1 d h
  rwa [one_mul] at this

/-! ### sums -/

theorem total_sum4 : ∀ l : List V4, total l = sum4 l
  | [] => rfl
  | p :: l => by rw [total, total_sum4 l]; rfl

theorem total_dot (e : V3) : ∀ l : List V4, (total l).vec.dot e = (l.map fun p => p.vec.dot e).sum
  | [] => by simp [total, V4.vec, V3.dot]
  | p :: l => by
    rw [List.map_cons, List.sum_cons, ← total_dot e l, total]
    unfold V4.add V4.vec V3.dot; ring

theorem add4_assoc (p q r : V4) : (p.add q).add r = p.add (q.add r) := by
  unfold V4.add; ext <;> simp only <;> ring

theorem total_set : ∀ (l : List V4) (k : ℕ) (h : k < l.length) (q : V4), total (l.set k q) = ((total l).sub l[k]).add q
  | p :: l, 0, _, q => by
    simp only [List.set_cons_zero, total, List.getElem_cons_zero]
    unfold V4.add V4.sub; ext <;> simp only <;> ring
  | p :: l, k + 1, h, q => by
    have := total_set l k (Nat.lt_of_succ_lt_succ h) q
    simp only [List.set_cons_succ, total, List.getElem_cons_succ, this]
    unfold V4.add V4.sub; ext <;> simp only <;> ring

/-! ### the most forward and the most backward particle -/

theorem forward_spec : ∀ (l : List ℝ) (i : ℕ) (s : ℕ × ℝ), (forward l i s = s ∧ ∀ y ∈ l, y ≤ s.2) ∨
    ∃ (k : ℕ) (h : k < l.length), forward l i s = (i + k, l[k]) ∧ s.2 < l[k] ∧ ∀ y ∈ l, y ≤ l[k]
  | [], i, s => .inl ⟨rfl, by simp⟩
  | y :: l, i, s => by
    rw [forward]
    by_cases hy : y > s.2
    · rw [if_pos hy]
      rcases forward_spec l (i + 1) (i, y) with ⟨h1, h2⟩ | ⟨k, hk, h1, h2, h3⟩
      · exact .inr ⟨0, by simp, h1, hy, by simpa using h2⟩
      · refine .inr ⟨k + 1, by simpa using hk, ?_, ?_, ?_⟩
        · rw [h1]; simp only [List.getElem_cons_succ]; congr 1; omega
        · simpa using lt_trans hy h2
        · simp only [List.getElem_cons_succ, List.mem_cons, forall_eq_or_imp]
          exact ⟨le_of_lt h2, h3⟩
    · rw [if_neg hy]
      push Not at hy
      rcases forward_spec l (i + 1) s with ⟨h1, h2⟩ | ⟨k, hk, h1, h2, h3⟩
      · exact .inl ⟨h1, by simpa using ⟨hy, h2⟩⟩
      · refine .inr ⟨k + 1, by simpa using hk, ?_, ?_, ?_⟩
        · rw [h1]; simp only [List.getElem_cons_succ]; congr 1; omega
        · simpa using h2
        · simp only [List.getElem_cons_succ, List.mem_cons, forall_eq_or_imp]
          exact ⟨le_trans hy h2.le, h3⟩

theorem backward_spec : ∀ (l : List ℝ) (i : ℕ) (s : ℕ × ℝ), (backward l i s = s ∧ ∀ y ∈ l, s.2 ≤ y) ∨
    ∃ (k : ℕ) (h : k < l.length), backward l i s = (i + k, l[k]) ∧ l[k] < s.2 ∧ ∀ y ∈ l, l[k] ≤ y
  | [], i, s => .inl ⟨rfl, by simp⟩
  | y :: l, i, s => by
    rw [backward]
    by_cases hy : y < s.2
    · rw [if_pos hy]
      rcases backward_spec l (i + 1) (i, y) with ⟨h1, h2⟩ | ⟨k, hk, h1, h2, h3⟩
      · exact .inr ⟨0, by simp, h1, hy, by simpa using h2⟩
      · refine .inr ⟨k + 1, by simpa using hk, ?_, ?_, ?_⟩
        · rw [h1]; simp only [List.getElem_cons_succ]; congr 1; omega
        · simpa using lt_trans h2 hy
        · simp only [List.getElem_cons_succ, List.mem_cons, forall_eq_or_imp]
          exact ⟨le_of_lt h2, h3⟩
    · rw [if_neg hy]
      push Not at hy
      rcases backward_spec l (i + 1) s with ⟨h1, h2⟩ | ⟨k, hk, h1, h2, h3⟩
      · exact .inl ⟨h1, by simpa using ⟨hy, h2⟩⟩
      · refine .inr ⟨k + 1, by simpa using hk, ?_, ?_, ?_⟩
        · rw [h1]; simp only [List.getElem_cons_succ]; congr 1; omega
        · simpa using h2
        · simp only [List.getElem_cons_succ, List.mem_cons, forall_eq_or_imp]
          exact ⟨le_trans h2.le hy, h3⟩

/-- In the longitudinal rest frame some rapidity is positive and some is negative, unless all vanish. -/
theorem both_signs (hb : Orthonormal b) {l : List V4} (hl : ∀ p ∈ l, Timelike p) (h0 : (total l).vec.dot b.1 = 0)
    (hne : ∃ p ∈ l, rap b p ≠ 0) : (∃ p ∈ l, 0 < rap b p) ∧ ∃ p ∈ l, rap b p < 0 := by
  have sg : ∀ p ∈ l, (0 < rap b p ↔ 0 < p.vec.dot b.1) ∧ (rap b p < 0 ↔ p.vec.dot b.1 < 0) := by
    intro p hp
    have hm := mTr_pos hb (hl p hp)
    rw [← mTr_sinh hb (hl p hp)]
    constructor
    · rw [mul_pos_iff_of_pos_left hm, Real.sinh_pos_iff]
    · rw [mul_neg_iff]
      constructor
      · intro h; exact .inl ⟨hm, Real.sinh_neg_iff.2 h⟩
      · rintro (⟨-, h⟩ | ⟨h, -⟩)
        · exact Real.sinh_neg_iff.1 h
        · linarith
  rw [total_dot] at h0
  have key : ∀ (l : List V4) (g : V4 → ℝ), (∀ p ∈ l, 0 ≤ g p) → (l.map g).sum = 0 → ∀ p ∈ l, g p = 0 := by
    intro l g
    induction l with
    | nil => simp
    | cons a l ih =>
      intro h1 h2 p hp
      rw [List.map_cons, List.sum_cons] at h2
      have hs : 0 ≤ (l.map g).sum := List.sum_nonneg (by
        intro x hx; obtain ⟨q, hq, rfl⟩ := List.mem_map.1 hx; exact h1 q (List.mem_cons_of_mem _ hq))
      have ha := h1 a List.mem_cons_self
      rcases List.mem_cons.1 hp with rfl | hp
      · linarith
      · exact ih (fun q hq => h1 q (List.mem_cons_of_mem _ hq)) (by linarith) p hp
  obtain ⟨p0, hp0, hn⟩ := hne
  have nz : p0.vec.dot b.1 ≠ 0 := by
    intro hz
    rcases lt_or_gt_of_ne hn with h | h
    · have := (sg p0 hp0).2.1 h; linarith
    · have := (sg p0 hp0).1.1 h; linarith
  constructor
  · by_contra hc
    push Not at hc
    have : ∀ p ∈ l, 0 ≤ -(p.vec.dot b.1) := fun p hp => by
      have h1 := (sg p hp).1.not.1 (not_lt.2 (hc p hp))
      linarith
    have k := key l (fun p => -(p.vec.dot b.1)) this (by
      rw [show (l.map fun p => -(p.vec.dot b.1)).sum = -(l.map fun p => p.vec.dot b.1).sum from by
        simp [List.sum_neg]; rfl, h0, neg_zero]) p0 hp0
    exact nz (neg_eq_zero.1 k)
  · by_contra hc
    push Not at hc
    have : ∀ p ∈ l, 0 ≤ p.vec.dot b.1 := fun p hp => by
      have h1 := (sg p hp).2.not.1 (not_lt.2 (hc p hp))
      linarith
    exact nz (key l (fun p => p.vec.dot b.1) this h0 p0 hp0)

end Verif.Rem
