import Verif.Therm.Model
import Verif.Kin.Props
import Mathlib.Tactic.Linarith
import Mathlib.Tactic.Ring
import Mathlib.Tactic.Positivity
import Mathlib.Tactic.FieldSimp
import Mathlib.Tactic.NormNum
import Mathlib.Algebra.BigOperators.Group.List.Basic
import Mathlib.Algebra.Order.BigOperators.Group.List
/-
C75: `renormalize_momenta` gives the sampled particles the required total four-momentum.
-/
namespace Verif.Therm
open Kin

/-! ### Specification -/

/-- Total four-momentum of a list of particles, component by component. -/
noncomputable def total4 (ps : List MPart) : V4 :=
  ⟨(ps.map fun q => q.p.t).sum, (ps.map fun q => q.p.x).sum, (ps.map fun q => q.p.y).sum,
   (ps.map fun q => q.p.z).sum⟩

/-- A four-vector multiplied by a number. -/
def scale (c : ℝ) (a : V4) : V4 := ⟨c * a.t, c * a.x, c * a.y, c * a.z⟩

/-- Future-directed and time-like. -/
def TimeLike (a : V4) : Prop := 0 < a.t ∧ a.x ^ 2 + a.y ^ 2 + a.z ^ 2 < a.t ^ 2

/-- The invariant mass. -/
noncomputable def invMass (a : V4) : ℝ := Real.sqrt (a.t ^ 2 - a.x ^ 2 - a.y ^ 2 - a.z ^ 2)

/-- On the mass shell with positive energy. -/
def OnMass (q : MPart) : Prop := minkowski q.p q.p = q.mass ^ 2 ∧ 0 ≤ q.p.t

/-! ### Sums -/

theorem foldl_add (ps : List MPart) (s : V4) :
    ps.foldl (fun s q => s.add q.p) s = s.add (total4 ps) := by
  induction ps generalizing s with
  | nil => simp [total4, V4.add]
  | cons q ps ih =>
    rw [List.foldl_cons, ih]
    simp only [total4, V4.add, List.map_cons, List.sum_cons]
    ext <;> simp only <;> ring

theorem totalP_eq (ps : List MPart) : totalP ps = total4 ps := by
  unfold totalP
  rw [foldl_add]
  simp [V4.add]

theorem total4_cons (q : MPart) (ps : List MPart) : total4 (q :: ps) = q.p.add (total4 ps) := by
  simp [total4, V4.add]

theorem boost_zero (v : V3) : boost ⟨0, 0, 0, 0⟩ v = ⟨0, 0, 0, 0⟩ := by
  unfold boost V4.mk' V3.sub V3.smul V4.vec V3.dot
  ext <;> simp

theorem boost_scale (c : ℝ) (a : V4) (v : V3) : boost (scale c a) v = scale c (boost a v) := by
  unfold boost scale V4.mk' V3.sub V3.smul V4.vec V3.dot
  ext <;> simp only <;> ring

theorem total4_boost (v : V3) (f : MPart → MPart) (ps : List MPart) (g : MPart → V4)
    (hf : ∀ q ∈ ps, (f q).p = boost (g q) v) :
    total4 (ps.map f) = boost (total4 (ps.map fun q => { q with p := g q })) v := by
  induction ps with
  | nil => simp [total4, boost_zero]
  | cons q ps ih =>
    rw [List.map_cons, List.map_cons, total4_cons, total4_cons,
      ih fun q' hq' => hf q' (List.mem_cons_of_mem _ hq'), C29_linear, hf q (List.mem_cons_self ..)]

/-! ### Time-like vectors -/

theorem timeLike_add {a b : V4} (ha : TimeLike a) (hb : TimeLike b) : TimeLike (a.add b) := by
  obtain ⟨a0, a1⟩ := ha
  obtain ⟨b0, b1⟩ := hb
  refine ⟨add_pos a0 b0, ?_⟩
  have hcs : (a.x * b.x + a.y * b.y + a.z * b.z) ^ 2 ≤
      (a.x ^ 2 + a.y ^ 2 + a.z ^ 2) * (b.x ^ 2 + b.y ^ 2 + b.z ^ 2) := by
    nlinarith [sq_nonneg (a.x * b.y - a.y * b.x), sq_nonneg (a.x * b.z - a.z * b.x),
      sq_nonneg (a.y * b.z - a.z * b.y)]
  have hb0 : 0 ≤ b.x ^ 2 + b.y ^ 2 + b.z ^ 2 := by positivity
  have hlt : (a.x * b.x + a.y * b.y + a.z * b.z) ^ 2 < (a.t * b.t) ^ 2 := by
    calc _ ≤ _ := hcs
      _ ≤ a.t ^ 2 * (b.x ^ 2 + b.y ^ 2 + b.z ^ 2) := mul_le_mul_of_nonneg_right a1.le hb0
      _ < a.t ^ 2 * b.t ^ 2 := mul_lt_mul_of_pos_left b1 (by positivity)
      _ = _ := by ring
  have hdot : a.x * b.x + a.y * b.y + a.z * b.z < a.t * b.t := lt_of_pow_lt_pow_left₀ 2 (by positivity) hlt
  simp only [V4.add]
  nlinarith

theorem total4_timeLike {ps : List MPart} (hne : ps ≠ []) (h : ∀ q ∈ ps, TimeLike q.p) :
    TimeLike (total4 ps) := by
  induction ps with
  | nil => exact absurd rfl hne
  | cons q ps ih =>
    rw [total4_cons]
    by_cases hps : ps = []
    · subst hps
      have := h q (List.mem_cons_self ..)
      have e : q.p.add (total4 []) = q.p := by simp [total4, V4.add]
      rw [e]; exact this
    · exact timeLike_add (h q (List.mem_cons_self ..))
        (ih hps fun q' hq' => h q' (List.mem_cons_of_mem _ hq'))

theorem onShell_timeLike {m : ℝ} (hm : 0 < m) (p : V3) : TimeLike (onShell m p) := by
  have h : 0 < m * m + p.dot p := by
    have : 0 ≤ p.dot p := by unfold V3.dot; nlinarith [sq_nonneg p.x, sq_nonneg p.y, sq_nonneg p.z]
    nlinarith
  refine ⟨Real.sqrt_pos.2 h, ?_⟩
  show p.x ^ 2 + p.y ^ 2 + p.z ^ 2 < Real.sqrt (m * m + p.dot p) ^ 2
  rw [Real.sq_sqrt h.le]
  unfold V3.dot
  nlinarith

theorem onShell_mass (m : ℝ) (p : V3) : minkowski (onShell m p) (onShell m p) = m ^ 2 ∧
    0 ≤ (onShell m p).t := by
  have h : 0 ≤ m * m + p.dot p := by
    unfold V3.dot; nlinarith [sq_nonneg p.x, sq_nonneg p.y, sq_nonneg p.z, sq_nonneg m]
  refine ⟨?_, Real.sqrt_nonneg _⟩
  unfold minkowski onShell V4.mk'
  simp only
  rw [Real.mul_self_sqrt h]
  unfold V3.dot
  ring

theorem boost_t_pos {a : V4} {v : V3} (hv : Subluminal v) (ha : TimeLike a) : 0 < (boost a v).t := by
  rw [boost_t]
  obtain ⟨hg, -⟩ := gamma_spec hv
  unfold Subluminal at hv
  obtain ⟨h0, h1⟩ := ha
  have hcs : (a.x * v.x + a.y * v.y + a.z * v.z) ^ 2 ≤
      (a.x ^ 2 + a.y ^ 2 + a.z ^ 2) * (v.x ^ 2 + v.y ^ 2 + v.z ^ 2) := by
    nlinarith [sq_nonneg (a.x * v.y - a.y * v.x), sq_nonneg (a.x * v.z - a.z * v.x),
      sq_nonneg (a.y * v.z - a.z * v.y)]
  have hx : 0 ≤ a.x ^ 2 + a.y ^ 2 + a.z ^ 2 := by positivity
  have hlt : (a.x * v.x + a.y * v.y + a.z * v.z) ^ 2 < a.t ^ 2 := by nlinarith
  have := lt_of_pow_lt_pow_left₀ 2 h0.le hlt
  exact mul_pos hg (by linarith)

theorem scaled_of_rest {req : V4} (h : TimeLike req) (E : ℝ) :
    boost ⟨E, 0, 0, 0⟩ req.velocity.neg = scale (E / invMass req) req := by
  obtain ⟨hs, hr⟩ := C29_rest req h.1 h.2
  have hM : 0 < invMass req := Real.sqrt_pos.2 (by have := h.2; linarith)
  have hinv := C29_inverse req req.velocity hs
  rw [hr] at hinv
  have e : (⟨E, 0, 0, 0⟩ : V4) = scale (E / invMass req)
      ⟨Real.sqrt (req.t ^ 2 - req.x ^ 2 - req.y ^ 2 - req.z ^ 2), 0, 0, 0⟩ := by
    unfold scale
    ext <;> simp only [mul_zero]
    show E = E / invMass req * invMass req
    field_simp
  rw [e, boost_scale, hinv]

/-! ### The centred list -/

theorem centred_spec {ps : List MPart} (hne : ps ≠ []) (hm : ∀ q ∈ ps, 0 < q.mass) (req : V4) :
    (centred ps req).map MPart.mass = ps.map MPart.mass ∧
    (∀ q ∈ centred ps req, OnMass q) ∧
    ∃ M, total4 (centred ps req) = ⟨M, 0, 0, 0⟩ := by
  unfold centred
  simp only
  generalize (req.vec.sub (totalP ps).vec).div ps.length = add
  generalize hL : (ps.map fun q => ({ q with p := onShell q.mass (q.p.vec.add add) } : MPart)) = L
  have hLm : L.map MPart.mass = ps.map MPart.mass := by
    rw [← hL, List.map_map]; rfl
  have hLt : ∀ q ∈ L, TimeLike q.p ∧ OnMass q := by
    rw [← hL]
    intro q hq
    obtain ⟨q', hq', rfl⟩ := List.mem_map.1 hq
    exact ⟨onShell_timeLike (hm q' hq') _, onShell_mass _ _⟩
  have hLne : L ≠ [] := by rw [← hL]; simpa using hne
  have htl := total4_timeLike hLne fun q hq => (hLt q hq).1
  rw [totalP_eq]
  obtain ⟨hsub, hrest⟩ := C29_rest _ htl.1 htl.2
  refine ⟨?_, ?_, ?_⟩
  · rw [List.map_map, ← hLm]; rfl
  · intro q hq
    obtain ⟨q', hq', rfl⟩ := List.mem_map.1 hq
    refine ⟨?_, (boost_t_pos hsub (hLt q' hq').1).le⟩
    simp only
    rw [C29_isometry _ _ _ hsub]
    exact (hLt q' hq').2.1
  · refine ⟨invMass (total4 L), ?_⟩
    rw [total4_boost (total4 L).velocity _ L (fun q => q.p) fun q _ => rfl]
    have : (L.map fun q => ({ q with p := q.p } : MPart)) = L := by simp
    rw [this, hrest]
    rfl

/-! ### The final list -/

/-- The energy in the rest frame with scaled momenta. -/
theorem scaledE_eq {cm : List MPart} (h : ∀ q ∈ cm, OnMass q) (a : ℝ) :
    scaledE cm a = (cm.map fun q => (onShell q.mass (q.p.vec.smul (1 + a))).t).sum := by
  unfold scaledE
  congr 1
  apply List.map_congr_left
  intro q hq
  obtain ⟨h1, -⟩ := h q hq
  unfold onShell V4.mk'
  simp only
  congr 1
  unfold minkowski at h1
  unfold V3.sqr V3.smul V4.vec V3.dot
  simp only
  linear_combination h1

theorem rest_scaled (a M : ℝ) (cm : List MPart) (h : total4 cm = ⟨M, 0, 0, 0⟩) :
    total4 (cm.map fun q => { q with p := onShell q.mass (q.p.vec.smul (1 + a)) }) =
      ⟨(cm.map fun q => (onShell q.mass (q.p.vec.smul (1 + a))).t).sum, 0, 0, 0⟩ := by
  have hx := congrArg V4.x h
  have hy := congrArg V4.y h
  have hz := congrArg V4.z h
  simp only [total4] at hx hy hz
  unfold total4
  ext
  · simp only [List.map_map]; rfl
  · simp only [List.map_map]
    have : ((fun q : MPart => q.p.x) ∘
        fun q : MPart => (⟨q.mass, onShell q.mass (q.p.vec.smul (1 + a))⟩ : MPart)) =
        fun q : MPart => q.p.x * (1 + a) := rfl
    rw [this, List.sum_map_mul_right, hx, zero_mul]
  · simp only [List.map_map]
    have : ((fun q : MPart => q.p.y) ∘
        fun q : MPart => (⟨q.mass, onShell q.mass (q.p.vec.smul (1 + a))⟩ : MPart)) =
        fun q : MPart => q.p.y * (1 + a) := rfl
    rw [this, List.sum_map_mul_right, hy, zero_mul]
  · simp only [List.map_map]
    have : ((fun q : MPart => q.p.z) ∘
        fun q : MPart => (⟨q.mass, onShell q.mass (q.p.vec.smul (1 + a))⟩ : MPart)) =
        fun q : MPart => q.p.z * (1 + a) := rfl
    rw [this, List.sum_map_mul_right, hz, zero_mul]

/-- **C75**, direction: whatever the search returns, the total four-momentum of the particles is a
multiple of the required one (so they move with the required velocity), the factor being the
energy in the rest frame over the required invariant mass; masses are kept and all particles are on
their mass shell. -/
theorem C75_velocity {ps : List MPart} (hne : ps ≠ []) (hm : ∀ q ∈ ps, 0 < q.mass) {req : V4}
    (hr : TimeLike req) :
    total4 (renormalize ps req) =
      scale (scaledE (centred ps req) (factor (centred ps req) req) / invMass req) req ∧
    (renormalize ps req).map MPart.mass = ps.map MPart.mass ∧
    ∀ q ∈ renormalize ps req, OnMass q := by
  obtain ⟨hmass, hon, M, htot⟩ := centred_spec hne hm req
  unfold renormalize
  simp only
  generalize centred ps req = cm at hmass hon htot
  generalize factor cm req = a
  refine ⟨?_, ?_, ?_⟩
  · rw [total4_boost req.velocity.neg _ cm (fun q => onShell q.mass (q.p.vec.smul (1 + a)))
      fun q _ => rfl, rest_scaled a M cm htot, ← scaledE_eq hon, scaled_of_rest hr]
  · rw [List.map_map, ← hmass]; rfl
  · intro q hq
    obtain ⟨q', hq', rfl⟩ := List.mem_map.1 hq
    obtain ⟨hs, -⟩ := C29_rest req hr.1 hr.2
    have hsn : Subluminal req.velocity.neg := by
      unfold Subluminal V3.neg at *
      simpa using hs
    have hmq : 0 < q'.mass := by
      have : q'.mass ∈ cm.map MPart.mass := List.mem_map_of_mem hq'
      rw [hmass] at this
      obtain ⟨q'', h1, h2⟩ := List.mem_map.1 this
      rw [← h2]; exact hm q'' h1
    refine ⟨?_, (boost_t_pos hsn (onShell_timeLike hmq _)).le⟩
    simp only
    rw [C29_isometry _ _ _ hsn]
    exact (onShell_mass _ _).1

/-! ### The search -/

theorem sqrt_lip (m p x y : ℝ) :
    Real.sqrt (m ^ 2 + (x * p) ^ 2) ≤ Real.sqrt (m ^ 2 + (y * p) ^ 2) + |x - y| * |p| := by
  have h1 : 0 ≤ m ^ 2 + (y * p) ^ 2 := by positivity
  have hs := Real.sqrt_nonneg (m ^ 2 + (y * p) ^ 2)
  have hsq := Real.sq_sqrt h1
  have hyp : |y * p| ≤ Real.sqrt (m ^ 2 + (y * p) ^ 2) := by
    apply Real.abs_le_sqrt
    nlinarith [sq_nonneg m]
  have hd : 0 ≤ |x - y| * |p| := by positivity
  rw [Real.sqrt_le_left (by linarith)]
  have e1 : (|x - y| * |p|) ^ 2 = (x - y) ^ 2 * p ^ 2 := by rw [mul_pow, sq_abs, sq_abs]
  have e2 : (x - y) * p * (y * p) ≤ |x - y| * |p| * |y * p| := by
    rw [← abs_mul, ← abs_mul]; exact le_abs_self _
  have e3 : |x - y| * |p| * |y * p| ≤ |x - y| * |p| * Real.sqrt (m ^ 2 + (y * p) ^ 2) :=
    mul_le_mul_of_nonneg_left hyp hd
  nlinarith

theorem bisect_spec (f : ℝ → ℝ) (target tol L : ℝ) (hL : ∀ x y, f x ≤ f y + |x - y| * L) :
    ∀ (k : ℕ) (lo hi : ℝ), lo ≤ hi → f lo ≤ target → target ≤ f hi →
      |f (bisect f target tol (k + 1) lo hi) - target| ≤ max tol ((hi - lo) * L / 2 ^ (k + 1)) := by
  intro k
  induction k with
  | zero =>
    intro lo hi hlh h1 h2
    rw [bisect]
    simp only [ne_eq, not_true_eq_false, and_false, if_false]
    have a1 := hL ((1 / 2) * (lo + hi)) lo
    have a2 := hL hi ((1 / 2) * (lo + hi))
    have e1 : |(1 / 2) * (lo + hi) - lo| = (hi - lo) / 2 := by
      rw [show (1 / 2) * (lo + hi) - lo = (hi - lo) / 2 by ring, abs_of_nonneg (by linarith)]
    have e2 : |hi - (1 / 2) * (lo + hi)| = (hi - lo) / 2 := by
      rw [show hi - (1 / 2) * (lo + hi) = (hi - lo) / 2 by ring, abs_of_nonneg (by linarith)]
    rw [e1] at a1
    rw [e2] at a2
    refine le_trans ?_ (le_max_right _ _)
    rw [abs_le]
    constructor <;> nlinarith
  | succ k ih =>
    intro lo hi hlh h1 h2
    rw [bisect]
    by_cases hc : |f ((1 / 2) * (lo + hi)) - target| > tol ∧ k + 1 ≠ 0
    · rw [if_pos hc]
      by_cases he : f ((1 / 2) * (lo + hi)) - target ≥ 0
      · rw [if_pos he]
        refine (ih lo _ (by linarith) h1 (by linarith)).trans (le_of_eq ?_)
        congr 1
        rw [pow_succ 2 (k + 1)]
        field_simp
        ring
      · rw [if_neg he]
        push Not at he
        refine (ih _ hi (by linarith) (by linarith) h2).trans (le_of_eq ?_)
        congr 1
        rw [pow_succ 2 (k + 1)]
        field_simp
        ring
    · rw [if_neg hc]
      refine le_trans ?_ (le_max_left _ _)
      by_contra hcon
      exact hc ⟨by linarith [not_le.1 hcon], by omega⟩

/-- Total energy if all particles were at rest, with the momenta as they are in the rest frame, and
with momenta eleven times as large. -/
noncomputable def sumMass (ps : List MPart) : ℝ := (ps.map MPart.mass).sum

theorem scaledE_lip {cm : List MPart} (h : ∀ q ∈ cm, OnMass q) (x y : ℝ) :
    scaledE cm x ≤ scaledE cm y + |x - y| * (cm.map fun q => q.p.t).sum := by
  unfold scaledE
  rw [← List.sum_map_mul_left, ← List.sum_map_add]
  apply List.sum_le_sum
  intro q hq
  obtain ⟨h1, h0⟩ := h q hq
  unfold minkowski at h1
  have hv : q.p.vec.sqr = q.p.x ^ 2 + q.p.y ^ 2 + q.p.z ^ 2 := by
    unfold V3.sqr V3.dot V4.vec; ring
  have hv0 : 0 ≤ q.p.vec.sqr := by rw [hv]; positivity
  have hsq := Real.sq_sqrt hv0
  have key (a : ℝ) : q.p.t * q.p.t + a * (a + 2) * q.p.vec.sqr =
      q.mass ^ 2 + ((1 + a) * Real.sqrt q.p.vec.sqr) ^ 2 := by
    rw [mul_pow, hsq, ← h1, hv]; ring
  rw [key x, key y]
  refine (sqrt_lip q.mass (Real.sqrt q.p.vec.sqr) (1 + x) (1 + y)).trans ?_
  have hle : Real.sqrt q.p.vec.sqr ≤ q.p.t := by
    rw [Real.sqrt_le_left h0, hv]
    nlinarith [sq_nonneg q.mass]
  rw [abs_of_nonneg (Real.sqrt_nonneg _), show 1 + x - (1 + y) = x - y by ring]
  have := mul_le_mul_of_nonneg_left hle (abs_nonneg (x - y))
  linarith

theorem scaledE_zero {cm : List MPart} (h : ∀ q ∈ cm, OnMass q) :
    scaledE cm 0 = (cm.map fun q => q.p.t).sum := by
  unfold scaledE
  congr 1
  apply List.map_congr_left
  intro q hq
  rw [show q.p.t * q.p.t + 0 * (0 + 2) * q.p.vec.sqr = q.p.t * q.p.t by ring,
    Real.sqrt_mul_self (h q hq).2]

theorem scaledE_neg_one {cm : List MPart} (h : ∀ q ∈ cm, OnMass q) (hm : ∀ q ∈ cm, 0 < q.mass) :
    scaledE cm (-1) = sumMass cm := by
  unfold scaledE sumMass
  congr 1
  apply List.map_congr_left
  intro q hq
  obtain ⟨h1, -⟩ := h q hq
  have : q.p.t * q.p.t + -1 * (-1 + 2) * q.p.vec.sqr = q.mass ^ 2 := by
    rw [← h1]; unfold minkowski V3.sqr V3.dot V4.vec; ring
  rw [this, Real.sqrt_sq (hm q hq).le]

theorem scaledE_ge {cm : List MPart} (h : ∀ q ∈ cm, OnMass q) (hm : ∀ q ∈ cm, 0 < q.mass) (a : ℝ) :
    sumMass cm ≤ scaledE cm a := by
  rw [scaledE_eq h]
  unfold sumMass
  apply List.sum_le_sum
  intro q hq
  show q.mass ≤ Real.sqrt (q.mass * q.mass + (q.p.vec.smul (1 + a)).dot (q.p.vec.smul (1 + a)))
  apply Real.le_sqrt_of_sq_le
  unfold V3.dot
  nlinarith [mul_self_nonneg (q.p.vec.smul (1 + a)).x, mul_self_nonneg (q.p.vec.smul (1 + a)).y,
    mul_self_nonneg (q.p.vec.smul (1 + a)).z]

theorem req_abs (req : V4) : req.abs = invMass req := by
  unfold V4.abs invMass V4.sqr V4.dot V3.dot V4.vec
  congr 1
  ring

/-- **C75.** If the required invariant mass lies between the sum of the masses and the energy with
eleven-fold momenta (the range of the search) and the sampled energy in the rest frame is below
10^20 GeV, the particles get the required total four-momentum up to a common factor that misses 1 by
no more than 10^-6 GeV over the invariant mass. -/
theorem C75_momentum_partial {ps : List MPart} (hne : ps ≠ []) (hm : ∀ q ∈ ps, 0 < q.mass) {req : V4}
    (hr : TimeLike req) (hlow : sumMass ps ≤ invMass req)
    (hhigh : invMass req ≤ scaledE (centred ps req) 10)
    (hbig : (total4 (centred ps req)).t ≤ 10 ^ 20) :
    ∃ c : ℝ, total4 (renormalize ps req) = scale c req ∧ |c * invMass req - invMass req| ≤ 1 / 1000000 := by
  obtain ⟨h1, -, -⟩ := C75_velocity hne hm hr
  obtain ⟨hmass, hon, M, htot⟩ := centred_spec hne hm req
  have hM : 0 < invMass req := Real.sqrt_pos.2 (by have := hr.2; linarith)
  refine ⟨_, h1, ?_⟩
  rw [div_mul_cancel₀ _ hM.ne']
  have hsm : sumMass (centred ps req) = sumMass ps := by unfold sumMass; rw [hmass]
  have hmc : ∀ q ∈ centred ps req, 0 < q.mass := by
    intro q hq
    have : q.mass ∈ (centred ps req).map MPart.mass := List.mem_map_of_mem hq
    rw [hmass] at this
    obtain ⟨q', h1, h2⟩ := List.mem_map.1 this
    rw [← h2]; exact hm q' h1
  generalize centred ps req = cm at *
  have hL := scaledE_lip hon
  have hE0 : 0 ≤ (cm.map fun q => q.p.t).sum := by
    apply List.sum_nonneg
    intro x hx
    obtain ⟨q, hq, rfl⟩ := List.mem_map.1 hx
    exact (hon q hq).2
  have hEb : (cm.map fun q => q.p.t).sum ≤ 10 ^ 20 := hbig
  have hz := scaledE_zero hon
  have ho := scaledE_neg_one hon hmc
  unfold factor
  simp only
  rw [req_abs]
  generalize (cm.map fun q => q.p.t).sum = E at *
  by_cases hc : invMass req ≥ E
  · rw [if_pos hc]
    refine (bisect_spec _ _ _ E hL 99 0 10 (by norm_num) (by rw [hz]; exact hc) hhigh).trans ?_
    refine max_le (le_refl _) ?_
    rw [div_le_iff₀ (by positivity)]
    norm_num
    linarith
  · rw [if_neg hc]
    push Not at hc
    refine (bisect_spec _ _ _ E hL 99 (-1) 0 (by norm_num) (by rw [ho, hsm]; exact hlow)
      (by rw [hz]; exact hc.le)).trans ?_
    refine max_le (le_refl _) ?_
    rw [div_le_iff₀ (by positivity)]
    norm_num
    linarith

/-- Violation of **C75**: when the sampled particles are heavier than the required invariant mass,
the energy is not conserved, whatever the momenta were; no error is reported. -/
theorem C75_heavy_false {ps : List MPart} (hne : ps ≠ []) (hm : ∀ q ∈ ps, 0 < q.mass) {req : V4}
    (hr : TimeLike req) (hlow : invMass req < sumMass ps) :
    (total4 (renormalize ps req)).t > req.t := by
  obtain ⟨h1, -, -⟩ := C75_velocity hne hm hr
  obtain ⟨hmass, hon, M, htot⟩ := centred_spec hne hm req
  have hM : 0 < invMass req := Real.sqrt_pos.2 (by have := hr.2; linarith)
  have hmc : ∀ q ∈ centred ps req, 0 < q.mass := by
    intro q hq
    have : q.mass ∈ (centred ps req).map MPart.mass := List.mem_map_of_mem hq
    rw [hmass] at this
    obtain ⟨q', h1, h2⟩ := List.mem_map.1 this
    rw [← h2]; exact hm q' h1
  have hge := scaledE_ge hon hmc (factor (centred ps req) req)
  have hsm : sumMass (centred ps req) = sumMass ps := by unfold sumMass; rw [hmass]
  rw [h1]
  show _ * req.t > req.t
  have : 1 < scaledE (centred ps req) (factor (centred ps req) req) / invMass req := by
    rw [one_lt_div hM]; linarith
  nlinarith [hr.1]

/-- The hypotheses of `C75_velocity` and `C75_heavy_false` are met: two particles of mass 2 and a
required invariant mass of 3. -/
example : (∀ q ∈ [MPart.mk 2 ⟨3, 1, 1, 1⟩, MPart.mk 2 ⟨2, 0, 0, 0⟩], 0 < q.mass) ∧
    TimeLike ⟨5, 4, 0, 0⟩ ∧ invMass ⟨5, 4, 0, 0⟩ <
      sumMass [MPart.mk 2 ⟨3, 1, 1, 1⟩, MPart.mk 2 ⟨2, 0, 0, 0⟩] := by
  refine ⟨by simp, ⟨by norm_num, by norm_num⟩, ?_⟩
  have : invMass ⟨5, 4, 0, 0⟩ = 3 := by
    unfold invMass
    rw [show ((5 : ℝ) ^ 2 - 4 ^ 2 - 0 ^ 2 - 0 ^ 2) = 3 ^ 2 by norm_num]
    exact Real.sqrt_sq (by norm_num)
  rw [this]
  norm_num [sumMass]

/-- The hypotheses of `C75_momentum_partial` are met: two particles of mass 3 with opposite momenta
4 (energy 10) and a required invariant mass of 20. -/
example : let ps := [MPart.mk 3 ⟨5, 4, 0, 0⟩, MPart.mk 3 ⟨5, -4, 0, 0⟩]
    let req : V4 := ⟨20, 0, 0, 0⟩
    sumMass ps ≤ invMass req ∧ invMass req ≤ scaledE (centred ps req) 10 ∧
      (total4 (centred ps req)).t ≤ 10 ^ 20 := by
  have hreq : invMass ⟨20, 0, 0, 0⟩ = 20 := by
    unfold invMass
    rw [show ((20 : ℝ) ^ 2 - 0 ^ 2 - 0 ^ 2 - 0 ^ 2) = 20 ^ 2 by norm_num]
    exact Real.sqrt_sq (by norm_num)
  have h5 : Real.sqrt (3 * 3 + 4 * 4) = 5 := by
    rw [show (3 * 3 + 4 * 4 : ℝ) = 5 ^ 2 by norm_num]
    exact Real.sqrt_sq (by norm_num)
  have hb (a : V4) : boost a ⟨0, 0, 0⟩ = a := by
    have hg : gamma ⟨0, 0, 0⟩ = 1 := by
      unfold gamma V3.sqr V3.dot
      norm_num
    unfold boost
    rw [hg]
    unfold V4.mk' V3.sub V3.smul V4.vec V3.dot
    ext <;> simp
  have hc : centred [MPart.mk 3 ⟨5, 4, 0, 0⟩, MPart.mk 3 ⟨5, -4, 0, 0⟩] ⟨20, 0, 0, 0⟩ =
      [MPart.mk 3 ⟨5, 4, 0, 0⟩, MPart.mk 3 ⟨5, -4, 0, 0⟩] := by
    unfold centred
    simp only [totalP, List.map_cons, List.map_nil, List.foldl_cons, List.foldl_nil, V4.add, V4.vec,
      V3.sub, V3.div, V3.smul, V3.add, onShell, V4.mk', V3.dot, V4.velocity]
    have h25 : Real.sqrt 25 = 5 := by rw [← h5]; norm_num
    norm_num [h25, hb]
  intro ps req
  show sumMass ps ≤ invMass req ∧ invMass req ≤ scaledE (centred ps req) 10 ∧ _
  rw [show centred ps req = _ from hc, show invMass req = 20 from hreq]
  refine ⟨by norm_num [sumMass, ps], ?_, by norm_num [total4]⟩
  have h44 : (44 : ℝ) ≤ Real.sqrt (5 * 5 + 10 * (10 + 2) * (4 * 4)) := by
    apply Real.le_sqrt_of_sq_le; norm_num
  have e : scaledE [MPart.mk 3 ⟨5, 4, 0, 0⟩, MPart.mk 3 ⟨5, -4, 0, 0⟩] 10 =
      2 * Real.sqrt (5 * 5 + 10 * (10 + 2) * (4 * 4)) := by
    simp only [scaledE, List.map_cons, List.map_nil, List.sum_cons, List.sum_nil, V3.sqr, V3.dot, V4.vec]
    norm_num
    ring
  rw [e]
  linarith

end Verif.Therm
