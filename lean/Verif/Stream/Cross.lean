import Verif.Stream.Free
import Mathlib.Tactic.LinearCombination
/-! C60: crossing the hypersurface of constant proper time. -/
namespace Verif.Stream
open Verif.Kin Verif.Scat

/-! ### Specification -/

/-- In the future of the origin, with proper time above `τ`. -/
def Inside (τ : ℝ) (x : V4) : Prop := |x.z| < x.t ∧ τ ^ 2 < x.t ^ 2 - x.z ^ 2

/-- On the hypersurface of proper time `τ`. -/
def On (τ : ℝ) (x : V4) : Prop := |x.z| < x.t ∧ x.t ^ 2 - x.z ^ 2 = τ ^ 2

/-! ### The line and the hyperbola -/

/-- Time at which the line `z = m t + n` crosses the hyperbola. -/
noncomputable def root (m n τ : ℝ) : ℝ := (m * n + Real.sqrt ((1 - m * m) * τ * τ + n * n)) / (1 - m * m)

section line
variable {m n τ : ℝ}

theorem disc_facts (hm : |m| < 1) (hτ : 0 < τ) :
    0 < 1 - m * m ∧ |n| < Real.sqrt ((1 - m * m) * τ * τ + n * n) ∧
    Real.sqrt ((1 - m * m) * τ * τ + n * n) ^ 2 = (1 - m * m) * τ * τ + n * n := by
  have hq : 0 < 1 - m * m := by
    have := abs_lt.1 hm
    nlinarith
  have hp : 0 < (1 - m * m) * τ * τ := by positivity
  refine ⟨hq, ?_, Real.sq_sqrt (by nlinarith [mul_self_nonneg n])⟩
  rw [← Real.sqrt_sq_eq_abs]
  exact Real.sqrt_lt_sqrt (sq_nonneg _) (by nlinarith)

theorem mn_lt (hm : |m| < 1) (hτ : 0 < τ) :
    |m * n| < Real.sqrt ((1 - m * m) * τ * τ + n * n) := by
  obtain ⟨-, h, -⟩ := disc_facts (n := n) hm hτ
  rw [abs_mul]
  have : |m| * |n| ≤ |n| := by nlinarith [abs_nonneg n, abs_nonneg m]
  linarith

/-- Above the root the line is inside. -/
theorem inside_iff (hm : |m| < 1) (hτ : 0 < τ) (x : V4) (hz : x.z = m * x.t + n) :
    Inside τ x ↔ root m n τ < x.t := by
  obtain ⟨hq, -, hR2⟩ := disc_facts (n := n) hm hτ
  have hmn := mn_lt (n := n) hm hτ
  have hmn' := abs_lt.1 hmn
  unfold Inside root
  rw [hz, div_lt_iff₀ hq]
  set R := Real.sqrt ((1 - m * m) * τ * τ + n * n) with hR
  have hg : (1 - m * m) * (x.t ^ 2 - (m * x.t + n) ^ 2 - τ ^ 2) =
      ((1 - m * m) * x.t - m * n) ^ 2 - R ^ 2 := by
    rw [hR2]; ring
  constructor
  · rintro ⟨h1, h2⟩
    have hpos : 0 < x.t := lt_of_le_of_lt (abs_nonneg _) h1
    have h3 : 0 < ((1 - m * m) * x.t - m * n) ^ 2 - R ^ 2 := by
      rw [← hg]; exact mul_pos hq (by linarith)
    have h4 : 0 < ((1 - m * m) * x.t - m * n + R) := by nlinarith [mul_pos hq hpos]
    have h5 : 0 < ((1 - m * m) * x.t - m * n - R) := by
      by_contra hc
      nlinarith
    linarith
  · intro h
    have hqt : m * n + R < (1 - m * m) * x.t := by linarith
    have hpos : 0 < x.t := by
      by_contra hc
      nlinarith
    have h3 : 0 < (1 - m * m) * (x.t ^ 2 - (m * x.t + n) ^ 2 - τ ^ 2) := by
      rw [hg]; nlinarith
    have h4 : 0 < x.t ^ 2 - (m * x.t + n) ^ 2 - τ ^ 2 := by
      by_contra hc
      nlinarith
    refine ⟨?_, by linarith⟩
    apply abs_lt_of_sq_lt_sq _ hpos.le
    nlinarith

/-- Only the root is on the hypersurface. -/
theorem on_iff (hm : |m| < 1) (hτ : 0 < τ) (x : V4) (hz : x.z = m * x.t + n) :
    On τ x ↔ x.t = root m n τ := by
  obtain ⟨hq, -, hR2⟩ := disc_facts (n := n) hm hτ
  have hmn' := abs_lt.1 (mn_lt (n := n) hm hτ)
  unfold On root
  rw [hz, eq_div_iff hq.ne']
  set R := Real.sqrt ((1 - m * m) * τ * τ + n * n) with hR
  have hg : (1 - m * m) * (x.t ^ 2 - (m * x.t + n) ^ 2 - τ ^ 2) =
      ((1 - m * m) * x.t - m * n) ^ 2 - R ^ 2 := by
    rw [hR2]; ring
  constructor
  · rintro ⟨h1, h2⟩
    have hpos : 0 < x.t := lt_of_le_of_lt (abs_nonneg _) h1
    have h3 : ((1 - m * m) * x.t - m * n - R) * ((1 - m * m) * x.t - m * n + R) = 0 := by
      have : (1 - m * m) * (x.t ^ 2 - (m * x.t + n) ^ 2 - τ ^ 2) = 0 := by rw [h2]; ring
      rw [hg] at this
      linarith
    rcases mul_eq_zero.1 h3 with h | h
    · linarith
    · nlinarith [mul_pos hq hpos]
  · intro h
    have hpos : 0 < x.t := by
      by_contra hc
      nlinarith
    have h3 : (1 - m * m) * (x.t ^ 2 - (m * x.t + n) ^ 2 - τ ^ 2) = 0 := by
      rw [hg]
      have : (1 - m * m) * x.t - m * n = R := by linarith
      rw [this]; ring
    have h4 : x.t ^ 2 - (m * x.t + n) ^ 2 = τ ^ 2 := by
      rcases mul_eq_zero.1 h3 with h' | h'
      · exact absurd h' hq.ne'
      · linarith
    refine ⟨?_, h4⟩
    apply abs_lt_of_sq_lt_sq _ hpos.le
    nlinarith

/-- The condition used for the point before the step: not above the hyperbola, on either branch. -/
theorem outside_iff (hm : |m| < 1) (hτ : 0 < τ) (x : V4) (hz : x.z = m * x.t + n) :
    x.t ^ 2 - x.z ^ 2 ≤ τ ^ 2 ↔
      (m * n - Real.sqrt ((1 - m * m) * τ * τ + n * n)) / (1 - m * m) ≤ x.t ∧ x.t ≤ root m n τ := by
  obtain ⟨hq, -, hR2⟩ := disc_facts (n := n) hm hτ
  have hmn' := abs_lt.1 (mn_lt (n := n) hm hτ)
  unfold root
  rw [hz, div_le_iff₀ hq, le_div_iff₀ hq]
  set R := Real.sqrt ((1 - m * m) * τ * τ + n * n) with hR
  have hg : (1 - m * m) * (x.t ^ 2 - (m * x.t + n) ^ 2 - τ ^ 2) =
      ((1 - m * m) * x.t - m * n) ^ 2 - R ^ 2 := by
    rw [hR2]; ring
  have hR0 : 0 < R := by linarith [abs_nonneg (m * n)]
  constructor
  · intro h
    have h3 : ((1 - m * m) * x.t - m * n) ^ 2 - R ^ 2 ≤ 0 := by
      rw [← hg]; exact mul_nonpos_of_nonneg_of_nonpos hq.le (by linarith)
    have h4 := abs_le_of_sq_le_sq' (by linarith : ((1 - m * m) * x.t - m * n) ^ 2 ≤ R ^ 2) hR0.le
    constructor
    · linarith [h4.1]
    · linarith [h4.2]
  · rintro ⟨h1, h2⟩
    have h3 : (1 - m * m) * (x.t ^ 2 - (m * x.t + n) ^ 2 - τ ^ 2) ≤ 0 := by
      rw [hg]
      nlinarith
    by_contra hc
    have := mul_pos hq (by linarith : 0 < x.t ^ 2 - (m * x.t + n) ^ 2 - τ ^ 2)
    linarith

end line

/-- What `crosses` tests, without square roots. -/
theorem crosses_iff (b a : V4) (τ : ℝ) (hτ : 0 < τ) (ha : 0 ≤ a.t) :
    crosses b a τ = true ↔ b.t ^ 2 - b.z ^ 2 ≤ τ ^ 2 ∧ |a.z| < a.t ∧ τ ^ 2 ≤ a.t ^ 2 - a.z ^ 2 := by
  have hle : ∀ x : V4, |x.z| < |x.t| → (τ ≤ tau x ↔ τ ^ 2 ≤ x.t ^ 2 - x.z ^ 2) ∧
      (tau x ≤ τ ↔ x.t ^ 2 - x.z ^ 2 ≤ τ ^ 2) := by
    intro x hx
    have := sq_lt_sq.2 hx
    unfold tau
    constructor
    · rw [Real.le_sqrt' hτ]
      constructor <;> intro h <;> nlinarith
    · rw [Real.sqrt_le_left hτ.le]
      constructor <;> intro h <;> nlinarith
  unfold crosses
  rw [abs_of_nonneg ha]
  by_cases h1 : |b.t| > |b.z|
  · by_cases h2 : a.t > |a.z|
    · rw [if_pos ⟨h1, h2⟩]
      have e1 := (hle b h1).2
      have e2 := (hle a (by rw [abs_of_nonneg ha]; exact h2)).1
      simp only [Bool.if_false_right, Bool.and_true, decide_eq_true_eq]
      rw [e1, e2]
      tauto
    · rw [if_neg (fun h => h2 h.2), if_neg (fun h => h2 h.2)]
      simp only [Bool.false_eq_true, false_iff]
      rintro ⟨-, h, -⟩
      exact h2 h
  · have hb : b.t ^ 2 - b.z ^ 2 ≤ τ ^ 2 := by
      have := sq_le_sq.2 (not_lt.1 h1)
      nlinarith [sq_nonneg τ]
    rw [if_neg (fun h => h1 h.1)]
    by_cases h2 : a.t > |a.z|
    · have h12 : ¬|b.t| > |b.z| ∧ a.t > |a.z| := ⟨h1, h2⟩
      rw [if_pos h12]
      have := (hle a (by rw [abs_of_nonneg ha]; exact h2)).1
      simp only [ge_iff_le, Bool.if_false_right, Bool.and_true, decide_eq_true_eq]
      rw [this]
      tauto
    · rw [if_neg (fun h => h2 h.2)]
      simp only [Bool.false_eq_true, false_iff]
      rintro ⟨-, h, -⟩
      exact h2 h

/-! ### C60 -/

/-- The longitudinal velocity and intercept of the path of a particle. -/
noncomputable def slope (p : SP) : ℝ := p.mom.z / p.mom.t
@[inherit_doc slope] noncomputable def icept (p : SP) : ℝ := p.pos.z - slope p * p.pos.t

theorem straight_z (p : SP) (t : ℝ) :
    (straight p.pos p.mom t).z = slope p * (straight p.pos p.mom t).t + icept p := by
  unfold straight icept slope
  simp only
  ring

theorem straight_self (x m : V4) : straight x m x.t = x := by
  unfold straight
  ext <;> simp

/-- The value of the finder for a particle that moves with its own momentum. -/
theorem find_val (beam : List V4) (τ rc pc dt : ℝ) (p : SP) (hm : MovesWith beam p p.mom)
    (hv : |slope p| < 1) (hdt : 0 < dt) :
    findCrossing beam τ rc pc dt p =
      if p.pos.t + dt < 0 then none else if p.core then none else
      if crosses p.pos (straight p.pos p.mom (p.pos.t + dt)) τ ∧ withinCuts rc pc p then
        some (straight p.pos p.mom (root (slope p) (icept p) τ))
      else none := by
  unfold findCrossing
  simp only
  rw [moveVel_eq hm]
  have ha : ({ p.pos.add (V4.mk' 0 (p.mom.velocity.smul dt)) with t := p.pos.t + dt } : V4) =
      straight p.pos p.mom (p.pos.t + dt) := by
    unfold straight V4.add V4.mk' V4.velocity V4.vec V3.div V3.smul
    ext <;> simp only <;> ring
  rw [ha]
  have hs : sol1 p.pos (straight p.pos p.mom (p.pos.t + dt)) τ = root (slope p) (icept p) τ := by
    unfold sol1 root
    simp only
    have hm' : ((straight p.pos p.mom (p.pos.t + dt)).z - p.pos.z) /
        ((straight p.pos p.mom (p.pos.t + dt)).t - p.pos.t) = slope p := by
      unfold straight slope
      simp only
      field_simp
      ring_nf
      field_simp
    rw [hm']
    have hi : p.pos.z - slope p * p.pos.t = icept p := rfl
    rw [hi]
    ring
  have hc : crossingPoint p.pos (straight p.pos p.mom (p.pos.t + dt)) p.mom.velocity τ =
      straight p.pos p.mom (root (slope p) (icept p) τ) := by
    unfold crossingPoint
    simp only
    rw [hs]
    unfold straight V4.add V4.mk' V4.velocity V4.vec V3.div V3.smul
    ext <;> simp only <;> ring
  rw [hc]

/-- Steps for which the test is reliable: they start at `t ≥ 0` or are not longer than `τ`. -/
def SafeStep (τ t dt : ℝ) : Prop := 0 ≤ t ∨ dt ≤ τ

theorem crosses_root (τ dt : ℝ) (p : SP) (hv : |slope p| < 1) (hτ : 0 < τ) (_hdt : 0 < dt)
    (hs : SafeStep τ p.pos.t dt) :
    (0 ≤ p.pos.t + dt ∧ crosses p.pos (straight p.pos p.mom (p.pos.t + dt)) τ = true) ↔
      p.pos.t ≤ root (slope p) (icept p) τ ∧ root (slope p) (icept p) τ ≤ p.pos.t + dt := by
  have hzb : p.pos.z = slope p * p.pos.t + icept p := by unfold icept; ring
  have hza := straight_z p (p.pos.t + dt)
  obtain ⟨hq, hn, hR2⟩ := disc_facts (n := icept p) hv hτ
  have hmn := abs_lt.1 (mn_lt (n := icept p) hv hτ)
  have hroot : 0 < root (slope p) (icept p) τ := by
    unfold root
    exact div_pos (by linarith) hq
  have hin := inside_iff hv hτ _ hza
  have hon := on_iff hv hτ _ hza
  have hout := outside_iff hv hτ _ hzb
  have hat : (straight p.pos p.mom (p.pos.t + dt)).t = p.pos.t + dt := rfl
  have hafter : (|(straight p.pos p.mom (p.pos.t + dt)).z| < p.pos.t + dt ∧
      τ ^ 2 ≤ (p.pos.t + dt) ^ 2 - (straight p.pos p.mom (p.pos.t + dt)).z ^ 2) ↔
      root (slope p) (icept p) τ ≤ p.pos.t + dt := by
    rw [hat] at hin hon
    unfold Inside at hin
    unfold On at hon
    rw [hat] at hin hon
    constructor
    · rintro ⟨h1, h2⟩
      rcases lt_or_eq_of_le h2 with h | h
      · exact (hin.1 ⟨h1, h⟩).le
      · exact (hon.1 ⟨h1, h.symm⟩).ge
    · intro h
      rcases lt_or_eq_of_le h with h | h
      · have := hin.2 h; exact ⟨this.1, this.2.le⟩
      · have := hon.2 h.symm; exact ⟨this.1, this.2.ge⟩
  constructor
  · rintro ⟨h0, hc⟩
    rw [crosses_iff _ _ _ hτ (by rw [hat]; exact h0), hat] at hc
    exact ⟨(hout.1 hc.1).2, hafter.1 hc.2⟩
  · rintro ⟨h1, h2⟩
    have h0 : 0 ≤ p.pos.t + dt := by linarith
    refine ⟨h0, ?_⟩
    rw [crosses_iff _ _ _ hτ (by rw [hat]; exact h0), hat]
    refine ⟨hout.2 ⟨?_, h1⟩, hafter.2 h2⟩
    rw [div_le_iff₀ hq]
    rcases hs with hs | hs
    · nlinarith
    · -- the two roots are at least 2 τ apart
      have hR : Real.sqrt ((1 - slope p * slope p) * τ * τ + icept p * icept p) ≥
          (1 - slope p * slope p) * τ := by
        apply Real.le_sqrt_of_sq_le
        have hq1 : 1 - slope p * slope p ≤ 1 := by nlinarith [mul_self_nonneg (slope p)]
        nlinarith [mul_self_nonneg (icept p), mul_pos hq (mul_pos hτ hτ)]
      unfold root at h2
      rw [div_le_iff₀ hq] at h2
      nlinarith [mul_pos hq hτ]

/-- **C60**, for a particle that moves with its own momentum (slower than light along the beam) and
a step that starts at `t ≥ 0` or is not longer than the proper time: an action is proposed exactly
if the particle is not part of the core, passes the cuts, is not inside before the step and is on
the hypersurface or inside after it; its position lies on the hypersurface and on the straight path
during the step, and is the only such point. -/
theorem C60_exact_partial (beam : List V4) (τ rc pc dt : ℝ) (p : SP) (hm : MovesWith beam p p.mom)
    (hv : |p.mom.z / p.mom.t| < 1) (hτ : 0 < τ) (hdt : 0 < dt) (hs : SafeStep τ p.pos.t dt) :
    ((findCrossing beam τ rc pc dt p).isSome ↔
      p.core = false ∧ withinCuts rc pc p = true ∧ ¬ Inside τ p.pos ∧
      (Inside τ (straight p.pos p.mom (p.pos.t + dt)) ∨
        On τ (straight p.pos p.mom (p.pos.t + dt)))) ∧
    ∀ x, findCrossing beam τ rc pc dt p = some x →
      On τ x ∧ (∃ t, p.pos.t ≤ t ∧ t ≤ p.pos.t + dt ∧ x = straight p.pos p.mom t) ∧
      ∀ t, On τ (straight p.pos p.mom t) → straight p.pos p.mom t = x := by
  have hv' : |slope p| < 1 := hv
  have hval := find_val beam τ rc pc dt p hm hv' hdt
  have hcr := crosses_root τ dt p hv' hτ hdt hs
  have hzb : p.pos.z = slope p * p.pos.t + icept p := by unfold icept; ring
  have hinb := inside_iff hv' hτ _ hzb
  have hina := inside_iff hv' hτ _ (straight_z p (p.pos.t + dt))
  have hona := on_iff hv' hτ _ (straight_z p (p.pos.t + dt))
  have hat : (straight p.pos p.mom (p.pos.t + dt)).t = p.pos.t + dt := rfl
  rw [hat] at hina hona
  constructor
  · rw [hinb, hina, hona, hval]
    constructor
    · intro h
      split at h
      · cases h
      rename_i h0
      split at h
      · cases h
      rename_i hcore
      split at h
      · rename_i hc
        obtain ⟨h1, h2⟩ := hcr.1 ⟨not_lt.1 h0, hc.1⟩
        refine ⟨by simpa using hcore, hc.2, not_lt.2 h1, ?_⟩
        rcases lt_or_eq_of_le h2 with h2 | h2
        · exact .inl h2
        · exact .inr h2.symm
      · cases h
    · rintro ⟨hcore, hcut, h1, h2⟩
      have h2' : root (slope p) (icept p) τ ≤ p.pos.t + dt := by
        rcases h2 with h2 | h2
        · exact h2.le
        · exact h2.ge
      obtain ⟨h0, hc⟩ := hcr.2 ⟨not_lt.1 h1, h2'⟩
      rw [if_neg (not_lt.2 h0), if_neg (by simp [hcore]), if_pos ⟨hc, hcut⟩]
      rfl
  · intro x hx
    rw [hval] at hx
    split at hx
    · cases hx
    rename_i h0
    split at hx
    · cases hx
    split at hx
    · rename_i hc
      cases hx
      obtain ⟨h1, h2⟩ := hcr.1 ⟨not_lt.1 h0, hc.1⟩
      refine ⟨(on_iff hv' hτ _ (straight_z p _)).2 rfl, ⟨_, h1, h2, rfl⟩, ?_⟩
      intro t ht
      have : t = root (slope p) (icept p) τ := (on_iff hv' hτ _ (straight_z p t)).1 ht
      rw [this]
    · cases hx

/-- **C60**, the cuts: with a positive cut only particles with `|y| ≤ cut` and `pT ≤ cut` are
reported, where the rapidity `y` satisfies `e^(2 y) (E - pz) = E + pz`. -/
theorem C60_cuts (rc pc : ℝ) (p : SP) (hE : |p.mom.z| < p.mom.t) :
    withinCuts rc pc p = true ↔
      (0 < rc → ∀ y, Real.exp (2 * y) * (p.mom.t - p.mom.z) = p.mom.t + p.mom.z → |y| ≤ rc) ∧
      (0 < pc → p.mom.x ^ 2 + p.mom.y ^ 2 ≤ pc ^ 2) := by
  have hz := abs_lt.1 hE
  have hE0 : 0 < p.mom.t := lt_of_le_of_lt (abs_nonneg _) hE
  have hm : 0 < p.mom.t - p.mom.z := by linarith
  have hp : 0 < p.mom.t + p.mom.z := by linarith
  have hy : ∀ y, Real.exp (2 * y) * (p.mom.t - p.mom.z) = p.mom.t + p.mom.z ↔
      rapidity p.mom = y := by
    intro y
    have e : (1 + p.mom.z / p.mom.t) / (1 - p.mom.z / p.mom.t) =
        (p.mom.t + p.mom.z) / (p.mom.t - p.mom.z) := by
      have h1 : 1 - p.mom.z / p.mom.t = (p.mom.t - p.mom.z) / p.mom.t := by field_simp
      have h2 : 1 + p.mom.z / p.mom.t = (p.mom.t + p.mom.z) / p.mom.t := by field_simp
      rw [h1, h2]
      field_simp
    unfold rapidity
    rw [e, ← eq_div_iff hm.ne']
    constructor
    · intro h
      rw [← h, Real.log_exp]
      ring
    · intro h
      have : 2 * y = Real.log ((p.mom.t + p.mom.z) / (p.mom.t - p.mom.z)) := by linarith
      rw [this, Real.exp_log (by positivity)]
  have hpt : ∀ c : ℝ, 0 < c → (Real.sqrt (p.mom.x * p.mom.x + p.mom.y * p.mom.y) ≤ c ↔
      p.mom.x ^ 2 + p.mom.y ^ 2 ≤ c ^ 2) := by
    intro c hc
    rw [Real.sqrt_le_left hc.le]
    constructor <;> intro h <;> nlinarith
  unfold withinCuts
  simp only [hy]
  simp only [Bool.if_false_right, Bool.and_true, Bool.and_eq_true, Bool.not_eq_true',
    decide_eq_false_iff_not, not_and, not_lt, gt_iff_lt, forall_eq']
  refine and_congr Iff.rfl ?_
  constructor
  · intro h hc; exact (hpt pc hc).1 (h hc)
  · intro h hc; exact (hpt pc hc).2 (h hc)

/-- Number of steps between consecutive times in which a crossing of a freely moving particle is
proposed. -/
noncomputable def reports (beam : List V4) (τ rc pc : ℝ) (p : SP) : List ℝ → Nat
  | a :: b :: ts =>
    (if (findCrossing beam τ rc pc (b - a) { p with pos := straight p.pos p.mom a }).isSome
      then 1 else 0) + reports beam τ rc pc p (b :: ts)
  | _ => 0

/-- **C60**, once: a particle that streams freely through any sequence of (safe) time steps is
reported in exactly one step if it starts outside and ends inside, and in none otherwise, provided
that it is not exactly on the hypersurface at the end of a step. -/
theorem C60_once_partial (beam : List V4) (τ rc pc : ℝ) (p : SP) (hm : MovesWith beam p p.mom)
    (hv : |p.mom.z / p.mom.t| < 1) (hτ : 0 < τ) (hcore : p.core = false)
    (hcut : withinCuts rc pc p = true) (t0 : ℝ) (ts : List ℝ)
    (hinc : (t0 :: ts).Pairwise (· < ·))
    (hsafe : ∀ i a b, (t0 :: ts)[i]? = some a → (t0 :: ts)[i + 1]? = some b →
      SafeStep τ a (b - a))
    (hoff : ∀ t ∈ t0 :: ts, ¬ On τ (straight p.pos p.mom t)) :
    (¬ Inside τ (straight p.pos p.mom t0) ∧
      Inside τ (straight p.pos p.mom ((t0 :: ts).getLast (by simp))) →
      reports beam τ rc pc p (t0 :: ts) = 1) ∧
    (¬ (¬ Inside τ (straight p.pos p.mom t0) ∧
      Inside τ (straight p.pos p.mom ((t0 :: ts).getLast (by simp)))) →
      reports beam τ rc pc p (t0 :: ts) = 0) := by
  have hv' : |slope p| < 1 := hv
  have hins : ∀ t, Inside τ (straight p.pos p.mom t) ↔ root (slope p) (icept p) τ < t :=
    fun t => inside_iff hv' hτ _ (straight_z p t)
  have hons : ∀ t, On τ (straight p.pos p.mom t) ↔ t = root (slope p) (icept p) τ :=
    fun t => on_iff hv' hτ _ (straight_z p t)
  simp only [hins]
  simp only [hons] at hoff
  have hstep : ∀ a b, a < b → SafeStep τ a (b - a) →
      a ≠ root (slope p) (icept p) τ → b ≠ root (slope p) (icept p) τ →
      ((findCrossing beam τ rc pc (b - a) { p with pos := straight p.pos p.mom a }).isSome = true ↔
        a < root (slope p) (icept p) τ ∧ root (slope p) (icept p) τ < b) := by
    intro a b hab hs ha hb
    have hpath : ∀ t, straight (straight p.pos p.mom a) p.mom t = straight p.pos p.mom t := by
      intro t
      unfold straight
      ext <;> simp only <;> ring
    have := (C60_exact_partial beam τ rc pc (b - a) { p with pos := straight p.pos p.mom a } hm hv hτ
      (by linarith) hs).1
    rw [this]
    have hat : (straight p.pos p.mom a).t + (b - a) = b := by
      unfold straight; simp
    simp only [hat, hpath, hins, hons]
    have hcut' : withinCuts rc pc { p with pos := straight p.pos p.mom a } = true := hcut
    constructor
    · rintro ⟨-, -, h1, h2⟩
      refine ⟨lt_of_le_of_ne (not_lt.1 h1) ha, ?_⟩
      rcases h2 with h2 | h2
      · exact h2
      · exact absurd h2 hb
    · rintro ⟨h1, h2⟩
      exact ⟨hcore, hcut', not_lt.2 h1.le, .inl h2⟩
  generalize root (slope p) (icept p) τ = r at *
  induction ts generalizing t0 with
  | nil =>
    simp only [List.getLast_singleton, reports]
    constructor
    · rintro ⟨h1, h2⟩; exact absurd h2 h1
    · exact fun _ => trivial
  | cons t1 ts ih =>
    have hlt : t0 < t1 := by
      rw [List.pairwise_cons] at hinc
      exact hinc.1 t1 (by simp)
    have hr : reports beam τ rc pc p (t0 :: t1 :: ts) =
        (if (findCrossing beam τ rc pc (t1 - t0) { p with pos := straight p.pos p.mom t0 }).isSome
          then 1 else 0) + reports beam τ rc pc p (t1 :: ts) := rfl
    have h1 := hstep t0 t1 hlt (hsafe 0 t0 t1 rfl rfl) (hoff t0 (by simp)) (hoff t1 (by simp))
    have ih' := ih t1 (List.pairwise_cons.1 hinc).2
      (fun i a b ha hb => hsafe (i + 1) a b ha hb)
      (fun t ht => hoff t (List.mem_cons_of_mem _ ht))
    have hlast : (t0 :: t1 :: ts).getLast (by simp) = (t1 :: ts).getLast (by simp) := by
      rw [List.getLast_cons]
    have hlast_ge : t1 ≤ (t1 :: ts).getLast (by simp) := by
      have hmem := List.getLast_mem (l := t1 :: ts) (by simp)
      rcases List.mem_cons.1 hmem with h | h
      · exact h.ge
      · exact ((List.pairwise_cons.1 (List.pairwise_cons.1 hinc).2).1 _ h).le
    rw [hlast, hr]
    have hne := hoff t1 (by simp)
    have hne0 := hoff t0 (by simp)
    generalize (t1 :: ts).getLast (by simp) = l at *
    by_cases hc : t0 < r ∧ r < t1
    · rw [if_pos (h1.2 hc)]
      have : reports beam τ rc pc p (t1 :: ts) = 0 := ih'.2 (by
        rintro ⟨h, -⟩; exact h hc.2)
      rw [this]
      constructor
      · intro _; rfl
      · intro h
        exact absurd ⟨not_lt.2 hc.1.le, lt_of_lt_of_le hc.2 hlast_ge⟩ h
    · rw [if_neg (fun h => hc (h1.1 h)), Nat.zero_add]
      constructor
      · rintro ⟨h2, h3⟩
        refine ih'.1 ⟨?_, h3⟩
        intro h4
        exact hc ⟨lt_of_le_of_ne (not_lt.1 h2) hne0, h4⟩
      · intro h
        refine ih'.2 ?_
        rintro ⟨h2, h3⟩
        exact h ⟨fun h4 => h2 (lt_trans h4 hlt), h3⟩

/-- A particle at rest at the origin crosses `τ = 1` in the step from 0 to 2. -/
example : MovesWith [] ⟨⟨0, ⟨0, 0, 0, 0⟩, ⟨1, 0, 0, 0⟩, .nothing, 1, 0, false, some 0, some 0, 1⟩, 1,
      false, none⟩ ⟨1, 0, 0, 0⟩ ∧ SafeStep 1 0 2 ∧
    Inside 1 (straight ⟨0, 0, 0, 0⟩ ⟨1, 0, 0, 0⟩ 2) ∧ ¬ Inside 1 ⟨0, 0, 0, 0⟩ ∧
    withinCuts 0 0 ⟨⟨0, ⟨0, 0, 0, 0⟩, ⟨1, 0, 0, 0⟩, .nothing, 1, 0, false, some 0, some 0, 1⟩, 1,
      false, none⟩ = true := by
  refine ⟨.inr ⟨.inl (by decide), rfl⟩, .inl le_rfl, ?_, ?_, ?_⟩
  · norm_num [Inside, straight]
  · norm_num [Inside]
  · simp [withinCuts]

/-! ### Where the property fails -/

/-- With frozen Fermi motion the reported point is neither on the path nor on the hypersurface: the
crossing is determined with the beam momentum, the position with the particle's own momentum. -/
theorem C60_frozen_false : ∃ (beam : List V4) (p : SP) (m x : V4), MovesWith beam p m ∧
    findCrossing beam (4 / 5) 0 0 2 p = some x ∧ ¬ On (4 / 5) x ∧
    ∀ t, x ≠ straight p.pos m t := by
  refine ⟨[⟨5, 0, 0, 3⟩], ⟨⟨0, ⟨0, 0, 0, 0⟩, ⟨5, 0, 0, 0⟩, .projectile, 0, 0, false, some 0, some 0,
    1⟩, 5, false, none⟩, ⟨5, 0, 0, 3⟩, ⟨1, 0, 0, 0⟩, .inl ⟨rfl, by decide, rfl⟩, ?_, ?_, ?_⟩
  · have hs : Real.sqrt (1024 / 25 / 10 / 10) = 16 / 25 := by
      rw [show (1024 / 25 / 10 / 10 : ℝ) = (16 / 25) ^ 2 by norm_num]
      exact Real.sqrt_sq (by norm_num)
    have hvel : moveVel [⟨5, 0, 0, 3⟩] ⟨⟨0, ⟨0, 0, 0, 0⟩, ⟨5, 0, 0, 0⟩, .projectile, 0, 0, false,
        some 0, some 0, 1⟩, 5, false, none⟩ = ⟨0, 0, 3 / 5⟩ := by
      unfold moveVel
      norm_num [V4.velocity, V4.vec, V3.div, V3.smul]
    unfold findCrossing
    rw [hvel]
    have hcr : crosses ⟨0, 0, 0, 0⟩ ⟨2, 0, 0, 6 / 5⟩ (4 / 5) = true := by
      rw [crosses_iff _ _ _ (by norm_num) (by norm_num)]
      norm_num
    have hafter : ({ V4.add ⟨0, 0, 0, 0⟩ (V4.mk' 0 (V3.smul ⟨0, 0, 3 / 5⟩ 2)) with t := 0 + 2 } : V4)
        = ⟨2, 0, 0, 6 / 5⟩ := by
      ext <;> norm_num [V4.add, V4.mk', V3.smul]
    have hcp : crossingPoint ⟨0, 0, 0, 0⟩ ⟨2, 0, 0, 6 / 5⟩ (V4.velocity ⟨5, 0, 0, 0⟩) (4 / 5) =
        ⟨1, 0, 0, 0⟩ := by
      have hsol : sol1 ⟨0, 0, 0, 0⟩ ⟨2, 0, 0, 6 / 5⟩ (4 / 5) = 1 := by
        unfold sol1
        simp only
        rw [show ((1 - (6 / 5 - 0) / (2 - 0) * ((6 / 5 - 0) / (2 - 0))) * (4 / 5) * (4 / 5) +
          (0 - (6 / 5 - 0) / (2 - 0) * 0) * (0 - (6 / 5 - 0) / (2 - 0) * 0) : ℝ) =
          1024 / 25 / 10 / 10 by norm_num, hs]
        norm_num
      unfold crossingPoint
      simp only
      rw [hsol]
      ext <;> norm_num [V4.add, V4.mk', V3.smul, V4.velocity, V4.vec, V3.div]
    have hcut : withinCuts 0 0 ⟨⟨0, ⟨0, 0, 0, 0⟩, ⟨5, 0, 0, 0⟩, .projectile, 0, 0, false, some 0,
        some 0, 1⟩, 5, false, none⟩ = true := by simp [withinCuts]
    simp only
    rw [hafter, if_neg (by norm_num), if_neg (by simp), if_pos ⟨hcr, hcut⟩, hcp]
  · norm_num [On]
  · intro t h
    have h1 := congrArg V4.t h
    have h2 := congrArg V4.z h
    simp only [straight] at h1 h2
    rw [← h1] at h2
    norm_num at h2

/-- A step longer than the proper time that starts before `t = 0` can miss the crossing: a
particle at rest goes from `t = -2` to `t = 2` through `τ = 1` unnoticed. -/
theorem C60_long_step_false : ∃ p : SP, MovesWith [] p p.mom ∧ ¬ Inside 1 p.pos ∧
    Inside 1 (straight p.pos p.mom (p.pos.t + 4)) ∧ findCrossing [] 1 0 0 4 p = none := by
  refine ⟨⟨⟨0, ⟨-2, 0, 0, 0⟩, ⟨1, 0, 0, 0⟩, .nothing, 1, 0, false, some 0, some 0, 1⟩, 1, false, none⟩,
    .inr ⟨.inl (by decide), rfl⟩, by norm_num [Inside], by norm_num [Inside, straight], ?_⟩
  have hm : MovesWith [] ⟨⟨0, ⟨-2, 0, 0, 0⟩, ⟨1, 0, 0, 0⟩, .nothing, 1, 0, false, some 0, some 0, 1⟩, 1,
    false, none⟩ ⟨1, 0, 0, 0⟩ := .inr ⟨.inl (by decide), rfl⟩
  rw [find_val [] 1 0 0 4 _ hm (by norm_num [slope]) (by norm_num)]
  have hcr : ¬ crosses ⟨-2, 0, 0, 0⟩ (straight ⟨-2, 0, 0, 0⟩ ⟨1, 0, 0, 0⟩ (-2 + 4)) 1 = true := by
    rw [crosses_iff _ _ _ (by norm_num) (by norm_num [straight])]
    norm_num [straight]
  simp only
  rw [if_neg (by norm_num), if_neg (by simp), if_neg (fun h => hcr h.1)]

/-- A particle exactly on the hypersurface at the end of a step is reported in this step and, if it
is still there, in the next one. -/
theorem C60_boundary_false : ∃ p : SP, MovesWith [] p p.mom ∧ reports [] 1 0 0 p [0, 1, 2] = 2 := by
  refine ⟨⟨⟨0, ⟨0, 0, 0, 0⟩, ⟨1, 0, 0, 0⟩, .nothing, 1, 0, false, some 0, some 0, 1⟩, 1, false, none⟩,
    .inr ⟨.inl (by decide), rfl⟩, ?_⟩
  have hm : ∀ x, MovesWith [] ⟨⟨0, x, ⟨1, 0, 0, 0⟩, .nothing, 1, 0, false, some 0, some 0, 1⟩, 1,
    false, none⟩ ⟨1, 0, 0, 0⟩ := fun x => .inr ⟨.inl (by simp), rfl⟩
  have hcut : ∀ x, withinCuts 0 0 ⟨⟨0, x, ⟨1, 0, 0, 0⟩, .nothing, 1, 0, false, some 0,
        some 0, 1⟩, 1, false, none⟩ = true := by intro x; simp [withinCuts]
  have h : ∀ a : ℝ, 0 ≤ a → a ≤ 1 → 1 ≤ a + 1 → (findCrossing [] 1 0 0 1
      ⟨⟨0, ⟨a, 0, 0, 0⟩, ⟨1, 0, 0, 0⟩, .nothing, 1, 0, false, some 0, some 0, 1⟩, 1, false,
        none⟩).isSome = true := by
    intro a h0 h1 h2
    refine (C60_exact_partial [] 1 0 0 1 ⟨⟨0, ⟨a, 0, 0, 0⟩, ⟨1, 0, 0, 0⟩, .nothing, 1, 0, false, some 0,
      some 0, 1⟩, 1, false, none⟩ (hm _) (by norm_num) (by norm_num) (by norm_num) (.inl h0)).1.2
      ⟨rfl, hcut _, ?_, ?_⟩
    · rintro ⟨-, h⟩
      norm_num at h
      rw [abs_of_nonneg h0] at h
      linarith
    · by_cases h3 : a = 0
      · right
        subst h3
        norm_num [On, straight]
      · left
        have h3 : 0 < a := lt_of_le_of_ne h0 (Ne.symm h3)
        simp only [Inside, straight]
        norm_num
        constructor
        · linarith
        · rw [abs_of_nonneg (by linarith)]
          linarith
  have e : ∀ a : ℝ, straight ⟨0, 0, 0, 0⟩ ⟨1, 0, 0, 0⟩ a = ⟨a, 0, 0, 0⟩ := by
    intro a
    unfold straight
    ext <;> norm_num
  simp only [reports, e]
  rw [show (1 : ℝ) - 0 = 1 by norm_num, show (2 : ℝ) - 1 = 1 by norm_num,
    if_pos (h 0 le_rfl (by norm_num) (by norm_num)),
    if_pos (h 1 (by norm_num) le_rfl (by norm_num))]

end Verif.Stream
