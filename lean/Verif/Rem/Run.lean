import Verif.Rem.Props
/-
C169: the whole correction, a run that succeeds and a run that loses transverse momentum.
-/
namespace Verif.Rem
open Verif.Kin Verif.Frag Real

variable {b : V3 × V3 × V3}

/-- **C169.** If the correction succeeds, either no transverse momentum was to be added (compared to the mass of the string) and the
hadrons are left alone, or it does what it should, provided the hadrons do not all have the same rapidity. -/
theorem C169_total_partial (hb : Orthonormal b) {g : Goal} (hp : 0 < g.pp) (hn : 0 < g.pn) {ev : Event}
    (ht : ∀ p ∈ ev.had, Timelike p) (hne : ∃ p ∈ ev.had, ∃ q ∈ ev.had, rap b p ≠ rap b q) {l' : List V4}
    (h : remake b g ev = some l') :
    g.qx ^ 2 + g.qy ^ 2 ≤ 2 * g.pp * g.pn ∧
    (l' = ev.had ∧ (∀ q ∈ [g.ax, g.ay, g.cx, g.cy], |q| < 1 / 10000 * √(2 * g.pp * g.pn - g.qx ^ 2 - g.qy ^ 2)) ∨ Done b g ev.had l') := by
  unfold remake at h
  split at h
  · cases h
  split at h
  · cases h
  rename_i hq
  have hS : 0 ≤ 2 * g.pp * g.pn := by positivity
  refine ⟨?_, ?_⟩
  · have := (Real.sqrt_le_sqrt_iff hS).1 (not_lt.1 hq)
    nlinarith
  · split at h
    · rename_i hs
      rw [mass_eq hp hn] at hs
      exact .inl ⟨(Option.some.inj h).symm, by simpa using hs⟩
    · exact .inr (C169_remake_partial hb hp hn ht hne h)

theorem lin_none (p : V4) : lin b 0 p = p := by
  unfold lin V4.mk' V3.add V3.smul V4.vec V3.dot
  ext <;> simp

theorem shift_none (hb : Orthonormal b) {ev : Event} (h : ∀ p ∈ ev.had, Timelike p) : shift b 1 0 ev = ⟨total ev.had, ev.had⟩ := by
  have : ev.had.map (shiftOne b 1 0) = ev.had := by
    conv_rhs => rw [← List.map_id ev.had]
    exact List.map_congr_left fun p hp => by rw [shiftOne_lin hb 0 (h p hp), lin_none]; rfl
  unfold shift
  rw [this]

theorem rap_zero {p : V4} (h : p.vec.dot b.1 = 0) : rap b p = 0 := by
  unfold rap plus minus
  rw [h, add_zero, sub_zero]
  by_cases hz : p.t * √(1 / 2) = 0
  · rw [hz]; simp
  · rw [div_self hz, Real.log_one, mul_zero]

/-- The z axis as direction of the string. -/
def axes : V3 × V3 × V3 := (⟨0, 0, 1⟩, ⟨1, 0, 0⟩, ⟨0, 1, 0⟩)

theorem axes_ok : Orthonormal axes := by constructor <;> simp [axes, V3.dot, V3.cross]

/-- Two hadrons at rest along the string. -/
noncomputable def restPair : Event := ⟨⟨4, 0, 0, 0⟩, [⟨2, 1 / 2, 0, 0⟩, ⟨2, -(1 / 2), 0, 0⟩]⟩
/-- A string with the transverse momentum 1, all of it to be added to the forward end. -/
noncomputable def restGoal : Goal := ⟨√(17 / 2), √(17 / 2), 1, 0, 1, 0, 0, 0⟩

theorem restPair_ok : ∀ p ∈ restPair.had, Timelike p := by
  intro p hp
  simp only [restPair, List.mem_cons, List.not_mem_nil, or_false] at hp
  rcases hp with rfl | rfl <;> (unfold Timelike minkowski; norm_num)

theorem restPair_total : total restPair.had = ⟨4, 0, 0, 0⟩ := by
  simp only [restPair, total, V4.add]; norm_num

theorem rest_mT : √(2 * √(17 / 2) * √(17 / 2)) = √17 := by
  rw [mul_assoc, Real.mul_self_sqrt (by norm_num)]; norm_num

theorem restGoal_mass : restGoal.mass = 4 := by
  rw [mass_eq (by unfold restGoal; positivity) (by unfold restGoal; positivity)]
  unfold restGoal
  dsimp only
  rw [mul_assoc, Real.mul_self_sqrt (by norm_num)]
  rw [show (2 * (17 / 2) - 1 ^ 2 - 0 ^ 2 : ℝ) = 4 ^ 2 by norm_num, Real.sqrt_sq (by norm_num)]

theorem mTr_le {p : V4} (c : ℝ) (hc : 0 ≤ c) (h : p.t ^ 2 - p.vec.dot b.1 ^ 2 ≤ c ^ 2) : mTr b p ≤ c := by
  unfold mTr
  apply Real.sqrt_le_iff.2 ⟨hc, ?_⟩
  refine le_trans (le_of_eq ?_) h
  unfold plus minus
  linear_combination 2 * (p.t + p.vec.dot b.1) * (p.t - p.vec.dot b.1) * half_sq

/-- **C169 fails without rapidity differences.** If all hadrons have the rapidity of the string, no hadron counts as most forward,
and the transverse momentum is added to the entry of the whole system instead. The correction reports success, but the
hadrons have the transverse momentum 0 and not that of the string, 1 GeV. -/
theorem C169_rest_false : ∃ (g : Goal) (ev : Event) (l' : List V4), 0 < g.pp ∧ 0 < g.pn ∧ (∀ p ∈ ev.had, Timelike p) ∧
    ev.sys = sum4 ev.had ∧ (sum4 ev.had).vec.dot axes.2.1 + g.ax + g.cx = g.qx ∧ (sum4 ev.had).vec.dot axes.2.2 + g.ay + g.cy = g.qy ∧
    remake axes g ev = some l' ∧ g.qx = 1 ∧ (sum4 l').vec.dot axes.2.1 = 0 := by
  have hsum := restPair_total
  refine ⟨restGoal, restPair, restPair.had, by unfold restGoal; positivity, by unfold restGoal; positivity, restPair_ok, ?_, ?_, ?_, ?_, rfl, ?_⟩
  · rw [← total_sum4, hsum]; rfl
  · rw [← total_sum4, hsum]; simp [axes, V4.vec, V3.dot, restGoal]
  · rw [← total_sum4, hsum]; simp [axes, V4.vec, V3.dot, restGoal]
  · unfold remake
    rw [restGoal_mass]
    have e1 : restGoal.pp = √(17 / 2) := rfl
    have e2 : restGoal.pn = √(17 / 2) := rfl
    have e3 : restGoal.qx = 1 := rfl
    have e4 : restGoal.qy = 0 := rfl
    have e5 : restGoal.ax = 1 := rfl
    have e6 : restGoal.ay = 0 := rfl
    have e7 : restGoal.cx = 0 := rfl
    have e8 : restGoal.cy = 0 := rfl
    have p0 : 0 ≤ √(17 / 2 : ℝ) := Real.sqrt_nonneg _
    rw [if_neg (by rw [e1, e2]; push Not; exact ⟨p0, p0⟩), if_neg, if_neg (by rw [e5]; norm_num)]
    · have r0 : rap axes (⟨4, 0, 0, 0⟩ : V4) = 0 := rap_zero (by simp [axes, V4.vec, V3.dot])
      have hz : ∀ p ∈ restPair.had, rap axes p = 0 := by
        intro p hp
        simp only [restPair, List.mem_cons, List.not_mem_nil, or_false] at hp
        rcases hp with rfl | rfl <;> exact rap_zero (by simp [axes, V4.vec, V3.dot])
      unfold remakeEnds
      rw [hsum, r0, neg_zero, shift_none axes_ok restPair_ok, hsum]
      dsimp only
      have hm : restPair.had.map (rap axes) = [0, 0] := by
        rw [List.map_congr_left hz]; rfl
      rw [hm, hsum]
      have hf : (forward [0, 0] 1 (0, 0)).1 = 0 := by simp [forward]
      have hb : (backward [0, 0] 1 (0, 0)).1 = 0 := by simp [backward]
      rw [hf, hb, restGoal_mass, e3, e4, e5, e6, e7, e8, e1, e2, rest_mT]
      rw [if_neg (by simp [axes, V4.vec, V3.dot]), if_neg (by simp [axes, V4.vec, V3.dot])]
      have m4 : mCalc (⟨4, 0, 0, 0⟩ : V4) = 4 := by
        unfold mCalc
        have : (⟨4, 0, 0, 0⟩ : V4).sqr = 4 ^ 2 := by unfold V4.sqr V4.dot V4.vec V3.dot; norm_num
        rw [this, if_pos (by norm_num), Real.sqrt_sq (by norm_num)]
      have kk : kick axes 1 0 (⟨4, 0, 0, 0⟩ : V4) = ⟨√17, 1, 0, 0⟩ := by
        unfold kick
        rw [m4]
        simp only [axes, V4.vec, V3.add, V3.smul, V3.sqr, V3.dot, V4.mk']
        norm_num
      have m17 : mCalc (⟨√17, 1, 0, 0⟩ : V4) = 4 := by
        unfold mCalc
        have : (⟨√17, 1, 0, 0⟩ : V4).sqr = 4 ^ 2 := by
          unfold V4.sqr V4.dot V4.vec V3.dot
          dsimp only
          rw [Real.mul_self_sqrt (by norm_num)]; norm_num
        rw [this, if_pos (by norm_num), Real.sqrt_sq (by norm_num)]
      have kk2 : kick axes 0 0 (⟨√17, 1, 0, 0⟩ : V4) = ⟨√17, 1, 0, 0⟩ := by
        unfold kick
        rw [m17]
        simp only [axes, V4.vec, V3.add, V3.smul, V3.sqr, V3.dot, V4.mk']
        norm_num
      have ends : addEnds axes 0 0 1 0 0 0 ⟨4, 0, 0, 0⟩ ⟨⟨4, 0, 0, 0⟩, restPair.had⟩ = ⟨⟨√17, 1, 0, 0⟩, restPair.had⟩ := by
        unfold addEnds Event.put Event.get
        simp only [if_true]
        rw [kk, kk2]
        congr 1
        unfold V4.add V4.sub
        ext <;> simp
      rw [ends]
      dsimp only
      rw [if_neg]
      · have hr : rescale axes 4 10000 ⟨⟨√17, 1, 0, 0⟩, restPair.had⟩ = some ⟨⟨√17, 1, 0, 0⟩, restPair.had⟩ := by
          rw [rescale]
          dsimp only
          rw [m17, if_pos (by norm_num)]
        rw [hr]
        dsimp only
        rw [div_self (by positivity), Real.log_one, mul_zero, rap_zero (p := (⟨√17, 1, 0, 0⟩ : V4)) (by simp [axes, V4.vec, V3.dot]), sub_zero,
          shift_none axes_ok (ev := ⟨⟨√17, 1, 0, 0⟩, restPair.had⟩) restPair_ok]
      · rw [not_lt]
        have h1 : mTr axes (⟨2, 1 / 2, 0, 0⟩ : V4) ≤ 2 := mTr_le 2 (by norm_num) (by simp [axes, V4.vec, V3.dot])
        have h2 : mTr axes (⟨2, -(1 / 2), 0, 0⟩ : V4) ≤ 2 := mTr_le 2 (by norm_num) (by simp [axes, V4.vec, V3.dot])
        have h4 : (4 : ℝ) ≤ √17 := Real.le_sqrt_of_sq_le (by norm_num)
        simp only [restPair, List.map_cons, List.map_nil, List.sum_cons, List.sum_nil, add_zero]
        linarith
    · rw [e1, e2, e3, e4, rest_mT, not_lt]
      exact Real.sqrt_le_sqrt (by norm_num)
  · rw [← total_sum4, hsum]; simp [axes, V4.vec, V3.dot]

/-! ### A run that succeeds -/

/-- Two hadrons moving apart; the string has the transverse momentum -1, taken by the forward end. -/
noncomputable def pair : Event := ⟨⟨4, 0, 0, 0⟩, [⟨2, 1 / 2, 0, 1⟩, ⟨2, -(1 / 2), 0, -1⟩]⟩
@[inherit_doc pair] noncomputable def pairGoal : Goal := ⟨√8, √8, -1, 0, -1, 0, 0, 0⟩

theorem pair_ok : ∀ p ∈ pair.had, Timelike p := by
  intro p hp
  simp only [pair, List.mem_cons, List.not_mem_nil, or_false] at hp
  rcases hp with rfl | rfl <;> (unfold Timelike minkowski; norm_num)

theorem pair_rap : 0 < rap axes (⟨2, 1 / 2, 0, 1⟩ : V4) ∧ rap axes (⟨2, -(1 / 2), 0, -1⟩ : V4) < 0 := by
  have h := half_pos'
  constructor
  · unfold rap plus minus
    refine mul_pos (by norm_num) (Real.log_pos ?_)
    rw [mul_div_mul_right _ _ h.ne']
    norm_num [axes, V4.vec, V3.dot]
  · unfold rap plus minus
    refine mul_neg_of_pos_of_neg (by norm_num) (Real.log_neg ?_ ?_)
    · rw [mul_div_mul_right _ _ h.ne']
      norm_num [axes, V4.vec, V3.dot]
    · rw [mul_div_mul_right _ _ h.ne']
      norm_num [axes, V4.vec, V3.dot]

/-- The hypotheses of `C169_total_partial` can be met, and transverse momentum is added. -/
theorem pair_run : remake axes pairGoal pair = some [⟨2, -(1 / 2), 0, 1⟩, ⟨2, -(1 / 2), 0, -1⟩] := by
  have hsum : total pair.had = ⟨4, 0, 0, 0⟩ := by simp only [pair, total, V4.add]; norm_num
  have e1 : pairGoal.pp = √8 := rfl
  have e2 : pairGoal.pn = √8 := rfl
  have e3 : pairGoal.qx = -1 := rfl
  have e4 : pairGoal.qy = 0 := rfl
  have e5 : pairGoal.ax = -1 := rfl
  have e6 : pairGoal.ay = 0 := rfl
  have e7 : pairGoal.cx = 0 := rfl
  have e8 : pairGoal.cy = 0 := rfl
  have p0 : 0 < √(8 : ℝ) := by positivity
  have mT : √(2 * √8 * √8) = (4 : ℝ) := by
    rw [mul_assoc, Real.mul_self_sqrt (by norm_num), show (2 * 8 : ℝ) = 4 ^ 2 by norm_num, Real.sqrt_sq (by norm_num)]
  have hmass : pairGoal.mass = √15 := by
    rw [mass_eq (by rw [e1]; exact p0) (by rw [e2]; exact p0), e1, e2, e3, e4, mul_assoc, Real.mul_self_sqrt (by norm_num)]
    norm_num
  have g15 : 3 < √(15 : ℝ) := Real.lt_sqrt_of_sq_lt (by norm_num)
  have l15 : √(15 : ℝ) < 4 := by rw [Real.sqrt_lt' (by norm_num)]; norm_num
  unfold remake
  rw [if_neg (by rw [e1, e2]; push Not; exact ⟨p0.le, p0.le⟩), if_neg, if_neg]
  · have r0 : rap axes (⟨4, 0, 0, 0⟩ : V4) = 0 := rap_zero (by simp [axes, V4.vec, V3.dot])
    obtain ⟨q1, q2⟩ := pair_rap
    unfold remakeEnds
    rw [hsum, r0, neg_zero, shift_none axes_ok pair_ok, hsum]
    dsimp only
    rw [hsum]
    have hf : (forward (pair.had.map (rap axes)) 1 (0, 0)).1 = 1 := by
      simp only [pair, List.map_cons, List.map_nil, forward]
      rw [if_pos q1, if_neg (by dsimp only; linarith)]
    have hb : (backward (pair.had.map (rap axes)) 1 (0, 0)).1 = 2 := by
      simp only [pair, List.map_cons, List.map_nil, backward]
      rw [if_neg (not_lt.2 q1.le), if_pos q2]
    rw [hf, hb, hmass, e3, e4, e5, e6, e7, e8, e1, e2, mT]
    rw [if_neg (by simp [axes, V4.vec, V3.dot]), if_neg (by simp [axes, V4.vec, V3.dot])]
    have mA : mCalc (⟨2, 1 / 2, 0, 1⟩ : V4) * mCalc (⟨2, 1 / 2, 0, 1⟩ : V4) = 11 / 4 := by
      rw [(mCalc_sq (pair_ok _ (by simp [pair]))).1]; unfold minkowski; norm_num
    have mB : mCalc (⟨2, -(1 / 2), 0, -1⟩ : V4) * mCalc (⟨2, -(1 / 2), 0, -1⟩ : V4) = 11 / 4 := by
      rw [(mCalc_sq (pair_ok _ (by simp [pair]))).1]; unfold minkowski; norm_num
    have s4 : √4 = (2 : ℝ) := by rw [show (4 : ℝ) = 2 ^ 2 by norm_num, Real.sqrt_sq (by norm_num)]
    have kA : kick axes (-1) 0 (⟨2, 1 / 2, 0, 1⟩ : V4) = ⟨2, -(1 / 2), 0, 1⟩ := by
      unfold kick
      rw [mA]
      simp only [axes, V4.vec, V3.add, V3.smul, V3.sqr, V3.dot, V4.mk']
      rw [V4.mk.injEq]
      refine ⟨?_, by norm_num, by norm_num, by norm_num⟩
      refine Eq.trans ?_ s4
      congr 1; norm_num
    have kB : kick axes 0 0 (⟨2, -(1 / 2), 0, -1⟩ : V4) = ⟨2, -(1 / 2), 0, -1⟩ := by
      unfold kick
      rw [mB]
      simp only [axes, V4.vec, V3.add, V3.smul, V3.sqr, V3.dot, V4.mk']
      rw [V4.mk.injEq]
      refine ⟨?_, by norm_num, by norm_num, by norm_num⟩
      refine Eq.trans ?_ s4
      congr 1; norm_num
    have ends : addEnds axes 1 2 (-1) 0 0 0 ⟨4, 0, 0, 0⟩ ⟨⟨4, 0, 0, 0⟩, pair.had⟩ =
        ⟨⟨4, -1, 0, 0⟩, [⟨2, -(1 / 2), 0, 1⟩, ⟨2, -(1 / 2), 0, -1⟩]⟩ := by
      have g1 : Event.get ⟨⟨4, 0, 0, 0⟩, pair.had⟩ 1 = ⟨2, 1 / 2, 0, 1⟩ := by simp [Event.get, pair]
      have g2 : Event.get (Event.put ⟨⟨4, 0, 0, 0⟩, pair.had⟩ 1 ⟨2, -(1 / 2), 0, 1⟩) 2 = ⟨2, -(1 / 2), 0, -1⟩ := by simp [Event.get, Event.put, pair]
      unfold addEnds
      dsimp only
      rw [g1, kA, g2, kB]
      simp only [Event.put, pair, V4.add, V4.sub]
      norm_num
    rw [ends]
    dsimp only
    have m15 : mCalc (⟨4, -1, 0, 0⟩ : V4) = √15 := by
      unfold mCalc
      have : (⟨4, -1, 0, 0⟩ : V4).sqr = 15 := by unfold V4.sqr V4.dot V4.vec V3.dot; norm_num
      rw [this, if_pos (by norm_num)]
    have hl : ∀ p ∈ [(⟨2, -(1 / 2), 0, 1⟩ : V4), ⟨2, -(1 / 2), 0, -1⟩], Timelike p := by
      intro p hp
      simp only [List.mem_cons, List.not_mem_nil, or_false] at hp
      rcases hp with rfl | rfl <;> (unfold Timelike minkowski; norm_num)
    rw [if_neg]
    · have hr : rescale axes (√15) 10000 ⟨⟨4, -1, 0, 0⟩, [⟨2, -(1 / 2), 0, 1⟩, ⟨2, -(1 / 2), 0, -1⟩]⟩ =
          some ⟨⟨4, -1, 0, 0⟩, [⟨2, -(1 / 2), 0, 1⟩, ⟨2, -(1 / 2), 0, -1⟩]⟩ := by
        rw [rescale]
        dsimp only
        rw [m15, if_pos (by rw [sub_self, abs_zero]; positivity)]
      rw [hr]
      dsimp only
      rw [div_self p0.ne', Real.log_one, mul_zero, rap_zero (p := (⟨4, -1, 0, 0⟩ : V4)) (by simp [axes, V4.vec, V3.dot]), sub_zero,
        shift_none axes_ok hl]
    · rw [not_lt]
      have h1 : mTr axes (⟨2, -(1 / 2), 0, 1⟩ : V4) ≤ 2 := mTr_le 2 (by norm_num) (by simp [axes, V4.vec, V3.dot])
      have h2 : mTr axes (⟨2, -(1 / 2), 0, -1⟩ : V4) ≤ 2 := mTr_le 2 (by norm_num) (by simp [axes, V4.vec, V3.dot])
      simp only [List.map_cons, List.map_nil, List.sum_cons, List.sum_nil, add_zero]
      linarith
  · rw [hmass, e5]
    intro h
    have := h.1
    norm_num at this
    linarith
  · rw [e1, e2, e3, e4, mT, not_lt]
    rw [show (-1 * -1 + 0 * 0 : ℝ) = 1 by norm_num, Real.sqrt_one]
    norm_num

example : ∃ (g : Goal) (ev : Event) (l' : List V4), 0 < g.pp ∧ 0 < g.pn ∧ (∀ p ∈ ev.had, Timelike p) ∧
    (∃ p ∈ ev.had, ∃ q ∈ ev.had, rap axes p ≠ rap axes q) ∧ remake axes g ev = some l' ∧ l' ≠ ev.had := by
  refine ⟨pairGoal, pair, _, by unfold pairGoal; positivity, by unfold pairGoal; positivity, pair_ok,
    ⟨⟨2, 1 / 2, 0, 1⟩, by simp [pair], ⟨2, -(1 / 2), 0, -1⟩, by simp [pair], ?_⟩, pair_run, ?_⟩
  · have := pair_rap
    exact (lt_trans this.2 this.1).ne'
  · unfold pair
    intro h
    simp only [List.cons.injEq, V4.mk.injEq] at h
    norm_num at h

end Verif.Rem
