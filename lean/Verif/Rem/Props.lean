import Verif.Rem.Lemmas
/-
C169: the kinematics of the hadrons of the remaining string.
-/
namespace Verif.Rem
open Verif.Kin Verif.Frag Real

variable {b : V3 × V3 × V3}

/-- Same mass and transverse momentum, positive energy. -/
def Kept (b : V3 × V3 × V3) (p q : V4) : Prop :=
  Timelike q ∧ minkowski q q = minkowski p p ∧ q.vec.dot b.2.1 = p.vec.dot b.2.1 ∧ q.vec.dot b.2.2 = p.vec.dot b.2.2

theorem Kept.trans {p q r : V4} (h : Kept b p q) (k : Kept b q r) : Kept b p r :=
  ⟨k.1, k.2.1.trans h.2.1, k.2.2.1.trans h.2.2.1, k.2.2.2.trans h.2.2.2⟩

/-- **C169.** A shift of the rapidities keeps the mass and the transverse momentum of every particle, and changes its rapidity y to
`f * y + d`. -/
theorem C169_shift (hb : Orthonormal b) (f d : ℝ) {ev : Event} (h : ∀ p ∈ ev.had, Timelike p) :
    (shift b f d ev).sys = sum4 (shift b f d ev).had ∧
    List.Forall₂ (fun p q => Kept b p q ∧ rap b q = f * rap b p + d) ev.had (shift b f d ev).had := by
  refine ⟨total_sum4 _, ?_⟩
  unfold shift
  rw [List.forall₂_map_right_iff, List.forall₂_same]
  intro p hp
  obtain ⟨h1, h2, h3, h4, h5⟩ := shiftOne_spec hb f d (h p hp)
  exact ⟨⟨h1, h2, h3, h4⟩, h5⟩

theorem shift_kept (hb : Orthonormal b) (f d : ℝ) {ev : Event} (h : ∀ p ∈ ev.had, Timelike p) :
    List.Forall₂ (Kept b) ev.had (shift b f d ev).had :=
  (C169_shift hb f d h).2.imp fun _ _ k => k.1

theorem kept_all {l m : List V4} (h : List.Forall₂ (Kept b) l m) : ∀ q ∈ m, Timelike q := by
  induction h with
  | nil => simp
  | cons h _ ih => intro q hq; rcases List.mem_cons.1 hq with rfl | hq; exacts [h.1, ih q hq]

theorem kept_refl {l : List V4} (h : ∀ p ∈ l, Timelike p) : List.Forall₂ (Kept b) l l := by
  rw [List.forall₂_same]
  exact fun p hp => ⟨h p hp, rfl, rfl, rfl⟩

theorem kept_trans {l m n : List V4} (h : List.Forall₂ (Kept b) l m) (k : List.Forall₂ (Kept b) m n) : List.Forall₂ (Kept b) l n := by
  induction h generalizing n with
  | nil => exact k
  | cons h _ ih => cases k with | cons k1 k2 => exact .cons (h.trans k1) (ih k2)

/-- The iteration keeps masses and transverse momenta, and ends with the mass of the string. -/
theorem rescale_spec (hb : Orthonormal b) (mass : ℝ) : ∀ (n : ℕ) {ev ev' : Event}, (∀ p ∈ ev.had, Timelike p) → ev.sys = total ev.had →
    rescale b mass n ev = some ev' → List.Forall₂ (Kept b) ev.had ev'.had ∧ ev'.sys = total ev'.had ∧
    |mCalc ev'.sys - mass| < 1 / 1000000 * mass
  | 0, _, _, _, _, h => by cases h
  | n + 1, ev, ev', ht, hs, h => by
    rw [rescale] at h
    split at h
    · rename_i hc
      cases h
      exact ⟨kept_refl ht, hs, hc⟩
    · dsimp only at h
      have k := shift_kept hb (factor (mass ^ 2 - mCalc ev.sys * mCalc ev.sys) (slope b ev))
        ((1 - factor (mass ^ 2 - mCalc ev.sys * mCalc ev.sys) (slope b ev)) * rap b ev.sys) ht
      obtain ⟨h1, h2, h3⟩ := rescale_spec hb mass n (kept_all k) rfl h
      exact ⟨kept_trans k h1, h2, h3⟩

theorem mCalc_sq {p : V4} (h : Timelike p) : mCalc p * mCalc p = minkowski p p ∧ mCalc p = √(minkowski p p) := by
  have : 0 ≤ p.sqr := by rw [sqr_minkowski]; exact h.2.le
  unfold mCalc
  rw [if_pos this, Real.mul_self_sqrt this, sqr_minkowski]
  exact ⟨rfl, rfl⟩

/-- A particle with additional transverse momentum. -/
theorem kick_spec (hb : Orthonormal b) (x y : ℝ) {p : V4} (h : Timelike p) : Timelike (kick b x y p) ∧
    minkowski (kick b x y p) (kick b x y p) = minkowski p p ∧ (kick b x y p).vec.dot b.2.1 = p.vec.dot b.2.1 + x ∧
    (kick b x y p).vec.dot b.2.2 = p.vec.dot b.2.2 + y := by
  have hm := (mCalc_sq h).1
  have nn : 0 ≤ ((p.vec.add (b.2.1.smul x)).add (b.2.2.smul y)).sqr :=
    add_nonneg (add_nonneg (mul_self_nonneg _) (mul_self_nonneg _)) (mul_self_nonneg _)
  have pos : 0 < ((p.vec.add (b.2.1.smul x)).add (b.2.2.smul y)).sqr + mCalc p * mCalc p := by
    rw [hm]; linarith [h.2]
  have e : minkowski (kick b x y p) (kick b x y p) = minkowski p p := by
    unfold kick
    rw [mink_vec, Real.sq_sqrt pos.le, hm]
    unfold V3.sqr; ring
  refine ⟨⟨Real.sqrt_pos.2 pos, e ▸ h.2⟩, e, ?_, ?_⟩
  · obtain ⟨n0, n1, n2, o01, o02, o12, -⟩ := hb
    obtain ⟨e0, e1, e2⟩ := b
    simp only [kick, V4.mk', V4.vec, V3.add, V3.smul, V3.dot] at *
    linear_combination x * n1 + y * o12
  · obtain ⟨n0, n1, n2, o01, o02, o12, -⟩ := hb
    obtain ⟨e0, e1, e2⟩ := b
    simp only [kick, V4.mk', V4.vec, V3.add, V3.smul, V3.dot] at *
    linear_combination y * n2 + x * o12

/-- What the correction of the kinematics has to achieve: `i`, `j` are the most forward and the most backward hadron, they take
the additional transverse momenta; all masses are kept; the hadrons together have the light-cone momenta ratio, the
transverse momentum and the mass of the string, the latter two within the tolerances of the code. -/
structure Done (b : V3 × V3 × V3) (g : Goal) (l l' : List V4) : Prop where
  length : l'.length = l.length
  mass : ∀ (k : ℕ) (h : k < l.length) (h' : k < l'.length), 0 < l'[k].t ∧ minkowski l'[k] l'[k] = minkowski l[k] l[k]
  transverse : ∃ (i j : ℕ) (hi : i < l.length) (hj : j < l.length), i ≠ j ∧
    (∀ (k : ℕ) (h : k < l.length), rap b l[k] ≤ rap b l[i] ∧ rap b l[j] ≤ rap b l[k]) ∧
    ∀ (k : ℕ) (h : k < l.length) (h' : k < l'.length),
      l'[k].vec.dot b.2.1 = l[k].vec.dot b.2.1 + (if k = i then g.ax else 0) + (if k = j then g.cx else 0) ∧
      l'[k].vec.dot b.2.2 = l[k].vec.dot b.2.2 + (if k = i then g.ay else 0) + (if k = j then g.cy else 0)
  sumX : |(sum4 l').vec.dot b.2.1 - g.qx| < 1 / 10000 * √(2 * g.pp * g.pn - g.qx ^ 2 - g.qy ^ 2)
  sumY : |(sum4 l').vec.dot b.2.2 - g.qy| < 1 / 10000 * √(2 * g.pp * g.pn - g.qx ^ 2 - g.qy ^ 2)
  ratio : pPos b.1 (sum4 l') * g.pn = pNeg b.1 (sum4 l') * g.pp
  total : |√(minkowski (sum4 l') (sum4 l')) - √(2 * g.pp * g.pn - g.qx ^ 2 - g.qy ^ 2)| <
    1 / 1000000 * √(2 * g.pp * g.pn - g.qx ^ 2 - g.qy ^ 2)

theorem mass_eq {g : Goal} (hp : 0 < g.pp) (hn : 0 < g.pn) : g.mass = √(2 * g.pp * g.pn - g.qx ^ 2 - g.qy ^ 2) := by
  unfold Goal.mass
  rw [Real.mul_self_sqrt (mul_pos (mul_pos two_pos hp) hn).le,
    Real.mul_self_sqrt (add_nonneg (mul_self_nonneg _) (mul_self_nonneg _))]
  congr 1; ring

theorem kept_total {l m : List V4} (h : List.Forall₂ (Kept b) l m) : (total m).vec.dot b.2.1 = (total l).vec.dot b.2.1 ∧
    (total m).vec.dot b.2.2 = (total l).vec.dot b.2.2 := by
  rw [total_dot, total_dot, total_dot, total_dot]
  induction h with
  | nil => simp
  | cons h _ ih => simp only [List.map_cons, List.sum_cons, h.2.2.1, h.2.2.2, ih.1, ih.2, and_self]

theorem kept_get {l m : List V4} (h : List.Forall₂ (Kept b) l m) (k : ℕ) (h1 : k < l.length) (h2 : k < m.length) : Kept b l[k] m[k] :=
  h.get h1 h2

/-- **C169.** If the correction succeeds and the hadrons do not all have the same rapidity, it does what it should. -/
theorem C169_remake_partial (hb : Orthonormal b) {g : Goal} (hp : 0 < g.pp) (hn : 0 < g.pn) {ev : Event}
    (ht : ∀ p ∈ ev.had, Timelike p) (hne : ∃ p ∈ ev.had, ∃ q ∈ ev.had, rap b p ≠ rap b q) {l' : List V4}
    (h : remakeEnds b g ev = some l') : Done b g ev.had l' := by
  have hnil : ev.had ≠ [] := by
    obtain ⟨p, hp, -⟩ := hne
    exact List.ne_nil_of_mem hp
  have T0 := total_timelike hnil ht
  -- first shift
  have s1 := (C169_shift hb 1 (-rap b (total ev.had)) ht).2
  have k1 := shift_kept hb 1 (-rap b (total ev.had)) ht
  have tot1 : total (shift b 1 (-rap b (total ev.had)) ev).had = lin b (-rap b (total ev.had)) (total ev.had) :=
    total_shift hb _ ht
  unfold remakeEnds at h
  dsimp only at h
  generalize hev1 : shift b 1 (-rap b (total ev.had)) ev = ev1 at *
  have t1 := kept_all k1
  have len1 : ev1.had.length = ev.had.length := k1.length_eq.symm
  obtain ⟨L1, -, L3, L4, L5⟩ := lin_spec hb (-rap b (total ev.had)) T0
  rw [← tot1] at L1 L3 L4 L5
  rw [add_neg_cancel] at L5
  have long0 : (total ev1.had).vec.dot b.1 = 0 := by
    rw [← mTr_sinh hb L1, L5, Real.sinh_zero, mul_zero]
  have rap1 : ∀ (k : ℕ) (h1 : k < ev1.had.length) (h2 : k < ev.had.length), rap b ev1.had[k] = rap b ev.had[k] - rap b (total ev.had) := by
    intro k h1 h2
    have := (s1.get h2 h1).2
    simp only [List.get_eq_getElem] at this
    rw [this]; ring
  have hne1 : ∃ p ∈ ev1.had, rap b p ≠ 0 := by
    by_contra hc
    push Not at hc
    obtain ⟨p, hp, q, hq, hpq⟩ := hne
    obtain ⟨x, hx, rfl⟩ := List.getElem_of_mem hp
    obtain ⟨y, hy, rfl⟩ := List.getElem_of_mem hq
    have e1 := rap1 x (len1 ▸ hx) hx
    have e2 := rap1 y (len1 ▸ hy) hy
    rw [hc _ (List.getElem_mem _)] at e1 e2
    exact hpq (by linarith)
  obtain ⟨⟨pf, hpf, hpf0⟩, ⟨pb, hpb, hpb0⟩⟩ := both_signs hb t1 long0 hne1
  -- indices
  obtain ⟨i, hi, hi1, hi2, hi3⟩ : ∃ (k : ℕ) (h : k < ev1.had.length), (forward (ev1.had.map (rap b)) 1 (0, 0)).1 = k + 1 ∧
      0 < rap b ev1.had[k] ∧ ∀ p ∈ ev1.had, rap b p ≤ rap b ev1.had[k] := by
    rcases forward_spec (ev1.had.map (rap b)) 1 (0, 0) with ⟨-, h2⟩ | ⟨k, hk, h1, h2, h3⟩
    · exact absurd (h2 _ (List.mem_map_of_mem hpf)) (not_le.2 hpf0)
    · refine ⟨k, by simpa using hk, by rw [h1]; exact add_comm 1 k, by simpa using h2, ?_⟩
      intro p hp
      simpa using h3 _ (List.mem_map_of_mem hp)
  obtain ⟨j, hj, hj1, hj2, hj3⟩ : ∃ (k : ℕ) (h : k < ev1.had.length), (backward (ev1.had.map (rap b)) 1 (0, 0)).1 = k + 1 ∧
      rap b ev1.had[k] < 0 ∧ ∀ p ∈ ev1.had, rap b ev1.had[k] ≤ rap b p := by
    rcases backward_spec (ev1.had.map (rap b)) 1 (0, 0) with ⟨-, h2⟩ | ⟨k, hk, h1, h2, h3⟩
    · exact absurd (h2 _ (List.mem_map_of_mem hpb)) (not_le.2 hpb0)
    · refine ⟨k, by simpa using hk, by rw [h1]; exact add_comm 1 k, by simpa using h2, ?_⟩
      intro p hp
      simpa using h3 _ (List.mem_map_of_mem hp)
  have hij : i ≠ j := by
    rintro rfl
    linarith
  rw [hi1, hj1] at h
  split at h
  · cases h
  rename_i hx
  split at h
  · cases h
  rename_i hy
  rw [not_not] at hx hy
  split at h
  · cases h
  -- the kicks
  have e2 : addEnds b (i + 1) (j + 1) g.ax g.ay g.cx g.cy (total ev1.had) ev1 =
      ⟨total ((ev1.had.set i (kick b g.ax g.ay ev1.had[i])).set j (kick b g.cx g.cy ev1.had[j])),
        (ev1.had.set i (kick b g.ax g.ay ev1.had[i])).set j (kick b g.cx g.cy ev1.had[j])⟩ := by
    unfold addEnds Event.put Event.get
    have gi : ev1.had.getD i ⟨0, 0, 0, 0⟩ = ev1.had[i] := by simp [hi]
    have gj : ∀ x, (ev1.had.set i x).getD j ⟨0, 0, 0, 0⟩ = ev1.had[j] := by
      intro x
      rw [List.getD_eq_getElem?_getD, List.getElem?_set_ne hij]
      simp [hj]
    simp only [Nat.add_eq_zero_iff, one_ne_zero, and_false, if_false, Nat.add_sub_cancel, gi, gj]
    congr 1
    rw [total_set _ j (by simpa using hj), total_set _ i hi, List.getElem_set_of_ne hij]
  rw [e2] at h
  have t2 : ∀ p ∈ (ev1.had.set i (kick b g.ax g.ay ev1.had[i])).set j (kick b g.cx g.cy ev1.had[j]), Timelike p := by
    intro p hp
    rcases List.mem_or_eq_of_mem_set hp with hp | rfl
    · rcases List.mem_or_eq_of_mem_set hp with hp | rfl
      · exact t1 p hp
      · exact (kick_spec hb _ _ (t1 _ (List.getElem_mem _))).1
    · exact (kick_spec hb _ _ (t1 _ (List.getElem_mem _))).1
  rcases hr : rescale b g.mass 10000 ⟨total ((ev1.had.set i (kick b g.ax g.ay ev1.had[i])).set j (kick b g.cx g.cy ev1.had[j])),
        (ev1.had.set i (kick b g.ax g.ay ev1.had[i])).set j (kick b g.cx g.cy ev1.had[j])⟩ with _ | ev3
  · rw [hr] at h; cases h
  rw [hr] at h
  obtain ⟨k3, s3, m3⟩ := rescale_spec hb _ _ t2 rfl hr
  dsimp only at h k3
  have t3 := kept_all k3
  have k4 := shift_kept hb 1 (1 / 2 * log (g.pp / g.pn) - rap b ev3.sys) t3
  have tot4 : total (shift b 1 (1 / 2 * log (g.pp / g.pn) - rap b ev3.sys) ev3).had =
      lin b (1 / 2 * log (g.pp / g.pn) - rap b ev3.sys) (total ev3.had) := total_shift hb _ t3
  have k24 := kept_trans k3 k4
  generalize (shift b 1 (1 / 2 * log (g.pp / g.pn) - rap b ev3.sys) ev3).had = l4 at *
  have hl := Option.some.inj h
  subst hl
  have len4 : l4.length = ev.had.length := by
    rw [← k24.length_eq, List.length_set, List.length_set, len1]
  have hnil3 : ev3.had ≠ [] := by
    intro hc
    have := k4.length_eq
    rw [hc, List.length_nil, len4] at this
    exact hnil (List.length_eq_zero_iff.1 this.symm)
  have T3 := total_timelike hnil3 t3
  obtain ⟨M1, M2, -, -, M5⟩ := lin_spec hb (1 / 2 * log (g.pp / g.pn) - rap b ev3.sys) T3
  rw [← tot4] at M1 M2 M5
  -- one hadron
  have one : ∀ (k : ℕ) (h : k < ev.had.length) (h' : k < l4.length), 0 < l4[k].t ∧ minkowski l4[k] l4[k] = minkowski ev.had[k] ev.had[k] ∧
      l4[k].vec.dot b.2.1 = ev.had[k].vec.dot b.2.1 + (if k = i then g.ax else 0) + (if k = j then g.cx else 0) ∧
      l4[k].vec.dot b.2.2 = ev.had[k].vec.dot b.2.2 + (if k = i then g.ay else 0) + (if k = j then g.cy else 0) := by
    intro k hk hk'
    have hk1 : k < ev1.had.length := len1 ▸ hk
    have a1 := kept_get k1 k hk hk1
    have a2 := kept_get k24 k (by simpa using hk1) hk'
    rw [List.getElem_set, List.getElem_set] at a2
    obtain ⟨c1, c2, c3, c4⟩ := a1
    by_cases hkj : j = k
    · subst hkj
      rw [if_pos rfl] at a2
      obtain ⟨d1, d2, d3, d4⟩ := kick_spec hb g.cx g.cy c1
      refine ⟨a2.1.1, by rw [a2.2.1, d2, c2], ?_, ?_⟩
      · rw [a2.2.2.1, d3, c3, if_neg hij.symm, if_pos rfl]; ring
      · rw [a2.2.2.2, d4, c4, if_neg hij.symm, if_pos rfl]; ring
    · rw [if_neg hkj] at a2
      by_cases hki : i = k
      · subst hki
        rw [if_pos rfl] at a2
        obtain ⟨d1, d2, d3, d4⟩ := kick_spec hb g.ax g.ay c1
        refine ⟨a2.1.1, by rw [a2.2.1, d2, c2], ?_, ?_⟩
        · rw [a2.2.2.1, d3, c3, if_pos rfl, if_neg hij]; ring
        · rw [a2.2.2.2, d4, c4, if_pos rfl, if_neg hij]; ring
      · rw [if_neg hki] at a2
        refine ⟨a2.1.1, by rw [a2.2.1, c2], ?_, ?_⟩
        · rw [a2.2.2.1, c3, if_neg (Ne.symm hki), if_neg (Ne.symm hkj)]; ring
        · rw [a2.2.2.2, c4, if_neg (Ne.symm hki), if_neg (Ne.symm hkj)]; ring
  -- sums
  obtain ⟨u1, u2⟩ := kept_total k24
  have set2 : ∀ e : V3, (total ((ev1.had.set i (kick b g.ax g.ay ev1.had[i])).set j (kick b g.cx g.cy ev1.had[j]))).vec.dot e =
      (total ev1.had).vec.dot e - ev1.had[i].vec.dot e + (kick b g.ax g.ay ev1.had[i]).vec.dot e - ev1.had[j].vec.dot e +
      (kick b g.cx g.cy ev1.had[j]).vec.dot e := by
    intro e
    rw [total_set _ j (by simpa using hj), total_set _ i hi, List.getElem_set_of_ne hij]
    unfold V4.add V4.sub V4.vec V3.dot; ring
  obtain ⟨-, -, di3, di4⟩ := kick_spec hb g.ax g.ay (t1 _ (List.getElem_mem hi))
  obtain ⟨-, -, dj3, dj4⟩ := kick_spec hb g.cx g.cy (t1 _ (List.getElem_mem hj))
  rw [set2, di3, dj3] at u1
  rw [set2, di4, dj4] at u2
  have hmass := mass_eq hp hn
  refine ⟨len4, fun k h h' => ⟨(one k h h').1, (one k h h').2.1⟩,
    ⟨i, j, len1 ▸ hi, len1 ▸ hj, hij, ?_, fun k h h' => (one k h h').2.2⟩, ?_, ?_, ?_, ?_⟩
  · intro k hk
    have r1 := hi3 _ (List.getElem_mem (len1 ▸ hk : k < ev1.had.length))
    have r2 := hj3 _ (List.getElem_mem (len1 ▸ hk : k < ev1.had.length))
    rw [rap1 k (len1 ▸ hk) hk] at r1 r2
    rw [rap1 i hi (len1 ▸ hi)] at r1
    rw [rap1 j hj (len1 ▸ hj)] at r2
    exact ⟨by linarith, by linarith⟩
  · rw [← total_sum4, u1, ← hmass]
    convert hx using 2
    ring
  · rw [← total_sum4, u2, ← hmass]
    convert hy using 2
    ring
  · rw [← total_sum4]
    rw [s3, add_sub_cancel] at M5
    have h1 := plus_pos hb M1
    have h2 := minus_pos hb M1
    unfold rap at M5
    have e : plus b (Rem.total l4) / minus b (Rem.total l4) = g.pp / g.pn :=
      Real.log_injOn_pos (Set.mem_Ioi.2 (div_pos h1 h2)) (Set.mem_Ioi.2 (div_pos hp hn)) (by linarith)
    rw [div_eq_div_iff h2.ne' hn.ne'] at e
    have c1 : pPos b.1 (Rem.total l4) = plus b (Rem.total l4) := by
      unfold pPos plus V3.dot; ring
    have c2 : pNeg b.1 (Rem.total l4) = minus b (Rem.total l4) := by
      unfold pNeg minus V3.dot; ring
    rw [c1, c2, e]; ring
  · rw [← total_sum4, M2, ← s3, ← hmass, ← (mCalc_sq (s3 ▸ T3)).2]
    exact m3

end Verif.Rem
