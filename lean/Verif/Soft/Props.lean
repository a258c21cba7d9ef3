import Verif.Soft.Model
import Verif.Frag.MomProps
/-
C178: collisions with strings always have a complete final state.
-/
namespace Verif.Soft
open Verif.Kin Verif.Frag Real

/-- Specification: attempt `k` of the `n` attempts counted from `a` is the first that succeeds, with the particles `l`. -/
def First {α : Type} (f : Nat → Bool × List α) (a n k : Nat) (l : List α) : Prop :=
  k < n ∧ f (a + k) = (true, l) ∧ ∀ i < k, (f (a + i)).1 = false

/-- Specification: none of the `n` attempts counted from `a` succeeds. -/
def AllFail {α : Type} (f : Nat → Bool × List α) (a n : Nat) : Prop := ∀ i < n, (f (a + i)).1 = false

/-- Specification: the process tried if the selected one fails: annihilation for a baryon and its antibaryon. -/
def fallback (ba bb : Int) : Proc := if ba ≠ 0 ∧ ba + bb = 0 then .annihilation else .double

theorem tries_fail {α : Type} {f : Nat → Bool × List α} : ∀ {n a k : Nat} {fin : List α}, AllFail f a n →
    ∃ fin', tries f n a k fin = (false, k + n, fin') := by
  intro n
  induction n with
  | zero => intro a k fin _; exact ⟨fin, rfl⟩
  | succ n ih =>
    intro a k fin h
    have h0 : (f a).1 = false := h 0 (by omega)
    obtain ⟨fin', e⟩ := @ih (a + 1) (k + 1) (f a).2 (fun i hi => by have := h (i + 1) (by omega); rwa [show a + 1 + i = a + (i + 1) by omega])
    exact ⟨fin', by simp only [tries, h0, Bool.false_eq_true, if_false, e]; rw [show k + 1 + n = k + (n + 1) by omega]⟩

theorem tries_first {α : Type} {f : Nat → Bool × List α} : ∀ {n a j k : Nat} {fin l : List α}, First f a n k l →
    tries f n a j fin = (true, j + k + 1, l) := by
  intro n
  induction n with
  | zero => intro a j k fin l h; exact absurd h.1 (by omega)
  | succ n ih =>
    intro a j k fin l ⟨hk, hs, hf⟩
    rcases k with _ | k
    · rw [Nat.add_zero] at hs
      simp [tries, hs]
    · have h0 : (f a).1 = false := hf 0 (by omega)
      have := @ih (a + 1) (j + 1) k (f a).2 l ⟨by omega, by rw [show a + 1 + k = a + (k + 1) by omega]; exact hs,
        fun i hi => by have := hf (i + 1) (by omega); rwa [show a + 1 + i = a + (i + 1) by omega]⟩
      simp only [tries, h0, Bool.false_eq_true, if_false, this]
      rw [show j + 1 + k + 1 = j + (k + 1) + 1 by omega]

theorem first_or_fail {α : Type} (f : Nat → Bool × List α) (a : Nat) : ∀ n, (∃ k l, First f a n k l) ∨ AllFail f a n := by
  intro n
  induction n with
  | zero => exact .inr fun i hi => absurd hi (by omega)
  | succ n ih =>
    rcases ih with ⟨k, l, h1, h2, h3⟩ | h
    · exact .inl ⟨k, l, by omega, h2, h3⟩
    · rcases hn : f (a + n) with ⟨b, l⟩
      cases b
      · refine .inr fun i hi => ?_
        rcases Nat.lt_succ_iff_lt_or_eq.1 hi with hi | rfl
        · exact h i hi
        · rw [hn]
      · exact .inl ⟨n, l, by omega, hn, h⟩

/-- **C178 (outcome).** The particles are those of the first attempt of the selected process that succeeds, among the first 9999; if there is none,
those of the first of 10000 attempts of the other process that succeeds, with the type of that process; if there is none, the incoming
particles scatter elastically.  No particle of a failed attempt is left over.  (The three cases exclude each other.) -/
theorem C178_outcome {α : Type} (next : Proc → Nat → Bool × List α) (proc : Proc) (ba bb : Int) (elastic : List α) :
    (∃ k l, First (next proc) 0 9999 k l ∧ stringExcitation next proc ba bb elastic = (proc, l)) ∨
    (AllFail (next proc) 0 9999 ∧ ∃ k l, First (next (fallback ba bb)) 10000 10000 k l ∧
      stringExcitation next proc ba bb elastic = (fallback ba bb, l)) ∨
    (AllFail (next proc) 0 9999 ∧ AllFail (next (fallback ba bb)) 10000 10000 ∧
      stringExcitation next proc ba bb elastic = (.failed, elastic)) := by
  have hfb : (if ba ≠ 0 ∧ ba = -bb then Proc.annihilation else Proc.double) = fallback ba bb := by
    unfold fallback
    by_cases h : ba ≠ 0 ∧ ba = -bb
    · rw [if_pos h, if_pos ⟨h.1, by omega⟩]
    · rw [if_neg h, if_neg (fun h' => h ⟨h'.1, by omega⟩)]
  rcases first_or_fail (next proc) 0 9999 with ⟨k, l, h⟩ | h
  · refine .inl ⟨k, l, h, ?_⟩
    have e := @tries_first α (next proc) 10000 0 0 k [] l ⟨by have := h.1; omega, h.2⟩
    have hk := h.1
    rw [stringExcitation, ntryMax, e]
    simp only
    rw [if_neg (by omega)]
  · refine .inr ?_
    have hr : ∃ b fin, tries (next proc) 10000 0 0 [] = (b, 10000, fin) := by
      rcases first_or_fail (next proc) 0 10000 with ⟨k, l, h'⟩ | h'
      · have hk : k = 9999 := by
          by_contra hne
          have h1 := h k (by have := h'.1; omega)
          rw [h'.2.1] at h1
          cases h1
        subst hk
        exact ⟨_, _, tries_first h'⟩
      · obtain ⟨fin, e⟩ := @tries_fail α (next proc) 10000 0 0 [] h'
        exact ⟨_, fin, e⟩
    obtain ⟨b, fin, e⟩ := hr
    rcases first_or_fail (next (fallback ba bb)) 10000 10000 with ⟨k, l, h'⟩ | h'
    · refine .inl ⟨h, k, l, h', ?_⟩
      rw [stringExcitation, ntryMax, e]
      simp only [hfb, if_true]
      rw [tries_first h']
      simp
    · refine .inr ⟨h, h', ?_⟩
      obtain ⟨fin', e'⟩ := @tries_fail α (next (fallback ba bb)) 10000 10000 0 fin h'
      rw [stringExcitation, ntryMax, e]
      simp only [hfb, if_true]
      rw [e']
      simp

/-- **C178 (last attempt) is false.** A success of the last of the 10000 attempts is thrown away: here only this attempt succeeds, and the
particles scatter elastically. -/
theorem C178_last_false {α : Type} (l elastic : List α) (ba bb : Int) : ∃ next : Proc → Nat → Bool × List α,
    First (next .hard) 0 10000 9999 l ∧ stringExcitation next .hard ba bb elastic = (.failed, elastic) := by
  refine ⟨fun p n => if p = .hard ∧ n = 9999 then (true, l) else (false, []), ⟨by omega, by simp, fun i hi => ?_⟩, ?_⟩
  · have : ¬ (Proc.hard = .hard ∧ 0 + i = 9999) := fun h => absurd h.2 (by omega)
    show (if Proc.hard = .hard ∧ 0 + i = 9999 then (true, l) else (false, [])).1 = false
    rw [if_neg this]
  · rcases C178_outcome (fun p n => if p = .hard ∧ n = 9999 then (true, l) else (false, [])) .hard ba bb elastic with
      ⟨k, l', ⟨h1, h2, -⟩, -⟩ | ⟨-, k, l', ⟨-, h2, -⟩, -⟩ | ⟨-, -, h⟩
    · have : ¬ (0 + k = 9999) := by omega
      simp only [this, and_false, if_false] at h2
      cases h2
    · have : fallback ba bb ≠ .hard := by unfold fallback; split_ifs <;> simp
      simp only [this, false_and, if_false] at h2
      cases h2
    · exact h

/-! ### Two strings -/

/-- Specification: inside the future light cone. -/
def Future (p : V4) : Prop := 0 < p.t ∧ p.x ^ 2 + p.y ^ 2 + p.z ^ 2 < p.t ^ 2

/-- Specification: the invariant mass. -/
noncomputable def invMass (p : V4) : ℝ := √(p.t ^ 2 - p.x ^ 2 - p.y ^ 2 - p.z ^ 2)

/-- Specification: the fragmentation conserves energy and momentum in the rest frame of the string. -/
def Conserves (frag : Nat → ℝ → V3 → List V4) : Prop := ∀ i m e, frag i m e ≠ [] → sum4 (frag i m e) = ⟨m, 0, 0, 0⟩

theorem sqr_eq (p : V4) : p.sqr = p.t ^ 2 - p.x ^ 2 - p.y ^ 2 - p.z ^ 2 := by
  unfold V4.sqr V4.dot V3.dot V4.vec; simp only; ring

theorem velocity_div {ps : V4} {m : ℝ} (hm : m ≠ 0) (ht : ps.t ≠ 0) : (div4 ps m).velocity = ps.velocity := by
  unfold div4 V4.velocity V3.div V3.smul V4.vec
  ext <;> simp only <;> field_simp

theorem sum4_append (l m : List V4) : sum4 (l ++ m) = (sum4 l).add (sum4 m) := by
  induction l with
  | nil => simp [sum4, V4.add]
  | cons a l ih =>
    rw [List.cons_append, show sum4 (a :: (l ++ m)) = a.add (sum4 (l ++ m)) from rfl, ih, show sum4 (a :: l) = a.add (sum4 l) from rfl]
    unfold V4.add
    ext <;> simp only <;> ring

theorem sum_toCom {ps : V4} (hf : Future ps) {l : List V4} (hl : sum4 l = ⟨invMass ps, 0, 0, 0⟩) : sum4 (toCom ps (invMass ps) l) = ps := by
  have hm : invMass ps ≠ 0 := (Real.sqrt_pos.2 (by have := hf.2; linarith)).ne'
  have := C89_fragments hf.1 hf.2 l hl ⟨0, 0, 0⟩ (fun _ => 0) (fun _ => 0) (fun _ => 0) (fun _ => 0)
  unfold toCom
  rw [velocity_div hm hf.1.ne']
  exact this

theorem massDir_some {thr m : ℝ} {ps pin : V4} {e : V3} (h : massDir thr ps pin = (m, some e)) (ht : 0 ≤ thr) :
    0 < ps.sqr ∧ m = invMass ps ∧ thr < invMass ps := by
  unfold massDir at h
  simp only [Prod.mk.injEq] at h
  obtain ⟨h1, h2⟩ := h
  by_cases hs : ps.sqr > 0
  · simp only [if_pos hs] at h1 h2
    have e' : √ps.sqr = invMass ps := by rw [sqr_eq, invMass]
    refine ⟨hs, by rw [← h1, e'], ?_⟩
    by_contra hc
    rw [if_neg (by rw [e']; exact hc)] at h2
    cases h2
  · simp only [if_neg hs] at h1 h2
    rw [if_neg (by linarith)] at h2
    cases h2

theorem massDir_iff {thr : ℝ} {ps pin : V4} (ht : 0 ≤ thr) :
    (∃ m e, massDir thr ps pin = (m, some e)) ↔ 0 < ps.sqr ∧ thr < invMass ps := by
  constructor
  · rintro ⟨m, e, h⟩
    obtain ⟨h1, -, h3⟩ := massDir_some h ht
    exact ⟨h1, h3⟩
  · rintro ⟨h1, h2⟩
    have e' : √ps.sqr = invMass ps := by rw [sqr_eq, invMass]
    exact ⟨_, _, by unfold massDir; simp only [if_pos h1, e', if_pos h2]; rfl⟩

theorem twoStrings_true {frag : Nat → ℝ → V3 → List V4} {thr : ℝ × ℝ} {pin ps : V4 × V4} {l : List V4} (h : twoStrings frag thr pin ps = (true, l)) :
    ∃ m0 e0 m1 e1, massDir thr.1 ps.1 pin.1 = (m0, some e0) ∧ massDir thr.2 ps.2 pin.2 = (m1, some e1) ∧ frag 0 m0 e0 ≠ [] ∧ frag 1 m1 e1 ≠ [] ∧
      l = toCom ps.1 m0 (frag 0 m0 e0) ++ toCom ps.2 m1 (frag 1 m1 e1) := by
  unfold twoStrings at h
  rcases h0 : massDir thr.1 ps.1 pin.1 with ⟨m0, _ | e0⟩ <;> rcases h1 : massDir thr.2 ps.2 pin.2 with ⟨m1, _ | e1⟩ <;>
    simp only [h0, h1] at h
  · cases h
  · cases h
  · cases h
  · rcases f0 : frag 0 m0 e0 with _ | ⟨f, fs⟩ <;> rw [f0] at h <;> simp only at h
    · cases h
    · rcases f1 : frag 1 m1 e1 with _ | ⟨g, gs⟩ <;> rw [f1] at h <;> simp only at h
      · cases h
      · cases h
        exact ⟨m0, e0, m1, e1, rfl, rfl, by rw [f0]; simp, by rw [f1]; simp, by rw [f0, f1]⟩

/-- The invariant mass of a string from its light-cone momenta. -/
theorem string_sqr {b : V3 × V3 × V3} (hb : Orthonormal b) (pp pn qx qy : ℝ) :
    (stringMomentum b pp pn qx qy).sqr = 2 * pp * pn - qx ^ 2 - qy ^ 2 := by
  obtain ⟨n0, n1, n2, o01, o02, o12, -⟩ := hb
  obtain ⟨e0, e1, e2⟩ := b
  have hh := half
  unfold stringMomentum
  rw [sqr_eq]
  simp only [V4.mk', V3.add, V3.smul, V3.dot] at *
  generalize √(1 / 2 : ℝ) = r at hh
  linear_combination (4 * pp * pn) * hh - ((pp - pn) * r) ^ 2 * n0 - qx ^ 2 * n1 - qy ^ 2 * n2 - 2 * (pp - pn) * r * qx * o01 -
    2 * (pp - pn) * r * qy * o02 - 2 * qx * qy * o12

theorem string_future {b : V3 × V3 × V3} (hb : Orthonormal b) {pp pn qx qy : ℝ} (h : 0 ≤ pp ∨ 0 ≤ pn)
    (hs : 0 < (stringMomentum b pp pn qx qy).sqr) : Future (stringMomentum b pp pn qx qy) := by
  have h1 := string_sqr hb pp pn qx qy
  have hpos : 0 < pp * pn := by nlinarith [sq_nonneg qx, sq_nonneg qy]
  have hsum : 0 < pp + pn := by
    rcases h with h | h
    · have : 0 < pp := lt_of_le_of_ne h (by rintro rfl; simp at hpos)
      have := (pos_iff_pos_of_mul_pos hpos).1 this
      linarith
    · have : 0 < pn := lt_of_le_of_ne h (by rintro rfl; simp at hpos)
      have := (pos_iff_pos_of_mul_pos hpos).2 this
      linarith
  constructor
  · have : (stringMomentum b pp pn qx qy).t = (pp + pn) * √(1 / 2) := rfl
    rw [this]
    exact mul_pos hsum (Real.sqrt_pos.2 (by norm_num))
  · rw [sqr_eq] at hs
    linarith

/-- Specification: the two incoming particles in their centre-of-mass frame, both with a mass. -/
structure Incoming (ea eb : ℝ) (p : V3) : Prop where
  a : 0 < ea ∧ p.dot p < ea ^ 2
  b : 0 < eb ∧ p.dot p < eb ^ 2

theorem dot_le {e p : V3} (h : e.dot e = 1) : (e.dot p) ^ 2 ≤ p.dot p := by
  have h1 : (e.dot e) * (p.dot p) - (e.dot p) ^ 2 = (e.x * p.y - e.y * p.x) ^ 2 + (e.x * p.z - e.z * p.x) ^ 2 + (e.y * p.z - e.z * p.y) ^ 2 := by
    unfold V3.dot; ring
  rw [h] at h1
  nlinarith [sq_nonneg (e.x * p.y - e.y * p.x), sq_nonneg (e.x * p.z - e.z * p.x), sq_nonneg (e.y * p.z - e.z * p.y)]

theorem lightcone_pos {e p : V3} (h : e.dot e = 1) {ea : ℝ} (ha : 0 < ea ∧ p.dot p < ea ^ 2) :
    0 < pPos e (V4.mk' ea p) ∧ 0 < pNeg e (V4.mk' ea p) := by
  have h1 := dot_le (p := p) h
  have hr : (0 : ℝ) < √(1 / 2) := Real.sqrt_pos.2 (by norm_num)
  have h2 : |e.dot p| < ea := abs_lt_of_sq_lt_sq (lt_of_le_of_lt h1 ha.2) ha.1.le
  rw [abs_lt] at h2
  have hv : (V4.mk' ea p).vec = p := rfl
  unfold pPos pNeg
  rw [hv]
  constructor
  · exact mul_pos (by show 0 < ea + e.dot p; linarith) hr
  · exact mul_pos (by show 0 < ea - e.dot p; linarith) hr

theorem neg_dot_neg (p : V3) : p.neg.dot p.neg = p.dot p := by unfold V3.neg V3.dot; simp

/-- Strings with a real mass have positive energy. -/
theorem strings_future {b : V3 × V3 × V3} (hb : Orthonormal b) {ea eb : ℝ} {p : V3} (hi : Incoming ea eb p) {xa xb : ℝ} (qx qy : ℝ)
    (ha : 0 < xa ∧ xa ≤ 1) (hB : 0 < xb ∧ xb ≤ 1) :
    let d := doubleDiffractive b (V4.mk' ea p) (V4.mk' eb p.neg) xa xb qx qy
    let n := nonDiffractive b (V4.mk' ea p) (V4.mk' eb p.neg) xa xb qx qy
    (0 < d.1.sqr → Future d.1) ∧ (0 < d.2.sqr → Future d.2) ∧ (0 < n.1.sqr → Future n.1) ∧ (0 < n.2.sqr → Future n.2) := by
  intro d n
  obtain ⟨a1, a2⟩ := lightcone_pos hb.n0 hi.a
  obtain ⟨b1, b2⟩ := lightcone_pos (p := p.neg) hb.n0 (ea := eb) (by rw [neg_dot_neg]; exact hi.b)
  have hq : 0 ≤ √(qx * qx + qy * qy) * √(qx * qx + qy * qy) := mul_self_nonneg _
  have q1 : 0 ≤ √(qx * qx + qy * qy) * √(qx * qx + qy * qy) / (2 * xa * pPos b.1 (V4.mk' ea p)) :=
    div_nonneg hq (mul_pos (mul_pos two_pos ha.1) a1).le
  have q2 : -√(qx * qx + qy * qy) * √(qx * qx + qy * qy) / (2 * xb * pNeg b.1 (V4.mk' eb p.neg)) ≤ 0 :=
    div_nonpos_of_nonpos_of_nonneg (by linarith) (mul_pos (mul_pos two_pos hB.1) b2).le
  refine ⟨string_future hb (.inr ?_), string_future hb (.inl ?_), string_future hb (.inl ?_), string_future hb (.inr ?_)⟩
  · linarith
  · linarith
  · nlinarith [mul_nonneg (sub_nonneg.2 ha.2) a1.le]
  · nlinarith [mul_nonneg (sub_nonneg.2 hB.2) b2.le]

theorem success_sum {frag : Nat → ℝ → V3 → List V4} (hc : Conserves frag) {thr : ℝ × ℝ} (ht : 0 ≤ thr.1 ∧ 0 ≤ thr.2) {pin ps : V4 × V4}
    (h0 : 0 < ps.1.sqr → Future ps.1) (h1 : 0 < ps.2.sqr → Future ps.2) {l : List V4} (h : twoStrings frag thr pin ps = (true, l)) :
    sum4 l = ps.1.add ps.2 := by
  obtain ⟨m0, e0, m1, e1, g0, g1, f0, f1, rfl⟩ := twoStrings_true h
  obtain ⟨s0, rfl, -⟩ := massDir_some g0 ht.1
  obtain ⟨s1, rfl, -⟩ := massDir_some g1 ht.2
  rw [sum4_append, sum_toCom (h0 s0) (hc _ _ _ f0), sum_toCom (h1 s1) (hc _ _ _ f1)]

/-- **C178 (momentum).** In double-diffractive and soft non-diffractive processes that succeed, the particles of the final state together have the
energy and momentum of the two incoming particles in their centre-of-mass frame, for all fractions and transverse momenta drawn, if the
fragmentation of each string conserves energy and momentum. -/
theorem C178_momentum {frag : Nat → ℝ → V3 → List V4} (hc : Conserves frag) {thr : ℝ × ℝ} (ht : 0 ≤ thr.1 ∧ 0 ≤ thr.2)
    {b : V3 × V3 × V3} (hb : Orthonormal b) {ea eb : ℝ} {p : V3} (hi : Incoming ea eb p) {xa xb : ℝ} (qx qy : ℝ)
    (ha : 0 < xa ∧ xa ≤ 1) (hB : 0 < xb ∧ xb ≤ 1) {l : List V4}
    (h : twoStrings frag thr (V4.mk' ea p, V4.mk' eb p.neg) (doubleDiffractive b (V4.mk' ea p) (V4.mk' eb p.neg) xa xb qx qy) = (true, l) ∨
      twoStrings frag thr (V4.mk' ea p, V4.mk' eb p.neg) (nonDiffractive b (V4.mk' ea p) (V4.mk' eb p.neg) xa xb qx qy) = (true, l)) :
    sum4 l = ⟨ea + eb, 0, 0, 0⟩ := by
  obtain ⟨d1, d2, n1, n2⟩ := strings_future hb hi qx qy ha hB
  obtain ⟨t1, t2⟩ := C89_two_strings b ea eb p xa xb qx qy
  rcases h with h | h
  · rw [success_sum hc ht d1 d2 h, t1]
  · rw [success_sum hc ht n1 n2 h, t2]

/-- **C178 (single diffraction).** In single-diffractive processes that succeed the final state has the energy of the incoming particles and no
momentum in their centre-of-mass frame, and the last particle is the unexcited hadron on its mass shell, for every mass of the string
between its threshold and what the energy allows. -/
theorem C178_single {frag : Nat → ℝ → V3 → List V4} (hc : Conserves frag) {b : V3 × V3 × V3} (hb : Orthonormal b)
    {sqrts massH minX massX : ℝ} (h0 : 0 < sqrts) (hH : 0 ≤ massH) (hX : 0 < massX ∧ minX ≤ massX ∧ massX ≤ sqrts - massH) (qx qy : ℝ) {sign : ℝ}
    (hsign : sign = 1 ∨ sign = -1) {pin : V4} {l : List V4} (h : singleString frag b sqrts massH minX massX qx qy sign pin = (true, l)) :
    sum4 l = ⟨sqrts, 0, 0, 0⟩ ∧ ∃ f p, f ≠ [] ∧ l = f ++ [p] ∧ minkowski p p = massH ^ 2 := by
  obtain ⟨k1, k2⟩ := C89_single hb hH hX.1.le h0 (by linarith [hX.2.2] : massH + massX ≤ sqrts) qx qy hsign
  unfold singleString at h
  rw [if_neg (by linarith [hX.2.1, hX.2.2])] at h
  by_cases hp : pCM sqrts massH massX ^ 2 > qx ^ 2 + qy ^ 2
  · obtain ⟨q, x, e, m1, m2, hs, -⟩ := k1 hp
    have hxt : 0 ≤ x.t := by
      unfold singleDiffractive at e
      simp only at e
      split_ifs at e
      cases e
      exact Real.sqrt_nonneg _
    have hf : Future x := by
      unfold minkowski at m2
      have hm : 0 < massX ^ 2 := by have := hX.1; positivity
      refine ⟨lt_of_le_of_ne hxt fun ht => ?_, by nlinarith⟩
      rw [← ht] at m2
      nlinarith [mul_self_nonneg x.x, mul_self_nonneg x.y, mul_self_nonneg x.z]
    have hinv : invMass x = massX := by
      unfold invMass
      rw [show x.t ^ 2 - x.x ^ 2 - x.y ^ 2 - x.z ^ 2 = massX ^ 2 by unfold minkowski at m2; linarith]
      exact Real.sqrt_sq hX.1.le
    rw [e] at h
    simp only at h
    generalize V3.div _ _ = d at h
    rcases hfr : frag 0 massX d with _ | ⟨f, fs⟩ <;> rw [hfr] at h <;> simp only at h
    · cases h
    · cases h
      have hsum := sum_toCom hf (l := f :: fs) (by rw [hinv, ← hfr]; exact hc _ _ _ (by rw [hfr]; simp))
      rw [hinv] at hsum
      refine ⟨?_, _, q, ?_, rfl, m1⟩
      · rw [sum4_append, hsum, ← hs]
        simp only [sum4, List.foldr, V4.add]
        ext <;> simp only <;> ring
      · simp [toCom]
  · rw [k2 hp] at h
    cases h

/-- **C178 (acceptance).** The attempt succeeds exactly if both strings have a mass above their thresholds and both fragment; then the fragments of
both strings, and nothing else, are in the final state. -/
theorem C178_accepted {frag : Nat → ℝ → V3 → List V4} {thr : ℝ × ℝ} (ht : 0 ≤ thr.1 ∧ 0 ≤ thr.2) {pin ps : V4 × V4} :
    ((twoStrings frag thr pin ps).1 = true ↔ (0 < ps.1.sqr ∧ thr.1 < invMass ps.1) ∧ (0 < ps.2.sqr ∧ thr.2 < invMass ps.2) ∧
      ∃ e0 e1, massDir thr.1 ps.1 pin.1 = (invMass ps.1, some e0) ∧ massDir thr.2 ps.2 pin.2 = (invMass ps.2, some e1) ∧
        frag 0 (invMass ps.1) e0 ≠ [] ∧ frag 1 (invMass ps.2) e1 ≠ []) ∧
    ((twoStrings frag thr pin ps).1 = true → ∃ e0 e1,
      massDir thr.1 ps.1 pin.1 = (invMass ps.1, some e0) ∧ massDir thr.2 ps.2 pin.2 = (invMass ps.2, some e1) ∧
      (twoStrings frag thr pin ps).2.length = (frag 0 (invMass ps.1) e0).length + (frag 1 (invMass ps.2) e1).length) := by
  refine ⟨⟨fun h => ?_, fun ⟨_, _, e0, e1, g0, g1, f0, f1⟩ => ?_⟩, fun h => ?_⟩
  · obtain ⟨m0, e0, m1, e1, g0, g1, f0, f1, -⟩ := twoStrings_true (l := (twoStrings frag thr pin ps).2) (by rw [← h])
    obtain ⟨s0, rfl, k0⟩ := massDir_some g0 ht.1
    obtain ⟨s1, rfl, k1⟩ := massDir_some g1 ht.2
    exact ⟨⟨s0, k0⟩, ⟨s1, k1⟩, e0, e1, g0, g1, f0, f1⟩
  · unfold twoStrings
    rw [g0, g1]
    simp only
    rcases q0 : frag 0 (invMass ps.1) e0 with _ | ⟨f, fs⟩
    · exact absurd q0 f0
    · rcases q1 : frag 1 (invMass ps.2) e1 with _ | ⟨g, gs⟩
      · exact absurd q1 f1
      · rfl
  · obtain ⟨m0, e0, m1, e1, g0, g1, f0, f1, hl⟩ := twoStrings_true (l := (twoStrings frag thr pin ps).2) (by rw [← h])
    obtain ⟨s0, rfl, k0⟩ := massDir_some g0 ht.1
    obtain ⟨s1, rfl, k1⟩ := massDir_some g1 ht.2
    exact ⟨e0, e1, g0, g1, by rw [hl]; simp [toCom]⟩

/-- **C178 (direction).** The direction handed to the fragmentation is a unit vector, for every string inside the future light cone and every
incoming particle that moves: it is the direction that a massless particle moving along with the incoming particle has in the rest frame of the
string. -/
theorem C178_direction {thr m : ℝ} {ps pin : V4} {e : V3} (hf : Future ps) (hp : pin.vec ≠ ⟨0, 0, 0⟩) (h : massDir thr ps pin = (m, some e)) :
    e.dot e = 1 ∧ ∃ c > 0, boost ⟨√(pin.x ^ 2 + pin.y ^ 2 + pin.z ^ 2), pin.x, pin.y, pin.z⟩ ps.velocity =
      ⟨(boost ⟨√(pin.x ^ 2 + pin.y ^ 2 + pin.z ^ 2), pin.x, pin.y, pin.z⟩ ps.velocity).t, c * e.x, c * e.y, c * e.z⟩ := by
  obtain ⟨hsub, -⟩ := C29_rest ps hf.1 hf.2
  have hnull : V4.mk' pin.vec.abs pin.vec = ⟨√(pin.x ^ 2 + pin.y ^ 2 + pin.z ^ 2), pin.x, pin.y, pin.z⟩ := by
    unfold V4.mk' V3.abs V3.dot V4.vec
    simp only
    congr 2
    ring
  set u : V4 := ⟨√(pin.x ^ 2 + pin.y ^ 2 + pin.z ^ 2), pin.x, pin.y, pin.z⟩ with hu
  have hiso := C29_isometry u u ps.velocity hsub
  have hzero : minkowski u u = 0 := by
    have := Real.mul_self_sqrt (show 0 ≤ pin.x ^ 2 + pin.y ^ 2 + pin.z ^ 2 by positivity)
    unfold minkowski
    rw [hu]
    simp only
    linarith
  have hpos : 0 < (boost u ps.velocity).vec.dot (boost u ps.velocity).vec := by
    have hnn : 0 ≤ (boost u ps.velocity).vec.dot (boost u ps.velocity).vec := by
      unfold V3.dot; nlinarith [mul_self_nonneg (boost u ps.velocity).vec.x, mul_self_nonneg (boost u ps.velocity).vec.y, mul_self_nonneg (boost u ps.velocity).vec.z]
    refine lt_of_le_of_ne hnn fun h0 => hp ?_
    have hb := C29_inverse u ps.velocity hsub
    rw [hzero] at hiso
    generalize boost u ps.velocity = w at h0 hiso hb
    unfold V3.dot V4.vec at h0
    unfold minkowski at hiso
    simp only at h0
    have hx : w.x = 0 := by nlinarith [mul_self_nonneg w.x, mul_self_nonneg w.y, mul_self_nonneg w.z]
    have hy : w.y = 0 := by nlinarith [mul_self_nonneg w.x, mul_self_nonneg w.y, mul_self_nonneg w.z]
    have hz : w.z = 0 := by nlinarith [mul_self_nonneg w.x, mul_self_nonneg w.y, mul_self_nonneg w.z]
    have hw : w.t = 0 := by
      rw [hx, hy, hz] at hiso
      have : w.t * w.t = 0 := by linarith
      exact mul_self_eq_zero.1 this
    have hw0 : w = ⟨0, 0, 0, 0⟩ := by ext <;> assumption
    rw [hw0, boost_zero] at hb
    have hx' := congrArg V4.x hb
    have hy' := congrArg V4.y hb
    have hz' := congrArg V4.z hb
    rw [hu] at hx' hy' hz'
    unfold V4.vec
    ext
    · exact hx'.symm
    · exact hy'.symm
    · exact hz'.symm
  unfold massDir at h
  simp only [Prod.mk.injEq, hnull] at h
  have he : e = (boost u ps.velocity).vec.div (boost u ps.velocity).vec.abs := by
    by_cases hc : (if ps.sqr > 0 then √ps.sqr else 0) > thr
    · rw [if_pos hc] at h
      exact (Option.some.inj h.2).symm
    · rw [if_neg hc] at h
      cases h.2
  generalize boost u ps.velocity = w at hpos he
  have habs : 0 < w.vec.abs := Real.sqrt_pos.2 hpos
  have hsq : w.vec.abs * w.vec.abs = w.vec.dot w.vec := Real.mul_self_sqrt hpos.le
  refine ⟨?_, w.vec.abs, habs, ?_⟩
  · rw [he]
    have : (w.vec.div w.vec.abs).dot (w.vec.div w.vec.abs) = w.vec.dot w.vec / (w.vec.abs * w.vec.abs) := by
      unfold V3.div V3.smul V3.dot
      simp only
      field_simp
    rw [this, hsq, div_self hpos.ne']
  · rw [he]
    unfold V3.div V3.smul
    generalize w.vec.abs = a at habs ⊢
    ext <;> simp only [V4.vec] <;> field_simp

section Examples

/-- The second attempt succeeds. -/
example : stringExcitation (fun _ n => if n = 1 then (true, [7]) else (false, [3])) .nonDiffractive 1 1 [1, 2] = (.nonDiffractive, [7]) := rfl

/-- A fragmentation into two equal parts conserves energy and momentum. -/
example : Conserves fun _ m _ => [⟨m / 2, 0, 0, 0⟩, ⟨m / 2, 0, 0, 0⟩] := by
  intro i m e _
  simp [sum4, V4.add]

/-- Two protons at an energy of 10 GeV. -/
example : Incoming 5 5 ⟨0, 0, 24 / 5⟩ := by constructor <;> norm_num [V3.dot]

end Examples

end Verif.Soft
