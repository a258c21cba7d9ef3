import Verif.Str.Props
/-
C168: the Lund function of the leading baryon, and the ends of the string that is left.
-/
namespace Verif.Str
open Verif.Kin Verif.Frag Real

/-- **C168.** The separate function of the leading baryon acts on nothing else: a call without it does not depend on its
parameters. -/
theorem C168_others (P : Pythia) (a c : ℝ) (b : V3 × V3 × V3) (fwd : Bool) (s : Str) (r : Rnd) :
    off { P with aLead := a, bLead := c } b fwd false s r = off P b fwd false s r := by
  unfold off offTwo offOne stopAt
  simp only [Bool.false_and, Bool.false_eq_true, if_false]

/-- **C168.** If the first hadron of the diquark end is a baryon, its share of p^+ is drawn from the function of the
leading baryon. -/
theorem C168_leading {P : Pythia} {b : V3 × V3 × V3} (hb : Orthonormal b) {s s' : Str} {r : Rnd} {h : Had}
    (hd : P.isDiquark s.fPos = true) (hbar : P.isBaryon h.id = true) (e : off P b true true s r = .ok (.one h s')) :
    ∃ x, fraction P.aLead P.bLead (mT r.mass1 (s.qxPos + r.qx) (s.qyPos + r.qy)) r.z = some x ∧ pPos b.1 h.mom = x * s.pp := by
  unfold off at e
  split at e
  · cases e
  dsimp only at e
  split at e
  · cases e
  split at e
  · cases e
  split at e
  · unfold offTwo at e
    dsimp only at e
    split at e
    · cases e
    split at e
    · cases e
    split at e
    · cases e
    split at e
    · cases e
    split at e <;> cases e
  · unfold offOne at e
    dsimp only at e
    simp only [if_true, Bool.true_and, hd] at e
    split at e
    · cases e
    rename_i x hx
    split at e
    · cases e
    · simp only [Except.ok.injEq, Out.one.injEq] at e
      obtain ⟨rfl, rfl⟩ := e
      dsimp only at hbar
      simp only [hbar, if_true] at hx
      exact ⟨x, hx, (string_components hb _ _ _ _).1⟩

/-- **C168.** The ends of the remaining string: if its transverse mass is at least the sum of those of the ends, they share its
light-cone momenta, are on their mass shells with positive light-cone momenta, and the end with the original (anti)quark
of a baryonic string is behind the other one, in front of it for an antibaryonic string.  Otherwise the code takes the
root of a negative number. -/
theorem C168_ends_partial {pp pn m0 m1 : ℝ} (hp : 0 < pp) (hn : 0 < pn) (h0 : 0 < m0) (h1 : 0 < m1) (bpos : Bool) :
    (m0 + m1 ≤ √(2 * pp * pn) → ∃ p0 p1 n0 n1, ends bpos pp pn m0 m1 = some (p0, p1, n0, n1) ∧ p0 + p1 = pp ∧ n0 + n1 = pn ∧
      2 * p0 * n0 = m0 ^ 2 ∧ 2 * p1 * n1 = m1 ^ 2 ∧ 0 < p0 ∧ 0 < p1 ∧
      (if bpos then p0 * n1 ≤ p1 * n0 else p1 * n0 ≤ p0 * n1)) ∧
    (|m0 - m1| < √(2 * pp * pn) → √(2 * pp * pn) < m0 + m1 → ends bpos pp pn m0 m1 = none) := by
  have hS : 0 < 2 * pp * pn := by positivity
  have hsq : √(2 * pp * pn) * √(2 * pp * pn) = 2 * pp * pn := Real.mul_self_sqrt hS.le
  have disc : ((2 * pp * pn + m0 * m0 - m1 * m1) / (4 * pn)) * ((2 * pp * pn + m0 * m0 - m1 * m1) / (4 * pn)) -
      1 / 2 * m0 * m0 * pp / pn = (2 * pp * pn - (m0 + m1) ^ 2) * (2 * pp * pn - (m0 - m1) ^ 2) / (16 * pn ^ 2) := by
    field_simp
    ring
  have hr := Real.sqrt_nonneg (2 * pp * pn)
  unfold ends
  dsimp only
  rw [hsq, disc]
  constructor
  · intro h
    have k1 : 0 ≤ 2 * pp * pn - (m0 + m1) ^ 2 := by nlinarith
    have k2 : 0 < 2 * pp * pn - (m0 - m1) ^ 2 := by nlinarith [mul_pos h0 h1]
    have k3 : 0 ≤ (2 * pp * pn - (m0 + m1) ^ 2) * (2 * pp * pn - (m0 - m1) ^ 2) / (16 * pn ^ 2) := by positivity
    rw [if_neg (not_lt.2 k3)]
    rw [← disc]
    rw [← disc] at k3
    have hD0 := Real.sqrt_nonneg (((2 * pp * pn + m0 * m0 - m1 * m1) / (4 * pn)) * ((2 * pp * pn + m0 * m0 - m1 * m1) / (4 * pn)) -
      1 / 2 * m0 * m0 * pp / pn)
    have hD := Real.mul_self_sqrt k3
    generalize √(((2 * pp * pn + m0 * m0 - m1 * m1) / (4 * pn)) * ((2 * pp * pn + m0 * m0 - m1 * m1) / (4 * pn)) -
      1 / 2 * m0 * m0 * pp / pn) = D at hD0 hD ⊢
    have hA : 0 < (2 * pp * pn + m0 * m0 - m1 * m1) / (4 * pn) := by
      apply div_pos _ (by positivity)
      nlinarith [mul_pos h0 h1]
    have hB : 0 < pp - (2 * pp * pn + m0 * m0 - m1 * m1) / (4 * pn) := by
      rw [sub_pos, div_lt_iff₀ (by positivity)]
      nlinarith [mul_pos h0 h1]
    have hB2 : (pp - (2 * pp * pn + m0 * m0 - m1 * m1) / (4 * pn)) * (pp - (2 * pp * pn + m0 * m0 - m1 * m1) / (4 * pn)) - D * D =
        1 / 2 * m1 * m1 * pp / pn := by
      rw [hD]; field_simp; ring
    have hA2 : (2 * pp * pn + m0 * m0 - m1 * m1) / (4 * pn) * ((2 * pp * pn + m0 * m0 - m1 * m1) / (4 * pn)) - D * D =
        1 / 2 * m0 * m0 * pp / pn := by
      rw [hD]; ring
    generalize (2 * pp * pn + m0 * m0 - m1 * m1) / (4 * pn) = A at *
    have q0 : 0 < 1 / 2 * m0 * m0 * pp / pn := by positivity
    have q1 : 0 < 1 / 2 * m1 * m1 * pp / pn := by positivity
    have a1 : D < A := by nlinarith
    have b1 : D < pp - A := by nlinarith
    have eM0 : m0 * m0 = 2 * pn / pp * (A * A - D * D) := by rw [hA2]; field_simp
    have eM1 : m1 * m1 = 2 * pn / pp * ((pp - A) * (pp - A) - D * D) := by rw [hB2]; field_simp
    cases bpos
    · have x0 : 0 < A + D := by linarith
      have x1 : 0 < pp - A - D := by linarith
      have n0 : 1 / 2 * m0 * m0 / (A + D) = pn / pp * (A - D) := by
        rw [mul_assoc, eM0]; field_simp; ring
      have n1 : 1 / 2 * m1 * m1 / (pp - (A + D)) = pn / pp * (pp - A + D) := by
        rw [mul_assoc, eM1, show pp - (A + D) = pp - A - D by ring]; field_simp; ring
      refine ⟨A + D, pp - (A + D), 1 / 2 * m0 * m0 / (A + D), 1 / 2 * m1 * m1 / (pp - (A + D)), ?_, by ring, ?_, ?_, ?_, x0, by linarith, ?_⟩
      · simp only [Bool.false_eq_true, if_false, one_mul]
      · rw [n0, n1]; field_simp; ring
      · field_simp
      · rw [show pp - (A + D) = pp - A - D by ring]; field_simp
      · simp only [Bool.false_eq_true, if_false]
        rw [n0, n1]
        have : 0 ≤ pn / pp * D := by positivity
        have e : (A + D) * (pn / pp * (pp - A + D)) - (pp - (A + D)) * (pn / pp * (A - D)) = 2 * pp * (pn / pp * D) := by ring
        nlinarith [mul_nonneg hp.le this]
    · have x0 : 0 < A - D := by linarith
      have x1 : 0 < pp - A + D := by linarith
      have n0 : 1 / 2 * m0 * m0 / (A - D) = pn / pp * (A + D) := by
        rw [mul_assoc, eM0]; field_simp; ring
      have n1 : 1 / 2 * m1 * m1 / (pp - (A - D)) = pn / pp * (pp - A - D) := by
        rw [mul_assoc, eM1, show pp - (A - D) = pp - A + D by ring]; field_simp; ring
      refine ⟨A - D, pp - (A - D), 1 / 2 * m0 * m0 / (A - D), 1 / 2 * m1 * m1 / (pp - (A - D)), ?_, by ring, ?_, ?_, ?_, x0, by linarith, ?_⟩
      · simp only [if_true, neg_one_mul, ← sub_eq_add_neg]
      · rw [n0, n1]; field_simp; ring
      · field_simp
      · rw [show pp - (A - D) = pp - A + D by ring]; field_simp
      · simp only [if_true]
        rw [n0, n1]
        have : 0 ≤ pn / pp * D := by positivity
        have e : (pp - (A - D)) * (pn / pp * (A + D)) - (A - D) * (pn / pp * (pp - A - D)) = 2 * pp * (pn / pp * D) := by ring
        nlinarith [mul_nonneg hp.le this]
  · intro hd hlt
    rw [if_pos]
    have k1 : 2 * pp * pn - (m0 + m1) ^ 2 < 0 := by nlinarith
    have k2 : 0 < 2 * pp * pn - (m0 - m1) ^ 2 := by
      rw [← hsq, ← sq_abs (m0 - m1)]
      nlinarith [abs_nonneg (m0 - m1)]
    exact div_neg_of_neg_of_pos (mul_neg_of_neg_of_pos k1 k2) (by positivity)

/-! ### A string that is left without possible ends -/

/-- Simple settings: all constituents have mass 0.1, every hadron counts as baryon. -/
noncomputable def simple : Pythia :=
  ⟨fun _ => 1 / 10, fun _ => false, fun _ => true, fun f => -f, 0, 0, 0, 1, 0, 1⟩

/-- The choices of a call: hadron of mass 4 with transverse momentum `q`, light-cone fraction `x`. -/
noncomputable def choose (q x : ℝ) : Rnd :=
  ⟨q, 0, [(1, fun _ _ => 1)], 4, 0, [], 4, false, [(Real.exp (-(25 * (1 / x - 1))), 0)]⟩

theorem choose_mT {q : ℝ} (hq : q ^ 2 = 9) : mT 4 (0 + q) (0 + 0) = 5 := by
  have h := mT_sq 4 (0 + q) (0 + 0)
  have h0 := mT_pos (by norm_num : (0 : ℝ) < 4) (0 + q) (0 + 0)
  have : mT 4 (0 + q) (0 + 0) ^ 2 = 5 ^ 2 := by rw [h]; nlinarith
  exact (pow_left_inj₀ h0.le (by norm_num) (by norm_num)).1 this

theorem choose_fraction {x : ℝ} (hx : 0 < x) : fraction 0 1 5 [(Real.exp (-(25 * (1 / x - 1))), 0)] = some x := by
  unfold fraction zLund
  have e : 1 - Real.log (Real.exp (-(25 * (1 / x - 1)))) / (1 * 5 * 5) = 1 / x := by rw [Real.log_exp]; ring
  dsimp only
  rw [e]
  simp only [Real.rpow_zero, one_div_one_div]
  rw [if_pos hx.le]

theorem root2 : 10 * √2 * √(1 / 2) = (10 : ℝ) := by
  rw [mul_assoc, ← Real.sqrt_mul (by norm_num)]
  norm_num

/-- The first call, at the backward end. -/
theorem first_call (b : V3 × V3 × V3) : off simple b false false (start (10 * √2) true 1 2) (choose 3 (1 / 2)) =
    .ok (.one ⟨1, stringMomentum b (5 / 2) 5 3 0, 4⟩ ⟨15 / 2, 5, 0, -3, 0, -0, 2, -1⟩) := by
  have hm := choose_mT (q := 3) (by norm_num)
  have hf := choose_fraction (x := 1 / 2) (by norm_num)
  unfold off start
  rw [root2]
  dsimp only
  rw [if_neg (by norm_num), if_neg (by norm_num)]
  have hfirst : firstHadron (if false = true then (if true = true then (2 : Int) else 1) else if true = true then 1 else 2)
      (choose 3 (1 / 2)).picks = some (1, 1) := by
    simp [firstHadron, choose]
  rw [hfirst]
  dsimp only
  rw [if_neg]
  · unfold offOne
    have e1 : (choose 3 (1 / 2)).mass1 = 4 := rfl
    have e2 : (choose 3 (1 / 2)).qx = 3 := rfl
    have e3 : (choose 3 (1 / 2)).qy = 0 := rfl
    have e4 : (choose 3 (1 / 2)).z = [(Real.exp (-(25 * (1 / (1 / 2) - 1))), 0)] := rfl
    simp only [e1, e2, e3, e4, simple, Bool.false_eq_true, if_false, Bool.false_and, if_true, hm, hf]
    rw [if_neg (by norm_num)]
    norm_num
  · rw [not_lt]
    have : stopAt simple ⟨10, 10, 0, 0, 0, 0, if true = true then 2 else 1, if true = true then 1 else 2⟩ 1 (choose 3 (1 / 2)).smear
        = 3 / 10 := by
      unfold stopAt simple choose; norm_num
    rw [this]
    apply Real.le_sqrt_of_sq_le
    norm_num

/-- The second call, at the forward end. -/
theorem second_call (b : V3 × V3 × V3) (sep : Bool) :
    off simple b true sep ⟨15 / 2, 5, 0, -3, 0, -0, 2, -1⟩ (choose (-3) (4 / 5)) =
    .ok (.one ⟨1, stringMomentum b 6 (25 / 12) (-3) 0, 4⟩ ⟨3 / 2, 35 / 12, 3, -3, -0, -0, -1, -1⟩) := by
  have hm := choose_mT (q := -3) (by norm_num)
  have hf := choose_fraction (x := 4 / 5) (by norm_num)
  unfold off
  dsimp only
  rw [if_neg (by norm_num), if_neg]
  swap
  · rw [not_lt]
    apply Real.sqrt_le_sqrt
    norm_num
  have hfirst : firstHadron (if true = true then (2 : Int) else -1) (choose (-3) (4 / 5)).picks = some (1, 1) := by
    simp [firstHadron, choose]
  rw [hfirst]
  dsimp only
  rw [if_neg]
  · unfold offOne
    have e1 : (choose (-3) (4 / 5)).mass1 = 4 := rfl
    have e2 : (choose (-3) (4 / 5)).qx = -3 := rfl
    have e3 : (choose (-3) (4 / 5)).qy = 0 := rfl
    have e4 : (choose (-3) (4 / 5)).z = [(Real.exp (-(25 * (1 / (4 / 5) - 1))), 0)] := rfl
    simp only [e1, e2, e3, e4, simple, Bool.false_eq_true, if_false, Bool.false_and, Bool.and_false, if_true, hm, hf]
    rw [if_neg (by norm_num)]
    norm_num
  · rw [not_lt]
    have : stopAt simple ⟨15 / 2, 5, 0, -3, 0, -0, 2, -1⟩ 1 (choose (-3) (4 / 5)).smear = 3 / 10 := by
      unfold stopAt simple choose; norm_num
    rw [this]
    apply Real.le_sqrt_of_sq_le
    norm_num

theorem run (b : V3 × V3 × V3) : leading simple b true (10 * √2) true 1 2 [[(false, choose 3 (1 / 2)), (true, choose (-3) (4 / 5))]] =
    .ok (some ⟨[⟨1, stringMomentum b (5 / 2) 5 3 0, 4⟩, ⟨1, stringMomentum b 6 (25 / 12) (-3) 0, 4⟩],
      some ⟨3 / 2, 35 / 12, 3, -3, -0, -0, -1, -1⟩⟩) := by
  have hrest : restOk simple ⟨3 / 2, 35 / 12, 3, -3, -0, -0, -1, -1⟩ = true := by
    unfold restOk simple
    dsimp only
    have e : √((3 + -3) * (3 + -3) + (-0 + -0) * (-0 + -0)) = (0 : ℝ) := by norm_num
    rw [e, if_neg (not_lt.2 (Real.sqrt_nonneg _)), decide_eq_true_iff, gt_iff_lt]
    apply Real.lt_sqrt_of_sq_lt
    norm_num
  have h2 := second_call b (true && true && !(false || false))
  have h1 := first_call b
  unfold leading
  simp only [List.take, attempts]
  unfold attempt
  simp only [Bool.and_false, Bool.false_and]
  rw [h1]
  dsimp only
  rw [if_neg (by simp)]
  unfold attempt
  rw [h2]
  dsimp only
  rw [if_pos (by simp [simple]), if_pos hrest]
  rfl

/-- **C168 fails for the ends.** The check of the remaining string only looks at its total transverse momentum. There is a
run, with on-shell hadrons and a remaining string that passes the check, where the transverse momenta of the two ends
are opposite and too large: the light-cone momenta of the ends are roots of negative numbers. -/
theorem C168_ends_false : ∃ (P : Pythia) (b : V3 × V3 × V3) (mString : ℝ) (tries : List (List (Bool × Rnd))) (p : Prior) (s : Str),
    Orthonormal b ∧ (∀ l ∈ tries, ∀ d ∈ l, Valid d.2) ∧ (∀ f, 0 ≤ P.m0 f) ∧
    leading P b true mString true 1 2 tries = .ok (some p) ∧ p.rest = some s ∧
    ends true s.pp s.pn (mT (P.m0 s.fNeg) s.qxNeg s.qyNeg) (mT (P.m0 s.fPos) s.qxPos s.qyPos) = none := by
  refine ⟨simple, (⟨0, 0, 1⟩, ⟨1, 0, 0⟩, ⟨0, 1, 0⟩), 10 * √2, _, _, _, ?_, ?_, ?_, run _, rfl, ?_⟩
  · constructor <;> simp [V3.dot, V3.cross]
  · have key : ∀ q x : ℝ, 0 < x → x ≤ 1 → Valid (choose q x) := by
      intro q x h0 h1
      refine ⟨by norm_num [choose], by norm_num [choose], ?_⟩
      intro d hd
      simp only [choose, List.mem_cons, List.not_mem_nil, or_false] at hd
      subst hd
      refine ⟨Real.exp_pos _, Real.exp_le_one_iff.2 ?_⟩
      have : 1 ≤ 1 / x := by rw [le_div_iff₀ h0]; linarith
      linarith
    intro l hl d hd
    simp only [List.mem_cons, List.not_mem_nil, or_false] at hl
    subst hl
    simp only [List.mem_cons, List.not_mem_nil, or_false] at hd
    rcases hd with rfl | rfl
    · exact key _ _ (by norm_num) (by norm_num)
    · exact key _ _ (by norm_num) (by norm_num)
  · intro f; norm_num [simple]
  · dsimp only
    have e0 : simple.m0 (-1) = 1 / 10 := rfl
    rw [e0]
    have q0 := mT_sq (1 / 10) (-3) (-0)
    have q1 := mT_sq (1 / 10) 3 (-0)
    have p0 := mT_pos (by norm_num : (0 : ℝ) < 1 / 10) (-3) (-0)
    have p1 := mT_pos (by norm_num : (0 : ℝ) < 1 / 10) 3 (-0)
    have e : mT (1 / 10) (-3) (-0) = mT (1 / 10) 3 (-0) :=
      (pow_left_inj₀ p0.le p1.le (by norm_num : (2 : ℕ) ≠ 0)).1 (by rw [q0, q1]; norm_num)
    rw [e]
    have g : 3 < mT (1 / 10) 3 (-0) := by
      by_contra hc
      push Not at hc
      nlinarith
    refine (C168_ends_partial (pp := 3 / 2) (pn := 35 / 12) (by norm_num) (by norm_num) p1 p1 true).2 ?_ ?_
    · rw [sub_self, abs_zero]
      exact Real.sqrt_pos.2 (by norm_num)
    · have : √(2 * (3 / 2) * (35 / 12)) < (3 : ℝ) := by
        rw [Real.sqrt_lt' (by norm_num)]; norm_num
      linarith

/-- The hypotheses of `C168_total` can be met, with a flavour that counts quarks. -/
example : ∃ (P : Pythia) (b : V3 × V3 × V3) (p : Prior) (tries : List (List (Bool × Rnd))), (0 < P.bLead ∧ 0 < P.bProd) ∧
    Orthonormal b ∧ leading P b true (10 * √2) true 1 2 tries = .ok (some p) ∧ p.hads.length = 2 :=
  ⟨simple, (⟨0, 0, 1⟩, ⟨1, 0, 0⟩, ⟨0, 1, 0⟩), _, _, ⟨by norm_num [simple], by norm_num [simple]⟩,
    by constructor <;> simp [V3.dot, V3.cross], run _, rfl⟩

end Verif.Str
