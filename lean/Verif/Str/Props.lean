import Verif.Str.Model
import Verif.Frag.MomProps
import Mathlib.Algebra.BigOperators.Group.List.Basic
/-
C168: the hadrons that a baryonic string emits before PYTHIA fragments the rest.
-/
namespace Verif.Str
open Verif.Kin Verif.Frag Real

/-- The four-momentum of a string in its frame: light-cone momenta along the axis, transverse momenta of both ends. -/
noncomputable def Str.mom (b : V3 × V3 × V3) (s : Str) : V4 :=
  stringMomentum b s.pp s.pn (s.qxPos + s.qxNeg) (s.qyPos + s.qyNeg)

/-- On the mass shell, with positive energy. -/
def OnShell (h : Had) : Prop := minkowski h.mom h.mom = h.mass ^ 2 ∧ 0 < h.mom.t

/-- Selected masses are positive and the numbers of the Lund function are in `(0, 1]`. -/
structure Valid (r : Rnd) : Prop where
  mass1 : 0 < r.mass1
  mass2 : 0 < r.mass2
  z : ∀ d ∈ r.z, 0 < d.1 ∧ d.1 ≤ 1

/-- The contract of PYTHIA: a hadron made of two flavours has the sum of both, in a group of flavours; `fl`: flavour of
a string end, `hf`: flavour of a hadron. -/
structure Contract {A : Type*} [AddCommGroup A] (fl hf : Int → A) (r : Rnd) : Prop where
  first : ∀ p ∈ r.picks, ∀ a b, p.2 a b ≠ 0 → hf (p.2 a b) = fl a + fl b
  second : ∀ c ∈ r.second, ∀ a b, c a b ≠ 0 → hf (c a b) = fl a + fl b

theorem mom_add (b : V3 × V3 × V3) (p n x y p' n' x' y' : ℝ) :
    (stringMomentum b p n x y).add (stringMomentum b p' n' x' y') = stringMomentum b (p + p') (n + n') (x + x') (y + y') := by
  unfold stringMomentum V4.add V4.mk' V3.add V3.smul
  ext <;> simp only <;> ring

theorem half' : √(1 / 2 : ℝ) * √(1 / 2 : ℝ) = 1 / 2 := Real.mul_self_sqrt (by norm_num)

theorem mom_sqr {b : V3 × V3 × V3} (hb : Orthonormal b) (p n x y : ℝ) :
    minkowski (stringMomentum b p n x y) (stringMomentum b p n x y) = 2 * p * n - x ^ 2 - y ^ 2 := by
  obtain ⟨n0, n1, n2, o01, o02, o12, -⟩ := hb
  obtain ⟨e0, e1, e2⟩ := b
  have hh := half'
  unfold stringMomentum minkowski
  simp only [V4.mk', V3.add, V3.smul, V3.dot] at *
  generalize √(1 / 2 : ℝ) = r at hh
  linear_combination (-(p - n) ^ 2 * r * r) * n0 - x ^ 2 * n1 - y ^ 2 * n2 - 2 * (p - n) * r * x * o01 - 2 * (p - n) * r * y * o02 -
    2 * x * y * o12 + 4 * p * n * hh

theorem mT_sq (m x y : ℝ) : mT m x y ^ 2 = m ^ 2 + x ^ 2 + y ^ 2 := by
  unfold mT
  have h1 : 0 ≤ x * x + y * y := add_nonneg (mul_self_nonneg _) (mul_self_nonneg _)
  rw [Real.mul_self_sqrt h1, Real.sq_sqrt (add_nonneg (mul_self_nonneg _) h1)]
  ring

theorem mT_pos {m : ℝ} (h : 0 < m) (x y : ℝ) : 0 < mT m x y := by
  have h1 : 0 ≤ mT m x y := Real.sqrt_nonneg _
  have h2 := mT_sq m x y
  rcases h1.lt_or_eq with h' | h'
  · exact h'
  · rw [← h'] at h2; nlinarith [sq_nonneg x, sq_nonneg y]

theorem shell {b : V3 × V3 × V3} (hb : Orthonormal b) {id : Int} {p n m x y : ℝ} (hp : 0 < p) (hn : 0 < n)
    (h : 2 * p * n = mT m x y ^ 2) : OnShell ⟨id, stringMomentum b p n x y, m⟩ := by
  constructor
  · rw [mom_sqr hb, h, mT_sq]; ring
  · have : 0 < √(1 / 2 : ℝ) := Real.sqrt_pos.2 (by norm_num)
    exact mul_pos (add_pos hp hn) this

theorem fraction_range {a b m : ℝ} (hb : 0 < b) (hm : m ≠ 0) : ∀ (l : List (ℝ × ℝ)) (x : ℝ), (∀ d ∈ l, 0 < d.1 ∧ d.1 ≤ 1) →
    fraction a b m l = some x → 0 < x ∧ x ≤ 1
  | [], _, _, h => by cases h
  | (u, w) :: rest, x, hl, h => by
    unfold fraction at h
    rcases hz : zLund a b m u w with _ | y
    · rw [hz] at h
      exact fraction_range hb hm rest x (fun d hd => hl d (List.mem_cons_of_mem _ hd)) h
    · rw [hz] at h
      obtain rfl : y = x := Option.some.inj h
      exact C89_fraction hb hm (hl _ List.mem_cons_self) hz

theorem firstHadron_mem {old : Int} {l : List (Int × (Int → Int → Int))} {new h : Int} (e : firstHadron old l = some (new, h)) :
    ∃ p ∈ l, p.1 = new ∧ p.2 old new = h ∧ h ≠ 0 := by
  unfold firstHadron at e
  obtain ⟨p, hp, hf⟩ := List.exists_of_findSome?_eq_some e
  split at hf
  · rename_i hne
    simp only [Option.some.injEq, Prod.mk.injEq] at hf
    obtain ⟨h1, h2⟩ := hf
    refine ⟨p, List.mem_of_mem_take hp, h1, by rw [← h1]; exact h2, by rw [← h2]; exact hne⟩
  · cases hf

theorem secondHadron_mem {o n : Int} {l : List (Int → Int → Int)} {h : Int} (e : secondHadron o n l = some h) :
    ∃ c ∈ l, c o n = h ∧ h ≠ 0 := by
  unfold secondHadron at e
  obtain ⟨p, hp, hf⟩ := List.exists_of_findSome?_eq_some e
  split at hf
  · rename_i hne
    simp only [Option.some.injEq] at hf
    exact ⟨p, List.mem_of_mem_take hp, hf, by rw [← hf]; exact hne⟩
  · cases hf

/-- The last two hadrons in the light-cone momenta that are left. -/
theorem two_ok {pp pn mf mb : ℝ} (hp : 0 ≤ pp) (hn : 0 ≤ pn) (hf : 0 < mf) (hb : 0 < mb) {flip : Bool} {pf pb nf nb : ℝ}
    (e : finalTwo pp pn mf mb flip = some (pf, pb, nf, nb)) :
    pf + pb = pp ∧ nf + nb = pn ∧ 2 * pf * nf = mf ^ 2 ∧ 2 * pb * nb = mb ^ 2 ∧ 0 < pf ∧ 0 < pb ∧ 0 < nf ∧ 0 < nb := by
  rcases hp.lt_or_eq with hp' | rfl
  · rcases hn.lt_or_eq with hn' | rfl
    · obtain ⟨h1, h2⟩ := C89_final_two hp' hn' hf hb flip
      by_cases h : √(2 * pp * pn) > mf + mb
      · obtain ⟨a, b, c, d, e', r⟩ := h1 h
        rw [e'] at e
        simp only [Option.some.injEq, Prod.mk.injEq] at e
        obtain ⟨rfl, rfl, rfl, rfl⟩ := e
        exact r
      · rw [h2 h] at e; cases e
    · exfalso
      unfold finalTwo at e
      simp only [mul_zero, lt_irrefl, if_false, Real.sqrt_zero, if_pos (add_pos hf hb)] at e
      cases e
  · exfalso
    unfold finalTwo at e
    simp only [mul_zero, zero_mul, lt_irrefl, if_false, Real.sqrt_zero, if_pos (add_pos hf hb)] at e
    cases e

section
variable {P : Pythia} (hP : 0 < P.bLead ∧ 0 < P.bProd) {b : V3 × V3 × V3} (hb : Orthonormal b)
include hP hb

/-- **C168.** A hadron that leaves the string is on its mass shell, and together with the remaining string it has the
four-momentum of the string before; the remaining light-cone momenta are not negative. -/
theorem C168_one {fwd sep : Bool} {s s' : Str} {r : Rnd} (hr : Valid r) {h : Had} (e : off P b fwd sep s r = .ok (.one h s')) :
    h.mom.add (s'.mom b) = s.mom b ∧ OnShell h ∧ 0 ≤ s'.pp ∧ 0 ≤ s'.pn := by
  unfold off at e
  split at e
  · cases e
  rename_i hneg
  push Not at hneg
  dsimp only at e
  split at e
  · cases e
  split at e
  · cases e
  rename_i new had1 _
  split at e
  · -- two hadrons
    unfold offTwo at e
    dsimp only at e
    split at e
    · cases e
    split at e
    · cases e
    split at e
    · cases e
    split at e
    · cases e
    split at e <;> cases e
  · unfold offOne at e
    dsimp only at e
    generalize hm : mT r.mass1 (if fwd = true then s.qxPos + r.qx else s.qxNeg + r.qx)
      (if fwd = true then s.qyPos + r.qy else s.qyNeg + r.qy) = m1 at e
    have hm0 : 0 < m1 := by rw [← hm]; exact mT_pos hr.mass1 _ _
    split at e
    · cases e
    rename_i x hx
    obtain ⟨x0, x1⟩ := fraction_range (by split_ifs <;> first | exact hP.1 | exact hP.2) hm0.ne' r.z x hr.z hx
    split at e
    · rename_i hf
      split at e
      · cases e
      rename_i hc
      push Not at hc
      simp only [Except.ok.injEq, Out.one.injEq] at e
      obtain ⟨rfl, rfl⟩ := e
      have hp : 0 < x * s.pp := lt_of_le_of_ne (mul_nonneg x0.le hneg.1) (Ne.symm hc.1)
      rw [if_pos hf, if_pos hf] at hm
      refine ⟨?_, ?_, ?_, ?_⟩
      · unfold Str.mom
        rw [mom_add]
        simp only [hf, if_true]
        congr 1 <;> ring
      · refine shell hb hp (by positivity) ?_
        rw [hm]
        have hne := hp.ne'
        generalize x * s.pp = w at hne ⊢
        field_simp
      · dsimp only; nlinarith [hneg.1]
      · dsimp only; linarith [hc.2]
    · rename_i hf
      split at e
      · cases e
      rename_i hc
      push Not at hc
      simp only [Except.ok.injEq, Out.one.injEq] at e
      obtain ⟨rfl, rfl⟩ := e
      have hp : 0 < x * s.pn := lt_of_le_of_ne (mul_nonneg x0.le hneg.2) (Ne.symm hc.1)
      rw [if_neg hf, if_neg hf] at hm
      refine ⟨?_, ?_, ?_, ?_⟩
      · unfold Str.mom
        rw [mom_add]
        simp only [hf, if_false]
        congr 1 <;> ring
      · refine shell hb (by positivity) hp ?_
        rw [hm]
        have hne := hp.ne'
        generalize x * s.pn = w at hne ⊢
        field_simp
      · dsimp only; linarith [hc.2]
      · dsimp only; nlinarith [hneg.2]

omit hP in
/-- **C168.** If the string breaks into two hadrons, both are on their mass shells and together they have its
four-momentum. -/
theorem C168_two {fwd sep : Bool} {s : Str} {r : Rnd} (hr : Valid r) {h1 h2 : Had} (e : off P b fwd sep s r = .ok (.two h1 h2)) :
    h1.mom.add h2.mom = s.mom b ∧ OnShell h1 ∧ OnShell h2 := by
  unfold off at e
  split at e
  · cases e
  rename_i hneg
  push Not at hneg
  dsimp only at e
  split at e
  · cases e
  split at e
  · cases e
  rename_i new had1 _
  split at e
  · unfold offTwo at e
    dsimp only at e
    split at e
    · cases e
    split at e
    · cases e
    split at e
    · cases e
    cases fwd
    · simp only [Bool.false_eq_true, if_false] at e
      split at e
      · cases e
      rename_i pf pb nf nb hft
      obtain ⟨a1, a2, a3, a4, a5, a6, a7, a8⟩ := two_ok hneg.1 hneg.2 (mT_pos hr.mass2 _ _) (mT_pos hr.mass1 _ _) hft
      simp only [Except.ok.injEq, Out.two.injEq] at e
      obtain ⟨rfl, rfl⟩ := e
      refine ⟨?_, shell hb a6 a8 a4, shell hb a5 a7 a3⟩
      unfold Str.mom
      rw [mom_add]
      congr 1 <;> linarith
    · simp only [if_true] at e
      split at e
      · cases e
      rename_i pf pb nf nb hft
      obtain ⟨a1, a2, a3, a4, a5, a6, a7, a8⟩ := two_ok hneg.1 hneg.2 (mT_pos hr.mass1 _ _) (mT_pos hr.mass2 _ _) hft
      simp only [Except.ok.injEq, Out.two.injEq] at e
      obtain ⟨rfl, rfl⟩ := e
      refine ⟨?_, shell hb a5 a7 a3, shell hb a6 a8 a4⟩
      unfold Str.mom
      rw [mom_add]
      congr 1 <;> linarith
  · unfold offOne at e
    dsimp only at e
    split at e
    · cases e
    split at e
    · split at e <;> cases e
    · split at e <;> cases e

end

/-- **C168.** Flavour: what a hadron takes and what is left at the ends is what was at the ends before. -/
theorem C168_flavour {A : Type*} [AddCommGroup A] {fl hf : Int → A} {P : Pythia} (ha : ∀ f, fl (P.anti f) = -fl f)
    {b : V3 × V3 × V3} {fwd sep : Bool} {s : Str} {r : Rnd} (hr : Contract fl hf r) {o : Out} (e : off P b fwd sep s r = .ok o) :
    match o with
    | .fail => True
    | .one h s' => hf h.id + (fl s'.fPos + fl s'.fNeg) = fl s.fPos + fl s.fNeg
    | .two h1 h2 => hf h1.id + hf h2.id = fl s.fPos + fl s.fNeg := by
  unfold off at e
  split at e
  · cases e
  dsimp only at e
  split at e
  · cases e; trivial
  split at e
  · cases e; trivial
  rename_i new had1 hpick
  obtain ⟨p, hp, e1, e2, hne⟩ := firstHadron_mem hpick
  have hfl := hr.first p hp (if fwd = true then s.fPos else s.fNeg) new (by rw [e2]; exact hne)
  rw [e2] at hfl
  split at e
  · unfold offTwo at e
    dsimp only at e
    split at e
    · cases e; trivial
    split at e
    · cases e; trivial
    split at e
    · cases e; trivial
    rename_i had2 hpick2
    obtain ⟨c, hc, e3, hne2⟩ := secondHadron_mem hpick2
    have hfl2 := hr.second c hc _ _ (by rw [e3]; exact hne2)
    rw [e3, ha] at hfl2
    split at e
    · cases e; trivial
    split at e
    · rename_i hf'
      cases e
      rw [if_pos hf'] at hfl hfl2
      dsimp only
      rw [hfl, hfl2]; abel
    · rename_i hf'
      cases e
      rw [if_neg hf'] at hfl hfl2
      dsimp only
      rw [hfl, hfl2]; abel
  · unfold offOne at e
    dsimp only at e
    split at e
    · cases e
    split at e
    · rename_i hf'
      split at e
      · cases e; trivial
      · cases e
        rw [if_pos hf'] at hfl
        dsimp only
        rw [hfl, ha]; abel
    · rename_i hf'
      split at e
      · cases e; trivial
      · cases e
        rw [if_neg hf'] at hfl
        dsimp only
        rw [hfl, ha]; abel

/-! ### All hadrons before PYTHIA -/

theorem v4_add_assoc (a b c : V4) : (a.add b).add c = a.add (b.add c) := by
  unfold V4.add; ext <;> simp only <;> ring

theorem v4_zero_add (a : V4) : V4.add ⟨0, 0, 0, 0⟩ a = a := by
  unfold V4.add; ext <;> simp

theorem v4_add_zero (a : V4) : V4.add a ⟨0, 0, 0, 0⟩ = a := by
  unfold V4.add; ext <;> simp

theorem sum4_append (l m : List V4) : sum4 (l ++ m) = (sum4 l).add (sum4 m) := by
  induction l with
  | nil => exact (v4_zero_add _).symm
  | cons a l ih =>
    have e : sum4 (a :: l ++ m) = a.add (sum4 (l ++ m)) := rfl
    rw [e, ih, ← v4_add_assoc]
    rfl

/-- What is required of the hadrons and the rest, for a total momentum and a total flavour. -/
structure Good {A : Type*} [AddCommGroup A] (P : Pythia) (b : V3 × V3 × V3) (fl hf : Int → A) (total : V4) (flavour : A)
    (p : Prior) : Prop where
  momentum : (sum4 (p.hads.map Had.mom)).add ((p.rest.map (Str.mom b)).getD ⟨0, 0, 0, 0⟩) = total
  shell : ∀ h ∈ p.hads, OnShell h
  flavour : (p.hads.map fun h => hf h.id).sum + (p.rest.map fun s => fl s.fPos + fl s.fNeg).getD 0 = flavour
  rest : ∀ s, p.rest = some s → 0 ≤ s.pp ∧ 0 ≤ s.pn ∧ (P.m0 s.fPos + P.m0 s.fNeg) ^ 2 < minkowski (s.mom b) (s.mom b) ∧
    ∃ h, p.hads.getLast? = some h ∧ P.isBaryon h.id = true
  many : p.rest = none → 2 ≤ p.hads.length

theorem restOk_spec {P : Pythia} (hm : ∀ f, 0 ≤ P.m0 f) {b : V3 × V3 × V3} (hb : Orthonormal b) {s : Str} (h : restOk P s = true) :
    (P.m0 s.fPos + P.m0 s.fNeg) ^ 2 < minkowski (s.mom b) (s.mom b) := by
  unfold restOk at h
  dsimp only at h
  split at h
  · cases h
  · have h' := of_decide_eq_true h
    unfold Str.mom
    rw [mom_sqr hb]
    have h0 : 0 ≤ (s.qxPos + s.qxNeg) * (s.qxPos + s.qxNeg) + (s.qyPos + s.qyNeg) * (s.qyPos + s.qyNeg) :=
      add_nonneg (mul_self_nonneg _) (mul_self_nonneg _)
    rw [Real.mul_self_sqrt h0] at h'
    have h1 : 0 ≤ P.m0 s.fPos + P.m0 s.fNeg := add_nonneg (hm _) (hm _)
    rw [gt_iff_lt, Real.lt_sqrt h1] at h'
    linarith

theorem attempt_good {A : Type*} [AddCommGroup A] {fl hf : Int → A} {P : Pythia} (hP : 0 < P.bLead ∧ 0 < P.bProd)
    (hm : ∀ f, 0 ≤ P.m0 f) (ha : ∀ f, fl (P.anti f) = -fl f) {b : V3 × V3 × V3} (hb : Orthonormal b) (sep : Bool) (total : V4)
    (flavour : A) : ∀ (l : List (Bool × Rnd)) (doneFwd : Bool) (hads : List Had) (s : Str) (p : Prior),
    (∀ d ∈ l, Valid d.2 ∧ Contract fl hf d.2) → (sum4 (hads.map Had.mom)).add (s.mom b) = total → (∀ h ∈ hads, OnShell h) →
    (hads.map fun h => hf h.id).sum + (fl s.fPos + fl s.fNeg) = flavour →
    attempt P b sep doneFwd hads s l = .ok (some p) → Good P b fl hf total flavour p
  | [], _, _, _, _, _, _, _, _, h => by cases h
  | (fwd, r) :: more, doneFwd, hads, s, p, hl, h1, h2, h3, h => by
    obtain ⟨hv, hc⟩ := hl _ List.mem_cons_self
    unfold attempt at h
    rcases ho : off P b fwd (sep && fwd && !doneFwd) s r with e | o
    · rw [ho] at h; cases h
    · rw [ho] at h
      have hfl := C168_flavour ha hc ho
      match o, ho, hfl, h with
      | .fail, ho, hfl, h => cases h
      | .two a c, ho, hfl, h =>
        dsimp only at h hfl
        cases h
        obtain ⟨m1, m2, m3⟩ := C168_two hb hv ho
        constructor
        · rw [List.map_append, sum4_append]
          have e : sum4 (List.map Had.mom [a, c]) = a.mom.add c.mom := by
            change a.mom.add (c.mom.add ⟨0, 0, 0, 0⟩) = _
            rw [v4_add_zero]
          rw [e, m1]
          exact (v4_add_zero _).trans h1
        · intro x hx
          rcases List.mem_append.1 hx with hx | hx
          · exact h2 x hx
          · simp only [List.mem_cons, List.not_mem_nil, or_false] at hx
            rcases hx with rfl | rfl
            · exact m2
            · exact m3
        · simp only [List.map_append, List.map_cons, List.map_nil, List.sum_append, List.sum_cons, List.sum_nil, add_zero,
            Option.map_none, Option.getD_none]
          rw [hfl]; exact h3
        · intro s' hs; cases hs
        · intro _; simp
      | .one a s', ho, hfl, h =>
        dsimp only at h hfl
        obtain ⟨m1, m2, m3, m4⟩ := C168_one hP hb hv ho
        have sm : (sum4 ((hads ++ [a]).map Had.mom)).add (s'.mom b) = total := by
          rw [List.map_append, sum4_append]
          have e : sum4 (List.map Had.mom [a]) = a.mom := v4_add_zero _
          rw [e, v4_add_assoc, m1, h1]
        have sh : ∀ x ∈ hads ++ [a], OnShell x := by
          intro x hx
          rcases List.mem_append.1 hx with hx | hx
          · exact h2 x hx
          · simp only [List.mem_cons, List.not_mem_nil, or_false] at hx
            subst hx; exact m2
        have sf : ((hads ++ [a]).map fun h => hf h.id).sum + (fl s'.fPos + fl s'.fNeg) = flavour := by
          simp only [List.map_append, List.map_cons, List.map_nil, List.sum_append, List.sum_cons, List.sum_nil, add_zero]
          rw [add_assoc, hfl]; exact h3
        split at h
        · rename_i hbar
          split at h
          · rename_i hrest
            cases h
            refine ⟨sm, sh, sf, ?_, fun hn => by cases hn⟩
            rintro _ ⟨⟩
            refine ⟨m3, m4, restOk_spec hm hb hrest, a, by simp, ?_⟩
            simp only [Bool.and_eq_true] at hbar
            exact hbar.2
          · cases h
        · exact attempt_good hP hm ha hb sep total flavour more _ _ s' p (fun d hd => hl d (List.mem_cons_of_mem _ hd)) sm sh sf h

theorem attempts_some {P : Pythia} {b : V3 × V3 × V3} {sep : Bool} {s : Str} : ∀ {ls : List (List (Bool × Rnd))} {p : Prior},
    attempts P b sep s ls = .ok (some p) → ∃ l ∈ ls, attempt P b sep false [] s l = .ok (some p)
  | [], p, h => by cases h
  | l :: ls, p, h => by
    unfold attempts at h
    rcases ha : attempt P b sep false [] s l with e | o
    · rw [ha] at h; cases h
    · rcases o with _ | q
      · rw [ha] at h
        obtain ⟨l', hl, e⟩ := attempts_some h
        exact ⟨l', List.mem_cons_of_mem _ hl, e⟩
      · rw [ha] at h
        cases h
        exact ⟨l, List.mem_cons_self, ha⟩

/-- **C168.** Whatever PYTHIA and the random numbers choose: the hadrons emitted and the remaining string, if there is one,
have together the mass of the string as energy, no momentum, and the flavour of its ends; each hadron is on its mass
shell; a remaining string has enough mass for its ends, and the last hadron before it is a baryon from the diquark
end; otherwise there are at least two hadrons. -/
theorem C168_total {A : Type*} [AddCommGroup A] {fl hf : Int → A} {P : Pythia} (hP : 0 < P.bLead ∧ 0 < P.bProd)
    (hm : ∀ f, 0 ≤ P.m0 f) (ha : ∀ f, fl (P.anti f) = -fl f) {b : V3 × V3 × V3} (hb : Orthonormal b) {sep bpos : Bool}
    {mString : ℝ} {idq1 idq2 : Int} {tries : List (List (Bool × Rnd))}
    (ht : ∀ l ∈ tries, ∀ d ∈ l, Valid d.2 ∧ Contract fl hf d.2) {p : Prior}
    (h : leading P b sep mString bpos idq1 idq2 tries = .ok (some p)) :
    Good P b fl hf ⟨mString, 0, 0, 0⟩ (fl idq1 + fl idq2) p := by
  obtain ⟨l, hl, e⟩ := attempts_some h
  refine attempt_good hP hm ha hb sep _ _ l false [] _ p (ht l (List.mem_of_mem_take hl)) ?_ (by simp) ?_ e
  · refine (v4_zero_add _).trans ?_
    have hh := half'
    unfold Str.mom start stringMomentum V4.mk' V3.add V3.smul
    ext
    · dsimp only; linear_combination 2 * mString * hh
    all_goals (dsimp only; ring)
  · simp only [List.map_nil, List.sum_nil, zero_add, start]
    cases bpos
    · simp
    · simp [add_comm]

end Verif.Str
