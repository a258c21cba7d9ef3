import Verif.Ann.Model
import Verif.Pdg.Content
import Mathlib.Tactic.Linarith
import Mathlib.Tactic.NormNum
import Mathlib.Tactic.LinearCombination
/-
C170: annihilation of a baryon and an antibaryon into two strings.
-/
namespace Verif.Ann
open Verif.Pdg

/-- A hadron made of the five flavours. -/
structure Light (d : Nat) : Prop where
  hadron : isHadron d = true
  h1 : nq1 d ≤ 5
  h2 : nq2 d ≤ 5
  h3 : nq3 d ≤ 5

/-- Number of quarks minus number of antiquarks of the flavour `q` at the ends `l`. -/
def netEnds (l : List Int) (q : Int) : Int := (l.map fun x => if x = q then 1 else if x = -q then -1 else 0).sum

theorem Light.digits {d : Nat} (h : Light d) : Digits d :=
  ⟨h.hadron, by have := h.h1; omega, by have := h.h2; omega, by have := h.h3; omega⟩

/-- The quark numbers of a baryon. -/
theorem baryon_counts {d : Nat} (h : Light d) (hb : nq1 d ≠ 0) (q : Nat) (hq : 1 ≤ q ∧ q ≤ 6) :
    netQuark d q = antiparticleSign d * ((if nq1 d = q then 1 else 0) + (if nq2 d = q then 1 else 0) + (if nq3 d = q then 1 else 0)) := by
  rw [netQuark_valence h.digits hq]
  unfold valence netCount
  rw [if_pos hb]
  simp only [List.map_cons, List.map_nil, List.sum_cons, List.sum_nil]
  split_ifs <;> ring

theorem baryon_sum {d : Nat} (h : Light d) (hb : nq1 d ≠ 0) :
    netQuark d 1 + netQuark d 2 + netQuark d 3 + netQuark d 4 + netQuark d 5 = 3 * antiparticleSign d ∧
    ∀ q : Nat, 1 ≤ q ∧ q ≤ 5 → 0 ≤ antiparticleSign d * netQuark d q := by
  have e := fun q hq => baryon_counts h hb q hq
  have e1 := e 1 (by omega)
  have e2 := e 2 (by omega)
  have e3 := e 3 (by omega)
  have e4 := e 4 (by omega)
  have e5 := e 5 (by omega)
  simp only [Nat.cast_ofNat, Nat.cast_one] at e1 e2 e3 e4 e5
  have hp := h.digits.pos
  obtain ⟨-, h1, h2, h3⟩ := h
  constructor
  · have key : ∀ n : Nat, 1 ≤ n → n ≤ 5 → (if n = 1 then 1 else 0) + (if n = 2 then 1 else 0) + (if n = 3 then 1 else 0) + (if n = 4 then 1 else 0) +
        (if n = 5 then (1 : Int) else 0) = 1 := by
      intro n h1 h2
      interval_cases n <;> rfl
    have k1 := key _ (Nat.one_le_iff_ne_zero.2 hb) h1
    have k2 := key _ hp.1 h2
    have k3 := key _ hp.2 h3
    rw [e1, e2, e3, e4, e5]
    linear_combination antiparticleSign d * (k1 + k2 + k3)
  · intro q hq
    rw [e q (by omega), ← mul_assoc]
    have : antiparticleSign d * antiparticleSign d = 1 := by unfold antiparticleSign; split_ifs <;> rfl
    rw [this, one_mul]
    split_ifs <;> norm_num

theorem remaining_five (s c1 c2 c3 c4 c5 : Int) : remaining s [c1, c2, c3, c4, c5] =
    List.replicate c1.toNat (s * 1) ++ (List.replicate c2.toNat (s * 2) ++ (List.replicate c3.toNat (s * 3) ++
    (List.replicate c4.toNat (s * 4) ++ List.replicate c5.toNat (s * 5)))) := by
  simp [remaining, flavours]

theorem remaining_mem {s c1 c2 c3 c4 c5 x : Int} (h : x ∈ remaining s [c1, c2, c3, c4, c5]) : ∃ q : Nat, 1 ≤ q ∧ q ≤ 5 ∧ x = s * q := by
  rw [remaining_five] at h
  simp only [List.mem_append, List.mem_replicate] at h
  rcases h with h | h | h | h | h
  · exact ⟨1, by omega, by omega, h.2⟩
  · exact ⟨2, by omega, by omega, h.2⟩
  · exact ⟨3, by omega, by omega, h.2⟩
  · exact ⟨4, by omega, by omega, h.2⟩
  · exact ⟨5, by omega, by omega, h.2⟩

theorem netEnds_append (l m : List Int) (q : Int) : netEnds (l ++ m) q = netEnds l q + netEnds m q := by
  simp [netEnds]

theorem netEnds_replicate (n : Nat) (x q : Int) : netEnds (List.replicate n x) q = n * (if x = q then 1 else if x = -q then -1 else 0) := by
  simp [netEnds]

theorem remaining_net {s c1 c2 c3 c4 c5 : Int} (hs : s = 1 ∨ s = -1) (h1 : 0 ≤ c1) (h2 : 0 ≤ c2) (h3 : 0 ≤ c3) (h4 : 0 ≤ c4) (h5 : 0 ≤ c5) :
    (remaining s [c1, c2, c3, c4, c5]).length = (c1 + c2 + c3 + c4 + c5).toNat ∧
    netEnds (remaining s [c1, c2, c3, c4, c5]) 1 = s * c1 ∧ netEnds (remaining s [c1, c2, c3, c4, c5]) 2 = s * c2 ∧
    netEnds (remaining s [c1, c2, c3, c4, c5]) 3 = s * c3 ∧ netEnds (remaining s [c1, c2, c3, c4, c5]) 4 = s * c4 ∧
    netEnds (remaining s [c1, c2, c3, c4, c5]) 5 = s * c5 := by
  rw [remaining_five]
  refine ⟨?_, ?_⟩
  · simp only [List.length_append, List.length_replicate]
    omega
  · simp only [netEnds_append, netEnds_replicate, Int.toNat_of_nonneg h1, Int.toNat_of_nonneg h2, Int.toNat_of_nonneg h3,
      Int.toNat_of_nonneg h4, Int.toNat_of_nonneg h5]
    rcases hs with rfl | rfl <;> norm_num

/-- What two strings have to be: quark and antiquark at the ends, half of the energy each and enough for their ends, and together the
net number of each flavour of the incoming pair. -/
structure Strings (m0 : Int → ℝ) (sqrts : ℝ) (a b : Nat) (q1 a1 q2 a2 : Int) (m : ℝ) : Prop where
  quarks : ∀ x ∈ [q1, q2], 1 ≤ x ∧ x ≤ 5
  antiquarks : ∀ x ∈ [a1, a2], -5 ≤ x ∧ x ≤ -1
  energy : m + m = sqrts
  threshold : m0 q1 + m0 a1 ≤ m ∧ m0 q2 + m0 a2 ≤ m
  flavour : ∀ q : Nat, 1 ≤ q → q ≤ 5 → netEnds [q1, a1, q2, a2] q = netQuark a q + netQuark b q

theorem counts_eq (s : Int) (d : Nat) : counts s d = [s * netQuark d 1, s * netQuark d 2, s * netQuark d 3, s * netQuark d 4, s * netQuark d 5] := rfl

/-- The core: a baryon `p` and an antibaryon `r`. -/
theorem core (m0 : Int → ℝ) (sqrts : ℝ) {p r : Nat} (hp : Light p) (hr : Light r) (sp : nq1 p ≠ 0 ∧ antiparticleSign p = 1)
    (sr : nq1 r ≠ 0 ∧ antiparticleSign r = -1) {k : Nat} {n : Int} (hk : (combos (counts 1 p) (counts (-1) r))[k]? = some n) (hn : 0 < n)
    (swapQ swapA : Bool) :
    pairUp m0 sqrts swapQ swapA (remaining 1 (dec (counts 1 p) k)) (remaining (-1) (dec (counts (-1) r) k)) = .ok .refused ∧
      (∃ x y : Int, 1 ≤ x ∧ x ≤ 5 ∧ -5 ≤ y ∧ y ≤ -1 ∧ sqrts < 2 * (m0 x + m0 y)) ∨
    ∃ q1 a1 q2 a2 m, pairUp m0 sqrts swapQ swapA (remaining 1 (dec (counts 1 p) k)) (remaining (-1) (dec (counts (-1) r) k)) =
      .ok (.strings q1 a1 q2 a2 m) ∧ Strings m0 sqrts p r q1 a1 q2 a2 m := by
  obtain ⟨s1, t1⟩ := baryon_sum hp sp.1
  obtain ⟨s2, t2⟩ := baryon_sum hr sr.1
  rw [sp.2] at s1 t1
  rw [sr.2] at s2 t2
  have P := fun q hq => t1 q hq
  have p1 := t1 1 (by omega)
  have p2 := t1 2 (by omega)
  have p3 := t1 3 (by omega)
  have p4 := t1 4 (by omega)
  have p5 := t1 5 (by omega)
  have r1 := t2 1 (by omega)
  have r2 := t2 2 (by omega)
  have r3 := t2 3 (by omega)
  have r4 := t2 4 (by omega)
  have r5 := t2 5 (by omega)
  simp only [Nat.cast_ofNat, Nat.cast_one] at p1 p2 p3 p4 p5 r1 r2 r3 r4 r5
  have gen : ∀ c1 c2 c3 c4 c5 d1 d2 d3 d4 d5 : Int, 0 ≤ c1 → 0 ≤ c2 → 0 ≤ c3 → 0 ≤ c4 → 0 ≤ c5 → 0 ≤ d1 → 0 ≤ d2 → 0 ≤ d3 → 0 ≤ d4 → 0 ≤ d5 →
      c1 + c2 + c3 + c4 + c5 = 2 → d1 + d2 + d3 + d4 + d5 = 2 →
      c1 - d1 = netQuark p 1 + netQuark r 1 → c2 - d2 = netQuark p 2 + netQuark r 2 → c3 - d3 = netQuark p 3 + netQuark r 3 →
      c4 - d4 = netQuark p 4 + netQuark r 4 → c5 - d5 = netQuark p 5 + netQuark r 5 →
      pairUp m0 sqrts swapQ swapA (remaining 1 [c1, c2, c3, c4, c5]) (remaining (-1) [d1, d2, d3, d4, d5]) = .ok .refused ∧
      (∃ x y : Int, 1 ≤ x ∧ x ≤ 5 ∧ -5 ≤ y ∧ y ≤ -1 ∧ sqrts < 2 * (m0 x + m0 y)) ∨
      ∃ q1 a1 q2 a2 m, pairUp m0 sqrts swapQ swapA (remaining 1 [c1, c2, c3, c4, c5]) (remaining (-1) [d1, d2, d3, d4, d5]) =
      .ok (.strings q1 a1 q2 a2 m) ∧ Strings m0 sqrts p r q1 a1 q2 a2 m := by
    intro c1 c2 c3 c4 c5 d1 d2 d3 d4 d5 h1 h2 h3 h4 h5 g1 g2 g3 g4 g5 hc hd f1 f2 f3 f4 f5
    obtain ⟨l1, n1, n2, n3, n4, n5⟩ := remaining_net (.inl rfl) h1 h2 h3 h4 h5
    obtain ⟨l2, o1, o2, o3, o4, o5⟩ := remaining_net (.inr rfl) g1 g2 g3 g4 g5
    have mq := fun x (hx : x ∈ remaining 1 [c1, c2, c3, c4, c5]) => remaining_mem hx
    have ma := fun x (hx : x ∈ remaining (-1) [d1, d2, d3, d4, d5]) => remaining_mem hx
    rw [hc] at l1
    rw [hd] at l2
    generalize remaining 1 [c1, c2, c3, c4, c5] = lq at *
    generalize remaining (-1) [d1, d2, d3, d4, d5] = la at *
    match lq, l1 with
    | [x, y], _ =>
      match la, l2 with
      | [u, v], _ =>
        have bx : 1 ≤ x ∧ x ≤ 5 := by obtain ⟨q, h1, h2, rfl⟩ := mq x (by simp); omega
        have by' : 1 ≤ y ∧ y ≤ 5 := by obtain ⟨q, h1, h2, rfl⟩ := mq y (by simp); omega
        have bu : -5 ≤ u ∧ u ≤ -1 := by obtain ⟨q, h1, h2, rfl⟩ := ma u (by simp); omega
        have bv : -5 ≤ v ∧ v ≤ -1 := by obtain ⟨q, h1, h2, rfl⟩ := ma v (by simp); omega
        have fl : ∀ q : Nat, 1 ≤ q → q ≤ 5 → netEnds [x, y] q + netEnds [u, v] q = netQuark p q + netQuark r q := by
          intro q hq1 hq5
          have : q = 1 ∨ q = 2 ∨ q = 3 ∨ q = 4 ∨ q = 5 := by omega
          rcases this with rfl | rfl | rfl | rfl | rfl <;> simp only [Nat.cast_ofNat, Nat.cast_one]
          · rw [n1, o1]; linarith
          · rw [n2, o2]; linarith
          · rw [n3, o3]; linarith
          · rw [n4, o4]; linarith
          · rw [n5, o5]; linarith
        have fin : ∀ q1 q2 a1 a2 : Int, (∀ z ∈ [q1, q2], 1 ≤ z ∧ z ≤ 5) → (∀ z ∈ [a1, a2], -5 ≤ z ∧ z ≤ -1) →
            (∀ q : Int, netEnds [q1, q2] q = netEnds [x, y] q) → (∀ q : Int, netEnds [a1, a2] q = netEnds [u, v] q) →
            ¬(m0 q1 + m0 a1 > 1 / 2 * sqrts ∨ m0 q2 + m0 a2 > 1 / 2 * sqrts) → Strings m0 sqrts p r q1 a1 q2 a2 (1 / 2 * sqrts) := by
          intro q1 q2 a1 a2 w1 w2 w3 w4 w5
          push Not at w5
          refine ⟨w1, w2, by ring, w5, ?_⟩
          intro q hq1 hq5
          rw [← fl q hq1 hq5, ← w3, ← w4]
          simp only [netEnds, List.map_cons, List.map_nil, List.sum_cons, List.sum_nil]
          ring
        have sw : ∀ (x y q : Int), netEnds [y, x] q = netEnds [x, y] q := by
          intro x y q
          simp only [netEnds, List.map_cons, List.map_nil, List.sum_cons, List.sum_nil]
          ring
        unfold pairUp
        cases swapQ <;> cases swapA <;> simp only [Bool.false_eq_true, if_false, if_true]
        · by_cases hc : m0 x + m0 u > 1 / 2 * sqrts ∨ m0 y + m0 v > 1 / 2 * sqrts
          · rw [if_pos hc]
            refine .inl ⟨rfl, ?_⟩
            rcases hc with h | h
            · exact ⟨x, u, bx.1, bx.2, bu.1, bu.2, by linarith⟩
            · exact ⟨y, v, by'.1, by'.2, bv.1, bv.2, by linarith⟩
          · rw [if_neg hc]
            exact .inr ⟨_, _, _, _, _, rfl, fin _ _ _ _ (by simp [bx, by']) (by simp [bu, bv]) (fun _ => rfl) (fun _ => rfl) hc⟩
        · by_cases hc : m0 x + m0 v > 1 / 2 * sqrts ∨ m0 y + m0 u > 1 / 2 * sqrts
          · rw [if_pos hc]
            refine .inl ⟨rfl, ?_⟩
            rcases hc with h | h
            · exact ⟨x, v, bx.1, bx.2, bv.1, bv.2, by linarith⟩
            · exact ⟨y, u, by'.1, by'.2, bu.1, bu.2, by linarith⟩
          · rw [if_neg hc]
            exact .inr ⟨_, _, _, _, _, rfl, fin _ _ _ _ (by simp [bx, by']) (by simp [bu, bv]) (fun _ => rfl) (sw _ _) hc⟩
        · by_cases hc : m0 y + m0 u > 1 / 2 * sqrts ∨ m0 x + m0 v > 1 / 2 * sqrts
          · rw [if_pos hc]
            refine .inl ⟨rfl, ?_⟩
            rcases hc with h | h
            · exact ⟨y, u, by'.1, by'.2, bu.1, bu.2, by linarith⟩
            · exact ⟨x, v, bx.1, bx.2, bv.1, bv.2, by linarith⟩
          · rw [if_neg hc]
            exact .inr ⟨_, _, _, _, _, rfl, fin _ _ _ _ (by simp [bx, by']) (by simp [bu, bv]) (sw _ _) (fun _ => rfl) hc⟩
        · by_cases hc : m0 y + m0 v > 1 / 2 * sqrts ∨ m0 x + m0 u > 1 / 2 * sqrts
          · rw [if_pos hc]
            refine .inl ⟨rfl, ?_⟩
            rcases hc with h | h
            · exact ⟨y, v, by'.1, by'.2, bv.1, bv.2, by linarith⟩
            · exact ⟨x, u, bx.1, bx.2, bu.1, bu.2, by linarith⟩
          · rw [if_neg hc]
            exact .inr ⟨_, _, _, _, _, rfl, fin _ _ _ _ (by simp [bx, by']) (by simp [bu, bv]) (sw _ _) (sw _ _) hc⟩
  rw [counts_eq, counts_eq] at hk ⊢
  have pos2 : ∀ x y : Int, 0 ≤ x → 0 ≤ y → 0 < x * y → 0 < x ∧ 0 < y := by
    intro x y hx hy h
    constructor
    · rcases hx.lt_or_eq with h' | h'
      · exact h'
      · rw [← h', zero_mul] at h; omega
    · rcases hy.lt_or_eq with h' | h'
      · exact h'
      · rw [← h', mul_zero] at h; omega
  match k, hk with
  | 0, hk =>
    simp [combos] at hk
    obtain ⟨g1, g2⟩ := pos2 _ _ p1 r1 (by linarith)
    simp only [dec, List.modify_zero_cons]
    apply gen <;> linarith
  | 1, hk =>
    simp [combos] at hk
    obtain ⟨g1, g2⟩ := pos2 _ _ p2 r2 (by linarith)
    simp only [dec, List.modify_succ_cons, List.modify_zero_cons]
    apply gen <;> linarith
  | 2, hk =>
    simp [combos] at hk
    obtain ⟨g1, g2⟩ := pos2 _ _ p3 r3 (by linarith)
    simp only [dec, List.modify_succ_cons, List.modify_zero_cons]
    apply gen <;> linarith
  | 3, hk =>
    simp [combos] at hk
    obtain ⟨g1, g2⟩ := pos2 _ _ p4 r4 (by linarith)
    simp only [dec, List.modify_succ_cons, List.modify_zero_cons]
    apply gen <;> linarith
  | 4, hk =>
    simp [combos] at hk
    obtain ⟨g1, g2⟩ := pos2 _ _ p5 r5 (by linarith)
    simp only [dec, List.modify_succ_cons, List.modify_zero_cons]
    apply gen <;> linarith
  | k + 5, hk =>
    simp [combos] at hk

theorem light_sign {d : Nat} (h : Light d) (s : Int) (hs : s ≠ 0) (hb : baryonNumber d = s) : nq1 d ≠ 0 ∧ antiparticleSign d = s := by
  rw [baryon_hadron h.hadron] at hb
  split_ifs at hb with h1
  · exact ⟨h1, hb⟩
  · exact absurd hb.symm hs

theorem Strings.symm {m0 : Int → ℝ} {sqrts m : ℝ} {a b : Nat} {q1 a1 q2 a2 : Int} (h : Strings m0 sqrts a b q1 a1 q2 a2 m) :
    Strings m0 sqrts b a q1 a1 q2 a2 m :=
  ⟨h.quarks, h.antiquarks, h.energy, h.threshold, fun q h1 h2 => by rw [h.flavour q h1 h2, add_comm]⟩

/-- The choice of the ends gives strings, a refusal or undefined behaviour. -/
theorem pairUp_res (m0 : Int → ℝ) (sqrts : ℝ) (swapQ swapA : Bool) (l m : List Int) :
    match pairUp m0 sqrts swapQ swapA l m with
    | .error .notPair => False
    | .ok .same => False
    | _ => True := by
  rcases l with _ | ⟨x, _ | ⟨y, l⟩⟩ <;> rcases m with _ | ⟨u, _ | ⟨v, m⟩⟩ <;> try trivial
  unfold pairUp
  dsimp only
  by_cases hc : m0 (if swapQ then (y, x) else (x, y)).1 + m0 (if swapA then (v, u) else (u, v)).1 > 1 / 2 * sqrts ∨
      m0 (if swapQ then (y, x) else (x, y)).2 + m0 (if swapA then (v, u) else (u, v)).2 > 1 / 2 * sqrts
  · rw [if_pos hc]; trivial
  · rw [if_neg hc]; trivial

/-- **C170.** Anything but a baryon and an antibaryon is an error. -/
theorem C170_pair (m0 : Int → ℝ) (sqrts : ℝ) (a b k : Nat) (swapQ swapA : Bool) :
    annihilate m0 sqrts a b k swapQ swapA = .error .notPair ↔
    ¬(baryonNumber a = 1 ∧ baryonNumber b = -1 ∨ baryonNumber a = -1 ∧ baryonNumber b = 1) := by
  have np : ∀ l m, pairUp m0 sqrts swapQ swapA l m ≠ .error .notPair := fun l m h => by
    have hu := pairUp_res m0 sqrts swapQ swapA l m
    rw [h] at hu
    exact hu
  unfold annihilate ordered
  by_cases ha : baryonNumber a = -1
  · rw [if_pos ha]
    dsimp only
    split_ifs with h1 h2
    · simp only [true_iff]; omega
    · simp only [reduceCtorEq, false_iff, not_not]; omega
    · constructor
      · intro h; exact absurd h (np _ _)
      · intro h; omega
  · rw [if_neg ha]
    dsimp only
    split_ifs with h1 h2
    · simp only [true_iff]; omega
    · simp only [reduceCtorEq, false_iff, not_not]; omega
    · constructor
      · intro h; exact absurd h (np _ _)
      · intro h; omega

/-- **C170.** The weight of a flavour is the number of pairs of a quark and an antiquark of it. -/
theorem C170_weights {a b : Nat} (ha : Light a) (hb : Light b)
    (hab : baryonNumber a = 1 ∧ baryonNumber b = -1 ∨ baryonNumber a = -1 ∧ baryonNumber b = 1) {k : Nat} (hk : k < 5) :
    (weights a b)[k]? = some (|netQuark a (k + 1)| * |netQuark b (k + 1)|) := by
  have mid : ∀ p r : Nat, Light p → Light r → baryonNumber p = 1 → baryonNumber r = -1 →
      (combos (counts 1 p) (counts (-1) r))[k]? = some (|netQuark p (k + 1)| * |netQuark r (k + 1)|) := by
    intro p r hp hr b1 b2
    obtain ⟨sp1, sp2⟩ := light_sign hp 1 (by norm_num) b1
    obtain ⟨sr1, sr2⟩ := light_sign hr (-1) (by norm_num) b2
    have t1 := (baryon_sum hp sp1).2 (k + 1) (by omega)
    have t2 := (baryon_sum hr sr1).2 (k + 1) (by omega)
    rw [sp2, one_mul, Nat.cast_succ] at t1
    rw [sr2, Nat.cast_succ] at t2
    rw [abs_of_nonneg t1, abs_of_nonpos (by omega), counts_eq, counts_eq]
    have : k = 0 ∨ k = 1 ∨ k = 2 ∨ k = 3 ∨ k = 4 := by omega
    rcases this with rfl | rfl | rfl | rfl | rfl <;> simp [combos]
  unfold weights ordered
  rcases hab with ⟨h1, h2⟩ | ⟨h1, h2⟩
  · have hne : ¬baryonNumber a = -1 := by omega
    rw [if_neg hne]
    exact mid a b ha hb h1 h2
  · rw [if_pos h1, mul_comm]
    exact mid b a hb ha h2 h1

/-- **C170.** A baryon and an antibaryon (of the five flavours) with a common flavour, whichever common flavour is drawn: two strings as they should be, or a refusal because some quark and antiquark need more than half of the energy. -/
theorem C170_strings (m0 : Int → ℝ) (sqrts : ℝ) {a b : Nat} (ha : Light a) (hb : Light b)
    (hab : baryonNumber a = 1 ∧ baryonNumber b = -1 ∨ baryonNumber a = -1 ∧ baryonNumber b = 1)
    {k : Nat} (hk5 : k < 5) (hk : netQuark a (k + 1) ≠ 0 ∧ netQuark b (k + 1) ≠ 0) (swapQ swapA : Bool) :
    annihilate m0 sqrts a b k swapQ swapA = .ok .refused ∧
      (∃ x y : Int, 1 ≤ x ∧ x ≤ 5 ∧ -5 ≤ y ∧ y ≤ -1 ∧ sqrts < 2 * (m0 x + m0 y)) ∨
    ∃ q1 a1 q2 a2 m, annihilate m0 sqrts a b k swapQ swapA = .ok (.strings q1 a1 q2 a2 m) ∧ Strings m0 sqrts a b q1 a1 q2 a2 m := by
  obtain ⟨n, hk, hn⟩ : ∃ n, (weights a b)[k]? = some n ∧ 0 < n :=
    ⟨_, C170_weights ha hb hab hk5, mul_pos (abs_pos.2 hk.1) (abs_pos.2 hk.2)⟩
  have nall : (weights a b).all (fun x => decide (x ≤ 0)) = false := by
    rw [List.all_eq_false]
    exact ⟨n, List.mem_of_getElem? hk, by simpa using hn⟩
  unfold weights ordered at hk nall
  unfold annihilate weights ordered
  rcases hab with ⟨h1, h2⟩ | ⟨h1, h2⟩
  · have hne : ¬baryonNumber a = -1 := by omega
    rw [if_neg hne] at hk nall ⊢
    dsimp only
    rw [if_neg (by omega), nall, if_neg (by simp)]
    exact core m0 sqrts ha hb (light_sign ha 1 (by norm_num) h1) (light_sign hb (-1) (by norm_num) h2) hk hn swapQ swapA
  · rw [if_pos h1] at hk nall ⊢
    dsimp only
    rw [if_neg (by omega), nall, if_neg (by simp)]
    rcases core m0 sqrts hb ha (light_sign hb 1 (by norm_num) h2) (light_sign ha (-1) (by norm_num) h1) hk hn swapQ swapA with h | ⟨q1, a1, q2, a2, m, h, hs⟩
    · exact .inl h
    · exact .inr ⟨q1, a1, q2, a2, m, h, hs.symm⟩

/-- **C170.** The pair stays as it is exactly if it has no flavour that can annihilate. -/
theorem C170_same (m0 : Int → ℝ) (sqrts : ℝ) {a b : Nat} (ha : Light a) (hb : Light b)
    (hab : baryonNumber a = 1 ∧ baryonNumber b = -1 ∨ baryonNumber a = -1 ∧ baryonNumber b = 1) (k : Nat) (swapQ swapA : Bool) :
    annihilate m0 sqrts a b k swapQ swapA = .ok .same ↔ ∀ q : Nat, 1 ≤ q → q ≤ 5 → netQuark a q = 0 ∨ netQuark b q = 0 := by
  have np : ∀ l m, pairUp m0 sqrts swapQ swapA l m ≠ .ok .same := fun l m h => by
    have hu := pairUp_res m0 sqrts swapQ swapA l m
    rw [h] at hu
    exact hu
  have mid : ∀ p r : Nat, Light p → Light r → baryonNumber p = 1 → baryonNumber r = -1 →
      ((combos (counts 1 p) (counts (-1) r)).all (fun x => decide (x ≤ 0)) = true ↔
        ∀ q : Nat, 1 ≤ q → q ≤ 5 → netQuark p q = 0 ∨ netQuark r q = 0) := by
    intro p r hp hr b1 b2
    obtain ⟨sp1, sp2⟩ := light_sign hp 1 (by norm_num) b1
    obtain ⟨sr1, sr2⟩ := light_sign hr (-1) (by norm_num) b2
    have t1 := (baryon_sum hp sp1).2
    have t2 := (baryon_sum hr sr1).2
    rw [sp2] at t1
    rw [sr2] at t2
    have one : ∀ x y : Int, 0 ≤ 1 * x → 0 ≤ -1 * y → (1 * x * (-1 * y) ≤ 0 ↔ x = 0 ∨ y = 0) := by
      intro x y hx hy
      constructor
      · intro h
        have hz : (1 * x) * (-1 * y) = 0 := le_antisymm h (mul_nonneg hx hy)
        rcases mul_eq_zero.1 hz with h | h
        · exact .inl (by omega)
        · exact .inr (by omega)
      · rintro (rfl | rfl) <;> simp
    have o := fun q hq => one _ _ (t1 q hq) (t2 q hq)
    have o1 := o 1 (by omega)
    have o2 := o 2 (by omega)
    have o3 := o 3 (by omega)
    have o4 := o 4 (by omega)
    have o5 := o 5 (by omega)
    simp only [Nat.cast_ofNat, Nat.cast_one] at o1 o2 o3 o4 o5
    rw [counts_eq, counts_eq]
    simp only [combos, List.zipWith_cons_cons, List.zipWith_nil_left, List.all_cons, List.all_nil, Bool.and_true, Bool.and_eq_true,
      decide_eq_true_eq, o1, o2, o3, o4, o5]
    constructor
    · rintro ⟨h1, h2, h3, h4, h5⟩ q hq1 hq5
      have : q = 1 ∨ q = 2 ∨ q = 3 ∨ q = 4 ∨ q = 5 := by omega
      rcases this with rfl | rfl | rfl | rfl | rfl <;> assumption
    · intro h
      exact ⟨h 1 (by omega) (by omega), h 2 (by omega) (by omega), h 3 (by omega) (by omega), h 4 (by omega) (by omega), h 5 (by omega) (by omega)⟩
  unfold annihilate weights ordered
  rcases hab with ⟨h1, h2⟩ | ⟨h1, h2⟩
  · have hne : ¬baryonNumber a = -1 := by omega
    rw [if_neg hne]
    dsimp only
    rw [if_neg (by omega), ← mid a b ha hb h1 h2]
    split_ifs with h
    · exact ⟨fun _ => h, fun _ => rfl⟩
    · exact ⟨fun h' => absurd h' (np _ _), fun h' => absurd h' h⟩
  · rw [if_pos h1]
    dsimp only
    rw [if_neg (by omega)]
    have e : (∀ q : Nat, 1 ≤ q → q ≤ 5 → netQuark a q = 0 ∨ netQuark b q = 0) ↔ ∀ q : Nat, 1 ≤ q → q ≤ 5 → netQuark b q = 0 ∨ netQuark a q = 0 :=
      forall_congr' fun q => imp_congr_right fun _ => imp_congr_right fun _ => or_comm
    rw [e, ← mid b a hb ha h2 h1]
    split_ifs with h
    · exact ⟨fun _ => h, fun _ => rfl⟩
    · exact ⟨fun h' => absurd h' (np _ _), fun h' => absurd h' h⟩

/-- Proton and antiproton: they share the flavours d and u. -/
example : Light 0x2212 ∧ Light 0x80002212 ∧ baryonNumber 0x2212 = 1 ∧ baryonNumber 0x80002212 = -1 ∧
    (netQuark 0x2212 1 ≠ 0 ∧ netQuark 0x80002212 1 ≠ 0) := by
  refine ⟨⟨?_, ?_, ?_, ?_⟩, ⟨?_, ?_, ?_, ?_⟩, ?_, ?_, ?_⟩ <;> decide +kernel

/-- A doubly charged Delta and the antiparticle of the Omega share none. -/
example : Light 0x2224 ∧ Light 0x80003334 ∧ baryonNumber 0x2224 = 1 ∧ baryonNumber 0x80003334 = -1 ∧
    ∀ q : Nat, 1 ≤ q → q ≤ 5 → netQuark 0x2224 q = 0 ∨ netQuark 0x80003334 q = 0 := by
  refine ⟨⟨?_, ?_, ?_, ?_⟩, ⟨?_, ?_, ?_, ?_⟩, ?_, ?_, ?_⟩ <;> decide +kernel

end Verif.Ann
