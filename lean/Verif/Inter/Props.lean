import Verif.Inter.Model
import Mathlib.Tactic.Ring
import Mathlib.Tactic.FieldSimp
import Mathlib.Tactic.Linarith
import Mathlib.Tactic.NormNum
import Mathlib.Tactic.Positivity
import Mathlib.Tactic.SplitIfs
import Mathlib.Algebra.Order.Ring.Rat
import Mathlib.Algebra.Field.Rat

/-
C103: where interactions happen.  C104: when the outgoing particles form.
-/
namespace Verif.Inter

variable {K : Type} [Field K] [LinearOrder K] [IsStrictOrderedRing K]

/-! ### C103 -/

/-- The distance of two coordinates in the box `[0, L]` with its ends identified. -/
def periodicDist (L x y : K) : K := min |x - y| (L - |x - y|)

/-- C103: without periodic boundaries the particles interact at the time of the action, in the middle
of the places they have reached then: `n` times the place is the sum of these places. -/
theorem C103_free (time L : K) (hL : L ≤ 0) (idx : ℤ) (hi : idx < 0) (inc : List (Inc K))
    (hinc : inc ≠ []) :
    ∃ y, interactionPoint time L idx inc = some (time, y) ∧
      ∀ i, (inc.length : K) * y i = (inc.map fun p => p.x i + p.v i * (time - p.t)).sum := by
  have hn : (inc.length : K) ≠ 0 := by
    have : inc.length ≠ 0 := by simpa using hinc
    exact_mod_cast this
  refine ⟨_, by simp only [interactionPoint, if_neg hinc, if_neg (not_le.2 hi),
    if_neg (not_lt.2 hL)]; rfl, ?_⟩
  intro i
  simp only [Inc.at]
  field_simp

/-- C103: in a box with periodic boundaries two particles interact at a place inside the box that has
the same periodic distance from both, namely half their periodic distance, in every direction. -/
theorem C103_box (time L : K) (hL : 0 < L) (idx : ℤ) (hi : idx < 0) (a b : Inc K)
    (ha : ∀ i, 0 ≤ a.at time i ∧ a.at time i ≤ L) (hb : ∀ i, 0 ≤ b.at time i ∧ b.at time i ≤ L) :
    ∃ y, interactionPoint time L idx [a, b] = some (time, y) ∧ ∀ i,
      0 ≤ y i ∧ y i ≤ L ∧
      periodicDist L (y i) (a.at time i) = periodicDist L (a.at time i) (b.at time i) / 2 ∧
      periodicDist L (y i) (b.at time i) = periodicDist L (a.at time i) (b.at time i) / 2 := by
  refine ⟨_, by simp only [interactionPoint, reduceCtorEq, if_false, if_neg (not_le.2 hi),
    gt_iff_lt, hL, if_true]; rfl, ?_⟩
  intro i
  obtain ⟨h1, h2⟩ := ha i
  obtain ⟨h3, h4⟩ := hb i
  simp only [List.map_cons, List.map_nil, List.sum_cons, List.sum_nil, add_zero, List.length_cons,
    List.length_nil]
  generalize a.at time i = x at *
  generalize b.at time i = z at *
  push_cast
  simp only [wrap, periodicDist]
  rcases le_total x z with hxz | hxz
  · have e : |x - z| = z - x := by rw [abs_sub_comm, abs_of_nonneg (by linarith)]
    rw [e]
    split_ifs with h5 h6
    · have e1 : |(x + z) / 2 - 1 / 2 * L - x| = (L - (z - x)) / 2 := by
        rw [abs_of_nonpos (by ring_nf at *; linarith)]; ring
      have e2 : |(x + z) / 2 - 1 / 2 * L - z| = (L + (z - x)) / 2 := by
        rw [abs_of_nonpos (by ring_nf at *; linarith)]; ring
      rw [e1, e2, min_eq_right (a := z - x) (by linarith)]
      refine ⟨by linarith, by ring_nf at *; linarith, min_eq_left (by linarith), ?_⟩
      rw [min_eq_right (by linarith)]; ring
    · have h6' := not_le.1 h6
      have e1 : |(x + z) / 2 + 1 / 2 * L - x| = (L + (z - x)) / 2 := by
        rw [abs_of_nonneg (by ring_nf at *; linarith)]; ring
      have e2 : |(x + z) / 2 + 1 / 2 * L - z| = (L - (z - x)) / 2 := by
        rw [abs_of_nonneg (by ring_nf at *; linarith)]; ring
      rw [e1, e2, min_eq_right (a := z - x) (by linarith)]
      refine ⟨by ring_nf at *; linarith, by ring_nf at *; linarith, ?_, min_eq_left (by linarith)⟩
      rw [min_eq_right (by linarith)]; ring
    · have h5' := not_lt.1 h5
      have e1 : |(x + z) / 2 - x| = (z - x) / 2 := by
        rw [abs_of_nonneg (by ring_nf at *; linarith)]; ring
      have e2 : |(x + z) / 2 - z| = (z - x) / 2 := by
        rw [abs_of_nonpos (by ring_nf at *; linarith)]; ring
      rw [e1, e2, min_eq_left (a := z - x) (by linarith), min_eq_left (by linarith)]
      exact ⟨by ring_nf at *; linarith, by ring_nf at *; linarith, rfl, rfl⟩
  · have e : |x - z| = x - z := abs_of_nonneg (by linarith)
    rw [e]
    split_ifs with h5 h6
    · have e1 : |(x + z) / 2 - 1 / 2 * L - x| = (L + (x - z)) / 2 := by
        rw [abs_of_nonpos (by ring_nf at *; linarith)]; ring
      have e2 : |(x + z) / 2 - 1 / 2 * L - z| = (L - (x - z)) / 2 := by
        rw [abs_of_nonpos (by ring_nf at *; linarith)]; ring
      rw [e1, e2, min_eq_right (a := x - z) (by linarith)]
      refine ⟨by linarith, by ring_nf at *; linarith, ?_, min_eq_left (by linarith)⟩
      rw [min_eq_right (by linarith)]; ring
    · have h6' := not_le.1 h6
      have e1 : |(x + z) / 2 + 1 / 2 * L - x| = (L - (x - z)) / 2 := by
        rw [abs_of_nonneg (by ring_nf at *; linarith)]; ring
      have e2 : |(x + z) / 2 + 1 / 2 * L - z| = (L + (x - z)) / 2 := by
        rw [abs_of_nonneg (by ring_nf at *; linarith)]; ring
      rw [e1, e2, min_eq_right (a := x - z) (by linarith)]
      refine ⟨by ring_nf at *; linarith, by ring_nf at *; linarith, min_eq_left (by linarith), ?_⟩
      rw [min_eq_right (by linarith)]; ring
    · have h5' := not_lt.1 h5
      have e1 : |(x + z) / 2 - x| = (x - z) / 2 := by
        rw [abs_of_nonpos (by ring_nf at *; linarith)]; ring
      have e2 : |(x + z) / 2 - z| = (x - z) / 2 := by
        rw [abs_of_nonneg (by ring_nf at *; linarith)]; ring
      rw [e1, e2, min_eq_left (a := x - z) (by linarith), min_eq_left (by linarith)]
      exact ⟨by ring_nf at *; linarith, by ring_nf at *; linarith, rfl, rfl⟩

/-- C103: with the stochastic criterion the interaction happens where the chosen incoming particle
is. -/
theorem C103_stochastic (time L : K) (idx : ℕ) (inc : List (Inc K)) (p : Inc K)
    (h : inc[idx]? = some p) : interactionPoint time L idx inc = some (p.t, p.x) := by
  have hne : inc ≠ [] := by rintro rfl; simp at h
  simp [interactionPoint, hne, h]

/-- Particles at x = 1 and x = 9 in a box of length 10 (and at 3 and 4, 2 and 8 in the other
directions) interact at x = 0, half way through the wall. -/
example : (interactionPoint (0 : ℚ) 10 (-1) [⟨0, ![1, 3, 2], ![0, 0, 0]⟩, ⟨0, ![9, 4, 8], ![0, 0, 0]⟩]).map
    (fun r => (r.1, r.2 0, r.2 1, r.2 2)) = some (0, 0, 7/2, 0) := by decide +kernel

/-! ### C104 -/

/-- The properties of the chosen incoming particle. -/
theorem firstBest_spec (lt : Form K → Form K → Bool) (f : Form K → K)
    (hlt : ∀ x y, lt x y = true ↔ f x < f y) (a : Form K) (l : List (Form K)) :
    firstBest lt a l ∈ a :: l ∧ ∀ x ∈ a :: l, f (firstBest lt a l) ≤ f x := by
  induction l generalizing a with
  | nil => simp [firstBest]
  | cons b l ih =>
    simp only [firstBest]
    by_cases h : lt b a = true
    · rw [if_pos h]
      obtain ⟨h1, h2⟩ := ih b
      have hba := (hlt b a).1 h
      refine ⟨List.mem_cons_of_mem _ h1, ?_⟩
      intro x hx
      rcases List.mem_cons.1 hx with rfl | hx
      · exact (h2 b List.mem_cons_self).trans hba.le
      · exact h2 x hx
    · rw [if_neg h]
      obtain ⟨h1, h2⟩ := ih a
      have hba : f a ≤ f b := not_lt.1 fun h' => h ((hlt b a).2 h')
      refine ⟨?_, ?_⟩
      · rcases List.mem_cons.1 h1 with h' | h'
        · rw [h']; exact List.mem_cons_self
        · exact List.mem_cons_of_mem _ (List.mem_cons_of_mem _ h')
      · intro x hx
        rcases List.mem_cons.1 hx with rfl | hx
        · exact h2 x List.mem_cons_self
        · rcases List.mem_cons.1 hx with rfl | hx
          · exact (h2 a List.mem_cons_self).trans hba
          · exact h2 x (List.mem_cons_of_mem _ hx)

/-- C104: the incoming particle that decides is one of them and forms last, up to 2e-6 fm; if all form
at the same time it is the one with the smallest scaling factor, and if one of them forms at least
1e-6 fm apart from the first it is one that forms last. -/
theorem C104_last_formed (a : Form K) (l : List (Form K)) :
    ∃ last ∈ a :: l, lastFormed (a :: l) = some last ∧
      (∀ p ∈ a :: l, p.formed < last.formed + 2 / 1000000) ∧
      ((∀ p ∈ l, p.formed = a.formed) → ∀ p ∈ a :: l, last.scale ≤ p.scale) ∧
      ((∃ p ∈ l, 1 / 1000000 ≤ |a.formed - p.formed|) → ∀ p ∈ a :: l, p.formed ≤ last.formed) := by
  have hpos : (0 : K) < 1 / 1000000 := by positivity
  by_cases h : (l.all fun b => decide (|a.formed - b.formed| < 1 / 1000000)) = true
  · obtain ⟨h1, h2⟩ := firstBest_spec (fun x y : Form K => decide (x.scale < y.scale))
      (fun x => x.scale) (by simp) a l
    have hall : ∀ b ∈ a :: l, |a.formed - b.formed| < 1 / 1000000 := by
      intro b hb
      rcases List.mem_cons.1 hb with rfl | hb
      · simp
      · simpa using List.all_eq_true.1 h b hb
    refine ⟨_, h1, by rw [lastFormed, if_pos h], ?_, fun _ => h2, ?_⟩
    · intro p hp
      have e1 := abs_lt.1 (hall p hp)
      have e2 := abs_lt.1 (hall _ h1)
      have e3 : (2 : K) / 1000000 = 1 / 1000000 + 1 / 1000000 := by norm_num
      rw [e3]
      linarith [e1.1, e1.2, e2.1, e2.2]
    · rintro ⟨p, hp, hle⟩
      exact absurd (hall p (List.mem_cons_of_mem _ hp)) (not_lt.2 hle)
  · obtain ⟨h1, h2⟩ := firstBest_spec (fun x y : Form K => decide (y.formed < x.formed))
      (fun x => -x.formed) (by simp) a l
    have h3 : ∀ p ∈ a :: l, p.formed ≤
        (firstBest (fun x y : Form K => decide (y.formed < x.formed)) a l).formed :=
      fun p hp => neg_le_neg_iff.1 (h2 p hp)
    refine ⟨_, h1, by rw [lastFormed, if_neg h], ?_, ?_, fun _ => h3⟩
    · intro p hp
      have e3 : (0 : K) < 2 / 1000000 := by positivity
      linarith [h3 p hp]
    · intro heq
      exfalso
      apply h
      rw [List.all_eq_true]
      intro b hb
      rw [heq b hb]
      simp

/-- C104: if all incoming particles have formed when they interact, every outgoing particle with full
cross section is formed at once and nothing else changes. -/
theorem C104_formed (time : K) (a : Form K) (l out : List (Form K))
    (h : ∀ p ∈ a :: l, p.formed ≤ time) :
    assignFormation time (a :: l) out =
      some (out.map fun o => if o.scale = 1 then ⟨time, time, 1⟩ else o) := by
  obtain ⟨last, h1, h2, _⟩ := C104_last_formed a l
  simp only [assignFormation, h2, Option.map_some, if_neg (not_lt.2 (h last h1)), Option.some.injEq]
  apply List.map_congr_left
  intro o _
  simp only [outFormed]
  split_ifs with hs
  · rw [hs]
  · rfl

/-- What becomes of an outgoing particle `o` if the incoming particle `last` has not formed yet. -/
def Delayed (time : K) (last o o' : Form K) : Prop :=
  if o.scale < 1 then
    -- a string fragment: the scaling factors multiply, the later formation time counts
    o'.scale = last.scale * o.scale ∧ o'.formed = max o.formed last.formed ∧
      o'.begin = if last.formed > o.formed then time else o.begin
  else
    -- any other particle continues to form as the incoming one
    o' = last

/-- C104: if an incoming particle has not formed when it interacts, then (up to 2e-6 fm) no outgoing
particle forms before the last incoming one; the scaling factors of fragments are multiplied with that
of the incoming particle, and other particles inherit the formation of the incoming one. -/
theorem C104_unformed (time : K) (a : Form K) (l out : List (Form K))
    (h : ∃ p ∈ a :: l, time + 2 / 1000000 ≤ p.formed) :
    ∃ last ∈ a :: l, ∃ out', assignFormation time (a :: l) out = some out' ∧
      List.Forall₂ (Delayed time last) out out' ∧
      ∀ o' ∈ out', ∀ p ∈ a :: l, p.formed < o'.formed + 2 / 1000000 := by
  obtain ⟨last, h1, h2, h3, _⟩ := C104_last_formed a l
  obtain ⟨p, hp, hlt⟩ := h
  have hl : last.formed > time := by linarith [h3 p hp]
  refine ⟨last, h1, out.map (outUnformed time last), ?_, ?_, ?_⟩
  · simp only [assignFormation, h2, Option.map_some, if_pos hl]
  · rw [List.forall₂_map_right_iff]
    apply List.forall₂_same.2
    intro o _
    simp only [Delayed, outUnformed]
    split_ifs with hs ho
    · exact ⟨rfl, (max_eq_right (le_of_lt ho)).symm, rfl⟩
    · exact ⟨rfl, (max_eq_left (not_lt.1 ho)).symm, rfl⟩
    · rfl
  · intro o' ho' q hq
    obtain ⟨o, _, rfl⟩ := List.mem_map.1 ho'
    have hq' := h3 q hq
    have : last.formed ≤ (outUnformed time last o).formed := by
      simp only [outUnformed]
      split_ifs with hs ho
      · exact le_rfl
      · exact not_lt.1 ho
      · exact le_rfl
    linarith

/-- C104: scaling factors stay between 0 and 1. -/
theorem C104_scale (time : K) (inc out out' : List (Form K))
    (hi : ∀ p ∈ inc, 0 ≤ p.scale ∧ p.scale ≤ 1) (ho : ∀ p ∈ out, 0 ≤ p.scale ∧ p.scale ≤ 1)
    (h : assignFormation time inc out = some out') : ∀ p ∈ out', 0 ≤ p.scale ∧ p.scale ≤ 1 := by
  rcases inc with _ | ⟨a, l⟩
  · simp [assignFormation, lastFormed] at h
  obtain ⟨last, h1, h2, _⟩ := C104_last_formed a l
  obtain ⟨k1, k2⟩ := hi last h1
  simp only [assignFormation, h2, Option.map_some, Option.some.injEq] at h
  subst h
  intro p hp
  split_ifs at hp with hl
  · obtain ⟨o, ho1, rfl⟩ := List.mem_map.1 hp
    obtain ⟨k3, k4⟩ := ho o ho1
    simp only [outUnformed]
    split_ifs
    · exact ⟨mul_nonneg k1 k3, mul_le_one₀ k2 k3 k4⟩
    · exact ⟨mul_nonneg k1 k3, mul_le_one₀ k2 k3 k4⟩
    · exact ⟨k1, k2⟩
  · obtain ⟨o, ho1, rfl⟩ := List.mem_map.1 hp
    simp only [outFormed]
    split_ifs
    · exact ho o ho1
    · exact ho o ho1

/-- A formed nucleon and a fragment that forms at time 5 interact at time 3: a fragment that would
form at 4 forms at 5 and a new resonance too. -/
example : assignFormation (3 : ℚ) [⟨0, 0, 1⟩, ⟨1, 5, 1/3⟩] [⟨3, 4, 1/2⟩, ⟨0, 0, 1⟩]
    = some [⟨3, 5, 1/6⟩, ⟨1, 5, 1/3⟩] := by decide +kernel

end Verif.Inter
