import Verif.Tot.Model
import Mathlib.Tactic.Linarith
import Mathlib.Tactic.FieldSimp
import Mathlib.Tactic.Positivity
import Mathlib.Tactic.SplitIfs

/-!
The probability of string excitation (C113).
-/

namespace Verif.Tot

open Verif Sec

/-! ### Specification -/

/-- Pairs whose string probability rises between two energies: nucleon-nucleon, nucleon-pion, or,
with the additive quark model, any other two hadrons that are not a baryon and an antibaryon. -/
def Smooth (P : Params) (a b : PType) : Prop :=
  P.stringsSwitch = true ∧ P.withProbability = true ∧
    (nnPair a b = true ∨ npiPair a b = true ∨ aqmPair P a b = true) ∧ bbbarPair P a b = false ∧
    isNNbar a b = false

/-! ### Transition function -/

/-- The argument of the sine. -/
noncomputable def arg (s lo up : ℝ) : ℝ := Real.pi * ((s - 1 / 2 * (lo + up)) / (up - lo))

theorem arg_range {s lo up : ℝ} (h : lo < up) (h1 : lo ≤ s) (h2 : s ≤ up) :
    arg s lo up ∈ Set.Icc (-(Real.pi / 2)) (Real.pi / 2) := by
  have hd : 0 < up - lo := by linarith
  have hx : (s - 1 / 2 * (lo + up)) / (up - lo) ≤ 1 / 2 := by
    rw [div_le_iff₀ hd]; linarith
  have hx' : -(1 / 2) ≤ (s - 1 / 2 * (lo + up)) / (up - lo) := by
    rw [le_div_iff₀ hd]; linarith
  have := Real.pi_pos
  constructor <;> unfold arg <;> nlinarith

theorem transit_eq {s lo up : ℝ} (h : lo < up) (h1 : lo ≤ s) (h2 : s ≤ up) :
    transit s lo up = .ok (1 / 2 * (Real.sin (arg s lo up) + 1)) := by
  unfold transit arg
  rw [if_neg (not_lt.2 h1), if_neg (not_lt.2 h2), if_neg (ne_of_gt h)]

theorem transit_range {s lo up p : ℝ} (h : transit s lo up = .ok p) : 0 ≤ p ∧ p ≤ 1 := by
  unfold transit at h
  split_ifs at h
  · injection h with h; subst h; norm_num
  · injection h with h; subst h; norm_num
  · injection h with h
    have h1 := Real.neg_one_le_sin (Real.pi * ((s - 1 / 2 * (lo + up)) / (up - lo)))
    have h2 := Real.sin_le_one (Real.pi * ((s - 1 / 2 * (lo + up)) / (up - lo)))
    constructor <;> linarith

theorem arg_mono {s s' lo up : ℝ} (h : lo < up) (hs : s < s') : arg s lo up < arg s' lo up := by
  unfold arg
  have hd : 0 < up - lo := by linarith
  have := Real.pi_pos
  apply mul_lt_mul_of_pos_left _ this
  exact div_lt_div_of_pos_right (by linarith) hd

/-- The probability used for smooth pairs. -/
theorem smooth_eq {P : Params} {a b : PType} (h : Smooth P a b) (s : ℝ) :
    stringProbability P a b s =
      if s > (region P a b).2 then .ok 1
      else if s < (region P a b).1 then .ok 0
      else transit s (region P a b).1 (region P a b).2 := by
  obtain ⟨h1, h2, h3, h4, h5⟩ := h
  unfold stringProbability
  rw [h1, h2, h4, h5]
  have : (!nnPair a b && !false && !npiPair a b && !aqmPair P a b) = false := by
    rcases h3 with h | h | h <;> rw [h] <;> simp
  rw [this]
  simp

/-- **C113** (range). Whatever the pair and its energy, the probability is between 0 and 1. -/
theorem C113_range (P : Params) (a b : PType) (s p : ℝ) (h : stringProbability P a b s = .ok p) :
    0 ≤ p ∧ p ≤ 1 := by
  have z : ∀ q : ℝ, (Except.ok q : Except Err ℝ) = .ok p → (q = 0 ∨ q = 1) → 0 ≤ p ∧ p ≤ 1 := by
    intro q hq h01
    injection hq with hq
    subst hq
    rcases h01 with rfl | rfl <;> norm_num
  unfold stringProbability at h
  split at h; · exact z _ h (Or.inl rfl)
  split at h; · exact z _ h (Or.inl rfl)
  split at h; · exact z _ h (Or.inl rfl)
  split at h; · exact z _ h (Or.inr rfl)
  split at h
  · refine z _ h ?_
    split
    · exact Or.inr rfl
    · exact Or.inl rfl
  split at h; · exact z _ h (Or.inr rfl)
  split at h; · exact z _ h (Or.inl rfl)
  exact transit_range h

/-- **C113** (defined). The probability is a number unless the transition region is a single point. -/
theorem C113_defined (P : Params) (a b : PType) (s : ℝ)
    (h : (region P a b).1 ≠ (region P a b).2) : ∃ p, stringProbability P a b s = .ok p := by
  unfold stringProbability
  split; · exact ⟨_, rfl⟩
  split; · exact ⟨_, rfl⟩
  split; · exact ⟨_, rfl⟩
  split; · exact ⟨_, rfl⟩
  split; · exact ⟨_, rfl⟩
  split; · exact ⟨_, rfl⟩
  split; · exact ⟨_, rfl⟩
  rename_i q w
  unfold transit
  rw [if_neg w, if_neg q, if_neg (Ne.symm h)]
  exact ⟨_, rfl⟩

theorem step_mono (x : ℝ) {s s' : ℝ} (hs : s ≤ s') :
    (if s > x then (1 : ℝ) else 0) ≤ if s' > x then 1 else 0 := by
  split_ifs with h1 h2 h2
  · exact le_rfl
  · exfalso; linarith
  · exact zero_le_one
  · exact le_rfl

/-- **C113** (monotone). For a given pair the probability never falls with increasing energy. -/
theorem C113_monotone (P : Params) (a b : PType) (s s' p p' : ℝ) (hs : s ≤ s')
    (h : stringProbability P a b s = .ok p) (h' : stringProbability P a b s' = .ok p') : p ≤ p' := by
  have hr := C113_range P a b s p h
  have hr' := C113_range P a b s' p' h'
  have e : ∀ q q' : ℝ, (Except.ok q : Except Err ℝ) = .ok p → (Except.ok q' : Except Err ℝ) = .ok p' →
      q ≤ q' → p ≤ p' := by
    intro q q' h1 h2 h3
    injection h1 with h1
    injection h2 with h2
    rw [← h1, ← h2]; exact h3
  unfold stringProbability at h h'
  by_cases c1 : (!P.stringsSwitch) = true
  · rw [if_pos c1] at h h'; exact e _ _ h h' le_rfl
  rw [if_neg c1] at h h'
  by_cases c2 : (!nnPair a b && !bbbarPair P a b && !npiPair a b && !aqmPair P a b) = true
  · rw [if_pos c2] at h h'; exact e _ _ h h' le_rfl
  rw [if_neg c2] at h h'
  by_cases c3 : (isNNbar a b && !(P.nnbar == .strings)) = true
  · rw [if_pos c3] at h h'; exact e _ _ h h' le_rfl
  rw [if_neg c3] at h h'
  by_cases c4 : bbbarPair P a b = true
  · rw [if_pos c4] at h h'; exact e _ _ h h' le_rfl
  rw [if_neg c4] at h h'
  by_cases c5 : (!P.withProbability) = true
  · rw [if_pos c5] at h h'
    exact e _ _ h h' (step_mono _ hs)
  rw [if_neg c5] at h h'
  generalize (region P a b).1 = lo at *
  generalize (region P a b).2 = up at *
  by_cases u' : s' > up
  · rw [if_pos u'] at h'
    injection h' with h'
    rw [← h']; exact hr.2
  have u : ¬ s > up := by intro q; exact u' (by linarith)
  rw [if_neg u] at h
  rw [if_neg u'] at h'
  by_cases l : s < lo
  · rw [if_pos l] at h
    injection h with h
    rw [← h]; exact hr'.1
  have l' : ¬ s' < lo := by intro q; exact l (by linarith)
  rw [if_neg l] at h
  rw [if_neg l'] at h'
  push Not at u u' l l'
  by_cases hlu : lo = up
  · subst hlu
    unfold transit at h
    rw [if_neg (not_lt.2 l), if_neg (not_lt.2 u), if_pos rfl] at h
    cases h
  have hlu : lo < up := lt_of_le_of_ne (by linarith) hlu
  rw [transit_eq hlu l u] at h
  rw [transit_eq hlu l' u'] at h'
  refine e _ _ h h' ?_
  rcases eq_or_lt_of_le hs with rfl | hs
  · exact le_rfl
  · have := Real.strictMonoOn_sin (arg_range hlu l u) (arg_range hlu l' u') (arg_mono hlu hs)
    linarith

/-- **C113** (ends). Between the ends of the transition region the probability is neither 0 nor 1;
below it is 0, above it is 1. -/
theorem C113_ends (P : Params) (a b : PType) (s p : ℝ) (h : Smooth P a b)
    (hr : (region P a b).1 < (region P a b).2) (hp : stringProbability P a b s = .ok p) :
    (p = 0 ↔ s ≤ (region P a b).1) ∧ (p = 1 ↔ (region P a b).2 ≤ s) := by
  rw [smooth_eq h] at hp
  generalize (region P a b).1 = lo at *
  generalize (region P a b).2 = up at *
  have hd : up - lo ≠ 0 := by linarith
  have pi0 := Real.pi_pos
  have elo : arg lo lo up = -(Real.pi / 2) := by unfold arg; field_simp; ring
  have eup : arg up lo up = Real.pi / 2 := by unfold arg; field_simp; ring
  split at hp
  · rename_i q
    injection hp with hp
    subst hp
    constructor
    · constructor
      · intro z; norm_num at z
      · intro z; linarith
    · exact ⟨fun _ => q.le, fun _ => rfl⟩
  · rename_i q
    split at hp
    · rename_i w
      injection hp with hp
      subst hp
      constructor
      · exact ⟨fun _ => w.le, fun _ => rfl⟩
      · constructor
        · intro z; norm_num at z
        · intro z; linarith
    · rename_i w
      push Not at q w
      rw [transit_eq hr w q] at hp
      injection hp with hp
      have rs := arg_range hr w q
      constructor
      · constructor
        · intro z
          by_contra hlt
          push Not at hlt
          have := Real.strictMonoOn_sin (arg_range hr le_rfl hr.le) rs (arg_mono hr hlt)
          rw [elo, Real.sin_neg, Real.sin_pi_div_two] at this
          linarith
        · intro z
          have : s = lo := by linarith
          subst this
          rw [elo, Real.sin_neg, Real.sin_pi_div_two] at hp
          linarith
      · constructor
        · intro z
          by_contra hlt
          push Not at hlt
          have := Real.strictMonoOn_sin rs (arg_range hr hr.le le_rfl) (arg_mono hr hlt)
          rw [eup, Real.sin_pi_div_two] at this
          linarith
        · intro z
          have : s = up := by linarith
          subst this
          rw [eup, Real.sin_pi_div_two] at hp
          linarith

/-- **C113** (transition function). It is 0 below its range, 1 above, and strictly between inside. -/
theorem C113_transit {s lo up p : ℝ} (hr : lo < up) (hp : transit s lo up = .ok p) :
    (p = 0 ↔ s ≤ lo) ∧ (p = 1 ↔ up ≤ s) := by
  have hd : up - lo ≠ 0 := by linarith
  have elo : arg lo lo up = -(Real.pi / 2) := by unfold arg; field_simp; ring
  have eup : arg up lo up = Real.pi / 2 := by unfold arg; field_simp; ring
  by_cases w : s < lo
  · unfold transit at hp
    rw [if_pos w] at hp
    injection hp with hp
    subst hp
    exact ⟨⟨fun _ => w.le, fun _ => rfl⟩, ⟨fun z => by norm_num at z, fun z => by linarith⟩⟩
  by_cases q : s > up
  · unfold transit at hp
    rw [if_neg w, if_pos q] at hp
    injection hp with hp
    subst hp
    exact ⟨⟨fun z => by norm_num at z, fun z => by linarith⟩, ⟨fun _ => q.le, fun _ => rfl⟩⟩
  push Not at q w
  rw [transit_eq hr w q] at hp
  injection hp with hp
  have rs := arg_range hr w q
  refine ⟨⟨fun z => ?_, fun z => ?_⟩, ⟨fun z => ?_, fun z => ?_⟩⟩
  · by_contra hlt
    push Not at hlt
    have := Real.strictMonoOn_sin (arg_range hr le_rfl hr.le) rs (arg_mono hr hlt)
    rw [elo, Real.sin_neg, Real.sin_pi_div_two] at this
    linarith
  · have : s = lo := by linarith
    subst this
    rw [elo, Real.sin_neg, Real.sin_pi_div_two] at hp
    linarith
  · by_contra hlt
    push Not at hlt
    have := Real.strictMonoOn_sin rs (arg_range hr hr.le le_rfl) (arg_mono hr hlt)
    rw [eup, Real.sin_pi_div_two] at this
    linarith
  · have : s = up := by linarith
    subst this
    rw [eup, Real.sin_pi_div_two] at hp
    linarith

/-- **C113** (baryon and antibaryon). Their high-energy cross section goes over from the low-energy
parametrisation, used up to the lower end of the nucleon-nucleon region, to the high-energy one, used from its
upper end on; in between it lies between the two. -/
theorem C113_bbbar {W : World} {H : Hi} {P : Params} {a b : PType} {x : ℝ} (hs : sign a * sign b = -1)
    (hne : a.pdg ≠ b.pdg) (hr : P.rangeNN.1 < P.rangeNN.2) (h : highBB W H P a b = .ok x) :
    let e := effS (sOf W) W.m1 W.m2
    let high := if Pdg.code a.pdg = -Pdg.code b.pdg then H.f .ppbarHigh e else H.f .npbarHigh e
    (W.sqrts ≤ P.rangeNN.1 → x = H.f .ppbarTot e) ∧ (P.rangeNN.2 ≤ W.sqrts → x = high) ∧
    min (H.f .ppbarTot e) high ≤ x ∧ x ≤ max (H.f .ppbarTot e) high := by
  intro e high
  unfold highBB at h
  dsimp only at h
  have hne' : (a.pdg == b.pdg) = false := by simpa using hne
  rw [hne', hs] at h
  simp only [Bool.false_eq_true, if_false] at h
  rw [if_neg (by norm_num), if_pos trivial] at h
  cases ht : transit W.sqrts P.rangeNN.1 P.rangeNN.2 with
  | error err =>
    rw [ht] at h
    cases h
  | ok p =>
    rw [ht] at h
    injection h with h
    have hx : H.f .ppbarTot e * (1 - p) + high * p = x := h
    obtain ⟨h0, h1⟩ := C113_transit hr ht
    obtain ⟨r0, r1⟩ := transit_range ht
    refine ⟨fun w => ?_, fun w => ?_, ?_, ?_⟩
    · rw [h0.2 w] at hx; linarith
    · rw [h1.2 w] at hx; linarith
    · have a1 := min_le_left (H.f .ppbarTot e) high
      have a2 := min_le_right (H.f .ppbarTot e) high
      nlinarith
    · have a1 := le_max_left (H.f .ppbarTot e) high
      have a2 := le_max_right (H.f .ppbarTot e) high
      nlinarith

/-- **C113** (region). For pairs other than pion-nucleon and nucleon-nucleon the region has the configured
width and starts, at the configured distance, above the sum of the masses: that for kaon-nucleon, for pion-pion
or for the rest. -/
theorem C113_region {P : Params} {a b : PType} (h1 : npiPair a b = false) (h2 : nnPair a b = false) :
    (region P a b).2 - (region P a b).1 = P.width ∧
    ((region P a b).1 - (a.mass + b.mass) = P.knOffset ∨ (region P a b).1 - (a.mass + b.mass) = P.pipiOffset ∨
      (region P a b).1 - (a.mass + b.mass) = P.addLower) ∧
    (isKplusP a b = true → (region P a b).1 - (a.mass + b.mass) = P.knOffset) ∧
    (isKplusP a b = false → isPion a = true → isPion b = true →
      (region P a b).1 - (a.mass + b.mass) = P.pipiOffset) ∧
    (isKplusP a b = false → isPion a = false → (region P a b).1 - (a.mass + b.mass) = P.addLower) := by
  have hr : region P a b =
      (a.mass + b.mass + aqmOffset P a b, a.mass + b.mass + aqmOffset P a b + P.width) := by
    unfold region
    rw [h1, h2]
    simp
  rw [hr]
  dsimp only
  rw [add_sub_cancel_left, add_sub_cancel_left]
  refine ⟨rfl, ?_, ?_, ?_, ?_⟩
  · unfold aqmOffset
    split_ifs
    · exact Or.inl rfl
    · exact Or.inr (Or.inl rfl)
    · exact Or.inr (Or.inr rfl)
  · intro h
    unfold aqmOffset
    rw [h]; rfl
  · intro h h' h''
    unfold aqmOffset
    rw [h, h', h'']; rfl
  · intro h h'
    unfold aqmOffset
    rw [h, h']; rfl

end Verif.Tot
