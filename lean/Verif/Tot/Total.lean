import Verif.Tot.Strings
import Verif.Tot.Prob

/-!
The total cross section of a pair (C112).
-/

namespace Verif.Tot

open Verif Sec

theorem bind_ok {ε α β : Type} {x : Except ε α} {f : α → Except ε β} {y : β}
    (h : (x >>= f) = .ok y) : ∃ a, x = .ok a ∧ f a = .ok y := by
  cases x with
  | error e => cases h
  | ok a => exact ⟨a, rfl, h⟩

/-- The parts of the list of channels. -/
theorem generate_parts {W : World} {H : Hi} {P : Params} {a b : PType} {sp : Bool} {l : List Chan}
    (h : generate W H P a b sp = .ok l) (hc : H.core1 = H.core2) :
    ∃ p el st low nn,
      (if P.withProbability = true then stringProbability P a b W.sqrts else .ok 0) = .ok p ∧
      elasticPart W H P a b = .ok el ∧ stringPart W H P a b sp p (sumXs el) = .ok st ∧
      lowPart W H P a b p = .ok low ∧
      nnbarPart W H P a b (sumXs (el ++ st ++ low)) = .ok nn ∧ l = el ++ st ++ low ++ nn := by
  unfold generate at h
  obtain ⟨p, hp, h⟩ := bind_ok h
  obtain ⟨el, hel, h⟩ := bind_ok h
  rw [if_neg (by simp [hc])] at h
  obtain ⟨st, hst, h⟩ := bind_ok h
  obtain ⟨low, hlow, h⟩ := bind_ok h
  obtain ⟨nn, hnn, h⟩ := bind_ok h
  injection h with h
  exact ⟨p, el, st, low, nn, hp, hel, hst, hlow, hnn, h.symm⟩

theorem elasticPart_elastic {W : World} {H : Hi} {P : Params} {a b : PType} {l : List Chan}
    (h : elasticPart W H P a b = .ok l) : ∀ c ∈ l, c.proc = .elastic ∧ c.out = [a, b] := by
  unfold elasticPart at h
  split at h
  · obtain ⟨c, hc, h⟩ := bind_ok h
    injection h with h
    subst h
    unfold elasticChan at hc
    obtain ⟨x, _, hc⟩ := bind_ok hc
    injection hc with hc
    subst hc
    intro d hd
    rw [List.mem_singleton] at hd
    subst hd
    exact ⟨rfl, rfl⟩
  · injection h with h
    subst h
    intro c hc
    exact absurd hc List.not_mem_nil

theorem elasticXs_all {l : List Chan} (h : ∀ c ∈ l, c.proc = .elastic) : elasticXs l = sumXs l := by
  have : l.filter (fun c => c.proc == .elastic) = l := by
    rw [List.filter_eq_self]
    intro c hc
    simpa using h c hc
  rw [elasticXs, this]

theorem lift_ok {α : Type} {x : Except Sec.Err α} {y : α} (h : lift x = .ok y) : x = .ok y := by
  cases x with
  | error e => cases h
  | ok z => injection h with h; rw [h]

theorem twoToOne_proc {W : World} {H : Hi} {a b : PType} :
    ∀ c ∈ twoToOne W H a b, c.proc = .twoToOne := by
  intro c hc
  obtain ⟨r, _, hc⟩ := List.mem_flatMap.1 hc
  split at hc
  · rw [List.mem_singleton] at hc; subst hc; rfl
  · exact absurd hc List.not_mem_nil

theorem breakUp_proc {W : World} {a b n t : PType} {l : List Chan} (h : breakUp W a b n t = .ok l) :
    ∀ c ∈ l, c.proc = .twoToThree := by
  unfold breakUp at h
  split at h
  all_goals
    obtain ⟨p, _, h⟩ := bind_ok h
    obtain ⟨q, _, h⟩ := bind_ok h
    injection h with h
    subst h
    intro c hc
    rw [List.mem_singleton] at hc
    subst hc
    rfl

theorem ok_nil {l : List Chan} (h : (Except.ok [] : Except Err (List Chan)) = .ok l) : l = [] := by
  injection h with h; exact h.symm

theorem twoToThree_proc {W : World} {a b : PType} {l : List Chan} (h : twoToThree W a b = .ok l) :
    ∀ c ∈ l, c.proc = .twoToThree := by
  unfold twoToThree at h
  obtain ⟨l1, h1, h⟩ := bind_ok h
  obtain ⟨l2, h2, h⟩ := bind_ok h
  injection h with h
  subst h
  intro c hc
  rcases List.mem_append.1 hc with hc | hc
  · split at h1
    · exact breakUp_proc h1 c hc
    · rw [ok_nil h1] at hc; exact absurd hc List.not_mem_nil
  · split at h2
    · exact breakUp_proc h2 c hc
    · rw [ok_nil h2] at hc; exact absurd hc List.not_mem_nil

theorem twoToFour_shape {W : World} {a b : PType} {l : List Chan} (h : twoToFour W a b = .ok l) :
    l = [] ∨ ∃ n c c1 c2 c3 r t1 t2 t3,
      ((n = a ∧ c = b) ∨ (n = b ∧ c = a)) ∧ Pdg.isNucleus n.pdg = true ∧
      (Pdg.baryonNumber n.pdg).natAbs = 3 ∧ (isPion c || isNucleon c) = true ∧
      components W n = c1 :: c2 :: c3 :: r ∧ deref c1 = .ok t1 ∧ deref c2 = .ok t2 ∧
      deref c3 = .ok t3 ∧ l = [⟨.twoToFour, [c, t1, t2, t3], xs24 W n c⟩] := by
  have key : ((if Pdg.isNucleus a.pdg then a else b) = a ∧ (if Pdg.isNucleus a.pdg then b else a) = b)
      ∨ ((if Pdg.isNucleus a.pdg then a else b) = b ∧ (if Pdg.isNucleus a.pdg then b else a) = a) := by
    by_cases q : Pdg.isNucleus a.pdg = true <;> simp [q]
  unfold twoToFour at h
  extract_lets n c at h
  have key' : (n = a ∧ c = b) ∨ (n = b ∧ c = a) := key
  clear_value n c
  split at h
  · rename_i hq
    simp only [Bool.and_eq_true, beq_iff_eq] at hq
    split at h
    · rename_i c1 c2 c3 r hcomp
      obtain ⟨t1, h1, h⟩ := bind_ok h
      obtain ⟨t2, h2, h⟩ := bind_ok h
      obtain ⟨t3, h3, h⟩ := bind_ok h
      split at h
      · injection h with h
        exact .inr ⟨n, c, c1, c2, c3, r, t1, t2, t3, key', hq.1.1, hq.1.2, hq.2, hcomp, h1, h2, h3,
          h.symm⟩
      · exact .inl (ok_nil h)
    · cases h
  · exact .inl (ok_nil h)

theorem twoToFour_proc {W : World} {a b : PType} {l : List Chan} (h : twoToFour W a b = .ok l) :
    ∀ c ∈ l, c.proc = .twoToFour := by
  intro c hc
  rcases twoToFour_shape h with rfl | ⟨n, d, _, _, _, _, t1, t2, t3, _, _, _, _, _, _, _, _, rfl⟩
  · exact absurd hc List.not_mem_nil
  · rw [List.mem_singleton] at hc; subst hc; rfl

theorem lowChannels_proc {W : World} {H : Hi} {P : Params} {a b : PType} {l : List Chan}
    (h : lowChannels W H P a b = .ok l) : ∀ c ∈ l, c.proc ≠ .elastic := by
  unfold lowChannels at h
  obtain ⟨l22, h22, h⟩ := bind_ok h
  obtain ⟨l23, h23, h⟩ := bind_ok h
  obtain ⟨l24, h24, h⟩ := bind_ok h
  injection h with h
  subst h
  intro c hc
  rcases List.mem_append.1 hc with hc | hc
  · rcases List.mem_append.1 hc with hc | hc
    · rcases List.mem_append.1 hc with hc | hc
      · split at hc
        · rw [twoToOne_proc c hc]; decide
        · exact absurd hc List.not_mem_nil
      · rw [of22_proc _ c hc]; decide
    · split at h23
      · rw [twoToThree_proc h23 c hc]; decide
      · rw [ok_nil h23] at hc; exact absurd hc List.not_mem_nil
  · split at h24
    · rw [twoToFour_proc h24 c hc]; decide
    · rw [ok_nil h24] at hc; exact absurd hc List.not_mem_nil

theorem lowPart_proc {W : World} {H : Hi} {P : Params} {a b : PType} {p : ℝ} {l : List Chan}
    (h : lowPart W H P a b p = .ok l) : ∀ c ∈ l, c.proc ≠ .elastic := by
  unfold lowPart at h
  split at h
  · obtain ⟨m, hm, h⟩ := bind_ok h
    injection h with h
    subst h
    exact scaled_proc (lowChannels_proc hm)
  · rw [ok_nil h]; intro c hc; exact absurd hc List.not_mem_nil

/-- Sum of the string part. -/
theorem stringPart_sum {W : World} {H : Hi} {P : Params} (hp : Physical H P) {a b : PType} {sp : Bool}
    {p cur : ℝ} {st : List Chan} (h : stringPart W H P a b sp p cur = .ok st)
    (hnpi : npiPair a b = false) (h0 : 0 ≤ p) :
    (∀ c ∈ st, c.proc ≠ .elastic) ∧
      ∀ h, (0 < p → highEnergy W H P a b = .ok h) → sumXs st = p * (max (P.scale * h) cur - cur) := by
  unfold stringPart at h
  split at h
  · rename_i hpos
    obtain ⟨h', hh, h⟩ := bind_ok h
    obtain ⟨l, hl, h⟩ := bind_ok h
    obtain ⟨r, hr, h⟩ := bind_ok h
    injection h with h
    have hr' : r = [] := by
      have := lift_ok hr
      unfold rareTwoToTwo at this
      have e : (isNucleon a && isPion b || isNucleon b && isPion a) = false := by
        unfold npiPair at hnpi
        rw [Bool.or_eq_false_iff] at *
        rw [Bool.and_comm (isNucleon b)]
        exact ⟨hnpi.2, hnpi.1⟩
      rw [e] at this
      injection this with this
      exact this.symm
    subst hr'
    obtain ⟨hs, hel, _⟩ := C112_string_channels W H P hp a b sp _ l hl
    have e : scaled (p * P.scale) (of22 []) = [] := rfl
    rw [e, List.append_nil] at h
    subst h
    refine ⟨scaled_proc hel, ?_⟩
    intro h2 hh2
    rw [hh2 hpos] at hh
    injection hh with hh
    subst hh
    rw [sumXs_scaled, hs, max_eq_right (le_max_left _ _)]
    have : max 0 (P.scale * h2 - cur) = max (P.scale * h2) cur - cur := by
      rcases le_total (P.scale * h2) cur with q | q
      · rw [max_eq_left (by linarith), max_eq_right q]; ring
      · rw [max_eq_right (by linarith), max_eq_left q]
    rw [this]; ring
  · rename_i hpos
    have : p = 0 := by linarith
    rw [ok_nil h]
    refine ⟨fun c hc => absurd hc List.not_mem_nil, ?_⟩
    intro _ _
    rw [this, sumXs_nil]; ring

/-- **C112** (total). A pair that is not a nucleon and a pion, without annihilation into resonances or
five pions: if `p` is its probability of string excitation and `l₀` are its channels when strings are
switched off, the total cross section is `(1 - p)` times that of `l₀` plus `p` times the parametrised
total cross section (or the elastic one where that is larger). In particular it is the parametrised
one where only strings are used. -/
theorem C112_total_partial (W : World) (H : Hi) (P : Params) (hp : Physical H P) (a b : PType)
    (sp : Bool) (l l₀ : List Chan) (p h : ℝ) (hw : P.withProbability = true)
    (hc : H.core1 = H.core2) (hnpi : npiPair a b = false)
    (hnn : P.nnbar = .none ∨ P.nnbar = .strings)
    (hl : generate W H P a b sp = .ok l)
    (hl₀ : generate W H { P with stringsSwitch := false } a b sp = .ok l₀)
    (hprob : stringProbability P a b W.sqrts = .ok p)
    (hh : 0 < p → highEnergy W H P a b = .ok h) :
    sumXs l = (1 - p) * sumXs l₀ + p * max (P.scale * h) (elasticXs l) := by
  obtain ⟨q, el, st, low, nn, e1, e2, e3, e4, e5, rfl⟩ := generate_parts hl hc
  obtain ⟨q0, el0, st0, low0, nn0, f1, f2, f3, f4, f5, rfl⟩ := generate_parts hl₀ hc
  rw [if_pos hw, hprob] at e1
  injection e1 with e1
  subst e1
  obtain ⟨r0, r1⟩ := C113_range P a b W.sqrts p hprob
  rw [if_pos hw] at f1
  have f1' : q0 = 0 := by
    unfold stringProbability at f1
    simp only [Bool.not_false, if_true] at f1
    injection f1 with f1
    exact f1.symm
  subst f1'
  have g2 : el0 = el := by
    have : elasticPart W H { P with stringsSwitch := false } a b = elasticPart W H P a b := rfl
    rw [this, e2] at f2
    injection f2 with f2
    exact f2.symm
  subst g2
  have g3 : st0 = [] := by
    unfold stringPart at f3
    rw [if_neg (lt_irrefl _)] at f3
    exact ok_nil f3
  subst g3
  have nnil : ∀ (Q : Params) (x : ℝ) (m : List Chan), Q.nnbar = P.nnbar →
      nnbarPart W H Q a b x = .ok m → m = [] := by
    intro Q x m hQ hm
    unfold nnbarPart at hm
    rw [hQ] at hm
    rcases hnn with h' | h' <;> rw [h'] at hm <;> exact ok_nil hm
  have g5 := nnil P _ _ rfl e5
  subst g5
  have g6 := nnil { P with stringsSwitch := false } _ _ rfl f5
  subst g6
  obtain ⟨hst, hsum⟩ := stringPart_sum hp e3 hnpi r0
  have hsum := hsum h hh
  have hel := elasticXs_all fun c hc => (elasticPart_elastic e2 c hc).1
  have hlow : sumXs low = (1 - p) * sumXs low0 := by
    unfold lowPart at f4
    rw [if_pos (by norm_num)] at f4
    obtain ⟨m, hm, f4⟩ := bind_ok f4
    injection f4 with f4
    have hm' : lowChannels W H P a b = .ok m := hm
    unfold lowPart at e4
    split at e4
    · obtain ⟨m', hm2, e4⟩ := bind_ok e4
      rw [hm'] at hm2
      injection hm2 with hm2
      injection e4 with e4
      subst hm2
      rw [← e4, ← f4, sumXs_scaled, sumXs_scaled]
      show sumXs m * ((1 - p) * P.scale) = (1 - p) * (sumXs m * ((1 - 0) * P.scale))
      ring
    · have : p = 1 := by linarith
      rw [ok_nil e4, this, sumXs_nil]; ring
  have hE : elasticXs (el0 ++ st ++ low ++ []) = sumXs el0 := by
    rw [List.append_nil, elasticXs_append, elasticXs_append, hel, elasticXs_zero hst,
      elasticXs_zero (lowPart_proc e4)]
    ring
  rw [hE]
  simp only [sumXs_append, sumXs_nil, hsum, hlow]
  ring

/-- **C112** (without the probability). If strings are not chosen with a probability, they fill the
gap between the other channels and the parametrised cross section, wherever that is larger. -/
theorem C112_gap (W : World) (H : Hi) (P : Params) (hp : Physical H P) (a b : PType) (sp : Bool)
    (l m : List Chan) (p h : ℝ) (hw : P.withProbability = false)
    (hl : generate W H P a b sp = .ok l) (hm : allScatterings W H P a b sp = .ok m)
    (hprob : stringProbability P a b W.sqrts = .ok p) (hpos : 0 < p)
    (hh : highEnergy W H P a b = .ok h) : sumXs m = max h (sumXs l) := by
  unfold allScatterings at hm
  obtain ⟨l', hl', hm⟩ := bind_ok hm
  rw [hl] at hl'
  injection hl' with hl'
  subst hl'
  rw [hw] at hm
  simp only [Bool.not_false, if_true] at hm
  obtain ⟨p', hp', hm⟩ := bind_ok hm
  rw [hprob] at hp'
  injection hp' with hp'
  subst hp'
  rw [if_pos hpos] at hm
  obtain ⟨h', hh', hm⟩ := bind_ok hm
  rw [hh] at hh'
  injection hh' with hh'
  subst hh'
  split at hm
  · rename_i q
    obtain ⟨st, hst, hm⟩ := bind_ok hm
    injection hm with hm
    subst hm
    rw [sumXs_append, (C112_string_channels W H P hp a b sp _ st hst).1, max_eq_right q.le,
      max_eq_left (by linarith)]
    ring
  · rename_i q
    injection hm with hm
    subst hm
    rw [max_eq_right (by linarith)]

/-- **C112** (defined). Strings can always be excited if PYTHIA gives a positive cross section for
single diffraction and the quark model does not suppress the pair completely. -/
theorem C112_defined (W : World) (H : Hi) (P : Params) (a b : PType)
    (hd : ∀ s, 0 < (H.diffr a b s).1 + (H.diffr a b s).2.1)
    (hk : P.useAQM = true → 0 < aqm P a * aqm P b) (total : ℝ) :
    ∃ l, stringExcitation W H P a b true total = .ok l := by
  unfold stringExcitation
  rw [if_neg (by simp)]
  split
  · exact ⟨_, rfl⟩
  · unfold stringWeights
    dsimp only
    rw [if_neg]
    · exact ⟨_, rfl⟩
    · split
      · rename_i hq
        have := hk hq
        have h2 := hd (Real.sqrt (if canAnnihilate a b = true then effS (sOf W) W.m1 W.m2 else sOf W))
        dsimp only
        nlinarith
      · exact (hd _).ne'

theorem mem_ite {α : Type} {p : Prop} [Decidable p] {l : List α} {x : α}
    (h : x ∈ if p then l else []) : p ∧ x ∈ l := by
  split at h
  · rename_i hp
    exact ⟨hp, h⟩
  · exact absurd h List.not_mem_nil

theorem stringWeights_ann {total ann hard : ℝ} {d : ℝ × ℝ × ℝ} {f : Bool} {l : List Chan}
    (h : stringWeights total d ann hard f = .ok l) {c : Chan} (hc : c ∈ l)
    (hk : c.proc = .softAnnihilation) : f = true ∧ c.weight = ann := by
  unfold stringWeights at h
  dsimp only at h
  split at h
  · cases h
  · injection h with h
    subst h
    rw [List.mem_append] at hc
    rcases hc with hc | hc
    · have hc := (mem_ite hc).2
      rw [List.mem_append] at hc
      rcases hc with hc | hc
      · simp only [List.mem_cons, List.not_mem_nil, or_false] at hc
        rcases hc with rfl | rfl | rfl | rfl <;> cases hk
      · obtain ⟨hf, hc⟩ := mem_ite hc
        rw [List.mem_singleton] at hc
        subst hc
        exact ⟨hf, rfl⟩
    · have hc := (mem_ite hc).2
      rw [List.mem_singleton] at hc
      subst hc
      cases hk

/-- **C112** (annihilation). Strings annihilate only for a baryon and an antibaryon which share a
quark flavour, and never with more than the cross section left for strings. -/
theorem C112_annihilation (W : World) (H : Hi) (P : Params) (a b : PType) (sp : Bool) (total : ℝ)
    (l : List Chan) (h : stringExcitation W H P a b sp total = .ok l) (c : Chan) (hc : c ∈ l)
    (hk : c.proc = .softAnnihilation) :
    (Pdg.isBaryon a.pdg = true ∧ Pdg.isBaryon b.pdg = true ∧
      Pdg.antiparticleSign a.pdg = -Pdg.antiparticleSign b.pdg ∧
      ∃ q, 1 ≤ q ∧ q ≤ 5 ∧ Pdg.netQuark a.pdg q ≠ 0 ∧ Pdg.netQuark b.pdg q ≠ 0) ∧ c.weight ≤ total := by
  unfold stringExcitation at h
  split at h
  · cases h
  · split at h
    · injection h with h
      subst h
      exact absurd hc List.not_mem_nil
    · obtain ⟨q, hw⟩ := stringWeights_ann h hc hk
      refine ⟨?_, ?_⟩
      · unfold canAnnihilate isBBbar sign at q
        simp only [Bool.and_eq_true, List.any_eq_true, bne_iff_ne, beq_iff_eq] at q
        obtain ⟨⟨⟨h1, h2⟩, h3⟩, f, hf, h4, h5⟩ := q
        refine ⟨h1, h2, h3, f, ?_, ?_, h4, h5⟩
        all_goals
          simp only [List.mem_cons, List.not_mem_nil, or_false] at hf
          omega
      · rw [hw, if_pos q]
        exact min_le_left _ _

end Verif.Tot
