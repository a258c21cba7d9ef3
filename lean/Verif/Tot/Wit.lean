import Verif.Tot.Total
import Verif.Sec.Wit

/-!
Concrete cases for C112 and C113, and the cases where the English claims fail.
-/

namespace Verif.Tot

open Verif Sec

/-- Parameters of the default configuration, without elastic and resonance channels. -/
noncomputable def someP (withProbability : Bool) (scale : ℝ) : Params where
  elasticParam := -1
  lowSnnCut := 198 / 100
  scale := scale
  additionalEl := 0
  elastic := false
  nnbarBit := false
  inc := ⟨false, false, false, false, false, false, false, false⟩
  deuteron3to2 := false
  a3nuclei4to2 := false
  nnbar := .strings
  twoToOne := false
  stringsSwitch := true
  useAQM := false
  withProbability := withProbability
  rangeNpi := (19 / 10, 22 / 10)
  rangeNN := (35 / 10, 45 / 10)
  addLower := 2 / 10
  width := 1
  pipiOffset := 112 / 100
  knOffset := 1515 / 100
  charmSuppression := 1 / 2
  bottomSuppression := 1 / 2

/-- Oracles with constant values. -/
noncomputable def someH (x : ℝ) (d : ℝ × ℝ × ℝ) : Hi where
  f := fun _ _ => x
  g := fun _ _ => x
  diffr := fun _ _ _ => d
  decays := fun _ _ _ => false
  inWidth := fun _ => 0
  spectral := fun _ => 0
  core1 := false
  core2 := false

theorem some_physical (x : ℝ) (hx : 0 ≤ x) (y : Bool) (s : ℝ) :
    Physical (someH x (1, 1, 1)) (someP y s) := by
  constructor
  · intro _ _; exact hx
  · intro _ _; exact hx
  · intro _ _ _; exact zero_le_one
  · intro _ _ _; exact zero_le_one
  · intro _ _ _; exact zero_le_one
  · constructor <;> norm_num [someP]
  · constructor <;> norm_num [someP]

theorem aqm_plain (P : Params) (t : PType) (h : Pdg.strangeness t.pdg = 0 ∧ Pdg.charmness t.pdg = 0 ∧
    Pdg.bottomness t.pdg = 0) (hb : Pdg.isBaryon t.pdg = true) : aqm P t = 1 := by
  unfold aqm frac
  rw [hb, h.1, h.2.1, h.2.2]
  norm_num

theorem proton_aqm (P : Params) : aqm P protonT = 1 :=
  aqm_plain P protonT (by decide +kernel) (by decide +kernel)

/-- The cross section of two protons. -/
theorem pp_high (W : World) (x : ℝ) (d : ℝ × ℝ × ℝ) (P : Params) :
    highEnergy W (someH x d) P protonT protonT = .ok x := by
  have b1 : Pdg.isBaryon protonT.pdg = true := by decide +kernel
  have b2 : Pdg.isMeson protonT.pdg = false := by decide +kernel
  have b3 : (protonT.pdg == piP) = false := by decide +kernel
  have b4 : (protonT.pdg == piM) = false := by decide +kernel
  unfold highEnergy highBB
  simp [b1, b2, b3, b4, proton_aqm, bind, Except.bind, someH]

noncomputable def ppWorld : World := mkWorld [protonT] 5 fun _ => 1

theorem pp_prob (y : Bool) (s : ℝ) :
    stringProbability (someP y s) protonT protonT ppWorld.sqrts = .ok 1 := by
  have b1 : nnPair protonT protonT = true := by decide +kernel
  have b2 : isNNbar protonT protonT = false := by decide +kernel
  have b3 : bbbarPair (someP y s) protonT protonT = false := by
    have e : (isNucleon protonT && isNucleon protonT && sign protonT != sign protonT) = false := by
      decide +kernel
    unfold bbbarPair
    rw [e]
    simp [someP]
  have b4 : npiPair protonT protonT = false := by decide +kernel
  have b5 : isKplusP protonT protonT = false := by decide +kernel
  have b6 : isPion protonT = false := by decide +kernel
  unfold stringProbability
  simp only [b1, b2, b3, Bool.not_true, Bool.false_and, Bool.false_eq_true, if_false]
  cases y
  · have : ppWorld.sqrts > protonT.mass + protonT.mass + aqmOffset (someP false s) protonT protonT := by
      unfold aqmOffset
      rw [b5, b6]
      norm_num [ppWorld, mkWorld, protonT, mkType, someP]
    simp [someP, if_pos this]
    simpa [someP] using this
  · have : ppWorld.sqrts > (region (someP true s) protonT protonT).2 := by
      unfold region
      rw [b4, b1]
      norm_num [ppWorld, mkWorld, someP]
    rw [if_pos this]
    simp [someP]

/-- Without other channels. -/
theorem pp_low (W : World) (H : Hi) (y : Bool) (s p : ℝ) :
    lowPart W H (someP y s) protonT protonT p = .ok [] := by
  unfold lowPart lowChannels
  simp [someP, bind, Except.bind, of22, scaled]

theorem pp_el (W : World) (H : Hi) (a b : PType) (y : Bool) (s : ℝ) :
    elasticPart W H (someP y s) a b = .ok [] := by
  unfold elasticPart
  simp [someP]

theorem defined_strings (W : World) (x : ℝ) (y : Bool) (s total : ℝ) (a b : PType) :
    ∃ l, stringExcitation W (someH x (1, 1, 1)) (someP y s) a b true total = .ok l :=
  C112_defined W _ _ a b (fun _ => by norm_num [someH]) (fun h => by simp [someP] at h) total

theorem generate_of {W : World} {H : Hi} {P : Params} {a b : PType} {sp : Bool} {p : ℝ}
    {el st low nn : List Chan} (hc : H.core1 = H.core2)
    (h1 : (if P.withProbability = true then stringProbability P a b W.sqrts else .ok 0) = .ok p)
    (h2 : elasticPart W H P a b = .ok el) (h3 : stringPart W H P a b sp p (sumXs el) = .ok st)
    (h4 : lowPart W H P a b p = .ok low)
    (h5 : nnbarPart W H P a b (sumXs (el ++ st ++ low)) = .ok nn) :
    generate W H P a b sp = .ok (el ++ st ++ low ++ nn) := by
  unfold generate
  simp only [h1, h2, bind, Except.bind]
  rw [if_neg (by simp [hc])]
  simp only [h3, h4, h5]

/-- The hypotheses of `C112_total_partial` hold for two protons at 5 GeV, where only strings are
used: their total cross section is the parametrised one. -/
example : ∃ l, generate ppWorld (someH 40 (1, 1, 1)) (someP true 1) protonT protonT true = .ok l ∧
    sumXs l = 40 := by
  obtain ⟨st, hst⟩ := defined_strings ppWorld 40 true 1 (max 0 (1 * 40 - 0)) protonT protonT
  have hr : rareTwoToTwo ppWorld protonT protonT = .ok [] := by
    unfold rareTwoToTwo
    rw [if_neg (by decide +kernel)]
  have hl : generate ppWorld (someH 40 (1, 1, 1)) (someP true 1) protonT protonT true =
      .ok ([] ++ scaled 1 st ++ [] ++ []) := by
    refine generate_of (p := 1) rfl (pp_prob true 1) (pp_el _ _ _ _ _ _) ?_ (pp_low _ _ _ _ _) rfl
    have hs1 : (someP true 1).scale = 1 := rfl
    have e : scaled (1 * 1) (of22 []) = [] := rfl
    unfold stringPart
    rw [if_pos one_pos]
    simp only [pp_high, hs1, sumXs_nil, hst, hr, lift, bind, Except.bind, e, List.append_nil]
  have hl0 : generate ppWorld (someH 40 (1, 1, 1)) { someP true 1 with stringsSwitch := false }
      protonT protonT true = .ok ([] ++ [] ++ [] ++ []) := by
    refine generate_of (p := 0) rfl ?_ (pp_el _ _ _ _ true 1) ?_ (pp_low _ _ true 1 _) rfl
    · simp [someP, stringProbability]
    · simp [stringPart]
  refine ⟨_, hl, ?_⟩
  have := C112_total_partial ppWorld (someH 40 (1, 1, 1)) (someP true 1)
    (some_physical 40 (by norm_num) _ _) protonT protonT true _ _ 1 40 rfl rfl (by decide +kernel)
    (Or.inr rfl) hl hl0 (pp_prob true 1) (fun _ => pp_high _ _ _ _)
  rw [this]
  have he : elasticXs ([] ++ scaled 1 st ++ [] ++ []) = 0 :=
    elasticXs_zero (by
      simpa using scaled_proc (C112_string_channels ppWorld _ _ (some_physical 40 (by norm_num) _ _)
        protonT protonT true _ st hst).2.1)
  rw [he]
  norm_num [someP]

/-- **C112** is false for a nucleon and a pion: the production of a hyperon and a kaon is added on
top of the parametrised total cross section. -/
theorem C112_rare_false : ∃ (W : World) (H : Hi) (P : Params) (a b : PType) (l : List Chan) (h : ℝ),
    Physical H P ∧ H.core1 = H.core2 ∧ P.withProbability = true ∧
      stringProbability P a b W.sqrts = .ok 1 ∧ highEnergy W H P a b = .ok h ∧ P.scale = 1 ∧
      generate W H P a b true = .ok l ∧ elasticXs l = 0 ∧ h < sumXs l := by
  have b1 : (Pdg.isBaryon piMinusT.pdg && Pdg.isBaryon protonT.pdg) = false := by decide +kernel
  obtain ⟨h, hh⟩ : ∃ h, highEnergy piWorld (someH 40 (1, 1, 1)) (someP true 1) piMinusT protonT =
      .ok h := by
    unfold highEnergy
    rw [b1]
    exact ⟨_, rfl⟩
  obtain ⟨st, hst⟩ := defined_strings piWorld 40 true 1 (max 0 (1 * h - 0)) piMinusT protonT
  have hp : stringProbability (someP true 1) piMinusT protonT piWorld.sqrts = .ok 1 := by
    have c1 : npiPair piMinusT protonT = true := by decide +kernel
    have c2 : isNNbar piMinusT protonT = false := by decide +kernel
    have c3 : bbbarPair (someP true 1) piMinusT protonT = false := by
      have e : (isNucleon piMinusT && isNucleon protonT && sign piMinusT != sign protonT) = false := by
        decide +kernel
      unfold bbbarPair
      rw [e]
      simp [someP]
    have : piWorld.sqrts > (region (someP true 1) piMinusT protonT).2 := by
      unfold region
      rw [c1]
      norm_num [piWorld, mkWorld, someP]
    unfold stringProbability
    simp only [c1, c2, c3, Bool.not_true, Bool.and_false, Bool.false_and, Bool.false_eq_true, if_false]
    rw [if_pos this]
    simp [someP]
  have hsc := C112_string_channels piWorld _ _ (some_physical 40 (by norm_num) true 1)
      piMinusT protonT true _ st hst
  refine ⟨piWorld, someH 40 (1, 1, 1), someP true 1, piMinusT, protonT,
    scaled 1 st ++ scaled (1 * 1) (of22 [⟨[kPlusT, sigmaMinusT], 1⟩, ⟨[kZeroT, sigmaZeroT], 1⟩,
      ⟨[kZeroT, lambdaT], 1⟩]), h, some_physical 40 (by norm_num) true 1, rfl, rfl, hp, hh, rfl, ?_, ?_, ?_⟩
  · have hw : (someP true 1).withProbability = true := rfl
    have hs1 : (someP true 1).scale = 1 := rfl
    have hlow : lowPart piWorld (someH 40 (1, 1, 1)) (someP true 1) piMinusT protonT 1 = .ok [] := by
      unfold lowPart
      rw [if_neg (lt_irrefl _)]
    have hn : ∀ x, nnbarPart piWorld (someH 40 (1, 1, 1)) (someP true 1) piMinusT protonT x = .ok [] :=
      fun _ => rfl
    have hr := rare_piMinus.1
    unfold generate
    simp only [hw, if_true, hp, pp_el, bind, Except.bind]
    rw [if_neg (by simp [someH])]
    unfold stringPart
    rw [if_pos one_pos]
    simp only [hh, hs1, sumXs_nil, hst, hr, lift, bind, Except.bind, hlow, hn, List.append_nil,
      List.nil_append]
  · rw [elasticXs_append, elasticXs_zero (scaled_proc hsc.2.1), elasticXs_zero (scaled_proc (q := .elastic)
      fun c hc => by rw [of22_proc _ c hc]; decide)]
    norm_num
  · rw [sumXs_append, sumXs_scaled, sumXs_scaled, hsc.1]
    have : sumXs (of22 [⟨[kPlusT, sigmaMinusT], 1⟩, ⟨[kZeroT, sigmaZeroT], 1⟩,
      ⟨[kZeroT, lambdaT], 1⟩]) = 3 := by
      simp only [of22, List.map_cons, List.map_nil, sumXs_cons, sumXs_nil]; norm_num
    rw [this, max_eq_right (le_max_left _ _)]
    have := le_max_right (0 : ℝ) (1 * h - 0)
    linarith

/-- **C112** is false if strings are not chosen with a probability: they do not follow the factor by
which all cross sections are to be multiplied. -/
theorem C112_unscaled_false : ∃ (W : World) (H : Hi) (P : Params) (a b : PType) (l m : List Chan),
    Physical H P ∧ P.scale = 1 ∧ allScatterings W H P a b true = .ok l ∧
      allScatterings W H { P with scale := 2 } a b true = .ok m ∧ 0 < sumXs l ∧
      sumXs m = sumXs l := by
  have key : ∀ s, ∃ l, allScatterings ppWorld (someH 40 (1, 1, 1)) (someP false s) protonT protonT true
      = .ok l ∧ sumXs l = 40 := by
    intro s
    have hl : generate ppWorld (someH 40 (1, 1, 1)) (someP false s) protonT protonT true = .ok [] := by
      have hw : (someP false s).withProbability = false := rfl
      have hn : ∀ x, nnbarPart ppWorld (someH 40 (1, 1, 1)) (someP false s) protonT protonT x = .ok [] :=
        fun _ => rfl
      unfold generate
      simp only [hw, Bool.false_eq_true, if_false, pp_el, bind, Except.bind]
      rw [if_neg (by simp [someH])]
      simp [stringPart, pp_low, hn]
    obtain ⟨st, hst⟩ := defined_strings ppWorld 40 false s 40 protonT protonT
    have hw : (someP false s).withProbability = false := rfl
    have hm : allScatterings ppWorld (someH 40 (1, 1, 1)) (someP false s) protonT protonT true =
        .ok ([] ++ st) := by
      have e : (40 : ℝ) - 0 = 40 := by norm_num
      unfold allScatterings
      simp only [hl, hw, Bool.not_false, if_true, pp_prob, pp_high, bind, Except.bind]
      rw [if_pos one_pos]
      simp only [sumXs_nil, e, hst]
      rw [if_pos (by norm_num)]
    refine ⟨_, hm, ?_⟩
    rw [C112_gap ppWorld _ _ (some_physical 40 (by norm_num) false s) protonT protonT true [] _ 1 40 hw hl hm
      (pp_prob false s) one_pos (pp_high _ _ _ _), sumXs_nil]
    norm_num
  obtain ⟨l, h1, h2⟩ := key 1
  obtain ⟨m, h3, h4⟩ := key 2
  exact ⟨ppWorld, _, someP false 1, protonT, protonT, l, m, some_physical 40 (by norm_num) false 1, rfl,
    h1, h3, by rw [h2]; norm_num, by rw [h2, h4]⟩

/-- **C112** is false where PYTHIA gives no cross section for single diffraction: the weights are not
numbers. -/
theorem C112_no_single_false : ∃ (W : World) (H : Hi) (P : Params) (a b : PType),
    Physical H P ∧ (H.diffr a b W.sqrts).2.2 > 0 ∧
      ∀ total > 0, stringExcitation W H P a b true total = .error .nan := by
  refine ⟨ppWorld, someH 40 (0, 0, 1), someP true 1, protonT, protonT, ?_, by norm_num [someH], ?_⟩
  · have := some_physical 40 (by norm_num) true 1
    exact ⟨this.f, this.g, fun _ _ _ => le_rfl, fun _ _ _ => le_rfl, fun _ _ _ => zero_le_one,
      this.charm, this.bottom⟩
  · intro total ht
    unfold stringExcitation
    rw [if_neg (by simp), if_neg (by linarith)]
    unfold stringWeights
    simp [someP, someH]

/-- **C113** is false for an empty transition region (the lower end is moved up to the threshold, the
upper one to the lower): at its single point the probability is not a number. -/
theorem C113_point_false : ∃ (P : Params) (a b : PType), Smooth P a b ∧
    (region P a b).1 = (region P a b).2 ∧
      stringProbability P a b (region P a b).1 = .error .nan := by
  have b1 : nnPair protonT protonT = true := by decide +kernel
  have b4 : npiPair protonT protonT = false := by decide +kernel
  have hs : Smooth { someP true 1 with rangeNN := (2, 2) } protonT protonT := by
    refine ⟨rfl, rfl, ?_, ?_, ?_⟩
    all_goals
      first
      | exact Or.inl b1
      | (have e : (isNucleon protonT && isNucleon protonT && sign protonT != sign protonT) = false := by
          decide +kernel
         unfold bbbarPair; rw [e]; simp [someP])
      | (have b2 : isNNbar protonT protonT = false := by decide +kernel
         exact b2)
  have hr : region { someP true 1 with rangeNN := (2, 2) } protonT protonT = (2, 2) := by
    unfold region
    rw [b4, b1]
    simp
  refine ⟨_, protonT, protonT, hs, by rw [hr], ?_⟩
  rw [smooth_eq hs, hr]
  simp [transit]

/-- The hypotheses of `C113_ends` hold for two protons in the default configuration. -/
example : Smooth (someP true 1) protonT protonT ∧
    (region (someP true 1) protonT protonT).1 < (region (someP true 1) protonT protonT).2 := by
  have b1 : nnPair protonT protonT = true := by decide +kernel
  have b4 : npiPair protonT protonT = false := by decide +kernel
  constructor
  · refine ⟨rfl, rfl, ?_, ?_, ?_⟩
    all_goals
      first
      | exact Or.inl b1
      | (have e : (isNucleon protonT && isNucleon protonT && sign protonT != sign protonT) = false := by
          decide +kernel
         unfold bbbarPair; rw [e]; simp [someP])
      | (have b2 : isNNbar protonT protonT = false := by decide +kernel
         exact b2)
  · unfold region
    rw [b4, b1]
    norm_num [someP]

end Verif.Tot
