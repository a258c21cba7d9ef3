import Verif.Pdg.Props
import Mathlib.Tactic.Ring
/-!
C15, C16, C62: quantum numbers and antiparticles.
-/
set_option linter.unusedSimpArgs false
set_option linter.unusedVariables false
namespace Verif.Pdg

/-! ### Flipping the sign bit -/

theorem anti_iff {d : Nat} : anti d = true ↔ d / 2147483648 % 2 = 1 := by
  simp [anti, bits]

theorem getAnti_eq (d : Nat) :
    getAntiparticle d = if anti d then d - 2147483648 else d + 2147483648 := by
  unfold getAntiparticle
  by_cases h : anti d = true
  · have := anti_iff.1 h
    rw [if_pos h, if_pos h]; simp only [setBits, bits]; omega
  · have : ¬ d / 2147483648 % 2 = 1 := fun h' => h (anti_iff.2 h')
    rw [if_neg h, if_neg h]; simp only [setBits, bits]; omega

/-- The word of the antiparticle: same bits 0-30, other sign. -/
theorem getAnti_mod (d : Nat) : getAntiparticle d % 2147483648 = d % 2147483648 ∧
    anti (getAntiparticle d) = !anti d := by
  rw [getAnti_eq]
  by_cases h : anti d = true
  · have h1 := anti_iff.1 h
    rw [if_pos h, h]
    refine ⟨by omega, ?_⟩
    have : ¬ anti (d - 2147483648) = true := by rw [anti_iff]; omega
    simpa using this
  · have h1 : ¬ d / 2147483648 % 2 = 1 := fun h' => h (anti_iff.2 h')
    rw [if_neg h]
    refine ⟨by omega, ?_⟩
    have h2 : anti (d + 2147483648) = true := by rw [anti_iff]; omega
    simp [h2, h]

/-- Fields below the sign bit only depend on the word modulo 2^31. -/
theorem bits_mod {d e lo w : Nat} (h : d % 2147483648 = e % 2147483648) (hw : lo + w ≤ 31) :
    bits d lo w = bits e lo w := by
  have key (x : Nat) : bits x lo w = bits (x % 2147483648) lo w := by
    unfold bits
    have e1 : (2147483648 : Nat) = 2 ^ lo * (2 ^ w * 2 ^ (31 - lo - w)) := by
      rw [← Nat.pow_add, ← Nat.pow_add]
      have : lo + (w + (31 - lo - w)) = 31 := by omega
      rw [this]
    rw [e1, Nat.mod_mul_right_div_self, Nat.mod_mul_right_mod]
  rw [key d, key e, h]

structure SameDigits (d e : Nat) : Prop where
  nJ : nJ d = nJ e
  nq3 : nq3 d = nq3 e
  nq2 : nq2 d = nq2 e
  nq1 : nq1 d = nq1 e
  nuc : isNucleus d = isNucleus e
  A : A d = A e
  Z : Z d = Z e
  L : nLambda d = nLambda e
  low : bits d 0 16 = bits e 0 16

theorem same_of_mod {d e : Nat} (h : d % 2147483648 = e % 2147483648) : SameDigits d e where
  nJ := bits_mod h (by omega)
  nq3 := bits_mod h (by omega)
  nq2 := bits_mod h (by omega)
  nq1 := bits_mod h (by omega)
  nuc := by unfold isNucleus; rw [bits_mod h (by omega)]
  A := bits_mod h (by omega)
  Z := bits_mod h (by omega)
  L := bits_mod h (by omega)
  low := bits_mod h (by omega)

theorem sign_getAnti (d : Nat) : antiparticleSign (getAntiparticle d) = -antiparticleSign d := by
  unfold antiparticleSign
  rw [(getAnti_mod d).2]
  cases anti d <;> simp

theorem hadron_getAnti (d : Nat) : isHadron (getAntiparticle d) = isHadron d := by
  have s := same_of_mod (getAnti_mod d).1
  simp only [isHadron, s.nq3, s.nq2, s.nuc]

theorem baryon_getAnti (d : Nat) : baryonNumber (getAntiparticle d) = -baryonNumber d := by
  have s := same_of_mod (getAnti_mod d).1
  unfold baryonNumber
  rw [s.nuc, hadron_getAnti, s.nq1, s.A, sign_getAnti]
  split_ifs <;> ring

theorem ite_neg_ite (p : Prop) [Decidable p] (a b : Int) :
    (if p then -a else -b) = -(if p then a else b) := by split_ifs <;> rfl

theorem netQuarkNumber_getAnti (d : Nat) (q : Int) :
    netQuarkNumber (getAntiparticle d) q = (netQuarkNumber d q).map (- ·) := by
  have s := same_of_mod (getAnti_mod d).1
  unfold netQuarkNumber
  rw [s.nuc, hadron_getAnti, s.nq1, s.nq2, s.nq3, s.A, s.Z, s.L, sign_getAnti, baryon_getAnti]
  simp only [ne_eq, neg_eq_zero]
  split_ifs <;> simp [Except.map]

theorem netQuark_getAnti (d : Nat) (q : Int) : netQuark (getAntiparticle d) q = -netQuark d q := by
  unfold netQuark
  rw [netQuarkNumber_getAnti]
  cases netQuarkNumber d q <;> simp [Except.map, Except.toOption]

/-! ### C15 -/

/-- **C15.** Taking the antiparticle twice gives the code back. -/
theorem C15_involution {d : Nat} : getAntiparticle (getAntiparticle d) = d := by
  rw [getAnti_eq (getAntiparticle d), (getAnti_mod d).2, getAnti_eq d]
  by_cases h : anti d = true
  · have := anti_iff.1 h
    simp only [h, if_true, Bool.not_true, Bool.false_eq_true, if_false]; omega
  · simp only [h, if_false, Bool.not_false, if_true, Bool.false_eq_true]; omega

/-- **C15.** The antiparticle has the opposite charge, baryon number, isospin projection,
strangeness, charm and bottom, and the same spin. -/
theorem C15_opposite (d : Nat) :
    charge (getAntiparticle d) = -charge d ∧
    baryonNumber (getAntiparticle d) = -baryonNumber d ∧
    isospin3 (getAntiparticle d) = -isospin3 d ∧
    strangeness (getAntiparticle d) = -strangeness d ∧
    charmness (getAntiparticle d) = -charmness d ∧
    bottomness (getAntiparticle d) = -bottomness d ∧
    spin (getAntiparticle d) = spin d ∧
    spinDegeneracy (getAntiparticle d) = spinDegeneracy d := by
  have s := same_of_mod (getAnti_mod d).1
  have hspin : spin (getAntiparticle d) = spin d := by
    unfold spin; rw [s.nuc, s.A, hadron_getAnti, s.nJ, s.nq3]
  refine ⟨?_, baryon_getAnti d, ?_, ?_, ?_, ?_, hspin, ?_⟩
  · unfold charge
    simp only [netQuark_getAnti, hadron_getAnti, s.nuc, s.nq3, s.nJ, s.low, sign_getAnti]
    split_ifs
    · rw [← Int.neg_tdiv]; congr 1; ring
    · ring
    · rfl
    · rfl
  · unfold isospin3; rw [netQuark_getAnti, netQuark_getAnti]; ring
  · unfold strangeness; rw [netQuark_getAnti]
  · unfold charmness; rw [netQuark_getAnti]
  · unfold bottomness; rw [netQuark_getAnti]
  · unfold spinDegeneracy; rw [hadron_getAnti, s.nJ, hspin]

/-- Net quark numbers of a self-conjugate code vanish. -/
theorem netQuark_selfconj {d : Nat} (h : hasAntiparticle d = false) (q : Int) :
    netQuark d q = 0 := by
  unfold hasAntiparticle at h
  split_ifs at h with h1 h2
  · have hb : baryonNumber d = 0 ∧ nq2 d = nq3 d := by
      simpa [Bool.or_eq_false_iff] using h
    have hq1 : nq1 d = 0 := by
      have := hb.1
      unfold baryonNumber at this
      rw [if_neg h1] at this
      by_contra hne
      rw [if_neg (by simp [h2, hne])] at this
      unfold antiparticleSign at this
      split_ifs at this <;> omega
    unfold netQuark netQuarkNumber
    rw [if_neg h1, if_neg (by simp [hb.1] : ¬ baryonNumber d ≠ 0), hq1, hb.2]
    by_cases g1 : q < 1 ∨ 6 < q
    · rw [if_pos g1]; rfl
    rw [if_neg g1]
    by_cases g2 : (nq3 d : Int) = q
    · rw [if_pos (⟨g2, g2⟩ : (nq3 d : Int) = q ∧ (nq3 d : Int) = q)]
      split_ifs <;> rfl
    · rw [if_pos]
      · rfl
      · right; refine ⟨?_, g2, g2⟩
        simp only [Nat.cast_zero]; omega
  · unfold netQuark netQuarkNumber
    rw [if_neg h1]
    split_ifs with g1 g2 <;> try rfl
    all_goals simp [h2] at g2

/-- **C15.** A code without antiparticle is neutral in every respect. Missing: the codes
ending in 0024 (W boson), see `C15_W_is_charged`. -/
theorem C15_neutral_partial {d : Nat} (h : hasAntiparticle d = false) (hW : bits d 0 16 ≠ 0x24) :
    charge d = 0 ∧ baryonNumber d = 0 ∧ isospin3 d = 0 ∧ strangeness d = 0 ∧ charmness d = 0 ∧
      bottomness d = 0 := by
  have hq := netQuark_selfconj h
  refine ⟨?_, ?_, by simp [isospin3, hq], by simp [strangeness, hq], by simp [charmness, hq],
    by simp [bottomness, hq]⟩
  · unfold charge
    split_ifs with g1 g2
    · simp [hq]
    · exfalso
      unfold hasAntiparticle at h
      split_ifs at h with h1 h2
      · simp [h2] at g1
      · simp [g2] at h
    · rfl
  · unfold hasAntiparticle at h
    split_ifs at h with h1 h2
    · simp only [Bool.or_eq_false_iff] at h; simpa using h.1
    · unfold baryonNumber; rw [if_neg h1, if_pos (by simp [h2])]

/-- The W+ boson is accepted, charged, and has no antiparticle; -24 is rejected. -/
theorem C15_W_is_charged : ofInt 0x24 = .ok 0x24 ∧ charge 0x24 = 1 ∧ hasAntiparticle 0x24 = false ∧
    ofInt (-0x24) = .error .invalidPdgCode := by decide +kernel

/-! The antiparticle of an accepted code is the accepted code with the opposite sign. -/

theorem hasAnti_getAnti (d : Nat) : hasAntiparticle (getAntiparticle d) = hasAntiparticle d := by
  have s := same_of_mod (getAnti_mod d).1
  unfold hasAntiparticle
  rw [s.nuc, hadron_getAnti, baryon_getAnti, s.nq2, s.nq3]
  have : (-baryonNumber d != 0) = (baryonNumber d != 0) := by
    rw [Bool.eq_iff_iff]; simp
  rw [this]

theorem check_getAnti {d : Nat} (h : check d = .ok ()) (hn : isNucleus d = false)
    (ha : hasAntiparticle d = true)
    (h130 : bits d 0 28 ≠ 0x130) (h310 : bits d 0 28 ≠ 0x310) :
    check (getAntiparticle d) = .ok () := by
  have s := same_of_mod (getAnti_mod d).1
  have hd (k : Nat) (hk : k < 2 ^ 28) (hne : bits d 0 28 ≠ k) : dump d ≠ k := by
    unfold dump
    have : bits d 0 28 < 2 ^ 28 := Nat.mod_lt _ (by omega)
    omega
  unfold check at h ⊢
  rw [hadron_getAnti, baryon_getAnti, s.nJ, hasAnti_getAnti, ha]
  rw [if_neg (by simp : ¬ ((anti (getAntiparticle d) && !true) = true))]
  have hbad : ¬ (if isHadron d then
        if baryonNumber d = 0 then nJ d % 2 = 0 ∧ dump d ≠ 0x130 ∧ dump d ≠ 0x310
        else nJ d % 2 ≠ 0 ∨ nJ d = 0
      else nJ d = 0 ∧ dump d ≠ 0) := by
    intro hb; rw [if_pos hb] at h; cases h
  rw [if_neg]
  intro hp
  apply hbad
  by_cases g1 : isHadron d = true
  · rw [if_pos g1] at hp ⊢
    by_cases g2 : baryonNumber d = 0
    · rw [if_pos g2]
      rw [if_pos (by omega)] at hp
      exact ⟨hp.1, hd _ (by omega) h130, hd _ (by omega) h310⟩
    · rw [if_neg g2]
      rw [if_neg (by omega)] at hp
      exact hp
  · rw [if_neg g1] at hp ⊢
    refine ⟨hp.1, fun h0 => ?_⟩
    have e0 : bits d 0 28 = 0 := by
      unfold dump at h0; omega
    have e3 : nq3 d = 0 := by
      unfold nq3; unfold bits at e0 ⊢; omega
    unfold hasAntiparticle at ha
    rw [hn] at ha
    simp [g1, e3] at ha

theorem setFields_eq (b : Bool) (c : Nat) : setFields b c =
    if testCode (c % 268435456 + (if b then 2147483648 else 0)) then .error .invalidPdgCode
    else do
      check (c % 268435456 + (if b then 2147483648 else 0))
      return c % 268435456 + (if b then 2147483648 else 0) := by
  have : setBits (bits c 0 28) 31 1 (if b then 1 else 0) =
      c % 268435456 + (if b then 2147483648 else 0) := by
    cases b <;> simp only [setBits, bits, Bool.false_eq_true, if_false, if_true] <;> omega
  unfold setFields
  rw [this]

theorem setFields_anti {b : Bool} {c d : Nat} (h : setFields b c = .ok d)
    (ha : hasAntiparticle d = true) (h130 : bits d 0 28 ≠ 0x130) (h310 : bits d 0 28 ≠ 0x310) :
    setFields (!b) c = .ok (getAntiparticle d) := by
  rw [setFields_eq] at h ⊢
  generalize hw : c % 268435456 = w at h ⊢
  have hwlt : w < 268435456 := by omega
  clear hw
  generalize hd' : w + (if b then 2147483648 else 0) = d' at h
  have hg : w + (if (!b) then 2147483648 else 0) = getAntiparticle d' := by
    rw [getAnti_eq]
    cases b
    · simp only [Bool.false_eq_true, if_false, Bool.not_false, if_true] at hd' ⊢
      have : ¬ anti d' = true := by rw [anti_iff]; omega
      rw [if_neg this]; omega
    · simp only [if_true, Bool.not_true, Bool.false_eq_true, if_false] at hd' ⊢
      have : anti d' = true := by rw [anti_iff]; omega
      rw [if_pos this]; omega
  rw [hg]
  split_ifs at h with ht
  obtain ⟨u, hc, h⟩ := bind_ok.1 h
  have hdd : d' = d := by injection h
  subst hdd
  have hm := (getAnti_mod d').1
  have ht' : ¬ testCode (getAntiparticle d') = true := by
    have e1 : n (getAntiparticle d') = n d' := bits_mod hm (by omega)
    have e2 : nR (getAntiparticle d') = nR d' := bits_mod hm (by omega)
    have e3 : nL (getAntiparticle d') = nL d' := bits_mod hm (by omega)
    have s := same_of_mod hm
    unfold testCode at ht ⊢
    rwa [e1, e2, e3, s.nq1, s.nq2, s.nq3, s.nJ]
  rw [if_neg ht']
  have hn : isNucleus d' = false := by
    have : bits d' 30 1 = 0 := by
      unfold bits; split_ifs at hd' <;> omega
    unfold isNucleus; rw [this]; rfl
  rw [check_getAnti hc hn ha h130 h310]
  rfl

theorem hasAnti_zero : hasAntiparticle 0 = false := by decide +kernel

/-- **C15.** If the number `c` is accepted as the code of a particle that has an
antiparticle, then `-c` is accepted and is the code of the antiparticle. Missing: the two
neutral kaon mass states, see `C15_kaon_has_no_negative`. -/
theorem C15_opposite_number_partial {c : Int} {d : Nat} (h : ofInt c = .ok d)
    (ha : hasAntiparticle d = true) (h130 : ucode d ≠ 0x130) (h310 : ucode d ≠ 0x310) :
    ofInt (-c) = .ok (getAntiparticle d) := by
  unfold ucode at h130 h310
  have h0 : c ≠ 0 := by
    rintro rfl
    have : ofInt 0 = .ok 0 := by decide +kernel
    rw [this] at h
    have h := Except.ok.inj h
    rw [← h, hasAnti_zero] at ha
    cases ha
  unfold ofInt at h ⊢
  by_cases hc : c < 0
  · rw [if_pos hc] at h
    rw [if_neg (by omega)]
    split_ifs at h
    have key := setFields_anti h ha h130 h310
    rwa [Bool.not_true] at key
  · rw [if_neg hc] at h
    rw [if_pos (by omega)]
    by_cases hm : -c = -2 ^ 31
    · -- 2^31 is not a code with an antiparticle
      exfalso
      have : c.toNat = 2147483648 := by omega
      rw [this] at h
      have h2 : setFields false 2147483648 = .ok 0 := by decide +kernel
      rw [h2] at h
      have h := Except.ok.inj h
      rw [← h, hasAnti_zero] at ha
      cases ha
    · rw [if_neg hm, neg_neg]
      have key := setFields_anti h ha h130 h310
      rwa [Bool.not_false] at key

/-- The code of the K0_L is accepted and claims to have an antiparticle, but the
antiparticle's code is rejected. -/
theorem C15_kaon_has_no_negative : ofInt 0x130 = .ok 0x130 ∧ hasAntiparticle 0x130 = true ∧
    ofInt (-0x130) = .error .invalidPdgCode := by decide +kernel

/-- Non-vacuity: proton and antiproton. -/
example : ofInt 0x2212 = .ok 0x2212 ∧ hasAntiparticle 0x2212 = true ∧ ucode 0x2212 ≠ 0x130 ∧
    ucode 0x2212 ≠ 0x310 ∧ charge 0x2212 = 1 ∧ charge (getAntiparticle 0x2212) = -1 ∧
    hasAntiparticle 0x111 = false := by decide +kernel

end Verif.Pdg
