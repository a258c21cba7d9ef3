import Verif.Tot.Cons
import Verif.Sec.Conj

/-!
Symmetries of the parametrised cross sections (C115).
-/

namespace Verif.Tot

open Verif Sec

/-! ### Order of the incoming particles -/

theorem effS_symm (s m1 m2 : ℝ) : effS s m2 m1 = effS s m1 m2 := by unfold effS; ring

theorem plab_symm (s m1 m2 : ℝ) : plab s m2 m1 = plab s m1 m2 := by
  unfold plab
  rcases lt_trichotomy m1 m2 with h | h | h
  · rw [if_pos h, if_neg (by linarith)]
  · subst h; rfl
  · rw [if_neg (by linarith), if_pos h]

theorem sOf_exchanged (W : World) : sOf (exchanged W) = sOf W := rfl

theorem isBBbar_symm (a b : PType) : isBBbar b a = isBBbar a b := by
  unfold isBBbar
  rw [Bool.eq_iff_iff]
  simp only [Bool.and_eq_true, beq_iff_eq]
  constructor <;> rintro ⟨⟨h1, h2⟩, h3⟩ <;> exact ⟨⟨h2, h1⟩, by omega⟩

theorem aqm_comm (P : Params) (a b : PType) : aqm P b * aqm P a = aqm P a * aqm P b := mul_comm _ _

theorem meson_not_baryon {d : Nat} (h : Pdg.isMeson d = true) : Pdg.isBaryon d = false := by
  simp only [Pdg.isMeson, Bool.and_eq_true, beq_iff_eq] at h
  simp [Pdg.isBaryon, h.2]

theorem first_of {p q : PType → Bool} {a b : PType} (hx : ∀ t, p t = true → q t = false)
    (h : ((p a && q b) || (p b && q a)) = true) :
    (if p b then b else a) = (if p a then a else b) ∧
      (if p b then a else b) = (if p a then b else a) := by
  simp only [Bool.or_eq_true, Bool.and_eq_true] at h
  rcases h with ⟨h1, h2⟩ | ⟨h1, h2⟩
  · have : p b = false := by
      by_contra hc
      have := hx b (by simpa using hc)
      rw [h2] at this; cases this
    simp [h1, this]
  · have : p a = false := by
      by_contra hc
      have := hx a (by simpa using hc)
      rw [h2] at this; cases this
    simp [h1, this]

theorem pair_comm (p q : PType → Bool) (a b : PType) :
    ((p b && q a) || (p a && q b)) = ((p a && q b) || (p b && q a)) := Bool.or_comm _ _

theorem nnEl_symm (W : World) (H : Hi) (a b : PType) : nnEl (exchanged W) H b a = nnEl W H a b := by
  unfold nnEl
  simp only [sOf_exchanged, isBBbar_symm a b]
  have e1 : (b.pdg == a.pdg) = (a.pdg == b.pdg) := BEq.comm
  have e2 : (isNucleon b && isNucleon a) = (isNucleon a && isNucleon b) := Bool.and_comm _ _
  simp only [e1, e2]
  rw [show effS (sOf W) (exchanged W).m1 (exchanged W).m2 = effS (sOf W) W.m1 W.m2 from effS_symm _ _ _,
    show plab (sOf W) (exchanged W).m1 (exchanged W).m2 = plab (sOf W) W.m1 W.m2 from plab_symm _ _ _]

theorem elasticAQM_symm (W : World) (H : Hi) (P : Params) (a b : PType) :
    elasticAQM (exchanged W) H P b a = elasticAQM W H P a b := by
  unfold elasticAQM
  rw [nnEl_symm, aqm_comm]
  have e1 : (Pdg.isBaryon b.pdg && Pdg.isBaryon a.pdg) = (Pdg.isBaryon a.pdg && Pdg.isBaryon b.pdg) :=
    Bool.and_comm _ _
  have e2 : ((Pdg.isMeson b.pdg && Pdg.isBaryon a.pdg) || (Pdg.isMeson a.pdg && Pdg.isBaryon b.pdg)) =
    ((Pdg.isMeson a.pdg && Pdg.isBaryon b.pdg) || (Pdg.isMeson b.pdg && Pdg.isBaryon a.pdg)) :=
    Bool.or_comm _ _
  have e3 : (Pdg.isMeson b.pdg && Pdg.isMeson a.pdg) = (Pdg.isMeson a.pdg && Pdg.isMeson b.pdg) :=
    Bool.and_comm _ _
  have e4 : ((b.pdg == piP && a.pdg == piM) || (b.pdg == piM && a.pdg == piP)) =
      ((a.pdg == piP && b.pdg == piM) || (a.pdg == piM && b.pdg == piP)) := by
    rw [Bool.eq_iff_iff]; simp only [Bool.or_eq_true, Bool.and_eq_true]; tauto
  have e5 : (exchanged W).m1 + (exchanged W).m2 = W.m1 + W.m2 := add_comm _ _
  rw [e1, e2, e3, e4, e5, sOf_exchanged,
    show plab (sOf W) (exchanged W).m1 (exchanged W).m2 = plab (sOf W) W.m1 W.m2 from plab_symm _ _ _]
  rfl

/-- **C115** (elastic, order). -/
theorem C115_elastic_order (W : World) (H : Hi) (P : Params) (a b : PType) (ha : Good a) (hb : Good b) :
    elasticParametrization (exchanged W) H P b a = elasticParametrization W H P a b := by
  unfold elasticParametrization
  rw [pair_comm isNucleon isPion a b, pair_comm isNucleon isKaon a b, nnEl_symm, elasticAQM_symm,
    sOf_exchanged]
  have e1 : (isNucleon b && isNucleon a) = (isNucleon a && isNucleon b) := Bool.and_comm _ _
  have e2 : (sign b == sign a) = (sign a == sign b) := BEq.comm
  have e3 : (sign b == -sign a) = (sign a == -sign b) := by
    rw [Bool.eq_iff_iff]; simp only [beq_iff_eq]; omega
  have e4 : (Pdg.isNucleus b.pdg || Pdg.isNucleus a.pdg) = (Pdg.isNucleus a.pdg || Pdg.isNucleus b.pdg) :=
    Bool.or_comm _ _
  rw [e1, e2, e3, e4]
  by_cases c1 : (isNucleon a && isPion b || isNucleon b && isPion a) = true
  · rw [if_pos c1, if_pos c1]
    unfold npiEl
    obtain ⟨h1, h2⟩ := first_of (p := isNucleon) (q := isPion) (fun t ht => nucleon_not_pion ht) c1
    simp only [h1, h2, sOf_exchanged]
  rw [if_neg c1, if_neg c1]
  by_cases c2 : (isNucleon a && isKaon b || isNucleon b && isKaon a) = true
  · rw [if_pos c2, if_pos c2]
    unfold nkEl
    obtain ⟨h1, h2⟩ := first_of (p := isNucleon) (q := isKaon) (fun t ht => nucleon_not_kaon ht) c2
    simp only [h1, h2, sOf_exchanged]
  rw [if_neg c2, if_neg c2]
  have e5 : (let nucleus := if Pdg.isNucleus b.pdg then b else a
      let other := if Pdg.isNucleus b.pdg then a else b
      if isDeuteron nucleus && isPion other then Except.ok (H.f .dPiEl (sOf W))
      else if isDeuteron nucleus && isNucleon other then .ok (H.f .dNEl (sOf W))
      else (.ok 0 : Except Err ℝ)) =
    (let nucleus := if Pdg.isNucleus a.pdg then a else b
      let other := if Pdg.isNucleus a.pdg then b else a
      if isDeuteron nucleus && isPion other then Except.ok (H.f .dPiEl (sOf W))
      else if isDeuteron nucleus && isNucleon other then .ok (H.f .dNEl (sOf W))
      else (.ok 0 : Except Err ℝ)) := by
    have nuc : ∀ {t : PType}, Good t → Pdg.isNucleus t.pdg = true →
        isPion t = false ∧ isNucleon t = false := by
      intro t ht hn
      constructor
      · by_contra hx
        have := (pion_qn ht (by simpa using hx)).2.2.1
        rw [hn] at this; cases this
      · by_contra hx
        have := (nucleon_nsb ht (by simpa using hx)).2.2
        rw [hn] at this; cases this
    have dn : ∀ {t : PType}, Pdg.isNucleus t.pdg = false → isDeuteron t = false := by
      intro t ht
      simp [isDeuteron, ht]
    cases na : Pdg.isNucleus a.pdg <;> cases nb : Pdg.isNucleus b.pdg
    · simp [dn na, dn nb]
    · simp
    · simp
    · simp [nuc ha na, nuc hb nb]
  rw [e5]

/-- **C115** (total, order). -/
theorem C115_total_order (W : World) (H : Hi) (P : Params) (a b : PType) :
    parametrizedTotal (exchanged W) H P b a = parametrizedTotal W H P a b := by
  have key : totalRaw (exchanged W) H P b a = totalRaw W H P a b := by
    unfold totalRaw
    have e2 : (sign b == sign a) = (sign a == sign b) := BEq.comm
    have e3 : (b.pdg == a.pdg) = (a.pdg == b.pdg) := BEq.comm
    have e4 : (isPion b && isPion a) = (isPion a && isPion b) := Bool.and_comm _ _
    have e5 : Pdg.isospin3 b.pdg * Pdg.isospin3 a.pdg = Pdg.isospin3 a.pdg * Pdg.isospin3 b.pdg :=
      mul_comm _ _
    have e6 : Pdg.isospin3 b.pdg + Pdg.isospin3 a.pdg = Pdg.isospin3 a.pdg + Pdg.isospin3 b.pdg :=
      add_comm _ _
    have e7 : ∀ x : ℝ, x * aqm P b * aqm P a = x * aqm P a * aqm P b := fun x => by ring
    rw [sOf_exchanged, aqm_comm, e2, e3, e4, e5, e6]
    simp only [e7]
    have ex : (exchanged W).sqrts = W.sqrts := rfl
    rw [ex]
    cases ma : Pdg.isMeson a.pdg <;> cases mb : Pdg.isMeson b.pdg <;>
      cases ba : Pdg.isBaryon a.pdg <;> cases bb : Pdg.isBaryon b.pdg <;>
      first
      | (rw [meson_not_baryon ma] at ba; cases ba; done)
      | (rw [meson_not_baryon mb] at bb; cases bb; done)
      | simp
  unfold parametrizedTotal
  rw [key]

/-- **C115** (strings, order). -/
theorem C115_high_energy_order (W : World) (H : Hi) (P : Params) (a b : PType) :
    highEnergy (exchanged W) H P b a = highEnergy W H P a b := by
  have hbb : highBB (exchanged W) H P b a = highBB W H P a b := by
    unfold highBB
    have e1 : (b.pdg == a.pdg) = (a.pdg == b.pdg) := BEq.comm
    have e2 : sign b * sign a = sign a * sign b := mul_comm _ _
    have e3 : (Pdg.code b.pdg = -Pdg.code a.pdg) = (Pdg.code a.pdg = -Pdg.code b.pdg) := by
      apply propext; omega
    simp only [e1, e2, e3, sOf_exchanged]
    rw [show effS (sOf W) (exchanged W).m1 (exchanged W).m2 = effS (sOf W) W.m1 W.m2 from
      effS_symm _ _ _]
    rfl
  unfold highEnergy
  rw [hbb, aqm_comm]
  have e1 : (Pdg.isBaryon b.pdg && Pdg.isBaryon a.pdg) = (Pdg.isBaryon a.pdg && Pdg.isBaryon b.pdg) :=
    Bool.and_comm _ _
  have e2 : ((Pdg.isMeson b.pdg && Pdg.isBaryon a.pdg) || (Pdg.isMeson a.pdg && Pdg.isBaryon b.pdg)) =
    ((Pdg.isMeson a.pdg && Pdg.isBaryon b.pdg) || (Pdg.isMeson b.pdg && Pdg.isBaryon a.pdg)) :=
    Bool.or_comm _ _
  have e3 : (Pdg.isMeson b.pdg && Pdg.isMeson a.pdg) = (Pdg.isMeson a.pdg && Pdg.isMeson b.pdg) :=
    Bool.and_comm _ _
  have e4 : ((b.pdg == piP && a.pdg == 0x2212) || (a.pdg == piP && b.pdg == 0x2212) ||
        (b.pdg == piM && a.pdg == 0x2112) || (a.pdg == piM && b.pdg == 0x2112)) =
      ((a.pdg == piP && b.pdg == 0x2212) || (b.pdg == piP && a.pdg == 0x2212) ||
        (a.pdg == piM && b.pdg == 0x2112) || (b.pdg == piM && a.pdg == 0x2112)) := by
    rw [Bool.eq_iff_iff]; simp only [Bool.or_eq_true, Bool.and_eq_true]; tauto
  have e5 : ((b.pdg == piM && a.pdg == 0x2212) || (a.pdg == piM && b.pdg == 0x2212) ||
        (b.pdg == piP && a.pdg == 0x2112) || (a.pdg == piP && b.pdg == 0x2112)) =
      ((a.pdg == piM && b.pdg == 0x2212) || (b.pdg == piM && a.pdg == 0x2212) ||
        (a.pdg == piP && b.pdg == 0x2112) || (b.pdg == piP && a.pdg == 0x2112)) := by
    rw [Bool.eq_iff_iff]; simp only [Bool.or_eq_true, Bool.and_eq_true]; tauto
  simp only [e1, e2, e3, e4, e5, sOf_exchanged]

theorem isNNbar_imp {a b : PType} (h : isNNbar a b = true) : isNNbar b a = true := by
  simp only [isNNbar, Bool.and_eq_true, beq_iff_eq] at *
  refine ⟨?_, by rw [h.2, Pdg.C15_involution]⟩
  have e : (Pdg.code b.pdg).natAbs = (Pdg.code a.pdg).natAbs := by
    have h1 : ∀ e, (Pdg.code e).natAbs = Pdg.ucode e := by
      intro e
      unfold Pdg.code Pdg.antiparticleSign
      split_ifs <;> simp
    rw [h1, h1, h.2]
    exact Pdg.bits_mod (Pdg.getAnti_mod _).1 (by omega)
  unfold isNucleon at *
  rw [e]; exact h.1

theorem isNNbar_symm (a b : PType) : isNNbar b a = isNNbar a b := by
  rw [Bool.eq_iff_iff]
  exact ⟨isNNbar_imp, isNNbar_imp⟩

/-- **C115** (probability, order). -/
theorem C115_probability_order (P : Params) (a b : PType) (s : ℝ) :
    stringProbability P b a s = stringProbability P a b s := by
  have e1 : nnPair b a = nnPair a b := by
    unfold nnPair
    rw [Bool.eq_iff_iff]
    simp only [Bool.and_eq_true, beq_iff_eq]
    constructor <;> rintro ⟨⟨h1, h2⟩, h3⟩ <;> exact ⟨⟨h2, h1⟩, h3.symm⟩
  have e2 : bbbarPair P b a = bbbarPair P a b := by
    unfold bbbarPair
    rw [isBBbar_symm, Bool.eq_iff_iff]
    simp only [Bool.or_eq_true, Bool.and_eq_true, bne_iff_ne, ne_eq]
    constructor <;> rintro (h | ⟨⟨h1, h2⟩, h3⟩) <;>
      first | exact .inl h | exact .inr ⟨⟨h2, h1⟩, fun h => h3 h.symm⟩
  have e3 : npiPair b a = npiPair a b := by
    unfold npiPair
    rw [Bool.eq_iff_iff]
    simp only [Bool.or_eq_true, Bool.and_eq_true]
    tauto
  have e4 : aqmPair P b a = aqmPair P a b := by
    unfold aqmPair
    rw [Bool.eq_iff_iff]
    simp only [Bool.or_eq_true, Bool.and_eq_true, beq_iff_eq]
    have : (sign b = sign a) = (sign a = sign b) := propext eq_comm
    rw [this]
    tauto
  have e5 : isKplusP b a = isKplusP a b := by
    unfold isKplusP
    rw [Bool.eq_iff_iff]
    simp only [Bool.or_eq_true, Bool.and_eq_true]
    tauto
  have e6 : aqmOffset P b a = aqmOffset P a b := by
    unfold aqmOffset
    rw [e5, Bool.and_comm]
  have e7 : region P b a = region P a b := by
    unfold region
    rw [e1, e3, e6, add_comm b.mass]
  unfold stringProbability
  rw [e1, e2, e3, e4, e6, e7, isNNbar_symm, add_comm b.mass]

/-! ### Particles and antiparticles -/

section
variable {W : World} {bar : PType → PType} (hc : Conj W bar)
include hc

theorem anti_baryon {d : Nat} (h : Pdg.isBaryon d = true) : Pdg.hasAntiparticle d = true := by
  obtain ⟨h1, h2⟩ := baryon_sign h
  simp only [Pdg.isBaryon, Bool.and_eq_true] at h
  have hs : Pdg.antiparticleSign d ≠ 0 := by unfold Pdg.antiparticleSign; split_ifs <;> norm_num
  simp [Pdg.hasAntiparticle, h2, h.1, h1, hs]

theorem aqm_bar (P : Params) (t : PType) : aqm P (bar t) = aqm P t := by
  have hm := conj_mod t.pdg
  have s := Pdg.same_of_mod hm
  have e : ∀ f : Nat → Int, (∀ d, f (Pdg.getAntiparticle d) = -f d) →
      (f (conjPdg t.pdg)).natAbs = (f t.pdg).natAbs := by
    intro f hf
    unfold conjPdg
    split_ifs
    · rw [hf, Int.natAbs_neg]
    · rfl
  have e1 := e Pdg.strangeness fun d => (Pdg.C15_opposite d).2.2.2.1
  have e2 := e Pdg.charmness fun d => (Pdg.C15_opposite d).2.2.2.2.1
  have e3 := e Pdg.bottomness fun d => (Pdg.C15_opposite d).2.2.2.2.2.1
  unfold aqm frac
  rw [hc.pdg, baryon_conj, meson_conj, s.nq3, s.nq2, e1, e2, e3]

theorem sign_pair {a b : PType} (ha : Pdg.isBaryon a.pdg = true) (hb : Pdg.isBaryon b.pdg = true) :
    sign (bar a) = -sign a ∧ sign (bar b) = -sign b :=
  ⟨sign_bar hc (anti_baryon hc ha), sign_bar hc (anti_baryon hc hb)⟩

omit hc in
theorem conj_conj (d : Nat) : conjPdg (conjPdg d) = d := by
  unfold conjPdg
  by_cases h : Pdg.hasAntiparticle d = true
  · simp only [h, if_true, Pdg.hasAnti_getAnti, Pdg.C15_involution]
  · simp only [h, Bool.false_eq_true, if_false]

theorem pdg_eq_bar (a b : PType) : ((bar a).pdg == (bar b).pdg) = (a.pdg == b.pdg) := by
  rw [Bool.eq_iff_iff, beq_iff_eq, beq_iff_eq, hc.pdg, hc.pdg]
  constructor
  · intro h
    have := congrArg conjPdg h
    rwa [conj_conj, conj_conj] at this
  · intro h; rw [h]

/-- The code of an antiparticle. -/
theorem code_bar {t : PType} (h : Pdg.hasAntiparticle t.pdg = true) :
    Pdg.code (bar t).pdg = -Pdg.code t.pdg := by
  have e := ucode_conj t.pdg
  have hs := sign_bar hc h
  unfold sign at hs
  rw [hc.pdg] at hs ⊢
  unfold Pdg.code
  rw [e, hs]
  ring

omit hc in
theorem nucleon_anti {t : PType} (g : Good t) (h : isNucleon t = true) :
    Pdg.hasAntiparticle t.pdg = true := by
  simp only [isNucleon, Bool.or_eq_true, beq_iff_eq] at h
  rcases h with h | h
  · rcases code_cases g (c := 0x2212) h (by decide) (by decide) with e | e <;> rw [e] <;> decide +kernel
  · rcases code_cases g (c := 0x2112) h (by decide) (by decide) with e | e <;> rw [e] <;> decide +kernel

omit hc in
theorem kaon_anti {t : PType} (g : Good t) (h : isKaon t = true) :
    Pdg.hasAntiparticle t.pdg = true := by
  simp only [isKaon, Bool.or_eq_true, beq_iff_eq] at h
  rcases h with h | h
  · rcases code_cases g (c := 0x321) h (by decide) (by decide) with e | e <;> rw [e] <;> decide +kernel
  · rcases code_cases g (c := 0x311) h (by decide) (by decide) with e | e <;> rw [e] <;> decide +kernel

omit hc in
theorem pion_cases {t : PType} (g : Good t) (h : isPion t = true) :
    t.pdg = 0x111 ∨ t.pdg = piP ∨ t.pdg = piM := by
  have hn := (pion_qn g h).2.2.1
  simp only [isPion, Bool.or_eq_true, beq_iff_eq] at h
  have key : ∀ c : Int, Pdg.code t.pdg = c → c ≠ 0 → t.pdg = ofCode c := by
    rintro c rfl h0
    exact (g.ofCode hn h0).symm
  rcases h with (h | h) | h
  · exact .inl (by rw [key _ h (by decide)]; decide)
  · exact .inr (.inl (by rw [key _ h (by decide)]; decide))
  · exact .inr (.inr (by rw [key _ h (by decide)]; decide))

/-- The code of the antiparticle of a pion. -/
theorem code_pion {t : PType} (g : Good t) (h : isPion t = true) :
    Pdg.code (bar t).pdg = if Pdg.code t.pdg = 0x111 then 0x111 else -Pdg.code t.pdg := by
  rw [hc.pdg]
  rcases pion_cases g h with e | e | e <;> rw [e] <;> decide +kernel

omit hc in
theorem conj_mod_back {t : PType} (g : Good t) : (Pdg.isNucleus t.pdg = false →
    conjPdg t.pdg < 2 ^ 32 ∧ Pdg.dump (conjPdg t.pdg) = conjPdg t.pdg) := by
  intro hn
  obtain ⟨h1, h2⟩ := g.1 hn
  unfold conjPdg
  split_ifs
  · rw [Pdg.getAnti_eq]
    simp only [Pdg.dump, Pdg.bits] at *
    by_cases ha : Pdg.anti t.pdg = true
    · have := Pdg.anti_iff.1 ha
      rw [if_pos ha]; omega
    · have : ¬ t.pdg / 2147483648 % 2 = 1 := fun h' => ha (Pdg.anti_iff.2 h')
      rw [if_neg ha]; omega
  · exact ⟨h1, h2⟩

theorem good_bar {t : PType} (g : Good t) : Good (bar t) := by
  constructor
  · rw [hc.pdg, nucleus_conj]; exact conj_mod_back g
  · rw [hc.pdg, nucleus_conj, (Pdg.same_of_mod (conj_mod t.pdg)).A]; exact g.2

theorem isPion_bar {t : PType} (g : Good t) : isPion (bar t) = isPion t := by
  rw [Bool.eq_iff_iff]
  refine ⟨fun h => ?_, pion_bar hc g⟩
  have e := pion_cases (good_bar hc g) h
  rw [hc.pdg] at e
  have : t.pdg = conjPdg (conjPdg t.pdg) := (conj_conj _).symm
  unfold isPion
  rw [this]
  rcases e with e | e | e <;> rw [e] <;> decide +kernel

/-- Baryons and antibaryons. -/
theorem same_sign {a b : PType} (ha : Pdg.isBaryon a.pdg = true) (hb : Pdg.isBaryon b.pdg = true) :
    (sign (bar a) == sign (bar b)) = (sign a == sign b) ∧
      (sign (bar a) == -sign (bar b)) = (sign a == -sign b) := by
  obtain ⟨h1, h2⟩ := sign_pair hc ha hb
  rw [h1, h2]
  constructor <;> rw [Bool.eq_iff_iff] <;> simp only [beq_iff_eq] <;> omega

omit hc in
theorem nucleon_baryon {t : PType} (g : Good t) (h : isNucleon t = true) : Pdg.isBaryon t.pdg = true := by
  simp only [isNucleon, Bool.or_eq_true, beq_iff_eq] at h
  rcases h with h | h
  · rcases code_cases g (c := 0x2212) h (by decide) (by decide) with e | e <;> rw [e] <;> decide +kernel
  · rcases code_cases g (c := 0x2112) h (by decide) (by decide) with e | e <;> rw [e] <;> decide +kernel

theorem isBBbar_bar (a b : PType) : isBBbar (bar a) (bar b) = isBBbar a b := by
  unfold isBBbar
  rw [hc.pdg, hc.pdg, baryon_conj, baryon_conj]
  by_cases ha : Pdg.isBaryon a.pdg = true
  · by_cases hb : Pdg.isBaryon b.pdg = true
    · rw [(same_sign hc ha hb).2]
    · simp at hb; simp [hb]
  · simp at ha; simp [ha]

theorem nnEl_bar (H : Hi) (a b : PType) : nnEl W H (bar a) (bar b) = nnEl W H a b := by
  unfold nnEl
  simp only [isBBbar_bar hc, nucleon_bar hc, pdg_eq_bar hc]

theorem piPM_bar (a b : PType) :
    (((bar a).pdg == piP && (bar b).pdg == piM) || ((bar a).pdg == piM && (bar b).pdg == piP)) =
      ((a.pdg == piP && b.pdg == piM) || (a.pdg == piM && b.pdg == piP)) := by
  have c1 : conjPdg piP = piM := by decide +kernel
  have c2 : conjPdg piM = piP := by decide +kernel
  have e : ∀ t : PType, ((bar t).pdg = piP ↔ t.pdg = piM) ∧ ((bar t).pdg = piM ↔ t.pdg = piP) := by
    intro t
    rw [hc.pdg]
    refine ⟨⟨fun h => ?_, fun h => by rw [h, c2]⟩, ⟨fun h => ?_, fun h => by rw [h, c1]⟩⟩
    · rw [← conj_conj t.pdg, h, c1]
    · rw [← conj_conj t.pdg, h, c2]
  rw [Bool.eq_iff_iff]
  simp only [Bool.or_eq_true, Bool.and_eq_true, beq_iff_eq, e]
  tauto

omit hc in
theorem npiTable_conj (H : Hi) (s : ℝ) (n m : Int) (hm : m = 0x111 ∨ m = 0x211 ∨ m = -0x211)
    (hn : n.natAbs = 0x2212 ∨ n.natAbs = 0x2112) :
    npiTable H s (-n) (if m = 0x111 then 0x111 else -m) = npiTable H s n m := by
  have hn' : n = 0x2212 ∨ n = -0x2212 ∨ n = 0x2112 ∨ n = -0x2112 := by omega
  unfold npiTable
  rcases hm with rfl | rfl | rfl <;> rcases hn' with rfl | rfl | rfl | rfl <;> norm_num

omit hc in
theorem nkTable_conj (H : Hi) (s : ℝ) (n m : Int) (hm : m.natAbs = 0x321 ∨ m.natAbs = 0x311)
    (hn : n.natAbs = 0x2212 ∨ n.natAbs = 0x2112) : nkTable H s (-n) (-m) = nkTable H s n m := by
  have hn' : n = 0x2212 ∨ n = -0x2212 ∨ n = 0x2112 ∨ n = -0x2112 := by omega
  have hm' : m = 0x321 ∨ m = -0x321 ∨ m = 0x311 ∨ m = -0x311 := by omega
  unfold nkTable
  rcases hm' with rfl | rfl | rfl | rfl <;> rcases hn' with rfl | rfl | rfl | rfl <;> norm_num

theorem if_bar (p : PType → Bool) (hp : ∀ t, p (bar t) = p t) (a b : PType) :
    (if p (bar a) then bar a else bar b) = bar (if p a then a else b) ∧
      (if p (bar a) then bar b else bar a) = bar (if p a then b else a) := by
  rw [hp]; split_ifs <;> simp

/-- **C115** (elastic, antiparticles). -/
theorem C115_elastic_conjugation (H : Hi) (P : Params) (a b : PType) (ha : Good a) (hb : Good b) :
    elasticParametrization W H P (bar a) (bar b) = elasticParametrization W H P a b := by
  have hw : (exchanged W).sqrts = W.sqrts := rfl
  unfold elasticParametrization
  simp only [nucleon_bar hc, kaon_bar hc, isPion_bar hc ha, isPion_bar hc hb, nnEl_bar hc]
  have hn : ∀ t : PType, Pdg.isNucleus (bar t).pdg = Pdg.isNucleus t.pdg := fun t => by
    rw [hc.pdg, nucleus_conj]
  by_cases c1 : (isNucleon a && isPion b || isNucleon b && isPion a) = true
  · rw [if_pos c1, if_pos c1]
    unfold npiEl
    obtain ⟨e1, e2⟩ := if_bar hc isNucleon (nucleon_bar hc) a b
    simp only [e1, e2]
    simp only [Bool.or_eq_true, Bool.and_eq_true] at c1
    have key : ∀ n p : PType, Good n → Good p → isNucleon n = true → isPion p = true →
        positive (npiTable H (sOf W) (Pdg.code (bar n).pdg) (Pdg.code (bar p).pdg)) =
          positive (npiTable H (sOf W) (Pdg.code n.pdg) (Pdg.code p.pdg)) := by
      intro n p gn gp h1 h2
      rw [code_bar hc (nucleon_anti gn h1), code_pion hc gp h2, npiTable_conj]
      · simp only [isPion, Bool.or_eq_true, beq_iff_eq] at h2; tauto
      · simp only [isNucleon, Bool.or_eq_true, beq_iff_eq] at h1; exact h1
    rcases c1 with ⟨h1, h2⟩ | ⟨h1, h2⟩
    · rw [if_pos h1, if_pos h1]; exact key a b ha hb h1 h2
    · have : isNucleon a = false := by
        by_contra hx
        rw [nucleon_not_pion (by simpa using hx)] at h2; cases h2
      rw [this]
      exact key b a hb ha h1 h2
  rw [if_neg c1, if_neg c1]
  by_cases c2 : (isNucleon a && isKaon b || isNucleon b && isKaon a) = true
  · rw [if_pos c2, if_pos c2]
    unfold nkEl
    obtain ⟨e1, e2⟩ := if_bar hc isNucleon (nucleon_bar hc) a b
    simp only [e1, e2]
    simp only [Bool.or_eq_true, Bool.and_eq_true] at c2
    have key : ∀ n p : PType, Good n → Good p → isNucleon n = true → isKaon p = true →
        positive (nkTable H (sOf W) (Pdg.code (bar n).pdg) (Pdg.code (bar p).pdg)) =
          positive (nkTable H (sOf W) (Pdg.code n.pdg) (Pdg.code p.pdg)) := by
      intro n p gn gp h1 h2
      rw [code_bar hc (nucleon_anti gn h1), code_bar hc (kaon_anti gp h2), nkTable_conj]
      · simp only [isKaon, Bool.or_eq_true, beq_iff_eq] at h2; exact h2
      · simp only [isNucleon, Bool.or_eq_true, beq_iff_eq] at h1; exact h1
    rcases c2 with ⟨h1, h2⟩ | ⟨h1, h2⟩
    · rw [if_pos h1, if_pos h1]; exact key a b ha hb h1 h2
    · have : isNucleon a = false := by
        by_contra hx
        rw [nucleon_not_kaon (by simpa using hx)] at h2; cases h2
      rw [this]
      exact key b a hb ha h1 h2
  rw [if_neg c2, if_neg c2]
  have e3 : ∀ x y : Bool, (isNucleon a && isNucleon b && x) = (isNucleon a && isNucleon b && y) ∨
      (isNucleon a = true ∧ isNucleon b = true) := by
    intro x y
    cases isNucleon a <;> cases isNucleon b <;> simp
  have s1 : (isNucleon a && isNucleon b && sign (bar a) == sign (bar b)) =
      (isNucleon a && isNucleon b && sign a == sign b) := by
    rcases e3 (sign (bar a) == sign (bar b)) (sign a == sign b) with h | ⟨h1, h2⟩
    · exact h
    · rw [(same_sign hc (nucleon_baryon ha h1) (nucleon_baryon hb h2)).1]
  have s2 : (isNucleon a && isNucleon b && sign (bar a) == -sign (bar b)) =
      (isNucleon a && isNucleon b && sign a == -sign b) := by
    rcases e3 (sign (bar a) == -sign (bar b)) (sign a == -sign b) with h | ⟨h1, h2⟩
    · exact h
    · rw [(same_sign hc (nucleon_baryon ha h1) (nucleon_baryon hb h2)).2]
  obtain ⟨f1, f2⟩ := if_bar hc (fun t => Pdg.isNucleus t.pdg) hn a b
  have eA : elasticAQM W H P (bar a) (bar b) = elasticAQM W H P a b := by
    unfold elasticAQM
    simp only [nnEl_bar hc, aqm_bar hc, piPM_bar hc]
    simp only [hc.pdg, baryon_conj, meson_conj]
  have g2 : Good (if Pdg.isNucleus a.pdg then b else a) := by split_ifs <;> assumption
  simp only [hn] at f1 f2
  simp only [s1, s2, eA, hn, f1, f2, deuteron_bar hc, nucleon_bar hc, isPion_bar hc g2]

omit hc in
/-- The part of `parametrized_total` for kaons and nucleons. -/
theorem kaon_codes {n m : Int} (hm : m.natAbs = 0x321 ∨ m.natAbs = 0x311)
    (hn : n.natAbs = 0x2212 ∨ n.natAbs = 0x2112) (x y z w : ℝ) :
    (if ((-m) == 0x321 && (-n) == 0x2212) || ((-m) == 0x311 && (-n) == 0x2112) ||
            ((-m) == -0x321 && (-n) == -0x2212) || ((-m) == -0x311 && (-n) == -0x2112) then x
        else if ((-m) == 0x321 && (-n) == -0x2212) || ((-m) == 0x311 && (-n) == -0x2112) ||
            ((-m) == -0x321 && (-n) == 0x2212) || ((-m) == -0x311 && (-n) == 0x2112) then y
        else if ((-m) == 0x321 && (-n) == 0x2112) || ((-m) == 0x311 && (-n) == 0x2212) ||
            ((-m) == -0x321 && (-n) == -0x2112) || ((-m) == -0x311 && (-n) == -0x2212) then z
        else if ((-m) == 0x321 && (-n) == -0x2112) || ((-m) == 0x311 && (-n) == -0x2212) ||
            ((-m) == -0x321 && (-n) == 0x2112) || ((-m) == -0x311 && (-n) == 0x2212) then w
        else 0) =
      (if (m == 0x321 && n == 0x2212) || (m == 0x311 && n == 0x2112) ||
            (m == -0x321 && n == -0x2212) || (m == -0x311 && n == -0x2112) then x
        else if (m == 0x321 && n == -0x2212) || (m == 0x311 && n == -0x2112) ||
            (m == -0x321 && n == 0x2212) || (m == -0x311 && n == 0x2112) then y
        else if (m == 0x321 && n == 0x2112) || (m == 0x311 && n == 0x2212) ||
            (m == -0x321 && n == -0x2112) || (m == -0x311 && n == -0x2212) then z
        else if (m == 0x321 && n == -0x2112) || (m == 0x311 && n == -0x2212) ||
            (m == -0x321 && n == 0x2112) || (m == -0x311 && n == 0x2212) then w
        else 0) := by
  have hn' : n = 0x2212 ∨ n = -0x2212 ∨ n = 0x2112 ∨ n = -0x2112 := by omega
  have hm' : m = 0x321 ∨ m = -0x321 ∨ m = 0x311 ∨ m = -0x311 := by omega
  rcases hm' with rfl | rfl | rfl | rfl <;> rcases hn' with rfl | rfl | rfl | rfl <;> norm_num

omit hc in
theorem pion_codes {n m : Int} (hm : m = 0x111 ∨ m = 0x211 ∨ m = -0x211)
    (hn : n.natAbs = 0x2212 ∨ n.natAbs = 0x2112) (x y z : ℝ) :
    (if ((if m = 0x111 then 0x111 else -m) == 0x211 && ((-n) == 0x2212 || (-n) == -0x2112)) ||
            ((if m = 0x111 then 0x111 else -m) == -0x211 && ((-n) == 0x2112 || (-n) == -0x2212)) then x
        else if (if m = 0x111 then 0x111 else -m) == 0x111 then y
        else z) =
      (if (m == 0x211 && (n == 0x2212 || n == -0x2112)) ||
            (m == -0x211 && (n == 0x2112 || n == -0x2212)) then x
        else if m == 0x111 then y
        else z) := by
  have hn' : n = 0x2212 ∨ n = -0x2212 ∨ n = 0x2112 ∨ n = -0x2112 := by omega
  rcases hm with rfl | rfl | rfl <;> rcases hn' with rfl | rfl | rfl | rfl <;> norm_num

/-- **C115** (total, antiparticles). -/
theorem C115_total_conjugation (H : Hi) (P : Params) (a b : PType) (ha : Good a) (hb : Good b) :
    parametrizedTotal W H P (bar a) (bar b) = parametrizedTotal W H P a b := by
  have key : totalRaw W H P (bar a) (bar b) = totalRaw W H P a b := by
    have hm : ∀ t : PType, Pdg.isMeson (bar t).pdg = Pdg.isMeson t.pdg := fun t => by
      rw [hc.pdg, meson_conj]
    have hba : ∀ t : PType, Pdg.isBaryon (bar t).pdg = Pdg.isBaryon t.pdg := fun t => by
      rw [hc.pdg, baryon_conj]
    unfold totalRaw
    obtain ⟨f1, f2⟩ := if_bar hc (fun t => Pdg.isMeson t.pdg) hm a b
    have f2' : (if Pdg.isMeson (bar a).pdg then bar b else bar a) =
      bar (if Pdg.isMeson a.pdg then b else a) := f2
    have f1' : (if Pdg.isMeson (bar a).pdg then bar a else bar b) =
      bar (if Pdg.isMeson a.pdg then a else b) := f1
    simp only [f1', f2', hba]
    have gm : Good (if Pdg.isMeson a.pdg then a else b) := by split_ifs <;> assumption
    have gb : Good (if Pdg.isMeson a.pdg then b else a) := by split_ifs <;> assumption
    generalize (if Pdg.isMeson a.pdg then a else b) = m at *
    generalize (if Pdg.isMeson a.pdg then b else a) = n at *
    simp only [hm, aqm_bar hc, pdg_eq_bar hc, kaon_bar hc, nucleon_bar hc, isPion_bar hc gm,
      isPion_bar hc ha, isPion_bar hc hb]
    by_cases c1 : (Pdg.isBaryon a.pdg && Pdg.isBaryon b.pdg && decide (W.sqrts > P.lowSnnCut)) = true
    · rw [if_pos c1, if_pos c1]
      simp only [Bool.and_eq_true] at c1
      rw [(same_sign hc c1.1.1 c1.1.2).1]
    rw [if_neg c1, if_neg c1]
    by_cases c2 : (Pdg.isBaryon a.pdg && Pdg.isMeson b.pdg || Pdg.isMeson a.pdg && Pdg.isBaryon b.pdg)
        = true
    · rw [if_pos c2, if_pos c2]
      by_cases c3 : (isKaon m && isNucleon n) = true
      · rw [if_pos c3, if_pos c3]
        simp only [Bool.and_eq_true] at c3
        rw [code_bar hc (kaon_anti gm c3.1), code_bar hc (nucleon_anti gb c3.2), kaon_codes]
        · exact c3.1 |> fun h => by simpa [isKaon] using h
        · exact c3.2 |> fun h => by simpa [isNucleon] using h
      rw [if_neg c3, if_neg c3]
      by_cases c4 : (isPion m && isNucleon n) = true
      · rw [if_pos c4, if_pos c4]
        simp only [Bool.and_eq_true] at c4
        rw [code_pion hc gm c4.1, code_bar hc (nucleon_anti gb c4.2), pion_codes]
        · have := c4.1
          simp only [isPion, Bool.or_eq_true, beq_iff_eq] at this; tauto
        · exact c4.2 |> fun h => by simpa [isNucleon] using h
      rw [if_neg c4, if_neg c4]
    rw [if_neg c2, if_neg c2]
    by_cases c5 : (Pdg.isMeson a.pdg && Pdg.isMeson b.pdg) = true
    · rw [if_pos c5, if_pos c5]
      by_cases c6 : (isPion a && isPion b) = true
      · rw [if_pos c6, if_pos c6]
        simp only [Bool.and_eq_true] at c6
        have e : ∀ t : PType, Good t → isPion t = true →
            Pdg.isospin3 (bar t).pdg = -Pdg.isospin3 t.pdg := by
          intro t g h
          rw [hc.pdg]
          rcases pion_cases g h with e | e | e <;> rw [e] <;> decide +kernel
        rw [e a ha c6.1, e b hb c6.2, neg_mul_neg]
        have : (-Pdg.isospin3 a.pdg + -Pdg.isospin3 b.pdg = 0) =
          (Pdg.isospin3 a.pdg + Pdg.isospin3 b.pdg = 0) := by apply propext; omega
        simp only [this]
      rw [if_neg c6, if_neg c6]
    rw [if_neg c5, if_neg c5]
  unfold parametrizedTotal
  rw [key]

/-- **C115** (probability, antiparticles). -/
theorem C115_probability_conjugation (P : Params) (a b : PType) (ha : Good a) (hb : Good b) (s : ℝ) :
    stringProbability P (bar a) (bar b) s = stringProbability P a b s := by
  have nb : ∀ x y : Bool, (isNucleon a && isNucleon b && x) = (isNucleon a && isNucleon b && y) ∨
      (isNucleon a = true ∧ isNucleon b = true) := by
    intro x y
    cases isNucleon a <;> cases isNucleon b <;> simp
  have hs : isNucleon a = true ∧ isNucleon b = true →
      (sign (bar a) == sign (bar b)) = (sign a == sign b) := fun h =>
    (same_sign hc (nucleon_baryon ha h.1) (nucleon_baryon hb h.2)).1
  have e1 : nnPair (bar a) (bar b) = nnPair a b := by
    unfold nnPair
    rw [nucleon_bar hc, nucleon_bar hc]
    rcases nb (sign (bar a) == sign (bar b)) (sign a == sign b) with h | h
    · exact h
    · rw [hs h]
  have e2 : bbbarPair P (bar a) (bar b) = bbbarPair P a b := by
    unfold bbbarPair
    rw [isBBbar_bar hc, nucleon_bar hc, nucleon_bar hc]
    congr 1
    rcases nb (sign (bar a) != sign (bar b)) (sign a != sign b) with h | h
    · exact h
    · unfold bne; rw [hs h]
  have e3 : npiPair (bar a) (bar b) = npiPair a b := by
    unfold npiPair
    rw [nucleon_bar hc, nucleon_bar hc, isPion_bar hc ha, isPion_bar hc hb]
  have e4 : aqmPair P (bar a) (bar b) = aqmPair P a b := by
    unfold aqmPair
    rw [hc.pdg, hc.pdg, baryon_conj, baryon_conj, meson_conj, meson_conj]
    by_cases h1 : Pdg.isBaryon a.pdg = true
    · by_cases h2 : Pdg.isBaryon b.pdg = true
      · rw [(same_sign hc h1 h2).1]
      · simp at h2; simp [h2]
    · simp at h1; simp [h1]
  have e5 : isKplusP (bar a) (bar b) = isKplusP a b := by
    have k : ∀ (c : Nat) (t : PType), ((bar t).pdg = c ↔ t.pdg = conjPdg c) := by
      intro c t
      rw [hc.pdg]
      constructor
      · intro h; rw [← h, conj_conj]
      · intro h; rw [h, conj_conj]
    have k1 : conjPdg 0x321 = 2 ^ 31 + 0x321 := by decide +kernel
    have k2 : conjPdg 0x311 = 2 ^ 31 + 0x311 := by decide +kernel
    have k3 : conjPdg 0x2212 = 2 ^ 31 + 0x2212 := by decide +kernel
    have k4 : conjPdg (2 ^ 31 + 0x321) = 0x321 := by decide +kernel
    have k5 : conjPdg (2 ^ 31 + 0x311) = 0x311 := by decide +kernel
    have k6 : conjPdg (2 ^ 31 + 0x2212) = 0x2212 := by decide +kernel
    unfold isKplusP
    rw [Bool.eq_iff_iff]
    simp only [Bool.or_eq_true, Bool.and_eq_true, beq_iff_eq, k, k1, k2, k3, k4, k5, k6]
    generalize (a.pdg = 0x321 ∨ a.pdg = 0x311) = p1
    generalize (b.pdg = 0x321 ∨ b.pdg = 0x311) = p2
    generalize (a.pdg = 2 ^ 31 + 0x321 ∨ a.pdg = 2 ^ 31 + 0x311) = p3
    generalize (b.pdg = 2 ^ 31 + 0x321 ∨ b.pdg = 2 ^ 31 + 0x311) = p4
    generalize (a.pdg = 0x2212) = q1
    generalize (b.pdg = 0x2212) = q2
    generalize (a.pdg = 2 ^ 31 + 0x2212) = q3
    generalize (b.pdg = 2 ^ 31 + 0x2212) = q4
    constructor
    · rintro (((h | h) | h) | h)
      · exact .inl (.inr h)
      · exact .inr h
      · exact .inl (.inl (.inl h))
      · exact .inl (.inl (.inr h))
    · rintro (((h | h) | h) | h)
      · exact .inl (.inr h)
      · exact .inr h
      · exact .inl (.inl (.inl h))
      · exact .inl (.inl (.inr h))
  have e6 : aqmOffset P (bar a) (bar b) = aqmOffset P a b := by
    unfold aqmOffset
    rw [e5, isPion_bar hc ha, isPion_bar hc hb]
  have e7 : region P (bar a) (bar b) = region P a b := by
    unfold region
    rw [e1, e3, e6, hc.mass, hc.mass]
  have e8 : isNNbar (bar a) (bar b) = isNNbar a b := by
    unfold isNNbar
    rw [nucleon_bar hc]
    by_cases h : isNucleon a = true
    · rw [h]
      have hA := nucleon_anti ha h
      have ea : Pdg.getAntiparticle (bar a).pdg = a.pdg := by
        rw [hc.pdg, conjPdg, if_pos hA, Pdg.C15_involution]
      rw [ea, Bool.eq_iff_iff]
      simp only [Bool.true_and, beq_iff_eq]
      have ec : Pdg.getAntiparticle a.pdg = conjPdg a.pdg := by rw [conjPdg, if_pos hA]
      rw [ec, hc.pdg]
      constructor
      · intro h; rw [← h, conj_conj]
      · intro h; rw [h, conj_conj]
    · simp at h; simp [h]
  unfold stringProbability
  rw [e1, e2, e3, e4, e6, e7, e8, hc.mass, hc.mass]

end

/-- **C115** is false for the cross section of strings: π⁺ p uses the parametrisation for π⁺ p, but
π⁻ p̄ that for π⁻ p. -/
theorem C115_high_energy_false : ∃ (W : World) (H : Hi) (P : Params) (a b c d : PType) (x y : ℝ),
    Physical H P ∧ c.pdg = conjPdg a.pdg ∧ d.pdg = conjPdg b.pdg ∧ c.mass = a.mass ∧ d.mass = b.mass ∧
      highEnergy W H P a b = .ok x ∧ highEnergy W H P c d = .ok y ∧ x ≠ y := by
  let H : Hi := { someH 40 (1, 1, 1) with f := fun k _ => if k = .pipHigh then 25 else 30 }
  have am : ∀ (P : Params) (t : PType), (t.pdg = piP ∨ t.pdg = piM) → aqm P t = 1 := by
    intro P t ht
    have hq : Pdg.isBaryon t.pdg = false ∧ Pdg.isMeson t.pdg = true ∧ Pdg.strangeness t.pdg = 0 ∧
        Pdg.charmness t.pdg = 0 ∧ Pdg.bottomness t.pdg = 0 ∧ Pdg.nq3 t.pdg < 3 := by
      rcases ht with h | h <;> rw [h] <;> decide +kernel
    obtain ⟨h1, h2, h3, h4, h5, h6⟩ := hq
    have n3 : ¬ (Pdg.nq3 t.pdg = 3 ∧ Pdg.nq2 t.pdg = 3) := by omega
    have n4 : ¬ (Pdg.nq3 t.pdg = 4 ∧ Pdg.nq2 t.pdg = 4) := by omega
    have n5 : ¬ (Pdg.nq3 t.pdg = 5 ∧ Pdg.nq2 t.pdg = 5) := by omega
    unfold aqm frac
    rw [h1, h2, h3, h4, h5, if_neg n3, if_neg n4, if_neg n5]
    norm_num
  let a : PType := mkType piP (138 / 1000) 0 0
  let c : PType := mkType piM (138 / 1000) 0 0
  let d : PType := mkType (2 ^ 31 + 0x2212) (938 / 1000) 0 1
  have hd : aqm (someP true 1) d = 1 := aqm_plain _ d (by decide +kernel) (by decide +kernel)
  refine ⟨ppWorld, H, someP true 1, a, protonT, c, d, 25, 30, ?_, by decide +kernel, by decide +kernel,
    rfl, rfl, ?_, ?_, by norm_num⟩
  · have := some_physical 40 (by norm_num) true 1
    refine ⟨fun k _ => ?_, this.g, this.ax, this.xb, this.xx, this.charm, this.bottom⟩
    show (0 : ℝ) ≤ if k = .pipHigh then 25 else 30
    split_ifs <;> norm_num
  · have b1 : Pdg.isBaryon a.pdg = false := by decide +kernel
    have b2 : Pdg.isMeson protonT.pdg = false := by decide +kernel
    have b3 : (a.pdg == piP && protonT.pdg == 0x2212) = true := by decide +kernel
    unfold highEnergy
    simp only [b1, b2, b3, Bool.false_and, Bool.and_false, Bool.true_or, if_true, Bool.false_eq_true,
      if_false, bind, Except.bind, am (someP true 1) a (.inl rfl), proton_aqm]
    show Except.ok ((if Fn.pipHigh = .pipHigh then (25 : ℝ) else 30) * (1 * 1)) = _
    norm_num
  · have b1 : Pdg.isBaryon c.pdg = false := by decide +kernel
    have b2 : Pdg.isMeson d.pdg = false := by decide +kernel
    have b3 : (c.pdg == piP && d.pdg == 0x2212 || d.pdg == piP && c.pdg == 0x2212 ||
      c.pdg == piM && d.pdg == 0x2112 || d.pdg == piM && c.pdg == 0x2112) = false := by decide +kernel
    have b4 : (c.pdg == piM && d.pdg == 0x2212 || d.pdg == piM && c.pdg == 0x2212 ||
      c.pdg == piP && d.pdg == 0x2112 || d.pdg == piP && c.pdg == 0x2112) = false := by decide +kernel
    have b5 : (Pdg.isMeson c.pdg && Pdg.isBaryon d.pdg) = true := by decide +kernel
    unfold highEnergy
    simp only [b1, b2, b3, b4, b5, Bool.false_and, Bool.and_false, Bool.true_or, if_true,
      Bool.false_eq_true, if_false, bind, Except.bind, am (someP true 1) c (.inr rfl), hd]
    show Except.ok ((if Fn.pimHigh = .pipHigh then (25 : ℝ) else 30) * (1 * 1)) = _
    rw [if_neg (by decide)]; norm_num

/-- The hypotheses of the theorems on antiparticles hold, with a π⁺ and a proton. -/
example : Conj conjWorld antiT ∧ Good (mkType piP (138 / 1000) 0 0) ∧ Good protonT := by
  refine ⟨?_, good_of (by decide +kernel) (by decide +kernel), good_proton⟩
  constructor
  case mem =>
    intro t ht
    simp only [conjWorld, List.mem_cons, List.not_mem_nil, or_false] at ht ⊢
    rcases ht with rfl | rfl | rfl | rfl | rfl | rfl | rfl | rfl <;> simp [antiT_antiT]
  case nucleons => intro t ht; simp [conjWorld] at ht ⊢; rw [ht]
  case antiNucleons => intro t ht; simp [conjWorld] at ht ⊢; rw [ht, antiT_antiT]
  case deltas => intro t ht; simp [conjWorld] at ht ⊢; rw [ht]
  case antiDeltas => intro t ht; simp [conjWorld] at ht ⊢; rw [ht, antiT_antiT]
  all_goals intros; first | rfl | exact Iff.rfl

end Verif.Tot
