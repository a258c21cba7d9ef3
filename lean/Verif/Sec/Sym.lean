import Verif.Sec.Balance

/-!
Symmetries of the inelastic 2 → 2 channels (C111): the order of the incoming particles and charge
conjugation do not matter.
-/

namespace Verif.Sec

open Verif

/-! ### Order of the incoming particles -/

/-- The same collision with the two incoming particles exchanged. -/
noncomputable def exchanged (W : World) : World := { W with m1 := W.m2, m2 := W.m1 }

theorem pCM_symm {s : ℝ} (hs : s ≠ 0) (a b : ℝ) : Kin.pCM s a b = Kin.pCM s b a := by
  have : Kin.pCMsqrS (s * s) a b = Kin.pCMsqrS (s * s) b a := by
    unfold Kin.pCMsqrS
    field_simp
    ring
  unfold Kin.pCM Kin.pCMS
  rw [this]

theorem matrix_symm (s : ℝ) (a b : PType) (I : Int) :
    matrixElement s a b I = matrixElement s b a I := by
  have e1 : (sign a == sign b) = (sign b == sign a) := BEq.comm
  have e2 : ∀ p q : PType → Bool, ((p a && q b) || (p b && q a)) = ((p b && q a) || (p a && q b)) :=
    fun p q => Bool.or_comm _ _
  have e3 : (isDelta a && isDelta b) = (isDelta b && isDelta a) := Bool.and_comm _ _
  have e4 : (isNstar1535 a || isNstar1535 b) = (isNstar1535 b || isNstar1535 a) := Bool.or_comm _ _
  have e5 : 2 * (a.mass * a.mass + b.mass * b.mass) = 2 * (b.mass * b.mass + a.mass * a.mass) := by
    ring
  have e6 : a.mass + b.mass + 3 * (a.width + b.width) + 3 =
    b.mass + a.mass + 3 * (b.width + a.width) + 3 := by ring
  unfold matrixElement
  simp only []
  rw [e1, e2 isDelta isNucleon, e2 isNstar isNucleon, e2 isDeltastar isNucleon, e3,
    e2 isNstar isDelta, e2 isDeltastar isDelta, e2 isDeuteron isPion, e4, e5, e6]

/-- What the isospin factors must satisfy (Verif.Cg: squared coefficients do not change when the two
incoming particles are exchanged). -/
structure Exchangeable (W : World) (a b : PType) : Prop where
  iso : ∀ c d I, W.iso b a c d I = W.iso a b c d I
  totI : W.totI b a = W.totI a b
  sqrts : W.sqrts ≠ 0

theorem nnFromType_symm {W : World} {a b : PType} (h : Exchangeable W a b) (l1 l2 : List PType)
    (g : PType → PType → ℝ) :
    nnFromType (exchanged W) b a l1 l2 g = nnFromType W a b l1 l2 g := by
  unfold nnFromType
  have : ∀ r1 r2 I, nnChannel (exchanged W) b a g r1 r2 I = nnChannel W a b g r1 r2 I := by
    intro r1 r2 I
    unfold nnChannel
    simp only [exchanged, h.iso, pCM_symm h.sqrts W.m2 W.m1]
  simp only [this]
  have e : (exchanged W).totI b a = W.totI a b := h.totI
  rw [e, add_comm (charge b) (charge a)]

theorem nucPairs_symm {W : World} {a b : PType} (h : Exchangeable W a b) (l : List PType)
    (p : PType → PType → ℝ) :
    nucPairs (exchanged W) b a l p = nucPairs W a b l p := by
  unfold nucPairs
  have : ∀ r1 r2 I, nucChannel (exchanged W) b a (p r1 r2) r1 r2 I =
      nucChannel W a b (p r1 r2) r1 r2 I := by
    intro r1 r2 I
    unfold nucChannel
    have e : (b.multiplet = a.multiplet) = (a.multiplet = b.multiplet) := propext eq_comm
    simp only [exchanged, h.iso, pCM_symm h.sqrts W.m2 W.m1, matrix_symm W.sqrts b a, e]
  simp only [this]
  have e : (exchanged W).totI = W.totI := rfl
  rw [e, add_comm (charge b) (charge a)]

theorem channels_exchanged {W : World} (h : W.sqrts ≠ 0) (a b : PType) (rows : List Row) :
    channels (exchanged W) a b rows = channels W a b rows := by
  have hf : ∀ c, find (exchanged W) c = find W c := fun _ => rfl
  have hg : ∀ a b c d, getRatio (exchanged W) a b c d = getRatio W a b c d := fun _ _ _ _ => rfl
  have he : ∀ f, eval (exchanged W) a b f = eval W a b f := by
    intro f
    cases f <;> simp only [eval, hf, hg]
    · rfl
    · rfl
    · rfl
    · rfl
    · rfl
    · have : ∀ c d, balanceRK (exchanged W) a b c d = balanceRK W a b c d := by
        intro c d
        unfold balanceRK
        simp only [exchanged, pCM_symm h W.m2 W.m1]
      simp only [this]
      rfl
  induction rows with
  | nil => rfl
  | cons r rs ih =>
    simp only [channels, channel, hf, he, ih]
    rfl

theorem nucleon_not_kaon {t : PType} (h : isNucleon t = true) : isKaon t = false := by
  simp only [isNucleon, isKaon, Bool.or_eq_true, beq_iff_eq, Bool.or_eq_false_iff,
    beq_eq_false_iff_ne] at *
  omega

theorem delta_not_kaon {t : PType} (h : isDelta t = true) : isKaon t = false := by
  simp only [isDelta, isKaon, Bool.or_eq_true, beq_iff_eq, Bool.or_eq_false_iff,
    beq_eq_false_iff_ne] at *
  omega

theorem nucleon_not_pion {t : PType} (h : isNucleon t = true) : isPion t = false := by
  simp only [isNucleon, isPion, Bool.or_eq_true, beq_iff_eq, Bool.or_eq_false_iff,
    beq_eq_false_iff_ne] at *
  omega

theorem pion_not_hyperon {t : PType} (g : Good t) (h : isPion t = true) :
    Pdg.isHyperon t.pdg = false := by
  have := (pion_qn g h).2.2.2
  by_contra hx
  simp only [Bool.not_eq_false, Pdg.isHyperon, Bool.and_eq_true, beq_iff_eq] at hx
  simp [Pdg.isBaryon, hx.1, hx.2] at this

theorem pick {p q : PType → Bool} {a b : PType} (hx : ∀ t, t = a ∨ t = b → p t = true → q t = false)
    (h : ((p a && q b) || (p b && q a)) = true) :
    (if p b then b else a) = (if p a then a else b) ∧ (if p b then a else b) = (if p a then b else a) := by
  simp only [Bool.or_eq_true, Bool.and_eq_true] at h
  rcases h with ⟨h1, h2⟩ | ⟨h1, h2⟩
  · have : p b = false := by
      by_contra hb
      have := hx b (.inr rfl) (by simpa using hb)
      rw [h2] at this; cases this
    simp [h1, this]
  · have : p a = false := by
      by_contra hb
      have := hx a (.inl rfl) (by simpa using hb)
      rw [h2] at this; cases this
    simp [h1, this]

theorem xsDn_exchanged {W : World} (h : W.sqrts ≠ 0) (p t n : PType) :
    xsDn (exchanged W) p t n = xsDn W p t n := by
  unfold xsDn
  simp only [exchanged, pCM_symm h W.m2 W.m1]
  congr!

theorem dnLoop_exchanged {W : World} (h : W.sqrts ≠ 0) (t n : PType) (ps : List PType) :
    dnLoop (exchanged W) t n ps = dnLoop W t n ps := by
  induction ps with
  | nil => rfl
  | cons p ps ih => simp only [dnLoop, ih, xsDn_exchanged h]

theorem xsDpi_exchanged {W : World} (h : W.sqrts ≠ 0) (p n : PType) :
    xsDpi (exchanged W) p n = xsDpi W p n := by
  unfold xsDpi
  simp only [exchanged, pCM_symm h W.m2 W.m1]

/-- **C111** (order). The channels of two particles and their cross sections do not depend on the order
in which the two particles are given. -/
theorem C111_order (W : World) (inc : Included) (k : ℝ) (a b : PType) (ha : Good a) (hb : Good b)
    (h : Exchangeable W a b) :
    twoToTwo (exchanged W) inc k b a = twoToTwo W inc k a b ∧
      rareTwoToTwo (exchanged W) b a = rareTwoToTwo W a b := by
  have e1 : (sign b == sign a) = (sign a == sign b) := BEq.comm
  have nnd : ∀ anti, nnToDeuteron (exchanged W) inc b a anti = nnToDeuteron W inc a b anti := by
    intro anti
    unfold nnToDeuteron
    simp only [nnFromType_symm h]
    rfl
  have nn : isNucleon a = true → isNucleon b = true → nnXx (exchanged W) inc b a = nnXx W inc a b := by
    intro _ _
    unfold nnXx
    simp only [nnFromType_symm h, nnd]
    rw [Bool.and_comm (sign b == -1)]
    rfl
  have bbs : sign b = sign a → ∀ anti, barBarToNucNuc (exchanged W) b a anti =
      barBarToNucNuc W a b anti := by
    intro _ anti
    unfold barBarToNucNuc
    rw [nucPairs_symm h]
    rfl
  have bb : Pdg.isNucleus a.pdg = false → Pdg.isNucleus b.pdg = false →
      bbXx (exchanged W) inc b a = bbXx W inc a b := by
    intro n1 n2
    unfold bbXx
    simp only [n1, n2, Bool.or_self, Bool.not_false, Bool.and_true, e1]
    by_cases hs : sign a = sign b
    · have hs' : (sign a == sign b) = true := by simp [hs]
      simp only [hs', Bool.not_true, Bool.false_eq_true, if_false, bbs hs.symm]
      rw [Bool.or_comm (isNucleon b), Bool.or_comm (isDelta b), hs]
    · have hs' : (sign a == sign b) = false := by simp [hs]
      simp only [hs', Bool.not_false, if_true]
  constructor
  · unfold twoToTwo
    rw [Bool.and_comm (Pdg.isBaryon b.pdg), Bool.and_comm (isNucleon b), e1,
      Bool.or_comm (Pdg.isBaryon b.pdg && _), Bool.and_comm (Pdg.isMeson b.pdg),
      Bool.and_comm (Pdg.isBaryon b.pdg), Bool.or_comm (isNucleon b && isKaon a),
      Bool.or_comm (Pdg.isHyperon b.pdg && _), Bool.or_comm (isDelta b && isKaon a),
      Bool.or_comm (Pdg.isNucleus b.pdg), Bool.or_comm (isNucleon b && Pdg.isNucleus a.pdg),
      Bool.or_comm ((isDeuteron b || isDprime b) && _)]
    have nuc : ∀ t, t = a ∨ t = b → isNucleon t = true → Pdg.isNucleus t.pdg = false := by
      rintro t (rfl | rfl) ht
      · exact (nucleon_nsb ha ht).2.2
      · exact (nucleon_nsb hb ht).2.2
    have hadron : ∀ {d : Nat}, Pdg.isBaryon d = true → Pdg.isNucleus d = false := by
      intro d hd
      simp only [Pdg.isBaryon, Bool.and_eq_true] at hd
      exact Pdg.hadron_not_nucleus hd.1
    split_ifs with h1 h2 h3 h4 h5 h6 h7 h8 h9
    · simp only [Bool.and_eq_true] at h2
      rw [nn h2.1.1 h2.1.2]
    · simp only [Bool.and_eq_true] at h1
      rw [bb (hadron h1.1) (hadron h1.2)]
    · unfold nkXxList
      obtain ⟨p1, p2⟩ := pick (p := isNucleon) (q := isKaon) (fun t _ => nucleon_not_kaon) h4
      have e : k + b.mass + a.mass = k + a.mass + b.mass := by ring
      simp only []
      rw [p1, p2, channels_exchanged h.sqrts, e]
      rfl
    · unfold ypiXxList
      obtain ⟨p1, p2⟩ := pick (p := fun t => Pdg.isHyperon t.pdg) (q := isPion) (fun t ht hy => by
        by_contra hx
        have hx' : isPion t = true := by simpa using hx
        rcases ht with rfl | rfl
        · rw [pion_not_hyperon ha hx'] at hy; cases hy
        · rw [pion_not_hyperon hb hx'] at hy; cases hy) h5
      simp only [] at p1 p2 ⊢
      rw [p1, p2, channels_exchanged h.sqrts]
    · unfold deltakXxList
      obtain ⟨p1, p2⟩ := pick (p := isDelta) (q := isKaon) (fun t _ => delta_not_kaon) h6
      simp only []
      rw [p1, p2, channels_exchanged h.sqrts]
    · rfl
    · unfold dnXx
      obtain ⟨p1, _⟩ := pick (p := isNucleon) (q := fun t => Pdg.isNucleus t.pdg) nuc h8
      have h8' : ((Pdg.isNucleus a.pdg && isNucleon b) || (Pdg.isNucleus b.pdg && isNucleon a)) =
          true := by
        rw [Bool.or_comm, Bool.and_comm (Pdg.isNucleus b.pdg), Bool.and_comm (Pdg.isNucleus a.pdg)]
        exact h8
      obtain ⟨p2, _⟩ := pick (p := fun t => Pdg.isNucleus t.pdg) (q := isNucleon) (fun t ht hy => by
        by_contra hx
        have := nuc t ht (by simpa using hx)
        rw [hy] at this; cases this) h8'
      rw [p1, p2, dnLoop_exchanged h.sqrts]
      rfl
    · have npi : ∀ t, t = a ∨ t = b → isPion t = true → (isDeuteron t || isDprime t) = false ∧
          Pdg.isNucleus t.pdg = false := by
        intro t ht hx
        have hn : Pdg.isNucleus t.pdg = false := by
          rcases ht with rfl | rfl
          · exact (pion_qn ha hx).2.2.1
          · exact (pion_qn hb hx).2.2.1
        exact ⟨by simp [isDeuteron, isDprime, hn], hn⟩
      have dn : ∀ {t : PType}, (isDeuteron t || isDprime t) = true → Pdg.isNucleus t.pdg = true := by
        intro t ht
        simp only [isDeuteron, isDprime, Bool.or_eq_true, Bool.and_eq_true] at ht
        rcases ht with h | h
        · exact h.1.1.1.1
        · exact h.1
      have h9' : ((isPion a && (isDeuteron b || isDprime b)) ||
          (isPion b && (isDeuteron a || isDprime a))) = true := by
        rw [Bool.or_comm, Bool.and_comm (isPion b), Bool.and_comm (isPion a)]
        exact h9
      obtain ⟨p1, _⟩ := pick (p := isPion) (q := fun t => isDeuteron t || isDprime t)
        (fun t ht hx => (npi t ht hx).1) h9'
      have p2 : (if Pdg.isNucleus b.pdg then b else a) = (if Pdg.isNucleus a.pdg then a else b) := by
        simp only [Bool.or_eq_true (_ && _), Bool.and_eq_true] at h9
        rcases h9 with ⟨c1, c2⟩ | ⟨c1, c2⟩
        · simp [dn c1, (npi b (.inr rfl) c2).2]
        · simp [dn c1, (npi a (.inl rfl) c2).2]
      unfold dpiXx
      simp only [nucPairs_symm h]
      rw [p1, p2, Bool.or_comm (isDeuteron b && isPion a),
        Bool.or_comm ((isDeuteron b || isDprime b) && isPion a),
        add_comm (Pdg.baryonNumber b.pdg)]
      simp only [xsDpi_exchanged h.sqrts]
      rfl
    · rfl
    · rfl
  · unfold rareTwoToTwo
    rw [Bool.or_comm (isNucleon b && isPion a)]
    split_ifs with hc
    · unfold npiYkList
      obtain ⟨p1, p2⟩ := pick (p := isNucleon) (q := isPion) (fun t _ => nucleon_not_pion) hc
      simp only []
      rw [p1, p2, channels_exchanged h.sqrts]
    · rfl

end Verif.Sec
