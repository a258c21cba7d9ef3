import Verif.Tot.Wit
import Verif.Sec.Nuc
import Verif.Pdg.Quantum

/-!
Conservation laws and signs of all channels (C114).
-/

namespace Verif.Tot

open Verif Sec

/-! ### Specification -/

/-- A nucleus has no more protons and Λs than baryons (the rest are neutrons). -/
def Proper (t : PType) : Prop := Pdg.Z t.pdg + Pdg.nLambda t.pdg ≤ Pdg.A t.pdg

/-! ### Quantum numbers -/

theorem nucleus_qn {d : Nat} (h : Pdg.isNucleus d = true) :
    Pdg.charge d = Pdg.Z d * Pdg.antiparticleSign d ∧
      Pdg.baryonNumber d = Pdg.A d * Pdg.antiparticleSign d ∧
      Pdg.strangeness d = -(Pdg.nLambda d * Pdg.antiparticleSign d) := by
  refine ⟨?_, ?_, ?_⟩
  · have e : Pdg.charge d = Int.tdiv (Pdg.Z d * Pdg.antiparticleSign d * 3) 3 := by
      simp only [Pdg.charge, Pdg.netQuark, Pdg.netQuarkNumber, h, Bool.or_true, if_true]
      norm_num [Except.toOption]
      rw [show ((Pdg.Z d : ℤ) * Pdg.antiparticleSign d) = Int.tdiv ((Pdg.Z d : ℤ) * Pdg.antiparticleSign d * 3) 3
        from (Int.mul_tdiv_cancel _ (by norm_num)).symm]
      congr 1
      ring
    rw [e, Int.mul_tdiv_cancel _ (by norm_num)]
  · simp [Pdg.baryonNumber, h]
  · simp [Pdg.strangeness, Pdg.netQuark, Pdg.netQuarkNumber, h, Except.toOption]

/-- What `find` returns. -/
theorem find_qn {W : World} {c : Int} {t : PType} (h : lift (find W c) = .ok t) :
    Pdg.ofInt c = .ok t.pdg := (find_ok (lift_ok h)).1

theorem ofInt_qn {c : Int} {t : PType} (h : Pdg.ofInt c = .ok t.pdg) (q b s : Int)
    (hc : (match Pdg.ofInt c with
      | .ok d => Pdg.charge d == q && Pdg.baryonNumber d == b && Pdg.strangeness d == s
      | .error _ => false) = true) :
    Pdg.charge t.pdg = q ∧ Pdg.baryonNumber t.pdg = b ∧ Pdg.strangeness t.pdg = s := by
  rw [h] at hc
  simpa [and_assoc] using hc

theorem conserves_of {ins outs : List PType}
    (h : ∀ f ∈ [Pdg.charge, Pdg.baryonNumber, Pdg.strangeness], total f outs = total f ins) :
    Conserves ins outs :=
  ⟨h _ (by simp), h _ (by simp), h _ (by simp)⟩

theorem total_cons (f : Nat → Int) (a : PType) (l : List PType) :
    total f (a :: l) = f a.pdg + total f l := by simp [total]

theorem total_nil (f : Nat → Int) : total f [] = 0 := rfl

/-! ### 2 → 1 -/

theorem twoToOne_conserves {W : World} {H : Hi} {a b : PType} {c : Chan} (h : c ∈ twoToOne W H a b) :
    Conserves [a, b] c.out ∧ 0 ≤ c.weight := by
  obtain ⟨r, hr, h⟩ := List.mem_flatMap.1 h
  split at h
  · rename_i hs
    rw [List.mem_singleton] at h
    subst h
    have hr := (List.mem_filter.1 hr).2
    simp only [Bool.and_eq_true, beq_iff_eq] at hr
    refine ⟨⟨?_, ?_, ?_⟩, ?_⟩
    · rw [total_two, total_cons, total_nil, add_zero]; exact hr.1.1.1.2
    · rw [total_two, total_cons, total_nil, add_zero]; exact hr.1.1.2
    · rw [total_two, total_cons, total_nil, add_zero]; exact hr.1.2
    · have : (0 : ℝ) < small := by norm_num [small]
      exact (this.trans hs).le
  · exact absurd h List.not_mem_nil

/-! ### Break-up -/

theorem dPiInel_nonneg {x : ℝ} (h : 0 < x) : 0 ≤ dPiInel x := by
  unfold dPiInel
  have := mul_self_nonneg (x - 16 / 100)
  positivity

theorem dNInel_nonneg {x : ℝ} (h : 0 < x) : 0 ≤ dNInel x := by
  unfold dNInel
  have := mul_self_nonneg (x - 8 / 1000)
  positivity

theorem daNInel_nonneg {x : ℝ} (h : 0 < x) : 0 ≤ daNInel x := by unfold daNInel; positivity

theorem breakXs_nonneg (W : World) (n c : PType) : 0 ≤ breakXs W n c := by
  unfold breakXs
  dsimp only
  split_ifs with h
  · exact le_rfl
  · exact dPiInel_nonneg (not_le.1 h)
  · exact dNInel_nonneg (not_le.1 h)
  · exact daNInel_nonneg (not_le.1 h)
  · exact le_rfl

theorem xs23_nonneg (W : World) (a b : PType) : 0 ≤ xs23 W a b := by
  unfold xs23
  dsimp only
  split_ifs <;> first | exact le_rfl | exact breakXs_nonneg _ _ _

theorem xs24_nonneg (W : World) (a b : PType) : 0 ≤ xs24 W a b := by
  have h := breakXs_nonneg W
  unfold xs24
  dsimp only
  split_ifs <;> first | exact le_rfl | (have := h a b; positivity) | (have := h b a; positivity)

theorem breakUp_conserves {W : World} {a b n t : PType} (hn : isDeuteron n = true) {l : List Chan}
    (h : breakUp W a b n t = .ok l) {c : Chan} (hc : c ∈ l) :
    Conserves [n, t] c.out ∧ 0 ≤ c.weight := by
  simp only [isDeuteron, Bool.and_eq_true, beq_iff_eq] at hn
  obtain ⟨⟨⟨⟨n1, n2⟩, n3⟩, n4⟩, n5⟩ := hn
  obtain ⟨q1, q2, q3⟩ := nucleus_qn n1
  rw [n3] at q1
  rw [n2] at q2
  rw [n4] at q3
  have hs := sign_cases n
  unfold sign at hs
  unfold breakUp at h
  split at h
  all_goals
    rename_i hb
    obtain ⟨p, hp, h⟩ := bind_ok h
    obtain ⟨m, hm, h⟩ := bind_ok h
    injection h with h
    subst h
    rw [List.mem_singleton] at hc
    subst hc
    refine ⟨?_, xs23_nonneg _ _ _⟩
  · obtain ⟨p1, p2, p3⟩ := ofInt_qn (find_qn hp) 1 1 0 (by decide +kernel)
    obtain ⟨m1, m2, m3⟩ := ofInt_qn (find_qn hm) 0 1 0 (by decide +kernel)
    have hs : Pdg.antiparticleSign n.pdg = 1 := by omega
    rw [hs] at q1 q2 q3
    constructor <;> simp only [total_cons, total_nil] <;> push_cast at * <;> omega
  · obtain ⟨p1, p2, p3⟩ := ofInt_qn (find_qn hp) (-1) (-1) 0 (by decide +kernel)
    obtain ⟨m1, m2, m3⟩ := ofInt_qn (find_qn hm) 0 (-1) 0 (by decide +kernel)
    have hs : Pdg.antiparticleSign n.pdg = -1 := by
      push_cast at *
      omega
    rw [hs] at q1 q2 q3
    constructor <;> simp only [total_cons, total_nil] <;> push_cast at * <;> omega

theorem twoToThree_conserves {W : World} {a b : PType} (ha : Good a) {l : List Chan}
    (h : twoToThree W a b = .ok l) {c : Chan} (hc : c ∈ l) :
    Conserves [a, b] c.out ∧ 0 ≤ c.weight := by
  unfold twoToThree at h
  obtain ⟨l1, h1, h⟩ := bind_ok h
  obtain ⟨l2, h2, h⟩ := bind_ok h
  injection h with h
  subst h
  have dn : ∀ {t : PType}, isDeuteron t = true → Pdg.isNucleus t.pdg = true :=
    fun h => (deuteron_qn h).1
  have pn : ∀ {t : PType}, Good t → isPion t = true → Pdg.isNucleus t.pdg = false :=
    fun h h' => (pion_qn h h').2.2.1
  have nn : ∀ {t : PType}, Good t → isNucleon t = true → Pdg.isNucleus t.pdg = false :=
    fun h h' => (nucleon_nsb h h').2.2
  rcases List.mem_append.1 hc with hc | hc
  · split at h1
    · rename_i hq
      simp only [Bool.or_eq_true, Bool.and_eq_true] at hq
      rcases hq with ⟨q1, q2⟩ | ⟨q1, q2⟩
      · have np : isPion a = false := by
          by_contra hx
          have := pn ha (by simpa using hx)
          rw [dn q1] at this; cases this
        rw [dn q1, np] at h1
        exact breakUp_conserves q1 h1 hc
      · have e := pn ha q2
        rw [e, q2] at h1
        obtain ⟨r1, r2⟩ := breakUp_conserves q1 h1 hc
        exact ⟨r1.swap, r2⟩
    · rw [ok_nil h1] at hc; exact absurd hc List.not_mem_nil
  · split at h2
    · rename_i hq
      simp only [Bool.or_eq_true, Bool.and_eq_true] at hq
      rcases hq with ⟨q1, q2⟩ | ⟨q1, q2⟩
      · have nd : isDeuteron a = false := by
          by_contra hx
          have := dn (t := a) (by simpa using hx)
          rw [nn ha q1] at this; cases this
        rw [nd, q1] at h2
        obtain ⟨r1, r2⟩ := breakUp_conserves q2 h2 hc
        exact ⟨r1.swap, r2⟩
      · have nd : isNucleon a = false := by
          by_contra hx
          have := nn ha (by simpa using hx)
          rw [dn q2] at this; cases this
        rw [nd, q2] at h2
        exact breakUp_conserves q2 h2 hc
    · rw [ok_nil h2] at hc; exact absurd hc List.not_mem_nil

theorem deref_ok {o : Option PType} {t : PType} (h : deref o = .ok t) : o = some t := by
  cases o with
  | none => cases h
  | some x => injection h with h; rw [h]

theorem tryFind_pdg {W : World} {d : Nat} {t : PType} (h : tryFind W d = some t) : t.pdg = d := by
  have := List.find?_some h
  simpa using this

/-- Quantum numbers of three components. -/
theorem three {n1 n2 n3 : Nat} (h : n1 + n2 + n3 = 3) {x y z c1 c2 c3 : Option PType}
    {r : List (Option PType)}
    (hl : List.replicate n1 x ++ List.replicate n2 y ++ List.replicate n3 z = c1 :: c2 :: c3 :: r)
    {t1 t2 t3 : PType} (h1 : c1 = some t1) (h2 : c2 = some t2) (h3 : c3 = some t3) (f : Nat → Int)
    (vx vy vz : Int) (hx : ∀ t, x = some t → f t.pdg = vx) (hy : ∀ t, y = some t → f t.pdg = vy)
    (hz : ∀ t, z = some t → f t.pdg = vz) :
    f t1.pdg + f t2.pdg + f t3.pdg = n1 * vx + n2 * vy + n3 * vz := by
  subst h1 h2 h3
  have m1 : n1 ≤ 3 := by omega
  have m2 : n2 ≤ 3 := by omega
  have e : n3 = 3 - n1 - n2 := by omega
  subst e
  have cases1 : n1 = 0 ∨ n1 = 1 ∨ n1 = 2 ∨ n1 = 3 := by omega
  have cases2 : n2 = 0 ∨ n2 = 1 ∨ n2 = 2 ∨ n2 = 3 := by omega
  rcases cases1 with rfl | rfl | rfl | rfl <;> rcases cases2 with rfl | rfl | rfl | rfl <;>
    first
    | omega
    | (simp [List.replicate_succ] at hl
       obtain ⟨e1, e2, e3, _⟩ := hl
       first
         | (have a1 := hx _ e1; have a2 := hx _ e2; have a3 := hx _ e3; push_cast; omega)
         | (have a1 := hx _ e1; have a2 := hx _ e2; have a3 := hy _ e3; push_cast; omega)
         | (have a1 := hx _ e1; have a2 := hx _ e2; have a3 := hz _ e3; push_cast; omega)
         | (have a1 := hx _ e1; have a2 := hy _ e2; have a3 := hy _ e3; push_cast; omega)
         | (have a1 := hx _ e1; have a2 := hy _ e2; have a3 := hz _ e3; push_cast; omega)
         | (have a1 := hx _ e1; have a2 := hz _ e2; have a3 := hz _ e3; push_cast; omega)
         | (have a1 := hy _ e1; have a2 := hy _ e2; have a3 := hy _ e3; push_cast; omega)
         | (have a1 := hy _ e1; have a2 := hy _ e2; have a3 := hz _ e3; push_cast; omega)
         | (have a1 := hy _ e1; have a2 := hz _ e2; have a3 := hz _ e3; push_cast; omega)
         | (have a1 := hz _ e1; have a2 := hz _ e2; have a3 := hz _ e3; push_cast; omega))

theorem twoToFour_conserves {W : World} {a b : PType} {l : List Chan}
    (hp : ∀ t ∈ [a, b], Pdg.isNucleus t.pdg = true → Proper t)
    (h : twoToFour W a b = .ok l) {c : Chan} (hc : c ∈ l) :
    Conserves [a, b] c.out ∧ 0 ≤ c.weight := by
  rcases twoToFour_shape h with rfl | ⟨n, d, c1, c2, c3, r, t1, t2, t3, ho, hn, hb, _, hcomp, e1, e2, e3,
    rfl⟩
  · exact absurd hc List.not_mem_nil
  rw [List.mem_singleton] at hc
  subst hc
  refine ⟨?_, xs24_nonneg _ _ _⟩
  have hpr : Proper n := by
    rcases ho with ⟨rfl, rfl⟩ | ⟨rfl, rfl⟩ <;> exact hp _ (by simp) hn
  obtain ⟨q1, q2, q3⟩ := nucleus_qn hn
  have hs : (Pdg.anti n.pdg = true ∧ Pdg.antiparticleSign n.pdg = -1) ∨
      (Pdg.anti n.pdg = false ∧ Pdg.antiparticleSign n.pdg = 1) := by
    unfold Pdg.antiparticleSign
    by_cases q : Pdg.anti n.pdg = true
    · simp [q]
    · simp at q; simp [q]
  have hA : Pdg.A n.pdg = 3 := by
    rw [q2] at hb
    rcases hs with ⟨_, hs⟩ | ⟨_, hs⟩ <;> rw [hs] at hb <;> omega
  unfold Proper at hpr
  have goal : Conserves [n, d] [d, t1, t2, t3] := by
    unfold components at hcomp
    simp only at hcomp
    have hN : Pdg.Z n.pdg + ((Pdg.A n.pdg : Int) - Pdg.Z n.pdg - Pdg.nLambda n.pdg).toNat +
      Pdg.nLambda n.pdg = 3 := by omega
    have key := fun f vx vy vz hx hy hz =>
      three hN hcomp (deref_ok e1) (deref_ok e2) (deref_ok e3) f vx vy vz hx hy hz
    rcases hs with ⟨hs1, hs2⟩ | ⟨hs1, hs2⟩
    · rw [hs1] at key
      rw [hs2] at q1 q2 q3
      have k1 := key Pdg.charge (-1) 0 0
        (fun t ht => by rw [tryFind_pdg ht]; decide +kernel)
        (fun t ht => by rw [tryFind_pdg ht]; decide +kernel)
        (fun t ht => by rw [tryFind_pdg ht]; decide +kernel)
      have k2 := key Pdg.baryonNumber (-1) (-1) (-1)
        (fun t ht => by rw [tryFind_pdg ht]; decide +kernel)
        (fun t ht => by rw [tryFind_pdg ht]; decide +kernel)
        (fun t ht => by rw [tryFind_pdg ht]; decide +kernel)
      have k3 := key Pdg.strangeness 0 0 1
        (fun t ht => by rw [tryFind_pdg ht]; decide +kernel)
        (fun t ht => by rw [tryFind_pdg ht]; decide +kernel)
        (fun t ht => by rw [tryFind_pdg ht]; decide +kernel)
      constructor <;> simp only [total_cons, total_nil] <;> omega
    · rw [hs1] at key
      rw [hs2] at q1 q2 q3
      have k1 := key Pdg.charge 1 0 0
        (fun t ht => by rw [tryFind_pdg ht]; decide +kernel)
        (fun t ht => by rw [tryFind_pdg ht]; decide +kernel)
        (fun t ht => by rw [tryFind_pdg ht]; decide +kernel)
      have k2 := key Pdg.baryonNumber 1 1 1
        (fun t ht => by rw [tryFind_pdg ht]; decide +kernel)
        (fun t ht => by rw [tryFind_pdg ht]; decide +kernel)
        (fun t ht => by rw [tryFind_pdg ht]; decide +kernel)
      have k3 := key Pdg.strangeness 0 0 (-1)
        (fun t ht => by rw [tryFind_pdg ht]; decide +kernel)
        (fun t ht => by rw [tryFind_pdg ht]; decide +kernel)
        (fun t ht => by rw [tryFind_pdg ht]; decide +kernel)
      constructor <;> simp only [total_cons, total_nil] <;> omega
  rcases ho with ⟨rfl, rfl⟩ | ⟨rfl, rfl⟩
  · exact goal
  · exact goal.swap

/-! ### Antinucleons -/

theorem nnbar_total {a b : PType} (h : isNNbar a b = true) :
    total Pdg.charge [a, b] = 0 ∧ total Pdg.baryonNumber [a, b] = 0 ∧
      total Pdg.strangeness [a, b] = 0 := by
  simp only [isNNbar, Bool.and_eq_true, beq_iff_eq] at h
  have := Pdg.C15_opposite a.pdg
  simp only [total_two, h.2, this.1, this.2.1, this.2.2.2.1]
  omega

/-- What is needed for the weights: the configured factors are not negative, the particles do move
towards each other, and antiparticles have the mass of their particle. -/
structure Positive (W : World) (P : Params) (a b : PType) : Prop where
  scale : 0 ≤ P.scale
  additional : 0 ≤ P.additionalEl
  flux : 0 < Kin.pCM W.sqrts W.m1 W.m2 * W.intRR a b
  mass : ∀ t ∈ W.types, 0 ≤ t.mass
  anti : ∀ t ∈ W.types, ∀ u ∈ W.types, u.pdg = Pdg.getAntiparticle t.pdg → u.mass = t.mass

theorem pCMsqr_same {s m : ℝ} (hm : 0 ≤ m) (hs : 2 * m ≤ s) : 0 ≤ Kin.pCMsqr s m m := by
  unfold Kin.pCMsqr Kin.pCMsqrS
  dsimp only
  have e : s * s + m * m - m * m = s * s := by ring
  rw [e]
  rcases eq_or_lt_of_le (by linarith : 0 ≤ s) with h | h
  · have : m = 0 := by linarith
    rw [← h, this]; norm_num
  · have : s * s * (s * s) * (1 / 4 / (s * s)) = s * s / 4 := by field_simp
    rw [this]
    nlinarith

theorem balanceRR_nonneg {W : World} {P : Params} {a b n m : PType} (hp : Positive W P a b)
    (hn : n ∈ W.types) (hm : m ∈ W.types) (he : m.pdg = Pdg.getAntiparticle n.pdg)
    (hs : 0 ≤ W.sqrts - 2 * n.mass) : 0 ≤ balanceRR W a b n m := by
  have h1 := pCMsqr_same (hp.mass n hn) (by linarith : 2 * n.mass ≤ W.sqrts)
  have h2 := hp.flux
  unfold balanceRR
  rw [hp.anti n hn m hm he]
  have h3 := div_nonneg h1 h2.le
  dsimp only
  refine mul_nonneg (mul_nonneg (by positivity) ?_) h3
  split_ifs <;> norm_num

theorem nnbarPart_conserves {W : World} {H : Hi} {P : Params} {a b : PType} (hpos : Positive W P a b)
    {x : ℝ} {l : List Chan} (h : nnbarPart W H P a b x = .ok l) {c : Chan} (hc : c ∈ l) :
    Conserves [a, b] c.out ∧ 0 ≤ c.weight := by
  unfold nnbarPart at h
  split at h
  · split at h
    · rename_i hn
      obtain ⟨d, hd, h⟩ := bind_ok h
      injection h with h
      subst h
      rw [List.mem_singleton] at hc
      subst hc
      unfold nnbarTo5pi at hd
      obtain ⟨z, hz, hd⟩ := bind_ok hd
      obtain ⟨p, hp, hd⟩ := bind_ok hd
      obtain ⟨m, hm, hd⟩ := bind_ok hd
      injection hd with hd
      subst hd
      obtain ⟨z1, z2, z3⟩ := ofInt_qn (find_qn hz) 0 0 0 (by decide +kernel)
      obtain ⟨p1, p2, p3⟩ := ofInt_qn (find_qn hp) 1 0 0 (by decide +kernel)
      obtain ⟨m1, m2, m3⟩ := ofInt_qn (find_qn hm) (-1) 0 0 (by decide +kernel)
      obtain ⟨q1, q2, q3⟩ := nnbar_total hn
      refine ⟨⟨?_, ?_, ?_⟩, mul_nonneg (le_max_left _ _) hpos.scale⟩
      · rw [q1]; simp only [total_cons, total_nil]; omega
      · rw [q2]; simp only [total_cons, total_nil]; omega
      · rw [q3]; simp only [total_cons, total_nil]; omega
    · rw [ok_nil h] at hc; exact absurd hc List.not_mem_nil
  · split at h
    · rename_i hn
      obtain ⟨d, hd, h⟩ := bind_ok h
      injection h with h
      subst h
      rw [List.mem_singleton] at hc
      subst hc
      unfold nnbarAnnihilation at hd
      obtain ⟨z, hz, hd⟩ := bind_ok hd
      obtain ⟨p, hp, hd⟩ := bind_ok hd
      injection hd with hd
      subst hd
      obtain ⟨z1, z2, z3⟩ := ofInt_qn (find_qn hz) 0 0 0 (by decide +kernel)
      obtain ⟨p1, p2, p3⟩ := ofInt_qn (find_qn hp) 0 0 0 (by decide +kernel)
      obtain ⟨q1, q2, q3⟩ := nnbar_total hn
      refine ⟨⟨?_, ?_, ?_⟩, le_max_left _ _⟩
      · rw [q1]; simp only [total_cons, total_nil]; omega
      · rw [q2]; simp only [total_cons, total_nil]; omega
      · rw [q3]; simp only [total_cons, total_nil]; omega
    · obtain ⟨d, hd, h⟩ := bind_ok h
      injection h with h
      subst h
      obtain ⟨e, he, rfl⟩ := List.mem_map.1 hc
      unfold nnbarCreation at hd
      split at hd
      · rename_i hab
        have hq : Conserves [a, b] [] := by
          simp only [Bool.or_eq_true, Bool.and_eq_true, beq_iff_eq] at hab
          rcases hab with ⟨e1, e2⟩ | ⟨e1, e2⟩ <;> constructor <;>
            simp only [total_cons, total_nil, e1, e2] <;> decide +kernel
        obtain ⟨n, hn, hd⟩ := bind_ok hd
        obtain ⟨m, hm, hd⟩ := bind_ok hd
        split at hd
        · rw [ok_nil hd] at he; exact absurd he List.not_mem_nil
        · rename_i hs
          obtain ⟨n', hn', hd⟩ := bind_ok hd
          obtain ⟨m', hm', hd⟩ := bind_ok hd
          injection hd with hd
          subst hd
          have hx := balanceRR_nonneg hpos (find_ok (lift_ok hn)).2 (find_ok (lift_ok hm)).2 (by
            have h1 := find_qn hn
            have h2 := find_qn hm
            have e1 : Pdg.ofInt 0x2212 = .ok 0x2212 := by decide +kernel
            have e2 : Pdg.ofInt (-0x2212) = .ok (Pdg.getAntiparticle 0x2212) := by decide +kernel
            rw [e1] at h1
            rw [e2] at h2
            injection h1 with h1
            injection h2 with h2
            rw [← h1, ← h2]) (not_lt.1 hs)
          have hw := mul_nonneg (mul_nonneg hx (le_max_left 0 (H.f .ppbarTot (sOf W) -
            H.f .ppbarEl (sOf W)))) hpos.scale
          obtain ⟨z1, z2, z3⟩ := ofInt_qn (find_qn hn) 1 1 0 (by decide +kernel)
          obtain ⟨p1, p2, p3⟩ := ofInt_qn (find_qn hm) (-1) (-1) 0 (by decide +kernel)
          obtain ⟨z1', z2', z3'⟩ := ofInt_qn (find_qn hn') 0 1 0 (by decide +kernel)
          obtain ⟨p1', p2', p3'⟩ := ofInt_qn (find_qn hm') 0 (-1) 0 (by decide +kernel)
          simp only [List.mem_cons, List.not_mem_nil, or_false] at he
          rcases he with rfl | rfl
          · refine ⟨⟨?_, ?_, ?_⟩, hw⟩
            · rw [← hq.1]; simp only [total_cons, total_nil]; omega
            · rw [← hq.2]; simp only [total_cons, total_nil]; omega
            · rw [← hq.3]; simp only [total_cons, total_nil]; omega
          · refine ⟨⟨?_, ?_, ?_⟩, hw⟩
            · rw [← hq.1]; simp only [total_cons, total_nil]; omega
            · rw [← hq.2]; simp only [total_cons, total_nil]; omega
            · rw [← hq.3]; simp only [total_cons, total_nil]; omega
      · rw [ok_nil hd] at he; exact absurd he List.not_mem_nil
  · rw [ok_nil h] at hc; exact absurd hc List.not_mem_nil

/-! ### Elastic scattering -/

theorem positive_pos {x y : ℝ} (h : positive x = .ok y) : 0 ≤ y := by
  unfold positive at h
  split at h
  · rename_i hx; injection h with h; rw [← h]; exact le_of_lt hx
  · cases h

theorem elasticAQM_nonneg {W : World} {H : Hi} {P : Params} (hp : Physical H P) {a b : PType} {x : ℝ}
    (h : elasticAQM W H P a b = .ok x) : 0 ≤ x := by
  unfold elasticAQM at h
  obtain ⟨y, hy, h⟩ := bind_ok h
  injection h with h
  have ka := (aqm_range (H := H) hp a).1
  have kb := (aqm_range (H := H) hp b).1
  have : 0 ≤ y := by
    split at hy
    · exact positive_pos hy
    · split at hy
      · injection hy with hy; rw [← hy]; exact hp.g _ _
      · split at hy
        · split at hy
          · injection hy with hy; rw [← hy]
          · injection hy with hy; rw [← hy]; have := hp.g .pipElAQM (plab (sOf W) W.m1 W.m2); positivity
        · injection hy with hy; rw [← hy]
  rw [← h]
  positivity

theorem elastic_nonneg {W : World} {H : Hi} {P : Params} (hp : Physical H P) {a b : PType} {x : ℝ}
    (h : elasticParametrization W H P a b = .ok x) : 0 ≤ x := by
  unfold elasticParametrization at h
  split at h; · exact positive_pos h
  split at h; · exact positive_pos h
  split at h; · exact positive_pos h
  split at h; · injection h with h; rw [← h]; exact hp.f _ _
  split at h
  · extract_lets n o at h
    split at h; · injection h with h; rw [← h]; exact hp.f _ _
    split at h; · injection h with h; rw [← h]; exact hp.f _ _
    injection h with h; rw [← h]
  split at h; · exact elasticAQM_nonneg hp h
  injection h with h; rw [← h]

theorem elasticPart_conserves {W : World} {H : Hi} {P : Params} (hp : Physical H P) {a b : PType}
    (hpos : Positive W P a b) {l : List Chan} (h : elasticPart W H P a b = .ok l) {c : Chan}
    (hc : c ∈ l) : Conserves [a, b] c.out ∧ 0 ≤ c.weight := by
  refine ⟨by rw [(elasticPart_elastic h c hc).2]; exact ⟨rfl, rfl, rfl⟩, ?_⟩
  unfold elasticPart at h
  split at h
  · obtain ⟨d, hd, h⟩ := bind_ok h
    injection h with h
    subst h
    rw [List.mem_singleton] at hc
    subst hc
    unfold elasticChan at hd
    obtain ⟨x, hx, hd⟩ := bind_ok hd
    injection hd with hd
    subst hd
    have : 0 ≤ x := by
      split at hx
      · rename_i hq; injection hx with hx; rw [← hx]; exact hq
      · exact elastic_nonneg hp hx
    exact mul_nonneg (add_nonneg this hpos.additional) hpos.scale
  · rw [ok_nil h] at hc; exact absurd hc List.not_mem_nil

/-! ### All channels -/

/-- The claim about a channel. -/
def Fine (W : World) (a b : PType) (c : Chan) : Prop :=
  (c.out ≠ [] → Conserves [a, b] c.out) ∧
    ((c.proc = .twoToTwo → Pdg.isNucleus a.pdg = true ∨ Pdg.isNucleus b.pdg = true → Energetic W) →
      0 ≤ c.weight)

theorem scaled_fine {W : World} {a b : PType} {w : ℝ} (hw : 0 ≤ w) {l : List Chan} (h : ∀ c ∈ l, Fine W a b c) :
    ∀ c ∈ scaled w l, Fine W a b c := by
  intro c hc
  obtain ⟨d, hd, rfl⟩ := List.mem_map.1 hc
  exact ⟨(h d hd).1, fun q => mul_nonneg ((h d hd).2 q) hw⟩

theorem low_fine {W : World} {H : Hi} {P : Params} (hl : Lists W) {a b : PType} (ha : Good a)
    (hb : Good b) (hproper : ∀ t ∈ [a, b], Pdg.isNucleus t.pdg = true → Proper t)
    (hone : Pdg.isNucleus a.pdg = true ∨ Pdg.isNucleus b.pdg = true →
      OneStrangeness W a ∧ OneStrangeness W b) {l : List Chan} (h : lowChannels W H P a b = .ok l) :
    ∀ c ∈ l, Fine W a b c := by
  unfold lowChannels at h
  obtain ⟨l22, h22, h⟩ := bind_ok h
  obtain ⟨l23, h23, h⟩ := bind_ok h
  obtain ⟨l24, h24, h⟩ := bind_ok h
  injection h with h
  subst h
  intro c hc
  rcases List.mem_append.1 hc with hc | hc
  · rcases List.mem_append.1 hc with hc | hc
    · rcases List.mem_append.1 hc with hc | hc
      · split at hc
        · exact ⟨fun _ => (twoToOne_conserves hc).1, fun _ => (twoToOne_conserves hc).2⟩
        · exact absurd hc List.not_mem_nil
      · obtain ⟨d, hd, rfl⟩ := List.mem_map.1 hc
        split at h22
        · have h22 := lift_ok h22
          by_cases hn : Pdg.isNucleus a.pdg = false ∧ Pdg.isNucleus b.pdg = false
          · obtain ⟨r1, r2⟩ := C109_hadrons W hl _ _ a b ha hb hn _ h22 d hd
            refine ⟨fun _ => r1, fun _ => ?_⟩
            have : (0 : ℝ) ≤ 1 / 1000000 := by norm_num
            exact this.trans r2.le
          · have hn' : Pdg.isNucleus a.pdg = true ∨ Pdg.isNucleus b.pdg = true := by
              by_contra hx
              apply hn
              simpa using hx
            refine ⟨fun _ => ?_, fun q => C109_nuclei_weight W (q rfl hn') _ _ a b hn' _ h22 d hd⟩
            exact (C109_nuclei_partial W hl _ _ a b ha hb hn' _ h22 d hd).2.2 (hone hn').1 (hone hn').2
        · injection h22 with h22
          subst h22
          exact absurd hd List.not_mem_nil
    · split at h23
      · have := twoToThree_conserves ha h23 hc
        exact ⟨fun _ => this.1, fun _ => this.2⟩
      · rw [ok_nil h23] at hc; exact absurd hc List.not_mem_nil
  · split at h24
    · have := twoToFour_conserves hproper h24 hc
      exact ⟨fun _ => this.1, fun _ => this.2⟩
    · rw [ok_nil h24] at hc; exact absurd hc List.not_mem_nil

theorem string_fine {W : World} {H : Hi} {P : Params} (hp : Physical H P) {a b : PType} {sp : Bool}
    {t : ℝ} {l : List Chan} (h : stringExcitation W H P a b sp t = .ok l) : ∀ c ∈ l, Fine W a b c := by
  intro c hc
  have h2 := (C112_string_channels W H P hp a b sp t l h).2.2
  exact ⟨fun q => absurd (h2.1 c hc) q, fun _ => h2.2 c hc⟩

theorem generate_fine {W : World} {H : Hi} {P : Params} (hp : Physical H P) (hl : Lists W)
    {a b : PType} (ha : Good a) (hb : Good b) (hpos : Positive W P a b)
    (hproper : ∀ t ∈ [a, b], Pdg.isNucleus t.pdg = true → Proper t)
    (hone : Pdg.isNucleus a.pdg = true ∨ Pdg.isNucleus b.pdg = true →
      OneStrangeness W a ∧ OneStrangeness W b) {sp : Bool} {l : List Chan}
    (h : generate W H P a b sp = .ok l) : ∀ c ∈ l, Fine W a b c := by
  have el_fine : ∀ {m}, elasticPart W H P a b = .ok m → ∀ c ∈ m, Fine W a b c := fun hm c hc =>
    ⟨fun _ => (elasticPart_conserves hp hpos hm hc).1, fun _ => (elasticPart_conserves hp hpos hm hc).2⟩
  by_cases hcore : H.core1 = H.core2
  · obtain ⟨p, el, st, low, nn, e1, e2, e3, e4, e5, rfl⟩ := generate_parts h hcore
    have hr : 0 ≤ p ∧ p ≤ 1 := by
      split at e1
      · exact C113_range _ _ _ _ _ e1
      · injection e1 with e1; rw [← e1]; norm_num
    intro c hc
    rcases List.mem_append.1 hc with hc | hc
    · rcases List.mem_append.1 hc with hc | hc
      · rcases List.mem_append.1 hc with hc | hc
        · exact el_fine e2 c hc
        · unfold stringPart at e3
          split at e3
          · obtain ⟨x, hx, e3⟩ := bind_ok e3
            obtain ⟨m, hm, e3⟩ := bind_ok e3
            obtain ⟨r, hr', e3⟩ := bind_ok e3
            injection e3 with e3
            subst e3
            rcases List.mem_append.1 hc with hc | hc
            · exact scaled_fine hr.1 (string_fine hp hm) c hc
            · refine scaled_fine (mul_nonneg hr.1 hpos.scale) ?_ c hc
              intro d hd
              obtain ⟨e, he, rfl⟩ := List.mem_map.1 hd
              obtain ⟨r1, r2⟩ := C109_rare W a b ha hb _ (lift_ok hr') e he
              have : (0 : ℝ) ≤ 1 / 1000000 := by norm_num
              exact ⟨fun _ => r1, fun _ => this.trans r2.le⟩
          · rw [ok_nil e3] at hc; exact absurd hc List.not_mem_nil
      · unfold lowPart at e4
        split at e4
        · obtain ⟨m, hm, e4⟩ := bind_ok e4
          injection e4 with e4
          subst e4
          exact scaled_fine (mul_nonneg (by linarith [hr.2]) hpos.scale)
            (low_fine hl ha hb hproper hone hm) c hc
        · rw [ok_nil e4] at hc; exact absurd hc List.not_mem_nil
    · have := nnbarPart_conserves hpos e5 hc
      exact ⟨fun _ => this.1, fun _ => this.2⟩
  · unfold generate at h
    obtain ⟨p, _, h⟩ := bind_ok h
    obtain ⟨el, hel, h⟩ := bind_ok h
    rw [if_pos (by simpa using hcore)] at h
    injection h with h
    subst h
    exact el_fine hel

/-- **C114** (channels). Each channel of a collision has a weight that is not negative (for 2 → 2
channels of nuclei above their threshold), and, unless it is a string process, whose final state is made later, the charge,
baryon number and strangeness of the incoming pair. Nuclei must not have more protons and Λs than
baryons, and not share charge and baryon number with a nucleus of another strangeness. -/
theorem C114_channels_partial (W : World) (H : Hi) (P : Params) (hp : Physical H P) (hl : Lists W)
    (a b : PType) (ha : Good a) (hb : Good b) (hpos : Positive W P a b)
    (hproper : ∀ t ∈ [a, b], Pdg.isNucleus t.pdg = true → Proper t)
    (hone : Pdg.isNucleus a.pdg = true ∨ Pdg.isNucleus b.pdg = true →
      OneStrangeness W a ∧ OneStrangeness W b) (sp : Bool) (l : List Chan)
    (h : allScatterings W H P a b sp = .ok l) (c : Chan) (hc : c ∈ l) :
    (c.out ≠ [] → Conserves [a, b] c.out) ∧
      ((c.proc = .twoToTwo → Pdg.isNucleus a.pdg = true ∨ Pdg.isNucleus b.pdg = true →
        Energetic W) → 0 ≤ c.weight) := by
  unfold allScatterings at h
  obtain ⟨m, hm, h⟩ := bind_ok h
  have hg := generate_fine hp hl ha hb hpos hproper hone hm
  have done : ∀ {k}, (Except.ok m : Except Err (List Chan)) = .ok k → c ∈ k → Fine W a b c := by
    intro k hk hck
    injection hk with hk
    subst hk
    exact hg c hck
  split at h
  · obtain ⟨p, hp', h⟩ := bind_ok h
    split at h
    · obtain ⟨x, hx, h⟩ := bind_ok h
      split at h
      · obtain ⟨st, hst, h⟩ := bind_ok h
        injection h with h
        subst h
        rcases List.mem_append.1 hc with hc | hc
        · exact hg c hc
        · exact string_fine hp hst c hc
      · exact done h hc
    · exact done h hc
  · exact done h hc

/-- **C114** (fluid). A particle of the fluid and a particle outside it only scatter elastically. -/
theorem C114_fluid (W : World) (H : Hi) (P : Params) (a b : PType) (sp : Bool) (l : List Chan)
    (hc : H.core1 ≠ H.core2) (h : generate W H P a b sp = .ok l) :
    ∀ c ∈ l, c.proc = .elastic ∧ c.out = [a, b] := by
  unfold generate at h
  obtain ⟨p, _, h⟩ := bind_ok h
  obtain ⟨el, hel, h⟩ := bind_ok h
  rw [if_pos (by simpa using hc)] at h
  injection h with h
  subst h
  exact elasticPart_elastic hel

/-! ### Cases -/

noncomputable def neutronT : PType := mkType 0x2112 (938 / 1000) 0 1

/-- A nucleus with three baryons, of which two are protons and two are Λs. -/
noncomputable def badT : PType := mkType (Pdg.mkNuc 0 2 2 3 0) 3 0 1

theorem charges_ok : Pdg.fromDecimal 1020020030 = .ok badT.pdg :=
  of_decide_eq_true (by decide +kernel)

/-- **C114** is false for such a nucleus: only its first three components are released. -/
theorem C114_malformed_false : ∃ (W : World) (a b : PType) (l : List Chan) (c : Chan),
    Lists W ∧ Good a ∧ Good b ∧ twoToFour W a b = .ok l ∧ c ∈ l ∧
      total Pdg.strangeness [a, b] = -2 ∧ total Pdg.strangeness c.out = -1 := by
  let W : World := mkWorld [protonT, lambdaT, badT] 10 fun _ => 1
  refine ⟨W, badT, protonT,
    [⟨.twoToFour, [protonT, protonT, protonT, lambdaT], xs24 W badT protonT⟩], _, ?_, ?_, good_proton,
    ?_, List.mem_singleton.2 rfl, by decide +kernel,
    (by decide +kernel : total Pdg.strangeness [protonT, protonT, protonT, lambdaT] = -1)⟩
  · apply mk_lists
    intro t ht
    simp only [List.mem_cons, List.not_mem_nil, or_false] at ht
    rcases ht with rfl | rfl | rfl
    · exact good_proton
    · exact good_of (by decide +kernel) (by decide +kernel)
    · exact ⟨fun h => absurd h (by decide +kernel), fun _ => by decide +kernel⟩
  · exact ⟨fun h => absurd h (by decide +kernel), fun _ => by decide +kernel⟩
  · have hn : Pdg.isNucleus badT.pdg = true := by decide +kernel
    have hb : ((Pdg.baryonNumber badT.pdg).natAbs == 3) = true := by decide +kernel
    have hp : (isPion protonT || isNucleon protonT) = true := by decide +kernel
    have hcomp : components W badT = [some protonT, some protonT, some lambdaT, some lambdaT] := by
      rfl
    have hm : W.sqrts > protonT.mass + protonT.mass + protonT.mass + lambdaT.mass := by
      show (10 : ℝ) > _
      norm_num [protonT, lambdaT, mkType]
    unfold twoToFour
    simp only [hn, hb, hp, if_true, Bool.and_true, hcomp, deref, bind, Except.bind]
    rw [if_pos hm]

/-- **C114** is false without the Λ in the list of particles: breaking up a hypertriton dereferences
a null pointer. -/
theorem C114_no_lambda_false : ∃ (W : World) (a b : PType), Lists W ∧ Good a ∧ Good b ∧
    a ∈ W.types ∧ b ∈ W.types ∧ Proper a ∧ twoToFour W a b = .error .null := by
  let W : World := mkWorld [protonT, neutronT, hypertritonT] 10 fun _ => 1
  refine ⟨W, hypertritonT, protonT, ?_, good_hypertriton, good_proton, by simp [W, mkWorld],
    by simp [W, mkWorld], by unfold Proper; decide +kernel, ?_⟩
  · apply mk_lists
    intro t ht
    simp only [List.mem_cons, List.not_mem_nil, or_false] at ht
    rcases ht with rfl | rfl | rfl
    · exact good_proton
    · exact good_of (by decide +kernel) (by decide +kernel)
    · exact good_hypertriton
  · have hn : Pdg.isNucleus hypertritonT.pdg = true := by decide +kernel
    have hb : ((Pdg.baryonNumber hypertritonT.pdg).natAbs == 3) = true := by decide +kernel
    have hp : (isPion protonT || isNucleon protonT) = true := by decide +kernel
    have hcomp : components W hypertritonT = [some protonT, some neutronT, none] := by rfl
    unfold twoToFour
    simp only [hn, hb, hp, if_true, Bool.and_true, hcomp, deref, bind, Except.bind]

/-- The hypotheses of `C114_channels_partial` hold for a proton and a triton breaking up. -/
example : let W : World := mkWorld [protonT, neutronT, tritonT] 10 fun _ => 1
    Lists W ∧ Good protonT ∧ Good tritonT ∧ Positive W (someP true 1) protonT tritonT ∧
      Proper tritonT ∧ OneStrangeness W protonT ∧ OneStrangeness W tritonT ∧
      ∃ x, twoToFour W protonT tritonT =
        .ok [⟨.twoToFour, [protonT, protonT, neutronT, neutronT], x⟩] := by
  have ms : ∀ t ∈ (mkWorld [protonT, neutronT, tritonT] 10 fun _ => 1).types,
      t = protonT ∨ t = neutronT ∨ t = tritonT := by
    intro t ht
    simpa [mkWorld] using ht
  refine ⟨?_, good_proton, good_triton, ?_, by unfold Proper; decide +kernel, ?_, ?_, ?_⟩
  · apply mk_lists
    intro t ht
    simp only [List.mem_cons, List.not_mem_nil, or_false] at ht
    rcases ht with rfl | rfl | rfl
    · exact good_proton
    · exact good_of (by decide +kernel) (by decide +kernel)
    · exact good_triton
  · constructor
    · norm_num [someP]
    · norm_num [someP]
    · show 0 < Kin.pCM 10 1 1 * 1
      have : 0 < Kin.pCMsqrS (10 * 10) 1 1 := by norm_num [Kin.pCMsqrS]
      unfold Kin.pCM Kin.pCMS
      first
        | (have := Real.sqrt_pos.mpr this; simpa using this)
        | (rw [if_pos this]; have := Real.sqrt_pos.mpr this; simpa using this)
    · intro t ht
      rcases ms t ht with rfl | rfl | rfl <;> norm_num [protonT, neutronT, tritonT, mkType]
    · intro t ht u hu h
      rcases ms t ht with rfl | rfl | rfl <;> rcases ms u hu with rfl | rfl | rfl <;>
        first | rfl | exact absurd h (by decide +kernel)
  · intro n hn h1 h2 h3
    rcases ms n hn with rfl | rfl | rfl <;>
      first | exact absurd h1 (by decide +kernel) | exact absurd h3 (by decide +kernel)
  · intro n hn h1 h2 h3
    rcases ms n hn with rfl | rfl | rfl <;> first | rfl | exact absurd h1 (by decide +kernel)
  · have hn : Pdg.isNucleus tritonT.pdg = true := by decide +kernel
    have hn' : Pdg.isNucleus protonT.pdg = false := by decide +kernel
    have hb : ((Pdg.baryonNumber tritonT.pdg).natAbs == 3) = true := by decide +kernel
    have hp : (isPion protonT || isNucleon protonT) = true := by decide +kernel
    have hcomp : components (mkWorld [protonT, neutronT, tritonT] 10 fun _ => 1) tritonT =
      [some protonT, some neutronT, some neutronT] := by rfl
    have hm : (mkWorld [protonT, neutronT, tritonT] 10 fun _ => 1).sqrts >
        protonT.mass + protonT.mass + neutronT.mass + neutronT.mass := by
      show (10 : ℝ) > _
      norm_num [protonT, neutronT, mkType]
    refine ⟨xs24 (mkWorld [protonT, neutronT, tritonT] 10 fun _ => 1) tritonT protonT, ?_⟩
    unfold twoToFour
    simp only [hn, hn', hb, hp, if_true, Bool.false_eq_true, if_false, Bool.and_true, hcomp, deref, bind,
      Except.bind]
    rw [if_pos hm]

/-- The hypothesis on the energy of nuclei can be met: a world at 10 GeV. -/
example : Energetic (mkWorld [protonT, neutronT, tritonT] 10 fun _ => 1) := by
  constructor
  · intro t; exact zero_le_one
  · intro t; exact zero_le_one
  · intro _; show (938 / 1000 + 18756 / 10000 : ℝ) ≤ 10; norm_num
  · show (10 : ℝ) ≠ _; norm_num
  · show (10 : ℝ) ≠ _; norm_num

end Verif.Tot
