import Verif.Therm.Model
import Verif.Pdg.Content
import Mathlib.Algebra.Order.Field.Basic
import Mathlib.Data.Rat.Cast.Order
import Mathlib.Tactic.Linarith
import Mathlib.Tactic.Ring
import Mathlib.Tactic.SplitIfs
import Mathlib.Tactic.FieldSimp
import Mathlib.Algebra.BigOperators.Group.List.Basic
/-
C51: the hadrons sampled by the forced thermalisation carry the baryon number, strangeness and
charge of the removed ones.
-/
namespace Verif.Therm

/-! ### Specification -/

/-- Baryon number, strangeness and charge of a list of hadrons. -/
def charges (l : List Had) : ℤ × ℤ × ℤ := ((l.map Had.B).sum, (l.map Had.S).sum, (l.map Had.Q).sum)

/-- Hadrons carry at most one unit of baryon number, mesons at most one unit of strangeness and
non-strange mesons at most one unit of charge. -/
structure UnitCharged (h : Had) : Prop where
  B : h.B = -1 ∨ h.B = 0 ∨ h.B = 1
  S : h.B = 0 → h.S = -1 ∨ h.S = 0 ∨ h.S = 1
  Q : h.B = 0 → h.S = 0 → h.Q = -1 ∨ h.Q = 0 ∨ h.Q = 1

/-- What `std::binomial_distribution` promises: a number of successes out of `N`, all of them if
the probability is 1. -/
def BinOk (bin : Cls → ℕ → ℤ → ℚ → ℤ) : Prop :=
  ∀ c i N p, 0 ≤ N → 0 ≤ p → p ≤ 1 → 0 ≤ bin c i N p ∧ bin c i N p ≤ N ∧ (p = 1 → bin c i N p = N)

/-- Random numbers of an attempt are as promised by the standard library, and the numbers of
particles drawn are not negative. -/
structure Draws.Good (d : Draws) : Prop where
  bin : BinOk d.bin
  bB : 0 ≤ d.bB
  bS : 0 ≤ d.bS
  bC : 0 ≤ d.bC
  pS : 0 ≤ d.pS
  mS : 0 ≤ d.mS
  pC : 0 ≤ d.pC
  mC : 0 ≤ d.mC
  zero : 0 ≤ d.zero

/-- The hadron list is fit for sampling: unit charges, no negative multiplicity, no empty class. -/
structure Fit (es : List Entry) : Prop where
  unit : ∀ e ∈ es, UnitCharged e.had
  nonneg : ∀ e ∈ es, 0 ≤ e.mult
  pos : ∀ c, 0 < multClass es c

/-! ### The multinomial sampling -/

theorem multClass_nil (c : Cls) : multClass [] c = 0 := rfl

theorem multClass_cons (e : Entry) (es : List Entry) (c : Cls) :
    multClass (e :: es) c = (if getClass e.had = c then e.mult else 0) + multClass es c := by
  unfold multClass
  by_cases h : getClass e.had = c <;> simp [h]

theorem multClass_nonneg (es : List Entry) (c : Cls) (h : ∀ e ∈ es, 0 ≤ e.mult) :
    0 ≤ multClass es c := by
  induction es with
  | nil => exact le_refl _
  | cons e es ih =>
    rw [multClass_cons]
    have := ih fun e' he' => h e' (List.mem_cons_of_mem _ he')
    have := h e (List.mem_cons_self ..)
    split_ifs <;> linarith

/-- The entries of a class vanish. -/
def ZeroOn (es : List Entry) (ints : List ℤ) (c : Cls) : Prop :=
  ∀ x ∈ es.zip ints, getClass x.1.had = c → x.2 = 0

theorem weigh_cons (f : Had → ℤ) (e : Entry) (es : List Entry) (k : ℤ) (ks : List ℤ) :
    weigh f (e :: es) (k :: ks) = f e.had * k + weigh f es ks := by simp [weigh]

/-- What one call of `sample_multinomial` does: the numbers of the class add up to `N`. -/
theorem multinomial_spec {bin : Cls → ℕ → ℤ → ℚ → ℤ} (hb : BinOk bin) (c : Cls) :
    ∀ (es : List Entry) (ints : List ℤ) (sum : ℚ) (N : ℤ) (i : ℕ),
      ints.length = es.length → (∀ e ∈ es, 0 ≤ e.mult) → sum = multClass es c → 0 ≤ N →
      (0 < N → 0 < sum) → (∀ k ∈ ints, 0 ≤ k) → ZeroOn es ints c →
      ∃ r, multinomial bin c es ints sum N i = some r ∧ r.length = es.length ∧ (∀ k ∈ r, 0 ≤ k) ∧
        (∀ c', c' ≠ c → ZeroOn es ints c' → ZeroOn es r c') ∧
        (∀ (f : Had → ℤ) (w : ℤ), (∀ e ∈ es, getClass e.had = c → f e.had = w) →
          weigh f es r = weigh f es ints + w * N) := by
  intro es
  induction es with
  | nil =>
    intro ints sum N i hl _ hs hN hpos h0 _
    refine ⟨ints, rfl, hl, h0, fun c' _ h => h, fun f w _ => ?_⟩
    have : N = 0 := by
      by_contra hne
      have := hpos (by omega)
      rw [hs, multClass_nil] at this
      exact lt_irrefl _ this
    rw [this]; ring
  | cons e es ih =>
    intro ints sum N i hl hm hs hN hpos h0 hz
    cases ints with
    | nil => simp at hl
    | cons k ks =>
      have hl' : ks.length = es.length := by simpa using hl
      have hm' : ∀ e' ∈ es, 0 ≤ e'.mult := fun e' he' => hm e' (List.mem_cons_of_mem _ he')
      have h0' : ∀ k' ∈ ks, 0 ≤ k' := fun k' hk' => h0 k' (List.mem_cons_of_mem _ hk')
      have hz' : ZeroOn es ks c := fun x hx => hz x (by simp [hx])
      rw [multinomial]
      by_cases hN0 : N ≤ 0
      · rw [if_pos hN0]
        refine ⟨_, rfl, hl, h0, fun c' _ h => h, fun f w _ => ?_⟩
        have : N = 0 := by omega
        rw [this]; ring
      rw [if_neg hN0]
      by_cases hc : getClass e.had = c
      · have hsum : sum = e.mult + multClass es c := by rw [hs, multClass_cons, if_pos hc]
        have hsp : 0 < sum := hpos (by omega)
        have hem : 0 ≤ e.mult := hm e (List.mem_cons_self ..)
        have hrest := multClass_nonneg es c hm'
        have hp0 : 0 ≤ e.mult / sum := div_nonneg hem hsp.le
        have hp1 : e.mult / sum ≤ 1 := by rw [div_le_one hsp]; linarith
        rw [if_neg (by simp [hc]), if_neg hsp.ne']
        simp only
        rw [if_neg (by rintro (h | h) <;> linarith)]
        obtain ⟨b0, bN, b1⟩ := hb c i N (e.mult / sum) hN hp0 hp1
        generalize hn : bin c i N (e.mult / sum) = n at b0 bN b1 ⊢
        have hk : k = 0 := hz (e, k) (by simp) hc
        obtain ⟨r, hr, hrl, hr0, hrz, hrw⟩ := ih ks (sum - e.mult) (N - n) (i + 1) hl' hm'
          (by rw [hsum]; ring) (by omega) (by
            intro hpos'
            by_contra hcon
            have hz0 : sum - e.mult = 0 := by
              have : 0 ≤ sum - e.mult := by rw [hsum]; linarith
              linarith
            have : e.mult / sum = 1 := by rw [div_eq_one_iff_eq hsp.ne']; linarith
            have := b1 this
            omega) h0' hz'
        refine ⟨n :: r, by rw [hr]; rfl, by simp [hrl], ?_, ?_, ?_⟩
        · intro k' hk'
          rcases List.mem_cons.1 hk' with rfl | hk'
          · exact b0
          · exact hr0 k' hk'
        · intro c' hc' hzc x hx hxc
          rw [List.zip_cons_cons] at hx
          rcases List.mem_cons.1 hx with rfl | hx
          · exact absurd (hxc.symm.trans hc) hc'
          · exact hrz c' hc' (fun y hy => hzc y (by simp [hy])) x hx hxc
        · intro f w hf
          rw [weigh_cons, weigh_cons, hrw f w fun e' he' => hf e' (List.mem_cons_of_mem _ he'),
            hf e (List.mem_cons_self ..) hc, hk]
          ring
      · rw [if_pos (by simpa using hc)]
        obtain ⟨r, hr, hrl, hr0, hrz, hrw⟩ := ih ks sum N (i + 1) hl' hm'
          (by rw [hs, multClass_cons, if_neg hc]; ring) hN hpos h0' hz'
        refine ⟨k :: r, by rw [hr]; rfl, by simp [hrl], ?_, ?_, ?_⟩
        · intro k' hk'
          rcases List.mem_cons.1 hk' with rfl | hk'
          · exact h0 _ (List.mem_cons_self ..)
          · exact hr0 k' hk'
        · intro c' hc' hzc x hx hxc
          rw [List.zip_cons_cons] at hx
          rcases List.mem_cons.1 hx with rfl | hx
          · exact hzc (e, k) (by simp) hxc
          · exact hrz c' hc' (fun y hy => hzc y (by simp [hy])) x hx hxc
        · intro f w hf
          rw [weigh_cons, weigh_cons, hrw f w fun e' he' => hf e' (List.mem_cons_of_mem _ he')]
          ring

/-! ### Classes -/

theorem class_cases (h : Had) :
    (getClass h = .baryon ↔ h.B > 0) ∧ (getClass h = .antibaryon ↔ h.B < 0) ∧
    (getClass h = .posS ↔ h.B = 0 ∧ h.S > 0) ∧ (getClass h = .negS ↔ h.B = 0 ∧ h.S < 0) ∧
    (getClass h = .posQ ↔ h.B = 0 ∧ h.S = 0 ∧ h.Q > 0) ∧
    (getClass h = .negQ ↔ h.B = 0 ∧ h.S = 0 ∧ h.Q < 0) ∧
    (getClass h = .neutral ↔ h.B = 0 ∧ h.S = 0 ∧ h.Q = 0) := by
  unfold getClass
  split_ifs <;> simp <;> omega

/-- State of the sampled numbers between the steps. -/
structure Inv (es : List Entry) (ints : List ℤ) (todo : Cls → Prop) (B S Q : ℤ) : Prop where
  len : ints.length = es.length
  nonneg : ∀ k ∈ ints, 0 ≤ k
  zero : ∀ c, todo c → ZeroOn es ints c
  B : weigh Had.B es ints = B
  S : weigh Had.S es ints = S
  Q : weigh Had.Q es ints = Q

/-- The contribution of a class to baryon number, if it is a unit class. -/
theorem step {es : List Entry} (fit : Fit es) {bin : Cls → ℕ → ℤ → ℚ → ℤ} (hb : BinOk bin)
    {ints : List ℤ} {todo : Cls → Prop} {B S Q : ℤ} (inv : Inv es ints todo B S Q) (c : Cls)
    (hc : todo c) (N : ℤ) (hN : 0 ≤ N) :
    ∃ r S' Q', multinomial bin c es ints (multClass es c) N 0 = some r ∧
      Inv es r (fun c' => todo c' ∧ c' ≠ c)
        (B + N * (match c with | .baryon => 1 | .antibaryon => -1 | _ => 0)) S' Q' ∧
      ((c ≠ .baryon ∧ c ≠ .antibaryon) →
        S' = S + N * (match c with | .posS => 1 | .negS => -1 | _ => 0)) ∧
      ((c ≠ .baryon ∧ c ≠ .antibaryon ∧ c ≠ .posS ∧ c ≠ .negS) →
        Q' = Q + N * (match c with | .posQ => 1 | .negQ => -1 | _ => 0)) := by
  obtain ⟨r, hr, hl, h0, hz, hw⟩ := multinomial_spec hb c es ints (multClass es c) N 0 inv.len
    fit.nonneg rfl hN (fun _ => fit.pos c) inv.nonneg (inv.zero c hc)
  refine ⟨r, weigh Had.S es r, weigh Had.Q es r, hr,
    ⟨hl, h0, fun c' h => hz c' h.2 (inv.zero c' h.1), ?_, rfl, rfl⟩, ?_, ?_⟩
  · rw [hw Had.B (match c with | .baryon => 1 | .antibaryon => -1 | _ => 0), inv.B]
    · cases c <;> simp
    · intro e he hec
      have u := (fit.unit e he).B
      obtain ⟨c1, c2, c3, c4, c5, c6, c7⟩ := class_cases e.had
      cases c <;> simp only [hec, true_iff] at c1 c2 c3 c4 c5 c6 c7 ⊢ <;> omega
  · rintro ⟨n1, n2⟩
    rw [hw Had.S (match c with | .posS => 1 | .negS => -1 | _ => 0), inv.S]
    · cases c <;> simp
    · intro e he hec
      have u := (fit.unit e he).S
      obtain ⟨c1, c2, c3, c4, c5, c6, c7⟩ := class_cases e.had
      cases c <;> simp only [hec, true_iff] at c1 c2 c3 c4 c5 c6 c7 ⊢ <;> first | omega | simp at n1 n2
  · rintro ⟨n1, n2, n3, n4⟩
    rw [hw Had.Q (match c with | .posQ => 1 | .negQ => -1 | _ => 0), inv.Q]
    · cases c <;> simp
    · intro e he hec
      have u := (fit.unit e he).Q
      obtain ⟨c1, c2, c3, c4, c5, c6, c7⟩ := class_cases e.had
      cases c <;> simp only [hec, true_iff] at c1 c2 c3 c4 c5 c6 c7 ⊢ <;>
        first | omega | simp at n1 n2 n3 n4

theorem bessel_diff (diff n : ℤ) : (bessel diff n).1 - (bessel diff n).2 = diff := by
  unfold bessel
  simp only [Int.abs_eq_natAbs]
  split_ifs <;> simp only <;> omega

theorem bessel_nonneg (diff n : ℤ) (h : 0 ≤ n) : 0 ≤ (bessel diff n).1 ∧ 0 ≤ (bessel diff n).2 := by
  unfold bessel
  simp only [Int.abs_eq_natAbs]
  split_ifs <;> simp only <;> omega

theorem initial_inv (es : List Entry) :
    Inv es (List.replicate es.length 0) (fun _ => True) 0 0 0 := by
  have hw (f : Had → ℤ) : weigh f es (List.replicate es.length 0) = 0 := by
    induction es with
    | nil => rfl
    | cons e es ih => rw [List.length_cons, List.replicate_succ, weigh_cons, ih]; ring
  refine ⟨by simp, ?_, ?_, hw _, hw _, hw _⟩
  · intro k hk
    rw [(List.mem_replicate.1 hk).2]
  · intro c _ x hx _
    have := (List.of_mem_zip (a := x.1) (b := x.2) hx).2
    exact (List.mem_replicate.1 this).2

/-- An attempt never ends undefined, and what it accepts has the right charges. -/
theorem attempt_spec (v : Variant) (micro : Bool) {es : List Entry} (fit : Fit es) (B0 S0 Q0 : ℤ)
    (d : Draws) (good : d.Good) :
    attempt v micro es B0 S0 Q0 d = .rejected ∨
    ∃ r, attempt v micro es B0 S0 Q0 d = .accepted r ∧ r.length = es.length ∧ (∀ k ∈ r, 0 ≤ k) ∧
      weigh Had.B es r = B0 ∧ weigh Had.S es r = S0 ∧ weigh Had.Q es r = Q0 := by
  unfold attempt
  have hbn := bessel_nonneg B0 d.bB good.bB
  have hbd := bessel_diff B0 d.bB
  generalize bessel B0 d.bB = bb at hbn hbd
  obtain ⟨r1, S1, Q1, e1, i1, -, -⟩ := step fit good.bin (initial_inv es) .baryon trivial bb.1 hbn.1
  obtain ⟨r2, S2, Q2, e2, i2, -, -⟩ := step fit good.bin i1 .antibaryon (by simp) bb.2 hbn.2
  simp only
  rw [e1, Option.bind_some, e2]
  simp only
  rw [i2.S]
  have hS : ∃ ss : ℤ × ℤ, v.numbers (S0 - S2) d.bS d.pS d.mS = ss ∧ 0 ≤ ss.1 ∧ 0 ≤ ss.2 ∧
        (v = .biased → ss.1 - ss.2 = S0 - S2) := by
    cases v
    · exact ⟨_, rfl, (bessel_nonneg _ _ good.bS).1, (bessel_nonneg _ _ good.bS).2,
        fun _ => bessel_diff _ _⟩
    · exact ⟨_, rfl, good.pS, good.mS, fun h => by simp at h⟩
  obtain ⟨ss, hss, s1, s2, sd⟩ := hS
  rw [hss]
  by_cases hrej : v = .unbiased ∧ ss.1 - ss.2 ≠ S0 - S2
  · left; rw [if_pos hrej]
  rw [if_neg hrej]
  have hsd : ss.1 - ss.2 = S0 - S2 := by
    cases v
    · exact sd rfl
    · by_contra h; exact hrej ⟨rfl, h⟩
  obtain ⟨r3, S3, Q3, e3, i3, t3, -⟩ := step fit good.bin i2 .posS (by simp) ss.1 s1
  obtain ⟨r4, S4, Q4, e4, i4, t4, -⟩ := step fit good.bin i3 .negS (by simp) ss.2 s2
  have t3 := t3 (by simp)
  have t4 := t4 (by simp)
  rw [e3, Option.bind_some, e4]
  simp only
  rw [i4.Q]
  have hC : ∃ cc : ℤ × ℤ, v.numbers (Q0 - Q4) d.bC d.pC d.mC = cc ∧ 0 ≤ cc.1 ∧ 0 ≤ cc.2 ∧
        (v = .biased → cc.1 - cc.2 = Q0 - Q4) := by
    cases v
    · exact ⟨_, rfl, (bessel_nonneg _ _ good.bC).1, (bessel_nonneg _ _ good.bC).2,
        fun _ => bessel_diff _ _⟩
    · exact ⟨_, rfl, good.pC, good.mC, fun h => by simp at h⟩
  obtain ⟨cc, hcc, c1, c2, cd⟩ := hC
  rw [hcc]
  by_cases hrej' : v = .unbiased ∧ cc.1 - cc.2 ≠ Q0 - Q4
  · left; rw [if_pos hrej']
  rw [if_neg hrej']
  have hcd : cc.1 - cc.2 = Q0 - Q4 := by
    cases v
    · exact cd rfl
    · by_contra h; exact hrej' ⟨rfl, h⟩
  obtain ⟨r5, S5, Q5, e5, i5, t5, u5⟩ := step fit good.bin i4 .posQ (by simp) cc.1 c1
  obtain ⟨r6, S6, Q6, e6, i6, t6, u6⟩ := step fit good.bin i5 .negQ (by simp) cc.2 c2
  obtain ⟨r7, S7, Q7, e7, i7, t7, u7⟩ := step fit good.bin i6 .neutral (by simp) d.zero good.zero
  rw [e5, Option.bind_some, e6, Option.bind_some, e7]
  simp only
  have t5 := t5 (by simp)
  have t6 := t6 (by simp)
  have t7 := t7 (by simp)
  have u5 := u5 (by simp)
  have u6 := u6 (by simp)
  have u7 := u7 (by simp)
  cases hm : (micro && !d.energyOk)
  · right
    refine ⟨r7, by simp, i7.len, i7.nonneg, ?_, ?_, ?_⟩
    · rw [i7.B]; simp only; omega
    · rw [i7.S]; simp only at *; omega
    · rw [i7.Q]; simp only at *; omega
  · left; simp

theorem sampled_sum (f : Had → ℤ) : ∀ (es : List Entry) (ints : List ℤ), (∀ k ∈ ints, 0 ≤ k) →
    ((sampledList es ints).map f).sum = weigh f es ints := by
  intro es
  induction es with
  | nil => intro ints _; rfl
  | cons e es ih =>
    intro ints h
    cases ints with
    | nil => rfl
    | cons k ks =>
      rw [weigh_cons, ← ih ks fun k' hk' => h k' (List.mem_cons_of_mem _ hk')]
      have hk : 0 ≤ k := h k (List.mem_cons_self ..)
      unfold sampledList
      rw [List.zip_cons_cons, List.flatMap_cons, List.map_append, List.sum_append,
        List.map_replicate, List.sum_replicate, nsmul_eq_mul, Int.natCast_toNat_eq_self.2 hk]
      ring

/-- **C51**, Becattini-Ferroni sampling, both variants, with and without the energy condition: for
every outcome of the random numbers and every hadron list with unit charged classes, the hadrons
that are created once the loop ends carry the required baryon number, strangeness and charge. -/
theorem C51_bf_partial (v : Variant) (micro : Bool) {es : List Entry} (fit : Fit es) (B0 S0 Q0 : ℤ)
    (ds : List Draws) (good : ∀ d ∈ ds, d.Good) (r : List ℤ)
    (h : bfLoop v micro es B0 S0 Q0 ds = some r) :
    charges (sampledList es r) = (B0, S0, Q0) := by
  induction ds with
  | nil => simp [bfLoop] at h
  | cons d ds ih =>
    rw [bfLoop] at h
    rcases attempt_spec v micro fit B0 S0 Q0 d (good d (List.mem_cons_self ..)) with hrej |
      ⟨r', hacc, _, h0, hB, hS, hQ⟩
    · rw [hrej] at h
      exact ih (fun d' hd' => good d' (List.mem_cons_of_mem _ hd')) h
    · rw [hacc] at h
      obtain rfl : r' = r := by simpa using h
      unfold charges
      rw [sampled_sum _ _ _ h0, sampled_sum _ _ _ h0, sampled_sum _ _ _ h0, hB, hS, hQ]

/-- **C51**, the biased variant without the energy condition needs one attempt only, and never
runs into undefined behaviour. -/
theorem C51_bf_ends {es : List Entry} (fit : Fit es) (B0 S0 Q0 : ℤ) (d : Draws) (good : d.Good)
    (ds : List Draws) : ∃ r, bfLoop .biased false es B0 S0 Q0 (d :: ds) = some r := by
  rcases attempt_spec .biased false fit B0 S0 Q0 d good with hrej | ⟨r', hacc, _⟩
  · exfalso
    revert hrej
    unfold attempt
    simp only
    split
    · simp
    · rw [if_neg (by simp)]
      split
      · simp
      · rw [if_neg (by simp)]
        split
        · simp
        · simp
  · exact ⟨r', by rw [bfLoop, hacc]⟩

/-- **C51**, the hadrons of the Monte Carlo numbering scheme are unit charged in this sense: every
hadron code whose quark digits are quark flavours. -/
theorem C51_hadrons_unit {d : Nat} (hd : Pdg.isHadron d = true) (h1 : Pdg.nq1 d ≤ 6)
    (h2 : Pdg.nq2 d ≤ 6) (h3 : Pdg.nq3 d ≤ 6) :
    UnitCharged ⟨Pdg.baryonNumber d, Pdg.strangeness d, Pdg.charge d⟩ := by
  obtain ⟨-, hQ, hB⟩ := Pdg.C16_valence hd h1 h2 h3
  have hh : Pdg.Digits d := ⟨hd, h1, h2, h3⟩
  have hS : Pdg.strangeness d = -Pdg.netCount (Pdg.valence (Pdg.antiparticleSign d) (Pdg.nq1 d)
      (Pdg.nq2 d) (Pdg.nq3 d)) 3 := by
    unfold Pdg.strangeness
    rw [← Pdg.netQuark_valence hh (by omega)]
    rfl
  have tab := Pdg.lift (P := fun s q1 q2 q3 =>
    ((((Pdg.valence s q1 q2 q3).map fun x => x.2).sum = -3 ∨
      ((Pdg.valence s q1 q2 q3).map fun x => x.2).sum = 0 ∨
      ((Pdg.valence s q1 q2 q3).map fun x => x.2).sum = 3)) ∧
    (((Pdg.valence s q1 q2 q3).map fun x => x.2).sum = 0 →
      (Pdg.netCount (Pdg.valence s q1 q2 q3) 3 = -1 ∨ Pdg.netCount (Pdg.valence s q1 q2 q3) 3 = 0 ∨
        Pdg.netCount (Pdg.valence s q1 q2 q3) 3 = 1) ∧
      (((Pdg.valence s q1 q2 q3).map fun x => Pdg.thrice x.1 * x.2).sum = -3 ∨
        ((Pdg.valence s q1 q2 q3).map fun x => Pdg.thrice x.1 * x.2).sum = 0 ∨
        ((Pdg.valence s q1 q2 q3).map fun x => Pdg.thrice x.1 * x.2).sum = 3)))
    (by decide +kernel) hh
  rw [← hB, ← hQ] at tab
  refine ⟨?_, ?_, ?_⟩ <;> simp only <;> omega

/-- A hadron list with all seven classes. -/
def exEntries : List Entry :=
  [⟨⟨1, 0, 1⟩, 2⟩, ⟨⟨1, -1, 0⟩, 1⟩, ⟨⟨-1, 0, -1⟩, 1⟩, ⟨⟨0, 1, 1⟩, 1⟩, ⟨⟨0, -1, -1⟩, 1⟩,
   ⟨⟨0, 0, 1⟩, 3⟩, ⟨⟨0, 0, -1⟩, 3⟩, ⟨⟨0, 0, 0⟩, 3⟩]

theorem exFit : Fit exEntries where
  unit := by
    intro e he
    simp [exEntries] at he
    rcases he with rfl | rfl | rfl | rfl | rfl | rfl | rfl | rfl <;> constructor <;> simp
  nonneg := by
    intro e he
    simp [exEntries] at he
    rcases he with rfl | rfl | rfl | rfl | rfl | rfl | rfl | rfl <;> simp
  pos := by intro c; cases c <;> decide +kernel

/-- Some random numbers: all successes with probability above one half. -/
def exDraws : Draws :=
  ⟨1, 0, 2, 0, 0, 0, 0, 1, fun _ _ N p => if p > 1 / 2 then N else 0, true⟩

theorem exGood : exDraws.Good := by
  refine ⟨?_, by decide, by decide, by decide, by decide, by decide, by decide, by decide, by decide⟩
  intro c i N p hN _ _
  simp only [exDraws]
  split_ifs with h
  · exact ⟨hN, le_refl _, fun _ => rfl⟩
  · exact ⟨le_refl _, hN, fun hp => absurd (by rw [hp]; norm_num) h⟩

/-- The hypotheses of `C51_bf_partial` are met, and the loop ends. -/
example : bfLoop .biased false exEntries 3 1 2 [exDraws] = some [4, 0, 1, 1, 0, 2, 4, 1] := by
  decide +kernel

/-- Violation of **C51**: the number drawn by the Bessel sampler can be negative, because a rounded
normal random number is used for a mean of six and more.  Then no antibaryon is created, but one
baryon less, and the baryon number is not conserved. -/
theorem C51_negative_number_false :
    ∃ d : Draws, BinOk d.bin ∧ d.bB < 0 ∧
      ∃ r, bfLoop .biased false exEntries 3 0 0 [d] = some r ∧
        (charges (sampledList exEntries r)).1 = 2 := by
  refine ⟨{ exDraws with bB := -1 }, exGood.bin, by decide, [2, 0, 0, 0, 0, 2, 4, 1], ?_, ?_⟩ <;>
    decide +kernel

/-- Violation of **C51**: if a class has no members, the number drawn for it is silently dropped. -/
theorem C51_empty_class_false :
    ∃ es : List Entry, (∀ e ∈ es, UnitCharged e.had ∧ 0 < e.mult) ∧
      ∃ r, bfLoop .biased false es 3 1 2 [exDraws] = some r ∧
        charges (sampledList es r) ≠ (3, 1, 2) := by
  refine ⟨[⟨⟨1, 0, 1⟩, 2⟩, ⟨⟨-1, 0, -1⟩, 1⟩], ?_, [4, 1], ?_, ?_⟩
  · intro e he
    simp at he
    rcases he with rfl | rfl <;> refine ⟨?_, by norm_num⟩ <;> constructor <;> simp
  · decide +kernel
  · decide +kernel

/-! ### Mode sampling -/

theorem pick_cond {cond : Had → Bool} {dens : ℕ → ℚ} {r : ℚ} :
    ∀ (hs : List Had) (i : ℕ) (sum : ℚ) (h : Had), pick cond dens r hs i sum = some h →
      cond h = true ∧ h ∈ hs := by
  intro hs
  induction hs with
  | nil => intro i sum h hp; simp [pick] at hp
  | cons a hs ih =>
    intro i sum h hp
    rw [pick] at hp
    cases hc : cond a
    · simp only [hc, Bool.not_false, if_true] at hp
      obtain ⟨h1, h2⟩ := ih _ _ _ hp
      exact ⟨h1, List.mem_cons_of_mem _ h2⟩
    · simp only [hc, Bool.not_true, Bool.false_eq_true, if_false] at hp
      split_ifs at hp with hs'
      · obtain rfl : a = h := by simpa using hp
        exact ⟨hc, List.mem_cons_self ..⟩
      · obtain ⟨h1, h2⟩ := ih _ _ _ hp
        exact ⟨h1, List.mem_cons_of_mem _ h2⟩

/-- A loop of the mode algorithm: at its end its condition is violated, it has added particles of
its kind only, and the counter counts them. -/
theorem drawLoop_spec (types : List Had) (cond : Had → Bool) (more : ℤ → ℚ → Bool)
    (take : ℤ → Had → Bool) (f : Had → ℤ) (P : ℤ → Prop)
    (hP : ∀ s h, P s → cond h = true → take s h = true → P (s + f h)) :
    ∀ (n : ℕ) (ds : List Draw) (sum : ℤ) (en : ℚ) (acc : List Part) (res : ℤ × List Part × List Draw),
      ds.length = n → P sum → drawLoop types cond more take f ds sum en acc = some res →
      P res.1 ∧ (∃ en', more res.1 en' = false) ∧
      ∃ new, res.2.1 = acc ++ new ∧ (∀ p ∈ new, cond p.had = true ∧ p.had ∈ types) ∧
        res.1 = sum + total f new := by
  intro n
  induction n with
  | zero =>
    intro ds sum en acc res hn hp h
    have : ds = [] := List.length_eq_zero_iff.1 hn
    subst this
    rw [drawLoop.eq_def] at h
    cases hm : more sum en
    · simp only [hm, Bool.false_eq_true, if_false, Option.some.injEq] at h
      subst h
      exact ⟨hp, ⟨en, hm⟩, [], by simp, by simp, by simp [total]⟩
    · simp [hm] at h
  | succ n ih =>
    intro ds sum en acc res hn hp h
    rw [drawLoop.eq_def] at h
    cases hm : more sum en
    · simp only [hm, Bool.false_eq_true, if_false, Option.some.injEq] at h
      subst h
      exact ⟨hp, ⟨en, hm⟩, [], by simp, by simp, by simp [total]⟩
    · simp only [hm, if_true] at h
      cases ds with
      | nil => simp at hn
      | cons d ds =>
        simp only at h
        cases hs : sampleMode types cond d with
        | none => simp [hs] at h
        | some p =>
          simp only [hs] at h
          have hc : cond p.had = true ∧ p.had ∈ types := by
            unfold sampleMode at hs
            rw [Option.map_eq_some_iff] at hs
            obtain ⟨h', h1, h2⟩ := hs
            rw [← h2]
            exact pick_cond _ _ _ _ h1
          cases ht : take sum p.had
          · simp only [ht, Bool.false_eq_true, if_false] at h
            exact ih ds _ _ _ _ (by simpa using hn) hp h
          · simp only [ht, if_true] at h
            obtain ⟨a1, a2, new, a3, a4, a5⟩ := ih ds _ _ _ _ (by simpa using hn)
              (hP _ _ hp hc.1 ht) h
            refine ⟨a1, a2, p :: new, by rw [a3]; simp, ?_, ?_⟩
            · intro q hq
              rcases List.mem_cons.1 hq with rfl | hq
              · exact hc
              · exact a4 q hq
            · rw [a5]; simp [total]; ring

theorem total_append (f : Had → ℤ) (a b : List Part) : total f (a ++ b) = total f a + total f b := by
  simp [total]

theorem total_zero (f : Had → ℤ) (l : List Part) (h : ∀ p ∈ l, f p.had = 0) : total f l = 0 := by
  unfold total
  apply List.sum_eq_zero
  intro x hx
  obtain ⟨p, hp, rfl⟩ := List.mem_map.1 hx
  exact h p hp

/-- **C51**, mode sampling: for every outcome of the random numbers and every hadron list, the
hadrons that are created carry the required baryon number, strangeness and charge once the
algorithm ends. -/
theorem C51_mode (types : List Had) (E0 : ℚ) (B0 S0 Q0 : ℤ) (ds : List Draw) (r : List Part)
    (h : modeAlgo types E0 B0 S0 Q0 ds = some r) :
    charges (r.map Part.had) = (B0, S0, Q0) ∧ ∀ p ∈ r, p.had ∈ types := by
  unfold modeAlgo at h
  simp only [Option.bind_eq_bind, Option.pure_def] at h
  rw [Option.bind_eq_some_iff] at h
  obtain ⟨⟨sp, acc1, ds1⟩, e1, h⟩ := h
  simp only at h
  rw [Option.bind_eq_some_iff] at h
  obtain ⟨⟨s2, acc2, ds2⟩, e2, h⟩ := h
  simp only at h
  rw [Option.bind_eq_some_iff] at h
  obtain ⟨⟨bp, acc3, ds3⟩, e3, h⟩ := h
  simp only at h
  rw [Option.bind_eq_some_iff] at h
  obtain ⟨⟨b4, acc4, ds4⟩, e4, h⟩ := h
  simp only at h
  rw [Option.bind_eq_some_iff] at h
  obtain ⟨⟨qp, acc5, ds5⟩, e5, h⟩ := h
  simp only at h
  rw [Option.bind_eq_some_iff] at h
  obtain ⟨⟨q6, acc6, ds6⟩, e6, h⟩ := h
  simp only at h
  rw [Option.bind_eq_some_iff] at h
  obtain ⟨⟨x7, acc7, ds7⟩, e7, h⟩ := h
  simp only [Option.some.injEq] at h
  subst h
  obtain ⟨-, ⟨_, m1⟩, n1, a1, k1, t1⟩ := drawLoop_spec types _ _ _ _ (fun _ => True)
    (fun _ _ _ _ _ => trivial) _ _ _ _ _ _ rfl trivial e1
  simp only [Bool.or_eq_false_iff, decide_eq_false_iff_not, not_lt] at m1 t1 a1
  obtain ⟨p2, ⟨_, m2⟩, n2, a2, k2, t2⟩ := drawLoop_spec types _ _ _ _ (fun s => S0 ≤ s)
    (fun s h _ _ ht => by simpa using ht) _ _ _ _ _ _ rfl m1.2 e2
  simp only [decide_eq_false_iff_not, not_lt, decide_eq_true_eq, gt_iff_lt] at m2 t2 a2 k2 p2
  obtain ⟨-, ⟨_, m3⟩, n3, a3, k3, t3⟩ := drawLoop_spec types _ _ _ _ (fun _ => True)
    (fun _ _ _ _ _ => trivial) _ _ _ _ _ _ rfl trivial e3
  simp only [Bool.or_eq_false_iff, decide_eq_false_iff_not, not_lt, decide_eq_true_eq] at m3 t3 a3 k3
  obtain ⟨p4, ⟨_, m4⟩, n4, a4, k4, t4⟩ := drawLoop_spec types _ _ _ _
    (fun b => B0 - total Had.B acc2 ≤ b) (fun s h _ _ ht => by simpa using ht) _ _ _ _ _ _ rfl m3.2 e4
  simp only [decide_eq_false_iff_not, not_lt, decide_eq_true_eq, gt_iff_lt,
    Bool.and_eq_true] at m4 t4 a4 k4 p4
  obtain ⟨-, ⟨_, m5⟩, n5, a5, k5, t5⟩ := drawLoop_spec types _ _ _ _ (fun _ => True)
    (fun _ _ _ _ _ => trivial) _ _ _ _ _ _ rfl trivial e5
  simp only [Bool.or_eq_false_iff, decide_eq_false_iff_not, not_lt, decide_eq_true_eq,
    Bool.and_eq_true] at m5 t5 a5 k5
  obtain ⟨p6, ⟨_, m6⟩, n6, a6, k6, t6⟩ := drawLoop_spec types _ _ _ _
    (fun q => Q0 - total Had.Q acc4 ≤ q) (fun s h _ _ ht => by simpa using ht) _ _ _ _ _ _ rfl m5.2 e6
  simp only [decide_eq_false_iff_not, not_lt, decide_eq_true_eq, gt_iff_lt,
    Bool.and_eq_true] at m6 t6 a6 k6 p6
  obtain ⟨-, -, n7, a7, k7, -⟩ := drawLoop_spec types _ _ _ _ (fun _ => True)
    (fun _ _ _ _ _ => trivial) _ _ _ _ _ _ rfl trivial e7
  simp only [decide_eq_true_eq, Bool.and_eq_true] at a7 k7
  have hS3 := total_zero Had.S n3 fun p hp => (k3 p hp).1
  have hS4 := total_zero Had.S n4 fun p hp => (k4 p hp).1.1
  have hS5 := total_zero Had.S n5 fun p hp => (k5 p hp).1.1
  have hS6 := total_zero Had.S n6 fun p hp => (k6 p hp).1.1.1
  have hS7 := total_zero Had.S n7 fun p hp => (k7 p hp).1.1.1
  have hB5 := total_zero Had.B n5 fun p hp => (k5 p hp).1.2
  have hB6 := total_zero Had.B n6 fun p hp => (k6 p hp).1.1.2
  have hB7 := total_zero Had.B n7 fun p hp => (k7 p hp).1.1.2
  have hQ7 := total_zero Had.Q n7 fun p hp => (k7 p hp).1.2
  constructor
  · have e (f : Had → ℤ) : ((acc7.map Part.had).map f).sum = total f acc7 := by
      rw [List.map_map]; rfl
    have f2 (f : Had → ℤ) : total f acc2 = total f n1 + total f n2 := by
      rw [a2, a1, total_append, List.nil_append]
    have f4 (f : Had → ℤ) : total f acc4 = total f acc2 + total f n3 + total f n4 := by
      rw [a4, a3, total_append, total_append]
    have f7 (f : Had → ℤ) : total f acc7 = total f acc4 + total f n5 + total f n6 + total f n7 := by
      rw [a7, a6, a5, total_append, total_append, total_append]
    unfold charges
    rw [e, e, e]
    have g1 := f2 Had.B
    have g2 := f2 Had.S
    have g3 := f2 Had.Q
    have g4 := f4 Had.B
    have g5 := f4 Had.S
    have g6 := f4 Had.Q
    have g7 := f7 Had.B
    have g8 := f7 Had.S
    have g9 := f7 Had.Q
    refine Prod.ext ?_ (Prod.ext ?_ ?_) <;> simp only <;> omega
  · intro p hp
    rw [a7, a6, a5, a4, a3, a2, a1] at hp
    simp only [List.nil_append, List.mem_append] at hp
    rcases hp with (((((hp | hp) | hp) | hp) | hp) | hp) | hp
    · exact (k1 p hp).2
    · exact (k2 p hp).2
    · exact (k3 p hp).2
    · exact (k4 p hp).2
    · exact (k5 p hp).2
    · exact (k6 p hp).2
    · exact (k7 p hp).2

/-- A run of the mode algorithm: kaon, Lambda, proton, pion and neutral pion. -/
def exTypes : List Had := [⟨0, 1, 1⟩, ⟨1, -1, 0⟩, ⟨1, 0, 1⟩, ⟨0, 0, 1⟩, ⟨0, 0, 0⟩]

def exDraw (i : ℕ) (e : ℚ) : Draw := ⟨fun j => if j = i then 1 else 0, 1, e⟩

example : (modeAlgo exTypes 5 3 0 3 [exDraw 0 1, exDraw 2 4, exDraw 1 1, exDraw 2 2, exDraw 2 1,
    exDraw 3 1]).map (fun r => charges (r.map Part.had)) = some (3, 0, 3) := by decide +kernel

end Verif.Therm
