import Verif.Tot.Model
import Verif.Sec.Props
import Mathlib.Tactic.Linarith
import Mathlib.Tactic.FieldSimp
import Mathlib.Tactic.Positivity
import Mathlib.Tactic.SplitIfs

/-!
Strings and the total cross section (C112).
-/

namespace Verif.Tot

open Verif Sec

/-! ### Specification -/

/-- Cross sections are not negative, suppression factors are between 0 and 1 (checked in
scatteractionsfinder.cc:210-214). -/
structure Physical (H : Hi) (P : Params) : Prop where
  f : ∀ k s, 0 ≤ H.f k s
  g : ∀ k s, 0 ≤ H.g k s
  ax : ∀ a b s, 0 ≤ (H.diffr a b s).1
  xb : ∀ a b s, 0 ≤ (H.diffr a b s).2.1
  xx : ∀ a b s, 0 ≤ (H.diffr a b s).2.2
  charm : 0 ≤ P.charmSuppression ∧ P.charmSuppression ≤ 1
  bottom : 0 ≤ P.bottomSuppression ∧ P.bottomSuppression ≤ 1

/-- Total of the elastic channels in a list. -/
noncomputable def elasticXs (l : List Chan) : ℝ := sumXs (l.filter fun c => c.proc == .elastic)

/-! ### Lemmas -/

theorem sumXs_nil : sumXs [] = 0 := rfl

theorem sumXs_cons (c : Chan) (l : List Chan) : sumXs (c :: l) = c.weight + sumXs l := by
  simp [sumXs]

theorem sumXs_append (l m : List Chan) : sumXs (l ++ m) = sumXs l + sumXs m := by
  simp [sumXs]

theorem sumXs_scaled (w : ℝ) (l : List Chan) : sumXs (scaled w l) = sumXs l * w := by
  induction l with
  | nil => simp [scaled, sumXs]
  | cons c l ih =>
    have : scaled w (c :: l) = { c with weight := c.weight * w } :: scaled w l := rfl
    rw [this, sumXs_cons, sumXs_cons, ih]; ring

theorem elasticXs_append (l m : List Chan) : elasticXs (l ++ m) = elasticXs l + elasticXs m := by
  simp [elasticXs, sumXs]

theorem elasticXs_zero {l : List Chan} (h : ∀ c ∈ l, c.proc ≠ .elastic) : elasticXs l = 0 := by
  have : l.filter (fun c => c.proc == .elastic) = [] := by
    rw [List.filter_eq_nil_iff]
    intro c hc
    simpa using h c hc
  rw [elasticXs, this]; rfl

theorem scaled_proc {w : ℝ} {l : List Chan} {q : Proc} (h : ∀ c ∈ l, c.proc ≠ q) :
    ∀ c ∈ scaled w l, c.proc ≠ q := by
  intro c hc
  obtain ⟨d, hd, rfl⟩ := List.mem_map.1 hc
  exact h d hd

theorem of22_proc (l : List Branch) : ∀ c ∈ of22 l, c.proc = .twoToTwo := by
  intro c hc
  obtain ⟨d, _, rfl⟩ := List.mem_map.1 hc
  rfl

theorem netQuark_le (d : Nat) (q : Int) (hn : Pdg.isNucleus d = false) :
    (Pdg.netQuark d q).natAbs ≤ 3 ∧ (Pdg.baryonNumber d = 0 → (Pdg.netQuark d q).natAbs ≤ 1) := by
  have hs : Pdg.antiparticleSign d = 1 ∨ Pdg.antiparticleSign d = -1 := by
    unfold Pdg.antiparticleSign; split <;> simp
  unfold Pdg.netQuark Pdg.netQuarkNumber
  rw [hn]
  split
  · simp [Except.toOption]
  · rw [if_neg (by decide)]
    split
    · simp [Except.toOption]
    · split
      · rename_i hb
        constructor
        · simp only [Except.toOption, Option.getD_some]
          rcases hs with h | h <;> rw [h] <;> split_ifs <;> simp
        · exact fun h => absurd h hb
      · split
        · simp [Except.toOption]
        · dsimp only
          split <;> rcases hs with h | h <;> rw [h] <;> split_ifs <;> simp [Except.toOption]

theorem frac_range (t : PType) (q : Nat) (k : Int) (n : Int)
    (hn : n = Pdg.netQuark t.pdg k ∨ n = -Pdg.netQuark t.pdg k) :
    0 ≤ frac t q n ∧ frac t q n ≤ 1 := by
  unfold frac
  have hnat : n.natAbs = (Pdg.netQuark t.pdg k).natAbs := by omega
  rw [hnat]
  split
  · rename_i hb
    have hnuc : Pdg.isNucleus t.pdg = false := by
      have : Pdg.isHadron t.pdg = true := by
        simp only [Pdg.isBaryon, Bool.and_eq_true] at hb; exact hb.1
      exact Pdg.hadron_not_nucleus this
    have := (netQuark_le t.pdg k hnuc).1
    constructor
    · positivity
    · have h3 : ((Pdg.netQuark t.pdg k).natAbs : ℝ) ≤ 3 := by exact_mod_cast this
      linarith
  · split
    · rename_i hb hm
      split
      · norm_num
      · have hh : Pdg.isHadron t.pdg = true := by
          simp only [Pdg.isMeson, Bool.and_eq_true] at hm; exact hm.1
        have hnuc := Pdg.hadron_not_nucleus hh
        have h0 : Pdg.baryonNumber t.pdg = 0 := by
          simp only [Pdg.isMeson, Pdg.baryonNumber, Pdg.isBaryon, Bool.and_eq_true] at *
          simp_all
        have := (netQuark_le t.pdg k hnuc).2 h0
        constructor
        · positivity
        · have h3 : ((Pdg.netQuark t.pdg k).natAbs : ℝ) ≤ 1 := by exact_mod_cast this
          linarith
    · norm_num

/-- The additive quark model only reduces cross sections. -/
theorem aqm_range {H : Hi} {P : Params} (h : Physical H P) (t : PType) : 0 ≤ aqm P t ∧ aqm P t ≤ 1 := by
  obtain ⟨s0, s1⟩ := frac_range t 3 3 (Pdg.strangeness t.pdg) (Or.inr rfl)
  obtain ⟨c0, c1⟩ := frac_range t 4 4 (Pdg.charmness t.pdg) (Or.inl rfl)
  obtain ⟨b0, b1⟩ := frac_range t 5 5 (Pdg.bottomness t.pdg) (Or.inr rfl)
  obtain ⟨hc0, hc1⟩ := h.charm
  obtain ⟨hb0, hb1⟩ := h.bottom
  unfold aqm
  have e1 : 0 ≤ 1 - 4 / 10 * frac t 3 (Pdg.strangeness t.pdg) := by linarith
  have e1' : 1 - 4 / 10 * frac t 3 (Pdg.strangeness t.pdg) ≤ 1 := by linarith
  have e2 : 0 ≤ 1 - P.charmSuppression * frac t 4 (Pdg.charmness t.pdg) := by nlinarith
  have e2' : 1 - P.charmSuppression * frac t 4 (Pdg.charmness t.pdg) ≤ 1 := by nlinarith
  have e3 : 0 ≤ 1 - P.bottomSuppression * frac t 5 (Pdg.bottomness t.pdg) := by nlinarith
  have e3' : 1 - P.bottomSuppression * frac t 5 (Pdg.bottomness t.pdg) ≤ 1 := by nlinarith
  refine ⟨by positivity, ?_⟩
  have := mul_le_one₀ e1' e2 e2'
  exact mul_le_one₀ this e3 e3'

/-- The channels of a string excitation: their cross sections are not negative and add up to the
total that is to be distributed, whatever PYTHIA's diffractive cross sections are. -/
theorem stringWeights_sum (total : ℝ) (d : ℝ × ℝ × ℝ) (ann hard : ℝ) (annihilates : Bool)
    (ht : 0 < total) (h1 : 0 ≤ d.1) (h2 : 0 ≤ d.2.1) (h3 : 0 ≤ d.2.2) (ha : 0 ≤ ann)
    (ha' : ann ≤ total) (hann : annihilates = false → ann = 0)
    (hh : 0 ≤ hard) (l : List Chan)
    (hl : stringWeights total d ann hard annihilates = .ok l) :
    sumXs l = total ∧ (∀ c ∈ l, c.proc ≠ .elastic) ∧ (∀ c ∈ l, c.out = []) ∧
      ∀ c ∈ l, 0 ≤ c.weight := by
  unfold stringWeights at hl
  dsimp only at hl
  split at hl
  · cases hl
  rename_i hs
  have hs' : 0 < d.1 + d.2.1 := lt_of_le_of_ne (by linarith) (Ne.symm hs)
  injection hl with hl
  generalize hnd : max 0 (total - ann - (d.1 + d.2.1 + d.2.2)) = nd at hl
  generalize hdf : total - ann - nd = df at hl
  generalize hdb : max 0 (df - (d.1 + d.2.1)) = db at hl
  have nd0 : 0 ≤ nd := hnd ▸ le_max_left _ _
  have ndle : nd ≤ total - ann := by
    rw [← hnd]; exact max_le (by linarith) (by linarith)
  have df0 : 0 ≤ df := by linarith
  have db0 : 0 ≤ db := hdb ▸ le_max_left _ _
  have dble : db ≤ df := by rw [← hdb]; exact max_le df0 (by linarith)
  have r0 : 0 ≤ (df - db) / (d.1 + d.2.1) := div_nonneg (by linarith) hs'.le
  have hr : (d.1 + d.2.1) * ((df - db) / (d.1 + d.2.1)) = df - db := by field_simp
  generalize (df - db) / (d.1 + d.2.1) = r at *
  have a1 : 0 ≤ d.1 * r := mul_nonneg h1 r0
  have a2 : 0 ≤ d.2.1 * r := mul_nonneg h2 r0
  have hx : d.1 * r + d.2.1 * r = df - db := by rw [← hr]; ring
  have key : ∀ soft hd : ℝ, 0 ≤ soft → 0 ≤ hd → soft + hd = nd → total - hd > 0 →
      (if total - hd > 0 then
        [⟨.softAX, [], d.1 * r⟩, ⟨.softXB, [], d.2.1 * r⟩, ⟨.softXX, [], db⟩, ⟨.softND, [], soft⟩] ++
          (if annihilates = true then [⟨.softAnnihilation, [], ann⟩] else [])
      else []) ++ (if hd > 0 then [⟨.hard, [], hd⟩] else []) = l →
      sumXs l = total ∧ (∀ c ∈ l, c.proc ≠ .elastic) ∧ (∀ c ∈ l, c.out = []) ∧
        ∀ c ∈ l, 0 ≤ c.weight := by
    intro soft hd s0 h0 hsum hpos he
    rw [if_pos hpos] at he
    subst he
    refine ⟨?_, ?_, ?_, ?_⟩
    · have hA : sumXs (if annihilates = true then [⟨.softAnnihilation, [], ann⟩] else []) = ann := by
        cases annihilates with
        | true => simp [sumXs]
        | false => simp [sumXs, hann rfl]
      have hH : sumXs (if hd > 0 then [⟨.hard, [], hd⟩] else []) = hd := by
        by_cases q : hd > 0
        · rw [if_pos q]; simp [sumXs]
        · rw [if_neg q]; simp [sumXs]; linarith
      rw [sumXs_append, sumXs_append, hA, hH]
      simp only [sumXs_cons, sumXs_nil]
      linarith
    all_goals
      intro c hc
      rcases List.mem_append.1 hc with hc | hc
      · rcases List.mem_append.1 hc with hc | hc
        · simp only [List.mem_cons, List.not_mem_nil, or_false] at hc
          rcases hc with rfl | rfl | rfl | rfl <;> simp [a1, a2, db0, s0]
        · cases annihilates
          · simp at hc
          · simp only [if_true, List.mem_cons, List.not_mem_nil, or_false] at hc
            subst hc
            simp [ha]
      · by_cases q : hd > 0
        · rw [if_pos q] at hc
          simp only [List.mem_cons, List.not_mem_nil, or_false] at hc
          subst hc
          simp [h0]
        · rw [if_neg q] at hc
          simp at hc
  by_cases hn : nd > 0
  · have e0 := Real.exp_pos (-hard / nd)
    have e1 : Real.exp (-hard / nd) ≤ 1 := by
      rw [Real.exp_le_one_iff]
      exact div_nonpos_of_nonpos_of_nonneg (by linarith) nd0
    have s0 : 0 < nd * Real.exp (-hard / nd) := by positivity
    have s1 : nd * Real.exp (-hard / nd) ≤ nd := by nlinarith
    rw [if_pos hn, if_pos hn] at hl
    exact key _ _ s0.le (by linarith) (by ring) (by linarith) hl
  · rw [if_neg hn, if_neg hn] at hl
    exact key 0 0 le_rfl le_rfl (by linarith) (by linarith) hl

/-- Hard cross section. -/
theorem hardXs_nonneg {H : Hi} {P : Params} (h : Physical H P) (W : World) (a b : PType) :
    0 ≤ hardXs W H a b := by
  unfold hardXs
  split_ifs
  · exact le_rfl
  all_goals exact h.f _ _

/-- **C112** (string channels). The channels of a string excitation add up to the cross section that
is to be distributed, and none is negative. -/
theorem C112_string_channels (W : World) (H : Hi) (P : Params) (hp : Physical H P) (a b : PType)
    (sp : Bool) (total : ℝ) (l : List Chan)
    (hl : stringExcitation W H P a b sp total = .ok l) :
    sumXs l = max 0 total ∧ (∀ c ∈ l, c.proc ≠ .elastic) ∧ (∀ c ∈ l, c.out = []) ∧
      ∀ c ∈ l, 0 ≤ c.weight := by
  unfold stringExcitation at hl
  split at hl
  · cases hl
  split at hl
  · rename_i h
    injection hl with hl
    subst hl
    rw [max_eq_left h]
    refine ⟨rfl, ?_, ?_, ?_⟩ <;> intro c hc <;> exact absurd hc List.not_mem_nil
  · rename_i h
    have ht : 0 < total := lt_of_not_ge h
    rw [max_eq_right ht.le]
    have ka := (aqm_range hp a).1
    have kb := (aqm_range hp b).1
    have k0 : 0 ≤ aqm P a * aqm P b := mul_nonneg ka kb
    dsimp only at hl
    refine stringWeights_sum _ _ _ _ _ ht ?_ ?_ ?_ ?_ ?_ ?_ ?_ l hl
    · split
      · exact mul_nonneg (hp.ax _ _ _) k0
      · exact hp.ax _ _ _
    · split
      · exact mul_nonneg (hp.xb _ _ _) k0
      · exact hp.xb _ _ _
    · split
      · exact mul_nonneg (hp.xx _ _ _) k0
      · exact hp.xx _ _ _
    · split
      · apply le_min ht.le
        split
        · exact mul_nonneg (hp.f _ _) k0
        · exact hp.f _ _
      · exact le_rfl
    · split
      · exact min_le_left _ _
      · exact ht.le
    · intro hc
      rw [hc]
      simp
    · exact mul_nonneg k0 (hardXs_nonneg hp W a b)

end Verif.Tot
