import Verif.Frag.Model
import Mathlib.Tactic.FinCases
import Mathlib.Tactic.Linarith
import Mathlib.Tactic.SplitIfs
import Mathlib.Tactic.IntervalCases
import Mathlib.Algebra.Order.BigOperators.Group.Finset
/-
C86: the valence quarks of the incoming hadrons are restored in the partonic final state.
-/
set_option linter.unusedSimpArgs false
set_option linter.unnecessarySeqFocus false
set_option linter.unusedVariables false
namespace Verif.Frag

/-! ### Specification -/

/-- The flavours of the constituents of a parton by the PDG numbering scheme: a quark has a one-digit
number; in the number of a diquark the thousands and the hundreds digit are its quarks. -/
def constituents (id : Int) : List Nat :=
  if 1 ≤ id.natAbs ∧ id.natAbs ≤ 5 then [id.natAbs]
  else if 1000 < id.natAbs ∧ id.natAbs < 10000 ∧ id.natAbs / 10 % 10 = 0 then
    [id.natAbs / 1000, id.natAbs / 100 % 10]
  else []

/-- The number of quarks of flavour `j + 1` among the partons. -/
def quarks (ps : List Int) (j : Fin 5) : Int :=
  (ps.map fun id => if id > 0 then ((constituents id).count (j.val + 1) : Int) else 0).sum

/-- The number of antiquarks of flavour `j + 1` among the partons. -/
def antiquarks (ps : List Int) (j : Fin 5) : Int :=
  (ps.map fun id => if id > 0 then 0 else ((constituents id).count (j.val + 1) : Int)).sum

/-- Partons: gluons (or anything without constituents), the five light quarks, diquarks of these. -/
def Parton (id : Int) : Prop :=
  (isQuark id = false ∧ isDiquark id = false) ∨ (1 ≤ id.natAbs ∧ id.natAbs ≤ 5) ∨
  (1000 < id.natAbs ∧ id.natAbs < 10000 ∧ id.natAbs / 10 % 10 = 0 ∧ id.natAbs / 1000 ≤ 5 ∧
    1 ≤ id.natAbs / 100 % 10 ∧ id.natAbs / 100 % 10 ≤ 5)

/-- How many entries of a quark content are quarks of flavour `j + 1`. -/
def nq (c : Int × Int × Int) (j : Fin 5) : Int := ([c.1, c.2.1, c.2.2].count ((j : Int) + 1) : Int)

/-- How many entries of a quark content are antiquarks of flavour `j + 1`. -/
def na (c : Int × Int × Int) (j : Fin 5) : Int := ([c.1, c.2.1, c.2.2].count (-((j : Int) + 1)) : Int)

/-! ### Sums over flavours -/

def sz (e : Flav) : Nat := ∑ i, (e i).natAbs

def tot (e : Flav) : Int := ∑ i, e i

def unit (q : Int) (j : Fin 5) : Int := if q.natAbs = j + 1 then 1 else 0

theorem sz_update (e : Flav) (k : Fin 5) (v : Int) :
    sz (Function.update e k v) + (e k).natAbs = sz e + v.natAbs := by
  unfold sz
  fin_cases k <;> simp [Fin.sum_univ_five, Function.update] <;> omega

theorem tot_unit (q : Int) (h : 1 ≤ q.natAbs ∧ q.natAbs ≤ 5) : ∑ j, unit q j = 1 := by
  unfold unit
  generalize q.natAbs = n at h
  obtain ⟨h1, h2⟩ := h
  interval_cases n <;> rfl

theorem exists_pos {e : Flav} (h : tot e = 0) {j : Fin 5} (hj : e j < 0) : ∃ k, k ≠ j ∧ e k > 0 := by
  by_contra hc
  push Not at hc
  have : tot e < 0 := by
    unfold tot
    apply Finset.sum_neg'
    · intro i _
      by_cases hi : i = j
      · rw [hi]; omega
      · exact hc i hi
    · exact ⟨j, Finset.mem_univ _, hj⟩
  omega

/-! ### Conversion of one constituent -/

theorem targets_nil {e : Flav} (h : tot e = 0) {j : Fin 5} (ht : targets e j = []) : 0 ≤ e j := by
  by_contra hc
  obtain ⟨k, hk, hp⟩ := exists_pos h (j := j) (by omega)
  unfold targets at ht
  rw [if_pos (by omega)] at ht
  have := List.filter_eq_nil_iff.mp ht k (List.mem_finRange k)
  simp [hk, hp] at this

theorem mem_targets {e : Flav} {j k : Fin 5} (h : k ∈ targets e j) : e j < 0 ∧ k ≠ j ∧ 0 < e k := by
  unfold targets at h
  split_ifs at h with h1
  · simp at h; exact ⟨h1, h.1, h.2⟩
  · simp at h

theorem convert_spec (n : Nat) {q : Int} {e : Flav} (h : 1 ≤ q.natAbs ∧ q.natAbs ≤ 5) (ht : tot e = 0) :
    ∃ r, convert n q e = some r ∧ (1 ≤ r.1.natAbs ∧ r.1.natAbs ≤ 5) ∧ (r.1 > 0 ↔ q > 0) ∧
      (∀ i, r.2 i + unit r.1 i = e i + unit q i) ∧ tot r.2 = 0 ∧ sz r.2 ≤ sz e ∧
      (sz r.2 = sz e → r = (q, e) ∧ ∀ i : Fin 5, q.natAbs = i + 1 → 0 ≤ e i) := by
  unfold convert
  rw [dif_pos h]
  dsimp only
  cases ht' : (targets e ⟨q.natAbs - 1, by omega⟩)[n % (targets e ⟨q.natAbs - 1, by omega⟩).length]? with
  | none =>
    refine ⟨_, rfl, h, Iff.rfl, fun i => rfl, ht, Nat.le_refl _, fun _ => ⟨rfl, ?_⟩⟩
    intro i hi
    have : targets e ⟨q.natAbs - 1, by omega⟩ = [] := by
      by_contra hc
      have := List.length_pos_iff.mpr hc
      rw [List.getElem?_eq_none_iff] at ht'
      have := Nat.mod_lt n this
      omega
    have := targets_nil ht this
    have e1 : (⟨q.natAbs - 1, by omega⟩ : Fin 5) = i := Fin.ext (by simp; omega)
    rw [e1] at this; exact this
  | some k =>
    have hm := mem_targets (List.mem_of_getElem? ht')
    generalize hj : (⟨q.natAbs - 1, by omega⟩ : Fin 5) = j at hm
    have hjv : q.natAbs = j + 1 := by rw [← hj]; simp; omega
    dsimp only
    have hs1 := sz_update e j (e j + 1)
    have hs2 := sz_update (Function.update e j (e j + 1)) k ((Function.update e j (e j + 1)) k - 1)
    have hk : (Function.update e j (e j + 1)) k = e k := Function.update_of_ne hm.2.1 _ _
    rw [hk] at hs2
    have hq' : (if q > 0 then (k : Int) + 1 else -((k : Int) + 1)).natAbs = k + 1 := by
      split_ifs <;> omega
    have hk5 := k.isLt
    have key : ∀ i, Function.update (Function.update e j (e j + 1)) k
        ((Function.update e j (e j + 1)) k - 1) i +
          unit (if q > 0 then (k : Int) + 1 else -((k : Int) + 1)) i = e i + unit q i := by
      intro i
      unfold unit
      rw [hq', hjv, hk]
      have hf : ∀ a b : Fin 5, ((a : Nat) + 1 = b + 1) ↔ b = a := fun a b => by
        constructor
        · intro h; exact Fin.ext (by omega)
        · intro h; rw [h]
      simp only [hf]
      by_cases hik : i = k
      · subst hik
        rw [Function.update_self, if_pos rfl, if_neg (fun h => hm.2.1 h)]; omega
      · rw [Function.update_of_ne hik, if_neg hik]
        by_cases hij : i = j
        · subst hij; rw [Function.update_self, if_pos rfl]; omega
        · rw [Function.update_of_ne hij, if_neg hij]
    refine ⟨_, rfl, ?_, ?_, key, ?_, ?_, ?_⟩
    · dsimp only; rw [hq']; omega
    · dsimp only; split_ifs <;> omega
    · have h1 := Finset.sum_congr (s₁ := Finset.univ) rfl fun i _ => key i
      rw [Finset.sum_add_distrib, Finset.sum_add_distrib, tot_unit q h, tot_unit _ (by rw [hq']; omega)] at h1
      unfold tot at ht ⊢
      rw [ht] at h1
      dsimp only
      omega
    · dsimp only; rw [hk]; omega
    · dsimp only; rw [hk]; omega

/-! ### Conversion of one parton -/

theorem cnt_quark {id : Int} (h : 1 ≤ id.natAbs ∧ id.natAbs ≤ 5) (j : Fin 5) :
    ((constituents id).count (j.val + 1) : Int) = unit id j := by
  unfold constituents unit
  rw [if_pos h, List.count_singleton]
  by_cases hc : id.natAbs = j + 1 <;> simp [hc]

theorem cnt_diquark {id : Int} (h : 1000 < id.natAbs ∧ id.natAbs < 10000 ∧ id.natAbs / 10 % 10 = 0)
    (j : Fin 5) : ((constituents id).count (j.val + 1) : Int) =
      (if id.natAbs / 1000 = j + 1 then 1 else 0) + (if id.natAbs / 100 % 10 = j + 1 then 1 else 0) := by
  unfold constituents
  rw [if_neg (by omega), if_pos h, List.count_cons, List.count_singleton]
  by_cases h1 : id.natAbs / 1000 = j + 1 <;> by_cases h2 : id.natAbs / 100 % 10 = j + 1 <;>
    simp [h1, h2]

theorem cnt_none {id : Int} (h : isQuark id = false ∧ isDiquark id = false) :
    constituents id = [] := by
  unfold isQuark isDiquark at h
  unfold constituents
  simp at h
  rw [if_neg (by omega), if_neg]
  rintro ⟨h1, h2, h3⟩
  exact h.2 h1 h2 h3

theorem quarks_natAbs {id : Int} (h : 1000 < id.natAbs ∧ id.natAbs < 10000 ∧ id.natAbs / 10 % 10 = 0) :
    (quarksFromDiquark id).1.natAbs = id.natAbs / 1000 ∧
    (quarksFromDiquark id).2.1.natAbs = id.natAbs / 100 % 10 ∧
    (quarksFromDiquark id).2.2 = id.natAbs % 10 := by
  unfold quarksFromDiquark
  dsimp only
  generalize hn : id.natAbs = n at h ⊢
  have e1 : ((n : Int) - (n : Int) % 1000) = 1000 * ((n / 1000 : Nat) : Int) := by omega
  have e2 : ((n : Int) % 1000 - (n : Int) % 10) = 100 * ((n / 100 % 10 : Nat) : Int) := by omega
  rw [e1, e2]
  refine ⟨?_, ?_, by omega⟩
  · split_ifs
    · rw [one_mul, Int.mul_tdiv_cancel_left _ (by norm_num)]; omega
    · rw [neg_one_mul, ← Int.mul_neg, Int.mul_tdiv_cancel_left _ (by norm_num)]; omega
  · split_ifs
    · rw [one_mul, Int.mul_tdiv_cancel_left _ (by norm_num)]; omega
    · rw [neg_one_mul, ← Int.mul_neg, Int.mul_tdiv_cancel_left _ (by norm_num)]; omega

theorem compose_spec {id q1 q2 deg : Int} (h1 : 1 ≤ q1.natAbs ∧ q1.natAbs ≤ 5)
    (h2 : 1 ≤ q2.natAbs ∧ q2.natAbs ≤ 5) (hd : 0 ≤ deg ∧ deg ≤ 9) (hid : id ≠ 0) :
    (1000 < (composeDiquark id q1 q2 deg).natAbs ∧ (composeDiquark id q1 q2 deg).natAbs < 10000 ∧
      (composeDiquark id q1 q2 deg).natAbs / 10 % 10 = 0) ∧
    (composeDiquark id q1 q2 deg > 0 ↔ id > 0) ∧
    (((composeDiquark id q1 q2 deg).natAbs / 1000 = q1.natAbs ∧
      (composeDiquark id q1 q2 deg).natAbs / 100 % 10 = q2.natAbs) ∨
     ((composeDiquark id q1 q2 deg).natAbs / 1000 = q2.natAbs ∧
      (composeDiquark id q1 q2 deg).natAbs / 100 % 10 = q1.natAbs)) := by
  unfold composeDiquark
  by_cases hs : q1.natAbs < q2.natAbs
  · rw [if_pos hs]
    dsimp only
    rw [if_neg (show ¬ q2.natAbs = q1.natAbs by omega)]
    refine ⟨by split_ifs <;> omega, by split_ifs <;> omega, Or.inr (by split_ifs <;> omega)⟩
  · rw [if_neg hs]
    dsimp only
    by_cases he : q1.natAbs = q2.natAbs
    · rw [if_pos he]
      refine ⟨by split_ifs <;> omega, by split_ifs <;> omega, Or.inl (by split_ifs <;> omega)⟩
    · rw [if_neg he]
      refine ⟨by split_ifs <;> omega, by split_ifs <;> omega, Or.inl (by split_ifs <;> omega)⟩

theorem sz_zero {e : Flav} (h : e = 0) : ∀ i, e i = 0 := fun i => by rw [h]; rfl

theorem replace_spec (n1 n2 : Nat) {id : Int} {e : Flav} (h : Parton id) (ht : tot e = 0) :
    ∃ r, replace n1 n2 id e = some r ∧ Parton r.1 ∧ (r.1 > 0 ↔ id > 0) ∧
      (∀ i : Fin 5, r.2 i + ((constituents r.1).count (i.val + 1) : Int) =
        e i + ((constituents id).count (i.val + 1) : Int)) ∧ tot r.2 = 0 ∧ sz r.2 ≤ sz e ∧
      (sz r.2 = sz e → r.2 = e ∧ ∀ i : Fin 5, 0 < (constituents id).count (i.val + 1) → 0 ≤ e i) := by
  unfold replace
  by_cases h0 : isQuark id = false ∧ isDiquark id = false
  · rw [if_pos h0]
    refine ⟨_, rfl, h, Iff.rfl, fun i => rfl, ht, Nat.le_refl _, fun _ => ⟨rfl, ?_⟩⟩
    intro i hi
    rw [cnt_none h0] at hi
    simp at hi
  rw [if_neg h0]
  by_cases he : e = 0
  · rw [if_pos he]
    exact ⟨_, rfl, h, Iff.rfl, fun i => rfl, ht, Nat.le_refl _,
      fun _ => ⟨rfl, fun i _ => by rw [sz_zero he]⟩⟩
  rw [if_neg he]
  rcases h with h | h | h
  · exact absurd h h0
  · have hq : isQuark id = true := by unfold isQuark; simp; omega
    rw [if_pos hq]
    obtain ⟨r, hr, hr1, hr2, hr3, hr4, hr5, hr6⟩ := convert_spec n1 h ht
    refine ⟨r, hr, Or.inr (Or.inl hr1), hr2, ?_, hr4, hr5, ?_⟩
    · intro i; rw [cnt_quark hr1, cnt_quark h]; exact hr3 i
    · intro hs
      obtain ⟨h6, h7⟩ := hr6 hs
      refine ⟨by rw [h6], fun i hi => h7 i ?_⟩
      have := cnt_quark h i
      unfold unit at this
      by_contra hc
      rw [if_neg hc] at this
      omega
  · have hq : isQuark id = false := by unfold isQuark; simp; omega
    rw [if_neg (by rw [hq]; simp)]
    have hd : 1000 < id.natAbs ∧ id.natAbs < 10000 ∧ id.natAbs / 10 % 10 = 0 := ⟨h.1, h.2.1, h.2.2.1⟩
    obtain ⟨hn1, hn2, hn3⟩ := quarks_natAbs hd
    obtain ⟨r, hr, hr1, hr2, hr3, hr4, hr5, hr6⟩ :=
      convert_spec n1 (q := (quarksFromDiquark id).1) (by rw [hn1]; omega) ht
    obtain ⟨r', hr', hr1', hr2', hr3', hr4', hr5', hr6'⟩ :=
      convert_spec n2 (q := (quarksFromDiquark id).2.1) (e := r.2) (by rw [hn2]; omega) hr4
    rw [hr, Option.bind_some, hr', Option.map_some]
    obtain ⟨hc1, hc2, hc3⟩ := compose_spec (id := id) (deg := (quarksFromDiquark id).2.2) hr1 hr1'
      (by rw [hn3]; omega) (by omega)
    refine ⟨_, rfl, Or.inr (Or.inr ?_), hc2, ?_, hr4', Nat.le_trans hr5' hr5, ?_⟩
    · dsimp only
      refine ⟨hc1.1, hc1.2.1, hc1.2.2, ?_⟩
      rcases hc3 with hc | hc <;> rw [hc.1, hc.2] <;> omega
    · intro i
      have h3 := hr3 i
      have h3' := hr3' i
      dsimp only
      rw [cnt_diquark hc1, cnt_diquark hd]
      unfold unit at h3 h3'
      rw [hn1] at h3
      rw [hn2] at h3'
      rcases hc3 with hc | hc <;> rw [hc.1, hc.2] <;> omega
    · dsimp only
      intro hs
      have e1 := hr6 (by omega)
      have e2 := hr6' (by omega)
      have e3 : r.2 = e := by rw [e1.1]
      have e4 : r'.2 = r.2 := by rw [e2.1]
      refine ⟨by rw [e4, e3], ?_⟩
      intro i hi
      have hcd := cnt_diquark hd i
      by_cases c1 : id.natAbs / 1000 = i + 1
      · exact e1.2 i (by rw [hn1]; exact c1)
      · by_cases c2 : id.natAbs / 100 % 10 = i + 1
        · have := e2.2 i (by rw [hn2]; exact c2)
          rw [e3] at this; exact this
        · rw [if_neg c1, if_neg c2] at hcd
          omega

/-! ### One pass over the partons -/

/-- Excesses that sum up to zero. -/
def Balanced (x : Excess) : Prop := tot x.quark = 0 ∧ tot x.antiq = 0

def szX (x : Excess) : Nat := sz x.quark + sz x.antiq

/-- No constituent of this parton has a negative excess. -/
def Stuck (id : Int) (x : Excess) : Prop := ∀ i : Fin 5, 0 < (constituents id).count (i.val + 1) →
  if id > 0 then 0 ≤ x.quark i else 0 ≤ x.antiq i

def q1 (id : Int) (i : Fin 5) : Int := if id > 0 then ((constituents id).count (i.val + 1) : Int) else 0
def a1 (id : Int) (i : Fin 5) : Int := if id > 0 then 0 else ((constituents id).count (i.val + 1) : Int)

theorem touch_spec (n1 n2 : Nat) {id : Int} {x : Excess} (h : Parton id) (hb : Balanced x) :
    ∃ r, touch n1 n2 id x = some r ∧ Parton r.1 ∧ Balanced r.2 ∧
      (∀ i, r.2.quark i + q1 r.1 i = x.quark i + q1 id i) ∧
      (∀ i, r.2.antiq i + a1 r.1 i = x.antiq i + a1 id i) ∧ szX r.2 ≤ szX x ∧
      (szX r.2 = szX x → r.2 = x ∧ Stuck id x) := by
  unfold touch q1 a1 Stuck szX
  by_cases hp : id > 0
  · obtain ⟨r, hr, hr1, hr2, hr3, hr4, hr5, hr6⟩ := replace_spec n1 n2 h hb.1
    rw [if_pos hp, hr]
    have hrp := hr2.mpr hp
    refine ⟨_, rfl, hr1, ⟨hr4, hb.2⟩, ?_, ?_, ?_, ?_⟩
    · intro i; dsimp only; rw [if_pos hrp, if_pos hp]; exact hr3 i
    · intro i; dsimp only; rw [if_pos hrp, if_pos hp]
    · dsimp only; omega
    · dsimp only; intro hs
      obtain ⟨e1, e2⟩ := hr6 (by omega)
      refine ⟨by rw [e1], fun i hi => ?_⟩
      rw [if_pos hp]; exact e2 i hi
  · obtain ⟨r, hr, hr1, hr2, hr3, hr4, hr5, hr6⟩ := replace_spec n1 n2 h hb.2
    rw [if_neg hp, hr]
    have hrp : ¬ r.1 > 0 := fun h => hp (hr2.mp h)
    refine ⟨_, rfl, hr1, ⟨hb.1, hr4⟩, ?_, ?_, ?_, ?_⟩
    · intro i; dsimp only; rw [if_neg hrp, if_neg hp]
    · intro i; dsimp only; rw [if_neg hrp, if_neg hp]; exact hr3 i
    · dsimp only; omega
    · dsimp only; intro hs
      obtain ⟨e1, e2⟩ := hr6 (by omega)
      refine ⟨by rw [e1], fun i hi => ?_⟩
      rw [if_neg hp]; exact e2 i hi

theorem quarks_append (a b : List Int) (i : Fin 5) : quarks (a ++ b) i = quarks a i + quarks b i := by
  unfold quarks; rw [List.map_append, List.sum_append]

theorem antiquarks_append (a b : List Int) (i : Fin 5) :
    antiquarks (a ++ b) i = antiquarks a i + antiquarks b i := by
  unfold antiquarks; rw [List.map_append, List.sum_append]

theorem quarks_single (a : Int) (i : Fin 5) : quarks [a] i = q1 a i := by
  unfold quarks q1; simp

theorem antiquarks_single (a : Int) (i : Fin 5) : antiquarks [a] i = a1 a i := by
  unfold antiquarks a1; simp

theorem quarks_perm {a b : List Int} (h : a.Perm b) (i : Fin 5) : quarks a i = quarks b i := by
  unfold quarks; exact (h.map _).sum_eq

theorem antiquarks_perm {a b : List Int} (h : a.Perm b) (i : Fin 5) :
    antiquarks a i = antiquarks b i := by
  unfold antiquarks; exact (h.map _).sum_eq

theorem perm_erase {l : List Int} {n : Nat} {a : Int} (h : l[n]? = some a) :
    l.Perm (a :: l.eraseIdx n) := by
  obtain ⟨hn, rfl⟩ := List.getElem?_eq_some_iff.mp h
  exact (List.getElem_cons_eraseIdx_perm hn).symm

theorem visit_spec (o : Oracle) : ∀ (k : Nat) (rest done : List Int) (x : Excess), rest.length = k →
    (∀ id ∈ rest ++ done, Parton id) → Balanced x →
    ∃ r, visit o k rest done x = some r ∧ (∀ id ∈ r.1, Parton id) ∧ Balanced r.2 ∧
      (∀ i, r.2.quark i + quarks r.1 i = x.quark i + quarks (rest ++ done) i) ∧
      (∀ i, r.2.antiq i + antiquarks r.1 i = x.antiq i + antiquarks (rest ++ done) i) ∧
      r.1.length = rest.length + done.length ∧
      szX r.2 ≤ szX x ∧ (szX r.2 = szX x → r.2 = x ∧ ∀ id ∈ rest, Stuck id x) := by
  intro k
  induction k with
  | zero =>
    intro rest done x hk hp hb
    have : rest = [] := List.eq_nil_of_length_eq_zero hk
    subst this
    exact ⟨_, rfl, hp, hb, fun i => rfl, fun i => rfl, by simp, Nat.le_refl _, fun _ => ⟨rfl, by simp⟩⟩
  | succ k ih =>
    intro rest done x hk hp hb
    simp only [visit]
    have hlt : o.forward rest % rest.length < rest.length := Nat.mod_lt _ (by omega)
    cases hg : rest[o.forward rest % rest.length]? with
    | none => rw [List.getElem?_eq_none_iff] at hg; omega
    | some id =>
      dsimp only
      have hmem := List.mem_of_getElem? hg
      have hperm := perm_erase hg
      obtain ⟨r, hr, hr1, hr2, hr3, hr4, hr5, hr6⟩ :=
        touch_spec (o.n1 k) (o.n2 k) (hp id (List.mem_append_left _ hmem)) hb
      rw [hr, Option.bind_some]
      have hlen : (rest.eraseIdx (o.forward rest % rest.length)).length = k := by
        rw [List.length_eraseIdx_of_lt hlt]; omega
      obtain ⟨s, hs, hs1, hs2, hs3, hs4, hsl, hs5, hs6⟩ := ih
        (rest.eraseIdx (o.forward rest % rest.length)) (done ++ [r.1]) r.2 hlen (by
          intro a ha
          rcases List.mem_append.mp ha with ha | ha
          · exact hp a (List.mem_append_left _ (List.mem_of_mem_eraseIdx ha))
          · rcases List.mem_append.mp ha with ha | ha
            · exact hp a (List.mem_append_right _ ha)
            · rw [List.mem_singleton] at ha; rw [ha]; exact hr1) hr2
      refine ⟨s, hs, hs1, hs2, ?_, ?_, ?_, by omega, ?_⟩
      · intro i
        have e1 := quarks_perm hperm i
        rw [show (id :: rest.eraseIdx (o.forward rest % rest.length)) =
          [id] ++ rest.eraseIdx (o.forward rest % rest.length) from rfl, quarks_append,
          quarks_single] at e1
        have e2 := hs3 i
        have e3 := hr3 i
        rw [quarks_append, quarks_append, quarks_single] at e2
        rw [quarks_append]
        omega
      · intro i
        have e1 := antiquarks_perm hperm i
        rw [show (id :: rest.eraseIdx (o.forward rest % rest.length)) =
          [id] ++ rest.eraseIdx (o.forward rest % rest.length) from rfl, antiquarks_append,
          antiquarks_single] at e1
        have e2 := hs4 i
        have e3 := hr4 i
        rw [antiquarks_append, antiquarks_append, antiquarks_single] at e2
        rw [antiquarks_append]
        omega
      · rw [hsl, hlen, List.length_append, List.length_singleton]; omega
      · intro hz
        obtain ⟨e1, e2⟩ := hr6 (by omega)
        obtain ⟨e3, e4⟩ := hs6 (by omega)
        refine ⟨by rw [e3, e1], ?_⟩
        intro a ha
        rcases List.mem_cons.mp (hperm.mem_iff.mp ha) with ha | ha
        · rw [ha]; exact e2
        · rw [← e1]; exact e4 a ha

/-! ### The loop -/

theorem quarks_nonneg (ps : List Int) (j : Fin 5) : 0 ≤ quarks ps j := by
  unfold quarks
  apply List.sum_nonneg
  intro x hx
  obtain ⟨id, _, rfl⟩ := List.mem_map.mp hx
  split_ifs <;> omega

theorem antiquarks_nonneg (ps : List Int) (j : Fin 5) : 0 ≤ antiquarks ps j := by
  unfold antiquarks
  apply List.sum_nonneg
  intro x hx
  obtain ⟨id, _, rfl⟩ := List.mem_map.mp hx
  split_ifs <;> omega

theorem quarks_pos {ps : List Int} {j : Fin 5} (h : quarks ps j ≠ 0) :
    ∃ id ∈ ps, id > 0 ∧ 0 < (constituents id).count (j.val + 1) := by
  by_contra hc
  push Not at hc
  apply h
  unfold quarks
  apply List.sum_eq_zero
  intro x hx
  obtain ⟨id, hid, rfl⟩ := List.mem_map.mp hx
  split_ifs with hp
  · have := hc id hid hp; omega
  · rfl

theorem antiquarks_pos {ps : List Int} {j : Fin 5} (h : antiquarks ps j ≠ 0) :
    ∃ id ∈ ps, ¬ id > 0 ∧ 0 < (constituents id).count (j.val + 1) := by
  by_contra hc
  push Not at hc
  apply h
  unfold antiquarks
  apply List.sum_eq_zero
  intro x hx
  obtain ⟨id, hid, rfl⟩ := List.mem_map.mp hx
  split_ifs with hp
  · rfl
  · have := hc id hid (by omega); omega

/-- There are enough constituents for the excesses. -/
def Enough (ps : List Int) (x0 x1 : Excess) : Prop := ∀ j,
  0 ≤ quarks ps j + x0.quark j + x1.quark j ∧ 0 ≤ antiquarks ps j + x0.antiq j + x1.antiq j

theorem sum_nonneg_zero {a b : Flav} (ha : tot a = 0) (hb : tot b = 0) (h : ∀ j, 0 ≤ a j + b j) :
    ∀ j, a j + b j = 0 := by
  unfold tot at ha hb
  have : ∑ j, (a j + b j) = 0 := by rw [Finset.sum_add_distrib, ha, hb]; rfl
  have := (Finset.sum_eq_zero_iff_of_nonneg (fun i _ => h i)).mp this
  exact fun j => this j (Finset.mem_univ j)

theorem stuck_zero {ps : List Int} {x0 x1 : Excess} (h0 : Balanced x0) (h1 : Balanced x1)
    (he : Enough ps x0 x1) (hs0 : ∀ id ∈ ps, Stuck id x0) (hs1 : ∀ id ∈ ps, Stuck id x1) :
    netExcess x0 x1 = 0 := by
  have hq := sum_nonneg_zero h0.1 h1.1 (fun j => by
    by_cases hz : quarks ps j = 0
    · have := (he j).1; omega
    · obtain ⟨id, hid, hp, hc⟩ := quarks_pos hz
      have a := hs0 id hid j hc
      have b := hs1 id hid j hc
      rw [if_pos hp] at a b
      omega)
  have ha := sum_nonneg_zero h0.2 h1.2 (fun j => by
    by_cases hz : antiquarks ps j = 0
    · have := (he j).2; omega
    · obtain ⟨id, hid, hp, hc⟩ := antiquarks_pos hz
      have a := hs0 id hid j hc
      have b := hs1 id hid j hc
      rw [if_neg hp] at a b
      omega)
  funext j
  have := hq j
  have := ha j
  unfold netExcess
  simp only [Pi.zero_apply]
  omega

theorem loop_spec (o : Nat → Oracle × Oracle) : ∀ (fuel : Nat) (ps : List Int) (x0 x1 : Excess),
    (∀ id ∈ ps, Parton id) → Balanced x0 → Balanced x1 →
    (∃ r, restoreLoop o fuel ps x0 x1 = some r) ∧
    (∀ r, restoreLoop o fuel ps x0 x1 = some (some r) →
      (∀ id ∈ r.1, Parton id) ∧ r.1.length = ps.length ∧ netExcess r.2.1 r.2.2 = 0 ∧
      ∀ j, (quarks r.1 j + r.2.1.quark j + r.2.2.quark j = quarks ps j + x0.quark j + x1.quark j) ∧
        (antiquarks r.1 j + r.2.1.antiq j + r.2.2.antiq j =
          antiquarks ps j + x0.antiq j + x1.antiq j)) ∧
    (Enough ps x0 x1 → szX x0 + szX x1 < fuel → restoreLoop o fuel ps x0 x1 ≠ some none) := by
  intro fuel
  induction fuel with
  | zero =>
    intro ps x0 x1 hp h0 h1
    refine ⟨⟨_, rfl⟩, ?_, fun _ h => absurd h (by omega)⟩
    intro r hr
    simp [restoreLoop] at hr
  | succ fuel ih =>
    intro ps x0 x1 hp h0 h1
    simp only [restoreLoop]
    obtain ⟨r, hr, hr1, hr2, hr3, hr4, hrl, hr5, hr6⟩ :=
      visit_spec (o fuel).1 _ ps [] x0 rfl (by simpa using hp) h0
    obtain ⟨s, hs, hs1, hs2, hs3, hs4, hsl, hs5, hs6⟩ :=
      visit_spec (o fuel).2 _ r.1 [] x1 rfl (by simpa using hr1) h1
    simp only [List.append_nil] at hr3 hr4 hs3 hs4
    rw [hr, Option.bind_some, hs, Option.bind_some]
    have hen : Enough ps x0 x1 → Enough s.1 r.2 s.2 := by
      intro he j
      have := he j
      have := hr3 j
      have := hr4 j
      have := hs3 j
      have := hs4 j
      constructor <;> omega
    by_cases hz : netExcess r.2 s.2 = 0
    · rw [if_pos hz]
      refine ⟨⟨_, rfl⟩, ?_, fun _ _ h => by simp at h⟩
      intro t ht
      simp only [Option.some.injEq] at ht
      subst ht
      refine ⟨hs1, by rw [hsl, hrl]; simp, hz, fun j => ?_⟩
      have := hr3 j
      have := hr4 j
      have := hs3 j
      have := hs4 j
      dsimp only
      constructor <;> omega
    · rw [if_neg hz]
      obtain ⟨i1, i2, i3⟩ := ih s.1 r.2 s.2 hs1 hr2 hs2
      refine ⟨i1, ?_, ?_⟩
      · intro t ht
        obtain ⟨j1, j2, j3, j4⟩ := i2 t ht
        refine ⟨j1, by rw [j2, hsl, hrl]; simp, j3, fun j => ?_⟩
        have := hr3 j
        have := hr4 j
        have := hs3 j
        have := hs4 j
        have := j4 j
        constructor <;> omega
      · intro he hf
        refine i3 (hen he) ?_
        by_contra hc
        have e0 : szX r.2 = szX x0 := by omega
        have e1 : szX s.2 = szX x1 := by omega
        obtain ⟨f0, f0'⟩ := hr6 e0
        obtain ⟨f1, f1'⟩ := hs6 e1
        apply hz
        -- the partons of `r.1` have the same flavours as those of `ps`
        rw [f0, f1]
        refine stuck_zero (ps := ps) h0 h1 he f0' ?_
        intro id hid i hi
        by_cases hpos : id > 0
        · rw [if_pos hpos]
          have hq : quarks r.1 i ≠ 0 := by
            have := hr3 i
            rw [f0] at this
            have : quarks ps i ≠ 0 := by
              intro hzq
              unfold quarks at hzq
              have := List.single_le_sum (l := ps.map fun id => if id > 0 then ((constituents id).count (i.val + 1) : Int) else 0)
                (by intro x hx
                    obtain ⟨id, _, rfl⟩ := List.mem_map.mp hx
                    split_ifs <;> omega) _ (List.mem_map.mpr ⟨id, hid, rfl⟩)
              rw [if_pos hpos] at this
              omega
            omega
          obtain ⟨id', hid', hp', hc'⟩ := quarks_pos hq
          have := f1' id' hid' i hc'
          rw [if_pos hp'] at this
          exact this
        · rw [if_neg hpos]
          have hq : antiquarks r.1 i ≠ 0 := by
            have := hr4 i
            rw [f0] at this
            have : antiquarks ps i ≠ 0 := by
              intro hzq
              unfold antiquarks at hzq
              have := List.single_le_sum (l := ps.map fun id => if id > 0 then 0 else ((constituents id).count (i.val + 1) : Int))
                (by intro x hx
                    obtain ⟨id, _, rfl⟩ := List.mem_map.mp hx
                    split_ifs <;> omega) _ (List.mem_map.mpr ⟨id, hid, rfl⟩)
              rw [if_neg hpos] at this
              omega
            omega
          obtain ⟨id', hid', hp', hc'⟩ := antiquarks_pos hq
          have := f1' id' hid' i hc'
          rw [if_neg hp'] at this
          exact this

end Verif.Frag
