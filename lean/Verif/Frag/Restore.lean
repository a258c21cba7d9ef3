import Verif.Frag.Flavour
import Mathlib.Order.Basic
import Mathlib.Algebra.Order.Ring.Rat
/-
C86, continued: excesses of the incoming hadrons, their rearrangement, and the whole procedure.
-/
set_option linter.unusedSimpArgs false
set_option linter.unnecessarySeqFocus false
set_option linter.unusedVariables false
namespace Verif.Frag

/-! ### The excesses -/

theorem count1_pos {q : Int} (h : q.natAbs ≤ 5) (amt : Int) (e : Flav) :
    count1 q true amt e = some fun j => e j + if q = (j : Int) + 1 then amt else 0 := by
  unfold count1
  simp only [if_true]
  by_cases hq : q > 0
  · rw [if_pos hq, dif_pos (by omega)]
    congr 1
    funext j
    by_cases hj : j = ⟨q.natAbs - 1, by omega⟩
    · subst hj; rw [Function.update_self, if_pos (by simp; omega)]
    · rw [Function.update_of_ne hj, if_neg, add_zero]
      intro hc
      exact hj (Fin.ext (by simp; omega))
  · rw [if_neg hq]
    congr 1
    funext j
    rw [if_neg (by omega), add_zero]

theorem count1_neg {q : Int} (h : q.natAbs ≤ 5) (amt : Int) (e : Flav) :
    count1 q false amt e = some fun j => e j + if q = -((j : Int) + 1) then amt else 0 := by
  unfold count1
  simp only [Bool.false_eq_true, if_false]
  by_cases hq : q < 0
  · rw [if_pos hq, dif_pos (by omega)]
    congr 1
    funext j
    by_cases hj : j = ⟨q.natAbs - 1, by omega⟩
    · subst hj; rw [Function.update_self, if_pos (by simp; omega)]
    · rw [Function.update_of_ne hj, if_neg, add_zero]
      intro hc
      exact hj (Fin.ext (by simp; omega))
  · rw [if_neg hq]
    congr 1
    funext j
    rw [if_neg (by omega), add_zero]

/-- The entries of a quark content are 0 or one of the five flavours. -/
def FiveFlavours (c : Int × Int × Int) : Prop :=
  c.1.natAbs ≤ 5 ∧ c.2.1.natAbs ≤ 5 ∧ c.2.2.natAbs ≤ 5

theorem nq_eq (c : Int × Int × Int) (j : Fin 5) :
    nq c j = (if c.1 = (j : Int) + 1 then 1 else 0) + (if c.2.1 = (j : Int) + 1 then 1 else 0) +
      (if c.2.2 = (j : Int) + 1 then 1 else 0) := by
  unfold nq
  simp only [List.count_cons, List.count_nil]
  by_cases h1 : c.1 = (j : Int) + 1 <;> by_cases h2 : c.2.1 = (j : Int) + 1 <;>
    by_cases h3 : c.2.2 = (j : Int) + 1 <;> simp [h1, h2, h3]

theorem na_eq (c : Int × Int × Int) (j : Fin 5) :
    na c j = (if c.1 = -((j : Int) + 1) then 1 else 0) + (if c.2.1 = -((j : Int) + 1) then 1 else 0) +
      (if c.2.2 = -((j : Int) + 1) then 1 else 0) := by
  unfold na
  simp only [List.count_cons, List.count_nil]
  generalize -((j : Int) + 1) = k
  by_cases h1 : c.1 = k <;> by_cases h2 : c.2.1 = k <;> by_cases h3 : c.2.2 = k <;>
    simp [h1, h2, h3]

/-- C86: the excess is the difference between the quark contents of the actual and of the mapped
hadron, separately for quarks and antiquarks of each flavour. -/
theorem C86_excess {a m : Int × Int × Int} (ha : FiveFlavours a) (hm : FiveFlavours m) :
    findExcess a m = some (fun j => nq a j - nq m j, fun j => na a j - na m j) := by
  unfold findExcess
  obtain ⟨a1, a2, a3⟩ := ha
  obtain ⟨m1, m2, m3⟩ := hm
  simp only [count1_pos a1, count1_pos a2, count1_pos a3, count1_pos m1, count1_pos m2, count1_pos m3,
    count1_neg a1, count1_neg a2, count1_neg a3, count1_neg m1, count1_neg m2, count1_neg m3,
    Option.bind_eq_bind, Option.bind_some, Option.pure_def]
  congr 2
  · funext j
    rw [nq_eq, nq_eq]
    simp only [Pi.zero_apply]
    split_ifs <;> omega
  · funext j
    rw [na_eq, na_eq]
    simp only [Pi.zero_apply]
    split_ifs <;> omega

example : findExcess (3, 2, 2) (2, 2, 1) =
    some (fun j => if j = 0 then -1 else if j = 2 then 1 else 0, 0) := by
  rw [C86_excess ⟨by decide, by decide, by decide⟩ ⟨by decide, by decide, by decide⟩]
  refine congrArg some (Prod.ext ?_ ?_) <;> funext j <;> fin_cases j <;> rfl

/-! ### Rearrangement of the excesses -/

theorem tot_update (e : Flav) (k : Fin 5) (v : Int) : tot (Function.update e k v) + e k = tot e + v := by
  unfold tot
  fin_cases k <;> simp [Fin.sum_univ_five, Function.update] <;> omega

theorem other_spec {e : Flav} {i j : Fin 5} (h : otherFlavour e i = some j) : j ≠ i ∧ e j > 0 := by
  have := List.find?_some h
  simpa using this

theorem other_none {e : Flav} {i : Fin 5} (h : otherFlavour e i = none) : ∀ j, j ≠ i → e j ≤ 0 := by
  intro j hj
  have := List.find?_eq_none.mp h j (List.mem_finRange j)
  simp at this
  exact this hj

theorem shiftOne_spec (i : Fin 5) (x : Excess) :
    (∀ j, (shiftOne i x).quark j - (shiftOne i x).antiq j = x.quark j - x.antiq j) ∧
    (shiftOne i x).quark i = x.quark i + 1 ∧
    (Balanced x → x.quark i < 0 → Balanced (shiftOne i x)) := by
  unfold shiftOne
  dsimp only
  cases ho : otherFlavour (Function.update x.quark i (x.quark i + 1)) i with
  | none =>
    dsimp only
    refine ⟨?_, Function.update_self .., ?_⟩
    · intro j
      by_cases hj : j = i
      · subst hj; rw [Function.update_self, Function.update_self]; omega
      · rw [Function.update_of_ne hj, Function.update_of_ne hj]
    · intro hb hi
      exfalso
      obtain ⟨k, hk, hp⟩ := exists_pos hb.1 hi
      have := other_none ho k hk
      rw [Function.update_of_ne hk] at this
      omega
  | some j =>
    obtain ⟨hj, hp⟩ := other_spec ho
    dsimp only
    refine ⟨?_, ?_, ?_⟩
    · intro k
      by_cases hk : k = j
      · subst hk
        rw [Function.update_self, Function.update_self, Function.update_of_ne hj, Function.update_of_ne hj]
        omega
      · rw [Function.update_of_ne hk, Function.update_of_ne hk]
        by_cases hki : k = i
        · subst hki; rw [Function.update_self, Function.update_self]; omega
        · rw [Function.update_of_ne hki, Function.update_of_ne hki]
    · rw [Function.update_of_ne (Ne.symm hj), Function.update_self]
    · intro hb hi
      unfold Balanced at hb ⊢
      dsimp only
      have t1 := tot_update x.quark i (x.quark i + 1)
      have t2 := tot_update (Function.update x.quark i (x.quark i + 1)) j
        (Function.update x.quark i (x.quark i + 1) j - 1)
      have t3 := tot_update x.antiq i (x.antiq i + 1)
      have t4 := tot_update (Function.update x.antiq i (x.antiq i + 1)) j
        (Function.update x.antiq i (x.antiq i + 1) j - 1)
      constructor <;> omega

theorem shiftMany_spec (i : Fin 5) (T : Int) (hT : 0 ≤ T) : ∀ (n : Nat) (x : Excess × Excess),
    (∀ j, (shiftMany i n x).1.quark j - (shiftMany i n x).1.antiq j = x.1.quark j - x.1.antiq j ∧
      (shiftMany i n x).2.quark j - (shiftMany i n x).2.antiq j = x.2.quark j - x.2.antiq j) ∧
    (shiftMany i n x).1.quark i + (shiftMany i n x).2.quark i = x.1.quark i + x.2.quark i + n ∧
    (Balanced x.1 → Balanced x.2 → T + x.1.quark i + x.2.quark i + n ≤ 0 →
      Balanced (shiftMany i n x).1 ∧ Balanced (shiftMany i n x).2) := by
  intro n
  induction n with
  | zero => intro x; exact ⟨fun j => ⟨rfl, rfl⟩, by simp [shiftMany], fun h0 h1 _ => ⟨h0, h1⟩⟩
  | succ n ih =>
    rintro ⟨x0, x1⟩
    simp only [shiftMany]
    by_cases h : x0.quark i < 0
    · rw [if_pos h]
      obtain ⟨s1, s2, s3⟩ := shiftOne_spec i x0
      obtain ⟨t1, t2, t3⟩ := ih (shiftOne i x0, x1)
      dsimp only at t1 t2 t3
      refine ⟨fun j => ⟨by rw [(t1 j).1, s1 j], (t1 j).2⟩, by omega, ?_⟩
      intro b0 b1 hn
      exact t3 (s3 b0 h) b1 (by omega)
    · rw [if_neg h]
      obtain ⟨s1, s2, s3⟩ := shiftOne_spec i x1
      obtain ⟨t1, t2, t3⟩ := ih (x0, shiftOne i x1)
      dsimp only at t1 t2 t3
      refine ⟨fun j => ⟨(t1 j).1, by rw [(t1 j).2, s1 j]⟩, by omega, ?_⟩
      intro b0 b1 hn
      exact t3 b0 (s3 b1 (by omega)) (by omega)

theorem rearrange1_spec (T : Flav) (hT : ∀ j, 0 ≤ T j) (x : Excess × Excess) (i : Fin 5) :
    (∀ j, (rearrange1 T x i).1.quark j - (rearrange1 T x i).1.antiq j = x.1.quark j - x.1.antiq j ∧
      (rearrange1 T x i).2.quark j - (rearrange1 T x i).2.antiq j = x.2.quark j - x.2.antiq j) ∧
    (Balanced x.1 → Balanced x.2 → Balanced (rearrange1 T x i).1 ∧ Balanced (rearrange1 T x i).2) := by
  unfold rearrange1
  dsimp only
  by_cases h : T i + x.1.quark i + x.2.quark i ≥ 0
  · rw [if_pos h]; exact ⟨fun j => ⟨rfl, rfl⟩, fun h0 h1 => ⟨h0, h1⟩⟩
  · rw [if_neg h]
    obtain ⟨s1, s2, s3⟩ := shiftMany_spec i (T i) (hT i) (T i + x.1.quark i + x.2.quark i).natAbs x
    exact ⟨s1, fun b0 b1 => s3 b0 b1 (by omega)⟩

/-- C86: rearranging the excesses changes neither the net flavour each hadron asks for nor the
balance of the excesses. -/
theorem C86_rearrange (T : Flav) (hT : ∀ j, 0 ≤ T j) (x : Excess × Excess) :
    (∀ j, (rearrange T x).1.quark j - (rearrange T x).1.antiq j = x.1.quark j - x.1.antiq j ∧
      (rearrange T x).2.quark j - (rearrange T x).2.antiq j = x.2.quark j - x.2.antiq j) ∧
    (Balanced x.1 → Balanced x.2 → Balanced (rearrange T x).1 ∧ Balanced (rearrange T x).2) := by
  unfold rearrange
  generalize List.finRange 5 = l
  induction l generalizing x with
  | nil => exact ⟨fun j => ⟨rfl, rfl⟩, fun h0 h1 => ⟨h0, h1⟩⟩
  | cons i l ih =>
    rw [List.foldl_cons]
    obtain ⟨a1, a2⟩ := rearrange1_spec T hT x i
    obtain ⟨b1, b2⟩ := ih (rearrange1 T x i)
    refine ⟨fun j => ⟨?_, ?_⟩, fun h0 h1 => ?_⟩
    · rw [(b1 j).1, (a1 j).1]
    · rw [(b1 j).2, (a1 j).2]
    · exact b2 (a2 h0 h1).1 (a2 h0 h1).2

/-! ### Numbers of constituents -/

theorem nQuarks_eq {id : Int} (h : Parton id) (j : Fin 5) :
    nQuarksInCode id j = ((constituents id).count (j.val + 1) : Int) := by
  rcases h with h | h | h
  · rw [cnt_none h]; unfold nQuarksInCode; simp [h.1, h.2]
  · rw [cnt_quark h]
    have : isQuark id = true := by unfold isQuark; simp; omega
    unfold nQuarksInCode unit
    rw [if_pos this]
  · have hd : 1000 < id.natAbs ∧ id.natAbs < 10000 ∧ id.natAbs / 10 % 10 = 0 := ⟨h.1, h.2.1, h.2.2.1⟩
    rw [cnt_diquark hd]
    have h1 : isQuark id = false := by unfold isQuark; simp; omega
    have h2 : isDiquark id = true := by unfold isDiquark; simp; omega
    unfold nQuarksInCode
    rw [if_neg (by simp [h1]), if_pos h2]
    have : id.natAbs / 1000 % 10 = id.natAbs / 1000 := by omega
    rw [this]

theorem findTotal_spec : ∀ {ps : List Int}, (∀ id ∈ ps, Parton id) →
    findTotal ps = (fun j => quarks ps j, fun j => antiquarks ps j)
  | [], _ => rfl
  | id :: l, h => by
    simp only [findTotal]
    rw [findTotal_spec (fun a ha => h a (List.mem_cons_of_mem _ ha))]
    have hn := nQuarks_eq (h id (List.mem_cons_self ..))
    by_cases hp : id > 0
    · rw [if_pos hp]
      refine Prod.ext ?_ ?_ <;> funext j
      · simp only [Pi.add_apply, hn j, quarks, List.map_cons, List.sum_cons, if_pos hp]; omega
      · simp only [antiquarks, List.map_cons, List.sum_cons, if_pos hp, zero_add]
    · rw [if_neg hp]
      refine Prod.ext ?_ ?_ <;> funext j
      · simp only [quarks, List.map_cons, List.sum_cons, if_neg hp, zero_add]
      · simp only [Pi.add_apply, hn j, antiquarks, List.map_cons, List.sum_cons, if_neg hp]; omega

/-! ### The whole procedure -/

/-- The excesses used by the loop: those given or the rearranged ones. -/
theorem adjusted_spec (split : Bool) {ps : List Int} (hp : ∀ id ∈ ps, Parton id) (x : Excess × Excess)
    {y : Excess × Excess}
    (hy : y = if split then x else
      let z := rearrange (findTotal ps).1 x
      let w := rearrange (findTotal ps).2 (⟨z.1.antiq, z.1.quark⟩, ⟨z.2.antiq, z.2.quark⟩)
      (⟨w.1.antiq, w.1.quark⟩, ⟨w.2.antiq, w.2.quark⟩)) :
    (netExcess y.1 y.2 = netExcess x.1 x.2) ∧
    (Balanced x.1 → Balanced x.2 → Balanced y.1 ∧ Balanced y.2) := by
  cases split with
  | true => simp at hy; subst hy; exact ⟨rfl, fun h0 h1 => ⟨h0, h1⟩⟩
  | false =>
    simp only [Bool.false_eq_true, if_false] at hy
    have hT1 : ∀ j, 0 ≤ (findTotal ps).1 j := fun j => by
      rw [findTotal_spec hp]; exact quarks_nonneg ps j
    have hT2 : ∀ j, 0 ≤ (findTotal ps).2 j := fun j => by
      rw [findTotal_spec hp]; exact antiquarks_nonneg ps j
    obtain ⟨a1, a2⟩ := C86_rearrange _ hT1 x
    generalize rearrange (findTotal ps).1 x = z at hy a1 a2
    obtain ⟨b1, b2⟩ := C86_rearrange _ hT2 (⟨z.1.antiq, z.1.quark⟩, ⟨z.2.antiq, z.2.quark⟩)
    generalize rearrange (findTotal ps).2 (⟨z.1.antiq, z.1.quark⟩, ⟨z.2.antiq, z.2.quark⟩) = w at hy b1 b2
    subst hy
    refine ⟨?_, ?_⟩
    · funext j
      have := a1 j
      have := b1 j
      unfold netExcess
      dsimp only at *
      omega
    · intro h0 h1
      obtain ⟨c0, c1⟩ := a2 h0 h1
      obtain ⟨d0, d1⟩ := b2 ⟨c0.2, c0.1⟩ ⟨c1.2, c1.1⟩
      exact ⟨⟨d0.2, d0.1⟩, ⟨d1.2, d1.1⟩⟩

/-- The excesses found for two hadrons. -/
def excesses (a0 m0 a1 m1 : Int × Int × Int) : Option (Excess × Excess) := do
  let e0 ← findExcess a0 m0
  let e1 ← findExcess a1 m1
  pure (⟨e0.1, e0.2⟩, ⟨e1.1, e1.2⟩)

/-- The mapped hadron has as many quarks and as many antiquarks as the actual one. -/
def SameNumbers (a m : Int × Int × Int) : Prop :=
  ∑ j, nq a j = ∑ j, nq m j ∧ ∑ j, na a j = ∑ j, na m j

theorem excesses_spec {a0 m0 a1 m1 : Int × Int × Int} {x : Excess × Excess}
    (h : FiveFlavours a0 ∧ FiveFlavours m0 ∧ FiveFlavours a1 ∧ FiveFlavours m1)
    (hx : excesses a0 m0 a1 m1 = some x) (s0 : SameNumbers a0 m0) (s1 : SameNumbers a1 m1) :
    Balanced x.1 ∧ Balanced x.2 ∧
    ∀ j, netExcess x.1 x.2 j = (nq a0 j - na a0 j) - (nq m0 j - na m0 j) +
      ((nq a1 j - na a1 j) - (nq m1 j - na m1 j)) := by
  unfold excesses at hx
  rw [C86_excess h.1 h.2.1, C86_excess h.2.2.1 h.2.2.2] at hx
  simp only [Option.bind_eq_bind, Option.bind_some, Option.pure_def, Option.some.injEq] at hx
  subst hx
  refine ⟨⟨?_, ?_⟩, ⟨?_, ?_⟩, fun j => ?_⟩
  · simp only [tot, Finset.sum_sub_distrib]; rw [s0.1]; omega
  · simp only [tot, Finset.sum_sub_distrib]; rw [s0.2]; omega
  · simp only [tot, Finset.sum_sub_distrib]; rw [s1.1]; omega
  · simp only [tot, Finset.sum_sub_distrib]; rw [s1.2]; omega
  · unfold netExcess; dsimp only; omega

theorem restore_eq (o : Nat → Oracle × Oracle) (fuel : Nat) (split : Bool) {ps : List Int}
    (hp : ∀ id ∈ ps, Parton id) (x : Excess × Excess) (hb : Balanced x.1 ∧ Balanced x.2) :
    ∃ y : Excess × Excess, (split = true → y = x) ∧ netExcess y.1 y.2 = netExcess x.1 x.2 ∧
      Balanced y.1 ∧ Balanced y.2 ∧
      restore o fuel split ps x = (if ∃ j, quarks ps j + y.1.quark j + y.2.quark j < 0 ∨
          antiquarks ps j + y.1.antiq j + y.2.antiq j < 0 then some none
        else (restoreLoop o fuel ps y.1 y.2).map fun r => some (r.map fun r => r.1)) := by
  refine ⟨_, ?_, (adjusted_spec split hp x rfl).1, ((adjusted_spec split hp x rfl).2 hb.1 hb.2).1,
    ((adjusted_spec split hp x rfl).2 hb.1 hb.2).2, ?_⟩
  · intro h; rw [if_pos h]
  · unfold restore
    simp only [findTotal_spec hp]

/-- C86: when the procedure succeeds, the net flavour of the partons is that of the actual incoming
hadrons, for every number of partons, every choice of the most forward parton and of the flavours,
given that the event had the net flavour of the mapped hadrons; and the number of partons is
unchanged. -/
theorem C86_restored (o : Nat → Oracle × Oracle) (fuel : Nat) (split : Bool) {ps ps' : List Int}
    (hp : ∀ id ∈ ps, Parton id) {a0 m0 a1 m1 : Int × Int × Int} {x : Excess × Excess}
    (h : FiveFlavours a0 ∧ FiveFlavours m0 ∧ FiveFlavours a1 ∧ FiveFlavours m1)
    (hx : excesses a0 m0 a1 m1 = some x) (s0 : SameNumbers a0 m0) (s1 : SameNumbers a1 m1)
    (hnet : ∀ j, quarks ps j - antiquarks ps j = (nq m0 j - na m0 j) + (nq m1 j - na m1 j))
    (hr : restore o fuel split ps x = some (some (some ps'))) :
    ps'.length = ps.length ∧ (∀ id ∈ ps', Parton id) ∧
    ∀ j, quarks ps' j - antiquarks ps' j = (nq a0 j - na a0 j) + (nq a1 j - na a1 j) := by
  obtain ⟨b0, b1, hn⟩ := excesses_spec h hx s0 s1
  obtain ⟨y, -, hy, c0, c1, he⟩ := restore_eq o fuel split hp x ⟨b0, b1⟩
  rw [he] at hr
  split_ifs at hr
  · simp at hr
  have : ∃ r', restoreLoop o fuel ps y.1 y.2 = some (some r') ∧ r'.1 = ps' := by
    cases hl : restoreLoop o fuel ps y.1 y.2 with
    | none => rw [hl] at hr; simp at hr
    | some r =>
      cases r with
      | none => rw [hl] at hr; simp at hr
      | some r => rw [hl] at hr; simp at hr; exact ⟨r, rfl, hr⟩
  obtain ⟨r', hr', rfl⟩ := this
  obtain ⟨d1, d2, d3, d4⟩ := (loop_spec o fuel ps y.1 y.2 hp c0 c1).2.1 r' hr'
  refine ⟨d2, d1, fun j => ?_⟩
  have e1 := d4 j
  have e2 := congrFun d3 j
  have e3 := congrFun hy j
  have e4 := hn j
  have e5 := hnet j
  unfold netExcess at e2 e3 e4
  simp only [Pi.zero_apply] at e2
  omega

/-- C86: the procedure ends, with an answer and without an access outside of an array, whatever is
drawn. -/
theorem C86_terminates (split : Bool) {ps : List Int}
    (hp : ∀ id ∈ ps, Parton id) {a0 m0 a1 m1 : Int × Int × Int}
    (h : FiveFlavours a0 ∧ FiveFlavours m0 ∧ FiveFlavours a1 ∧ FiveFlavours m1)
    (s0 : SameNumbers a0 m0) (s1 : SameNumbers a1 m1) :
    ∃ x, excesses a0 m0 a1 m1 = some x ∧ ∃ N, ∀ o, ∀ fuel ≥ N,
      restore o fuel split ps x = some none ∨ ∃ ps', restore o fuel split ps x = some (some (some ps')) := by
  have hx : ∃ x, excesses a0 m0 a1 m1 = some x := by
    unfold excesses
    rw [C86_excess h.1 h.2.1, C86_excess h.2.2.1 h.2.2.2]
    exact ⟨_, rfl⟩
  obtain ⟨x, hx⟩ := hx
  obtain ⟨b0, b1, hn⟩ := excesses_spec h hx s0 s1
  refine ⟨x, hx, ?_⟩
  have hadj : ∃ y : Excess × Excess, Balanced y.1 ∧ Balanced y.2 ∧ ∀ o fuel,
      restore o fuel split ps x = (if ∃ j, quarks ps j + y.1.quark j + y.2.quark j < 0 ∨
          antiquarks ps j + y.1.antiq j + y.2.antiq j < 0 then some none
        else (restoreLoop o fuel ps y.1 y.2).map fun r => some (r.map fun r => r.1)) := by
    refine ⟨_, ((adjusted_spec split hp x rfl).2 b0 b1).1, ((adjusted_spec split hp x rfl).2 b0 b1).2, ?_⟩
    intro o fuel
    unfold restore
    simp only [findTotal_spec hp]
  obtain ⟨y, c0, c1, he⟩ := hadj
  refine ⟨szX y.1 + szX y.2 + 1, fun o fuel hf => ?_⟩
  rw [he]
  by_cases hc : ∃ j, quarks ps j + y.1.quark j + y.2.quark j < 0 ∨
      antiquarks ps j + y.1.antiq j + y.2.antiq j < 0
  · rw [if_pos hc]; exact Or.inl rfl
  · rw [if_neg hc]
    obtain ⟨⟨r, hr⟩, -, hl⟩ := loop_spec o fuel ps y.1 y.2 hp c0 c1
    have hne := hl (fun j => by
      push Not at hc
      have := hc j
      constructor <;> omega) (by omega)
    right
    cases r with
    | none => exact absurd hr hne
    | some r => rw [hr]; exact ⟨r.1, rfl⟩

/-- C86: with enough gluons the procedure refuses exactly when some flavour would have to be removed
more often than there are constituents of it. -/
theorem C86_refused (o : Nat → Oracle × Oracle) (fuel : Nat) {ps : List Int}
    (hp : ∀ id ∈ ps, Parton id) {a0 m0 a1 m1 : Int × Int × Int} {x : Excess × Excess}
    (h : FiveFlavours a0 ∧ FiveFlavours m0 ∧ FiveFlavours a1 ∧ FiveFlavours m1)
    (hx : excesses a0 m0 a1 m1 = some x) (s0 : SameNumbers a0 m0) (s1 : SameNumbers a1 m1) :
    restore o fuel true ps x = some none ↔
      ∃ j, quarks ps j + (nq a0 j + nq a1 j) < nq m0 j + nq m1 j ∨
        antiquarks ps j + (na a0 j + na a1 j) < na m0 j + na m1 j := by
  obtain ⟨b0, b1, hn⟩ := excesses_spec h hx s0 s1
  obtain ⟨y, hyx, hy, c0, c1, he⟩ := restore_eq o fuel true hp x ⟨b0, b1⟩
  have := hyx rfl
  subst this
  unfold excesses at hx
  rw [C86_excess h.1 h.2.1, C86_excess h.2.2.1 h.2.2.2] at hx
  simp only [Option.bind_eq_bind, Option.bind_some, Option.pure_def, Option.some.injEq] at hx
  subst hx
  rw [he]
  dsimp only
  constructor
  · intro hr
    split_ifs at hr with hc
    · obtain ⟨j, hj⟩ := hc; exact ⟨j, by omega⟩
    · simp at hr
  · rintro ⟨j, hj⟩
    rw [if_pos ⟨j, by omega⟩]

/-! A K- p collision mapped to pi- p; the event: a string with a gluon. -/
example : (∀ id ∈ ([2, 21, 2101, 1, -2] : List Int), Parton id) ∧
    FiveFlavours (0, 3, -2) ∧ FiveFlavours (0, 1, -2) ∧ FiveFlavours (2, 2, 1) ∧
    SameNumbers (0, 3, -2) (0, 1, -2) ∧ SameNumbers (2, 2, 1) (2, 2, 1) ∧
    ∀ j, quarks [2, 21, 2101, 1, -2] j - antiquarks [2, 21, 2101, 1, -2] j =
      (nq (0, 1, -2) j - na (0, 1, -2) j) + (nq (2, 2, 1) j - na (2, 2, 1) j) := by
  refine ⟨?_, by unfold FiveFlavours; decide, by unfold FiveFlavours; decide,
    by unfold FiveFlavours; decide, by unfold SameNumbers; decide, by unfold SameNumbers; decide, by decide⟩
  intro id hid
  simp only [List.mem_cons, List.not_mem_nil, or_false] at hid
  rcases hid with rfl | rfl | rfl | rfl | rfl <;> unfold Parton isQuark isDiquark <;> decide

/-! ### Splitting of gluons -/

/-- C86: splitting a gluon leaves the net flavour unchanged. -/
theorem C86_split (ps : List Int) (i : Nat) (hg : ps[i]? = some 21) (k : Fin 5) (j : Fin 5) :
    quarks (ps.eraseIdx i ++ [(k : Int) + 1, -((k : Int) + 1)]) j -
      antiquarks (ps.eraseIdx i ++ [(k : Int) + 1, -((k : Int) + 1)]) j =
    quarks ps j - antiquarks ps j := by
  have hperm := perm_erase hg
  have e1 := quarks_perm hperm j
  have e2 := antiquarks_perm hperm j
  rw [show ((21 : Int) :: ps.eraseIdx i) = [21] ++ ps.eraseIdx i from rfl] at e1 e2
  rw [quarks_append, quarks_single] at e1
  rw [antiquarks_append, antiquarks_single] at e2
  have h21 : constituents 21 = [] := by decide
  have g1 : q1 21 j = 0 := by unfold q1; rw [h21]; simp
  have g2 : a1 21 j = 0 := by unfold a1; rw [h21]; simp
  have g3 : quarks [(k : Int) + 1, -((k : Int) + 1)] j =
      antiquarks [(k : Int) + 1, -((k : Int) + 1)] j := by
    clear e1 e2 g1 g2
    revert j k; decide
  rw [quarks_append, antiquarks_append]
  omega

theorem search_spec (l : List Entry) : ∀ b : Entry, searchGluon b l ∈ b :: l ∧
    b.y ≤ (searchGluon b l).y ∧ ∀ e ∈ l, e.gluon → e.y ≤ (searchGluon b l).y := by
  induction l with
  | nil => intro b; simp [searchGluon]
  | cons e l ih =>
    intro b
    simp only [searchGluon]
    by_cases h : e.gluon ∧ e.y > b.y
    · rw [if_pos h]
      obtain ⟨h1, h2, h3⟩ := ih e
      refine ⟨List.mem_cons_of_mem _ h1, le_trans (le_of_lt h.2) h2, ?_⟩
      intro x hx hg
      rcases List.mem_cons.mp hx with rfl | hx
      · exact h2
      · exact h3 x hx hg
    · rw [if_neg h]
      obtain ⟨h1, h2, h3⟩ := ih b
      refine ⟨?_, h2, ?_⟩
      · rcases List.mem_cons.mp h1 with h1 | h1
        · rw [h1]; exact List.mem_cons_self ..
        · exact List.mem_cons_of_mem _ (List.mem_cons_of_mem _ h1)
      · intro x hx hg
        rcases List.mem_cons.mp hx with rfl | hx
        · exact le_trans (not_lt.mp fun hc => h ⟨hg, hc⟩) h2
        · exact h3 x hx hg

/-- C86: the gluon that is split is the most forward one of the event. -/
theorem C86_gluon {first g : Entry} {others : List Entry} (h : gluonToSplit first others = some g) :
    g ∈ first :: others ∧ g.gluon = true ∧ ∀ e ∈ first :: others, e.gluon → e.y ≤ g.y := by
  unfold gluonToSplit at h
  dsimp only at h
  split_ifs at h with hg
  simp only [Option.some.injEq] at h
  subst h
  obtain ⟨h1, h2, h3⟩ := search_spec others first
  refine ⟨h1, hg, fun e he hge => ?_⟩
  rcases List.mem_cons.mp he with rfl | he
  · exact h2
  · exact h3 e he hge

/-- C86 is false in one respect: a gluon in the event is not found if the first parton is a quark
with a larger rapidity. -/
theorem C86_gluon_false : ∃ first others, (∃ e ∈ others, e.gluon = true) ∧
    gluonToSplit first others = none :=
  ⟨⟨false, 2⟩, [⟨true, 1⟩], ⟨_, List.mem_cons_self .., rfl⟩, by decide⟩

example : gluonToSplit ⟨false, 0⟩ [⟨true, 1⟩, ⟨false, 3⟩, ⟨true, 2⟩] = some ⟨true, 2⟩ := by
  simp [gluonToSplit, searchGluon]

end Verif.Frag
