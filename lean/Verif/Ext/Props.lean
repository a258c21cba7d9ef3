import Verif.Ext.Model
import Mathlib.Tactic.SplitIfs
import Mathlib.Tactic.NormNum
import Mathlib.Tactic.Linarith
import Mathlib.Tactic.Ring
import Mathlib.Data.List.Perm.Basic
import Mathlib.Data.List.Perm.Subperm
import Mathlib.Data.List.Nodup
/-! C159: particles handed over by another program are added and removed as asked. -/
namespace Verif.Ext
open Verif.Kin Verif.Act Verif.Fluid

/-! ### Specification -/

/-- Numbers, and a momentum that belongs to a particle. -/
def Physical (i : Input) : Prop :=
  i.nanPos = false ∧ i.nanMom = false ∧ (i.p.pole < 1 / 1000000 ∨ -(1 / 1000000) < i.p.mom.sqr)

/-- A hadron of the list of particle types. -/
def Known (T : Types) (i : Input) : Prop :=
  T.kaonSL i.p.type = false ∧ ∃ ty, T.find i.p.type = some ty ∧ ty.poleMass = i.p.pole

/-- The mass of a given particle. -/
noncomputable def mass (i : Input) : ℝ := if i.p.pole < 1 / 1000000 then i.p.pole else Real.sqrt |i.p.mom.sqr|

/-- The given particle with its energy corrected (see `C159_momentum` for what this means). -/
noncomputable def adjusted (T : Types) (i : Input) : FP :=
  { i.p with
    mom := match T.find i.p.type with
      | some ty => Verif.Lst.chooseMom ty (mass i) i.p.mom
      | none => i.p.mom
    scale := 1 }

/-- `q` is the given particle at time `t`, on the straight line through its given position. -/
structure Arrived (T : Types) (t : ℝ) (i : Input) (q : FP) : Prop where
  type : q.type = i.p.type
  pole : q.pole = i.p.pole
  mom : q.mom = (adjusted T i).mom
  time : q.pos.t = t
  x : q.pos.x = i.p.pos.x + q.mom.x / q.mom.t * (t - i.p.pos.t)
  y : q.pos.y = i.p.pos.y + q.mom.y / q.mom.t * (t - i.p.pos.t)
  z : q.pos.z = i.p.pos.z + q.mom.z / q.mom.t * (t - i.p.pos.t)
  core : q.core = i.p.core

/-- The particle `q` fits the particle given for removal. -/
def Fits (T : Types) (t : ℝ) (i : Input) (q : FP) : Prop := identical (adjusted T i) q t = true

/-- Agreement within the precision of the comparison. -/
def Near (x y : ℝ) : Prop :=
  |x - y| ≤ 1 / 1000000 ∨ |x - y| ≤ 1 / 10000 * max |x| |y| ∨ ((x = 0 ∨ y = 0) ∧ |x - y| ≤ 1 / 10000)

/-! ### Validation -/

theorem effectiveMass_ok (i : Input) (h : Physical i) : effectiveMass i = .ok (mass i) := by
  obtain ⟨_, h2, h3⟩ := h
  unfold effectiveMass mass
  split_ifs with c1 c2 c3
  · rfl
  · simp [h2] at c2
  · rfl
  · rcases h3 with h3 | h3
    · exact absurd h3 c1
    · exact absurd h3 c3

theorem validateOne_ok (T : Types) (coin : Bool) (i : Input) (h : Physical i) (hk : Known T i) :
    validateOne T coin i = .ok (some (adjusted T i)) := by
  unfold validateOne adjusted
  obtain ⟨hk1, ty, hk2, _⟩ := hk
  simp only [hk1, hk2, effectiveMass_ok i h, Verif.Lst.create, d4, h.1, h.2.1, Verif.Lst.D4.get, Bool.false_eq_true,
    if_false]

theorem validate_ok (T : Types) (coins : Nat → Bool) (l : List Input) (h : ∀ i ∈ l, Physical i ∧ Known T i) :
    validate T coins l = .ok (l.map (adjusted T)) := by
  induction l with
  | nil => rfl
  | cons i l ih =>
    rw [validate, validateOne_ok T _ i (h i (by simp)).1 (h i (by simp)).2]
    simp only [ih fun j hj => h j (by simp [hj])]
    rfl

/-! ### Sorting -/

theorem insertId_perm (p : FP) (l : List FP) : (insertId p l).Perm (p :: l) := by
  induction l with
  | nil => exact List.Perm.refl _
  | cons q l ih =>
    unfold insertId
    split_ifs
    · exact List.Perm.refl _
    · exact (ih.cons q).trans (List.Perm.swap p q l)

theorem sortId_perm (l : List FP) : (sortId l).Perm l := by
  induction l with
  | nil => exact List.Perm.refl _
  | cons p l ih => exact (insertId_perm _ _).trans (ih.cons p)

theorem insertId_sorted (p : FP) (l : List FP) (h : l.Pairwise fun a b => a.id ≤ b.id) :
    (insertId p l).Pairwise fun a b => a.id ≤ b.id := by
  induction l with
  | nil => simp [insertId]
  | cons q l ih =>
    rw [List.pairwise_cons] at h
    unfold insertId
    split_ifs with c
    · refine List.pairwise_cons.2 ⟨?_, List.pairwise_cons.2 h⟩
      intro r hr
      rcases List.mem_cons.1 hr with rfl | hr
      · exact c
      · exact le_trans c (h.1 r hr)
    · refine List.pairwise_cons.2 ⟨?_, ih h.2⟩
      intro r hr
      rcases List.mem_cons.1 ((insertId_perm p l).mem_iff.1 hr) with rfl | hr
      · exact le_of_not_ge c
      · exact h.1 r hr

theorem sortId_sorted (l : List FP) : (sortId l).Pairwise fun a b => a.id ≤ b.id := by
  induction l with
  | nil => exact List.Pairwise.nil
  | cons p l ih => exact insertId_sorted _ _ ih

theorem adjacent_iff (l : List FP) (h : l.Pairwise fun a b => a.id ≤ b.id) :
    adjacent l = false ↔ (l.map (·.id)).Nodup := by
  induction l with
  | nil => simp [adjacent]
  | cons p l ih =>
    cases l with
    | nil => simp [adjacent]
    | cons q l =>
      rw [List.pairwise_cons] at h
      have ih := ih h.2
      rw [adjacent, Bool.or_eq_false_iff, ih, List.map_cons (l := q :: l), List.nodup_cons]
      constructor
      · rintro ⟨h1, h2⟩
        refine ⟨?_, h2⟩
        intro hm
        have hlt : p.id < q.id := lt_of_le_of_ne (h.1 q (by simp)) (by simpa using h1)
        obtain ⟨r, hr, e⟩ := List.mem_map.1 hm
        have : q.id ≤ r.id := by
          rcases List.mem_cons.1 hr with rfl | hr
          · exact le_refl _
          · exact (List.pairwise_cons.1 h.2).1 r hr
        omega
      · rintro ⟨h1, h2⟩
        refine ⟨?_, h2⟩
        simp only [List.map_cons, List.mem_cons, not_or] at h1
        simpa using h1.1

theorem adjacent_sort (l : List FP) : adjacent (sortId l) = false ↔ (l.map (·.id)).Nodup := by
  rw [adjacent_iff _ (sortId_sorted l)]
  exact ((sortId_perm l).map _).nodup_iff

/-! ### The stages -/

theorem find_some (T : Types) (s : State) (t : ℝ) (i : Input) (q : FP) (h : findOne s t (adjusted T i) = some q) :
    q ∈ s.parts ∧ Fits T t i q :=
  ⟨List.mem_of_find?_eq_some h, List.find?_some (p := fun q => identical (adjusted T i) q t) h⟩

theorem find_none (T : Types) (s : State) (t : ℝ) (i : Input) (h : findOne s t (adjusted T i) = none) :
    ∀ q ∈ s.parts, ¬Fits T t i q :=
  fun q hq => List.find?_eq_none.1 h q hq

/-- A new particle with its id. -/
noncomputable def arrivedAs (T : Types) (t : ℝ) (i : Input) (n : Nat) : FP :=
  { performed .freeforall t
      { (adjusted T i).setFormation i.p.pos.t with pos := positionAt (adjusted T i) t } with id := n }

theorem arrivedAs_spec (T : Types) (t : ℝ) (i : Input) (n : Nat) :
    Arrived T t i (arrivedAs T t i n) ∧ (arrivedAs T t i n).id = n := by
  refine ⟨⟨rfl, rfl, rfl, ?_, ?_, ?_, ?_, rfl⟩, rfl⟩ <;>
    simp [arrivedAs, performed, positionAt, adjusted, FP.setFormation, V4.add, V4.velocity, V3.div, V3.smul, V4.vec,
      div_eq_mul_inv]

/-- The new particles. -/
noncomputable def newOnes (T : Types) (t : ℝ) (l : List Input) (n : Nat) : List FP :=
  l.mapIdx fun k i => arrivedAs T t i (n + k)

theorem add_ok (w : World) (coins : Nat → Bool) (s : State) (t : ℝ) (add : List Input)
    (hv : ∀ i ∈ add, Physical i ∧ Known w.T i) (hne : add ≠ []) (hp : ∀ l, w.pauli l = false) :
    addStage w coins s t add =
      (⟨w.arrange (s.parts ++ newOnes w.T t add s.next), s.next + add.length⟩, .ok ()) := by
  unfold addStage
  rw [validate_ok _ _ _ hv]
  have hne' : (add.map (adjusted w.T)).isEmpty = false := by
    cases add with
    | nil => exact absurd rfl hne
    | cons => rfl
  simp only [hne', Bool.false_eq_true, if_false, mkFree, ne_eq, not_true_eq_false, false_and, performAction, List.all_nil,
    Bool.true_eq_false, List.map_nil, coreGate, List.any_nil, blocked, hp, Bool.and_false, perform, Bool.not_false,
    List.filter_true, Free.finalState, List.length_mapIdx, List.length_map]
  congr 4
  unfold newOnes
  apply List.ext_getElem
  · simp
  · intro k h1 h2
    simp only [List.getElem_mapIdx, List.getElem_map]
    rfl

/-- What removing does once the particles are found. -/
theorem remove_ok (w : World) (coins : Nat → Bool) (s : State) (t : ℝ) (rem : List Input)
    (hv : ∀ i ∈ rem, Physical i ∧ Known w.T i) (hid : (s.parts.map (·.id)).Nodup)
    (hc : ∀ p ∈ s.parts, p.core = false)
    (hn : ((rem.filterMap fun i => findOne s t (adjusted w.T i)).map (·.id)).Nodup)
    (ho : ∀ l, (w.arrange l).Perm l) :
    ∃ s', removeStage w coins s t rem = (s', .ok ()) ∧ s'.next = s.next ∧
      s.parts.Perm (s'.parts ++ rem.filterMap fun i => findOne s t (adjusted w.T i)) := by
  classical
  set F := rem.filterMap fun i => findOne s t (adjusted w.T i) with hF
  have hF' : (rem.map (adjusted w.T)).filterMap (findOne s t) = F := by
    rw [List.filterMap_map]; rfl
  have hmem : ∀ q ∈ F, q ∈ s.parts := by
    intro q hq
    obtain ⟨i, _, e⟩ := List.mem_filterMap.1 hq
    exact List.mem_of_find?_eq_some e
  unfold removeStage
  rw [validate_ok _ _ _ hv]
  simp only [hF', (adjacent_sort F).2 hn, Bool.false_eq_true, if_false]
  by_cases he : (sortId F).isEmpty = true
  · rw [if_pos he]
    have : F = [] := by
      have := (sortId_perm F).length_eq
      rw [List.isEmpty_iff.1 he] at this
      exact List.eq_nil_of_length_eq_zero this.symm
    exact ⟨s, rfl, rfl, by rw [this]; simp⟩
  · rw [if_neg he]
    have h1 : (sortId F).all (fun p => s.parts.any fun q => q.id == p.id) = true := by
      rw [List.all_eq_true]
      intro p hp
      rw [List.any_eq_true]
      exact ⟨p, hmem p ((sortId_perm F).mem_iff.1 hp), by simp⟩
    have h2 : (List.map (fun p : FP => p.core) (sortId F)).any id = false := by
      rw [List.any_eq_false]
      intro b hb
      obtain ⟨p, hp, rfl⟩ := List.mem_map.1 hb
      simp [hc p (hmem p ((sortId_perm F).mem_iff.1 hp))]
    simp only [mkFree, ne_eq, not_true_eq_false, and_false, if_false, performAction, h1, Bool.true_eq_false, coreGate, h2,
      Bool.false_eq_true, blocked, Free.finalState, List.map_nil, List.filter_nil, List.isEmpty_nil, Bool.not_true,
      Bool.false_and, perform, List.mapIdx_nil, List.append_nil, List.length_nil, Nat.add_zero]
    refine ⟨_, rfl, rfl, ?_⟩
    have hnd : s.parts.Nodup := List.Nodup.of_map _ hid
    have hFn : F.Nodup := List.Nodup.of_map _ hn
    refine List.Perm.trans ?_ ((ho _).symm.append_right F)
    have hin : ∀ p ∈ s.parts, ((sortId F).any fun q => q.id == p.id) = decide (p ∈ F) := by
      intro p hp
      by_cases hpf : p ∈ F
      · simp only [hpf, decide_true]
        rw [List.any_eq_true]
        exact ⟨p, (sortId_perm F).mem_iff.2 hpf, by simp⟩
      · simp only [hpf, decide_false]
        rw [List.any_eq_false]
        intro q hq
        have hq := (sortId_perm F).mem_iff.1 hq
        simp only [beq_iff_eq]
        intro e
        have : q = p := List.inj_on_of_nodup_map hid (hmem q hq) hp e
        exact hpf (this ▸ hq)
    rw [List.filter_congr (q := fun p => !decide (p ∈ F)) (fun p hp => by rw [hin p hp])]
    have h3 : (s.parts.filter fun p => decide (p ∈ F)).Perm F :=
      (List.perm_ext_iff_of_nodup (hnd.filter _) hFn).2 fun p => by
        rw [List.mem_filter]
        simp only [decide_eq_true_eq]
        exact ⟨fun h => h.2, fun h => ⟨hmem p h, h⟩⟩
    exact ((List.filter_append_perm (fun p => decide (p ∈ F)) s.parts).symm.trans
      List.perm_append_comm).trans (h3.append_left _)

/-! ### Theorems -/

/-- **C159** (adding): all given particles are added, each on its own line at the present time, with new ids;
nothing else changes. -/
theorem C159_add_partial (w : World) (coins : Nat → Bool) (s : State) (t tEnd : ℝ) (add : List Input)
    (h1 : w.nEnsembles ≤ 1) (ho : ∀ l, (w.arrange l).Perm l) (hv : ∀ i ∈ add, Physical i ∧ Known w.T i)
    (hp : ∀ l, w.pauli l = false) (ht : tEnd ≤ w.endTime) :
    ∃ s' new, call w coins s t tEnd add [] = (s', .ok ()) ∧ s'.parts.Perm (s.parts ++ new) ∧
      List.Forall₂ (Arrived w.T t) add new ∧ new.map (·.id) = List.range' s.next add.length ∧
      s'.next = s.next + add.length := by
  by_cases hne : add = []
  · subst hne
    refine ⟨s, [], ?_, by simp, List.Forall₂.nil, rfl, rfl⟩
    simp [call, not_lt.2 ht]
  · refine ⟨⟨w.arrange (s.parts ++ newOnes w.T t add s.next), s.next + add.length⟩, newOnes w.T t add s.next, ?_, ho _,
      ?_, ?_, rfl⟩
    · have hb : (add.isEmpty && ([] : List Input).isEmpty) = false := by
        cases add with
        | nil => exact absurd rfl hne
        | cons => rfl
      unfold call
      rw [hb, add_ok w coins s t add hv hne hp]
      simp [not_lt.2 h1, removeStage, validate, sortId, adjacent, not_lt.2 ht]
    · rw [List.forall₂_iff_get]
      unfold newOnes
      refine ⟨by simp, fun k h1 h2 => ?_⟩
      simp only [List.get_eq_getElem, List.getElem_mapIdx]
      exact (arrivedAs_spec _ _ _ _).1
    · unfold newOnes
      apply List.ext_getElem
      · simp
      · intro k h1 h2
        simp [(arrivedAs_spec _ _ _ _).2]

/-- **C159** (energy): the three-momentum is kept. A stable particle gets the mass of the list of particle
types, a massless one too, and the momentum of a resonance is not changed. -/
theorem C159_momentum (T : Types) (i : Input) (h : Physical i) (hk : Known T i) (h0 : 0 ≤ i.p.pole)
    (ty : Verif.Lst.Ty) (hty : T.find i.p.type = some ty) :
    (adjusted T i).mom.vec = i.p.mom.vec ∧
    (1 / 1000000 ≤ i.p.pole → ty.stable = true → |Real.sqrt |(adjusted T i).mom.sqr| - i.p.pole| ≤ 1 / 1000000) ∧
    (i.p.pole < 1 / 1000000 → |(adjusted T i).mom.sqr - i.p.pole ^ 2| ≤ 1 / 1000000) ∧
    (1 / 1000000 ≤ i.p.pole → ty.stable = false → 0 ≤ i.p.mom.sqr → (adjusted T i).mom = i.p.mom) := by
  obtain ⟨_, ty', e, hpm⟩ := hk
  rw [hty] at e
  obtain rfl := Option.some.inj e
  have hon : ∀ (m : ℝ) (v : V3), (Verif.Lst.onShell m v).sqr = m ^ 2 ∧ (Verif.Lst.onShell m v).vec = v := by
    intro m v
    have : 0 ≤ m * m + (v.x * v.x + v.y * v.y + v.z * v.z) := by nlinarith [sq_nonneg m, sq_nonneg v.x, sq_nonneg v.y, sq_nonneg v.z]
    refine ⟨?_, rfl⟩
    simp only [Verif.Lst.onShell, V4.sqr, V4.dot, V4.mk', V4.vec, V3.dot]
    rw [Real.mul_self_sqrt this]
    ring
  have hm : (adjusted T i).mom = Verif.Lst.chooseMom ty (mass i) i.p.mom := by
    simp only [adjusted, hty]
  rw [hm]
  unfold Verif.Lst.chooseMom
  refine ⟨?_, ?_, ?_, ?_⟩
  · split_ifs
    · exact (hon _ _).2
    · exact (hon _ _).2
    · rfl
  · intro hp hs
    have hmass : mass i = Real.sqrt |i.p.mom.sqr| := by unfold mass; rw [if_neg (not_lt.2 hp)]
    split_ifs with c1 c2
    · rw [(hon _ _).1, hpm, abs_of_nonneg (sq_nonneg i.p.pole), Real.sqrt_sq h0]
      norm_num
    · rw [(hon _ _).1, abs_of_nonneg (sq_nonneg (mass i)), Real.sqrt_sq (by rw [hmass]; exact Real.sqrt_nonneg _), ← hpm]
      exact not_lt.1 fun c => c1 ⟨hs, c⟩
    · rw [← hmass, ← hpm]
      exact not_lt.1 fun c => c1 ⟨hs, c⟩
  · intro hp
    have hmass : mass i = i.p.pole := by unfold mass; rw [if_pos hp]
    split_ifs with c1 c2
    · rw [(hon _ _).1, hpm]; norm_num
    · rw [(hon _ _).1, hmass]; norm_num
    · rw [hmass] at c2
      rw [pow_two]
      exact not_lt.1 c2
  · intro hp hs hsq
    have hmass : mass i = Real.sqrt |i.p.mom.sqr| := by unfold mass; rw [if_neg (not_lt.2 hp)]
    rw [if_neg (fun c => by rw [hs] at c; exact absurd c.1 (by simp)), if_neg]
    rw [hmass, Real.mul_self_sqrt (abs_nonneg _), abs_of_nonneg hsq]
    norm_num

theorem call_remove (w : World) (coins : Nat → Bool) (s : State) (t tEnd : ℝ) (rem : List Input)
    (h1 : w.nEnsembles ≤ 1) (ht : tEnd ≤ w.endTime) :
    ∃ coins', call w coins s t tEnd [] rem = removeStage w coins' s t rem := by
  by_cases hne : rem = []
  · subst hne
    exact ⟨coins, by simp [call, removeStage, validate, sortId, adjacent, not_lt.2 ht]⟩
  · have hb : (([] : List Input).isEmpty && rem.isEmpty) = false := by
      cases rem with
      | nil => exact absurd rfl hne
      | cons => rfl
    refine ⟨fun i => coins (([] : List Input).length + i), ?_⟩
    unfold call
    rw [hb]
    simp only [Bool.false_eq_true, if_false, not_lt.2 h1, addStage, validate, List.isEmpty_nil, if_true]
    rcases hr : removeStage w (fun i => coins (([] : List Input).length + i)) s t rem with ⟨s', r⟩
    rcases r with e | ⟨⟩
    · rfl
    · simp [not_lt.2 ht]

/-- What `Fits` means. -/
theorem C159_fits (T : Types) (t : ℝ) (i : Input) (q : FP) (h : Fits T t i q) :
    q.type = i.p.type ∧
    (Near (adjusted T i).mom.t q.mom.t ∧ Near i.p.mom.x q.mom.x ∧ Near i.p.mom.y q.mom.y ∧ Near i.p.mom.z q.mom.z ∨
      T.find i.p.type = none) ∧
    ∀ (v u : V3), v = (adjusted T i).mom.velocity → u = q.mom.velocity →
      Near (i.p.pos.x + v.x * (t - i.p.pos.t)) (q.pos.x + u.x * (t - q.pos.t)) ∧
      Near (i.p.pos.y + v.y * (t - i.p.pos.t)) (q.pos.y + u.y * (t - q.pos.t)) ∧
      Near (i.p.pos.z + v.z * (t - i.p.pos.t)) (q.pos.z + u.z * (t - q.pos.t)) := by
  have hn : ∀ x y, close x y = true → Near x y := by
    intro x y h
    unfold close at h
    unfold Near
    split_ifs at h with c1 c2 c3
    · exact .inl (by rw [c1]; norm_num)
    · exact .inr (.inr ⟨.inl c2, by rw [c2, zero_sub, abs_neg]; simpa using h⟩)
    · exact .inr (.inr ⟨.inr c3, by rw [c3, sub_zero]; simpa using h⟩)
    · rw [Bool.or_eq_true, decide_eq_true_eq, decide_eq_true_eq] at h
      rcases h with h | h
      · exact .inl h
      · exact .inr (.inl h)
  unfold Fits identical at h
  split_ifs at h with c1 c2
  have hc2 : close4 (adjusted T i).mom q.mom = true := by simpa using c2
  unfold close4 at hc2 h
  simp only [Bool.and_eq_true] at hc2 h
  have hvec : ∀ ty, T.find i.p.type = some ty → (adjusted T i).mom.vec = i.p.mom.vec := by
    intro ty hty
    simp only [adjusted, hty, Verif.Lst.chooseMom]
    split_ifs <;> rfl
  refine ⟨(not_not.1 c1).symm, ?_, ?_⟩
  · cases hty : T.find i.p.type with
    | none => exact .inr rfl
    | some ty =>
      have hv := hvec ty hty
      have hx : (adjusted T i).mom.x = i.p.mom.x := congrArg V3.x hv
      have hy : (adjusted T i).mom.y = i.p.mom.y := congrArg V3.y hv
      have hz : (adjusted T i).mom.z = i.p.mom.z := congrArg V3.z hv
      rw [hx, hy, hz] at hc2
      exact .inl ⟨hn _ _ hc2.1.1.1, hn _ _ hc2.1.1.2, hn _ _ hc2.1.2, hn _ _ hc2.2⟩
  · rintro v u rfl rfl
    exact ⟨hn _ _ h.1.1.2, hn _ _ h.1.2, hn _ _ h.2⟩

/-- **C159** (removing): if no particle fits two of the given ones, exactly one fitting particle is removed for
each given one that fits any; nothing else changes. -/
theorem C159_remove_partial (w : World) (coins : Nat → Bool) (s : State) (t tEnd : ℝ) (rem : List Input)
    (h1 : w.nEnsembles ≤ 1) (ho : ∀ l, (w.arrange l).Perm l) (hv : ∀ i ∈ rem, Physical i ∧ Known w.T i)
    (hid : (s.parts.map (·.id)).Nodup) (hc : ∀ p ∈ s.parts, p.core = false)
    (hd : rem.Pairwise fun i j => ∀ q ∈ s.parts, ¬(Fits w.T t i q ∧ Fits w.T t j q)) (ht : tEnd ≤ w.endTime) :
    ∃ s' gone, call w coins s t tEnd [] rem = (s', .ok ()) ∧ s.parts.Perm (s'.parts ++ gone) ∧
      (∀ q ∈ gone, ∃ i ∈ rem, Fits w.T t i q) ∧
      (∀ i ∈ rem, (∃ q ∈ s.parts, Fits w.T t i q) → ∃ q ∈ gone, Fits w.T t i q) ∧
      gone.length = (rem.filter fun i => s.parts.any fun q => identical (adjusted w.T i) q t).length ∧
      s'.next = s.next := by
  obtain ⟨coins', hcall⟩ := call_remove w coins s t tEnd rem h1 ht
  set F := rem.filterMap fun i => findOne s t (adjusted w.T i) with hF
  have hfit := find_some w.T s t
  have hn : (F.map (·.id)).Nodup := by
    rw [List.Nodup, List.pairwise_map, hF, List.pairwise_filterMap]
    refine hd.imp fun {i j} h q hq r hr e => ?_
    obtain ⟨a1, a2⟩ := hfit i q hq
    obtain ⟨b1, b2⟩ := hfit j r hr
    have : q = r := List.inj_on_of_nodup_map hid a1 b1 e
    subst this
    exact h q a1 ⟨a2, b2⟩
  obtain ⟨s', e1, e2, e3⟩ := remove_ok w coins' s t rem hv hid hc hn ho
  refine ⟨s', F, hcall.trans e1, e3, ?_, ?_, ?_, e2⟩
  · intro q hq
    obtain ⟨i, hi, e⟩ := List.mem_filterMap.1 hq
    exact ⟨i, hi, (hfit i q e).2⟩
  · rintro i hi ⟨q, hq, hf⟩
    cases e : findOne s t (adjusted w.T i) with
    | none => exact absurd hf (find_none _ _ _ _ e q hq)
    | some r => exact ⟨r, List.mem_filterMap.2 ⟨i, hi, e⟩, (hfit i r e).2⟩
  · rw [hF]
    clear * -
    induction rem with
    | nil => rfl
    | cons i l ih =>
      rw [List.filterMap_cons, List.filter_cons]
      cases e : findOne s t (adjusted w.T i) with
      | none =>
        rw [if_neg]
        · exact ih
        · rw [List.any_eq_true]
          rintro ⟨q, hq, h⟩
          exact find_none _ _ _ _ e q hq h
      | some q =>
        rw [if_pos]
        · simp [ih]
        · rw [List.any_eq_true]
          exact ⟨q, (find_some _ _ _ _ _ e).1, (find_some _ _ _ _ _ e).2⟩

/-- **C159** (not found): given particles that fit none are ignored. -/
theorem C159_ignored (w : World) (coins : Nat → Bool) (s : State) (t tEnd : ℝ) (rem : List Input)
    (h1 : w.nEnsembles ≤ 1) (hv : ∀ i ∈ rem, Physical i ∧ Known w.T i)
    (hd : ∀ i ∈ rem, ∀ q ∈ s.parts, ¬Fits w.T t i q) (ht : tEnd ≤ w.endTime) :
    call w coins s t tEnd [] rem = (s, .ok ()) := by
  obtain ⟨coins', hcall⟩ := call_remove w coins s t tEnd rem h1 ht
  have hF : (rem.map (adjusted w.T)).filterMap (findOne s t) = [] := by
    rw [List.filterMap_eq_nil_iff]
    intro p hp
    obtain ⟨i, hi, rfl⟩ := List.mem_map.1 hp
    exact List.find?_eq_none.2 fun q hq => hd i hi q hq
  rw [hcall]
  unfold removeStage
  rw [validate_ok _ _ _ hv]
  simp [hF, sortId, adjacent]

/-- **C159** (twice): the same particle asked to be removed twice is an error, and the particles are left as
they were. -/
theorem C159_twice (w : World) (coins : Nat → Bool) (s : State) (t tEnd : ℝ) (rem : List Input)
    (h1 : w.nEnsembles ≤ 1) (hv : ∀ i ∈ rem, Physical i ∧ Known w.T i) (ht : tEnd ≤ w.endTime) (i j : Input)
    (hij : [i, j].Sublist rem) (q : FP) (hq : q ∈ s.parts) (hi : Fits w.T t i q) (hj : Fits w.T t j q)
    (hu : ∀ r ∈ s.parts, Fits w.T t i r ∨ Fits w.T t j r → r = q) :
    call w coins s t tEnd [] rem = (s, .error .twice) := by
  obtain ⟨coins', hcall⟩ := call_remove w coins s t tEnd rem h1 ht
  have hone : ∀ k, Fits w.T t k q → (∀ r ∈ s.parts, Fits w.T t k r → r = q) → findOne s t (adjusted w.T k) = some q := by
    intro k hk hr
    cases e : findOne s t (adjusted w.T k) with
    | none => exact absurd hk (find_none _ _ _ _ e q hq)
    | some r => rw [hr r (find_some _ _ _ _ _ e).1 (find_some _ _ _ _ _ e).2]
  have hsub : [q, q].Sublist ((rem.map (adjusted w.T)).filterMap (findOne s t)) := by
    have := (hij.map (adjusted w.T)).filterMap (findOne s t)
    rwa [List.map_cons, List.map_cons, List.map_nil, List.filterMap_cons, hone i hi fun r hr h => hu r hr (.inl h),
      List.filterMap_cons, hone j hj fun r hr h => hu r hr (.inr h)] at this
  have hadj : adjacent (sortId ((rem.map (adjusted w.T)).filterMap (findOne s t))) = true := by
    by_contra h
    have h := (adjacent_sort _).1 (Bool.not_eq_true _ ▸ h)
    have := (hsub.map (fun p : FP => p.id)).nodup h
    simp at this
  rw [hcall]
  unfold removeStage
  rw [validate_ok _ _ _ hv]
  simp only [hadj, if_true]

/-- **C159** (errors): with more than one ensemble nothing can be added or removed; a NaN or a space-like
momentum of a massive particle is refused, also if the particle comes last; without lists any call is accepted.
In these cases the particles are left as they were. -/
theorem C159_refused (w : World) (coins : Nat → Bool) (s : State) (t tEnd : ℝ) (add rem : List Input) :
    (1 < w.nEnsembles → add ≠ [] ∨ rem ≠ [] → call w coins s t tEnd add rem = (s, .error .ensembles)) ∧
    ((∃ i ∈ add, ¬Physical i) → ∃ e, call w coins s t tEnd add rem = (s, .error e)) ∧
    (tEnd ≤ w.endTime → call w coins s t tEnd [] [] = (s, .ok ())) := by
  refine ⟨?_, ?_, ?_⟩
  · intro h1 hne
    have hb : (add.isEmpty && rem.isEmpty) = false := by
      cases add <;> cases rem <;> simp_all
    simp [call, hb, h1]
  · rintro ⟨i, hi, hn⟩
    have hval : ∀ l : List Input, i ∈ l → ∃ e, validate w.T coins l = .error e := by
      intro l
      induction l with
      | nil => intro h; cases h
      | cons j l ih =>
        intro h
        rw [validate]
        rcases List.mem_cons.1 h with rfl | h
        · have : ∃ e, validateOne w.T (coins l.length) i = .error e := by
            unfold validateOne
            simp only []
            cases hm : effectiveMass i with
            | error e => exact ⟨e, rfl⟩
            | ok m =>
              have : i.nanPos = true ∨ i.nanMom = true := by
                by_contra hc
                rw [not_or, Bool.not_eq_true, Bool.not_eq_true] at hc
                apply hn
                refine ⟨hc.1, hc.2, ?_⟩
                unfold effectiveMass at hm
                split_ifs at hm with c1 c2 c3
                · exact .inl c1
                · exact .inr c3
              refine ⟨.nan, ?_⟩
              rcases this with h | h
              · simp [Verif.Lst.create, d4, h, Verif.Lst.D4.get]
              · unfold Verif.Lst.create
                rw [show (d4 i.nanMom i.p.mom).get = none by simp [d4, h, Verif.Lst.D4.get]]
                cases (d4 i.nanPos i.p.pos).get <;> rfl
          obtain ⟨e, he⟩ := this
          exact ⟨e, by rw [he]⟩
        · cases validateOne w.T (coins l.length) j with
          | error e => exact ⟨e, rfl⟩
          | ok o =>
            obtain ⟨e, he⟩ := ih h
            exact ⟨e, by simp only [he]⟩
    obtain ⟨e, he⟩ := hval add hi
    have hb : (add.isEmpty && rem.isEmpty) = false := by
      cases add with
      | nil => cases hi
      | cons => rfl
    by_cases h1 : w.nEnsembles > 1
    · exact ⟨.ensembles, by simp [call, hb, h1]⟩
    · exact ⟨e, by simp [call, hb, h1, addStage, he]⟩
  · intro ht
    simp [call, not_lt.2 ht]

theorem identical_arrived (T : Types) (t : ℝ) (p : FP) (j : Input) (n : Nat) :
    identical p (arrivedAs T t j n) t = identical p (adjusted T j) t := by
  have h1 : (arrivedAs T t j n).type = (adjusted T j).type := rfl
  have h2 : (arrivedAs T t j n).mom = (adjusted T j).mom := rfl
  have h3 : positionAt (arrivedAs T t j n) t = positionAt (adjusted T j) t := by
    have hp : (arrivedAs T t j n).pos = positionAt (adjusted T j) t := rfl
    have ht : (positionAt (adjusted T j) t).t = t := by simp [positionAt, V4.add]
    rw [positionAt, hp, ht]
    simp [V4.add]
  unfold identical
  rw [h1, h2, h3]

theorem identical_self (p : FP) (t : ℝ) : identical p p t = true := by
  simp [identical, close4, close]

/-- **C159** (round trip): particles added and removed in the same call leave no trace. -/
theorem C159_back_partial (w : World) (coins : Nat → Bool) (s : State) (t tEnd : ℝ) (l : List Input)
    (h1 : w.nEnsembles ≤ 1) (ho : ∀ l, (w.arrange l).Perm l) (hv : ∀ i ∈ l, Physical i ∧ Known w.T i)
    (hp : ∀ l, w.pauli l = false) (ht : tEnd ≤ w.endTime) (hid : (s.parts.map (·.id)).Nodup)
    (hlt : ∀ q ∈ s.parts, q.id < s.next) (hc : ∀ p ∈ s.parts, p.core = false) (hcl : ∀ i ∈ l, i.p.core = false)
    (hold : ∀ i ∈ l, ∀ q ∈ s.parts, ¬Fits w.T t i q)
    (hd : l.Pairwise fun i j => ¬Fits w.T t i (adjusted w.T j) ∧ ¬Fits w.T t j (adjusted w.T i)) :
    ∃ s', call w coins s t tEnd l l = (s', .ok ()) ∧ s'.parts.Perm s.parts := by
  by_cases hne : l = []
  · subst hne
    exact ⟨s, by simp [call, not_lt.2 ht], List.Perm.refl _⟩
  set new := newOnes w.T t l s.next with hnew
  set s1 : State := ⟨w.arrange (s.parts ++ new), s.next + l.length⟩ with hs1
  have hperm : s1.parts.Perm (s.parts ++ new) := ho _
  have hlen : new.length = l.length := by rw [hnew]; simp [newOnes]
  have hget : ∀ k (hk : k < l.length), new[k]'(by omega) = arrivedAs w.T t l[k] (s.next + k) := by
    intro k hk
    simp [hnew, newOnes]
  have hnewmem : ∀ q ∈ new, ∃ k, ∃ hk : k < l.length, q = arrivedAs w.T t l[k] (s.next + k) := by
    intro q hq
    obtain ⟨k, hk, rfl⟩ := List.getElem_of_mem hq
    exact ⟨k, by omega, hget k (by omega)⟩
  have hids : new.map (·.id) = List.range' s.next l.length := by
    apply List.ext_getElem
    · simp [hlen]
    · intro k h1 h2
      have hk : k < l.length := by simpa using h2
      simp [hget k hk, (arrivedAs_spec _ _ _ _).2]
  have hid1 : (s1.parts.map (·.id)).Nodup := by
    rw [(hperm.map _).nodup_iff, List.map_append, List.nodup_append]
    refine ⟨hid, by rw [hids]; exact List.nodup_range', ?_⟩
    intro a ha b hb e
    subst e
    obtain ⟨q, hq, rfl⟩ := List.mem_map.1 ha
    rw [hids, List.mem_range'_1] at hb
    have := hlt q hq
    omega
  have hc1 : ∀ p ∈ s1.parts, p.core = false := by
    intro p hp
    rcases List.mem_append.1 (hperm.mem_iff.1 hp) with h | h
    · exact hc p h
    · obtain ⟨k, hk, rfl⟩ := hnewmem p h
      rw [(arrivedAs_spec _ _ _ _).1.core]
      exact hcl _ (List.getElem_mem _)
  have hpair : ∀ k m (hk : k < l.length) (hm : m < l.length), k ≠ m → ¬Fits w.T t l[k] (adjusted w.T l[m]) := by
    intro k m hk hm hkm
    rcases lt_or_gt_of_ne hkm with h | h
    · exact (List.pairwise_iff_getElem.1 hd k m hk hm h).1
    · exact (List.pairwise_iff_getElem.1 hd m k hm hk h).2
  have hfind : ∀ k (hk : k < l.length), findOne s1 t (adjusted w.T l[k]) = some (new[k]'(by omega)) := by
    intro k hk
    have hin : new[k]'(by omega) ∈ s1.parts := hperm.mem_iff.2 (List.mem_append_right _ (List.getElem_mem _))
    cases e : findOne s1 t (adjusted w.T l[k]) with
    | none =>
      refine absurd ?_ (find_none _ _ _ _ e _ hin)
      rw [hget k hk, Fits, identical_arrived]
      exact identical_self _ _
    | some q =>
      obtain ⟨hq, hf⟩ := find_some _ _ _ _ _ e
      rcases List.mem_append.1 (hperm.mem_iff.1 hq) with h | h
      · exact absurd hf (hold _ (List.getElem_mem _) q h)
      · obtain ⟨m, hm, rfl⟩ := hnewmem q h
        by_cases hkm : k = m
        · subst hkm
          rw [hget k hk]
        · rw [Fits, identical_arrived] at hf
          exact absurd hf (hpair k m hk hm hkm)
  have hF : (l.filterMap fun i => findOne s1 t (adjusted w.T i)) = new := by
    have e1 : (l.map fun i => findOne s1 t (adjusted w.T i)) = new.map some := by
      apply List.ext_getElem
      · simp [hlen]
      · intro k h1 h2
        have hk : k < l.length := by simpa using h1
        simp [hfind k hk]
    calc (l.filterMap fun i => findOne s1 t (adjusted w.T i))
        = (l.map fun i => findOne s1 t (adjusted w.T i)).filterMap id := by rw [List.filterMap_map]; rfl
      _ = new := by rw [e1, List.filterMap_map]; simp
  have hn1 : ((l.filterMap fun i => findOne s1 t (adjusted w.T i)).map (·.id)).Nodup := by
    rw [hF, hids]; exact List.nodup_range'
  obtain ⟨s2, e1, _, e3⟩ := remove_ok w (fun i => coins (l.length + i)) s1 t l hv hid1 hc1 hn1 ho
  refine ⟨s2, ?_, ?_⟩
  · have hb : (l.isEmpty && l.isEmpty) = false := by
      cases l with
      | nil => exact absurd rfl hne
      | cons => rfl
    unfold call
    rw [hb, add_ok w coins s t l hv hne hp]
    simp only [Bool.false_eq_true, if_false, not_lt.2 h1]
    rw [← hnew, ← hs1, e1]
    simp [not_lt.2 ht]
  · rw [hF] at e3
    exact (List.perm_append_right_iff new).1 (e3.symm.trans hperm)

/-! ### Where the claim fails -/

/-- A nucleon (type 1) or a pion (type 2) at rest, at `x` and time `t`. -/
noncomputable def rest (type id : Nat) (t x : ℝ) (core : Bool) : FP :=
  ⟨id, type, 1, ⟨t, x, 0, 0⟩, ⟨1, 0, 0, 0⟩, 0, 0, 0, core, 0, .none, 0⟩

/-- The list of types: 1 is a nucleon, 2 a meson, 310 a K_S; all have the mass 1. -/
noncomputable def exTypes : Types where
  find := fun n => if n = 1 ∨ n = 2 ∨ n = 310 ∨ n = 311 then some ⟨1, true⟩ else none
  baryon := fun n => n == 1
  kaonSL := fun n => n == 310
  kz := 311
  kbarz := 311

/-- An experiment with one ensemble. -/
noncomputable def exWorld (pauli : Bool) : World := ⟨exTypes, 1, id, fun _ => pauli, 100⟩

/-- A given particle. -/
def ofFP (p : FP) : Input := ⟨p, false, false⟩

theorem ex_validate (coins : Nat → Bool) (n id : Nat) (t x : ℝ) (core : Bool) (hn : n = 1 ∨ n = 2) (l : List Input)
    (r : List FP) (hr : validate exTypes coins l = .ok r) :
    validate exTypes coins (ofFP (rest n id t x core) :: l) = .ok ({ rest n id t x core with scale := 1 } :: r) := by
  rw [validate, validateOne_ok]
  · simp only [hr]
    have : (adjusted exTypes (ofFP (rest n id t x core))) = { rest n id t x core with scale := 1 } := by
      have hf : exTypes.find n = some ⟨1, true⟩ := by rcases hn with rfl | rfl <;> simp [exTypes]
      simp only [adjusted, ofFP, rest, hf, mass, Verif.Lst.chooseMom, V4.sqr, V4.dot, V4.vec, V3.dot]
      norm_num
    rw [this]
    rfl
  · refine ⟨rfl, rfl, .inr ?_⟩
    simp only [ofFP, rest, V4.sqr, V4.dot, V4.vec, V3.dot]
    norm_num
  · refine ⟨?_, ⟨1, true⟩, ?_, rfl⟩ <;> rcases hn with rfl | rfl <;> simp [exTypes, ofFP, rest]

/-- **C159 is false** with Pauli blocking: a nucleon that is blocked is not added, and with it all other
particles of the list; the call succeeds. -/
theorem C159_pauli_false (coins : Nat → Bool) :
    call (exWorld true) coins ⟨[], 0⟩ 0 1 [ofFP (rest 1 0 0 0 false), ofFP (rest 2 0 0 5 false)] [] =
      (⟨[], 0⟩, .ok ()) := by
  have hv := ex_validate coins 1 0 0 0 false (.inl rfl) _ _ (ex_validate coins 2 0 0 5 false (.inr rfl) [] [] rfl)
  simp only [call, addStage, exWorld, hv]
  simp [mkFree, performAction, coreGate, blocked, Free.finalState, FP.setFormation, exTypes, rest, removeStage, validate,
    sortId, adjacent]

/-- The comparison of two particles at rest at time 0. -/
theorem ex_identical (n m a b : Nat) (x y : ℝ) (c d : Bool) :
    identical { rest n a 0 x c with scale := 1 } (rest m b 0 y d) 0 = (decide (n = m) && close x y) := by
  unfold identical
  by_cases h : n = m
  · subst h
    simp [rest, close4, positionAt, V4.add, V4.velocity, V3.div, V3.smul, V4.vec]
    simp [close]
  · simp [rest, h]

/-- **C159 is false** for particles that fit each other: two equal particles cannot be removed together. -/
theorem C159_twins_false (coins : Nat → Bool) :
    call (exWorld false) coins ⟨[rest 1 0 0 0 false, rest 1 1 0 0 false], 2⟩ 0 1 []
      [ofFP (rest 1 0 0 0 false), ofFP (rest 1 1 0 0 false)] =
      (⟨[rest 1 0 0 0 false, rest 1 1 0 0 false], 2⟩, .error .twice) := by
  have hv := ex_validate (fun i => coins (0 + i)) 1 0 0 0 false (.inl rfl) _ _
    (ex_validate (fun i => coins (0 + i)) 1 1 0 0 false (.inl rfl) [] [] rfl)
  simp only [call, addStage, show validate exTypes coins [] = .ok [] from rfl, removeStage, exWorld, List.length_nil,
    List.isEmpty_nil, List.isEmpty_cons, Bool.and_false, Bool.false_eq_true, if_false, if_true, hv, gt_iff_lt, lt_irrefl]
  simp only [List.filterMap_cons, List.filterMap_nil, findOne, List.find?_cons, ex_identical]
  simp [close, sortId, insertId, adjacent, rest]

/-- **C159 is false** for neighbours: of two particles at 5 fm and 5.0001 fm the first in the container is
removed, although the second is the one given. -/
theorem C159_neighbour_false (coins : Nat → Bool) :
    call (exWorld false) coins ⟨[rest 1 0 0 5.0001 false, rest 1 1 0 5 false], 2⟩ 0 1 []
      [ofFP (rest 1 1 0 5 false)] = (⟨[rest 1 1 0 5 false], 2⟩, .ok ()) := by
  have hv := ex_validate (fun i => coins (0 + i)) 1 1 0 5 false (.inl rfl) [] [] rfl
  have hcl : close 5 5.0001 = true := by
    unfold close
    rw [if_neg (by norm_num), if_neg (by norm_num), if_neg (by norm_num), Bool.or_eq_true]
    right
    rw [decide_eq_true_eq, abs_of_neg (by norm_num), abs_of_pos (by norm_num), abs_of_pos (by norm_num), max_eq_right (by norm_num)]
    norm_num
  simp only [call, addStage, show validate exTypes coins [] = .ok [] from rfl, removeStage, exWorld, List.length_nil,
    List.isEmpty_nil, List.isEmpty_cons, Bool.and_false, Bool.false_eq_true, if_false, if_true, hv, gt_iff_lt, lt_irrefl]
  simp only [List.filterMap_cons, List.filterMap_nil, findOne, List.find?_cons, ex_identical]
  simp [hcl, sortId, insertId, adjacent, mkFree, performAction, coreGate, blocked, Free.finalState,
    perform, rest]

/-- **C159 is false** with dynamic initial conditions: if core and corona particles are to be removed together,
nothing happens; the call succeeds. -/
theorem C159_core_false (coins : Nat → Bool) :
    call (exWorld false) coins ⟨[rest 1 0 0 0 true, rest 1 1 0 5 false], 2⟩ 0 1 []
      [ofFP (rest 1 0 0 0 true), ofFP (rest 1 1 0 5 false)] =
      (⟨[rest 1 0 0 0 true, rest 1 1 0 5 false], 2⟩, .ok ()) := by
  have hv := ex_validate (fun i => coins (0 + i)) 1 0 0 0 true (.inl rfl) _ _
    (ex_validate (fun i => coins (0 + i)) 1 1 0 5 false (.inl rfl) [] [] rfl)
  have h1 : close 0 5 = false := by unfold close; norm_num
  have h2 : close 5 0 = false := by unfold close; norm_num
  have h3 : ∀ x, close x x = true := fun x => by simp [close]
  simp only [call, addStage, show validate exTypes coins [] = .ok [] from rfl, removeStage, exWorld, List.length_nil,
    List.isEmpty_nil, List.isEmpty_cons, Bool.and_false, Bool.false_eq_true, if_false, if_true, hv, gt_iff_lt, lt_irrefl]
  simp only [List.filterMap_cons, List.filterMap_nil, findOne, List.find?_cons, ex_identical]
  simp [h1, h2, h3, sortId, insertId, adjacent, mkFree, performAction, coreGate, rest]

/-- **C159 is false** for errors: a time after the end is refused, but the particle has been added. -/
theorem C159_end_time_false (coins : Nat → Bool) :
    ∃ q, call (exWorld false) coins ⟨[], 0⟩ 0 101 [ofFP (rest 1 0 0 0 false)] [] = (⟨[q], 1⟩, .error .endTime) := by
  have hv := ex_validate coins 1 0 0 0 false (.inl rfl) [] [] rfl
  simp only [call, addStage, exWorld, hv]
  simp [mkFree, performAction, coreGate, blocked, perform, Free.finalState, removeStage, validate, sortId, adjacent]
  norm_num

/-- **C159 is false** for particles that come later: a particle given at a later time is moved back to the
present and interacts at once with its full cross section, before the time at which it was given. -/
theorem C159_early_false (T : Types) (t power : ℝ) (i : Input) (n : Nat) (h : t < i.p.pos.t) :
    (arrivedAs T t i n).pos.t = t ∧ t < (arrivedAs T t i n).tForm ∧
    xsecScaling (arrivedAs T t i n).scale (arrivedAs T t i n).tBegin (arrivedAs T t i n).tForm power
      (arrivedAs T t i n).pos.t = 1 := by
  have e1 : (arrivedAs T t i n).scale = 1 := rfl
  have e2 : (arrivedAs T t i n).tBegin = i.p.pos.t := rfl
  have e3 : (arrivedAs T t i n).tForm = i.p.pos.t := rfl
  have e4 := (arrivedAs_spec T t i n).1.time
  refine ⟨e4, by rw [e3]; exact h, ?_⟩
  rw [e1, e2, e3, e4]
  unfold xsecScaling
  split_ifs <;> first | rfl | (exfalso; linarith)

/-- **C159 is false** for K_S and K_L: they are not converted, only their mass is checked against a K⁰. -/
theorem C159_kaon_false (coins : Nat → Bool) :
    ∃ q, call (exWorld false) coins ⟨[], 0⟩ 0 1 [ofFP (rest 310 0 0 0 false)] [] = (⟨[q], 1⟩, .ok ()) ∧
      q.type = 310 := by
  have hv : validate exTypes coins [ofFP (rest 310 0 0 0 false)] = .ok [{ rest 310 0 0 0 false with scale := 1 }] := by
    simp only [validate, validateOne, effectiveMass, ofFP, rest, exTypes, Verif.Lst.create, d4, Verif.Lst.D4.get,
      Verif.Lst.chooseMom, V4.sqr, V4.dot, V4.vec, V3.dot]
    norm_num
  simp only [call, addStage, exWorld, hv]
  simp [mkFree, performAction, coreGate, blocked, perform, Free.finalState, removeStage, validate, sortId, adjacent]
  norm_num
  simp [performed, rest, FP.setFormation]

/-! ### Non-triviality -/

example : Physical (ofFP (rest 1 0 0 0 false)) ∧ Known exTypes (ofFP (rest 1 0 0 0 false)) := by
  refine ⟨⟨rfl, rfl, .inr ?_⟩, ?_, ⟨1, true⟩, ?_, rfl⟩
  · simp only [ofFP, rest, V4.sqr, V4.dot, V4.vec, V3.dot]
    norm_num
  · simp [exTypes, ofFP, rest]
  · simp [exTypes, ofFP, rest]

example : (exWorld false).nEnsembles ≤ 1 ∧ (∀ l, ((exWorld false).arrange l).Perm l) ∧
    (∀ l, (exWorld false).pauli l = false) ∧ (1 : ℝ) ≤ (exWorld false).endTime :=
  ⟨le_refl _, fun _ => List.Perm.refl _, fun _ => rfl, by simp [exWorld]⟩

end Verif.Ext
