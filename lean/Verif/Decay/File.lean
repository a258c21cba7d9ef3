import Verif.Decay.Load
import Mathlib.Algebra.Ring.Parity
/-! C37, C38, C71 for whole files. -/
namespace Verif.Decay

/-- A branching table as the user expects it: empty, or positive ratios with sum 1 (up to `10⁻⁶`). -/
def Normalised (ms : List Mode) : Prop :=
  (∀ d ∈ ms, 0 < d.w) ∧ (ms = [] ∨ |(ms.map Mode.w).sum - 1| < 1 / 1000000)

/-- Consistent multiplets: a state belongs to one multiplet, antiparticles are mutual and lie in
another multiplet which also has an anti-multiplet. -/
structure Consistent (W : World) : Prop where
  unique : ∀ k k' s, s ∈ (W.M k).states → s ∈ (W.M k').states → k = k'
  nodup : ∀ k, (W.M k).states.Nodup
  invol : ∀ s a, (W.T s).anti = some a → (W.T a).anti = some s
  other : ∀ k s, (W.M k).hasAnti = true → s ∈ (W.M k).states → ∃ a k', (W.T s).anti = some a ∧
    a ∈ (W.M k').states ∧ (W.M k').hasAnti = true ∧ k' ≠ k

theorem sumW_addTo (i : Nat) (r : ℚ) (ms : List Mode) : sumW (addToModes i r ms) = sumW ms + r := by
  unfold sumW
  induction ms with
  | nil => simp [addToModes]
  | cons m ms ih =>
    rw [addToModes]
    split_ifs
    · simp only [List.map_cons, List.sum_cons]; ring
    · simp only [List.map_cons, List.sum_cons]; rw [ih]; ring

theorem addTo_ne (i : Nat) (r : ℚ) (ms : List Mode) : addToModes i r ms ≠ [] := by
  cases ms with
  | nil => simp [addToModes]
  | cons m ms => rw [addToModes]; split_ifs <;> simp

theorem addTo_pos (i : Nat) (r : ℚ) (hr : 0 < r) (ms : List Mode) (h : ∀ d ∈ ms, 0 < d.w) :
    ∀ d ∈ addToModes i r ms, 0 < d.w := by
  induction ms with
  | nil => intro d hd; rw [addToModes, List.mem_singleton] at hd; subst hd; exact hr
  | cons m ms ih =>
    intro d hd
    rw [addToModes] at hd
    have hm := h m (by simp)
    split_ifs at hd
    · rcases List.mem_cons.1 hd with e | e
      · subst e; simp only; linarith
      · exact h d (by simp [e])
    · rcases List.mem_cons.1 hd with e | e
      · subst e; exact hm
      · exact ih (fun d hd => h d (by simp [hd])) d e

/-- Adding a list of modes to the modes of `a`. -/
theorem fold_add {W : World} {a : Nat} {g : DB → Mode → Except Err DB}
    (hg : ∀ db m db', g db m = .ok db' → ∃ L p, addMode W db a m.w L p = .ok db')
    (ms : List Mode) {db db' : DB} (h : ms.foldlM g db = .ok db') :
    sumW (db'.modes a) = sumW (db.modes a) + sumW ms ∧
    (db'.modes a = [] ↔ db.modes a = [] ∧ ms = []) ∧
    ((∀ d ∈ ms, 0 < d.w) → (∀ d ∈ db.modes a, 0 < d.w) → ∀ d ∈ db'.modes a, 0 < d.w) ∧
    ∀ k, k ≠ a → db'.modes k = db.modes k := by
  induction ms generalizing db with
  | nil => cases h; simp [sumW]
  | cons m ms ih =>
    rw [List.foldlM_cons] at h
    cases h1 : g db m with
    | error e => rw [h1] at h; cases h
    | ok db1 =>
      rw [h1] at h
      obtain ⟨i1, i2, i3, i4⟩ := ih h
      obtain ⟨L, p, ha⟩ := hg db m db1 h1
      obtain ⟨types, i, -, rfl⟩ := addMode_ok ha
      simp only [if_true] at i1 i2 i3 i4
      refine ⟨?_, ?_, ?_, ?_⟩
      · rw [i1, sumW_addTo]
        unfold sumW
        simp only [List.map_cons, List.sum_cons]; ring
      · rw [i2]
        constructor
        · rintro ⟨h, -⟩; exact absurd h (addTo_ne _ _ _)
        · rintro ⟨-, h⟩; cases h
      · intro hm hd
        exact i3 (fun d hd => hm d (by simp [hd])) (addTo_pos _ _ (hm m (by simp)) _ hd)
      · intro k hk
        rw [i4 k hk, if_neg hk]

theorem antiState_sum {W : World} {db db' : DB} {s a : Nat} (ha : (W.T s).anti = some a)
    (h : antiState W db s = .ok db') :
    sumW (db'.modes a) = sumW (db.modes a) + sumW (db.modes s) ∧
    (db'.modes a = [] ↔ db.modes a = [] ∧ db.modes s = []) ∧
    ((∀ d ∈ db.modes s, 0 < d.w) → (∀ d ∈ db.modes a, 0 < d.w) → ∀ d ∈ db'.modes a, 0 < d.w) ∧
    ∀ k, k ≠ a → db'.modes k = db.modes k := by
  unfold antiState at h
  rw [ha] at h
  simp only at h
  refine fold_add (W := W) ?_ (db.modes s) h
  intro db m db' hg
  split at hg
  · cases hg
  · exact ⟨_, _, hg⟩

theorem Normalised.of_sum {ms ms' : List Mode} (h : Normalised ms) (hp : ∀ d ∈ ms', 0 < d.w)
    (he : ms' = [] ↔ ms = []) (hs : sumW ms' = sumW ms) : Normalised ms' := by
  refine ⟨hp, ?_⟩
  rcases h.2 with e | e
  · exact .inl (he.2 e)
  · right
    have : (ms'.map Mode.w).sum = (ms.map Mode.w).sum := hs
    rw [this]; exact e

/-- Generating the modes of the antiparticles of the states in `l`. -/
theorem anti_fold {W : World} (hinv : ∀ s a, (W.T s).anti = some a → (W.T a).anti = some s)
    (l : List Nat) (hn : l.Nodup) (hl : ∀ s ∈ l, ∃ a, (W.T s).anti = some a)
    {db db' : DB} (h : l.foldlM (antiState W) db = .ok db')
    (hs : ∀ s ∈ l, Normalised (db.modes s)) (ha : ∀ s a, s ∈ l → (W.T s).anti = some a → db.modes a = [])
    (hsep : ∀ s a, s ∈ l → (W.T s).anti = some a → a ∉ l) :
    (∀ s a, s ∈ l → (W.T s).anti = some a → Normalised (db'.modes a) ∧
      (db'.modes a = [] ↔ db.modes s = [])) ∧
    ∀ k, (∀ s ∈ l, (W.T s).anti ≠ some k) → db'.modes k = db.modes k := by
  induction l generalizing db with
  | nil => cases h; simp
  | cons s l ih =>
    rw [List.foldlM_cons] at h
    rw [List.nodup_cons] at hn
    cases h1 : antiState W db s with
    | error e => rw [h1] at h; cases h
    | ok db1 =>
      rw [h1] at h
      obtain ⟨a, has⟩ := hl s (by simp)
      obtain ⟨a1, a2, a3, a4⟩ := antiState_sum has h1
      rw [ha s a (by simp) has] at a1 a2 a3
      have inj (s' : Nat) (h' : (W.T s').anti = some a) : s' = s := by
        have e1 := hinv _ _ h'
        rw [hinv _ _ has] at e1
        exact (Option.some.inj e1).symm
      have hsa (s' : Nat) (hs' : s' ∈ s :: l) : db1.modes s' = db.modes s' :=
        a4 s' (fun e => hsep s a (by simp) has (e ▸ hs'))
      obtain ⟨i1, i2⟩ := ih hn.2 (fun s hs => hl s (by simp [hs])) h
        (fun s' hs' => by rw [hsa s' (by simp [hs'])]; exact hs s' (by simp [hs']))
        (fun s' a' hs' ha' => by
          have hne : a' ≠ a := fun e => hn.1 ((inj s' (e ▸ ha')) ▸ hs')
          rw [a4 a' hne]; exact ha s' a' (by simp [hs']) ha')
        (fun s' a' hs' ha' h => hsep s' a' (by simp [hs']) ha' (by simp [h]))
      have hlast : db'.modes a = db1.modes a :=
        i2 a (fun s' hs' e => hn.1 ((inj s' e) ▸ hs'))
      refine ⟨?_, ?_⟩
      · intro s' a' hs' ha'
        rcases List.mem_cons.1 hs' with e | e
        · subst e
          rw [has] at ha'; cases ha'
          rw [hlast]
          have hN := hs s' (by simp)
          refine ⟨hN.of_sum (a3 hN.1 (by simp)) (by rw [a2]; simp) (by rw [a1]; simp [sumW]), by rw [a2]; simp⟩
        · obtain ⟨x, y⟩ := i1 s' a' e ha'
          exact ⟨x, by rw [y, hsa s' hs']⟩
      · intro k hk
        rw [i2 k (fun s' hs' => hk s' (by simp [hs'])), a4 k]
        intro e
        exact hk s (by simp) (e ▸ has)

/-- Invariant for sums. -/
structure SumInv (W : World) (st : St) : Prop where
  done : ∀ k, Normalised (st.done k)
  pend : ∀ k, ∀ d ∈ st.pending k, 0 < d.w
  pair : ∀ k s a, (W.M k).hasAnti = true → s ∈ (W.M k).states → (W.T s).anti = some a →
    (st.done s = [] ↔ st.done a = [])
  fresh : ∀ k s, st.mother = some k → s ∈ (W.M k).states → st.done s = []

theorem renorm_normalised {ms ms' : List Mode} {b : Bool} (hp : ∀ d ∈ ms, 0 < d.w)
    (h : renormalize ms = .ok (ms', b)) : Normalised ms' := by
  by_cases he : ms = []
  · subst he
    have : renormalize [] = .ok ([], true) := by decide +kernel
    rw [this] at h
    cases h
    exact ⟨by simp, .inl rfl⟩
  · obtain ⟨ms1, l1, e1, -, e3, e4, -⟩ := C37_renormalize ms he hp
    rw [e1] at h
    cases h
    exact ⟨e3, .inr e4⟩

/-- The part of the invariant that survives the end of a section. -/
structure DoneInv (W : World) (done : Nat → List Mode) : Prop where
  norm : ∀ k, Normalised (done k)
  pair : ∀ k s a, (W.M k).hasAnti = true → s ∈ (W.M k).states → (W.T s).anti = some a →
    (done s = [] ↔ done a = [])

theorem renorm_nil {ms ms' : List Mode} {b : Bool} (h : renormalize ms = .ok (ms', b)) :
    ms' = [] ↔ ms = [] := by
  have := congrArg List.length (renormalize_ty h)
  rw [List.length_map, List.length_map] at this
  rw [← List.length_eq_zero_iff, this, List.length_eq_zero_iff]

theorem end_sum {W : World} (hW : Consistent W) {st st' : St} (I : SumInv W st)
    (h : endOfDecaymodes W st = .ok st') : DoneInv W st'.done ∧
      ∀ k s, st.mother = some k → s ∈ (W.M k).states → (W.T s).stable = false → st'.done s ≠ [] := by
  unfold endOfDecaymodes at h
  cases hM : st.mother with
  | none =>
    rw [hM] at h; cases h
    exact ⟨⟨I.done, I.pair⟩, by simp⟩
  | some M =>
    rw [hM] at h
    simp only at h
    cases h1 : (W.M M).states.foldlM (finishState W st.pending) st.done with
    | error e => rw [h1] at h; cases h
    | ok done =>
      rw [h1] at h
      have F := finish_spec h1
      have hnd (k : Nat) : Normalised (done k) := by
        obtain ⟨f1, f2⟩ := F k
        by_cases hk : k ∈ (W.M M).states
        · obtain ⟨b, hr, -⟩ := f2 hk
          exact renorm_normalised (I.pend k) hr
        · rw [f1 hk]; exact I.done k
      have hunst (s : Nat) (hs : s ∈ (W.M M).states) (hu : (W.T s).stable = false) : done s ≠ [] := by
        obtain ⟨b, hr, hst⟩ := (F s).2 hs
        intro e
        rw [renorm_nil hr] at e
        rw [hst e] at hu; cases hu
      cases hA : (W.M M).hasAnti with
      | false =>
        rw [hA] at h; cases h
        refine ⟨⟨hnd, ?_⟩, fun k s hk => by cases hk; exact hunst s⟩
        intro k s a hk hs ha
        obtain ⟨a', k', e1, e2, e3, -⟩ := hW.other k s hk hs
        rw [ha] at e1; cases e1
        have n1 : s ∉ (W.M M).states := fun h => by
          have := hW.unique _ _ _ h hs; subst this; rw [hA] at hk; cases hk
        have n2 : a ∉ (W.M M).states := fun h => by
          have := hW.unique _ _ _ h e2; subst this; rw [hA] at e3; cases e3
        simp only
        rw [(F s).1 n1, (F a).1 n2]
        exact I.pair k s a hk hs ha
      | true =>
        rw [hA] at h
        cases h2 : (W.M M).states.foldlM (antiState W) ⟨st.types, done⟩ with
        | error e =>
          simp only [bind, Except.bind, if_true, h2] at h
          cases h
        | ok db =>
          simp only [bind, Except.bind, if_true, h2] at h
          cases h
          have hsep (s a : Nat) (hs : s ∈ (W.M M).states) (ha : (W.T s).anti = some a) :
              a ∉ (W.M M).states := by
            intro h
            obtain ⟨a', k', e1, e2, -, e4⟩ := hW.other M s hA hs
            rw [ha] at e1; cases e1
            exact e4 (hW.unique _ _ _ e2 h)
          obtain ⟨A1, A2⟩ := anti_fold hW.invol (W.M M).states (hW.nodup M)
            (fun s hs => by obtain ⟨a, _, e, -⟩ := hW.other M s hA hs; exact ⟨a, e⟩) h2
            (fun s _ => hnd s)
            (fun s a hs ha => by
              simp only
              rw [(F a).1 (hsep s a hs ha), ← I.pair M s a hA hs ha]
              exact I.fresh M s hM hs) hsep
          simp only at A1 A2
          have keep (s : Nat) (hs : s ∈ (W.M M).states) : db.modes s = done s :=
            A2 s (fun s' hs' e => hsep s' s hs' e hs)
          refine ⟨⟨?_, ?_⟩, fun k s hk hs hu => by cases hk; simp only; rw [keep s hs]; exact hunst s hs hu⟩
          · intro k
            by_cases hk : ∃ s ∈ (W.M M).states, (W.T s).anti = some k
            · obtain ⟨s, hs, e⟩ := hk
              exact (A1 s k hs e).1
            · simp only
              rw [A2 k (fun s hs e => hk ⟨s, hs, e⟩)]; exact hnd k
          · intro k s a hk hs ha
            simp only
            by_cases hs1 : s ∈ (W.M M).states
            · rw [keep s hs1]; exact (A1 s a hs1 ha).2.symm
            · by_cases ha1 : a ∈ (W.M M).states
              · rw [keep a ha1]
                exact (A1 a s ha1 (hW.invol _ _ ha)).2
              · have n1 : db.modes s = done s := A2 s (fun s' hs' e => by
                  have := hW.invol _ _ e
                  rw [ha] at this; cases this; exact ha1 hs')
                have n2 : db.modes a = done a := A2 a (fun s' hs' e => by
                  have := hW.invol _ _ e
                  rw [hW.invol _ _ ha] at this; cases this; exact hs1 hs')
                rw [n1, n2, (F s).1 hs1, (F a).1 ha1]
                exact I.pair k s a hk hs ha

theorem addPending_sum {W : World} {st st' : St} {m : Nat} {r : ℚ} {L : Int} {p : List Nat} (hr : 0 < r)
    (I : SumInv W st) (h : addPending W st m r L p = .ok st') : SumInv W st' := by
  unfold addPending at h
  cases h1 : addMode W ⟨st.types, st.pending⟩ m r L p with
  | error e => rw [h1] at h; cases h
  | ok db =>
    rw [h1] at h; cases h
    obtain ⟨types, i, -, rfl⟩ := addMode_ok h1
    refine ⟨I.done, ?_, I.pair, I.fresh⟩
    intro k d hd
    simp only at hd
    split_ifs at hd
    · exact addTo_pos _ _ hr _ (I.pend k) d hd
    · exact I.pend k d hd

theorem branch_sum {W : World} {st : St} {M : Nat} {ratio : ℚ} {L : Int} {ds : List String} {b : Bool}
    {r : Read} (hr : 0 < ratio) (I : SumInv W st)
    (h : (if b = true then multiBranch W st M ratio L (ds.filterMap W.findMult)
      else stateBranch W st M ratio L ds) = .ok r) : SumInv W r.st := by
  have hcombos {cs : List (Nat × List Nat × ℚ)} {st1 : St} (h : addCombos W ratio L st cs = .ok st1) :
      SumInv W st1 := by
    unfold addCombos at h
    refine foldlM_inv (SumInv W) ?_ I h
    intro s1 c s2 hc i h12
    rw [List.mem_filter] at hc
    exact addPending_sum (mul_pos hr (by simpa using hc.2)) i h12
  split_ifs at h with hb
  · unfold multiBranch at h
    simp only at h
    split at h
    · split at h
      · cases h
      · split_ifs at h
        cases h1 : addCombos W ratio L st (combos W M (ds.filterMap W.findMult)) with
        | error e => rw [h1] at h; cases h
        | ok st1 => rw [h1] at h; cases h; exact hcombos h1
    · split at h
      · cases h
      · cases h1 : addCombos W ratio L st (combos W M (ds.filterMap W.findMult)) with
        | error e => rw [h1] at h; cases h
        | ok st1 => rw [h1] at h; cases h; exact hcombos h1
    · cases h
  · unfold stateBranch at h
    cases hts : ds.mapM W.findState with
    | none => rw [hts] at h; cases h
    | some ts =>
      rw [hts] at h
      simp only at h
      cases hl : stateLimits W (W.M M).spin ts with
      | error e => rw [hl] at h; cases h
      | ok x =>
        obtain ⟨lo, hi⟩ := x
        rw [hl] at h
        simp only [bind, Except.bind] at h
        split_ifs at h
        cases h1 : List.foldlM (fun st m => addPending W st m ratio L ts) st
            ((W.M M).states.filter fun m => (W.T m).charge == (ts.map fun t => (W.T t).charge).sum) with
        | error e => rw [h1] at h; cases h
        | ok st1 =>
          rw [h1] at h; cases h
          exact foldlM_inv (SumInv W) (fun s1 m s2 _ i h12 => addPending_sum hr i h12) I h1

theorem section_ok {W : World} {st st' : St} {name : String} (h : sectionLine W st name = .ok st') :
    ∃ st1 M, endOfDecaymodes W st = .ok st1 ∧ W.findMult name = some M ∧
      (∀ s ∈ (W.M M).states, st1.done s = []) ∧
      st' = { st1 with mother := some M, pending := fun _ => [] } := by
  unfold sectionLine at h
  cases h1 : endOfDecaymodes W st with
  | error e => rw [h1] at h; cases h
  | ok st1 =>
    rw [h1] at h
    simp only [bind, Except.bind] at h
    cases hf : W.findMult name with
    | none => rw [hf] at h; cases h
    | some M =>
      rw [hf] at h
      simp only at h
      split_ifs at h with hd
      cases h
      refine ⟨st1, M, rfl, rfl, ?_, rfl⟩
      intro s hs
      simp only [List.any_eq_true, Bool.not_eq_true', not_exists, not_and, Bool.not_eq_false,
        List.isEmpty_iff] at hd
      exact hd s hs

theorem line_sum {W : World} (hW : Consistent W) {st st' : St} {l : Line}
    (hl : ∀ r L ds, l = .mode r L ds → 0 < r) (I : SumInv W st) (h : lineStep W st l = .ok st') :
    SumInv W st' := by
  cases l with
  | «section» name =>
    obtain ⟨st1, M, h1, -, h3, rfl⟩ := section_ok h
    obtain ⟨J, -⟩ := end_sum hW I h1
    exact ⟨J.norm, by simp, J.pair, fun k s hk hs => by cases hk; exact h3 s hs⟩
  | mode ratio L ds =>
    obtain ⟨-, M, b, r, m0, ms, -, -, h1, h2, -⟩ := modeLine_ok h
    have := branch_sum (hl _ _ _ rfl) I h1
    rw [finalChecks_st h2]
    exact this

/-- **C37** for a whole file: if all ratios in the file are positive and the multiplets are
consistent, then after loading every particle (including the antiparticles whose modes are
generated) has no decay modes or positive branching ratios with sum 1 up to `10⁻⁶`. -/
theorem C37_loaded (W : World) (hW : Consistent W) (lines : List Line)
    (hr : ∀ r L ds, Line.mode r L ds ∈ lines → 0 < r) (db : DB) (h : load W lines = .ok db) :
    ∀ m, Normalised (db.modes m) := by
  obtain ⟨st1, st, h1, h2, rfl, -⟩ := load_ok h
  have h0 : SumInv W St.init := by
    refine ⟨?_, ?_, ?_, ?_⟩ <;> simp [St.init, Normalised]
  have i1 := foldlM_inv (SumInv W) (fun b a b' ha hb hs =>
    line_sum hW (fun r L ds e => hr r L ds (e ▸ ha)) hb hs) h0 h1
  exact (end_sum hW i1 h2).1.norm

/-- The sign of a parity. -/
def sgn (p : Bool) : Int := if p then 1 else -1

/-- **C38** for a file: a mode line that is accepted (here as the step of the loop, in any state)
satisfies the limits of the angular momentum for its daughters, and for two daughters parity
conservation. For multiplets of three the spin of the second daughter is used for the third one, so
nothing is claimed there. -/
theorem C38_line (W : World) (st st' : St) (ratio : ℚ) (L : Int) (ds : List String)
    (h : modeLine W st ratio L ds = .ok st') : ∃ M m0 ms, st.mother = some M ∧
    (W.M M).states = m0 :: ms ∧ 0 ≤ L ∧
    ((∃ d1 d2 k1 k2, ds = [d1, d2] ∧ W.findMult d1 = some k1 ∧ W.findMult d2 = some k2 ∧
        accepts2 (W.M M).spin (W.M k1).spin (W.M k2).spin L ∧
        sgn (W.M k1).parity * sgn (W.M k2).parity * (-1) ^ L.toNat = sgn (W.T m0).parity) ∨
     (∃ d1 d2 t1 t2, ds = [d1, d2] ∧ W.findState d1 = some t1 ∧ W.findState d2 = some t2 ∧
        accepts2 (W.M M).spin (W.T t1).spin (W.T t2).spin L ∧
        sgn (W.T t1).parity * sgn (W.T t2).parity * (-1) ^ L.toNat = sgn (W.T m0).parity) ∨
     (∃ d1 d2 d3 t1 t2 t3, ds = [d1, d2, d3] ∧ W.findState d1 = some t1 ∧ W.findState d2 = some t2 ∧
        W.findState d3 = some t3 ∧
        accepts3 (W.M M).spin (W.T t1).spin (W.T t2).spin (W.T t3).spin L) ∨
     (ds.length = 3 ∧ ∀ d ∈ ds, ∃ k, W.findMult d = some k ∧ (W.M k).hadron = true)) := by
  obtain ⟨hL, M, b, r, m0, ms, e1, e2, e3, e4, e5⟩ := modeLine_ok h
  refine ⟨M, m0, ms, e1, e2, hL, ?_⟩
  have hlim : r.minL ≤ L ∧ L ≤ r.maxL := by
    unfold finalChecks at e4
    simp only at e4
    split_ifs at e4 <;> omega
  have hpar (hn : ds.length = 2) (x y : Bool) (hxy : r.parity = parityProd [x, y]) :
      sgn x * sgn y * (-1) ^ L.toNat = sgn (W.T m0).parity := by
    have e : (if L % 2 = 1 then !r.parity else r.parity) = (W.T m0).parity := by
      by_contra hne
      unfold finalChecks at e4
      simp only at e4
      rw [if_pos ⟨hn, hne⟩] at e4
      cases e4
    rw [← e, hxy]
    by_cases h2 : L % 2 = 1
    · rw [if_pos h2]
      have : Odd L.toNat := by rw [Nat.odd_iff]; omega
      rw [this.neg_one_pow]
      cases x <;> cases y <;> rfl
    · rw [if_neg h2]
      have : Even L.toNat := by rw [Nat.even_iff]; omega
      rw [this.neg_one_pow]
      cases x <;> cases y <;> rfl
  split_ifs at e3 with hb
  · have hall := e5.1 hb
    have hlen : (ds.filterMap W.findMult).length = ds.length := by
      clear e3 e4 h e5 hpar
      induction ds with
      | nil => rfl
      | cons d ds ih =>
        obtain ⟨k, hk, -⟩ := hall d (by simp)
        rw [List.filterMap_cons_some hk, List.length_cons, List.length_cons,
          ih (fun d hd => hall d (by simp [hd]))]
    unfold multiBranch at e3
    simp only at e3
    split at e3
    · rename_i k1 k2 hk
      left
      match ds, hlen, hk with
      | [d1, d2], _, hk =>
        obtain ⟨q1, hq1, -⟩ := hall d1 (by simp)
        obtain ⟨q2, hq2, -⟩ := hall d2 (by simp)
        simp only [List.filterMap_cons, hq1, hq2, List.filterMap_nil, List.cons.injEq, and_true] at hk
        obtain ⟨rfl, rfl⟩ := hk
        refine ⟨d1, d2, q1, q2, rfl, hq1, hq2, ?_⟩
        cases hm : minL2 (W.M M).spin (W.M q1).spin (W.M q2).spin with
        | none => rw [hm] at e3; cases e3
        | some lo =>
          rw [hm] at e3
          simp only at e3
          split_ifs at e3
          cases h1 : addCombos W ratio L st (combos W M (([d1, d2]).filterMap W.findMult)) with
          | error e => rw [h1] at e3; cases e3
          | ok st1 => rw [h1] at e3; cases e3; exact ⟨⟨lo, hm, hlim.1, hlim.2⟩, hpar rfl _ _ rfl⟩
      | [], h, hk => simp at hk
      | [_], h, hk => rw [hk] at h; simp at h
      | _ :: _ :: _ :: _, h, hk => rw [hk] at h; simp at h
    · rename_i k1 k2 k3 hk
      right; right; right
      rw [hk] at hlen
      exact ⟨by simpa using hlen.symm, hall⟩
    · cases e3
  · unfold stateBranch at e3
    cases hts : ds.mapM W.findState with
    | none => rw [hts] at e3; cases e3
    | some ts =>
      rw [hts] at e3
      simp only at e3
      cases hl : stateLimits W (W.M M).spin ts with
      | error e => rw [hl] at e3; cases e3
      | ok x =>
        obtain ⟨lo, hi⟩ := x
        rw [hl] at e3
        simp only [bind, Except.bind] at e3
        split_ifs at e3 with hemp
        clear hemp
        cases h1 : List.foldlM (fun st m => addPending W st m ratio L ts) st
            ((W.M M).states.filter fun m => (W.T m).charge == (ts.map fun t => (W.T t).charge).sum) with
        | error e => rw [h1] at e3; cases e3
        | ok st1 =>
          rw [h1] at e3; cases e3
          simp only at hlim
          have hmap : ds.map W.findState = ts.map some := by
            clear e4 e5 h h1 hl hlim hpar
            induction ds generalizing ts with
            | nil => simp at hts; subst hts; rfl
            | cons d ds ih =>
              rw [List.mapM_cons] at hts
              cases hd : W.findState d with
              | none => rw [hd] at hts; cases hts
              | some t =>
                rw [hd] at hts
                cases hrest : ds.mapM W.findState with
                | none => rw [hrest] at hts; cases hts
                | some ts' =>
                  rw [hrest] at hts; cases hts
                  rw [List.map_cons, List.map_cons, hd, ih _ hrest]
          unfold stateLimits at hl
          split at hl
          · right; left
            rename_i t1 t2
            match ds, hmap with
            | [d1, d2], hmap =>
              simp only [List.map_cons, List.map_nil, List.cons.injEq, and_true] at hmap
              refine ⟨d1, d2, t1, t2, rfl, hmap.1, hmap.2, ?_⟩
              split at hl
              · cases hl
              · rename_i m hm
                cases hl
                exact ⟨⟨_, hm, hlim.1, hlim.2⟩, hpar rfl _ _ rfl⟩
            | [], hmap => simp at hmap
            | [_], hmap => simp at hmap
            | _ :: _ :: _ :: _, hmap => simp at hmap
          · right; right; left
            rename_i t1 t2 t3
            match ds, hmap with
            | [d1, d2, d3], hmap =>
              simp only [List.map_cons, List.map_nil, List.cons.injEq, and_true] at hmap
              refine ⟨d1, d2, d3, t1, t2, t3, rfl, hmap.1, hmap.2.1, hmap.2.2, ?_⟩
              split at hl
              · cases hl
              · rename_i m hm
                cases hl
                exact ⟨_, hm, hlim.1, hlim.2⟩
            | [], hmap => simp at hmap
            | [_], hmap => simp at hmap
            | [_, _], hmap => simp at hmap
            | _ :: _ :: _ :: _ :: _, hmap => simp at hmap
          · cases hl

/-! ### Concrete files -/

/-- Kaons (0: K⁺, 1: K⁰, 2: K⁻, 3: K̄⁰) and the ρ (4: ρ⁻, 5: ρ⁰, 6: ρ⁺); the pion 7 stands for
a spinless particle. Multiplets 0: K, 1: K̄, 2: ρ. The coefficients are those of two isospins 1/2. -/
def kaons : World where
  n := 7
  T := fun i => match i with
    | 0 => ⟨1, 0, false, true, 1/2, 1/2, some 2⟩
    | 1 => ⟨0, 0, false, true, 1/2, 1/2, some 3⟩
    | 2 => ⟨-1, 0, false, true, 1/2, 1/2, some 0⟩
    | 3 => ⟨0, 0, false, true, 1/2, 1/2, some 1⟩
    | 4 => ⟨-1, 2, false, false, 2, 1/4, some 6⟩
    | 5 => ⟨0, 2, false, false, 2, 1/4, none⟩
    | 6 => ⟨1, 2, false, false, 2, 1/4, some 4⟩
    | _ => ⟨0, 0, false, true, 0, 0, none⟩
  M := fun i => match i with
    | 0 => ⟨[0, 1], 0, false, true, true⟩
    | 1 => ⟨[2, 3], 0, false, true, true⟩
    | 2 => ⟨[4, 5, 6], 2, false, false, true⟩
    | _ => ⟨[], 0, false, false, false⟩
  findMult := fun s => if s = "K" then some 0 else if s = "Kbar" then some 1
    else if s = "rho" then some 2 else none
  exists' := fun _ => false
  findState := fun _ => none
  leptonPair := fun _ => false
  cg2 := fun a b m =>
    -- doubled isospin components of the kaons and of the ρ
    let i3 : Nat → Int := fun i => match i with
      | 0 => 1 | 1 => -1 | 2 => -1 | 3 => 1 | 4 => -2 | 5 => 0 | 6 => 2 | _ => 0
    if i3 a + i3 b = i3 m then (if i3 m = 0 then 1/2 else 1) else 0
  cg3 := fun _ _ _ _ => 0

/-- **C71** is false: the (wrong) line "ρ decays into K K" is accepted although ρ⁺ → K⁺K⁺ violates
charge conservation (and strangeness): only isospin is checked for multiplets. -/
theorem C71_charge_violated : ∃ db, load kaons [.section "rho", .mode 1 1 ["K", "K"]] = .ok db ∧
    ∃ d ∈ db.modes 6, ∃ t, db.types[d.ty]? = some t ∧
      (t.parts.map fun p => (kaons.T p).charge).sum = 2 ∧ (kaons.T 6).charge = 1 := by
  have h : (load kaons [.section "rho", .mode 1 1 ["K", "K"]]).toOption.map
      (fun db => (db.types, db.modes 6)) =
      some ([⟨none, [1, 1], 1⟩, ⟨none, [0, 1], 1⟩, ⟨none, [0, 0], 1⟩], [⟨2, 1⟩]) := by decide +kernel
  cases hl : load kaons [.section "rho", .mode 1 1 ["K", "K"]] with
  | error e => rw [hl] at h; cases h
  | ok db =>
    rw [hl] at h
    simp only [Except.toOption, Option.map_some, Option.some.injEq, Prod.mk.injEq] at h
    refine ⟨db, rfl, ⟨2, 1⟩, by rw [h.2]; simp, ⟨none, [0, 0], 1⟩, by rw [h.1]; rfl, by decide, rfl⟩

/-- The correct line: the hypotheses of `C71_loaded_partial` and `C37_loaded` are met by a file that
loads. (The coefficients are restricted to a kaon and an antikaon, as in the real tables for "K K̄".) -/
example : (load kaons [.section "rho", .mode 1 1 ["K", "Kbar"]]).toOption.map
    (fun db => (db.modes 4, db.modes 5, db.modes 6)) =
    some ([⟨0, 1⟩], [⟨1, 1/2⟩, ⟨2, 1/2⟩], [⟨3, 1⟩]) := by decide +kernel

theorem kaons_consistent : Consistent kaons := by
  refine ⟨?_, ?_, ?_, ?_⟩
  · intro k k' s h h'
    match k, k' with
    | 0, 0 | 1, 1 | 2, 2 => rfl
    | 0, 1 | 0, 2 | 1, 0 | 1, 2 | 2, 0 | 2, 1 =>
      simp [kaons] at h h'; omega
    | k + 3, _ => simp [kaons] at h
    | 0, k + 3 | 1, k + 3 | 2, k + 3 => simp [kaons] at h'
  · intro k
    match k with
    | 0 | 1 | 2 => decide
    | k + 3 => simp [kaons]
  · intro s a h
    match s with
    | 0 | 1 | 2 | 3 | 4 | 6 => simp [kaons] at h; subst h; rfl
    | 5 => simp [kaons] at h
    | s + 7 => simp [kaons] at h
  · intro k s hk hs
    match k with
    | 0 =>
      simp [kaons] at hs
      rcases hs with rfl | rfl
      · exact ⟨2, 1, rfl, by decide, rfl, by decide⟩
      · exact ⟨3, 1, rfl, by decide, rfl, by decide⟩
    | 1 =>
      simp [kaons] at hs
      rcases hs with rfl | rfl
      · exact ⟨0, 0, rfl, by decide, rfl, by decide⟩
      · exact ⟨1, 0, rfl, by decide, rfl, by decide⟩
    | 2 => simp [kaons] at hk
    | k + 3 => simp [kaons] at hk

theorem addCombos_defined (W : World) (ratio : ℚ) (L : Int) (cs : List (Nat × List Nat × ℚ))
    (h : ∀ c ∈ cs, c.2.1.length = 2 ∨ c.2.1.length = 3) (st : St) :
    ∃ st', addCombos W ratio L st cs = .ok st' := by
  unfold addCombos
  have h' : ∀ c ∈ cs.filter fun c => decide (0 < c.2.2), c.2.1.length = 2 ∨ c.2.1.length = 3 :=
    fun c hc => h c (List.mem_filter.1 hc).1
  generalize (cs.filter fun c => decide (0 < c.2.2)) = l at h'
  induction l generalizing st with
  | nil => exact ⟨st, rfl⟩
  | cons c l ih =>
    rw [List.foldlM_cons]
    obtain ⟨db, hdb⟩ := C37_add_mode_defined W ⟨st.types, st.pending⟩ c.1 (ratio * c.2.2) L c.2.1 (h' c (by simp))
    have : addPending W st c.1 (ratio * c.2.2) L c.2.1 = .ok { st with types := db.types, pending := db.modes } := by
      unfold addPending; rw [hdb]; rfl
    rw [this]
    exact ih _ (fun c hc => h' c (by simp [hc]))

/-- **C38** is false for multiplets of three: with daughters of spins 0, 0, 1 and a mother of spin 0,
L = 0 is accepted although it cannot conserve angular momentum, because the spin of the second
daughter is used for the third. -/
theorem C38_three_multiplets_wrong (W : World) (st : St) (M k1 k2 k3 : Nat) (ratio : ℚ)
    (h0 : (W.M M).spin = 0) (h1 : (W.M k1).spin = 0) (h2 : (W.M k2).spin = 0) (_h3 : (W.M k3).spin = 2) :
    (∃ r, multiBranch W st M ratio 0 [k1, k2, k3] = .ok r ∧ r.minL ≤ 0 ∧ 0 ≤ r.maxL) ∧
    ¬Couples3 0 0 0 2 0 := by
  constructor
  · unfold multiBranch
    simp only [h0, h1, h2]
    have : minL3 0 0 0 0 = some 0 := by decide
    rw [this]
    simp only
    obtain ⟨st1, h⟩ := addCombos_defined W ratio 0 (combos W M [k1, k2, k3]) (by
      intro c hc
      unfold combos at hc
      simp only [List.mem_flatMap, List.mem_map] at hc
      obtain ⟨m, -, a, -, b, -, c', -, rfl⟩ := hc
      exact .inr rfl) st
    rw [h]
    exact ⟨_, rfl, le_refl _, le_refl _⟩
  · rintro ⟨S12, S, ⟨a1, a2, -⟩, ⟨b1, b2, -⟩, c1, c2, -⟩
    simp only [Int.abs_eq_natAbs] at *
    omega

/-- A mode line before the first section header is undefined behaviour (null pointer). -/
theorem C71_mode_before_section (W : World) (ratio : ℚ) (L : Int) (ds : List String) (hL : 0 ≤ L)
    (hd : ∀ d ∈ ds, (W.findMult d).isSome) (rest : List Line) :
    load W (.mode ratio L ds :: rest) = .error .ub := by
  have h : modeLine W St.init ratio L ds = .error .ub := by
    unfold modeLine
    rw [if_neg (not_lt.2 hL)]
    have : (ds.any fun d => (W.findMult d).isNone && !W.exists' d) = false := by
      rw [List.any_eq_false]
      intro d hd'
      have := hd d hd'
      rw [← Option.not_isSome]
      simp [this]
    rw [this]
    rfl
  unfold load
  rw [List.foldlM_cons]
  show (do let st ← (do let x ← modeLine W St.init ratio L ds; rest.foldlM (lineStep W) x); _) = _
  rw [h]
  rfl

end Verif.Decay
