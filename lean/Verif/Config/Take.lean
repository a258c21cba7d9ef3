import Verif.Config.Tree
/-! C40: keys are consumed exactly once. -/
namespace Verif.Config

/-- What a user can do with the keys of a configuration. -/
inductive Op (T : Type) where
  | take (k : Key T)
  | takeOr (k : Key T) (d : T)
  | read (k : Key T)

/-- The labels of the key of an operation. -/
def Op.labels {T : Type} : Op T → List String
  | .take k => k.labels
  | .takeOr k _ => k.labels
  | .read k => k.labels

/-- State after an operation, and its result. -/
def Op.run {T : Type} (st : State) : Op T → Except Err T × State
  | .take k => Config.take st k
  | .takeOr k d => Config.takeOr st k d
  | .read k => (Config.read st k, st)

/-- State after a history of operations (exceptions are caught by the caller). -/
def runAll {T : Type} (st : State) : List (Op T) → State
  | [] => st
  | o :: os => runAll (o.run st).2 os

/-- Specification: the operation consumes the key at path `e.1` with value `e.2`: it takes a key with
these labels and a value, or takes as a map a section that contains the key. -/
def Takes {T : Type} (o : Op T) (e : List String × Node) : Prop :=
  match o with
  | .take k => (e.1 = k.labels ∧ e.2 ≠ .null) ∨ (k.isMap = true ∧ k.labels <+: e.1 ∧ e.1 ≠ k.labels)
  | .takeOr k d => k.dependent = true ∧ k.valid d = true ∧ e.1 = k.labels ∧ e.2 ≠ .null
  | .read _ => False

theorem isNull_iff (n : Node) : n.isNull = true ↔ n = .null := by cases n <;> simp [Node.isNull]

theorem takeNode_leaves {T : Type} (st : State) (k : Key T) (hw : st.root.WF) (hk : k.labels ≠ []) (n : Node)
    (h : findNode st.root k.labels = .ok (some n)) :
    (takeNode st k).1 = convert k n ∧ (takeNode st k).2.root.WF ∧ NoEmpty (takeNode st k).2.root ∧
    k.labels ∈ (takeNode st k).2.taken ∧ (∀ l ∈ st.taken, l ∈ (takeNode st k).2.taken) ∧
    (∀ l ∈ (takeNode st k).2.taken, l ∈ st.taken ∨ l = k.labels) ∧
    ∀ e, e ∈ (takeNode st k).2.root.leaves ↔ e ∈ st.root.leaves ∧ ¬k.labels <+: e.1 := by
  unfold takeNode
  rw [h]
  have hr := removeAt_wf k.labels st.root hw
  refine ⟨rfl, clean_wf _ hr, clean_noEmpty _ hr, ?_, ?_, ?_, ?_⟩
  · simp only; split <;> simp_all
  · intro l hl; simp only; split <;> simp_all
  · intro l hl
    simp only at hl
    split at hl
    · exact Or.inl hl
    · rcases List.mem_append.1 hl with h | h
      · exact Or.inl h
      · exact Or.inr (by simpa using h)
  · rintro ⟨p, v⟩
    simp only
    rw [clean_leaves _ _ hr, removeAt_leaves _ _ hw hk]

/-- The three situations of a key. -/
theorem key_cases (st : State) (ls : List String) (hw : st.root.WF) :
    (∃ n, findNode st.root ls = .ok (some n) ∧ n.isMap = false ∧ (ls, n) ∈ st.root.leaves) ∨
    (∃ f, findNode st.root ls = .ok (some (.map f)) ∧ ∀ v, (ls, v) ∉ st.root.leaves) ∨
    ((∀ m, findNode st.root ls ≠ .ok (some m)) ∧ ∀ e ∈ st.root.leaves, ¬ls <+: e.1) := by
  by_cases h : ∃ m, findNode st.root ls = .ok (some m)
  · obtain ⟨m, hm⟩ := h
    cases hmap : m.isMap with
    | false => exact Or.inl ⟨m, hm, hmap, (findNode_leaf ls st.root m hw hmap).1 hm⟩
    | true =>
      cases m with
      | map f =>
        refine Or.inr (Or.inl ⟨f, hm, ?_⟩)
        intro v hv
        have := findNode_below ls st.root (.map f) hw hm [] v
        rw [List.append_nil] at this
        exact leaf_map_ne_nil f _ _ (this.1 hv) rfl
      | _ => cases hmap
  · have h' : ∀ m, findNode st.root ls ≠ .ok (some m) := fun m hm => h ⟨m, hm⟩
    refine Or.inr (Or.inr ⟨h', ?_⟩)
    rintro ⟨p, v⟩ he ⟨q, hq⟩
    simp only at hq
    rw [← hq] at he
    exact findNode_absent ls st.root hw h' q v he

/-- One `take`. -/
theorem take_spec {T : Type} (st : State) (k : Key T) (hw : st.root.WF) (hk : k.labels ≠ []) :
    (take st k).2.root.WF ∧
    (∀ l ∈ st.taken, l ∈ (take st k).2.taken) ∧
    ((take st k).2 = st ∨ (NoEmpty (take st k).2.root ∧ k.labels ∈ (take st k).2.taken)) ∧
    (∀ e, e ∈ (take st k).2.root.leaves ↔ e ∈ st.root.leaves ∧ ¬Takes (.take k) e) ∧
    ((∃ e ∈ st.root.leaves, Takes (.take k) e) →
      NoEmpty (take st k).2.root ∧ k.labels ∈ (take st k).2.taken) := by
  have hsame (he : ∀ e ∈ st.root.leaves, ¬Takes (.take k) e) (hst : (take st k).2 = st) :
      (take st k).2.root.WF ∧
      (∀ l ∈ st.taken, l ∈ (take st k).2.taken) ∧
      ((take st k).2 = st ∨ (NoEmpty (take st k).2.root ∧ k.labels ∈ (take st k).2.taken)) ∧
      (∀ e, e ∈ (take st k).2.root.leaves ↔ e ∈ st.root.leaves ∧ ¬Takes (.take k) e) ∧
      ((∃ e ∈ st.root.leaves, Takes (.take k) e) →
        NoEmpty (take st k).2.root ∧ k.labels ∈ (take st k).2.taken) := by
    rw [hst]
    exact ⟨hw, fun l hl => hl, Or.inl rfl, fun e => ⟨fun h => ⟨h, he e h⟩, fun h => h.1⟩,
      fun ⟨e, h1, h2⟩ => absurd h2 (he e h1)⟩
  have hdone (n : Node) (h : findNode st.root k.labels = .ok (some n)) (hst : take st k = takeNode st k)
      (he : ∀ e ∈ st.root.leaves, Takes (.take k) e ↔ k.labels <+: e.1) :
      (take st k).2.root.WF ∧
      (∀ l ∈ st.taken, l ∈ (take st k).2.taken) ∧
      ((take st k).2 = st ∨ (NoEmpty (take st k).2.root ∧ k.labels ∈ (take st k).2.taken)) ∧
      (∀ e, e ∈ (take st k).2.root.leaves ↔ e ∈ st.root.leaves ∧ ¬Takes (.take k) e) ∧
      ((∃ e ∈ st.root.leaves, Takes (.take k) e) →
        NoEmpty (take st k).2.root ∧ k.labels ∈ (take st k).2.taken) := by
    rw [hst]
    obtain ⟨_, h2, h3, h4, h5, _, h6⟩ := takeNode_leaves st k hw hk n h
    refine ⟨h2, h5, Or.inr ⟨h3, h4⟩, ?_, fun _ => ⟨h3, h4⟩⟩
    intro e
    rw [h6 e]
    constructor
    · rintro ⟨h7, h8⟩; exact ⟨h7, fun h => h8 ((he e h7).1 h)⟩
    · rintro ⟨h7, h8⟩; exact ⟨h7, fun h => h8 ((he e h7).2 h)⟩
  rcases key_cases st k.labels hw with ⟨n, h1, h2, h3⟩ | ⟨f, h1, h2⟩ | ⟨h1, h2⟩
  · -- a value
    have honly : ∀ e ∈ st.root.leaves, k.labels <+: e.1 → e = (k.labels, n) := by
      rintro ⟨p, v⟩ he ⟨q, hq⟩
      simp only at hq
      rw [← hq] at he
      obtain ⟨h4, h5⟩ := prefix_free _ _ _ _ _ hw h3 he
      rw [← hq, h4, h5]; simp
    by_cases hnull : n = .null
    · subst hnull
      refine hsame ?_ ?_
      · intro e he ht
        rcases ht with ⟨h4, h5⟩ | ⟨_, h5, h6⟩
        · have := honly e he (by rw [h4]; exact List.prefix_rfl)
          rw [this] at h5; exact h5 rfl
        · have := honly e he h5
          rw [this] at h6; exact h6 rfl
      · unfold take hasValue hasSection
        rw [h1]
        simp only [Node.isNull, Node.isMap, Bool.not_true, Bool.false_and]
        split <;> rfl
    · refine hdone n h1 ?_ ?_
      · unfold take hasValue
        rw [h1]
        have : n.isNull = false := by cases n <;> simp_all [Node.isNull]
        simp [this, h2]
      · intro e he
        constructor
        · rintro (⟨h4, _⟩ | ⟨_, h5, _⟩)
          · rw [h4]; exact List.prefix_rfl
          · exact h5
        · intro h
          rw [honly e he h]
          exact Or.inl ⟨rfl, hnull⟩
  · -- a section
    have hne : ∀ e ∈ st.root.leaves, e.1 ≠ k.labels := by
      rintro ⟨p, v⟩ he hp
      simp only at hp
      subst hp
      exact h2 v he
    cases hm : k.isMap with
    | true =>
      refine hdone (.map f) h1 ?_ ?_
      · unfold take hasValue hasSection
        rw [h1]
        simp [Node.isMap, hm]
      · intro e he
        constructor
        · rintro (⟨h4, _⟩ | ⟨_, h5, _⟩)
          · rw [h4]; exact List.prefix_rfl
          · exact h5
        · intro h
          exact Or.inr ⟨hm, h, hne e he⟩
    | false =>
      refine hsame ?_ ?_
      · intro e he ht
        rcases ht with ⟨h4, _⟩ | ⟨h4, _⟩
        · exact hne e he h4
        · rw [hm] at h4; cases h4
      · unfold take hasValue hasSection
        rw [h1]
        simp [Node.isMap, hm]
  · -- absent
    refine hsame ?_ ?_
    · intro e he ht
      rcases ht with ⟨h4, _⟩ | ⟨_, h5, _⟩
      · exact h2 e he (by rw [h4]; exact List.prefix_rfl)
      · exact h2 e he h5
    · unfold take hasValue hasSection
      cases hfn : findNode st.root k.labels with
      | error e => rfl
      | ok o =>
        cases o with
        | some m => exact absurd hfn (h1 m)
        | none => simp only; split <;> rfl

/-- One operation. -/
theorem op_spec {T : Type} (st : State) (o : Op T) (hw : st.root.WF) (hk : o.labels ≠ []) :
    (o.run st).2.root.WF ∧
    (∀ l ∈ st.taken, l ∈ (o.run st).2.taken) ∧
    ((o.run st).2 = st ∨ (NoEmpty (o.run st).2.root ∧ o.labels ∈ (o.run st).2.taken)) ∧
    (∀ e, e ∈ (o.run st).2.root.leaves ↔ e ∈ st.root.leaves ∧ ¬Takes o e) ∧
    ((∃ e ∈ st.root.leaves, Takes o e) → NoEmpty (o.run st).2.root ∧ o.labels ∈ (o.run st).2.taken) := by
  have hsame (he : ∀ e ∈ st.root.leaves, ¬Takes o e) (hst : (o.run st).2 = st) :
      (o.run st).2.root.WF ∧
      (∀ l ∈ st.taken, l ∈ (o.run st).2.taken) ∧
      ((o.run st).2 = st ∨ (NoEmpty (o.run st).2.root ∧ o.labels ∈ (o.run st).2.taken)) ∧
      (∀ e, e ∈ (o.run st).2.root.leaves ↔ e ∈ st.root.leaves ∧ ¬Takes o e) ∧
      ((∃ e ∈ st.root.leaves, Takes o e) → NoEmpty (o.run st).2.root ∧ o.labels ∈ (o.run st).2.taken) := by
    rw [hst]
    exact ⟨hw, fun l hl => hl, Or.inl rfl, fun e => ⟨fun h => ⟨h, he e h⟩, fun h => h.1⟩,
      fun ⟨e, h1, h2⟩ => absurd h2 (he e h1)⟩
  cases o with
  | take k => exact take_spec st k hw hk
  | read k => exact hsame (fun _ _ h => h) rfl
  | takeOr k d =>
    by_cases hdep : k.dependent = true
    · by_cases hval : k.valid d = true
      · have hrun : (Op.takeOr k d).run st = takeOr st k d := rfl
        cases hv : hasValue st k with
        | error e =>
          refine hsame ?_ ?_
          · rintro ⟨p, v⟩ he ⟨_, _, h3, h4⟩
            simp only at h3 h4
            subst h3
            have hm := leaf_not_map _ _ _ hw he
            have := (findNode_leaf _ _ _ hw hm).2 he
            unfold hasValue at hv
            rw [this] at hv
            cases hv
          · rw [hrun]; unfold takeOr; simp [hdep, hval, hv]
        | ok b =>
          cases b with
          | false =>
            refine hsame ?_ ?_
            · rintro ⟨p, v⟩ he ⟨_, _, h3, h4⟩
              simp only at h3 h4
              subst h3
              have hm := leaf_not_map _ _ _ hw he
              have := (findNode_leaf _ _ _ hw hm).2 he
              unfold hasValue at hv
              rw [this] at hv
              simp only [hm, Bool.not_false, Bool.and_true, Except.ok.injEq, Bool.not_eq_false'] at hv
              exact h4 ((isNull_iff v).1 hv)
            · rw [hrun]; unfold takeOr; simp [hdep, hval, hv]
          | true =>
            have e : (Op.takeOr k d).run st = take st k := by
              rw [hrun]; unfold takeOr; simp [hdep, hval, hv]
            rw [e]
            obtain ⟨h1, h2, h3, h4, h5⟩ := take_spec st k hw hk
            -- there is a value under the labels
            have hleaf : ∃ n, (k.labels, n) ∈ st.root.leaves ∧ n ≠ .null := by
              unfold hasValue at hv
              cases hfn : findNode st.root k.labels with
              | error e => rw [hfn] at hv; cases hv
              | ok on =>
                cases on with
                | none => rw [hfn] at hv; simp at hv
                | some n =>
                  rw [hfn] at hv
                  simp only [Except.ok.injEq, Bool.and_eq_true, Bool.not_eq_true'] at hv
                  refine ⟨n, (findNode_leaf _ _ _ hw hv.2).1 hfn, fun hc => ?_⟩
                  rw [hc] at hv
                  simp [Node.isNull] at hv
            obtain ⟨n, hn1, hn2⟩ := hleaf
            have heq : ∀ e ∈ st.root.leaves, Takes (.takeOr k d) e ↔ Takes (.take k) e := by
              rintro ⟨p, v⟩ he
              constructor
              · rintro ⟨_, _, h7, h8⟩; exact Or.inl ⟨h7, h8⟩
              · rintro (⟨h7, h8⟩ | ⟨_, ⟨q, hq⟩, h9⟩)
                · exact ⟨hdep, hval, h7, h8⟩
                · simp only at hq h9
                  rw [← hq] at he
                  have := (prefix_free _ _ _ _ _ hw hn1 he).1
                  rw [this, List.append_nil] at hq
                  exact absurd hq.symm h9
            refine ⟨h1, h2, h3, ?_, ?_⟩
            · intro e
              rw [h4 e]
              constructor
              · rintro ⟨a, b⟩; exact ⟨a, fun h => b ((heq e a).1 h)⟩
              · rintro ⟨a, b⟩; exact ⟨a, fun h => b ((heq e a).2 h)⟩
            · rintro ⟨e, a, b⟩
              exact h5 ⟨e, a, (heq e a).1 b⟩
      · refine hsame (fun e _ h => hval h.2.1) ?_
        show (takeOr st k d).2 = st
        unfold takeOr
        simp [hdep, hval]
    · refine hsame (fun e _ h => hdep h.1) ?_
      show (takeOr st k d).2 = st
      unfold takeOr
      simp [hdep]

/-- **C40** (exactly the taken keys disappear): for every configuration and every history of operations,
the keys that are left, with their values, are the initial ones that no operation of the history takes. -/
theorem C40_history {T : Type} (st : State) (ops : List (Op T)) (hw : st.root.WF)
    (hl : ∀ o ∈ ops, o.labels ≠ []) (e : List String × Node) :
    e ∈ (runAll st ops).root.leaves ↔ e ∈ st.root.leaves ∧ ∀ o ∈ ops, ¬Takes o e := by
  induction ops generalizing st with
  | nil => simp [runAll]
  | cons o os ih =>
    obtain ⟨h1, _, _, h4, _⟩ := op_spec st o hw (hl o (by simp))
    rw [runAll, ih _ h1 (fun o' h => hl o' (by simp [h])), h4 e]
    simp only [List.mem_cons, forall_eq_or_imp]
    tauto

theorem runAll_wf {T : Type} (st : State) (ops : List (Op T)) (hw : st.root.WF)
    (hl : ∀ o ∈ ops, o.labels ≠ []) :
    (runAll st ops).root.WF ∧ (∀ l ∈ st.taken, l ∈ (runAll st ops).taken) ∧
      (NoEmpty st.root → NoEmpty (runAll st ops).root) := by
  induction ops generalizing st with
  | nil => exact ⟨hw, fun l h => h, fun h => h⟩
  | cons o os ih =>
    obtain ⟨h1, h2, h3, _, _⟩ := op_spec st o hw (hl o (by simp))
    obtain ⟨i1, i2, i3⟩ := ih _ h1 (fun o' h => hl o' (by simp [h]))
    refine ⟨i1, fun l h => i2 l (h2 l h), fun h => i3 ?_⟩
    rcases h3 with h3 | h3
    · rw [h3]; exact h
    · exact h3.1

/-- **C40** (value): a key with a value is returned converted and validated by `take`, by `take` with a
default and by `read`; reading changes nothing. -/
theorem C40_value {T : Type} (st : State) (k : Key T) (hw : st.root.WF) (n : Node)
    (h : (k.labels, n) ∈ st.root.leaves) (hn : n ≠ .null) :
    hasValue st k = .ok true ∧ (take st k).1 = convert k n ∧ read st k = convert k n ∧
    ∀ d, k.dependent = true → k.valid d = true → (takeOr st k d).1 = convert k n := by
  have hm := leaf_not_map _ _ _ hw h
  have hf := (findNode_leaf _ _ _ hw hm).2 h
  have hnull : n.isNull = false := by cases n <;> simp_all [Node.isNull]
  have hv : hasValue st k = .ok true := by unfold hasValue; rw [hf]; simp [hnull, hm]
  have ht : (take st k).1 = convert k n := by
    unfold take; rw [hv]; simp only; unfold takeNode; rw [hf]
  refine ⟨hv, ht, ?_, ?_⟩
  · unfold read; rw [hv]; simp only; rw [hf]
  · intro d h1 h2
    unfold takeOr
    simp only [h1, h2, hv, Bool.not_true]
    exact ht

/-- **C40** (absent key): a key without node, which was not taken before, gives its default value, or an
exception if it has none; nothing changes. -/
theorem C40_absent {T : Type} (st : State) (k : Key T) (h : findNode st.root k.labels = .ok none)
    (ht : k.labels ∉ st.taken) :
    take st k = (match k.default with
      | some v => .ok v
      | none => .error .missing, st) := by
  unfold take hasValue hasSection defaultOr
  rw [h]
  simp only [ht, if_false]
  cases k.default <;> rfl

/-- **C40** (taking twice is an error): after a `take` that consumed something, and any further history,
taking the same key again throws. Missing for the full claim: the overload with a default value returns
the default instead (`C40_twice_with_default`), and values set again in between. -/
theorem C40_twice_partial {T : Type} (st : State) (k : Key T) (ops : List (Op T)) (hw : st.root.WF)
    (hk : k.labels ≠ []) (hl : ∀ o ∈ ops, o.labels ≠ [])
    (h : ∃ e ∈ st.root.leaves, Takes (.take k) e) :
    (take (runAll (take st k).2 ops) k).1 = .error .twice := by
  obtain ⟨h1, _, _, h4, h5⟩ := take_spec st k hw hk
  obtain ⟨h6, h7⟩ := h5 h
  obtain ⟨i1, i2, i3⟩ := runAll_wf (take st k).2 ops h1 hl
  have hleaf : ∀ e ∈ (runAll (take st k).2 ops).root.leaves, e ∈ st.root.leaves ∧ ¬Takes (.take k) e := by
    intro e he
    exact (h4 e).1 ((C40_history _ ops h1 hl e).1 he).1
  have htk := i2 _ h7
  have hne := i3 h6
  generalize runAll (take st k).2 ops = st' at *
  obtain ⟨e0, he0, ht0⟩ := h
  have hp0 : k.labels <+: e0.1 := by
    rcases ht0 with ⟨a, _⟩ | ⟨_, a, _⟩
    · rw [a]; exact List.prefix_rfl
    · exact a
  -- nothing is left below the labels
  have hnone : ∀ e ∈ st'.root.leaves, ¬k.labels <+: e.1 := by
    intro e he hp
    obtain ⟨a, b⟩ := hleaf e he
    by_cases hmap : k.isMap = true
    · by_cases heq : e.1 = k.labels
      · by_cases hnull : e.2 = .null
        · -- then the consumed key is this one
          have hq : e0 = e := by
            obtain ⟨q, hq⟩ := hp0
            obtain ⟨p, v⟩ := e
            obtain ⟨p0, v0⟩ := e0
            simp only at heq hq hnull
            subst heq
            rw [← hq] at he0
            obtain ⟨h8, h9⟩ := prefix_free _ _ _ _ _ hw a he0
            rw [← hq, h8, h9]; simp
          rw [hq] at ht0
          exact b ht0
        · exact b (Or.inl ⟨heq, hnull⟩)
      · exact b (Or.inr ⟨hmap, hp, heq⟩)
    · rcases ht0 with ⟨h8, h9⟩ | ⟨h8, _⟩
      · obtain ⟨q, hq⟩ := hp
        obtain ⟨p, v⟩ := e
        obtain ⟨p0, v0⟩ := e0
        simp only at h8 hq h9
        subst h8
        rw [← hq] at a
        obtain ⟨h10, h11⟩ := prefix_free _ _ _ _ _ hw he0 a
        apply b
        left
        simp only
        rw [← hq, h10, ← h11]
        simp [h9]
      · exact absurd h8 hmap
  -- so the search finds no node
  have hfind : findNode st'.root k.labels = .ok none := by
    cases hf : findNode st'.root k.labels with
    | error e =>
      exfalso
      obtain ⟨p, q, l, h8, h9, h10⟩ := findNode_error _ _ i1 e hf
      have h11 := (hleaf _ h10).1
      obtain ⟨r, hr⟩ := hp0
      obtain ⟨p0, v0⟩ := e0
      simp only at hr
      rw [← hr, h8, List.append_assoc] at he0
      have := (prefix_free _ _ _ _ _ hw h11 he0).1
      exact h9 (List.append_eq_nil_iff.1 this).1
    | ok o =>
      cases o with
      | none => rfl
      | some m =>
        exfalso
        have h8 := hne _ _ hk hf
        obtain ⟨⟨p, v⟩, h9⟩ := List.exists_mem_of_ne_nil _ h8
        have := (findNode_below _ _ _ i1 hf p v).2 h9
        exact hnone _ this (by simp)
  unfold take hasValue hasSection
  rw [hfind]
  simp [htk]

theorem findNode_run_isMap {T : Type} (st : State) (o : Op T) (hw : st.root.WF) (hk : o.labels ≠ [])
    (hm : st.root.isMap = true) : (o.run st).2.root.isMap = true := by
  have hclean : (clean (removeAt o.labels st.root)).isMap = true := by
    cases hr : st.root with
    | map f =>
      have : ∃ g, removeAt o.labels (.map f) = .map g := by
        cases hl : o.labels with
        | nil => exact absurd hl hk
        | cons a t =>
          cases t with
          | nil => exact ⟨_, rfl⟩
          | cons b t =>
            rw [removeAt]
            · cases f.find a with
              | none => exact ⟨_, rfl⟩
              | some c => exact ⟨_, rfl⟩
            · simp
      obtain ⟨g, hg⟩ := this
      rw [hg, clean]; rfl
    | _ => rw [hr] at hm; cases hm
  have htn (k : Key T) (hlab : k.labels = o.labels) : (takeNode st k).2.root.isMap = true := by
    unfold takeNode
    cases findNode st.root k.labels with
    | error e => exact hm
    | ok on =>
      cases on with
      | none => exact hm
      | some n => simp only; rw [hlab]; exact hclean
  have ht (k : Key T) (hlab : k.labels = o.labels) : (take st k).2.root.isMap = true := by
    unfold take
    cases hasValue st k with
    | error e => exact hm
    | ok b =>
      cases b with
      | true => exact htn k hlab
      | false =>
        simp only
        cases hasSection st k.labels with
        | error e => exact hm
        | ok c =>
          cases c with
          | true =>
            simp only
            split
            · exact htn k hlab
            · exact hm
          | false => simp only; split <;> exact hm
  cases o with
  | take k => exact ht k rfl
  | read k => exact hm
  | takeOr k d =>
    show (takeOr st k d).2.root.isMap = true
    unfold takeOr
    split
    · exact hm
    · split
      · exact hm
      · cases hasValue st k with
        | error e => exact hm
        | ok b =>
          cases b with
          | true => exact ht k rfl
          | false => exact hm

theorem size_zero (n : Node) (hm : n.isMap = true) (hne : NoEmpty n) : n.size = 0 ↔ n.leaves = [] := by
  cases n with
  | map f =>
    cases f with
    | nil => simp [Node.size, Forest.size, Node.leaves, Forest.leaves]
    | cons k c r =>
      simp only [Node.size, Forest.size, Node.leaves, Forest.leaves]
      constructor
      · intro h; omega
      · intro h
        have hc : c.leaves ≠ [] := hne [k] c (by simp) (by
          rw [findNode, descend, Forest.find, if_pos rfl]
          rfl)
        simp at h
        exact absurd h.1 hc
  | _ => cases hm

/-- **C40** (completely consumed): from a configuration file in which every section contains a key, after
every history the object is empty exactly if every key was taken; otherwise its destruction throws. -/
theorem C40_destructor {T : Type} (st : State) (ops : List (Op T)) (hw : st.root.WF) (hm : st.root.isMap = true)
    (hne : NoEmpty st.root) (hl : ∀ o ∈ ops, o.labels ≠ []) :
    (isEmpty (runAll st ops) = true ↔ ∀ e ∈ st.root.leaves, ∃ o ∈ ops, Takes o e) ∧
    (destroyThrows (runAll st ops) = true ↔ ∃ e ∈ st.root.leaves, ∀ o ∈ ops, ¬Takes o e) := by
  have hmap : (runAll st ops).root.isMap = true := by
    clear hne
    induction ops generalizing st with
    | nil => exact hm
    | cons o os ih =>
      obtain ⟨h1, _⟩ := op_spec st o hw (hl o (by simp))
      exact ih _ h1 (findNode_run_isMap st o hw (hl o (by simp)) hm) (fun o' h => hl o' (by simp [h]))
  have hs := size_zero _ hmap ((runAll_wf st ops hw hl).2.2 hne)
  have key : (runAll st ops).root.size = 0 ↔ ∀ e ∈ st.root.leaves, ∃ o ∈ ops, Takes o e := by
    rw [hs, List.eq_nil_iff_forall_not_mem]
    constructor
    · intro h e he
      by_contra hc
      have : ∀ o ∈ ops, ¬Takes o e := fun o ho ht => hc ⟨o, ho, ht⟩
      exact h e ((C40_history st ops hw hl e).2 ⟨he, this⟩)
    · intro h e he
      obtain ⟨h1, h2⟩ := (C40_history st ops hw hl e).1 he
      obtain ⟨o, h3, h4⟩ := h e h1
      exact h2 o h3 h4
  constructor
  · unfold isEmpty
    rw [beq_iff_eq]
    exact key
  · unfold destroyThrows
    rw [bne_iff_ne, Ne, key]
    constructor
    · intro h
      by_contra hc
      apply h
      intro e he
      by_contra hc2
      exact hc ⟨e, he, fun o ho ht => hc2 ⟨o, ho, ht⟩⟩
    · rintro ⟨e, h1, h2⟩ h
      obtain ⟨o, h3, h4⟩ := h e h1
      exact h2 o h3 h4

/-! ### Where the claim fails -/

/-- An example key of type string. -/
def strKey (labels : List String) (dep : Bool) : Key String where
  labels := labels
  isMap := false
  default := none
  dependent := dep
  conv := fun n => match n with
    | .scalar s => some s
    | _ => none
  valid := fun _ => true

/-- Example: `{A: {x: 1, y: 2}, B: 3}`. -/
def exRoot : Node :=
  .map (.cons "A" (.map (.cons "x" (.scalar "1") (.cons "y" (.scalar "2") .nil))) (.cons "B" (.scalar "3") .nil))

/-- The `take` with a default value does not notice that the key was taken before: it returns the
default. -/
theorem C40_twice_with_default :
    let k := strKey ["B"] true
    let st : State := ⟨exRoot, []⟩
    (takeOr st k "0").1 = .ok "3" ∧ (takeOr (takeOr st k "0").2 k "0").1 = .ok "0" := by
  refine ⟨by rfl, by rfl⟩

/-- A key named by the empty string is removed when any other key is taken. -/
theorem C40_empty_key_lost :
    let st : State := ⟨.map (.cons "B" (.scalar "3") (.cons "" (.scalar "4") .nil)), []⟩
    (take st (strKey ["B"] false)).2.root.leaves = [] := by
  simp [take, hasValue, findNode, descend, strKey, Forest.find, Node.isNull, Node.isMap, takeNode, convert,
    removeAt, clean, cleanKids, Forest.remove, emptyKeys, Forest.size, Node.leaves, Forest.leaves]

/-- With a repeated key the second value is found after the first one was taken. -/
theorem C40_repeated_key :
    let st : State := ⟨.map (.cons "B" (.scalar "3") (.cons "B" (.scalar "4") .nil)), []⟩
    (take st (strKey ["B"] false)).1 = .ok "3" ∧
    (take (take st (strKey ["B"] false)).2 (strKey ["B"] false)).1 = .ok "4" := by
  refine ⟨by rfl, by rfl⟩

/-- Asking for a key below a sequence throws instead of answering no. -/
theorem C40_below_sequence :
    hasValue ⟨.map (.cons "A" (.seq ["1"]) .nil), []⟩ (strKey ["A", "x"] false) = .error .invalidNode := by
  rfl

/-- The hypotheses are met by the example; `B` and `A: x` are taken, `A: y` is left. -/
example : (⟨exRoot, []⟩ : State).root.WF ∧ exRoot.isMap = true ∧
    exRoot.leaves = [(["A", "x"], .scalar "1"), (["A", "y"], .scalar "2"), (["B"], .scalar "3")] ∧
    (runAll ⟨exRoot, []⟩ [Op.take (strKey ["B"] false), Op.take (strKey ["A", "x"] false)]).root.leaves =
      [(["A", "y"], .scalar "2")] ∧
    (take (take ⟨exRoot, []⟩ (strKey ["B"] false)).2 (strKey ["B"] false)).1 = .error .twice := by
  refine ⟨by simp [exRoot, Node.WF, Forest.WF, Forest.keys], rfl, rfl, rfl, rfl⟩

/-- Every section of the example contains a key. -/
example : NoEmpty exRoot := by
  have h : clean exRoot = exRoot := by rfl
  rw [← h]
  exact clean_noEmpty exRoot (by simp [exRoot, Node.WF, Forest.WF, Forest.keys])

end Verif.Config
