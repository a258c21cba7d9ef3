import Verif.Config.Tree
/-! C41: merging configurations. -/
namespace Verif.Config

mutual
/-- No empty section anywhere (`{}`). -/
def Node.Full : Node → Prop
  | .map f => f ≠ .nil ∧ f.Full
  | _ => True
/-- The same for the values of a map. -/
def Forest.Full : Forest → Prop
  | .nil => True
  | .cons _ n r => n.Full ∧ r.Full
end

/-- Two keys exclude each other in one configuration: they are equal or one is a section of the other. -/
def Related (p q : List String) : Prop := p <+: q ∨ q <+: p

/-- `p` names a section of the key `q`. -/
def SectionOf (p q : List String) : Prop := ∃ k r, q = p ++ k :: r

/-- Keys of a possibly undefined node. -/
def leavesO : Option Node → List (List String × Node)
  | none => []
  | some n => n.leaves

/-- Well-formedness of a possibly undefined node. -/
def wfO : Option Node → Prop
  | none => True
  | some n => n.WF

/-- A scalar of the old keys is used as a section by the new keys. -/
def Conflict (la lb : List (List String × Node)) : Prop :=
  ∃ p s, (p, Node.scalar s) ∈ la ∧ ∃ e ∈ lb, SectionOf p e.1

/-- No sequence of the old keys is used as a section by the new keys. -/
def NoSeq (la lb : List (List String × Node)) : Prop :=
  ∀ p l, (p, Node.seq l) ∈ la → ∀ e ∈ lb, ¬SectionOf p e.1

/-- The specification of the merged keys. -/
def Merged (la lb lc : List (List String × Node)) : Prop :=
  ∀ e, e ∈ lc ↔ e ∈ lb ∨ (e ∈ la ∧ ∀ e' ∈ lb, ¬Related e.1 e'.1)

mutual
theorem full_leaves (n : Node) (h : n.Full) : n.leaves ≠ [] := by
  match n, h with
  | .map f, h => rw [Node.leaves]; exact full_leavesF f h.1 h.2
  | .null, _ => simp [Node.leaves]
  | .scalar s, _ => simp [Node.leaves]
  | .seq l, _ => simp [Node.leaves]
theorem full_leavesF (f : Forest) (hne : f ≠ .nil) (h : f.Full) : f.leaves ≠ [] := by
  match f, hne, h with
  | .nil, hne, _ => exact absurd rfl hne
  | .cons k n r, _, h =>
    rw [Forest.leaves]
    have := full_leaves n h.1
    intro hc
    rw [List.append_eq_nil_iff, List.map_eq_nil_iff] at hc
    exact this hc.1
end

theorem related_cons (k : String) (p q : List String) : Related (k :: p) (k :: q) ↔ Related p q := by
  unfold Related
  simp [List.cons_prefix_cons]

theorem not_related_cons (k k' : String) (p q : List String) (h : k ≠ k') : ¬Related (k :: p) (k' :: q) := by
  unfold Related
  rw [List.cons_prefix_cons, List.cons_prefix_cons]
  rintro (h1 | h1)
  · exact h h1.1
  · exact h h1.1.symm

theorem section_cons (k : String) (p q : List String) : SectionOf (k :: p) (k :: q) ↔ SectionOf p q := by
  unfold SectionOf
  simp

theorem leavesO_find (f : Forest) (hf : f.WF) (k : String) (p : List String) (v : Node) :
    (k :: p, v) ∈ f.leaves ↔ (p, v) ∈ leavesO (f.find k) := by
  rw [leaves_find f hf]
  cases f.find k <;> simp [leavesO]

theorem wfO_find (f : Forest) (hf : f.WF) (k : String) : wfO (f.find k) := by
  cases h : f.find k with
  | none => trivial
  | some n => exact find_wf f hf k n h

mutual
/-- Merging a value. -/
theorem mergeN_spec (a : Option Node) (b : Node) (ha : wfO a) (hb : b.WF) (hfull : b.Full)
    (hs : NoSeq (leavesO a) b.leaves) :
    (Conflict (leavesO a) b.leaves → ∃ e, mergeN a b = .error e) ∧
    (¬Conflict (leavesO a) b.leaves →
      ∃ n, mergeN a b = .ok (some n) ∧ n.WF ∧ Merged (leavesO a) b.leaves n.leaves) := by
  have leaf (n : Node) (hm : n.isMap = false) (he : mergeN a n = .ok (some n)) (hn : n.WF) :
      (Conflict (leavesO a) n.leaves → ∃ e, mergeN a n = .error e) ∧
      (¬Conflict (leavesO a) n.leaves →
        ∃ m, mergeN a n = .ok (some m) ∧ m.WF ∧ Merged (leavesO a) n.leaves m.leaves) := by
    rw [leaves_of_not_map n hm]
    constructor
    · rintro ⟨p, s, _, e, h2, k, r, h3⟩
      simp only [List.mem_singleton] at h2
      subst h2
      simp at h3
    · intro _
      refine ⟨n, he, hn, ?_⟩
      rw [leaves_of_not_map n hm]
      intro e
      constructor
      · exact Or.inl
      · rintro (h | ⟨_, h⟩)
        · exact h
        · exact absurd (Or.inr (List.nil_prefix)) (h ([], n) (by simp))
  match b, hb, hfull, hs with
  | .map f, hb, hfull, hs =>
    obtain ⟨h1, h2⟩ := mergeF_spec a f ha hb hfull.2 hs
    constructor
    · intro hc; exact h1 hc
    · intro hc
      obtain ⟨c, h3, h4, h5, h6⟩ := h2 hc
      obtain ⟨n, hn⟩ := h6 hfull.1
      subst hn
      exact ⟨n, h3, h4, h5⟩
  | .null, hb, _, _ => exact leaf .null rfl (by simp [mergeN]) hb
  | .scalar s, hb, _, _ => exact leaf (.scalar s) rfl (by simp [mergeN]) hb
  | .seq l, hb, _, _ => exact leaf (.seq l) rfl (by simp [mergeN]) hb
/-- Merging the pairs of a map one after the other. -/
theorem mergeF_spec (a : Option Node) (b : Forest) (ha : wfO a) (hb : b.WF) (hfull : b.Full)
    (hs : NoSeq (leavesO a) b.leaves) :
    (Conflict (leavesO a) b.leaves → ∃ e, mergeF a b = .error e) ∧
    (¬Conflict (leavesO a) b.leaves →
      ∃ c, mergeF a b = .ok c ∧ wfO c ∧ Merged (leavesO a) b.leaves (leavesO c) ∧
        (b ≠ .nil → ∃ n, c = some n)) := by
  match b, hb, hfull, hs with
  | .nil, _, _, _ =>
    constructor
    · rintro ⟨p, s, _, e, h2, _⟩
      simp [Forest.leaves] at h2
    · intro _
      refine ⟨a, by rw [mergeF], ha, ?_, fun h => absurd rfl h⟩
      intro e
      simp [Forest.leaves]
  | .cons k v r, hb, hfull, hs =>
    obtain ⟨b1, b2, b3, b4⟩ := hb
    obtain ⟨f1, f2⟩ := hfull
    have hvne := full_leaves v f1
    obtain ⟨⟨q0, w0⟩, hq0⟩ := List.exists_mem_of_ne_nil _ hvne
    have hmemv : ∀ p w, (p, w) ∈ v.leaves → (k :: p, w) ∈ (Forest.cons k v r).leaves := fun p w h => by
      rw [Forest.leaves, List.mem_append]
      exact Or.inl (List.mem_map.2 ⟨(p, w), h, rfl⟩)
    have hmemr : ∀ e, e ∈ r.leaves → e ∈ (Forest.cons k v r).leaves := fun e h => by
      rw [Forest.leaves, List.mem_append]; exact Or.inr h
    have hrhead : ∀ e ∈ r.leaves, ∃ k' p', e.1 = k' :: p' ∧ k' ≠ k := fun e he => by
      obtain ⟨k', p', h1, h2⟩ := head_mem r e he
      exact ⟨k', p', h1, fun h => b2 (h ▸ h2)⟩
    have hsplit : ∀ e, e ∈ (Forest.cons k v r).leaves →
        (∃ p w, e = (k :: p, w) ∧ (p, w) ∈ v.leaves) ∨ e ∈ r.leaves := fun e he => by
      rw [Forest.leaves, List.mem_append, List.mem_map] at he
      rcases he with ⟨⟨p, w⟩, h1, h2⟩ | h
      · exact Or.inl ⟨p, w, h2.symm, h1⟩
      · exact Or.inr h
    -- the map into which the pairs go
    have hsub : (∃ s, a = some (.scalar s)) ∨
        ∃ f, subscript a = .ok f ∧ f.WF ∧
          (∀ e, e ∈ f.leaves → e ∈ leavesO a) ∧
          (∀ e, e ∈ leavesO a → e ∈ f.leaves ∨ e = ([], Node.null)) := by
      cases a with
      | none => exact Or.inr ⟨.nil, rfl, trivial, by simp [Forest.leaves], by simp [leavesO]⟩
      | some n =>
        cases n with
        | null => exact Or.inr ⟨.nil, rfl, trivial, by simp [Forest.leaves], by simp [leavesO, Node.leaves]⟩
        | scalar s => exact Or.inl ⟨s, rfl⟩
        | map f => exact Or.inr ⟨f, rfl, ha, fun e h => h, fun e h => Or.inl h⟩
        | seq l =>
          exfalso
          exact hs [] l (by simp [leavesO, Node.leaves]) _ (hmemv q0 w0 hq0) ⟨k, q0, rfl⟩
    rcases hsub with ⟨s, hsc⟩ | ⟨f, hf1, hf2, hf3, hf4⟩
    · subst hsc
      constructor
      · intro _; exact ⟨.badSubscript, by rw [mergeF]; rfl⟩
      · intro hc
        exact absurd ⟨[], s, by simp [leavesO, Node.leaves], _, hmemv q0 w0 hq0, k, q0, rfl⟩ hc
    · have hrec := mergeN_spec (f.find k) v (wfO_find f hf2 k) b3 f1 (by
        intro p l hp e he hsec
        obtain ⟨q, w⟩ := e
        refine hs (k :: p) l (hf3 _ ((leavesO_find f hf2 k p _).2 hp)) _ (hmemv q w he) ?_
        exact (section_cons k p q).2 hsec)
      by_cases hcv : Conflict (leavesO (f.find k)) v.leaves
      · -- the value conflicts
        obtain ⟨e, he⟩ := hrec.1 hcv
        have hc : Conflict (leavesO a) (Forest.cons k v r).leaves := by
          obtain ⟨p, s, h1, ⟨q, w⟩, h2, h3⟩ := hcv
          exact ⟨k :: p, s, hf3 _ ((leavesO_find f hf2 k p _).2 h1), _, hmemv q w h2, (section_cons k p q).2 h3⟩
        exact ⟨fun _ => ⟨e, by rw [mergeF, hf1]; simp only; rw [he]⟩, fun h => absurd hc h⟩
      · obtain ⟨n, hn1, hn2, hn3⟩ := hrec.2 hcv
        have hw1 : (f.set k n).WF := wf_set f hf2 k n hn2 b1
        have hstep : mergeF a (.cons k v r) = mergeF (some (.map (f.set k n))) r := by
          rw [mergeF, hf1]; simp only; rw [hn1]
        rw [hstep]
        -- keys of the intermediate tree
        have hmid : ∀ k' p w, (k' :: p, w) ∈ (f.set k n).leaves ↔
            (k' = k ∧ (p, w) ∈ n.leaves) ∨ (k' ≠ k ∧ (k' :: p, w) ∈ f.leaves) := by
          intro k' p w
          rw [leaves_find _ hw1, find_set]
          by_cases hk : k' = k
          · simp [hk]
          · rw [if_neg hk, ← leaves_find f hf2]; simp [hk]
        obtain ⟨i1, i2⟩ := mergeF_spec (some (.map (f.set k n))) r hw1 b4 f2 (by
          intro p l hp e he hsec
          obtain ⟨k', p', h1, h2⟩ := hrhead e he
          obtain ⟨k2, r2, h3⟩ := hsec
          cases p with
          | nil => exact leaf_map_ne_nil _ _ _ hp rfl
          | cons k3 p3 =>
            rw [h1] at h3
            simp only [List.cons_append, List.cons.injEq] at h3
            have hk3 : k3 ≠ k := by rw [← h3.1]; exact h2
            have := ((hmid k3 p3 _).1 hp).resolve_left (fun h => hk3 h.1)
            refine hs (k3 :: p3) l (hf3 _ this.2) e (hmemr e he) ⟨k2, r2, ?_⟩
            rw [h1, h3.1, h3.2]; rfl)
        have hconf : Conflict (leavesO (some (.map (f.set k n)))) r.leaves ↔
            Conflict (leavesO a) (Forest.cons k v r).leaves := by
          constructor
          · rintro ⟨p, s, h1, e, h2, h3⟩
            obtain ⟨k', p', h4, h5⟩ := hrhead e h2
            obtain ⟨k2, r2, h6⟩ := h3
            cases p with
            | nil => exact absurd rfl (leaf_map_ne_nil _ _ _ h1)
            | cons k3 p3 =>
              rw [h4] at h6
              simp only [List.cons_append, List.cons.injEq] at h6
              have hk3 : k3 ≠ k := by rw [← h6.1]; exact h5
              have := ((hmid k3 p3 _).1 h1).resolve_left (fun h => hk3 h.1)
              refine ⟨k3 :: p3, s, hf3 _ this.2, e, hmemr e h2, k2, r2, ?_⟩
              rw [h4, h6.1, h6.2]; rfl
          · rintro ⟨p, s, h1, e, h2, h3⟩
            have h1' : (p, Node.scalar s) ∈ f.leaves := by
              rcases hf4 _ h1 with h | h
              · exact h
              · simp at h
            cases p with
            | nil => exact absurd rfl (leaf_map_ne_nil _ _ _ h1')
            | cons k3 p3 =>
              rcases hsplit e h2 with ⟨q, w, h4, h5⟩ | h4
              · subst h4
                obtain ⟨k2, r2, h6⟩ := h3
                simp only [List.cons_append, List.cons.injEq] at h6
                exfalso
                apply hcv
                refine ⟨p3, s, ?_, (q, w), h5, k2, r2, h6.2⟩
                rw [← leavesO_find f hf2, h6.1]; exact h1'
              · obtain ⟨k', p', h5, h6⟩ := hrhead e h4
                obtain ⟨k2, r2, h7⟩ := h3
                have h8 := h7
                rw [h5] at h8
                simp only [List.cons_append, List.cons.injEq] at h8
                have hk3 : k3 ≠ k := by rw [← h8.1]; exact h6
                exact ⟨k3 :: p3, s, (hmid k3 p3 _).2 (Or.inr ⟨hk3, h1'⟩), e, h4, k2, r2, h7⟩
        constructor
        · intro hc; exact i1 (hconf.2 hc)
        · intro hc
          obtain ⟨c, c1, c2, c3, c4⟩ := i2 (fun h => hc (hconf.1 h))
          refine ⟨c, c1, c2, ?_, ?_⟩
          · rintro ⟨p, w⟩
            have hdef := c3 (p, w)
            rw [hdef]
            constructor
            · rintro (h | ⟨h1, h2⟩)
              · exact Or.inl (hmemr _ h)
              · cases p with
                | nil => exact absurd rfl (leaf_map_ne_nil _ _ _ h1)
                | cons k3 p3 =>
                  rcases (hmid k3 p3 w).1 h1 with ⟨h3, h4⟩ | ⟨h3, h4⟩
                  · subst h3
                    rcases (hn3 (p3, w)).1 h4 with h5 | ⟨h5, h6⟩
                    · exact Or.inl (hmemv p3 w h5)
                    · refine Or.inr ⟨hf3 _ ((leavesO_find f hf2 k3 p3 w).2 h5), ?_⟩
                      intro e' he'
                      rcases hsplit e' he' with ⟨q, x, h7, h8⟩ | h7
                      · subst h7
                        simp only
                        rw [related_cons]
                        exact h6 (q, x) h8
                      · exact h2 e' h7
                  · refine Or.inr ⟨hf3 _ h4, ?_⟩
                    intro e' he'
                    rcases hsplit e' he' with ⟨q, x, h7, h8⟩ | h7
                    · subst h7
                      exact not_related_cons k3 k p3 q h3
                    · exact h2 e' h7
            · rintro (h | ⟨h1, h2⟩)
              · rcases hsplit _ h with ⟨q, x, h3, h4⟩ | h3
                · simp only [Prod.mk.injEq] at h3
                  obtain ⟨rfl, rfl⟩ := h3
                  refine Or.inr ⟨(hmid k q w).2 (Or.inl ⟨rfl, (hn3 (q, w)).2 (Or.inl h4)⟩), ?_⟩
                  intro e' he'
                  obtain ⟨k', p', h5, h6⟩ := hrhead e' he'
                  simp only
                  rw [h5]
                  exact not_related_cons k k' q p' (Ne.symm h6)
                · exact Or.inl h3
              · refine Or.inr ⟨?_, fun e' he' => h2 e' (hmemr e' he')⟩
                rcases hf4 _ h1 with h3 | h3
                · cases p with
                  | nil => exact absurd rfl (leaf_map_ne_nil _ _ _ h3)
                  | cons k3 p3 =>
                    by_cases hk : k3 = k
                    · subst hk
                      refine (hmid k3 p3 w).2 (Or.inl ⟨rfl, (hn3 (p3, w)).2 (Or.inr
                        ⟨(leavesO_find f hf2 k3 p3 w).1 h3, ?_⟩)⟩)
                      rintro ⟨q, x⟩ he'
                      have := h2 _ (hmemv q x he')
                      simp only at this
                      rw [related_cons] at this
                      exact this
                    · exact (hmid k3 p3 w).2 (Or.inr ⟨hk, h3⟩)
                · exfalso
                  simp only [Prod.mk.injEq] at h3
                  apply h2 _ (hmemv q0 w0 hq0)
                  simp only
                  rw [h3.1]
                  exact Or.inl List.nil_prefix
          · intro _
            by_cases hr : r = .nil
            · subst hr
              rw [mergeF] at c1
              simp only [Except.ok.injEq] at c1
              exact ⟨_, c1.symm⟩
            · exact c4 hr
end

/-- **C41**: for every configuration and every merged text (without empty sections, and not using a
sequence of the configuration as a section), either a new key uses a scalar of the configuration as a
section and the call throws, or afterwards the keys are: all keys of the text with their values, and
every old key with its value that is not in conflict with a new one (not equal, not inside, not around). -/
theorem C41_merge (st : State) (b : Node) (hw : st.root.WF) (hb : b.WF) (hfull : b.Full)
    (hs : NoSeq st.root.leaves b.leaves) :
    (Conflict st.root.leaves b.leaves → ∃ e, mergeYaml st b = .error e) ∧
    (¬Conflict st.root.leaves b.leaves → ∃ st', mergeYaml st b = .ok st' ∧ st'.root.WF ∧
      st'.taken = st.taken ∧
      ∀ e, e ∈ st'.root.leaves ↔
        e ∈ b.leaves ∨ (e ∈ st.root.leaves ∧ ∀ e' ∈ b.leaves, ¬Related e.1 e'.1)) := by
  obtain ⟨h1, h2⟩ := mergeN_spec (some st.root) b hw hb hfull hs
  constructor
  · intro hc
    obtain ⟨e, he⟩ := h1 hc
    exact ⟨e, by unfold mergeYaml; rw [he]⟩
  · intro hc
    obtain ⟨n, h3, h4, h5⟩ := h2 hc
    exact ⟨{ st with root := n }, by unfold mergeYaml; rw [h3], h4, rfl, h5⟩

/-- **C41** (lookup form): after a successful merge every key of the text has its new value, and an old
key that no key of the text contradicts has its old value. -/
theorem C41_override (st st' : State) (b : Node) (hw : st.root.WF) (hb : b.WF) (hfull : b.Full)
    (hs : NoSeq st.root.leaves b.leaves) (h : mergeYaml st b = .ok st') :
    (∀ p v, (p, v) ∈ b.leaves → findNode st'.root p = .ok (some v)) ∧
    (∀ p v, (p, v) ∈ st.root.leaves → (∀ e' ∈ b.leaves, ¬Related p e'.1) →
      findNode st'.root p = .ok (some v)) := by
  obtain ⟨h1, h2⟩ := C41_merge st b hw hb hfull hs
  have hc : ¬Conflict st.root.leaves b.leaves := fun hc => by
    obtain ⟨e, he⟩ := h1 hc
    rw [he] at h; cases h
  obtain ⟨st2, h3, h4, _, h5⟩ := h2 hc
  rw [h3] at h
  simp only [Except.ok.injEq] at h
  subst h
  constructor
  · intro p v hp
    exact (findNode_leaf p _ v h4 (leaf_not_map p _ v hb hp)).2 ((h5 (p, v)).2 (Or.inl hp))
  · intro p v hp hr
    exact (findNode_leaf p _ v h4 (leaf_not_map p _ v hw hp)).2 ((h5 (p, v)).2 (Or.inr ⟨hp, hr⟩))

/-- An empty map as text changes nothing. -/
theorem C41_empty_map (st : State) : mergeYaml st (.map .nil) = .ok st := by
  cases st; rfl

/-- An empty text (which YAML reads as null) discards the whole configuration. -/
theorem C41_empty_text (st : State) : mergeYaml st .null = .ok { st with root := .null } := rfl

/-- A sequence used as a section becomes a map from indices; its items stay as keys. -/
theorem C41_sequence_section :
    (mergeYaml ⟨.map (.cons "A" (.seq ["x", "y"]) .nil), []⟩
      (.map (.cons "A" (.map (.cons "k" (.scalar "v") .nil)) .nil))).map (fun s => s.root.leaves) =
    .ok [(["A", "0"], .scalar "x"), (["A", "1"], .scalar "y"), (["A", "k"], .scalar "v")] := by rfl

/-- The old configuration `{A: {x: 1, y: 2}, B: 3}` and the text `{A: {y: 5}, C: 4}`. -/
example :
    let a : Node := .map (.cons "A" (.map (.cons "x" (.scalar "1") (.cons "y" (.scalar "2") .nil)))
      (.cons "B" (.scalar "3") .nil))
    let b : Node := .map (.cons "A" (.map (.cons "y" (.scalar "5") .nil)) (.cons "C" (.scalar "4") .nil))
    a.WF ∧ b.WF ∧ b.Full ∧ NoSeq a.leaves b.leaves ∧ ¬Conflict a.leaves b.leaves ∧
    (mergeYaml ⟨a, []⟩ b).map (fun s => s.root.leaves) =
      .ok [(["A", "x"], .scalar "1"), (["A", "y"], .scalar "5"), (["B"], .scalar "3"), (["C"], .scalar "4")] := by
  refine ⟨by simp [Node.WF, Forest.WF, Forest.keys], by simp [Node.WF, Forest.WF, Forest.keys],
    by simp [Node.Full, Forest.Full], ?_, ?_, rfl⟩
  · intro p l h
    simp [Node.leaves, Forest.leaves] at h
  · rintro ⟨p, s, h, e, he, k, r, hp⟩
    have h' : (p, Node.scalar s) ∈
        [(["A", "x"], Node.scalar "1"), (["A", "y"], .scalar "2"), (["B"], .scalar "3")] := h
    have he' : e ∈ [(["A", "y"], Node.scalar "5"), (["C"], .scalar "4")] := he
    simp only [List.mem_cons, List.not_mem_nil, or_false, Prod.mk.injEq] at h' he'
    rcases h' with ⟨rfl, _⟩ | ⟨rfl, _⟩ | ⟨rfl, _⟩ <;> rcases he' with rfl | rfl <;> simp at hp

/-- A scalar cannot be turned into a section. -/
example : mergeYaml ⟨.map (.cons "B" (.scalar "3") .nil), []⟩
    (.map (.cons "B" (.map (.cons "k" (.scalar "v") .nil)) .nil)) = .error .badSubscript := by rfl

end Verif.Config
