import Verif.Config.Merge
/-! C72: sections are moved whole; C73: validation. -/
namespace Verif.Config

/-! ### Extraction and enclosure -/

theorem nest_leaves (ls : List String) (n : Node) :
    (nest ls n).leaves = n.leaves.map fun e => (ls ++ e.1, e.2) := by
  induction ls with
  | nil => simp [nest]
  | cons k ks ih =>
    rw [nest, Node.leaves, Forest.leaves, Forest.leaves, ih, List.append_nil, List.map_map]
    rfl

/-- **C72** (extraction): a successful extraction of an existing section moves exactly the keys below
the labels into the new configuration, where they have the labels removed; all other keys stay. Enclosing
the new configuration into the same labels restores the keys: `extract_complete_sub_configuration`
partitions the keys. -/
theorem C72_extract (st sub rest : State) (labels : List String) (opt : Bool) (hw : st.root.WF)
    (hl : labels ≠ []) (n : Node) (hf : findNode st.root labels = .ok (some n))
    (h : extract st labels opt = .ok (sub, rest)) :
    (∀ p v, (p, v) ∈ sub.root.leaves ↔ (labels ++ p, v) ∈ st.root.leaves) ∧
    (∀ e, e ∈ rest.root.leaves ↔ e ∈ st.root.leaves ∧ ¬labels <+: e.1) ∧
    (∀ e, e ∈ st.root.leaves ↔ e ∈ (enclose sub labels).root.leaves ∨ e ∈ rest.root.leaves) ∧
    rest.root.WF ∧ NoEmpty rest.root ∧ sub.root.WF := by
  unfold extract at h
  rw [hf] at h
  cases n with
  | null => simp at h
  | scalar s => simp at h
  | seq l => simp at h
  | map f =>
    cases f with
    | nil => simp at h
    | cons k c r =>
      simp only [Except.ok.injEq, Prod.mk.injEq] at h
      obtain ⟨rfl, rfl⟩ := h
      have hr := removeAt_wf labels st.root hw
      have h1 : ∀ p v, (p, v) ∈ (Node.map (.cons k c r)).leaves ↔ (labels ++ p, v) ∈ st.root.leaves :=
        fun p v => (findNode_below labels st.root _ hw hf p v).symm
      have h2 : ∀ e, e ∈ (clean (removeAt labels st.root)).leaves ↔ e ∈ st.root.leaves ∧ ¬labels <+: e.1 := by
        rintro ⟨p, v⟩
        rw [clean_leaves _ _ hr, removeAt_leaves _ _ hw hl]
      refine ⟨h1, h2, ?_, clean_wf _ hr, clean_noEmpty _ hr, findNode_wf _ _ _ hw hf⟩
      rintro ⟨p, v⟩
      have hsize : ¬(Node.map (.cons k c r)).size = 0 := by simp [Node.size, Forest.size]
      unfold enclose
      simp only
      rw [if_neg hsize, nest_leaves, h2]
      constructor
      · intro hp
        by_cases hpre : labels <+: p
        · left
          obtain ⟨q, rfl⟩ := hpre
          exact List.mem_map.2 ⟨(q, v), (h1 q v).2 hp, rfl⟩
        · exact Or.inr ⟨hp, hpre⟩
      · rintro (hp | hp)
        · obtain ⟨⟨q, w⟩, h3, h4⟩ := List.mem_map.1 hp
          simp only [Prod.mk.injEq] at h4
          obtain ⟨rfl, rfl⟩ := h4
          exact (h1 q w).1 h3
        · exact hp.1

/-- **C72** (no section): a missing section gives an empty configuration only on request; a value, a null
or an empty map is refused. -/
theorem C72_extract_errors (st : State) (labels : List String) (opt : Bool) (o : Option Node)
    (hf : findNode st.root labels = .ok o) :
    extract st labels opt = match (generalizing := false) o with
      | none => if opt then .ok (⟨.null, []⟩, st) else .error .noSection
      | some (.map (.cons k c r)) =>
        .ok (⟨.map (.cons k c r), []⟩, ⟨clean (removeAt labels st.root), st.taken⟩)
      | some (.scalar _) => .error .notASection
      | some (.seq _) => .error .notASection
      | some _ => .error .emptySection := by
  unfold extract
  rw [hf]
  cases o with
  | none => rfl
  | some n =>
    cases n with
    | map f => cases f <;> rfl
    | _ => rfl

/-! ### Setting a value -/

theorem setAt_merge (ls : List String) (a : Option Node) (v : Node) (hv : v.isMap = false) :
    mergeN a (nest ls v) = (match setAt a v ls with
      | .ok n => .ok (some n)
      | .error e => .error e) := by
  induction ls generalizing a with
  | nil =>
    cases v with
    | map f => cases hv
    | _ => simp [nest, setAt, mergeN]
  | cons k ks ih =>
    rw [nest, mergeN, mergeF, setAt]
    cases hs : subscript a with
    | error e => rfl
    | ok f =>
      simp only
      rw [ih]
      cases setAt (f.find k) v ks with
      | error e => rfl
      | ok c => simp only; rw [mergeF]

theorem nest_wf (ls : List String) (n : Node) (hn : n.WF) (hl : ∀ k ∈ ls, k ≠ "") : (nest ls n).WF := by
  induction ls with
  | nil => exact hn
  | cons k ks ih =>
    exact ⟨hl k (by simp), by simp [Forest.keys], ih (fun x h => hl x (by simp [h])), trivial⟩

theorem nest_full (ls : List String) (n : Node) (hn : n.Full) : (nest ls n).Full := by
  induction ls with
  | nil => exact hn
  | cons k ks ih => exact ⟨by simp, ih, trivial⟩

/-- **C72** (set_value): setting a key (that does not use a sequence as a section) throws if a scalar is
in the way; otherwise the key has the new value, the keys that exclude it (inside or around it) are gone
and every other key is unchanged. -/
theorem C72_set_value (root : Node) (labels : List String) (v : Node) (hw : root.WF) (hv : v.isMap = false)
    (hl : ∀ k ∈ labels, k ≠ "") (hs : ∀ p l, (p, Node.seq l) ∈ root.leaves → ¬SectionOf p labels) :
    ((∃ p s, (p, Node.scalar s) ∈ root.leaves ∧ SectionOf p labels) → ∃ e, setAt (some root) v labels = .error e) ∧
    ((∀ p s, (p, Node.scalar s) ∈ root.leaves → ¬SectionOf p labels) →
      ∃ n, setAt (some root) v labels = .ok n ∧ n.WF ∧
        ∀ e, e ∈ n.leaves ↔ e = (labels, v) ∨ (e ∈ root.leaves ∧ ¬Related e.1 labels)) := by
  have hvw : v.WF := by cases v with
    | map f => cases hv
    | _ => trivial
  have hvf : v.Full := by cases v with
    | map f => cases hv
    | _ => trivial
  have hleaf : (nest labels v).leaves = [(labels, v)] := by
    rw [nest_leaves, leaves_of_not_map v hv]; simp
  obtain ⟨h1, h2⟩ := mergeN_spec (some root) (nest labels v) hw (nest_wf labels v hvw hl) (nest_full labels v hvf)
    (by
      intro p l hp e he
      rw [hleaf, List.mem_singleton] at he
      subst he
      exact hs p l hp)
  rw [hleaf, setAt_merge labels (some root) v hv] at h1 h2
  constructor
  · rintro ⟨p, s, h3, h4⟩
    obtain ⟨e, he⟩ := h1 ⟨p, s, h3, _, List.mem_singleton.2 rfl, h4⟩
    cases hset : setAt (some root) v labels with
    | error e => exact ⟨e, rfl⟩
    | ok n => rw [hset] at he; cases he
  · intro h3
    obtain ⟨n, h4, h5, h6⟩ := h2 (by
      rintro ⟨p, s, h7, e, h8, h9⟩
      rw [List.mem_singleton] at h8
      subst h8
      exact h3 p s h7 h9)
    cases hset : setAt (some root) v labels with
    | error e => rw [hset] at h4; cases h4
    | ok m =>
      rw [hset] at h4
      simp only [Except.ok.injEq, Option.some.injEq] at h4
      subst h4
      refine ⟨m, rfl, h5, ?_⟩
      intro e
      rw [h6 e]
      simp [leavesO]

/-! ### Removal of all entries but one -/

theorem removeAllBut_spec (key : String) (f : Forest) (hf : f.WF) :
    (removeAllBut key f).WF ∧ ∀ x, (removeAllBut key f).find x = if x = key then f.find x else none := by
  unfold removeAllBut
  refine ⟨foldl_remove_wf _ _ hf, ?_⟩
  intro x
  rw [foldl_remove_find _ _ hf]
  by_cases hx : x = key
  · subst hx
    rw [if_neg (by simp), if_pos rfl]
  · rw [if_neg hx]
    by_cases hk : x ∈ f.keys
    · rw [if_pos (List.mem_filter.2 ⟨hk, by simpa using hx⟩)]
    · rw [if_neg (fun h => hk (List.mem_filter.1 h).1)]
      exact (find_none f x).2 hk

theorem replaceAt_leaves (ls : List String) (n m m0 : Node) (hn : n.WF) (hm : m.WF)
    (hf : findNode n ls = .ok (some m0)) (p : List String) (v : Node) :
    (replaceAt ls m n).WF ∧ ((p, v) ∈ (replaceAt ls m n).leaves ↔
      ((p, v) ∈ n.leaves ∧ ¬ls <+: p) ∨ ∃ q, p = ls ++ q ∧ (q, v) ∈ m.leaves) := by
  induction ls generalizing n p with
  | nil =>
    rw [replaceAt]
    refine ⟨hm, ?_⟩
    simp
  | cons k ks ih =>
    cases n with
    | map f =>
      rw [findNode, descend] at hf
      cases hfk : f.find k with
      | none => rw [hfk] at hf; simp at hf
      | some c =>
        rw [hfk] at hf
        simp only at hf
        have hcw := find_wf f hn k c hfk
        have hkne := keys_ne_empty f hn k (find_mem_keys f k c hfk)
        have hsw : (f.set k (replaceAt ks m c)).WF := wf_set f hn k _ (ih c hcw hf []).1 hkne
        have e : replaceAt (k :: ks) m (.map f) = .map (f.set k (replaceAt ks m c)) := by
          rw [replaceAt, hfk]
        rw [e]
        refine ⟨hsw, ?_⟩
        cases p with
        | nil =>
          constructor
          · intro h; exact absurd rfl (leaf_map_ne_nil _ _ _ h)
          · rintro (⟨h, _⟩ | ⟨q, hq, _⟩)
            · exact absurd rfl (leaf_map_ne_nil _ _ _ h)
            · simp at hq
        | cons k' p' =>
          rw [Node.leaves, Node.leaves, leaves_find _ hsw, leaves_find f hn, find_set]
          by_cases hk : k' = k
          · subst hk
            rw [if_pos rfl, hfk]
            simp only [Option.some.injEq, exists_eq_left', List.cons_prefix_cons, true_and,
              List.cons_append, List.cons.injEq]
            exact (ih c hcw hf p').2
          · rw [if_neg hk]
            have h1 : ¬k :: ks <+: k' :: p' := by
              intro h
              rw [List.cons_prefix_cons] at h
              exact hk h.1.symm
            simp [h1, hk]
    | null => simp [findNode, descend] at hf
    | scalar s => simp [findNode, descend] at hf
    | seq l => cases l <;> simp [findNode, descend] at hf

/-- **C72** (removal of all entries but one): within the section only the keys of the given entry are
left; everything outside the section is unchanged. -/
theorem C72_remove_all_but_one (st st' : State) (key : String) (labels : List String) (hw : st.root.WF)
    (h : removeAllButOne st key labels = .ok st') :
    st'.root.WF ∧ st'.taken = st.taken ∧
    ∀ e, e ∈ st'.root.leaves ↔ e ∈ st.root.leaves ∧ (labels <+: e.1 → labels ++ [key] <+: e.1) := by
  unfold removeAllButOne at h
  cases hf : findNode st.root labels with
  | error e => rw [hf] at h; cases h
  | ok o =>
    rw [hf] at h
    cases o with
    | none => cases h
    | some n =>
      cases n with
      | null => cases h
      | scalar s => cases h
      | seq l => cases l <;> cases h
      | map f =>
        simp only at h
        split at h
        · simp only [Except.ok.injEq] at h
          subst h
          have hfw : f.WF := findNode_wf _ _ _ hw hf
          obtain ⟨r1, r2⟩ := removeAllBut_spec key f hfw
          have hrep := replaceAt_leaves labels st.root (.map (removeAllBut key f)) (.map f) hw r1 hf
          refine ⟨(hrep [] .null).1, rfl, ?_⟩
          rintro ⟨p, v⟩
          simp only
          rw [(hrep p v).2]
          constructor
          · rintro (⟨h1, h2⟩ | ⟨q, h1, h2⟩)
            · exact ⟨h1, fun h => absurd h h2⟩
            · subst h1
              cases q with
              | nil => exact absurd rfl (leaf_map_ne_nil _ _ _ h2)
              | cons k q =>
                rw [Node.leaves, leaves_find _ r1, r2] at h2
                obtain ⟨c, h3, h4⟩ := h2
                split at h3
                · rename_i hk
                  subst hk
                  refine ⟨?_, fun _ => ?_⟩
                  · rw [findNode_below labels st.root (.map f) hw hf, Node.leaves, leaves_find f hfw]
                    exact ⟨c, h3, h4⟩
                  · exact ⟨q, by simp⟩
                · cases h3
          · rintro ⟨h1, h2⟩
            by_cases hp : labels <+: p
            · right
              obtain ⟨q, hq⟩ := h2 hp
              refine ⟨key :: q, by rw [← hq]; simp, ?_⟩
              rw [Node.leaves, leaves_find _ r1, r2, if_pos rfl, ← leaves_find f hfw]
              have := (findNode_below labels st.root (.map f) hw hf (key :: q) v).1 (by
                rw [← hq] at h1
                simpa using h1)
              exact this
            · exact Or.inl ⟨h1, hp⟩
        · cases h

/-- The example of C40: extraction of the section `A`. -/
example :
    let root : Node := .map (.cons "A" (.map (.cons "x" (.scalar "1") (.cons "y" (.scalar "2") .nil)))
      (.cons "B" (.scalar "3") .nil))
    (extract ⟨root, []⟩ ["A"] false).map (fun r => (r.1.root.leaves, r.2.root.leaves)) =
      .ok ([(["x"], .scalar "1"), (["y"], .scalar "2")], [(["B"], .scalar "3")]) ∧
    (removeAllButOne ⟨root, []⟩ "y" ["A"]).map (fun r => r.root.leaves) =
      .ok [(["A", "y"], .scalar "2"), (["B"], .scalar "3")] ∧
    (setAt (some root) (.scalar "7") ["C", "z"]).map (fun r => r.leaves) =
      .ok [(["A", "x"], .scalar "1"), (["A", "y"], .scalar "2"), (["B"], .scalar "3"),
        (["C", "z"], .scalar "7")] := by
  refine ⟨rfl, rfl, rfl⟩

/-! ### Validation -/

mutual
theorem labelsIn_leaves (pre : List String) (f : Forest) :
    labelsIn pre f = f.leaves.map fun e => pre ++ e.1 := by
  match f with
  | .nil => simp [labelsIn, Forest.leaves]
  | .cons k n r =>
    rw [labelsIn, labelsOf_leaves, labelsIn_leaves, Forest.leaves, List.map_append, List.map_map]
    congr 1
    apply List.map_congr_left
    intro e _
    simp
theorem labelsOf_leaves (pre : List String) (n : Node) :
    labelsOf pre n = n.leaves.map fun e => pre ++ e.1 := by
  match n with
  | .map f => rw [labelsOf, labelsIn_leaves, Node.leaves]
  | .null => simp [labelsOf, Node.leaves]
  | .scalar s => simp [labelsOf, Node.leaves]
  | .seq l => simp [labelsOf, Node.leaves]
end

/-- Specification: the key of the database under which labels of the configuration are looked up. An entry
of a section that is read as a whole (as a map) counts as the key of the section. -/
def dbLabels (maps : List (List String)) (l : List String) : List String :=
  maps.foldl (fun l m => if m <+: l then m else l) l

/-- Specification: a key is known and not removed. -/
def Known (db : List DbKey) (l : List String) : Prop := ∃ k ∈ db, k.labels = l ∧ k.removed = false

/-- Specification: a known key is deprecated. -/
def Deprecated (db : List DbKey) (l : List String) : Prop :=
  ∃ k ∈ db, k.labels = l ∧ k.removed = false ∧ k.deprecated = true

theorem prefixCheck_ok (m l : List String) (b : Bool) (h : prefixCheck m l = .ok b) : b = decide (m <+: l) := by
  induction m generalizing l with
  | nil => simp [prefixCheck] at h; simp [h]
  | cons a as ih =>
    cases l with
    | nil => simp [prefixCheck] at h
    | cons c cs =>
      rw [prefixCheck] at h
      by_cases hac : a = c
      · rw [if_pos hac] at h
        rw [ih cs h, hac]
        simp [List.cons_prefix_cons]
      · rw [if_neg hac] at h
        simp only [Except.ok.injEq] at h
        rw [← h]
        simp [List.cons_prefix_cons, hac]

theorem prefixCheck_ub (m l : List String) : prefixCheck m l = .error .ub ↔ l <+: m ∧ l ≠ m := by
  induction m generalizing l with
  | nil => simp [prefixCheck]
  | cons a as ih =>
    cases l with
    | nil => simp [prefixCheck]
    | cons c cs =>
      rw [prefixCheck]
      by_cases hac : a = c
      · subst hac
        rw [if_pos rfl, ih]
        simp [List.cons_prefix_cons]
      · rw [if_neg hac]
        simp [List.cons_prefix_cons, Ne.symm hac]

theorem adjustOne_ok (m : List String) (ls r : List (List String)) (h : adjustOne m ls = .ok r) :
    r = ls.map fun l => if m <+: l then m else l := by
  induction ls generalizing r with
  | nil => simp [adjustOne] at h; simp [h]
  | cons l ls ih =>
    rw [adjustOne] at h
    cases hp : prefixCheck m l with
    | error e => rw [hp] at h; cases h
    | ok b =>
      rw [hp] at h
      simp only at h
      cases ha : adjustOne m ls with
      | error e => rw [ha] at h; cases h
      | ok r' =>
        rw [ha] at h
        simp only [Except.ok.injEq] at h
        rw [← h, ih r' ha, prefixCheck_ok m l b hp]
        simp

theorem adjustAll_ok (maps ls r : List (List String)) (h : adjustAll maps ls = .ok r) :
    r = ls.map (dbLabels maps) := by
  induction maps generalizing ls with
  | nil => simp [adjustAll] at h; subst h; have : dbLabels [] = id := by funext l; rfl
           simp [this]
  | cons m ms ih =>
    rw [adjustAll] at h
    cases ha : adjustOne m ls with
    | error e => rw [ha] at h; cases h
    | ok l' =>
      rw [ha] at h
      rw [ih l' h, adjustOne_ok m ls l' ha, List.map_map]
      rfl

theorem mem_unique (ls : List (List String)) (x : List String) : x ∈ unique ls ↔ x ∈ ls := by
  induction ls using unique.induct with
  | case1 => simp [unique]
  | case2 a => simp [unique]
  | case3 a r ih => rw [unique, if_pos rfl, ih]; simp
  | case4 a b r hab ih => rw [unique, if_neg hab, List.mem_cons, ih]; simp

theorem validateKey_spec (db : List DbKey) (hd : (db.map DbKey.labels).Nodup) (l : List String) :
    (validateKey db l = .invalid ↔ ¬Known db l) ∧
    (validateKey db l = .deprecated ↔ Deprecated db l) ∧
    (validateKey db l = .valid ↔ Known db l ∧ ¬Deprecated db l) := by
  unfold validateKey
  have huniq : ∀ k ∈ db, ∀ k' ∈ db, k.labels = k'.labels → k = k' :=
    fun k hk k' hk' h => List.inj_on_of_nodup_map hd hk hk' h
  cases hf : db.find? (fun k => decide (k.labels = l)) with
  | none =>
    have hno : ∀ k ∈ db, k.labels ≠ l := by
      intro k hk
      have := List.find?_eq_none.1 hf k hk
      simpa using this
    have h1 : ¬Known db l := fun ⟨k, a, b, _⟩ => hno k a b
    have h2 : ¬Deprecated db l := fun ⟨k, a, b, _⟩ => hno k a b
    simp [h1, h2]
  | some k =>
    have hk := List.mem_of_find?_eq_some hf
    have hl : k.labels = l := by simpa using List.find?_some hf
    have hK : Known db l ↔ k.removed = false := by
      constructor
      · rintro ⟨k', a, b, c⟩
        rw [huniq k hk k' a (hl.trans b.symm)]; exact c
      · intro h; exact ⟨k, hk, hl, h⟩
    have hD : Deprecated db l ↔ k.removed = false ∧ k.deprecated = true := by
      constructor
      · rintro ⟨k', a, b, c⟩
        rw [huniq k hk k' a (hl.trans b.symm)]; exact c
      · intro h; exact ⟨k, hk, hl, h⟩
    rw [hK, hD]
    simp only
    cases k.removed <;> cases k.deprecated <;> simp

theorem accumulate_spec (ks : List Is) (r : Is) :
    (ks.foldl accumulate r = .invalid ↔ r = .invalid ∨ .invalid ∈ ks) ∧
    (ks.foldl accumulate r = .valid ↔ r = .valid ∧ ∀ x ∈ ks, x = .valid) := by
  induction ks generalizing r with
  | nil => simp
  | cons k ks ih =>
    rw [List.foldl_cons]
    obtain ⟨h1, h2⟩ := ih (accumulate r k)
    rw [h1, h2]
    cases r <;> cases k <;> simp [accumulate]

theorem validate_list {root : Node} (hm : root.isMap = true) :
    rootLabels root = root.leaves.map Prod.fst := by
  cases root with
  | map f => rw [rootLabels]; rw [labelsIn_leaves, Node.leaves]; simp
  | _ => cases hm

/-- **C73** (full validation): the result is `Invalid` exactly if some key of the configuration is unknown
or removed, `Deprecated` exactly if all keys are known and some is deprecated, and `Valid` exactly if all
keys are known and none is deprecated. -/
theorem C73_full (db : List DbKey) (maps : List (List String)) (st : State) (r : Is)
    (hd : (db.map DbKey.labels).Nodup) (hm : st.root.isMap = true) (h : validate db maps st true = .ok r) :
    (r = .invalid ↔ ∃ e ∈ st.root.leaves, ¬Known db (dbLabels maps e.1)) ∧
    (r = .deprecated ↔ (∀ e ∈ st.root.leaves, Known db (dbLabels maps e.1)) ∧
      ∃ e ∈ st.root.leaves, Deprecated db (dbLabels maps e.1)) ∧
    (r = .valid ↔ ∀ e ∈ st.root.leaves,
      Known db (dbLabels maps e.1) ∧ ¬Deprecated db (dbLabels maps e.1)) := by
  unfold validate at h
  rw [validate_list hm] at h
  cases ha : adjustAll maps (st.root.leaves.map Prod.fst) with
  | error e => rw [ha] at h; cases h
  | ok l' =>
    rw [ha] at h
    have hl' := adjustAll_ok _ _ _ ha
    simp only [if_true, Except.ok.injEq] at h
    have hfold : (unique l').foldl (fun r k => accumulate r (validateKey db k)) .valid =
        ((unique l').map (validateKey db)).foldl accumulate .valid := by rw [List.foldl_map]
    rw [hfold] at h
    obtain ⟨h1, h2⟩ := accumulate_spec ((unique l').map (validateKey db)) .valid
    rw [h] at h1 h2
    have hmem : ∀ x, x ∈ unique l' ↔ ∃ e ∈ st.root.leaves, dbLabels maps e.1 = x := by
      intro x
      rw [mem_unique, hl', List.map_map, List.mem_map]
      rfl
    have i1 : r = .invalid ↔ ∃ e ∈ st.root.leaves, ¬Known db (dbLabels maps e.1) := by
      rw [h1]
      simp only [reduceCtorEq, false_or, List.mem_map, hmem]
      constructor
      · rintro ⟨x, ⟨e, he, rfl⟩, hx⟩
        exact ⟨e, he, (validateKey_spec db hd _).1.1 hx⟩
      · rintro ⟨e, he, hx⟩
        exact ⟨_, ⟨e, he, rfl⟩, (validateKey_spec db hd _).1.2 hx⟩
    have i2 : r = .valid ↔ ∀ e ∈ st.root.leaves,
        Known db (dbLabels maps e.1) ∧ ¬Deprecated db (dbLabels maps e.1) := by
      rw [h2]
      simp only [true_and, List.mem_map, hmem]
      constructor
      · intro hx e he
        exact (validateKey_spec db hd _).2.2.1 (hx _ ⟨_, ⟨e, he, rfl⟩, rfl⟩)
      · rintro hx x ⟨y, ⟨e, he, rfl⟩, rfl⟩
        exact (validateKey_spec db hd _).2.2.2 (hx e he)
    refine ⟨i1, ?_, i2⟩
    constructor
    · intro hr
      have hK : ∀ e ∈ st.root.leaves, Known db (dbLabels maps e.1) := by
        intro e he
        by_contra hc
        rw [i1.2 ⟨e, he, hc⟩] at hr
        cases hr
      refine ⟨hK, ?_⟩
      by_contra hc
      have : r = .valid := i2.2 (fun e he => ⟨hK e he, fun hdp => hc ⟨e, he, hdp⟩⟩)
      rw [this] at hr
      cases hr
    · rintro ⟨hK, e, he, hdp⟩
      cases r with
      | invalid =>
        obtain ⟨e', he', hx⟩ := i1.1 rfl
        exact absurd (hK e' he') hx
      | valid => exact absurd hdp (i2.1 rfl e he).2
      | deprecated => rfl

/-- **C73** (short validation): without full validation the result is `Valid` exactly if it is with full
validation. -/
theorem C73_short (db : List DbKey) (maps : List (List String)) (st : State) (r r' : Is)
    (h : validate db maps st true = .ok r) (h' : validate db maps st false = .ok r') :
    r = .valid ↔ r' = .valid := by
  unfold validate at h h'
  generalize rootLabels st.root = l at h h'
  cases ha : adjustAll maps l with
  | error e => rw [ha] at h; cases h
  | ok l' =>
    rw [ha] at h h'
    simp only [if_true, Except.ok.injEq, Bool.false_eq_true, if_false] at h h'
    have hfold : (unique l').foldl (fun r k => accumulate r (validateKey db k)) .valid =
        ((unique l').map (validateKey db)).foldl accumulate .valid := by rw [List.foldl_map]
    rw [hfold] at h
    rw [← h, (accumulate_spec _ _).2, ← h']
    generalize unique l' = u
    clear h h' ha hfold
    simp only [true_and, List.mem_map]
    induction u with
    | nil => simp [firstBad]
    | cons x xs ih =>
      rw [firstBad]
      by_cases hx : validateKey db x = .valid
      · rw [if_neg (not_not.2 hx)]
        refine Iff.trans ?_ ih
        constructor
        · rintro h2 y ⟨z, hz, rfl⟩; exact h2 _ ⟨z, by simp [hz], rfl⟩
        · rintro h2 y ⟨z, hz, rfl⟩
          rcases List.mem_cons.1 hz with rfl | hz
          · exact hx
          · exact h2 _ ⟨z, hz, rfl⟩
      · rw [if_pos hx]
        constructor
        · intro h2; exact absurd (h2 _ ⟨x, by simp, rfl⟩) hx
        · intro h2; exact absurd h2 hx

/-- **C73** (defined): validation is defined if no key of the configuration is a section of a key read as
a map and no such key is a section of another one. -/
theorem C73_defined_partial (db : List DbKey) (maps : List (List String)) (st : State) (full : Bool)
    (hm : st.root.isMap = true)
    (h : ∀ m ∈ maps, ∀ e ∈ st.root.leaves, ¬(e.1 <+: m ∧ e.1 ≠ m))
    (hmm : ∀ m ∈ maps, ∀ m' ∈ maps, ¬(m <+: m' ∧ m ≠ m')) :
    ∃ r, validate db maps st full = .ok r := by
  have one (m : List String) (ls : List (List String)) (hls : ∀ l ∈ ls, ¬(l <+: m ∧ l ≠ m)) :
      ∃ r, adjustOne m ls = .ok r := by
    induction ls with
    | nil => exact ⟨[], rfl⟩
    | cons l ls ih =>
      obtain ⟨r, hr⟩ := ih (fun l' hl' => hls l' (by simp [hl']))
      rw [adjustOne]
      cases hp : prefixCheck m l with
      | ok b => rw [hr]; exact ⟨_, rfl⟩
      | error e =>
        exfalso
        have he : e = .ub := by
          clear hls hr ih
          induction m generalizing l with
          | nil => simp [prefixCheck] at hp
          | cons a as ih =>
            cases l with
            | nil => simp [prefixCheck] at hp; exact hp.symm
            | cons c cs =>
              rw [prefixCheck] at hp
              split at hp
              · exact ih cs hp
              · cases hp
        rw [he] at hp
        exact hls l (by simp) ((prefixCheck_ub m l).1 hp)
  have all (ms ls : List (List String)) (h1 : ∀ m ∈ ms, m ∈ maps)
      (h2 : ∀ l ∈ ls, ∀ m ∈ maps, ¬(l <+: m ∧ l ≠ m)) : ∃ r, adjustAll ms ls = .ok r := by
    induction ms generalizing ls with
    | nil => exact ⟨ls, rfl⟩
    | cons m ms ih =>
      obtain ⟨r, hr⟩ := one m ls (fun l hl => h2 l hl m (h1 m (by simp)))
      rw [adjustAll, hr]
      refine ih r (fun m' h' => h1 m' (by simp [h'])) ?_
      intro l hl m' hm'
      rw [adjustOne_ok m ls r hr] at hl
      obtain ⟨l0, hl0, rfl⟩ := List.mem_map.1 hl
      by_cases hp : m <+: l0
      · rw [if_pos hp]; exact hmm m (h1 m (by simp)) m' hm'
      · rw [if_neg hp]; exact h2 l0 hl0 m' hm'
  unfold validate
  rw [validate_list hm]
  obtain ⟨r, hr⟩ := all maps (st.root.leaves.map Prod.fst) (fun m h => h) (by
    intro l hl m hm'
    obtain ⟨e, he, rfl⟩ := List.mem_map.1 hl
    exact h m hm' e he)
  rw [hr]
  cases full
  · exact ⟨_, rfl⟩
  · exact ⟨_, rfl⟩

/-- A configuration whose key `Modi` has no value below it is compared past the end of its labels. -/
theorem C73_short_key_ub (db : List DbKey) :
    validate db [["Modi", "Box", "Init_Multiplicities"]] ⟨.map (.cons "Modi" .null .nil), []⟩ true =
      .error .ub := by rfl

/-- One valid, one deprecated, one removed key. -/
example :
    let db : List DbKey := [⟨["a"], false, false⟩, ⟨["b"], false, true⟩, ⟨["c"], true, true⟩]
    let cfg (l : List String) : State := ⟨.map (l.foldr (fun k r => .cons k (.scalar "1") r) .nil), []⟩
    (db.map DbKey.labels).Nodup ∧
    validate db [] (cfg ["a"]) true = .ok .valid ∧ validate db [] (cfg ["a", "b"]) true = .ok .deprecated ∧
    validate db [] (cfg ["c", "b"]) true = .ok .invalid ∧ validate db [] (cfg ["b", "c"]) false = .ok .deprecated := by
  refine ⟨by decide, ?_, ?_, ?_, ?_⟩ <;>
    simp [validate, rootLabels, adjustAll, labelsIn, labelsOf, unique, firstBad, validateKey, accumulate]

end Verif.Config
