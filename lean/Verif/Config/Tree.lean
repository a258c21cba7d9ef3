import Verif.Config.Model
import Mathlib.Data.List.Basic
import Mathlib.Data.List.Nodup
/-! Keys and values of a configuration tree, and the tree operations on them. -/
namespace Verif.Config

mutual
/-- The keys with their values: the paths to the nodes that are not maps (null, scalar, sequence). -/
def Node.leaves : Node → List (List String × Node)
  | .map f => f.leaves
  | .null => [([], .null)]
  | .scalar s => [([], .scalar s)]
  | .seq l => [([], .seq l)]
/-- The keys below a map. -/
def Forest.leaves : Forest → List (List String × Node)
  | .nil => []
  | .cons k n r => (n.leaves.map fun e => (k :: e.1, e.2)) ++ r.leaves
end

mutual
/-- A YAML text without repeated keys and without the empty string as key. -/
def Node.WF : Node → Prop
  | .map f => f.WF
  | _ => True
/-- The same for the pairs of a map. -/
def Forest.WF : Forest → Prop
  | .nil => True
  | .cons k n r => k ≠ "" ∧ k ∉ r.keys ∧ n.WF ∧ r.WF
end

/-- The pairs whose key satisfies `p`. -/
def Forest.filterKeys (p : String → Bool) : Forest → Forest
  | .nil => .nil
  | .cons k n r => if p k then .cons k n (r.filterKeys p) else r.filterKeys p

theorem leaves_of_not_map (n : Node) (h : n.isMap = false) : n.leaves = [([], n)] := by
  cases n with
  | map f => cases h
  | _ => rfl

theorem head_mem (f : Forest) (e : List String × Node) (h : e ∈ f.leaves) :
    ∃ k p, e.1 = k :: p ∧ k ∈ f.keys := by
  match f with
  | .nil => simp [Forest.leaves] at h
  | .cons k n r =>
    rw [Forest.leaves, List.mem_append, List.mem_map] at h
    rcases h with ⟨e', _, rfl⟩ | h
    · exact ⟨k, e'.1, rfl, by simp [Forest.keys]⟩
    · obtain ⟨k', p, h1, h2⟩ := head_mem r e h
      exact ⟨k', p, h1, by simp [Forest.keys, h2]⟩

theorem find_none (f : Forest) (k : String) : f.find k = none ↔ k ∉ f.keys := by
  match f with
  | .nil => simp [Forest.find, Forest.keys]
  | .cons k' n r =>
    rw [Forest.find, Forest.keys]
    by_cases h : k' = k
    · simp [h]
    · rw [if_neg h, find_none r k]
      simp [Ne.symm h]

/-- The keys below one label. -/
theorem leaves_find (f : Forest) (hf : f.WF) (k : String) (p : List String) (v : Node) :
    (k :: p, v) ∈ f.leaves ↔ ∃ n, f.find k = some n ∧ (p, v) ∈ n.leaves := by
  match f with
  | .nil => simp [Forest.leaves, Forest.find]
  | .cons k' n r =>
    obtain ⟨_, h2, h3, h4⟩ := hf
    rw [Forest.leaves, List.mem_append, List.mem_map, Forest.find]
    by_cases h : k' = k
    · subst h
      rw [if_pos rfl]
      constructor
      · rintro (⟨e', h5, h6⟩ | h5)
        · simp only [Prod.mk.injEq, List.cons.injEq, true_and] at h6
          refine ⟨n, rfl, ?_⟩
          rw [← h6.1, ← h6.2]; exact h5
        · obtain ⟨k'', p', h6, h7⟩ := head_mem r _ h5
          simp only [List.cons.injEq] at h6
          rw [← h6.1] at h7
          exact absurd h7 h2
      · rintro ⟨m, h5, h6⟩
        simp only [Option.some.injEq] at h5
        subst h5
        exact Or.inl ⟨(p, v), h6, rfl⟩
    · rw [if_neg h, ← leaves_find r h4 k p v]
      constructor
      · rintro (⟨e', _, h6⟩ | h5)
        · simp only [Prod.mk.injEq, List.cons.injEq] at h6
          exact absurd h6.1.1 h
        · exact h5
      · exact Or.inr

theorem find_wf (f : Forest) (hf : f.WF) (k : String) (n : Node) (h : f.find k = some n) : n.WF := by
  match f with
  | .nil => simp [Forest.find] at h
  | .cons k' n' r =>
    obtain ⟨_, _, h3, h4⟩ := hf
    rw [Forest.find] at h
    split at h
    · simp only [Option.some.injEq] at h; subst h; exact h3
    · exact find_wf r h4 k n h

/-! Removal of keys. -/

theorem keys_remove (f : Forest) (hf : f.WF) (k x : String) : x ∈ (f.remove k).keys ↔ x ∈ f.keys ∧ x ≠ k := by
  match f with
  | .nil => simp [Forest.remove, Forest.keys]
  | .cons k' n r =>
    obtain ⟨_, h2, _, h4⟩ := hf
    rw [Forest.remove]
    by_cases h : k' = k
    · subst h
      rw [if_pos rfl, Forest.keys, List.mem_cons]
      constructor
      · intro hx; exact ⟨Or.inr hx, fun e => h2 (e ▸ hx)⟩
      · rintro ⟨h5 | h5, h6⟩
        · exact absurd h5 h6
        · exact h5
    · rw [if_neg h, Forest.keys, Forest.keys, List.mem_cons, List.mem_cons, keys_remove r h4 k x]
      constructor
      · rintro (h5 | h5)
        · exact ⟨Or.inl h5, h5 ▸ h⟩
        · exact ⟨Or.inr h5.1, h5.2⟩
      · rintro ⟨h5 | h5, h6⟩
        · exact Or.inl h5
        · exact Or.inr ⟨h5, h6⟩

theorem wf_remove (f : Forest) (hf : f.WF) (k : String) : (f.remove k).WF := by
  match f with
  | .nil => exact hf
  | .cons k' n r =>
    obtain ⟨h1, h2, h3, h4⟩ := hf
    rw [Forest.remove]
    by_cases h : k' = k
    · rw [if_pos h]; exact h4
    · rw [if_neg h]
      exact ⟨h1, fun hx => h2 ((keys_remove r h4 k k').1 hx).1, h3, wf_remove r h4 k⟩

theorem find_remove (f : Forest) (hf : f.WF) (k x : String) :
    (f.remove k).find x = if x = k then none else f.find x := by
  match f with
  | .nil => simp [Forest.remove, Forest.find]
  | .cons k' n r =>
    obtain ⟨h1, h2, h3, h4⟩ := hf
    rw [Forest.remove]
    by_cases h : k' = k
    · subst h
      rw [if_pos rfl]
      by_cases hx : x = k'
      · rw [if_pos hx, hx]; exact (find_none r k').2 h2
      · rw [if_neg hx, Forest.find, if_neg (Ne.symm hx)]
    · rw [if_neg h, Forest.find, Forest.find, find_remove r h4 k x]
      by_cases hx : k' = x
      · rw [if_pos hx, if_pos hx, if_neg (by rw [← hx]; exact h)]
      · rw [if_neg hx, if_neg hx]

theorem keys_set (f : Forest) (k : String) (v : Node) (x : String) :
    x ∈ (f.set k v).keys ↔ x ∈ f.keys ∨ x = k := by
  match f with
  | .nil => simp [Forest.set, Forest.keys]
  | .cons k' n r =>
    rw [Forest.set]
    by_cases h : k' = k
    · subst h
      rw [if_pos rfl]
      simp [Forest.keys]
      tauto
    · rw [if_neg h, Forest.keys, Forest.keys, List.mem_cons, List.mem_cons, keys_set r k v x]
      tauto

theorem wf_set (f : Forest) (hf : f.WF) (k : String) (v : Node) (hv : v.WF) (hk : k ≠ "") :
    (f.set k v).WF := by
  match f with
  | .nil => exact ⟨hk, by simp [Forest.keys], hv, trivial⟩
  | .cons k' n r =>
    obtain ⟨h1, h2, h3, h4⟩ := hf
    rw [Forest.set]
    by_cases h : k' = k
    · rw [if_pos h]; exact ⟨h1, h2, hv, h4⟩
    · rw [if_neg h]
      refine ⟨h1, fun hx => ?_, h3, wf_set r h4 k v hv hk⟩
      rcases (keys_set r k v k').1 hx with h5 | h5
      · exact h2 h5
      · exact h h5

theorem find_set (f : Forest) (k x : String) (v : Node) :
    (f.set k v).find x = if x = k then some v else f.find x := by
  match f with
  | .nil => simp [Forest.set, Forest.find, eq_comm]
  | .cons k' n r =>
    rw [Forest.set]
    by_cases h : k' = k
    · subst h
      rw [if_pos rfl, Forest.find, Forest.find]
      by_cases hx : k' = x
      · rw [if_pos hx, if_pos hx.symm]
      · rw [if_neg hx, if_neg hx, if_neg (Ne.symm hx)]
    · rw [if_neg h, Forest.find, Forest.find, find_set r k x v]
      by_cases hx : k' = x
      · rw [if_pos hx, if_pos hx, if_neg (by rw [← hx]; exact h)]
      · rw [if_neg hx, if_neg hx]

theorem find_mem_keys (f : Forest) (k : String) (n : Node) (h : f.find k = some n) : k ∈ f.keys := by
  by_contra hc
  rw [(find_none f k).2 hc] at h
  cases h

theorem keys_ne_empty (f : Forest) (hf : f.WF) (k : String) (h : k ∈ f.keys) : k ≠ "" := by
  match f with
  | .nil => simp [Forest.keys] at h
  | .cons k' n r =>
    rw [Forest.keys, List.mem_cons] at h
    rcases h with h | h
    · rw [h]; exact hf.1
    · exact keys_ne_empty r hf.2.2.2 k h

/-- Every key of a map is a path of at least one label. -/
theorem leaf_map_ne_nil (f : Forest) (p : List String) (v : Node) (h : (p, v) ∈ f.leaves) : p ≠ [] := by
  obtain ⟨k, q, h1, _⟩ := head_mem f _ h
  simp only at h1
  rw [h1]; simp

/-- The value of a key is not a map. -/
theorem leaf_not_map (p : List String) (n v : Node) (hn : n.WF) (h : (p, v) ∈ n.leaves) : v.isMap = false := by
  induction p generalizing n with
  | nil =>
    cases n with
    | map f => exact absurd rfl (leaf_map_ne_nil f _ _ h)
    | _ => simp [Node.leaves] at h; rw [h]; rfl
  | cons k p ih =>
    cases n with
    | map f =>
      rw [Node.leaves, leaves_find f hn] at h
      obtain ⟨c, h1, h2⟩ := h
      exact ih c (find_wf f hn k c h1) h2
    | _ => simp [Node.leaves] at h

/-- Keys and the search for an existing node. -/
theorem findNode_leaf (ls : List String) (n v : Node) (hn : n.WF) (hv : v.isMap = false) :
    findNode n ls = .ok (some v) ↔ (ls, v) ∈ n.leaves := by
  induction ls generalizing n with
  | nil =>
    rw [findNode]
    constructor
    · intro h
      simp only [Except.ok.injEq, Option.some.injEq] at h
      subst h
      rw [leaves_of_not_map n hv]; simp
    · intro h
      cases n with
      | map f => exact absurd rfl (leaf_map_ne_nil f _ _ h)
      | _ => simp [Node.leaves] at h; rw [h]
  | cons k ks ih =>
    cases n with
    | map f =>
      rw [findNode, descend, Node.leaves, leaves_find f hn]
      cases hf : f.find k with
      | none => simp
      | some c =>
        simp only [Option.some.injEq, exists_eq_left']
        exact ih c (find_wf f hn k c hf)
    | null => simp [findNode, descend, Node.leaves]
    | scalar s => simp [findNode, descend, Node.leaves]
    | seq l => cases l <;> simp [findNode, descend, Node.leaves]

/-- All keys below an existing node. -/
theorem findNode_below (ls : List String) (n m : Node) (hn : n.WF) (h : findNode n ls = .ok (some m))
    (p : List String) (v : Node) : (ls ++ p, v) ∈ n.leaves ↔ (p, v) ∈ m.leaves := by
  induction ls generalizing n with
  | nil => rw [findNode] at h; simp only [Except.ok.injEq, Option.some.injEq] at h; subst h; simp
  | cons k ks ih =>
    cases n with
    | map f =>
      rw [findNode, descend] at h
      rw [List.cons_append, Node.leaves, leaves_find f hn]
      cases hf : f.find k with
      | none => rw [hf] at h; simp at h
      | some c =>
        rw [hf] at h
        simp only at h
        simp only [Option.some.injEq, exists_eq_left']
        exact ih c (find_wf f hn k c hf) h
    | null => simp [findNode, descend] at h
    | scalar s => simp [findNode, descend] at h
    | seq l => cases l <;> simp [findNode, descend] at h

theorem findNode_wf (ls : List String) (n m : Node) (hn : n.WF) (h : findNode n ls = .ok (some m)) : m.WF := by
  induction ls generalizing n with
  | nil => rw [findNode] at h; simp only [Except.ok.injEq, Option.some.injEq] at h; subst h; exact hn
  | cons k ks ih =>
    cases n with
    | map f =>
      rw [findNode, descend] at h
      cases hf : f.find k with
      | none => rw [hf] at h; simp at h
      | some c => rw [hf] at h; exact ih c (find_wf f hn k c hf) h
    | null => simp [findNode, descend] at h
    | scalar s => simp [findNode, descend] at h
    | seq l => cases l <;> simp [findNode, descend] at h

/-- If the search does not find a node there is no key below the labels. -/
theorem findNode_absent (ls : List String) (n : Node) (hn : n.WF) (h : ∀ m, findNode n ls ≠ .ok (some m))
    (p : List String) (v : Node) : (ls ++ p, v) ∉ n.leaves := by
  induction ls generalizing n with
  | nil => exact absurd (by rw [findNode]) (h n)
  | cons k ks ih =>
    cases n with
    | map f =>
      rw [List.cons_append, Node.leaves, leaves_find f hn]
      rintro ⟨c, h1, h2⟩
      refine ih c (find_wf f hn k c h1) (fun m hm => h m ?_) h2
      rw [findNode, descend, h1]
      exact hm
    | _ => simp [Node.leaves]

/-- The search throws only if a shorter key has a sequence as value. -/
theorem findNode_error (ls : List String) (n : Node) (hn : n.WF) (e : Err) (h : findNode n ls = .error e) :
    ∃ p q l, ls = p ++ q ∧ q ≠ [] ∧ (p, Node.seq l) ∈ n.leaves := by
  induction ls generalizing n with
  | nil => rw [findNode] at h; cases h
  | cons k ks ih =>
    cases n with
    | map f =>
      rw [findNode, descend] at h
      cases hf : f.find k with
      | none => rw [hf] at h; simp at h
      | some c =>
        rw [hf] at h
        obtain ⟨p, q, l, h1, h2, h3⟩ := ih c (find_wf f hn k c hf) h
        refine ⟨k :: p, q, l, by rw [h1]; rfl, h2, ?_⟩
        rw [Node.leaves, leaves_find f hn]
        exact ⟨c, hf, h3⟩
    | null => simp [findNode, descend] at h
    | scalar s => simp [findNode, descend] at h
    | seq l => exact ⟨[], k :: ks, l, rfl, by simp, by simp [Node.leaves]⟩

/-- No key is a prefix of another one. -/
theorem prefix_free (p q : List String) (n v w : Node) (hn : n.WF) (h : (p, v) ∈ n.leaves)
    (h' : (p ++ q, w) ∈ n.leaves) : q = [] ∧ v = w := by
  have hv := leaf_not_map p n v hn h
  have := (findNode_below p n v hn ((findNode_leaf p n v hn hv).2 h) q w).1 h'
  rw [leaves_of_not_map v hv] at this
  simp only [List.mem_singleton, Prod.mk.injEq] at this
  exact ⟨this.1, this.2.symm⟩

/-! ### Removal at a path -/

theorem removeAt_leaf (n : Node) (ls : List String) (h : n.isMap = false) : removeAt ls n = n := by
  cases n with
  | map f => cases h
  | _ => cases ls with
    | nil => rfl
    | cons a t => cases t <;> rfl

theorem removeAt_wf (ls : List String) (n : Node) (hn : n.WF) : (removeAt ls n).WF := by
  induction ls generalizing n with
  | nil => cases n <;> exact hn
  | cons k ks ih =>
    cases n with
    | map f =>
      cases ks with
      | nil => rw [removeAt]; exact wf_remove f hn k
      | cons k2 ks2 =>
        rw [removeAt]
        · cases hf : f.find k with
          | none => exact hn
          | some c =>
            exact wf_set f hn k _ (ih c (find_wf f hn k c hf))
              (keys_ne_empty f hn k (find_mem_keys f k c hf))
        · simp
    | null => rw [removeAt_leaf _ _ rfl]; exact hn
    | scalar s => rw [removeAt_leaf _ _ rfl]; exact hn
    | seq l => rw [removeAt_leaf _ _ rfl]; exact hn

/-- Removal deletes exactly the keys below the labels. -/
theorem removeAt_leaves (ls : List String) (n : Node) (hn : n.WF) (hls : ls ≠ []) (p : List String) (v : Node) :
    (p, v) ∈ (removeAt ls n).leaves ↔ (p, v) ∈ n.leaves ∧ ¬ls <+: p := by
  induction ls generalizing n p with
  | nil => exact absurd rfl hls
  | cons k ks ih =>
    cases n with
    | map f =>
      have hp : ∀ g : Forest, (p, v) ∈ g.leaves → ∃ k' p', p = k' :: p' := fun g hg => by
        obtain ⟨k', p', h1, _⟩ := head_mem g _ hg
        exact ⟨k', p', h1⟩
      cases p with
      | nil =>
        constructor
        · intro h
          exfalso
          cases ks with
          | nil => rw [removeAt] at h; exact leaf_map_ne_nil _ _ _ h rfl
          | cons k2 ks2 =>
            rw [removeAt] at h
            · cases hf : f.find k with
              | none => rw [hf] at h; exact leaf_map_ne_nil _ _ _ h rfl
              | some c => rw [hf] at h; exact leaf_map_ne_nil _ _ _ h rfl
            · simp
        · rintro ⟨h, _⟩
          exact absurd rfl (leaf_map_ne_nil f _ _ h)
      | cons k' p' =>
        cases ks with
        | nil =>
          rw [removeAt, Node.leaves, Node.leaves, leaves_find _ (wf_remove f hn k), leaves_find f hn,
            find_remove f hn]
          by_cases hk : k' = k
          · subst hk
            simp
          · rw [if_neg hk]
            have : ¬[k] <+: k' :: p' := by
              intro h
              rw [List.cons_prefix_cons] at h
              exact hk h.1.symm
            simp [this]
        | cons k2 ks2 =>
          rw [removeAt]
          · cases hf : f.find k with
            | none =>
              simp only
              constructor
              · intro h
                refine ⟨h, fun hpre => ?_⟩
                rw [List.cons_prefix_cons] at hpre
                rw [Node.leaves, leaves_find f hn] at h
                obtain ⟨c, h1, _⟩ := h
                rw [← hpre.1, hf] at h1
                cases h1
              · exact fun h => h.1
            | some c =>
              simp only
              have hcw := find_wf f hn k c hf
              rw [Node.leaves, Node.leaves,
                leaves_find _ (wf_set f hn k _ (removeAt_wf (k2 :: ks2) c hcw)
                  (keys_ne_empty f hn k (find_mem_keys f k c hf))),
                leaves_find f hn, find_set]
              by_cases hk : k' = k
              · subst hk
                rw [if_pos rfl, hf]
                simp only [Option.some.injEq, exists_eq_left', List.cons_prefix_cons, true_and]
                exact ih c hcw (by simp) p'
              · rw [if_neg hk]
                have : ¬k :: k2 :: ks2 <+: k' :: p' := by
                  intro h
                  rw [List.cons_prefix_cons] at h
                  exact hk h.1.symm
                simp [this]
          · simp
    | null => rw [removeAt_leaf _ _ rfl]; simp only [Node.leaves, List.mem_singleton, Prod.mk.injEq]; constructor
              · rintro ⟨rfl, rfl⟩; simp
              · exact fun h => h.1
    | scalar s => rw [removeAt_leaf _ _ rfl]; simp only [Node.leaves, List.mem_singleton, Prod.mk.injEq]; constructor
                  · rintro ⟨rfl, rfl⟩; simp
                  · exact fun h => h.1
    | seq l => rw [removeAt_leaf _ _ rfl]; simp only [Node.leaves, List.mem_singleton, Prod.mk.injEq]; constructor
               · rintro ⟨rfl, rfl⟩; simp
               · exact fun h => h.1

/-! ### Removal of empty maps -/

theorem foldl_remove_wf (ks : List String) (f : Forest) (hf : f.WF) :
    (ks.foldl (fun h k => h.remove k) f).WF := by
  induction ks generalizing f with
  | nil => exact hf
  | cons k ks ih => exact ih (f.remove k) (wf_remove f hf k)

theorem foldl_remove_find (ks : List String) (f : Forest) (hf : f.WF) (x : String) :
    (ks.foldl (fun h k => h.remove k) f).find x = if x ∈ ks then none else f.find x := by
  induction ks generalizing f with
  | nil => simp
  | cons k ks ih =>
    rw [List.foldl_cons, ih (f.remove k) (wf_remove f hf k), find_remove f hf]
    by_cases h1 : x ∈ ks
    · simp [h1]
    · by_cases h2 : x = k <;> simp [h1, h2]

theorem emptyKeys_find (g : Forest) (hg : g.WF) (x : String) :
    x ∈ emptyKeys g ↔ g.find x = some (.map .nil) := by
  match g with
  | .nil => simp [emptyKeys, Forest.find]
  | .cons k n r =>
    obtain ⟨h1, h2, h3, h4⟩ := hg
    have hnil : (n.isMap && n.size == 0) = true ↔ n = .map .nil := by
      cases n with
      | map f => cases f <;> simp [Node.isMap, Node.size, Forest.size]
      | _ => simp [Node.isMap]
    rw [emptyKeys, Forest.find]
    by_cases hx : k = x
    · subst hx
      rw [if_pos rfl]
      have hr : k ∉ emptyKeys r := fun h => by
        have := (emptyKeys_find r h4 k).1 h
        exact h2 (find_mem_keys r k _ this)
      by_cases hn : (n.isMap && n.size == 0) = true
      · rw [if_pos hn]; simp [hnil.1 hn]
      · rw [if_neg hn]
        simp only [hr, false_iff, Option.some.injEq]
        exact fun h => hn (hnil.2 h)
    · rw [if_neg hx, ← emptyKeys_find r h4 x]
      split <;> simp [Ne.symm hx]

theorem cleanKids_keys (f : Forest) : (cleanKids f).keys = f.keys := by
  match f with
  | .nil => simp [cleanKids, Forest.keys]
  | .cons k n r => rw [cleanKids, Forest.keys, Forest.keys, cleanKids_keys r]

theorem cleanKids_find (f : Forest) (x : String) : (cleanKids f).find x = (f.find x).map clean := by
  match f with
  | .nil => simp [cleanKids, Forest.find]
  | .cons k n r =>
    rw [cleanKids, Forest.find, Forest.find]
    by_cases h : k = x
    · rw [if_pos h, if_pos h]; rfl
    · rw [if_neg h, if_neg h, cleanKids_find r x]

mutual
theorem clean_wf (n : Node) (hn : n.WF) : (clean n).WF := by
  match n, hn with
  | .map f, hn => rw [clean]; exact foldl_remove_wf _ _ (cleanKids_wf f hn)
  | .null, hn => rw [clean]; exact hn; simp
  | .scalar s, hn => rw [clean]; exact hn; simp
  | .seq l, hn => rw [clean]; exact hn; simp
theorem cleanKids_wf (f : Forest) (hf : f.WF) : (cleanKids f).WF := by
  match f, hf with
  | .nil, _ => simp [cleanKids, Forest.WF]
  | .cons k n r, hf =>
    rw [cleanKids]
    refine ⟨hf.1, ?_, clean_wf n hf.2.2.1, cleanKids_wf r hf.2.2.2⟩
    rw [cleanKids_keys]; exact hf.2.1
end

open Classical in
/-- What a cleaned map contains under a label. -/
theorem clean_map (f : Forest) (hf : f.WF) : ∃ g, clean (.map f) = .map g ∧ g.WF ∧
    ∀ x, g.find x = match f.find x with
      | some c => if clean c = .map .nil then none else some (clean c)
      | none => none := by
  rw [clean]
  refine ⟨_, rfl, foldl_remove_wf _ _ (cleanKids_wf f hf), ?_⟩
  intro x
  have hw := cleanKids_wf f hf
  rw [foldl_remove_find _ _ hw]
  by_cases hx : x ∈ List.replicate (cleanKids f).size "" ++ emptyKeys (cleanKids f)
  · rw [if_pos hx]
    rw [List.mem_append] at hx
    rcases hx with hx | hx
    · have e := (List.mem_replicate.1 hx).2
      have : f.find x = none := by
        rw [find_none]
        intro h
        exact keys_ne_empty f hf x h e
      rw [this]
    · have := (emptyKeys_find _ hw x).1 hx
      rw [cleanKids_find] at this
      cases hfx : f.find x with
      | none => rfl
      | some c => rw [hfx] at this; simp only [Option.map_some, Option.some.injEq] at this; simp [this]
  · rw [if_neg hx, cleanKids_find]
    cases hfx : f.find x with
    | none => rfl
    | some c =>
      have : clean c ≠ .map .nil := by
        intro h
        apply hx
        rw [List.mem_append]
        right
        rw [emptyKeys_find _ hw, cleanKids_find, hfx, Option.map_some, h]
      simp [this]

theorem clean_not_map (n : Node) (h : n.isMap = false) : clean n = n := by
  cases n with
  | map f => cases h
  | _ => rw [clean]; simp

/-- Cleaning changes no key. -/
theorem clean_leaves (p : List String) (n : Node) (hn : n.WF) (v : Node) :
    (p, v) ∈ (clean n).leaves ↔ (p, v) ∈ n.leaves := by
  induction p generalizing n with
  | nil =>
    cases n with
    | map f =>
      obtain ⟨g, h1, _, _⟩ := clean_map f hn
      rw [h1]
      exact ⟨fun h => absurd rfl (leaf_map_ne_nil _ _ _ h), fun h => absurd rfl (leaf_map_ne_nil _ _ _ h)⟩
    | _ => rw [clean_not_map _ rfl]
  | cons k p ih =>
    cases n with
    | map f =>
      obtain ⟨g, h1, h2, h3⟩ := clean_map f hn
      rw [h1, Node.leaves, Node.leaves, leaves_find g h2, leaves_find f hn, h3]
      cases hf : f.find k with
      | none => simp
      | some c =>
        have hcw := find_wf f hn k c hf
        simp only [Option.some.injEq, exists_eq_left']
        by_cases hc : clean c = .map .nil
        · rw [if_pos hc]
          have := ih c hcw
          rw [hc] at this
          simp only [Node.leaves, Forest.leaves, List.not_mem_nil, false_iff] at this
          simp [this]
        · rw [if_neg hc]
          simp only [Option.some.injEq, exists_eq_left']
          exact ih c hcw
    | _ => rw [clean_not_map _ rfl]

/-- A tree in which every section contains a key. -/
def NoEmpty (n : Node) : Prop :=
  ∀ ls m, ls ≠ [] → findNode n ls = .ok (some m) → m.leaves ≠ []

mutual
theorem clean_nil (n : Node) (hn : n.WF) (h : ∀ e, e ∉ (clean n).leaves) : clean n = .map .nil := by
  match n, hn, h with
  | .map f, hn, h =>
    obtain ⟨g, h1, h2, h3⟩ := clean_map f hn
    rw [h1] at h ⊢
    cases g with
    | nil => rfl
    | cons k c r =>
      exfalso
      have hk := h3 k
      rw [Forest.find, if_pos rfl] at hk
      cases hf : f.find k with
      | none => rw [hf] at hk; cases hk
      | some c0 =>
        rw [hf] at hk
        simp only at hk
        split at hk
        · cases hk
        · rename_i hc
          simp only [Option.some.injEq] at hk
          subst hk
          exact hc (clean_nil_find f hn k c0 hf (fun e he =>
            h (k :: e.1, e.2) (by
              rw [Node.leaves, Forest.leaves, List.mem_append]
              exact Or.inl (List.mem_map.2 ⟨e, he, rfl⟩))))
  | .null, _, h => exact absurd (by rw [clean_not_map _ rfl]; simp [Node.leaves]) (h ([], .null))
  | .scalar s, _, h => exact absurd (by rw [clean_not_map _ rfl]; simp [Node.leaves]) (h ([], .scalar s))
  | .seq l, _, h => exact absurd (by rw [clean_not_map _ rfl]; simp [Node.leaves]) (h ([], .seq l))
theorem clean_nil_find (f : Forest) (hf : f.WF) (k : String) (c : Node) (h : f.find k = some c)
    (he : ∀ e, e ∉ (clean c).leaves) : clean c = .map .nil := by
  match f, hf, h with
  | .nil, _, h => simp [Forest.find] at h
  | .cons k' n r, hf, h =>
    rw [Forest.find] at h
    by_cases hk : k' = k
    · rw [if_pos hk] at h
      simp only [Option.some.injEq] at h
      subst h
      exact clean_nil n hf.2.2.1 he
    · rw [if_neg hk] at h
      exact clean_nil_find r hf.2.2.2 k c h he
end

/-- After the removal of empty maps every section contains a key. -/
theorem clean_noEmpty (n : Node) (hn : n.WF) : NoEmpty (clean n) := by
  intro ls m hls h
  induction ls generalizing n with
  | nil => exact absurd rfl hls
  | cons k ks ih =>
    cases n with
    | map f =>
      obtain ⟨g, h1, h2, h3⟩ := clean_map f hn
      rw [h1, findNode, descend, h3] at h
      cases hf : f.find k with
      | none => rw [hf] at h; simp at h
      | some c =>
        rw [hf] at h
        have hcw := find_wf f hn k c hf
        simp only at h
        by_cases hc : clean c = .map .nil
        · rw [if_pos hc] at h; simp at h
        · rw [if_neg hc] at h
          simp only at h
          cases ks with
          | nil =>
            rw [findNode] at h
            simp only [Except.ok.injEq, Option.some.injEq] at h
            subst h
            intro hl
            exact hc (clean_nil c hcw (by rw [hl]; simp))
          | cons k2 ks2 => exact ih c hcw (by simp) h
    | null => rw [clean_not_map _ rfl] at h; simp [findNode, descend] at h
    | scalar s => rw [clean_not_map _ rfl] at h; simp [findNode, descend] at h
    | seq l => rw [clean_not_map _ rfl] at h; cases l <;> simp [findNode, descend] at h

end Verif.Config
