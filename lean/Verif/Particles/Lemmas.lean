import Verif.Particles.Spec
/-
Representation invariant of the particle container and its preservation.
-/
namespace Verif.Particles
variable {P : Type}

/-- Representation invariant. -/
structure Inv (s : State P) : Prop where
  size_lt : s.size < s.cap
  index_eq : ∀ i, i < s.cap → (s.data i).index = i
  nodup : s.dirty.Nodup
  hole_iff : ∀ i, i < s.cap → ((s.data i).hole = true ↔ i ∈ s.dirty)
  dirty_lt : ∀ i, i ∈ s.dirty → i < s.size
  hole_id : ∀ i, i ∈ s.dirty → (s.data i).id = -1
  live_id : ∀ i, i < s.size → i ∉ s.dirty → 0 ≤ (s.data i).id ∧ (s.data i).id ≤ s.idMax
  inj : ∀ i j, i < s.size → j < s.size → i ∉ s.dirty → j ∉ s.dirty →
    (s.data i).id = (s.data j).id → i = j
  size_le : (s.size : Int) ≤ s.idMax + 1

/-- Invariant plus relation to the abstract container. -/
structure Sim (s : State P) (b : Bag P) : Prop extends Inv s where
  next : b.next = s.idMax + 1
  live : ∀ id c, b.live id = some c ↔
    ∃ i, i < s.size ∧ i ∉ s.dirty ∧ (s.data i).id = id ∧ (s.data i).content = c

/-- Particles never move to another slot, ids only grow. -/
structure Stable (s t : State P) : Prop where
  idMax : s.idMax ≤ t.idMax
  slot : ∀ i, i < t.size → i ∉ t.dirty → (t.data i).id ≤ s.idMax →
    i < s.size ∧ i ∉ s.dirty ∧ (s.data i).id = (t.data i).id

theorem Stable.refl (s : State P) : Stable s s := ⟨Int.le_refl _, fun _ h1 h2 _ => ⟨h1, h2, rfl⟩⟩

theorem Stable.trans {s t u : State P} (h1 : Stable s t) (h2 : Stable t u) : Stable s u := by
  refine ⟨Int.le_trans h1.idMax h2.idMax, fun i hi hd hle => ?_⟩
  have a := h2.slot i hi hd (Int.le_trans hle h1.idMax)
  have b := h1.slot i a.1 a.2.1 (by rw [a.2.2]; exact hle)
  exact ⟨b.1, b.2.1, b.2.2.trans a.2.2⟩

/-- Outcome of `copy_in`. -/
def copied (s : State P) (i : Nat) (p : PData P) : State P :=
  { s with
    idMax := s.idMax + 1
    data := fun j => if j = i then
      { id := s.idMax + 1, index := (s.data i).index, hole := (s.data i).hole,
        ty := p.ty, proc := p.proc, pay := p.pay } else s.data j }

theorem copyIn_eq (s : State P) (i : Nat) (p : PData P) (hi : i < s.cap) :
    copyIn s i p = if s.idMax + 1 < 2 ^ 31 then .ok (copied s i p) else .error .overflow := by
  unfold copyIn nextId
  split
  · simp [bind, Except.bind, rd, wr, hi, copyTo, copied]
  · simp [bind, Except.bind]

variable [Inhabited P]

theorem sim_init : Sim (init : State P) Bag.empty := by
  constructor
  · constructor <;> simp [init, fresh]
  · simp [init, Bag.empty]
  · simp [init, Bag.empty]

theorem sim_increase {s : State P} {b : Bag P} (h : Sim s b) (n : Nat) (hn : s.cap ≤ n) :
    Sim (increaseCapacity s n) b := by
  have hs := h.size_lt
  constructor
  · constructor
    · simp only [increaseCapacity]; omega
    · intro i hi
      simp only [increaseCapacity]
      split
      · exact h.index_eq i (by omega)
      · rfl
    · exact h.nodup
    · intro i hi
      simp only [increaseCapacity]
      split
      · exact h.hole_iff i (by omega)
      · rename_i hlt
        constructor
        · intro hf; simp [fresh] at hf
        · intro hm; exact absurd (h.dirty_lt i hm) hlt
    · exact h.dirty_lt
    · intro i hi
      simp only [increaseCapacity] at hi ⊢
      rw [if_pos (h.dirty_lt i hi)]; exact h.hole_id i hi
    · intro i hi hd
      simp only [increaseCapacity] at hi hd ⊢
      rw [if_pos hi]; exact h.live_id i hi hd
    · intro i j hi hj hdi hdj
      simp only [increaseCapacity] at hi hj hdi hdj ⊢
      rw [if_pos hi, if_pos hj]; exact h.inj i j hi hj hdi hdj
    · exact h.size_le
  · exact h.next
  · intro id c
    rw [h.live]
    simp only [increaseCapacity]
    constructor
    · rintro ⟨i, hi, h2⟩; exact ⟨i, hi, by rw [if_pos hi]; exact h2⟩
    · rintro ⟨i, hi, h2⟩; exact ⟨i, hi, by rw [if_pos hi] at h2; exact h2⟩

omit [Inhabited P] in
theorem stable_of_same {s t : State P} (h1 : t.size = s.size) (h2 : t.dirty = s.dirty)
    (h3 : t.idMax = s.idMax) (h4 : ∀ i, i < s.size → (t.data i).id = (s.data i).id) :
    Stable s t := by
  constructor
  · rw [h3]; exact Int.le_refl _
  · intro i hi hd _
    rw [h1] at hi; rw [h2] at hd
    exact ⟨hi, hd, (h4 i hi).symm⟩

theorem ensure_ok {s t : State P} {b : Bag P} (h : Sim s b) (n : Nat)
    (e : ensureCapacity s n = .ok t) :
    Sim t b ∧ Stable s t ∧ t.size + n < t.cap ∧ t.dirty = s.dirty ∧ t.size = s.size ∧
      t.idMax = s.idMax := by
  unfold ensureCapacity at e
  have hs := h.size_lt
  split at e
  · exact absurd e (by simp)
  · split at e
    · split at e
      · exact absurd e (by simp)
      · injection e with e
        subst e
        refine ⟨sim_increase h _ (by omega), stable_of_same rfl rfl rfl ?_, ?_, rfl, rfl, rfl⟩
        · intro i hi; simp [increaseCapacity, hi]
        · simp only [increaseCapacity]; omega
    · injection e with e
      subst e
      exact ⟨h, Stable.refl _, by omega, rfl, rfl, rfl⟩

theorem ensure_err {s : State P} {b : Bag P} (h : Sim s b) (n : Nat) {f : Fault}
    (e : ensureCapacity s n = .error f) :
    f = .overflow ∧ s.idMax + 1 + n ≥ 2 ^ 29 := by
  unfold ensureCapacity at e
  have hs := h.size_lt
  have hl := h.size_le
  split at e
  · injection e with e; exact ⟨e.symm, by omega⟩
  · split at e
    · split at e
      · injection e with e; exact ⟨e.symm, by omega⟩
      · exact absurd e (by simp)
    · exact absurd e (by simp)

omit [Inhabited P] in
theorem hole_false {s : State P} (h : Inv s) {i : Nat} (hi : i < s.cap) (hd : i ∉ s.dirty) :
    (s.data i).hole = false := by
  cases hh : (s.data i).hole with
  | false => rfl
  | true => exact absurd ((h.hole_iff i hi).1 hh) hd

omit [Inhabited P] in
/-- Append after the last used slot (`insert`/`create` without holes). -/
theorem sim_push {s : State P} {b : Bag P} (h : Sim s b) (p : PData P)
    (hc : s.size + 1 < s.cap) :
    Sim { copied s s.size p with size := s.size + 1 } (b.add p.content) ∧
    Stable s { copied s s.size p with size := s.size + 1 } := by
  have hfresh : s.size ∉ s.dirty := fun hm => absurd (h.dirty_lt _ hm) (by omega)
  constructor
  · constructor
    · constructor
      · exact hc
      · intro i hi
        simp only [copied] at hi ⊢
        split
        · rename_i e; subst e; exact h.index_eq _ hi
        · exact h.index_eq i hi
      · exact h.nodup
      · intro i hi
        simp only [copied] at hi ⊢
        split
        · rename_i e; subst e; exact h.hole_iff _ hi
        · exact h.hole_iff i hi
      · intro i hi; have := h.dirty_lt i hi; simp only; omega
      · intro i hi
        have := h.dirty_lt i hi
        simp only [copied] at hi ⊢
        rw [if_neg (by omega)]; exact h.hole_id i hi
      · intro i hi hd
        have h1 := h.size_le
        simp only [copied] at hi hd ⊢
        split
        · simp only; omega
        · have := h.live_id i (by omega) hd; omega
      · intro i j hi hj hdi hdj
        simp only [copied] at hi hj hdi hdj ⊢
        split <;> split
        · omega
        · intro e; have := h.live_id j (by omega) hdj; simp only at e; omega
        · intro e; have := h.live_id i (by omega) hdi; simp only at e; omega
        · exact h.inj i j (by omega) (by omega) hdi hdj
      · have := h.size_le
        simp only [copied]; omega
    · simp only [Bag.add, copied]; rw [h.next]
    · intro id c
      simp only [Bag.add, copied]
      split
      · rename_i e
        constructor
        · intro hc'
          injection hc' with hc'
          refine ⟨s.size, by omega, hfresh, ?_, ?_⟩
          · simp [e, h.next]
          · simp only [if_true]; rw [← hc']; rfl
        · rintro ⟨i, hi, hd, hid, hcont⟩
          by_cases hi' : i = s.size
          · rw [if_pos hi'] at hcont; rw [← hcont]; rfl
          · rw [if_neg hi'] at hid
            have := h.live_id i (by omega) hd
            have := h.next
            omega
      · rename_i e
        rw [h.live]
        constructor
        · rintro ⟨i, hi, hd, h2⟩
          exact ⟨i, by omega, hd, by rw [if_neg (by omega)]; exact h2⟩
        · rintro ⟨i, hi, hd, h2⟩
          by_cases hi' : i = s.size
          · rw [if_pos hi'] at h2
            have := h.next
            exact absurd h2.1 (by simp only; omega)
          · rw [if_neg hi'] at h2
            exact ⟨i, by omega, hd, h2⟩
  · constructor
    · simp only [copied]; omega
    · intro i hi hd hle
      simp only [copied] at hi hd hle ⊢
      by_cases hi' : i = s.size
      · rw [if_pos hi'] at hle; simp only at hle; omega
      · rw [if_neg hi']; exact ⟨by omega, hd, rfl⟩

/-- Result of filling the hole on top of the stack. -/
def filled (s : State P) (o : Nat) (rest : List Nat) (p : PData P) : State P :=
  { s with
    dirty := rest
    idMax := s.idMax + 1
    data := fun j => if j = o then
      { id := s.idMax + 1, index := (s.data o).index, hole := false,
        ty := p.ty, proc := p.proc, pay := p.pay } else s.data j }

omit [Inhabited P] in
theorem sim_fill {s : State P} {b : Bag P} (h : Sim s b) (p : PData P) {o : Nat}
    {rest : List Nat} (hd : s.dirty = o :: rest) :
    Sim (filled s o rest p) (b.add p.content) ∧ Stable s (filled s o rest p) := by
  have ho : o < s.size := h.dirty_lt o (by rw [hd]; simp)
  have hs := h.size_lt
  have hnd := h.nodup
  rw [hd] at hnd
  have hor : o ∉ rest := (List.nodup_cons.1 hnd).1
  have mem : ∀ i, i ≠ o → (i ∈ s.dirty ↔ i ∈ rest) := by
    intro i hi; rw [hd]; simp [hi]
  constructor
  · constructor
    · constructor
      · exact hs
      · intro i hi
        simp only [filled] at hi ⊢
        split
        · rename_i e; subst e; exact h.index_eq _ hi
        · exact h.index_eq i hi
      · exact (List.nodup_cons.1 hnd).2
      · intro i hi
        simp only [filled] at hi ⊢
        split
        · rename_i e; subst e; simp [hor]
        · rename_i e; rw [h.hole_iff i hi, mem i e]
      · intro i hi
        simp only [filled] at hi ⊢
        exact h.dirty_lt i (by rw [hd]; exact List.mem_cons_of_mem _ hi)
      · intro i hi
        simp only [filled] at hi ⊢
        have : i ≠ o := fun e => hor (e ▸ hi)
        rw [if_neg this]; exact h.hole_id i ((mem i this).2 hi)
      · intro i hi hdi
        have h1 := h.size_le
        simp only [filled] at hi hdi ⊢
        split
        · simp only; omega
        · rename_i e
          have := h.live_id i hi (fun hm => hdi ((mem i e).1 hm)); omega
      · intro i j hi hj hdi hdj
        simp only [filled] at hi hj hdi hdj ⊢
        split <;> split
        · omega
        · rename_i e
          intro e'; have := h.live_id j hj (fun hm => hdj ((mem j e).1 hm)); simp only at e'; omega
        · rename_i e _
          intro e'; have := h.live_id i hi (fun hm => hdi ((mem i e).1 hm)); simp only at e'; omega
        · rename_i e1 e2
          exact h.inj i j hi hj (fun hm => hdi ((mem i e1).1 hm)) (fun hm => hdj ((mem j e2).1 hm))
      · have := h.size_le
        simp only [filled]; omega
    · simp only [Bag.add, filled]; rw [h.next]
    · intro id c
      simp only [Bag.add, filled]
      split
      · rename_i e
        constructor
        · intro hc'
          injection hc' with hc'
          refine ⟨o, ho, hor, ?_, ?_⟩
          · simp [e, h.next]
          · simp only [if_true]; rw [← hc']; rfl
        · rintro ⟨i, hi, hdi, hid, hcont⟩
          by_cases hi' : i = o
          · rw [if_pos hi'] at hcont; rw [← hcont]; rfl
          · rw [if_neg hi'] at hid
            have := h.live_id i hi (fun hm => hdi ((mem i hi').1 hm))
            have := h.next
            omega
      · rename_i e
        rw [h.live]
        constructor
        · rintro ⟨i, hi, hdi, h2⟩
          have hne : i ≠ o := fun e => hdi (by rw [hd, e]; simp)
          exact ⟨i, hi, fun hm => hdi ((mem i hne).2 hm), by rw [if_neg hne]; exact h2⟩
        · rintro ⟨i, hi, hdi, h2⟩
          by_cases hi' : i = o
          · rw [if_pos hi'] at h2
            have := h.next
            exact absurd h2.1 (by simp only; omega)
          · rw [if_neg hi'] at h2
            exact ⟨i, hi, fun hm => hdi ((mem i hi').1 hm), h2⟩
  · constructor
    · simp only [filled]; omega
    · intro i hi hdi hle
      simp only [filled] at hi hdi hle ⊢
      by_cases hi' : i = o
      · rw [if_pos hi'] at hle; simp only at hle; omega
      · rw [if_neg hi']; exact ⟨hi, fun hm => hdi ((mem i hi').1 hm), rfl⟩

omit [Inhabited P] in
/-- The three steps "copy in, read back, clear the hole flag". -/
theorem fill_eq (s : State P) (o : Nat) (rest : List Nat) (p : PData P) (ho : o < s.cap) :
    (do
      let s ← copyIn { s with dirty := rest } o p
      let slot ← rd s o
      wr s o { slot with hole := false }) =
    if s.idMax + 1 < 2 ^ 31 then .ok (filled s o rest p) else .error .overflow := by
  rw [copyIn_eq _ _ _ (by exact ho)]
  simp only
  split
  · simp only [bind, Except.bind, rd, wr, copied, if_pos ho, if_true]
    simp only [filled]
    congr 2
    funext j
    by_cases hj : j = o <;> simp [hj]
  · simp [bind, Except.bind]

omit [Inhabited P] in
theorem valid_live {s : State P} (h : Inv s) {c : PData P} (hv : isValid s c = true)
    (h0 : 0 ≤ c.id) :
    c.index < s.size ∧ c.index ∉ s.dirty ∧ (s.data c.index).id = c.id ∧
      (s.data c.index).proc = c.proc := by
  unfold isValid at hv
  split at hv
  · exact absurd hv (by simp)
  · rename_i hlt
    simp at hv
    refine ⟨by omega, ?_, hv.1, hv.2⟩
    intro hm
    have := h.hole_id _ hm
    omega

omit [Inhabited P] in
theorem sim_overwrite {s : State P} {b : Bag P} (h : Sim s b) (a : PData P) {i : Nat}
    (hi : i < s.size) (hd : i ∉ s.dirty) :
    Sim (copied s i a) ((b.del (s.data i).id).add a.content) ∧ Stable s (copied s i a) := by
  have hs := h.size_lt
  constructor
  · constructor
    · constructor
      · exact hs
      · intro j hj
        simp only [copied] at hj ⊢
        split
        · rename_i e; subst e; exact h.index_eq _ hj
        · exact h.index_eq j hj
      · exact h.nodup
      · intro j hj
        simp only [copied] at hj ⊢
        split
        · rename_i e; subst e; exact h.hole_iff _ hj
        · exact h.hole_iff j hj
      · exact h.dirty_lt
      · intro j hj
        simp only [copied] at hj ⊢
        have hne : j ≠ i := fun e => hd (e ▸ hj)
        rw [if_neg hne]; exact h.hole_id j hj
      · intro j hj hdj
        have h1 := h.size_le
        simp only [copied] at hj hdj ⊢
        split
        · simp only; omega
        · have := h.live_id j hj hdj; omega
      · intro j k hj hk hdj hdk
        simp only [copied] at hj hk hdj hdk ⊢
        split <;> split
        · omega
        · intro e; have := h.live_id k hk hdk; simp only at e; omega
        · intro e; have := h.live_id j hj hdj; simp only at e; omega
        · exact h.inj j k hj hk hdj hdk
      · have := h.size_le
        simp only [copied]; omega
    · simp only [Bag.add, Bag.del, copied]; rw [h.next]
    · intro id c
      show (if id = b.next then some a.content
        else if id = (s.data i).id then none else b.live id) = some c ↔ _
      simp only [copied]
      by_cases e : id = b.next
      · rw [if_pos e]
        constructor
        · intro hc'
          injection hc' with hc'
          refine ⟨i, hi, hd, ?_, ?_⟩
          · simp [e, h.next]
          · simp only [if_true]; rw [← hc']; rfl
        · rintro ⟨j, hj, hdj, hid, hcont⟩
          by_cases hj' : j = i
          · rw [if_pos hj'] at hcont; rw [← hcont]; rfl
          · rw [if_neg hj'] at hid
            have := h.live_id j hj hdj
            have := h.next
            omega
      · rw [if_neg e]
        by_cases e2 : id = (s.data i).id
        · rw [if_pos e2]
          constructor
          · intro hc'; exact absurd hc' (by simp)
          · rintro ⟨j, hj, hdj, hid, hcont⟩
            by_cases hj' : j = i
            · rw [if_pos hj'] at hid
              have := h.next
              simp only at hid; omega
            · rw [if_neg hj'] at hid
              exact absurd (h.inj j i hj hi hdj hd (hid.trans e2)) hj'
        · rw [if_neg e2, h.live]
          constructor
          · rintro ⟨j, hj, hdj, h2⟩
            exact ⟨j, hj, hdj, by
              rw [if_neg (fun e' => e2 (by rw [← h2.1, e']))]; exact h2⟩
          · rintro ⟨j, hj, hdj, h2⟩
            by_cases hj' : j = i
            · rw [if_pos hj'] at h2
              have := h.next
              exact absurd h2.1 (by simp only; omega)
            · rw [if_neg hj'] at h2
              exact ⟨j, hj, hdj, h2⟩
  · constructor
    · simp only [copied]; omega
    · intro j hj hdj hle
      simp only [copied] at hj hdj hle ⊢
      by_cases hj' : j = i
      · rw [if_pos hj'] at hle; simp only at hle; omega
      · rw [if_neg hj']; exact ⟨hj, hdj, rfl⟩

/-- Result of `remove` for a valid copy. -/
def removed (s : State P) (i : Nat) : State P :=
  if i = s.size - 1 then { s with size := s.size - 1 }
  else { s with
    dirty := i :: s.dirty
    data := fun j => if j = i then { s.data i with id := -1, hole := true } else s.data j }

omit [Inhabited P] in
theorem remove_eq {s : State P} (h : Inv s) (c : PData P) :
    remove s c = if isValid s c = true ∧ 0 ≤ c.id then .ok (removed s c.index)
      else .error .contract := by
  unfold remove needValid
  by_cases hv : isValid s c = true ∧ 0 ≤ c.id
  · have hl := valid_live h hv.1 hv.2
    have hs := h.size_lt
    rw [if_pos hv]
    simp only [hv.1, hv.2, decide_true, Bool.and_self, if_true, bind, Except.bind, removed]
    split
    · rfl
    · simp [rd, wr, show c.index < s.cap by omega, pure, Except.pure]
  · rw [if_neg hv]
    rw [if_neg]
    · rfl
    · simpa using hv

omit [Inhabited P] in
theorem sim_remove {s : State P} {b : Bag P} (h : Sim s b) {i : Nat}
    (hi : i < s.size) (hd : i ∉ s.dirty) :
    Sim (removed s i) (b.del (s.data i).id) ∧ Stable s (removed s i) := by
  have hs := h.size_lt
  unfold removed
  split
  · rename_i e
    have dl : ∀ j, j ∈ s.dirty → j < s.size - 1 := by
      intro j hj
      have h1 := h.dirty_lt j hj
      have h2 : j ≠ i := fun e => hd (e ▸ hj)
      omega
    constructor
    · constructor
      · constructor
        · simp only; omega
        · exact h.index_eq
        · exact h.nodup
        · exact h.hole_iff
        · exact dl
        · exact h.hole_id
        · intro j hj hdj; simp only at hj hdj ⊢; exact h.live_id j (by omega) hdj
        · intro j k hj hk hdj hdk; simp only at hj hk hdj hdk ⊢
          exact h.inj j k (by omega) (by omega) hdj hdk
        · have := h.size_le; simp only; omega
      · exact h.next
      · intro id c
        simp only [Bag.del]
        split
        · rename_i e2
          constructor
          · intro hc; exact absurd hc (by simp)
          · rintro ⟨j, hj, hdj, hid, _⟩
            have := h.inj j i (by omega) hi hdj hd (hid.trans e2)
            omega
        · rename_i e2
          rw [h.live]
          constructor
          · rintro ⟨j, hj, hdj, h2⟩
            have : j ≠ i := fun e' => e2 (by rw [← h2.1, e'])
            exact ⟨j, by omega, hdj, h2⟩
          · rintro ⟨j, hj, hdj, h2⟩
            exact ⟨j, by omega, hdj, h2⟩
    · constructor
      · exact Int.le_refl _
      · intro j hj hdj _; simp only at hj hdj ⊢; exact ⟨by omega, hdj, trivial⟩
  · rename_i e
    constructor
    · constructor
      · constructor
        · exact hs
        · intro j hj
          simp only at hj ⊢
          split
          · rename_i e2; subst e2; exact h.index_eq _ hj
          · exact h.index_eq j hj
        · exact List.nodup_cons.2 ⟨hd, h.nodup⟩
        · intro j hj
          simp only at hj ⊢
          split
          · rename_i e2; subst e2; simp
          · rename_i e2; rw [h.hole_iff j hj]; simp [e2]
        · intro j hj
          simp only [List.mem_cons] at hj ⊢
          rcases hj with rfl | hj
          · exact hi
          · exact h.dirty_lt j hj
        · intro j hj
          simp only [List.mem_cons] at hj ⊢
          split
          · rfl
          · rename_i e2
            exact h.hole_id j (hj.resolve_left e2)
        · intro j hj hdj
          simp only [List.mem_cons, not_or] at hj hdj ⊢
          rw [if_neg hdj.1]; exact h.live_id j hj hdj.2
        · intro j k hj hk hdj hdk
          simp only [List.mem_cons, not_or] at hj hk hdj hdk ⊢
          rw [if_neg hdj.1, if_neg hdk.1]; exact h.inj j k hj hk hdj.2 hdk.2
        · exact h.size_le
      · exact h.next
      · intro id c
        simp only [Bag.del, List.mem_cons, not_or]
        split
        · rename_i e2
          constructor
          · intro hc; exact absurd hc (by simp)
          · rintro ⟨j, hj, hdj, hid, _⟩
            rw [if_neg hdj.1] at hid
            exact absurd (h.inj j i hj hi hdj.2 hd (hid.trans e2)) hdj.1
        · rename_i e2
          rw [h.live]
          constructor
          · rintro ⟨j, hj, hdj, h2⟩
            have : j ≠ i := fun e' => e2 (by rw [← h2.1, e'])
            exact ⟨j, hj, ⟨this, hdj⟩, by rw [if_neg this]; exact h2⟩
          · rintro ⟨j, hj, hdj, h2⟩
            rw [if_neg hdj.1] at h2
            exact ⟨j, hj, hdj.2, h2⟩
    · constructor
      · exact Int.le_refl _
      · intro j hj hdj _
        simp only [List.mem_cons, not_or] at hj hdj ⊢
        rw [if_neg hdj.1]; exact ⟨hj, hdj.2, rfl⟩

omit [Inhabited P] in
theorem sim_reset {s : State P} {b : Bag P} (h : Sim s b) : Sim (reset s) Bag.empty := by
  have hs := h.size_lt
  constructor
  · constructor
    · simp only [reset]; omega
    · intro i hi; simp only [reset] at hi ⊢; split
      · exact h.index_eq i hi
      · exact h.index_eq i hi
    · simp [reset]
    · intro i hi; simp only [reset] at hi ⊢; split
      · simp
      · rename_i hm; simp [hole_false h.toInv hi hm]
    · simp [reset]
    · simp [reset]
    · simp [reset]
    · simp [reset]
    · simp [reset]
  · simp [reset, Bag.empty]
  · simp [reset, Bag.empty]

/-- Result of `update_particle`. -/
def updated (s : State P) (i : Nat) (new : PData P) : State P :=
  { s with data := fun j => if j = i then copyTo new (s.data i) else s.data j }

omit [Inhabited P] in
theorem sim_update {s : State P} {b : Bag P} (h : Sim s b) (new : PData P) {i : Nat}
    (hi : i < s.size) (hd : i ∉ s.dirty) (hty : (s.data i).ty = new.ty) :
    Sim (updated s i new) (b.set (s.data i).id new.content) ∧ Stable s (updated s i new) := by
  have hid : ∀ j, ((updated s i new).data j).id = (s.data j).id := by
    intro j; simp only [updated]; split
    · rename_i e; subst e; rfl
    · rfl
  have hcont : ((updated s i new).data i).content = new.content := by
    simp [updated, PData.content, copyTo, hty]
  constructor
  · constructor
    · constructor
      · exact h.size_lt
      · intro j hj; simp only [updated] at hj ⊢; split
        · rename_i e; subst e; exact h.index_eq _ hj
        · exact h.index_eq _ hj
      · exact h.nodup
      · intro j hj; simp only [updated] at hj ⊢; split
        · rename_i e; subst e; exact h.hole_iff _ hj
        · exact h.hole_iff _ hj
      · exact h.dirty_lt
      · intro j hj; rw [hid]; exact h.hole_id j hj
      · intro j hj hdj; rw [hid]; exact h.live_id j hj hdj
      · intro j k hj hk hdj hdk; rw [hid, hid]; exact h.inj j k hj hk hdj hdk
      · exact h.size_le
    · exact h.next
    · intro id c
      simp only [Bag.set]
      split
      · rename_i e
        constructor
        · intro hc; injection hc with hc
          exact ⟨i, hi, hd, by rw [hid]; exact e.symm, by rw [hcont]; exact hc⟩
        · rintro ⟨j, hj, hdj, h2, h3⟩
          rw [hid] at h2
          have := h.inj j i hj hi hdj hd (h2.trans e)
          subst this
          rw [hcont] at h3; rw [h3]
      · rename_i e
        rw [h.live]
        have other : ∀ j, j ≠ i → (updated s i new).data j = s.data j := by
          intro j hj; simp [updated, hj]
        constructor
        · rintro ⟨j, hj, hdj, h2⟩
          have : j ≠ i := fun e' => e (by rw [← h2.1, e'])
          exact ⟨j, hj, hdj, by rw [other j this]; exact h2⟩
        · rintro ⟨j, hj, hdj, h2⟩
          have : j ≠ i := fun e' => e (by rw [← h2.1, hid, e'])
          rw [other j this] at h2
          exact ⟨j, hj, hdj, h2⟩
  · exact stable_of_same rfl rfl rfl (fun j _ => hid j)

end Verif.Particles
