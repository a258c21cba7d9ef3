import Verif.Particles.Lemmas
/-
Every operation of the particle container simulates its abstract effect.
-/
namespace Verif.Particles
set_option linter.unusedSectionVars false
variable {P : Type} [Inhabited P]

theorem insert_ok {s t : State P} {b : Bag P} (h : Sim s b) {p r : PData P}
    (e : insert s p = .ok (t, r)) :
    Sim t (b.add p.content) ∧ Stable s t ∧ r.index < t.size ∧ r.index ∉ t.dirty ∧
      t.data r.index = r ∧ r.id = b.next ∧ r.content = p.content := by
  unfold insert at e
  split at e
  · rename_i hd
    cases he : ensureCapacity s 1 with
    | error f => simp [he, bind, Except.bind] at e
    | ok u =>
      obtain ⟨hu, st, hc, hdu, hsz, hidm⟩ := ensure_ok h 1 he
      have hc' : u.size < u.cap := by omega
      simp only [he, bind, Except.bind, copyIn_eq u u.size p hc'] at e
      split at e
      · exact absurd e (by simp)
      · rename_i v hv
        split at hv
        · injection hv with hv
          subst hv
          simp only [rd, copied, hc', if_true, pure, Except.pure] at e
          injection e with e
          injection e with e1 e2
          have hp := sim_push hu p hc
          have hix : (u.data u.size).index = u.size := hu.index_eq _ hc'
          subst e1
          have hnd : u.size ∉ u.dirty := by rw [hdu, hd]; simp
          refine ⟨hp.1, st.trans hp.2, ?_, ?_, ?_, ?_, ?_⟩
          · rw [← e2]; simp [hix]
          · rw [← e2]; simp only [hix]; exact hnd
          · rw [← e2]; simp [hix]
          · rw [← e2]; simp only; exact hu.next.symm
          · rw [← e2]; rfl
        · exact absurd hv (by simp)
  · rename_i o rest hd
    have ho : o < s.size := h.dirty_lt o (by rw [hd]; simp)
    have hs := h.size_lt
    have ho' : o < s.cap := by omega
    have hf := fill_eq s o rest p ho'
    have hor : o ∉ rest := by
      have := h.nodup; rw [hd] at this; exact (List.nodup_cons.1 this).1
    rw [copyIn_eq _ _ _ (by exact ho')] at hf
    simp only [copyIn_eq { s with dirty := rest } o p ho'] at e
    simp only at hf
    split at hf
    · rename_i hlt
      simp only [bind, Except.bind, rd, wr, copied, ho', if_true, pure, Except.pure, if_pos hlt] at e hf
      injection e with e
      injection e with e1 e2
      injection hf with hf
      rw [hf] at e1
      have hfl := sim_fill h p hd
      have hix : (s.data o).index = o := h.index_eq _ ho'
      subst e1
      refine ⟨hfl.1, hfl.2, ?_, ?_, ?_, ?_, ?_⟩
      · rw [← e2]; simpa [hix, filled] using ho
      · rw [← e2]; simpa [hix, filled] using hor
      · rw [← e2]; simp [hix, filled]
      · rw [← e2]; simp only; exact h.next.symm
      · rw [← e2]; rfl
    · rename_i hlt
      simp only [if_neg hlt, bind, Except.bind] at e
      exact absurd e (by simp)

theorem insert_err {s : State P} {b : Bag P} (h : Sim s b) {p : PData P} {f : Fault}
    (e : insert s p = .error f) : f = .overflow ∧ s.idMax + 1 + 1 ≥ 2 ^ 29 := by
  unfold insert at e
  split at e
  · cases he : ensureCapacity s 1 with
    | error g =>
      simp only [he, bind, Except.bind] at e
      injection e with e
      have := ensure_err h 1 he
      rw [e] at this; exact this
    | ok u =>
      obtain ⟨hu, st, hc, hdu, hsz, hidm⟩ := ensure_ok h 1 he
      have hc' : u.size < u.cap := by omega
      simp only [he, bind, Except.bind, copyIn_eq u u.size p hc'] at e
      by_cases hlt : u.idMax + 1 < 2 ^ 31
      · simp only [if_pos hlt] at e
        simp [rd, copied, hc', pure, Except.pure] at e
      · simp only [if_neg hlt] at e
        injection e with e
        exact ⟨e.symm, by omega⟩
  · rename_i o rest hd
    have ho : o < s.size := h.dirty_lt o (by rw [hd]; simp)
    have hs := h.size_lt
    have ho' : o < s.cap := by omega
    simp only [copyIn_eq { s with dirty := rest } o p ho'] at e
    by_cases hlt : s.idMax + 1 < 2 ^ 31
    · simp only [if_pos hlt] at e
      simp [bind, Except.bind, rd, wr, copied, ho', pure, Except.pure] at e
    · simp only [if_neg hlt, bind, Except.bind] at e
      injection e with e
      exact ⟨e.symm, by omega⟩

theorem createHoles_ok (pd : PData P) : ∀ (n : Nat) {s : State P} {b : Bag P} (_ : Sim s b)
    {t : State P} {rest : Nat} (_ : createHoles s pd n = .ok (t, rest)),
    rest ≤ n ∧ Sim t ((List.replicate (n - rest) pd.content).foldl Bag.add b) ∧ Stable s t ∧
      (rest ≠ 0 → t.dirty = [])
  | 0, s, b, h, t, rest, e => by
    simp only [createHoles] at e
    injection e with e; injection e with e1 e2
    subst e1; subst e2
    exact ⟨Nat.le_refl _, by simpa using h, Stable.refl _, by simp⟩
  | n + 1, s, b, h, t, rest, e => by
    unfold createHoles at e
    split at e
    · rename_i hd
      injection e with e; injection e with e1 e2
      subst e1; subst e2
      exact ⟨Nat.le_refl _, by simpa using h, Stable.refl _, fun _ => hd⟩
    · rename_i o r hd
      have ho : o < s.size := h.dirty_lt o (by rw [hd]; simp)
      have hs := h.size_lt
      have ho' : o < s.cap := by omega
      have hf := fill_eq s o r pd ho'
      simp only [copyIn_eq { s with dirty := r } o pd ho'] at e hf
      by_cases hlt : s.idMax + 1 < 2 ^ 31
      · simp only [bind, Except.bind, rd, wr, copied, ho', if_true, if_pos hlt] at e hf
        injection hf with hf
        rw [hf] at e
        have hfl := sim_fill h pd hd
        obtain ⟨h1, h2, h3, h4⟩ := createHoles_ok pd n hfl.1 e
        refine ⟨by omega, ?_, hfl.2.trans h3, h4⟩
        rw [show n + 1 - rest = (n - rest) + 1 by omega, List.replicate_succ, List.foldl_cons]
        exact h2
      · simp only [if_neg hlt, bind, Except.bind] at e
        exact absurd e (by simp)

theorem next_foldl (l : List (Content P)) (b : Bag P) :
    (l.foldl Bag.add b).next = b.next + l.length := by
  induction l generalizing b with
  | nil => simp
  | cons c l ih => rw [List.foldl_cons, ih]; simp [Bag.add]; omega

theorem createHoles_err (pd : PData P) : ∀ (n : Nat) {s : State P} {b : Bag P} (_ : Sim s b)
    {f : Fault} (_ : createHoles s pd n = .error f),
    f = .overflow ∧ s.idMax + 1 + n ≥ 2 ^ 29
  | 0, s, b, h, f, e => by simp [createHoles] at e
  | n + 1, s, b, h, f, e => by
    unfold createHoles at e
    split at e
    · simp at e
    · rename_i o r hd
      have ho : o < s.size := h.dirty_lt o (by rw [hd]; simp)
      have hs := h.size_lt
      have ho' : o < s.cap := by omega
      have hf := fill_eq s o r pd ho'
      simp only [copyIn_eq { s with dirty := r } o pd ho'] at e hf
      by_cases hlt : s.idMax + 1 < 2 ^ 31
      · simp only [bind, Except.bind, rd, wr, copied, ho', if_true, if_pos hlt] at e hf
        injection hf with hf
        rw [hf] at e
        have hfl := sim_fill h pd hd
        obtain ⟨h1, h2⟩ := createHoles_err pd n hfl.1 e
        refine ⟨h1, ?_⟩
        simp only [filled] at h2; omega
      · simp only [bind, Except.bind, if_neg hlt] at e
        injection e with e
        exact ⟨e.symm, by omega⟩

theorem createTail_ok (pd : PData P) : ∀ (n i : Nat) {s : State P} {b : Bag P}
    (_ : Sim { s with size := i } b) (_ : i + n < s.cap)
    {t : State P} (_ : createTail s pd i n = .ok t),
    Sim { t with size := i + n } ((List.replicate n pd.content).foldl Bag.add b) ∧
      Stable { s with size := i } { t with size := i + n } ∧ t.size = s.size
  | 0, i, s, b, h, hc, t, e => by
    simp only [createTail] at e
    injection e with e; subst e
    exact ⟨by simpa using h, Stable.refl _, rfl⟩
  | n + 1, i, s, b, h, hc, t, e => by
    have hi : i < s.cap := by omega
    unfold createTail at e
    rw [copyIn_eq s i pd hi] at e
    by_cases hlt : s.idMax + 1 < 2 ^ 31
    · simp only [bind, Except.bind, if_pos hlt] at e
      have hp := sim_push h pd (by simp only; omega)
      obtain ⟨h1, h2, h3⟩ := createTail_ok pd n (i + 1) (s := copied s i pd)
        (b := b.add pd.content) hp.1 (by simp only [copied]; omega) e
      rw [show i + (n + 1) = i + 1 + n by omega]
      refine ⟨?_, hp.2.trans h2, ?_⟩
      · rw [List.replicate_succ, List.foldl_cons]; exact h1
      · rw [h3]; rfl
    · simp only [if_neg hlt, bind, Except.bind] at e
      exact absurd e (by simp)

theorem createTail_err (pd : PData P) : ∀ (n i : Nat) {s : State P} (_ : i + n < s.cap)
    {f : Fault} (_ : createTail s pd i n = .error f),
    f = .overflow ∧ s.idMax + 1 + n ≥ 2 ^ 29
  | 0, i, s, hc, f, e => by simp [createTail] at e
  | n + 1, i, s, hc, f, e => by
    have hi : i < s.cap := by omega
    unfold createTail at e
    rw [copyIn_eq s i pd hi] at e
    by_cases hlt : s.idMax + 1 < 2 ^ 31
    · simp only [bind, Except.bind, if_pos hlt] at e
      obtain ⟨h1, h2⟩ := createTail_err pd n (i + 1) (s := copied s i pd)
        (by simp only [copied]; omega) e
      simp only [copied] at h2
      exact ⟨h1, by omega⟩
    · simp only [bind, Except.bind, if_neg hlt] at e
      injection e with e
      exact ⟨e.symm, by omega⟩

theorem createN_ok {s t : State P} {b : Bag P} (h : Sim s b) {n : Nat} {pd : PData P}
    (e : createN s n pd = .ok t) :
    Sim t ((List.replicate n pd.content).foldl Bag.add b) ∧ Stable s t := by
  unfold createN at e
  cases h1 : createHoles s pd n with
  | error f => simp [h1, bind, Except.bind] at e
  | ok q =>
    obtain ⟨u, rest⟩ := q
    obtain ⟨hr, hu, st, hdu⟩ := createHoles_ok pd n h h1
    simp only [h1, bind, Except.bind] at e
    split at e
    · rename_i hz
      subst hz
      simp only [pure, Except.pure] at e
      injection e with e; subst e
      exact ⟨by simpa using hu, st⟩
    · rename_i hz
      cases h2 : ensureCapacity u rest with
      | error f => simp [h2] at e
      | ok v =>
        obtain ⟨hv, stv, hcv, -, -, -⟩ := ensure_ok hu rest h2
        simp only [h2] at e
        cases h3 : createTail v pd v.size rest with
        | error f => simp [h3] at e
        | ok w =>
          simp only [h3, pure, Except.pure] at e
          injection e with e
          obtain ⟨hw, stw, hsw⟩ := createTail_ok pd rest v.size (s := v) hv (by omega) h3
          rw [hsw] at e
          rw [e] at hw stw
          refine ⟨?_, st.trans (stv.trans stw)⟩
          rw [← List.foldl_append] at hw
          rw [List.replicate_append_replicate, show n - rest + rest = n by omega] at hw
          exact hw

theorem createN_err {s : State P} {b : Bag P} (h : Sim s b) {n : Nat} {pd : PData P} {f : Fault}
    (e : createN s n pd = .error f) : f = .overflow ∧ s.idMax + 1 + n ≥ 2 ^ 29 := by
  unfold createN at e
  cases h1 : createHoles s pd n with
  | error g =>
    simp only [h1, bind, Except.bind] at e
    injection e with e; subst e
    exact createHoles_err pd n h h1
  | ok q =>
    obtain ⟨u, rest⟩ := q
    obtain ⟨hr, hu, st, hdu⟩ := createHoles_ok pd n h h1
    have hn : u.idMax = s.idMax + (n - rest : Nat) := by
      have a := hu.next
      have b' := h.next
      rw [next_foldl, List.length_replicate] at a
      omega
    simp only [h1, bind, Except.bind] at e
    split at e
    · simp [pure, Except.pure] at e
    · rename_i hz
      cases h2 : ensureCapacity u rest with
      | error g =>
        simp only [h2] at e
        injection e with e; subst e
        obtain ⟨h3, h4⟩ := ensure_err hu rest h2
        exact ⟨h3, by omega⟩
      | ok v =>
        obtain ⟨hv, stv, hcv, -, -, hid⟩ := ensure_ok hu rest h2
        simp only [h2] at e
        cases h3 : createTail v pd v.size rest with
        | error g =>
          simp only [h3] at e
          injection e with e; subst e
          obtain ⟨h4, h5⟩ := createTail_err pd rest v.size (s := v) (by omega) h3
          exact ⟨h4, by omega⟩
        | ok w => simp [h3, pure, Except.pure] at e

/-- `create(pdg)` and `insert` differ only in the order of the writes. -/
theorem create1_eq_insert {s : State P} {b : Bag P} (h : Sim s b) (pd : PData P) :
    create1 s pd = insert s pd := by
  have hs := h.size_lt
  unfold create1 insert
  split
  · rename_i hd
    cases he : ensureCapacity s 1 with
    | error f => rfl
    | ok u =>
      obtain ⟨hu, st, hc, hdu, hsz, hidm⟩ := ensure_ok h 1 he
      have hc' : u.size < u.cap := by omega
      simp only [bind, Except.bind, pure, Except.pure]
      rw [copyIn_eq u u.size pd hc', copyIn_eq _ u.size pd (by exact hc')]
      by_cases hlt : u.idMax + 1 < 2 ^ 31
      · simp only [if_pos hlt]; simp [rd, copied, hc']
      · simp only [if_neg hlt]
  · rename_i o rest hd
    have ho : o < s.size := h.dirty_lt o (by rw [hd]; simp)
    have ho' : o < s.cap := by omega
    simp only [bind, Except.bind, pure, Except.pure]
    rw [copyIn_eq { s with dirty := rest } o pd ho']
    simp only [rd, wr, ho', if_true]
    rw [copyIn_eq _ o pd (by exact ho')]
    by_cases hlt : s.idMax + 1 < 2 ^ 31
    · simp only [if_pos hlt, copied, ho', if_true]
      congr 2
      congr 1
      funext j
      by_cases hj : j = o <;> simp [hj]
    · simp only [if_neg hlt]

theorem next_del (l : List Int) (b : Bag P) : (l.foldl Bag.del b).next = b.next := by
  induction l generalizing b with
  | nil => rfl
  | cons c l ih => rw [List.foldl_cons, ih]; rfl

theorem del_add_comm (l : List Int) (b : Bag P) (c : Content P) (hl : ∀ x ∈ l, x < b.next) :
    l.foldl Bag.del (b.add c) = (l.foldl Bag.del b).add c := by
  induction l generalizing b with
  | nil => rfl
  | cons x l ih =>
    have hx : x < b.next := hl x (by simp)
    rw [List.foldl_cons, List.foldl_cons, ← ih]
    · congr 1
      simp only [Bag.add, Bag.del]
      congr 1
      funext i
      by_cases h1 : i = x
      · have : i ≠ b.next := by omega
        simp [h1] at this ⊢
        simp [this]
      · simp [h1]
    · intro y hy; exact hl y (List.mem_cons_of_mem _ hy)

theorem live_del (l : List Int) (b : Bag P) (n : Int) (hn : n ∉ l) :
    (l.foldl Bag.del b).live n = b.live n := by
  induction l generalizing b with
  | nil => rfl
  | cons x l ih =>
    simp only [List.mem_cons, not_or] at hn
    rw [List.foldl_cons, ih _ hn.2]; simp [Bag.del, hn.1]

theorem live_del_mem (l : List Int) (b : Bag P) (n : Int) (hn : n ∈ l) :
    (l.foldl Bag.del b).live n = none := by
  induction l generalizing b with
  | nil => simp at hn
  | cons x l ih =>
    rw [List.foldl_cons]
    by_cases h : n ∈ l
    · exact ih _ h
    · rw [live_del _ _ _ h]
      have : n = x := by simpa [h] using hn
      simp [Bag.del, this]

theorem live_add (l : List (Content P)) (b : Bag P) (n : Int) (hn : n < b.next) :
    (l.foldl Bag.add b).live n = b.live n := by
  induction l generalizing b with
  | nil => rfl
  | cons x l ih =>
    rw [List.foldl_cons, ih]
    · have : n ≠ b.next := by omega
      simp [Bag.add, this]
    · simp only [Bag.add]; omega

theorem live_add_new (l : List (Content P)) (b : Bag P) (k : Nat) (hk : k < l.length) :
    (l.foldl Bag.add b).live (b.next + k) = some l[k] := by
  induction l generalizing b k with
  | nil => simp at hk
  | cons x l ih =>
    rw [List.foldl_cons]
    cases k with
    | zero =>
      rw [live_add _ _ _ (by simp only [Bag.add]; omega)]
      simp [Bag.add]
    | succ k =>
      have := ih (b.add x) k (by simpa using hk)
      rw [show b.next + ((k + 1 : Nat) : Int) = (b.add x).next + k by
        simp only [Bag.add]; omega]
      simpa using this

theorem live_add_ge (l : List (Content P)) (b : Bag P) (n : Int) (hn : b.next + l.length ≤ n) :
    (l.foldl Bag.add b).live n = b.live n := by
  induction l generalizing b with
  | nil => rfl
  | cons x l ih =>
    simp only [List.length_cons] at hn
    rw [List.foldl_cons, ih]
    · have : n ≠ b.next := by omega
      simp [Bag.add, this]
    · simp only [Bag.add]; omega

/-- A particle found under an id that existed already is still in its old slot. -/
theorem slot_kept {s t : State P} {b b' : Bag P} (hs : Sim s b) (ht : Sim t b')
    (st : Stable s t) {i : Nat} (hi : i < s.size) (hd : i ∉ s.dirty) {c : Content P}
    (hl : b'.live (s.data i).id = some c) :
    i < t.size ∧ i ∉ t.dirty ∧ (t.data i).id = (s.data i).id ∧ (t.data i).content = c := by
  obtain ⟨j, hj, hdj, hid, hc⟩ := (ht.live _ _).1 hl
  have hle := (hs.live_id i hi hd).2
  obtain ⟨h1, h2, h3⟩ := st.slot j hj hdj (by rw [hid]; exact hle)
  have : j = i := hs.inj j i h1 hi h2 hd (h3.trans hid)
  subst this
  exact ⟨hj, hdj, hid, hc⟩

/-- Where the outgoing particles of `replace` are afterwards. -/
def Stored (t : State P) (n : Int) (a o : PData P) : Prop :=
  o.id = n ∧ o.content = a.content ∧ o.index < t.size ∧ o.index ∉ t.dirty ∧
    (t.data o.index).id = n ∧ (t.data o.index).content = a.content

theorem insertAll_ok : ∀ (add : List (PData P)) {s t : State P} {b : Bag P}
    (_ : Sim s b) {out : List (PData P)} (_ : insertAll s add = .ok (t, out)),
    Sim t ((add.map PData.content).foldl Bag.add b) ∧
      Stable s t ∧ out.length = add.length ∧
      ∀ k (h1 : k < add.length) (h2 : k < out.length), Stored t (b.next + k) add[k] out[k]
  | a :: add, s, t, b, h, out, e => by
    unfold insertAll at e
    cases hins : insert s a with
    | error f => simp [hins, bind, Except.bind] at e
    | ok q =>
      obtain ⟨u, p⟩ := q
      obtain ⟨i1, i2, i3, i4, i5, i6, i7⟩ := insert_ok h hins
      simp only [hins, bind, Except.bind] at e
      cases hrec : insertAll u add with
      | error f => simp [hrec] at e
      | ok q =>
        obtain ⟨v, out'⟩ := q
        simp only [hrec, pure, Except.pure] at e
        injection e with e
        injection e with e1 e2
        subst e1
        obtain ⟨g1, g2, g3, g4⟩ := insertAll_ok add i1 hrec
        refine ⟨g1, i2.trans g2, by rw [← e2]; simp [g3], ?_⟩
        intro k h1 h2
        cases k with
        | zero =>
          subst e2
          have hid0 : (u.data p.index).id = b.next := by rw [i5, i6]
          have hlive : ((add.map PData.content).foldl Bag.add (b.add a.content)).live
              (u.data p.index).id = some a.content := by
            have := live_add_new ((a :: add).map PData.content) b 0 (by simp)
            rw [hid0]
            simpa using this
          have := slot_kept i1 g1 g2 i3 i4 hlive
          rw [hid0] at this
          refine ⟨?_, rfl, this.1, this.2.1, ?_, ?_⟩
          · simp [i6]
          · simp only [List.getElem_cons_zero]; rw [this.2.2.1]; simp
          · simp only [List.getElem_cons_zero]; exact this.2.2.2
        | succ k =>
          subst e2
          have := g4 k (by simpa using h1) (by simpa using h2)
          simp only [List.getElem_cons_succ]
          rw [show b.next + ((k + 1 : Nat) : Int) = (b.add a.content).next + k by
            simp only [Bag.add]; omega]
          exact this
  | [], s, t, b, h, out, e => by
    unfold insertAll at e
    injection e with e
    injection e with e1 e2
    subst e1; subst e2
    exact ⟨h, Stable.refl _, rfl, fun k h1 => absurd h1 (by simp)⟩

theorem replace_ok : ∀ (rm add : List (PData P)) {s t : State P} {b : Bag P}
    (_ : Sim s b) (_ : ∀ r ∈ rm, r.id ≤ s.idMax) {out : List (PData P)}
    (_ : replace s rm add = .ok (t, out)),
    Sim t ((add.map PData.content).foldl Bag.add ((rm.map PData.id).foldl Bag.del b)) ∧
      Stable s t ∧ out.length = add.length ∧
      ∀ k (h1 : k < add.length) (h2 : k < out.length), Stored t (b.next + k) add[k] out[k]
  | r :: rm, a :: add, s, t, b, h, hrm, out, e => by
    unfold replace at e
    cases hv : needValid s r with
    | error f => simp [hv, bind, Except.bind] at e
    | ok _ =>
      have hv' : isValid s r = true ∧ 0 ≤ r.id := by
        unfold needValid at hv
        split at hv
        · rename_i hh; simpa using hh
        · exact absurd hv (by simp)
      have hl := valid_live h.toInv hv'.1 hv'.2
      have hs := h.size_lt
      have hi' : r.index < s.cap := by omega
      simp only [hv, bind, Except.bind, copyIn_eq s r.index a hi'] at e
      by_cases hlt : s.idMax + 1 < 2 ^ 31
      · simp only [if_pos hlt] at e
        have hrd : rd (copied s r.index a) r.index = .ok ((copied s r.index a).data r.index) := by
          simp only [rd, copied]; rw [if_pos hi']
        simp only [hrd] at e
        have ho := sim_overwrite h a hl.1 hl.2.1
        rw [hl.2.2.1] at ho
        cases hrec : replace (copied s r.index a) rm add with
        | error f => simp [hrec] at e
        | ok q =>
          obtain ⟨u, out'⟩ := q
          simp only [hrec, pure, Except.pure] at e
          injection e with e
          injection e with e1 e2
          subst e1
          have hrm' : ∀ x ∈ rm, x.id ≤ (copied s r.index a).idMax := by
            intro x hx
            have := hrm x (List.mem_cons_of_mem _ hx)
            simp only [copied]; omega
          obtain ⟨g1, g2, g3, g4⟩ := replace_ok rm add ho.1 hrm' hrec
          have hb : ((add.map PData.content).foldl Bag.add
              ((rm.map PData.id).foldl Bag.del ((b.del r.id).add a.content))) =
              (((a :: add).map PData.content).foldl Bag.add
                (((r :: rm).map PData.id).foldl Bag.del b)) := by
            rw [del_add_comm]
            · rfl
            · intro x hx
              obtain ⟨y, hy, rfl⟩ := List.mem_map.1 hx
              have := hrm y (List.mem_cons_of_mem _ hy)
              have := h.next
              simp only [Bag.del]; omega
          have g1' := g1
          rw [hb] at g1
          refine ⟨g1, ho.2.trans g2, ?_, ?_⟩
          · rw [← e2]; simp [g3]
          · intro k h1 h2
            cases k with
            | zero =>
              subst e2
              have hid0 : ((copied s r.index a).data r.index).id = b.next := by
                simp only [copied, if_true]; exact h.next.symm
              have hlive : (((a :: add).map PData.content).foldl Bag.add
                (((r :: rm).map PData.id).foldl Bag.del b)).live
                  ((copied s r.index a).data r.index).id = some a.content := by
                have := live_add_new ((a :: add).map PData.content)
                  (((r :: rm).map PData.id).foldl Bag.del b) 0 (by simp)
                rw [next_del] at this
                rw [hid0]
                simpa using this
              have := slot_kept ho.1 g1 g2 (i := r.index) hl.1 hl.2.1 hlive
              rw [hid0] at this
              refine ⟨?_, rfl, this.1, this.2.1, ?_, ?_⟩
              · simp only [List.getElem_cons_zero]; rw [hid0]; simp
              · simp only [List.getElem_cons_zero]; rw [this.2.2.1]; simp
              · simp only [List.getElem_cons_zero]; exact this.2.2.2
            | succ k =>
              subst e2
              have := g4 k (by simpa using h1) (by simpa using h2)
              simp only [List.getElem_cons_succ]
              rw [show b.next + ((k + 1 : Nat) : Int) = ((b.del r.id).add a.content).next + k by
                simp only [Bag.add, Bag.del]; omega]
              exact this
      · simp only [if_neg hlt] at e
        exact absurd e (by simp)
  | r :: rm, [], s, t, b, h, hrm, out, e => by
    unfold replace at e
    rw [remove_eq h.toInv] at e
    by_cases hv : isValid s r = true ∧ 0 ≤ r.id
    · simp only [bind, Except.bind, if_pos hv] at e
      have hl := valid_live h.toInv hv.1 hv.2
      have ho := sim_remove h hl.1 hl.2.1
      rw [hl.2.2.1] at ho
      have hrm' : ∀ x ∈ rm, x.id ≤ (removed s r.index).idMax := by
        intro x hx
        have := hrm x (List.mem_cons_of_mem _ hx)
        simp only [removed]; split <;> exact this
      obtain ⟨g1, g2, g3, g4⟩ := replace_ok rm [] ho.1 hrm' e
      exact ⟨g1, ho.2.trans g2, g3, fun k h1 => absurd h1 (by simp)⟩
    · simp [bind, Except.bind, hv] at e
  | [], add, s, t, b, h, hrm, out, e => by
    unfold replace at e
    exact insertAll_ok add h e

/-- Validity of a copy only looks at its own slot. -/
theorem valid_copied {s : State P} (i : Nat) (a r : PData P) (hne : r.index ≠ i) :
    isValid (copied s i a) r = isValid s r := by
  simp [isValid, copied, hne]

theorem valid_removed {s : State P} {i : Nat} {r : PData P}
    (hv : isValid s r = true) (hne : r.index ≠ i) :
    isValid (removed s i) r = true := by
  unfold removed
  unfold isValid at hv ⊢
  split at hv
  · exact absurd hv (by simp)
  · rename_i hlt
    split
    · rename_i e
      simp only
      rw [if_neg (by omega)]; exact hv
    · simp only
      rw [if_neg (by omega)]; simpa [hne] using hv

theorem insertAll_err : ∀ (add : List (PData P)) {s : State P} {b : Bag P}
    (_ : Sim s b) {f : Fault} (_ : insertAll s add = .error f),
    f = .overflow ∧ s.idMax + 1 + add.length ≥ 2 ^ 29
  | a :: add, s, b, h, f, e => by
    unfold insertAll at e
    cases hins : insert s a with
    | error g =>
      simp only [hins, bind, Except.bind] at e
      injection e with e; subst e
      obtain ⟨g1, g2⟩ := insert_err h hins
      exact ⟨g1, by simp only [List.length_cons]; omega⟩
    | ok q =>
      obtain ⟨u, p⟩ := q
      have i1 := (insert_ok h hins).1
      simp only [hins, bind, Except.bind] at e
      cases hrec : insertAll u add with
      | ok q => simp [hrec, pure, Except.pure] at e
      | error g =>
        simp only [hrec] at e
        injection e with e; subst e
        obtain ⟨g1, g2⟩ := insertAll_err add i1 hrec
        have a1 := i1.next
        have a2 := h.next
        simp only [Bag.add] at a1
        exact ⟨g1, by simp only [List.length_cons]; omega⟩
  | [], s, b, h, f, e => by
    unfold insertAll at e
    exact absurd e (by simp)

theorem replace_err : ∀ (rm add : List (PData P)) {s : State P} {b : Bag P}
    (_ : Sim s b) (_ : ∀ r ∈ rm, isValid s r = true ∧ 0 ≤ r.id) (_ : (rm.map PData.id).Nodup)
    {f : Fault} (_ : replace s rm add = .error f),
    f = .overflow ∧ s.idMax + 1 + add.length ≥ 2 ^ 29
  | r :: rm, a :: add, s, b, h, hrm, hnd, f, e => by
    unfold replace at e
    have hv' := hrm r (by simp)
    have hl := valid_live h.toInv hv'.1 hv'.2
    have hs := h.size_lt
    have hi' : r.index < s.cap := by omega
    have hv : needValid s r = .ok () := by simp [needValid, hv'.1, hv'.2]
    simp only [hv, bind, Except.bind, copyIn_eq s r.index a hi'] at e
    by_cases hlt : s.idMax + 1 < 2 ^ 31
    · simp only [if_pos hlt] at e
      have hrd : rd (copied s r.index a) r.index = .ok ((copied s r.index a).data r.index) := by
        simp only [rd, copied]; rw [if_pos hi']
      simp only [hrd] at e
      have ho := sim_overwrite h a hl.1 hl.2.1
      cases hrec : replace (copied s r.index a) rm add with
      | ok q => simp [hrec, pure, Except.pure] at e
      | error g =>
        simp only [hrec] at e
        injection e with e; subst e
        have hnd' := List.nodup_cons.1 hnd
        obtain ⟨g1, g2⟩ := replace_err rm add ho.1 (by
          intro x hx
          have hx' := hrm x (List.mem_cons_of_mem _ hx)
          have hlx := valid_live h.toInv hx'.1 hx'.2
          refine ⟨?_, hx'.2⟩
          rw [valid_copied]
          · exact hx'.1
          · intro e
            apply hnd'.1
            have : x.id = r.id := by rw [← hlx.2.2.1, e, hl.2.2.1]
            exact List.mem_map.2 ⟨x, hx, this⟩) hnd'.2 hrec
        simp only [copied] at g2
        refine ⟨g1, ?_⟩
        simp only [List.length_cons]; omega
    · simp only [if_neg hlt] at e
      injection e with e
      exact ⟨e.symm, by simp only [List.length_cons]; omega⟩
  | r :: rm, [], s, b, h, hrm, hnd, f, e => by
    unfold replace at e
    rw [remove_eq h.toInv] at e
    have hv := hrm r (by simp)
    simp only [bind, Except.bind, if_pos hv] at e
    have hl := valid_live h.toInv hv.1 hv.2
    have ho := sim_remove h hl.1 hl.2.1
    have hnd' := List.nodup_cons.1 hnd
    obtain ⟨g1, g2⟩ := replace_err rm [] ho.1 (by
      intro x hx
      have hx' := hrm x (List.mem_cons_of_mem _ hx)
      have hlx := valid_live h.toInv hx'.1 hx'.2
      refine ⟨valid_removed hx'.1 ?_, hx'.2⟩
      intro e
      apply hnd'.1
      have : x.id = r.id := by rw [← hlx.2.2.1, e, hl.2.2.1]
      exact List.mem_map.2 ⟨x, hx, this⟩) hnd'.2 e
    refine ⟨g1, ?_⟩
    have : (removed s r.index).idMax = s.idMax := by simp only [removed]; split <;> rfl
    rw [this] at g2; exact g2
  | [], add, s, b, h, hrm, hnd, f, e => by
    unfold replace at e
    exact insertAll_err add h e

theorem update_eq {s : State P} (h : Inv s) (c new : PData P)
    (hv : isValid s c = true ∧ 0 ≤ c.id) (hty : c.ty = new.ty) :
    updateParticle s c new = .ok (updated s c.index new) := by
  have hl := valid_live h hv.1 hv.2
  have hs := h.size_lt
  simp [updateParticle, needValid, hv.1, hv.2, hty, rd, wr, bind, Except.bind,
    show c.index < s.cap by omega, updated]

/-- One call: success simulates the abstract effect. -/
theorem step_ok {s t : State P} {b : Bag P} (h : Sim s b) {op : Op P} (hp : op.Pre s)
    (e : step s op = .ok t) :
    Sim t (b.step op) ∧ (op.isReset = false → Stable s t) := by
  cases op with
  | insert p =>
    simp only [step] at e
    cases hins : insert s p with
    | error f => simp [hins, bind, Except.bind] at e
    | ok q =>
      obtain ⟨u, r⟩ := q
      simp only [hins, bind, Except.bind, pure, Except.pure] at e
      injection e with e; subst e
      have := insert_ok h hins
      exact ⟨this.1, fun _ => this.2.1⟩
  | createN n pd =>
    have := createN_ok h e
    exact ⟨this.1, fun _ => this.2⟩
  | create1 pd =>
    simp only [step, create1_eq_insert h] at e
    cases hins : insert s pd with
    | error f => simp [hins, bind, Except.bind] at e
    | ok q =>
      obtain ⟨u, r⟩ := q
      simp only [hins, bind, Except.bind, pure, Except.pure] at e
      injection e with e; subst e
      have := insert_ok h hins
      exact ⟨this.1, fun _ => this.2.1⟩
  | remove c =>
    simp only [step, remove_eq h.toInv] at e
    rw [if_pos (show isValid s c = true ∧ 0 ≤ c.id from hp)] at e
    injection e with e; subst e
    have hl := valid_live h.toInv hp.1 hp.2
    have := sim_remove h hl.1 hl.2.1
    rw [hl.2.2.1] at this
    exact ⟨this.1, fun _ => this.2⟩
  | replace rm add =>
    simp only [step] at e
    cases hr : replace s rm add with
    | error f => simp [hr, bind, Except.bind] at e
    | ok q =>
      obtain ⟨u, out⟩ := q
      simp only [hr, bind, Except.bind, pure, Except.pure] at e
      injection e with e; subst e
      have := replace_ok rm add h (fun r hr => by
        have hv := hp.1 r hr
        have hl := valid_live h.toInv hv.1 hv.2
        rw [← hl.2.2.1]; exact (h.live_id _ hl.1 hl.2.1).2) hr
      exact ⟨this.1, fun _ => this.2.1⟩
  | update c new =>
    obtain ⟨h1, h2, h3, h4⟩ := hp
    simp only [step, update_eq h.toInv c new ⟨h1, h2⟩ h3] at e
    injection e with e; subst e
    have hl := valid_live h.toInv h1 h2
    have := sim_update h new hl.1 hl.2.1 (h4.trans h3)
    rw [hl.2.2.1] at this
    exact ⟨this.1, fun _ => this.2⟩
  | reset =>
    simp only [step] at e
    injection e with e; subst e
    exact ⟨sim_reset h, by simp [Op.isReset]⟩

/-- One call: the only possible fault is running out of 32-bit integers. -/
theorem step_err {s : State P} {b : Bag P} (h : Sim s b) {op : Op P} (hp : op.Pre s)
    {f : Fault} (e : step s op = .error f) :
    f = .overflow ∧ s.idMax + 1 + op.idsUsed ≥ 2 ^ 29 := by
  cases op with
  | insert p =>
    simp only [step] at e
    cases hins : insert s p with
    | ok q => simp [hins, bind, Except.bind, pure, Except.pure] at e
    | error g =>
      simp only [hins, bind, Except.bind] at e
      injection e with e; subst e
      exact insert_err h hins
  | createN n pd => exact createN_err h e
  | create1 pd =>
    simp only [step, create1_eq_insert h] at e
    cases hins : insert s pd with
    | ok q => simp [hins, bind, Except.bind, pure, Except.pure] at e
    | error g =>
      simp only [hins, bind, Except.bind] at e
      injection e with e; subst e
      exact insert_err h hins
  | remove c =>
    simp only [step, remove_eq h.toInv] at e
    rw [if_pos (show isValid s c = true ∧ 0 ≤ c.id from hp)] at e
    exact absurd e (by simp)
  | replace rm add =>
    simp only [step] at e
    cases hr : replace s rm add with
    | ok q => simp [hr, bind, Except.bind, pure, Except.pure] at e
    | error g =>
      simp only [hr, bind, Except.bind] at e
      injection e with e; subst e
      exact replace_err rm add h hp.1 hp.2 hr
  | update c new =>
    obtain ⟨h1, h2, h3, h4⟩ := hp
    simp [step, update_eq h.toInv c new ⟨h1, h2⟩ h3] at e
  | reset => simp [step] at e

theorem hist_sim {s₀ s : State P} {b₀ : Bag P} (h0 : Sim s₀ b₀) {ops : List (Op P)}
    (h : Hist s₀ ops s) :
    Sim s (b₀.run ops) ∧ ((∀ op ∈ ops, op.isReset = false) → Stable s₀ s) := by
  induction h with
  | start => exact ⟨h0, fun _ => Stable.refl _⟩
  | @call ops s op t hh hp he ih =>
    have := step_ok ih.1 hp he
    refine ⟨?_, fun hr => ?_⟩
    · rw [Bag.run, List.foldl_append]; exact this.1
    · exact (ih.2 (fun o ho => hr o (List.mem_append_left _ ho))).trans
        (this.2 (hr op (by simp)))

end Verif.Particles
