import Verif.Particles.Iter
/-
Properties C01–C06: the particle container.
-/
namespace Verif.Particles
set_option linter.unusedSectionVars false
variable {P : Type} [Inhabited P]

/-- A particle as handed to `insert`/`create` (id and index unset). -/
def sample (ty pay : Nat) : PData Nat := ⟨-1, 4294967295, false, ty, 0, pay⟩

/-- C01: at any time no two particles of the container share an id. -/
theorem C01_ids_unique {ops : List (Op P)} {s : State P} (h : Hist init ops s)
    {l : List (PData P)} (hl : iterate s = .ok l) : (l.map PData.id).Nodup := by
  have hs := (hist_sim sim_init h).1
  rw [iterate_eq hs.toInv] at hl
  injection hl with hl
  subst hl
  exact nodup_ids hs.toInv

/-- C01: whatever call adds a particle, its id is larger than the id of every
particle that has been in the container at any time since the last reset. -/
theorem C01_ids_fresh {ops₀ ops₁ : List (Op P)} {s₀ s t : State P} {op : Op P}
    (h₀ : Hist init ops₀ s₀) (h₁ : Hist s₀ ops₁ s) (hr : ∀ o ∈ ops₁, o.isReset = false)
    (hop : op.isReset = false) (hp : op.Pre s) (hstep : step s op = .ok t)
    {l₀ l l' : List (PData P)} (hl₀ : iterate s₀ = .ok l₀) (hl : iterate s = .ok l)
    (hl' : iterate t = .ok l') {p : PData P} (hpm : p ∈ l')
    (hnew : ∀ q ∈ l, q.id ≠ p.id) :
    ∀ q ∈ l₀, q.id < p.id := by
  have hs₀ := (hist_sim sim_init h₀).1
  have hs := hist_sim hs₀ h₁
  have ht := step_ok hs.1 hp hstep
  rw [iterate_eq hs₀.toInv] at hl₀
  rw [iterate_eq hs.1.toInv] at hl
  rw [iterate_eq ht.1.toInv] at hl'
  injection hl₀ with hl₀; injection hl with hl; injection hl' with hl'
  subst hl₀ hl hl'
  intro q hq
  obtain ⟨j, hj, hdj, rfl⟩ := (mem_liveList hs₀.toInv q).1 hq
  obtain ⟨i, hi, hdi, rfl⟩ := (mem_liveList ht.1.toInv p).1 hpm
  have h1 := (hs₀.live_id j hj hdj).2
  have h2 := (hs.2 hr).idMax
  apply Int.not_le.1
  intro hle
  obtain ⟨a, b, c⟩ := (ht.2 hop).slot i hi hdi (by omega)
  exact hnew (s.data i) ((mem_liveList hs.1.toInv _).2 ⟨i, a, b, rfl⟩) c

/-- C02: after any history of calls the loop over the container yields exactly
the particles the abstract container holds (inserted and not removed, with the
content last written), each once, and `size()` is their number. -/
theorem C02_contents {ops : List (Op P)} {s : State P} (h : Hist init ops s) :
    ∃ l, iterate s = .ok l ∧ (l.map PData.id).Nodup ∧ l.length = sizeOf s ∧
      ∀ id c, (∃ p ∈ l, p.id = id ∧ p.content = c) ↔ (Bag.empty.run ops).live id = some c := by
  have hs := (hist_sim sim_init h).1
  exact ⟨liveList s, iterate_eq hs.toInv, nodup_ids hs.toInv, (length_liveList hs.toInv).1,
    live_iff hs⟩

/-- C03: a call whose preconditions hold never accesses memory outside the array
and never trips an assertion; with fewer than 2^29 ids handed out since the last
reset it cannot fail at all. -/
theorem C03_no_fault {ops : List (Op P)} {s : State P} (h : Hist init ops s) {op : Op P}
    (hp : op.Pre s) :
    (∃ t, step s op = .ok t) ∨
      (step s op = .error .overflow ∧ (Bag.empty.run ops).next + op.idsUsed ≥ 2 ^ 29) := by
  have hs := (hist_sim sim_init h).1
  cases e : step s op with
  | ok t => exact .inl ⟨t, rfl⟩
  | error f =>
    obtain ⟨h1, h2⟩ := step_err hs hp e
    right
    rw [h1, hs.next]
    exact ⟨rfl, h2⟩

/-- C03: the iterator loop terminates inside the array, including the look at the
slot behind the last particle; so does the access in `is_valid`. -/
theorem C03_iteration_in_bounds {ops : List (Op P)} {s : State P} (h : Hist init ops s) :
    (∃ l, iterate s = .ok l) ∧ (∀ i, i ≤ s.size → i < s.cap) ∧
      ∀ c : PData P, s.size ≤ c.index ∨ c.index < s.cap := by
  have hs := (hist_sim sim_init h).1
  have := hs.size_lt
  exact ⟨⟨_, iterate_eq hs.toInv⟩, fun i hi => by omega, fun c => by omega⟩

/-- C04: a copy taken at some time is accepted later (no reset in between)
exactly if the particle with its id is still there with the same process id. -/
theorem C04_valid_iff {ops ops' : List (Op P)} {s t : State P} (h : Hist init ops s)
    {l : List (PData P)} (hl : iterate s = .ok l) {p : PData P} (hp : p ∈ l)
    (h' : Hist s ops' t) (hr : ∀ o ∈ ops', o.isReset = false) :
    isValid t p = true ↔
      ∃ c, (Bag.empty.run (ops ++ ops')).live p.id = some c ∧ c.proc = p.proc := by
  have hs := (hist_sim sim_init h).1
  have ht := hist_sim hs h'
  have hst := ht.2 hr
  have hb : Bag.empty.run (ops ++ ops') = (Bag.empty.run ops).run ops' := by
    simp [Bag.run, List.foldl_append]
  rw [iterate_eq hs.toInv] at hl
  injection hl with hl
  subst hl
  obtain ⟨i, hi, hdi, rfl⟩ := (mem_liveList hs.toInv p).1 hp
  have hidx : (s.data i).index = i := hs.index_eq i (by have := hs.size_lt; omega)
  have hid0 := hs.live_id i hi hdi
  rw [hb]
  constructor
  · intro hv
    have := valid_live ht.1.toInv hv hid0.1
    exact ⟨_, (ht.1.live _ _).2 ⟨_, this.1, this.2.1, this.2.2.1, rfl⟩, this.2.2.2⟩
  · rintro ⟨c, hc, hproc⟩
    have := slot_kept hs ht.1 hst hi hdi hc
    unfold isValid
    rw [hidx, if_neg (by omega)]
    have hproc' : (t.data i).proc = (s.data i).proc := by
      rw [← hproc, ← this.2.2.2]; rfl
    simp [this.2.2.1, hproc']

/-- C04: once a particle has left the container, no copy of it is ever accepted
again (until a reset). -/
theorem C04_rejected_for_ever {ops ops' ops'' : List (Op P)} {s t u : State P}
    (h : Hist init ops s) {l l' : List (PData P)} (hl : iterate s = .ok l) {p : PData P}
    (hp : p ∈ l) (h' : Hist s ops' t) (hr : ∀ o ∈ ops', o.isReset = false)
    (hl' : iterate t = .ok l') (hgone : ∀ q ∈ l', q.id ≠ p.id)
    (h'' : Hist t ops'' u) (hr' : ∀ o ∈ ops'', o.isReset = false) :
    isValid u p = false := by
  have hs := (hist_sim sim_init h).1
  have ht := hist_sim hs h'
  have hu := hist_sim ht.1 h''
  rw [iterate_eq hs.toInv] at hl
  injection hl with hl
  rw [iterate_eq ht.1.toInv] at hl'
  injection hl' with hl'
  subst hl hl'
  obtain ⟨i, hi, hdi, rfl⟩ := (mem_liveList hs.toInv p).1 hp
  have hid0 := hs.live_id i hi hdi
  cases hv : isValid u (s.data i) with
  | false => rfl
  | true =>
    have a := valid_live hu.1.toInv hv hid0.1
    have hmax := (ht.2 hr).idMax
    obtain ⟨b1, b2, b3⟩ := (hu.2 hr').slot _ a.1 a.2.1 (by rw [a.2.2.1]; omega)
    exact absurd (b3.trans a.2.2.1)
      (hgone _ ((mem_liveList ht.1.toInv _).2 ⟨_, b1, b2, rfl⟩))

/-- C05: `replace` removes exactly the incoming particles, adds exactly the
outgoing ones under new ids, leaves everything else alone, and the outgoing list
afterwards consists of valid copies of the stored particles. -/
theorem C05_replace {ops : List (Op P)} {s t : State P} (h : Hist init ops s)
    {rm add out : List (PData P)} (hp : (Op.replace rm add).Pre s)
    (he : replace s rm add = .ok (t, out)) {l : List (PData P)} (hl : iterate s = .ok l) :
    ∃ l' base, iterate t = .ok l' ∧ (∀ q ∈ l, q.id < base) ∧
      (∀ id c, (∃ p ∈ l', p.id = id ∧ p.content = c) ↔
        ((∃ p ∈ l, p.id = id ∧ p.content = c) ∧ ∀ r ∈ rm, r.id ≠ id) ∨
          ∃ k, ∃ hk : k < add.length, id = base + k ∧ c = add[k].content) ∧
      l'.length + rm.length = l.length + add.length ∧
      out.length = add.length ∧
      ∀ k (h1 : k < add.length) (h2 : k < out.length),
        out[k].id = base + k ∧ out[k].content = add[k].content ∧ isValid t out[k] = true := by
  have hs := (hist_sim sim_init h).1
  have hrm : ∀ r ∈ rm, r.id ≤ s.idMax := fun r hr => by
    have hv := hp.1 r hr
    have hlv := valid_live hs.toInv hv.1 hv.2
    rw [← hlv.2.2.1]; exact (hs.live_id _ hlv.1 hlv.2.1).2
  obtain ⟨g1, g2, g3, g4⟩ := replace_ok rm add hs hrm he
  rw [iterate_eq hs.toInv] at hl
  injection hl with hl
  subst hl
  have hnext := hs.next
  have hlive : ∀ id c, (∃ p ∈ liveList t, p.id = id ∧ p.content = c) ↔
        ((∃ p ∈ liveList s, p.id = id ∧ p.content = c) ∧ ∀ r ∈ rm, r.id ≠ id) ∨
          ∃ k, ∃ hk : k < add.length, id = (Bag.empty.run ops).next + k ∧
            c = add[k].content := by
    intro id c
    rw [live_iff g1, live_iff hs]
    have hold : ∀ j, (∃ c, (Bag.empty.run ops).live j = some c) →
        j < (Bag.empty.run ops).next := by
      rintro j ⟨c, hc⟩
      obtain ⟨i, hi, hdi, hid, _⟩ := (hs.live _ _).1 hc
      have := (hs.live_id i hi hdi).2
      omega
    by_cases hlt : id < (Bag.empty.run ops).next
    · rw [live_add _ _ _ (by rw [next_del]; exact hlt)]
      by_cases hmem : id ∈ rm.map PData.id
      · rw [live_del_mem _ _ _ hmem]
        constructor
        · intro hc; exact absurd hc (by simp)
        · rintro (⟨_, hne⟩ | ⟨k, _, hid, _⟩)
          · obtain ⟨r, hr, hrid⟩ := List.mem_map.1 hmem
            exact absurd hrid (hne r hr)
          · omega
      · rw [live_del _ _ _ hmem]
        constructor
        · intro hc
          exact .inl ⟨hc, fun r hr hrid => hmem (List.mem_map.2 ⟨r, hr, hrid⟩)⟩
        · rintro (⟨hc, _⟩ | ⟨k, _, hid, _⟩)
          · exact hc
          · omega
    · by_cases hk : id < (Bag.empty.run ops).next + add.length
      · obtain ⟨k, hk'⟩ : ∃ k : Nat, id = (Bag.empty.run ops).next + k :=
          ⟨(id - (Bag.empty.run ops).next).toNat, by omega⟩
        subst hk'
        have hkl : k < (add.map PData.content).length := by simp; omega
        have := live_add_new (add.map PData.content)
          ((rm.map PData.id).foldl Bag.del (Bag.empty.run ops)) k hkl
        rw [next_del] at this
        rw [this]
        simp only [List.getElem_map]
        constructor
        · intro hc
          injection hc with hc
          exact .inr ⟨k, by simpa using hkl, rfl, hc.symm⟩
        · rintro (⟨hc, _⟩ | ⟨k', hk', hid, hc⟩)
          · exact absurd (hold _ ⟨_, hc⟩) hlt
          · have : k = k' := by omega
            subst this
            rw [hc]
      · rw [live_add_ge _ _ _ (by rw [next_del, List.length_map]; omega),
          live_del _ _ _ (by
            intro hm
            obtain ⟨r, hr, hrid⟩ := List.mem_map.1 hm
            have := hrm r hr
            omega)]
        constructor
        · intro hc; exact absurd (hold _ ⟨_, hc⟩) hlt
        · rintro (⟨hc, _⟩ | ⟨k, hk', hid, _⟩)
          · exact absurd (hold _ ⟨_, hc⟩) hlt
          · omega
  refine ⟨liveList t, (Bag.empty.run ops).next, iterate_eq g1.toInv, ?_, hlive, ?_, g3, ?_⟩
  · intro q hq
    obtain ⟨i, hi, hdi, rfl⟩ := (mem_liveList hs.toInv q).1 hq
    have := (hs.live_id i hi hdi).2
    omega
  · -- count the ids of both sides
    have hid : ∀ n, n ∈ (liveList t).map PData.id ↔
        (n ∈ (liveList s).map PData.id ∧ n ∉ rm.map PData.id) ∨
          ∃ k : Nat, k < add.length ∧ n = (Bag.empty.run ops).next + k := by
      intro n
      simp only [List.mem_map]
      constructor
      · rintro ⟨p, hp', rfl⟩
        rcases (hlive p.id p.content).1 ⟨p, hp', rfl, rfl⟩ with ⟨⟨q, hq, hq1, _⟩, hne⟩ | ⟨k, hk, h1, _⟩
        · exact .inl ⟨⟨q, hq, hq1⟩, fun ⟨r, hr, hre⟩ => hne r hr hre⟩
        · exact .inr ⟨k, hk, h1⟩
      · rintro (⟨⟨q, hq, rfl⟩, hne⟩ | ⟨k, hk, rfl⟩)
        · obtain ⟨p, hp', h1, _⟩ := (hlive q.id q.content).2
            (.inl ⟨⟨q, hq, rfl, rfl⟩, fun r hr hre => hne ⟨r, hr, hre⟩⟩)
          exact ⟨p, hp', h1⟩
        · obtain ⟨p, hp', h1, _⟩ := (hlive _ _).2 (.inr ⟨k, hk, rfl, rfl⟩)
          exact ⟨p, hp', h1⟩
    have hrs : ∀ n ∈ rm.map PData.id, n ∈ (liveList s).map PData.id := by
      intro n hn
      obtain ⟨r, hr, rfl⟩ := List.mem_map.1 hn
      have hv := hp.1 r hr
      have hlv := valid_live hs.toInv hv.1 hv.2
      exact List.mem_map.2 ⟨s.data r.index,
        (mem_liveList hs.toInv _).2 ⟨_, hlv.1, hlv.2.1, rfl⟩, hlv.2.2.1⟩
    have hsnext : ∀ n ∈ (liveList s).map PData.id, n < (Bag.empty.run ops).next := by
      intro n hn
      obtain ⟨q, hq, rfl⟩ := List.mem_map.1 hn
      obtain ⟨i, hi, hdi, rfl⟩ := (mem_liveList hs.toInv q).1 hq
      have := (hs.live_id i hi hdi).2
      omega
    have := count_ids (m := rm.length) (nodup_ids g1.toInv) (nodup_ids hs.toInv) hp.2 hid hrs
      hsnext (by simp)
    simpa using this
  · intro k h1 h2
    obtain ⟨a1, a2, a3, a4, a5, a6⟩ := g4 k h1 h2
    refine ⟨a1, a2, ?_⟩
    unfold isValid
    rw [if_neg (by omega)]
    have : (t.data out[k].index).proc = out[k].proc := by
      have : (t.data out[k].index).content = out[k].content := a6.trans a2.symm
      exact congrArg Content.proc this
    simp [a5, a1, this]

/-- C06 is false for the code: two particles inserted, the first removed, then the
second: no particle is left, `size()` is 0, but `is_empty()` is false
(particles.h:87,90; the hole left by the first removal still counts). -/
theorem C06_is_empty_false :
    ∃ (ops : List (Op Nat)) (s : State Nat), Hist init ops s ∧ iterate s = .ok [] ∧
      sizeOf s = 0 ∧ isEmpty s = false := by
  refine ⟨_, _, .call (.call (.call (.call .start (op := .insert (sample 1 10)) trivial rfl)
    (op := .insert (sample 2 20)) trivial rfl)
    (op := .remove ⟨0, 0, false, 1, 0, 10⟩) (by exact ⟨rfl, by decide⟩) rfl)
    (op := .remove ⟨1, 1, false, 2, 0, 20⟩) (by exact ⟨rfl, by decide⟩) rfl, ?_, rfl, rfl⟩
  have h : Hist (P := Nat) init _ _ :=
    .call (.call (.call (.call .start (op := .insert (sample 1 10)) trivial rfl)
    (op := .insert (sample 2 20)) trivial rfl)
    (op := .remove ⟨0, 0, false, 1, 0, 10⟩) (by exact ⟨rfl, by decide⟩) rfl)
    (op := .remove ⟨1, 1, false, 2, 0, 20⟩) (by exact ⟨rfl, by decide⟩) rfl
  exact (iterate_eq (hist_sim sim_init h).1.toInv).trans rfl

/-- C06, the half that holds: if `is_empty()` then there is no particle and
`size()` is 0.  Missing: the converse, which is false (`C06_is_empty_false`). -/
theorem C06_is_empty_partial {ops : List (Op P)} {s : State P} (h : Hist init ops s)
    (he : isEmpty s = true) : iterate s = .ok [] ∧ sizeOf s = 0 := by
  have hs := (hist_sim sim_init h).1
  have hz : s.size = 0 := by simpa [isEmpty] using he
  have hl := (length_liveList hs.toInv).1
  have h0 : sizeOf s = 0 := by simp [sizeOf, hz]
  rw [h0] at hl
  rw [iterate_eq hs.toInv, List.length_eq_zero_iff.1 hl]
  exact ⟨rfl, h0⟩

/-- The documented limit of C04: after `reset()` a copy from before can be
accepted for a different particle. -/
theorem C04_reset_revives :
    ∃ (ops ops' : List (Op Nat)) (s t : State Nat) (p : PData Nat), Hist init ops s ∧
      iterate s = .ok [p] ∧ Hist s ops' t ∧ isValid t p = true ∧
      (t.data p.index).content ≠ p.content := by
  refine ⟨_, _, _, _, ⟨0, 0, false, 1, 0, 10⟩, .call .start (op := .insert (sample 1 10)) trivial rfl, ?_,
    .call (.call .start (op := .reset) trivial rfl) (op := .insert (sample 2 20)) trivial rfl,
    rfl, ?_⟩
  · have h : Hist (P := Nat) init _ _ := .call .start (op := .insert (sample 1 10)) trivial rfl
    exact (iterate_eq (hist_sim sim_init h).1.toInv).trans rfl
  · intro h
    have := congrArg Content.ty h
    exact absurd this (by decide)

/-! Concrete histories that meet the hypotheses. -/

/-- Three particles in, the middle one out (leaving a hole), one scattering that
replaces two particles by three: `C01`–`C05` apply to it. -/
example : ∃ (ops : List (Op Nat)) (s : State Nat), Hist init ops s ∧
    (Op.replace [⟨0, 0, false, 1, 0, 10⟩, ⟨2, 2, false, 1, 0, 10⟩]
      [sample 3 1, sample 3 2, sample 3 3]).Pre s ∧
    (∃ t out, replace s [⟨0, 0, false, 1, 0, 10⟩, ⟨2, 2, false, 1, 0, 10⟩]
      [sample 3 1, sample 3 2, sample 3 3] = .ok (t, out) ∧
      out.map PData.id = [3, 4, 5] ∧ out.map PData.index = [0, 2, 1]) ∧
    s.dirty = [1] :=
  ⟨_, _, .call (.call .start (op := .createN 3 (sample 1 10)) trivial rfl)
    (op := .remove ⟨1, 1, false, 1, 0, 10⟩) (by exact ⟨rfl, by decide⟩) rfl,
    by
      constructor
      · intro r hr
        simp only [List.mem_cons, List.not_mem_nil, or_false] at hr
        rcases hr with rfl | rfl <;> exact ⟨rfl, by decide⟩
      · decide,
    ⟨_, _, rfl, by rfl, by rfl⟩, rfl⟩

/-- A copy that is rejected after its particle was removed, although its slot has
been reused. -/
example : ∃ (ops ops' : List (Op Nat)) (s t : State Nat), Hist init ops s ∧ Hist s ops' t ∧
    (∀ o ∈ ops', o.isReset = false) ∧ isValid s ⟨0, 0, false, 1, 0, 10⟩ = true ∧
    isValid t ⟨0, 0, false, 1, 0, 10⟩ = false ∧ t.size = 2 :=
  ⟨_, _, _, _, .call .start (op := .createN 2 (sample 1 10)) trivial rfl,
    .call (.call .start (op := .remove ⟨0, 0, false, 1, 0, 10⟩) (by exact ⟨rfl, by decide⟩) rfl)
      (op := .create1 (sample 1 10)) trivial rfl,
    by intro o ho; simp at ho; rcases ho with rfl | rfl <;> rfl, rfl, rfl, rfl⟩

end Verif.Particles
