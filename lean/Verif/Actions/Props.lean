import Verif.Actions.Model
import Mathlib.Data.List.Sort
/-
Property C07 (and C61): the action queue.
-/
namespace Verif.Actions
variable {A T : Type} [LinearOrder T] (time : A → T) (H : StdHeap (cmp time))

/-- The head of a heap is minimal. -/
theorem heap_head {l : List A} {x : A} (h : IsHeap (cmp time) (x :: l)) :
    ∀ b ∈ x :: l, time x ≤ time b := by
  have key : ∀ n j (hj : j < (x :: l).length), j ≤ n → time x ≤ time (x :: l)[j] := by
    intro n
    induction n with
    | zero => intro j hj hn; have : j = 0 := by omega
              subst this; simp
    | succ n ih =>
      intro j hj hn
      by_cases h0 : j = 0
      · subst h0; simp
      · have hp : (j - 1) / 2 < (x :: l).length := by omega
        have h1 := ih ((j - 1) / 2) hp (by omega)
        have h2 := h _ j hp hj (by omega) rfl
        simp only [cmp, decide_eq_false_iff_not, not_lt] at h2
        exact le_trans h1 h2
  intro b hb
  obtain ⟨j, hj, rfl⟩ := List.getElem_of_mem hb
  exact key j j hj (le_refl _)

theorem isHeap_nil : IsHeap (cmp time) ([] : List A) := by
  intro i j hi; exact absurd hi (by simp)

theorem pop_spec {s : List A} (hs : IsHeap (cmp time) s) {a : A} {s' : List A}
    (hp : pop time H s = some (a, s')) :
    s.Perm (a :: s') ∧ (∀ b ∈ s, time a ≤ time b) ∧ IsHeap (cmp time) s' ∧ s.head? = some a := by
  unfold pop at hp
  cases s with
  | nil => simp at hp
  | cons x l =>
    have hl := H.pop_last x l hs
    simp only [List.isEmpty_cons, Bool.false_eq_true, if_false, hl, Option.some.injEq,
      Prod.mk.injEq] at hp
    obtain ⟨rfl, rfl⟩ := hp
    refine ⟨?_, heap_head time hs, H.pop_heap _ hs, rfl⟩
    have hperm := H.pop_perm (x :: l)
    have happ : (H.popHeap (x :: l)).dropLast ++ [x] = H.popHeap (x :: l) := by
      obtain ⟨ys, hys⟩ := List.getLast?_eq_some_iff.1 hl
      rw [hys]; simp
    have h1 : (x :: (H.popHeap (x :: l)).dropLast).Perm (H.popHeap (x :: l)) := by
      have h2 : (x :: (H.popHeap (x :: l)).dropLast).Perm
          ((H.popHeap (x :: l)).dropLast ++ [x]) :=
        (List.perm_append_singleton x _).symm
      rwa [happ] at h2
    exact (h1.trans hperm).symm

theorem insertList_heap (l : List A) {s : List A} (hs : IsHeap (cmp time) s) :
    IsHeap (cmp time) (insertList time H s l) ∧ (insertList time H s l).Perm (s ++ l) := by
  induction l generalizing s with
  | nil => simpa [insertList] using hs
  | cons a l ih =>
    obtain ⟨h1, h2⟩ := ih (s := insert time H s a) (H.push_heap s a hs)
    refine ⟨h1, h2.trans ?_⟩
    have : (insert time H s a ++ l).Perm ((s ++ [a]) ++ l) :=
      (H.push_perm (s ++ [a])).append_right l
    simpa using this

/-- The queue content is a heap after every history. -/
theorem run_heap (l : List A) (ops : List (Op A)) : ∀ {s p}, IsHeap (cmp time) s →
    ∀ {s' p'}, run time H (s, p) ops = some (s', p') → IsHeap (cmp time) s' := by
  induction ops with
  | nil =>
    intro s p hs s' p' h
    simp only [run, Option.some.injEq, Prod.mk.injEq] at h
    rw [← h.1]; exact hs
  | cons op ops ih =>
    intro s p hs s' p' h
    simp only [run] at h
    cases op with
    | insert a => exact ih (H.push_heap s a hs) h
    | insertList l => exact ih (insertList_heap time H l hs).1 h
    | pop =>
      simp only [step] at h
      cases hp : pop time H s with
      | none => simp [hp] at h
      | some q =>
        obtain ⟨a, t⟩ := q
        simp only [hp] at h
        exact ih (pop_spec time H hs hp).2.2.1 h
    | clear => exact ih (isHeap_nil time) h

/-- C07: after any history of calls on a queue constructed from any list, `pop`
returns an action of minimal execution time and removes exactly this action. -/
theorem C07_pop_is_earliest (l : List A) (ops : List (Op A)) {s p : List A}
    (h : run time H (construct time H l, []) ops = some (s, p)) {a : A} {s' : List A}
    (hp : pop time H s = some (a, s')) :
    (∀ b ∈ s, time a ≤ time b) ∧ s.Perm (a :: s') := by
  have hs := run_heap time H l ops (H.make_heap l) h
  have := pop_spec time H hs hp
  exact ⟨this.2.1, this.1⟩

/-- C07: `pop` throws exactly on the empty queue. -/
theorem C07_pop_throws_iff_empty (l : List A) (ops : List (Op A)) {s p : List A}
    (h : run time H (construct time H l, []) ops = some (s, p)) :
    pop time H s = none ↔ s = [] := by
  have hs := run_heap time H l ops (H.make_heap l) h
  cases s with
  | nil => simp [pop]
  | cons x s =>
    have := H.pop_last x s hs
    simp [pop, this]

/-- C07: `earliest_time()` is the time of the action that `pop` returns next. -/
theorem C07_earliest_time (l : List A) (ops : List (Op A)) {s p : List A}
    (h : run time H (construct time H l, []) ops = some (s, p)) {a : A} {s' : List A}
    (hp : pop time H s = some (a, s')) : earliestTime time s = some (time a) := by
  have hs := run_heap time H l ops (H.make_heap l) h
  have := (pop_spec time H hs hp).2.2.2
  simp [earliestTime, this]

/-- Everything that a history puts into the queue. -/
def inserted : List (Op A) → List A
  | [] => []
  | .insert a :: ops => a :: inserted ops
  | .insertList l :: ops => l ++ inserted ops
  | _ :: ops => inserted ops

/-- C07: nothing is lost or duplicated: what was popped plus what is still in the
queue is what was put in (as long as `clear` was not called). -/
theorem C07_nothing_lost (l : List A) (ops : List (Op A)) (hc : Op.clear ∉ ops) {s p : List A}
    (h : run time H (construct time H l, []) ops = some (s, p)) :
    (p ++ s).Perm (l ++ inserted ops) := by
  have key : ∀ (ops : List (Op A)), Op.clear ∉ ops → ∀ {s p}, IsHeap (cmp time) s →
      ∀ {s' p'}, run time H (s, p) ops = some (s', p') →
        (p' ++ s').Perm (p ++ s ++ inserted ops) := by
    intro ops
    induction ops with
    | nil =>
      intro _ s p hs s' p' h
      simp only [run, Option.some.injEq, Prod.mk.injEq] at h
      rw [← h.1, ← h.2]; simp [inserted]
    | cons op ops ih =>
      intro hc s p hs s' p' h
      have hc' : Op.clear ∉ ops := fun hm => hc (List.mem_cons_of_mem _ hm)
      simp only [run] at h
      cases op with
      | insert a =>
        refine (ih hc' (H.push_heap s a hs) h).trans ?_
        have h1 : (p ++ insert time H s a).Perm (p ++ (s ++ [a])) :=
          (H.push_perm (s ++ [a])).append_left p
        have h2 := h1.append_right (inserted ops)
        simpa [inserted, insert] using h2
      | insertList l =>
        have hl := insertList_heap time H l hs
        refine (ih hc' hl.1 h).trans ?_
        have h1 : (p ++ insertList time H s l).Perm (p ++ (s ++ l)) := hl.2.append_left p
        have h2 := h1.append_right (inserted ops)
        simpa [inserted] using h2
      | pop =>
        simp only [step] at h
        cases hp : pop time H s with
        | none => simp [hp] at h
        | some q =>
          obtain ⟨a, t⟩ := q
          simp only [hp] at h
          have hps := pop_spec time H hs hp
          refine (ih hc' hps.2.2.1 h).trans ?_
          have h1 : ((a :: p) ++ t).Perm (p ++ s) := by
            have h2 : (p ++ s).Perm (p ++ (a :: t)) := hps.1.append_left p
            exact (List.perm_middle (a := a) (l₁ := p) (l₂ := t)).symm.trans h2.symm
          exact h1.append_right (inserted ops)
      | clear => exact absurd (by simp) hc
  have := key ops hc (H.make_heap l) h
  refine this.trans ?_
  simpa using (H.make_perm l).append_right (inserted ops)

theorem drain_spec (n : Nat) : ∀ {s : List A}, IsHeap (cmp time) s → s.length ≤ n →
    (drain time H n s).Perm s ∧ (drain time H n s).Pairwise (fun a b => time a ≤ time b) := by
  induction n with
  | zero =>
    intro s hs hn
    have : s = [] := List.length_eq_zero_iff.1 (by omega)
    subst this; simp [drain]
  | succ n ih =>
    intro s hs hn
    unfold drain
    cases hp : pop time H s with
    | none =>
      cases s with
      | nil => simp
      | cons x s =>
        have := H.pop_last x s hs
        simp [pop, this] at hp
    | some q =>
      obtain ⟨a, t⟩ := q
      obtain ⟨h1, h2, h3, -⟩ := pop_spec time H hs hp
      have hlen := h1.length_eq
      simp only [List.length_cons] at hlen
      obtain ⟨h5, h6⟩ := ih h3 (by omega)
      refine ⟨(h5.cons a).trans h1.symm, ?_⟩
      simp only [List.pairwise_cons]
      refine ⟨fun b hb => h2 b (h1.symm.subset (List.mem_cons_of_mem _ (h5.subset hb))), h6⟩

/-- C07: draining the queue yields all its actions in time order. -/
theorem C07_drain_sorted (l : List A) (ops : List (Op A)) {s p : List A}
    (h : run time H (construct time H l, []) ops = some (s, p)) :
    (drain time H s.length s).Perm s ∧
      (drain time H s.length s).Pairwise (fun a b => time a ≤ time b) :=
  drain_spec time H s.length (run_heap time H l ops (H.make_heap l) h) (Nat.le_refl _)

/-! The contract of the standard heap functions is satisfiable: sorting is a
(slow) implementation. -/

theorem sorted_isHeap {l : List A} (h : l.Pairwise (fun a b => time a ≤ time b)) :
    IsHeap (cmp time) l := by
  intro i j hi hj h0 hij
  simp only [cmp, decide_eq_false_iff_not, not_lt]
  exact List.pairwise_iff_getElem.1 h i j hi hj (by omega)

/-- Sort by time. -/
def sortT (l : List A) : List A := l.mergeSort (fun a b => decide (time a ≤ time b))

theorem sortT_sorted (l : List A) : (sortT time l).Pairwise (fun a b => time a ≤ time b) := by
  have := List.pairwise_mergeSort (le := fun a b => decide (time a ≤ time b))
    (fun a b c => by simp only [decide_eq_true_eq]; exact le_trans)
    (fun a b => by simp only [Bool.or_eq_true, decide_eq_true_eq]; exact le_total _ _) l
  simpa [sortT] using this

/-- An implementation of the heap contract. -/
def sortHeap : StdHeap (cmp time) where
  makeHeap := sortT time
  pushHeap := sortT time
  popHeap
    | [] => []
    | x :: l => sortT time l ++ [x]
  make_perm := fun l => List.mergeSort_perm l _
  make_heap := fun l => sorted_isHeap time (sortT_sorted time l)
  push_perm := fun l => List.mergeSort_perm l _
  push_heap := fun l x _ => sorted_isHeap time (sortT_sorted time _)
  pop_perm := fun l => by
    cases l with
    | nil => exact List.Perm.refl _
    | cons x l =>
      exact (List.perm_append_singleton x _).trans ((List.mergeSort_perm l _).cons x)
  pop_heap := fun l _ => by
    cases l with
    | nil => exact isHeap_nil time
    | cons x l => simpa using sorted_isHeap time (sortT_sorted time l)
  pop_last := fun x l _ => by simp

/-- A concrete history: construct from three actions, pop two, insert two. -/
example : ∃ s p, run id (sortHeap (A := Nat) id) (construct id (sortHeap id) [5, 3, 4], [])
    [.pop, .insert 1, .pop, .insertList [9, 2]] = some (s, p) ∧ p = [1, 3] ∧ s.length = 4 := by
  refine ⟨_, _, by simp [run, step, pop, construct, insert, insertList, sortHeap, sortT,
    List.mergeSort, List.MergeSort.Internal.splitInTwo, List.splitAt,
    List.splitAt.go]; rfl, rfl, rfl⟩

/-- C61 is false for the code: `begin()`, documented as "an iterator to the
earliest action" (actions.h:103), points to the last element of the heap array. -/
theorem C61_begin_not_earliest :
    ∃ (l : List Nat) (a b : Nat), begin (construct id (sortHeap id) l) = some a ∧
      b ∈ construct id (sortHeap (A := Nat) id) l ∧ b < a := by
  refine ⟨[1, 2], 2, 1, ?_, ?_, by decide⟩ <;>
  simp [begin, construct, sortHeap, sortT, List.mergeSort,
    List.MergeSort.Internal.splitInTwo, List.splitAt, List.splitAt.go]

/-- C61 holds for no implementation of the heap functions: for two actions of
different time `begin()` is always the later one. -/
theorem C61_begin_is_latest_of_two (H : StdHeap (cmp (id : Nat → Nat))) :
    begin (construct id H [1, 2]) = some 2 := by
  have hp := H.make_perm [1, 2]
  have hh := H.make_heap [1, 2]
  have hlen := hp.length_eq
  unfold begin construct
  generalize hl : H.makeHeap [1, 2] = l at *
  match l, hlen with
  | [x, y], _ =>
    have h1 := heap_head id hh y (by simp)
    have hx : x ∈ [1, 2] := hp.subset (by simp)
    have hy : y ∈ [1, 2] := hp.subset (by simp)
    have hnd : [x, y].Nodup := hp.symm.nodup (by decide)
    simp at hx hy hnd h1
    simp
    omega

/-- C61, what does hold: with a single action `begin()` points to it.  Missing:
everything else, because it is false. -/
theorem C61_begin_partial (a : A) : begin (construct time H [a]) = some a := by
  have hp := H.make_perm [a]
  have : H.makeHeap [a] = [a] := List.perm_singleton.1 hp
  simp [begin, construct, this]

end Verif.Actions
