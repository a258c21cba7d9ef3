import Verif.Exp.Model
import Verif.Actions.Props
import Mathlib.Data.List.Pairwise
import Mathlib.Tactic.SplitIfs
import Mathlib.Data.List.Sort
/-
Property C46: actions are executed in time order on particles at the right time.
-/
namespace Verif.Exp
open Verif.Particles Verif.Actions

variable {T R L W : Type} [LinearOrder T]

/-- All particles of the list are at time `t`. -/
def AllAt (t : T) (s : State (Pay T R)) : Prop :=
  ∀ i, i < s.size → (s.data i).hole = false → (s.data i).pay.time = t

/-- What is assumed of the rest of the program: performing an action at the time of
all particles leaves all particles at that time; searches started when all particles
are at a time find only actions at or after that time; potentials and expansion do
not change the time of particles. -/
structure Fair (E : Env T R L W) : Prop where
  keep : ∀ w a s s' out w', AllAt a.time s → E.attempt w a s = (some (s', out), w') →
    AllAt a.time s'
  later : ∀ w a out s e, AllAt a.time s → ∀ b ∈ (E.find w a out s e).1, a.time ≤ b.time
  search : ∀ w s e t, AllAt t s → ∀ b ∈ (E.search w s e).1, t ≤ b.time
  adjust : ∀ w s t, AllAt t s → AllAt t (E.adjust w s).1

theorem allAt_propagate (E : Env T R L W) (t : T) (s : State (Pay T R)) :
    AllAt t (propagate E t s) := by
  intro i hi hh
  simp only [propagate] at hi hh ⊢
  by_cases hc : i < s.size ∧ (s.data i).hole = false
  · rw [if_pos hc]
  · rw [if_neg hc] at hh; exact absurd ⟨hi, hh⟩ hc

theorem isValid_propagate (E : Env T R L W) (t : T) (s : State (Pay T R)) (p : PData (Pay T R)) :
    isValid (propagate E t s) p = isValid s p := by
  unfold isValid propagate
  simp only
  split_ifs <;> rfl

theorem backwards_false {t u : T} {s : State (Pay T R)} (h : AllAt t s) (hu : t ≤ u) :
    backwards u s = false := by
  unfold backwards
  rw [List.any_eq_false]
  intro i hi
  cases hh : (s.data i).hole with
  | true => simp
  | false => simp [h i (List.mem_range.1 hi) hh, hu]

/-- What is claimed of one action that was not discarded: its incoming particles are
still those it was made for, everything was at its time when it was attempted, no
particle was moved backwards, and it works with the incoming particles as they are in
the list. -/
structure GoodEntry (e : Entry T R L) : Prop where
  valid : ∀ p ∈ e.queued.incoming, isValid e.before p = true
  time : AllAt e.queued.time e.before
  same : e.act.time = e.queued.time ∧ e.act.label = e.queued.label
  current : e.act.incoming = e.queued.incoming.map fun p => e.before.data p.index
  forward : e.backwards = false

/-- Invariant: particles at `t`, everything taken from the queue so far at most `m`,
everything in the queue at least `m`. -/
structure J (H : StdHeap (cmp (Act.time (T := T) (R := R) (L := L)))) (t₀ t m : T)
    (σ : Sys T R L W) : Prop where
  at' : AllAt t σ.parts
  le : t ≤ m
  start : t₀ ≤ t
  heap : IsHeap (cmp Act.time) σ.queue
  queue : ∀ b ∈ σ.queue, m ≤ b.time
  sorted : (σ.log.map fun e => e.queued.time).Pairwise (· ≤ ·)
  bound : ∀ e ∈ σ.log, t₀ ≤ e.queued.time ∧ e.queued.time ≤ m
  disc : ∀ e ∈ σ.log, e.outcome = .discarded →
    ∃ p ∈ e.queued.incoming, isValid e.before p = false
  good : ∀ e ∈ σ.log, e.outcome ≠ .discarded → GoodEntry e

/-- Everything that was or will be taken from the queue. -/
def known (σ : Sys T R L W) : List (Act T R L) := σ.log.map Entry.queued ++ σ.queue

/-- Everything found after performed actions. -/
def foundIn (l : List (Entry T R L)) : List (Act T R L) := l.flatMap Entry.found

theorem sorted_snoc {l : List (Entry T R L)} {m : T} (e : Entry T R L)
    (hs : (l.map fun e => e.queued.time).Pairwise (· ≤ ·)) (hb : ∀ e ∈ l, e.queued.time ≤ m)
    (he : m ≤ e.queued.time) :
    ((l ++ [e]).map fun e => e.queued.time).Pairwise (· ≤ ·) := by
  rw [List.map_append, List.pairwise_append]
  refine ⟨hs, by simp, ?_⟩
  intro a ha b hb'
  obtain ⟨x, hx, rfl⟩ := List.mem_map.1 ha
  simp only [List.map_cons, List.map_nil, List.mem_singleton] at hb'
  subst hb'
  exact (hb x hx).trans he

theorem perm_helper {α : Type} (A Q F N : List α) (a : α) (q : List α) (hp : Q.Perm (a :: q))
    {X : List α} (h : X.Perm (A ++ [a] ++ (q ++ N))) :
    X.Perm (A ++ Q ++ N) := by
  refine h.trans ?_
  have : (A ++ [a] ++ (q ++ N)) = A ++ (a :: q) ++ N := by simp
  rw [this]
  exact (List.Perm.append_left A hp.symm).append_right N

theorem timestepless_ok {E : Env T R L W} (hE : Fair E)
    {H : StdHeap (cmp (Act.time (T := T) (R := R) (L := L)))} {stepEnd tEnd t₀ : T} :
    ∀ (fuel : Nat) (σ σ' : Sys T R L W) (t m : T), J H t₀ t m σ → m ≤ tEnd →
      timestepless E H stepEnd tEnd fuel σ = .ok σ' →
      J H t₀ tEnd tEnd σ' ∧ (∀ b ∈ σ'.queue, tEnd < b.time) ∧
        (∃ l, σ'.log = σ.log ++ l ∧ (known σ').Perm (known σ ++ foundIn l)) := by
  intro fuel
  induction fuel with
  | zero => intro σ σ' t m _ _ h; simp [timestepless] at h
  | succ fuel ih =>
    intro σ σ' t m hJ hm h
    have fin : ∀ q : (∀ b ∈ σ.queue, tEnd < b.time),
        J H t₀ tEnd tEnd { σ with parts := propagate E tEnd σ.parts } ∧
          (∀ b ∈ σ.queue, tEnd < b.time) ∧
          (∃ l, σ.log = σ.log ++ l ∧
            (known { σ with parts := propagate E tEnd σ.parts }).Perm (known σ ++ foundIn l)) := by
      intro q
      refine ⟨⟨allAt_propagate E tEnd _, le_refl _, hJ.start.trans (hJ.le.trans hm), hJ.heap,
        fun b hb => (q b hb).le, hJ.sorted,
        fun e he => ⟨(hJ.bound e he).1, (hJ.bound e he).2.trans hm⟩, hJ.disc, hJ.good⟩, q,
        [], by simp, by simp [known, foundIn]⟩
    rw [timestepless] at h
    cases he : earliestTime Act.time σ.queue with
    | none =>
      rw [he] at h
      simp only [Except.ok.injEq] at h
      subst h
      have hq : σ.queue = [] := by
        cases hc : σ.queue with
        | nil => rfl
        | cons x l => simp [earliestTime, hc] at he
      exact fin (by simp [hq])
    | some τ =>
      rw [he] at h
      simp only at h
      obtain ⟨x, l, hq⟩ : ∃ x l, σ.queue = x :: l := by
        cases hc : σ.queue with
        | nil => simp [earliestTime, hc] at he
        | cons x l => exact ⟨x, l, rfl⟩
      have hτ : x.time = τ := by simpa [earliestTime, hq] using he
      have hmin : ∀ b ∈ σ.queue, τ ≤ b.time := by
        have hh := hJ.heap
        rw [hq] at hh ⊢
        rw [← hτ]
        exact heap_head Act.time hh
      by_cases hgt : τ > tEnd
      · rw [if_pos hgt] at h
        simp only [Except.ok.injEq] at h
        subst h
        exact fin fun b hb => lt_of_lt_of_le hgt (hmin b hb)
      · rw [if_neg hgt] at h
        cases hpop : pop Act.time H σ.queue with
        | none =>
          exfalso
          have hl := H.pop_last x l (by rw [← hq]; exact hJ.heap)
          rw [hq] at hpop
          simp [pop, hl] at hpop
        | some aq =>
          obtain ⟨a, q⟩ := aq
          rw [hpop] at h
          simp only at h
          obtain ⟨hperm, hle, hheap, hhd⟩ := pop_spec Act.time H hJ.heap hpop
          have hamem : a ∈ σ.queue := hperm.symm.subset (List.mem_cons_self)
          have hqmem : ∀ b ∈ q, b ∈ σ.queue := fun b hb => hperm.symm.subset (List.mem_cons_of_mem _ hb)
          have hma : m ≤ a.time := hJ.queue a hamem
          have haτ : a.time ≤ tEnd := by
            have : a = x := by rw [hq] at hhd; simpa using hhd.symm
            rw [this, hτ]; exact not_lt.1 hgt
          cases hv : actValid σ.parts a with
          | false =>
            rw [hv] at h
            simp only [Bool.not_false, if_true] at h
            have hJ' : J H t₀ t a.time { σ with queue := q, log := σ.log ++ [⟨a, a, σ.parts, .discarded, [], false⟩] } := by
              refine ⟨hJ.at', hJ.le.trans hma, hJ.start, hheap, fun b hb => hle b (hqmem b hb),
                sorted_snoc _ hJ.sorted (fun e he => (hJ.bound e he).2) hma, ?_, ?_, ?_⟩
              · intro e he
                rcases List.mem_append.1 he with h1 | h1
                · exact ⟨(hJ.bound e h1).1, (hJ.bound e h1).2.trans hma⟩
                · simp only [List.mem_singleton] at h1; subst h1
                  exact ⟨hJ.start.trans (hJ.le.trans hma), le_refl _⟩
              · intro e he
                rcases List.mem_append.1 he with h1 | h1
                · exact hJ.disc e h1
                · simp only [List.mem_singleton] at h1; subst h1
                  intro _
                  unfold actValid at hv
                  rw [List.all_eq_false] at hv
                  obtain ⟨p, hp1, hp2⟩ := hv
                  exact ⟨p, hp1, by simpa using hp2⟩
              · intro e he
                rcases List.mem_append.1 he with h1 | h1
                · exact hJ.good e h1
                · simp only [List.mem_singleton] at h1; subst h1
                  intro hne; exact absurd rfl hne
            obtain ⟨r1, r2, l', r3, r4⟩ := ih _ _ t a.time hJ' haτ h
            refine ⟨r1, r2, ⟨a, a, σ.parts, .discarded, [], false⟩ :: l', by simp [r3], ?_⟩
            have : foundIn (⟨a, a, σ.parts, .discarded, [], false⟩ :: l') = foundIn l' := by
              simp [foundIn]
            rw [this]
            unfold known at r4 ⊢
            simp only [List.map_append, List.map_cons, List.map_nil] at r4
            have := perm_helper (σ.log.map Entry.queued) σ.queue [] (foundIn l') a q hperm
              (X := List.map Entry.queued σ'.log ++ σ'.queue) (by simpa using r4)
            simpa using this
          | true =>
            rw [hv] at h
            simp only [Bool.not_true, Bool.false_eq_true, if_false] at h
            have hb := backwards_false (u := a.time) hJ.at' (hJ.le.trans hma)
            have hAt := allAt_propagate E a.time σ.parts
            have hgood : ∀ o f, GoodEntry (⟨a, updateIncoming (propagate E a.time σ.parts) a,
                propagate E a.time σ.parts, o, f, backwards a.time σ.parts⟩ : Entry T R L) := by
              intro o f
              refine ⟨?_, hAt, ⟨rfl, rfl⟩, rfl, hb⟩
              intro p hp
              simp only
              rw [isValid_propagate]
              unfold actValid at hv
              exact List.all_eq_true.1 hv p hp
            have hbound : ∀ o f, ∀ e ∈ σ.log ++ [(⟨a, updateIncoming (propagate E a.time σ.parts) a,
                propagate E a.time σ.parts, o, f, backwards a.time σ.parts⟩ : Entry T R L)],
                t₀ ≤ e.queued.time ∧ e.queued.time ≤ a.time := by
              intro o f e he
              rcases List.mem_append.1 he with h1 | h1
              · exact ⟨(hJ.bound e h1).1, (hJ.bound e h1).2.trans hma⟩
              · simp only [List.mem_singleton] at h1; subst h1
                exact ⟨hJ.start.trans (hJ.le.trans hma), le_refl _⟩
            have hdisc : ∀ o f, o ≠ Outcome.discarded → ∀ e ∈ σ.log ++ [(⟨a, updateIncoming (propagate E a.time σ.parts) a,
                propagate E a.time σ.parts, o, f, backwards a.time σ.parts⟩ : Entry T R L)],
                e.outcome = .discarded → ∃ p ∈ e.queued.incoming, isValid e.before p = false := by
              intro o f ho e he
              rcases List.mem_append.1 he with h1 | h1
              · exact hJ.disc e h1
              · simp only [List.mem_singleton] at h1; subst h1
                intro hne; exact absurd hne ho
            have hgd : ∀ o f, ∀ e ∈ σ.log ++ [(⟨a, updateIncoming (propagate E a.time σ.parts) a,
                propagate E a.time σ.parts, o, f, backwards a.time σ.parts⟩ : Entry T R L)],
                e.outcome ≠ .discarded → GoodEntry e := by
              intro o f e he
              rcases List.mem_append.1 he with h1 | h1
              · exact hJ.good e h1
              · simp only [List.mem_singleton] at h1; subst h1
                intro _; exact hgood o f
            have hsorted : ∀ o f, ((σ.log ++ [(⟨a, updateIncoming (propagate E a.time σ.parts) a,
                propagate E a.time σ.parts, o, f, backwards a.time σ.parts⟩ : Entry T R L)]).map
                  fun e => e.queued.time).Pairwise (· ≤ ·) := fun o f =>
              sorted_snoc _ hJ.sorted (fun e he => (hJ.bound e he).2) hma
            have hstart : t₀ ≤ a.time := hJ.start.trans (hJ.le.trans hma)
            cases hat : E.attempt σ.world (updateIncoming (propagate E a.time σ.parts) a)
                (propagate E a.time σ.parts) with
            | mk r w =>
              rw [hat] at h
              cases r with
              | none =>
                simp only at h
                have hJ' : J H t₀ a.time a.time (⟨propagate E a.time σ.parts, q, w, σ.total,
                    σ.log ++ [⟨a, updateIncoming (propagate E a.time σ.parts) a,
                      propagate E a.time σ.parts, .rejected, [], backwards a.time σ.parts⟩]⟩ : Sys T R L W) :=
                  ⟨hAt, le_refl _, hstart, hheap, fun b hb => hle b (hqmem b hb),
                    hsorted _ _, hbound _ _, hdisc _ _ (by simp), hgd _ _⟩
                obtain ⟨r1, r2, l', r3, r4⟩ := ih _ _ a.time a.time hJ' haτ h
                refine ⟨r1, r2, _ :: l', by rw [r3, List.append_assoc]; rfl, ?_⟩
                have : ∀ e : Entry T R L, e.found = [] → foundIn (e :: l') = foundIn l' := by
                  intro e he; simp [foundIn, he]
                rw [this _ rfl]
                unfold known at r4 ⊢
                simp only [List.map_append, List.map_cons, List.map_nil] at r4
                have := perm_helper (σ.log.map Entry.queued) σ.queue [] (foundIn l') a q hperm
                  (X := List.map Entry.queued σ'.log ++ σ'.queue) (by simpa using r4)
                simpa using this
              | some so =>
                obtain ⟨s', out⟩ := so
                simp only at h
                by_cases hov : σ.total + 1 ≥ 2 ^ 32 - 1
                · rw [if_pos hov] at h; cases h
                · rw [if_neg hov] at h
                  have hAt' : AllAt a.time s' :=
                    hE.keep _ (updateIncoming (propagate E a.time σ.parts) a) _ _ _ _ hAt hat
                  have hnew : ∀ b ∈ (E.find w (updateIncoming (propagate E a.time σ.parts) a) out s' stepEnd).1,
                      a.time ≤ b.time :=
                    hE.later w (updateIncoming (propagate E a.time σ.parts) a) out s' stepEnd hAt'
                  obtain ⟨hh1, hh2⟩ := insertList_heap Act.time H
                    (E.find w (updateIncoming (propagate E a.time σ.parts) a) out s' stepEnd).1 hheap
                  have hJ' : J H t₀ a.time a.time (⟨s',
                      insertList Act.time H q (E.find w (updateIncoming (propagate E a.time σ.parts) a) out s' stepEnd).1,
                      (E.find w (updateIncoming (propagate E a.time σ.parts) a) out s' stepEnd).2,
                      σ.total + 1,
                      σ.log ++ [⟨a, updateIncoming (propagate E a.time σ.parts) a,
                        propagate E a.time σ.parts, .performed,
                        (E.find w (updateIncoming (propagate E a.time σ.parts) a) out s' stepEnd).1,
                        backwards a.time σ.parts⟩]⟩ : Sys T R L W) := by
                    refine ⟨hAt', le_refl _, hstart, hh1, ?_, hsorted _ _, hbound _ _,
                      hdisc _ _ (by simp), hgd _ _⟩
                    intro b hb
                    rcases List.mem_append.1 (hh2.subset hb) with h1 | h1
                    · exact hle b (hqmem b h1)
                    · exact hnew b h1
                  obtain ⟨r1, r2, l', r3, r4⟩ := ih _ _ a.time a.time hJ' haτ h
                  refine ⟨r1, r2, _ :: l', by rw [r3, List.append_assoc]; rfl, ?_⟩
                  unfold known at r4 ⊢
                  have hfc : ∀ e : Entry T R L, foundIn (e :: l') = e.found ++ foundIn l' := by
                    intro e; simp [foundIn]
                  rw [hfc]
                  simp only [List.map_append, List.map_cons, List.map_nil] at r4
                  refine perm_helper (σ.log.map Entry.queued) σ.queue [] _ a q hperm (r4.trans ?_)
                  rw [List.append_assoc]
                  refine List.Perm.append_left _ ?_
                  rw [← List.append_assoc]
                  exact hh2.append_right _

theorem runTo_ok {E : Env T R L W} (hE : Fair E)
    {H : StdHeap (cmp (Act.time (T := T) (R := R) (L := L)))} {stepEnd t₀ : T} {fuel : Nat} :
    ∀ (ts : List T) (σ σ' : Sys T R L W) (t : T), J H t₀ t t σ → (t :: ts).Pairwise (· ≤ ·) →
      runTo E H fuel stepEnd ts σ = .ok σ' →
      J H t₀ ((t :: ts).getLast (by simp)) ((t :: ts).getLast (by simp)) σ' ∧
        (ts ≠ [] → ∀ b ∈ σ'.queue, (t :: ts).getLast (by simp) < b.time) ∧
        ∃ l, σ'.log = σ.log ++ l ∧ (known σ').Perm (known σ ++ foundIn l) := by
  intro ts
  induction ts with
  | nil =>
    intro σ σ' t hJ _ h
    simp only [runTo, Except.ok.injEq] at h
    subst h
    exact ⟨hJ, by simp, [], by simp, by simp [foundIn]⟩
  | cons u ts ih =>
    intro σ σ' t hJ hs h
    rw [List.pairwise_cons] at hs
    rw [runTo] at h
    cases h1 : timestepless E H stepEnd u fuel σ with
    | error e => rw [h1] at h; cases h
    | ok σ₁ =>
      rw [h1] at h
      simp only at h
      obtain ⟨a1, a2, l₁, a3, a4⟩ := timestepless_ok hE fuel σ σ₁ t t hJ (hs.1 u (by simp)) h1
      obtain ⟨b1, b2, l₂, b3, b4⟩ := ih σ₁ σ' u a1 hs.2 h
      have hl : (t :: u :: ts).getLast (by simp) = (u :: ts).getLast (by simp) :=
        List.getLast_cons (by simp)
      rw [hl]
      refine ⟨b1, ?_, l₁ ++ l₂, by rw [b3, a3, List.append_assoc], ?_⟩
      · intro _
        cases ts with
        | nil =>
          simp only [runTo, Except.ok.injEq] at h
          subst h
          simpa using a2
        | cons v ts => exact b2 (by simp)
      · refine b4.trans ?_
        have : foundIn (l₁ ++ l₂) = foundIn l₁ ++ foundIn l₂ := by simp [foundIn]
        rw [this, ← List.append_assoc]
        exact a4.append_right _

/-- C46, within a timestep: from particles that are all at time `t`, running the loop
to the times `ts` executes actions in order of their times; each executed action has
incoming particles that have not interacted since it was made, and is executed with
every particle at its time; at the end all particles are at the last time and the
actions left are later. Every action of the queue or found on the way is accounted
for. -/
theorem C46_timestep {E : Env T R L W} (hE : Fair E)
    (H : StdHeap (cmp (Act.time (T := T) (R := R) (L := L)))) (fuel : Nat)
    (parts : State (Pay T R)) (queue : List (Act T R L)) (w : W) (n : Nat) (t stepEnd : T)
    (ts : List T) (σ' : Sys T R L W) (hat : AllAt t parts) (hheap : IsHeap (cmp Act.time) queue)
    (hq : ∀ a ∈ queue, t ≤ a.time) (hts : (t :: ts).Pairwise (· ≤ ·)) (hne : ts ≠ [])
    (h : runTo E H fuel stepEnd ts ⟨parts, queue, w, n, []⟩ = .ok σ') :
    (σ'.log.map fun e => e.queued.time).Pairwise (· ≤ ·) ∧
    (∀ e ∈ σ'.log, t ≤ e.queued.time ∧ e.queued.time ≤ ts.getLast hne) ∧
    (∀ e ∈ σ'.log, e.outcome = .discarded → ∃ p ∈ e.queued.incoming, isValid e.before p = false) ∧
    (∀ e ∈ σ'.log, e.outcome ≠ .discarded → GoodEntry e) ∧
    AllAt (ts.getLast hne) σ'.parts ∧
    (∀ a ∈ σ'.queue, ts.getLast hne < a.time) ∧
    (σ'.log.map Entry.queued ++ σ'.queue).Perm (queue ++ σ'.log.flatMap Entry.found) := by
  have hJ : J H t t t (⟨parts, queue, w, n, []⟩ : Sys T R L W) :=
    ⟨hat, le_refl _, le_refl _, hheap, hq, by simp, by simp, by simp, by simp⟩
  obtain ⟨a1, a2, l, a3, a4⟩ := runTo_ok hE ts _ σ' t hJ hts h
  have hl : (t :: ts).getLast (by simp) = ts.getLast hne := List.getLast_cons hne
  rw [hl] at a1 a2
  simp only [List.nil_append] at a3
  subst a3
  exact ⟨a1.sorted, a1.bound, a1.disc, a1.good, a1.at', a2 hne, by simpa [known, foundIn] using a4⟩

/-- Times of all propagations of an event. -/
def allTimes (steps : List (List T × T)) : List T := steps.flatMap fun p => p.1 ++ [p.2]

theorem timestep_ok {E : Env T R L W} (hE : Fair E)
    {H : StdHeap (cmp (Act.time (T := T) (R := R) (L := L)))} {fuel : Nat} {outs : List T}
    {e t₀ t : T} {σ σ' : Sys T R L W}
    (hat : AllAt t σ.parts) (h0 : t₀ ≤ t)
    (hsorted : (σ.log.map fun e => e.queued.time).Pairwise (· ≤ ·))
    (hbound : ∀ e ∈ σ.log, t₀ ≤ e.queued.time ∧ e.queued.time ≤ t)
    (hdisc : ∀ e ∈ σ.log, e.outcome = .discarded →
      ∃ p ∈ e.queued.incoming, isValid e.before p = false)
    (hgood : ∀ e ∈ σ.log, e.outcome ≠ .discarded → GoodEntry e)
    (hts : (t :: (outs ++ [e])).Pairwise (· ≤ ·))
    (h : timestep E H fuel outs e σ = .ok σ') :
    AllAt e σ'.parts ∧ t₀ ≤ e ∧ (σ'.log.map fun e => e.queued.time).Pairwise (· ≤ ·) ∧
    (∀ x ∈ σ'.log, t₀ ≤ x.queued.time ∧ x.queued.time ≤ e) ∧
    (∀ e ∈ σ'.log, e.outcome = .discarded →
      ∃ p ∈ e.queued.incoming, isValid e.before p = false) ∧
    (∀ e ∈ σ'.log, e.outcome ≠ .discarded → GoodEntry e) ∧
    (∀ a ∈ σ'.queue, e < a.time) ∧ ∃ l, σ'.log = σ.log ++ l := by
  unfold timestep at h
  simp only at h
  cases h1 : runTo E H fuel e (outs ++ [e])
      { σ with queue := insertList Act.time H [] (E.search σ.world σ.parts e).1,
               world := (E.search σ.world σ.parts e).2 } with
  | error x => rw [h1] at h; cases h
  | ok σ₁ =>
    rw [h1] at h
    simp only [Except.ok.injEq] at h
    obtain ⟨i1, i2⟩ := insertList_heap Act.time H (E.search σ.world σ.parts e).1
      (isHeap_nil Act.time)
    have hJ : J H t₀ t t ({ σ with
        queue := insertList Act.time H [] (E.search σ.world σ.parts e).1,
        world := (E.search σ.world σ.parts e).2 } : Sys T R L W) := by
      refine ⟨hat, le_refl _, h0, i1, ?_, hsorted, hbound, hdisc, hgood⟩
      intro b hb
      have := i2.subset hb
      simp only [List.nil_append] at this
      exact hE.search _ _ _ _ hat b this
    obtain ⟨a1, a2, l, a3, a4⟩ := runTo_ok hE _ _ σ₁ t hJ hts h1
    have hl : (t :: (outs ++ [e])).getLast (by simp) = e := by
      rw [List.getLast_cons (by simp), List.getLast_append_singleton]
    rw [hl] at a1 a2
    subst h
    exact ⟨hE.adjust _ _ _ a1.at', a1.start, a1.sorted, a1.bound, a1.disc, a1.good,
      a2 (by simp), l, a3⟩

/-- C46, whole evolution: over any number of timesteps with any output times in them,
actions are executed in the order of their times, never before the start, never after
the end, each with valid incoming particles and all particles at its time; afterwards
all particles are at the end of the last timestep. -/
theorem C46_event {E : Env T R L W} (hE : Fair E)
    (H : StdHeap (cmp (Act.time (T := T) (R := R) (L := L)))) (fuel : Nat)
    (steps : List (List T × T)) (t : T) (σ σ' : Sys T R L W) (hlog : σ.log = [])
    (hat : AllAt t σ.parts) (hts : (t :: allTimes steps).Pairwise (· ≤ ·))
    (h : evolve E H fuel steps σ = .ok σ') :
    (σ'.log.map fun e => e.queued.time).Pairwise (· ≤ ·) ∧
    (∀ e ∈ σ'.log, t ≤ e.queued.time ∧
      e.queued.time ≤ (t :: allTimes steps).getLast (by simp)) ∧
    (∀ e ∈ σ'.log, e.outcome = .discarded → ∃ p ∈ e.queued.incoming, isValid e.before p = false) ∧
    (∀ e ∈ σ'.log, e.outcome ≠ .discarded → GoodEntry e) ∧
    AllAt ((t :: allTimes steps).getLast (by simp)) σ'.parts := by
  have key : ∀ (steps : List (List T × T)) (u : T) (σ : Sys T R L W), AllAt u σ.parts → t ≤ u →
      (σ.log.map fun e => e.queued.time).Pairwise (· ≤ ·) →
      (∀ e ∈ σ.log, t ≤ e.queued.time ∧ e.queued.time ≤ u) →
      (∀ e ∈ σ.log, e.outcome = .discarded →
        ∃ p ∈ e.queued.incoming, isValid e.before p = false) →
      (∀ e ∈ σ.log, e.outcome ≠ .discarded → GoodEntry e) →
      (u :: allTimes steps).Pairwise (· ≤ ·) → evolve E H fuel steps σ = .ok σ' →
      (σ'.log.map fun e => e.queued.time).Pairwise (· ≤ ·) ∧
      (∀ e ∈ σ'.log, t ≤ e.queued.time ∧
        e.queued.time ≤ (u :: allTimes steps).getLast (by simp)) ∧
      (∀ e ∈ σ'.log, e.outcome = .discarded →
        ∃ p ∈ e.queued.incoming, isValid e.before p = false) ∧
      (∀ e ∈ σ'.log, e.outcome ≠ .discarded → GoodEntry e) ∧
      AllAt ((u :: allTimes steps).getLast (by simp)) σ'.parts := by
    clear h hts hat hlog σ steps
    intro steps
    induction steps with
    | nil =>
      intro u σ c1 c2 c3 c4 c5 c6 _ h
      simp only [evolve, Except.ok.injEq] at h
      subst h
      exact ⟨c3, by simpa [allTimes] using c4, c5, c6, by simpa [allTimes] using c1⟩
    | cons p rest ih =>
      intro u σ c1 c2 c3 c4 c5 c6 hts h
      obtain ⟨outs, e⟩ := p
      rw [evolve] at h
      cases h1 : timestep E H fuel outs e σ with
      | error x => rw [h1] at h; cases h
      | ok σ₁ =>
        rw [h1] at h
        simp only at h
        have hcons : allTimes ((outs, e) :: rest) = (outs ++ [e]) ++ allTimes rest := by
          simp [allTimes]
        have hsplit : u :: allTimes ((outs, e) :: rest) =
            (u :: outs) ++ (e :: allTimes rest) := by
          rw [hcons]; simp
        have hp1 : (u :: (outs ++ [e])).Pairwise (· ≤ ·) := by
          rw [hcons, ← List.cons_append] at hts
          exact (List.pairwise_append.1 hts).1
        have hp2 : (e :: allTimes rest).Pairwise (· ≤ ·) := by
          rw [hsplit] at hts
          exact (List.pairwise_append.1 hts).2.1
        obtain ⟨d1, d2, d3, d4, d5, d6, _, _⟩ := timestep_ok hE c1 c2 c3 c4 c5 c6 hp1 h1
        have := ih e σ₁ d1 d2 d3 d4 d5 d6 hp2 h
        have hl : (u :: allTimes ((outs, e) :: rest)).getLast (by simp) =
            (e :: allTimes rest).getLast (by simp) := by
          have : ∀ (a b : List T) (hb : b ≠ []) (hab : a ++ b ≠ []),
            (a ++ b).getLast hab = b.getLast hb := fun a b hb hab =>
              List.getLast_append_of_ne_nil hab hb
          simp only [hsplit]
          exact this _ _ _ _
        rw [hl]
        exact this
  refine key steps t σ hat (le_refl _) ?_ ?_ ?_ ?_ hts h <;> simp [hlog]

/-! ### A concrete case -/

/-- A world in which every attempted action is performed (marking its first incoming
particle as having interacted) and an action one unit later is found, up to time 3. -/
def exEnv : Env Nat Unit Unit Unit where
  move := fun _ d => d.pay.rest
  attempt := fun w a s =>
    match a.incoming with
    | [] => (none, w)
    | p :: _ => (some ({ s with data := fun i => if i = p.index then
        { s.data i with proc := (s.data i).proc + 1 } else s.data i },
        [{ p with proc := p.proc + 1 }]), w)
  find := fun w a out _ _ => (if a.time < 3 then [⟨a.time + 1, out, ()⟩] else [], w)
  search := fun w s _ => (if 0 < s.size ∧ (s.data 0).hole = false then
    [⟨(s.data 0).pay.time, [s.data 0], ()⟩, ⟨(s.data 0).pay.time + 1, [s.data 0], ()⟩] else [], w)
  adjust := fun w s => (s, w)

theorem exEnv_fair : Fair exEnv := by
  constructor
  · intro w a s s' out w' hat h
    simp only [exEnv] at h
    cases hi : a.incoming with
    | nil => rw [hi] at h; simp at h
    | cons p l =>
      rw [hi] at h
      simp only [Prod.mk.injEq, Option.some.injEq] at h
      obtain ⟨⟨rfl, _⟩, _⟩ := h
      intro i h1 h2
      simp only at h1 h2 ⊢
      split_ifs with hc
      · rw [if_pos hc] at h2; exact hat i h1 h2
      · rw [if_neg hc] at h2; exact hat i h1 h2
  · intro w a out s e _ b hb
    simp only [exEnv] at hb
    split_ifs at hb
    · simp only [List.mem_singleton] at hb; subst hb; simp
    · simp at hb
  · intro w s e t hat b hb
    simp only [exEnv] at hb
    split_ifs at hb with hc
    · have := hat 0 hc.1 hc.2
      simp only [List.mem_cons, List.not_mem_nil, or_false] at hb
      rcases hb with rfl | rfl <;> simp [this]
    · simp at hb
  · intro w s t h; exact h

/-- One particle at time 0. -/
def exParts : State (Pay Nat Unit) :=
  { data := fun i => ⟨i, i, false, 0, 0, ⟨0, ()⟩⟩, cap := 100, size := 1, dirty := [], idMax := 0 }

example : AllAt 0 exParts := by intro i _ _; rfl

/-- A heap implementation by insertion sort. -/
def insHeap : StdHeap (cmp (Act.time (T := Nat) (R := Unit) (L := Unit))) where
  makeHeap := List.insertionSort (fun a b => a.time ≤ b.time)
  pushHeap := List.insertionSort (fun a b => a.time ≤ b.time)
  popHeap
    | [] => []
    | x :: l => l.insertionSort (fun a b => a.time ≤ b.time) ++ [x]
  make_perm := fun l => List.perm_insertionSort _ l
  make_heap := fun l => sorted_isHeap _ (insSorted l)
  push_perm := fun l => List.perm_insertionSort _ l
  push_heap := fun l x _ => sorted_isHeap _ (insSorted _)
  pop_perm := fun l => by
    cases l with
    | nil => exact List.Perm.refl _
    | cons x l =>
      exact (List.perm_append_singleton x _).trans ((List.perm_insertionSort _ l).cons x)
  pop_heap := fun l _ => by
    cases l with
    | nil => exact isHeap_nil _
    | cons x l => simpa using sorted_isHeap _ (insSorted l)
  pop_last := fun x l _ => by simp
where
  insSorted (l : List (Act Nat Unit Unit)) :
      (l.insertionSort (fun a b => a.time ≤ b.time)).Pairwise (fun a b => a.time ≤ b.time) := by
    haveI : Std.Total (fun a b : Act Nat Unit Unit => a.time ≤ b.time) := ⟨fun a b => le_total _ _⟩
    haveI : IsTrans (Act Nat Unit Unit) (fun a b => a.time ≤ b.time) := ⟨fun a b c => le_trans⟩
    exact List.pairwise_insertionSort _ l

/-- Two timesteps, the first with an output time in it: the particle interacts at
times 0, 1 and 2; one action made before its first interaction is discarded; the same
happens in the second timestep. -/
example : (match evolve exEnv insHeap 20 [([1], 2), ([], 3)] ⟨exParts, [], (), 0, []⟩ with
    | .ok σ' => σ'.log.map fun (e : Entry Nat Unit Unit) => (e.queued.time, e.outcome)
    | .error _ => []) =
      [(0, .performed), (1, .discarded), (1, .performed), (2, .performed), (2, .performed),
        (3, .discarded), (3, .performed)] := by decide +kernel

end Verif.Exp
