import Verif.Scat.Dist
import Mathlib.Data.List.Nodup
import Mathlib.Tactic.Tauto
/-! C53: which collisions are proposed. -/
namespace Verif.Scat
open Verif.Kin

/-! ### Which lists of particles are examined -/

/-- The ids strictly increase along the list: the particles are different and each set of particles
has only one such list. -/
def Increasing (l : List P) : Prop := (l.map (·.id)).Pairwise (· < ·)

/-- The particles have different ids. -/
def DistinctIds (l : List P) : Prop := (l.map (·.id)).Nodup

/-- The reactions that are switched on for a number of incoming particles. -/
def Enabled (e : Env) (l : List P) : Prop :=
  l.length = 2 ∨
  (l.length = 3 ∧ (e.deuteron32 = true ∨ e.meson31 = true)) ∨
  (l.length = 4 ∧ e.a342 = true) ∨
  (l.length = 5 ∧ e.nnbar52 = true ∧ ∀ p ∈ l, p.isPion = true)

theorem mem_ite_single {α : Type} {c : Prop} [Decidable c] {l x : α} :
    (l ∈ if c then [x] else []) ↔ c ∧ l = x := by
  split <;> simp_all

theorem mem_ite_nil {α : Type} {c : Prop} [Decidable c] {l : α} {x : List α} :
    (l ∈ if c then x else []) ↔ c ∧ l ∈ x := by
  split <;> simp_all

theorem mem_cell (e : Env) (s : List P) (l : List P) :
    l ∈ cellCandidates e s ↔ (∀ p ∈ l, p ∈ s) ∧ Increasing l ∧ Enabled e l := by
  unfold cellCandidates
  simp only [List.mem_flatMap, List.mem_append, mem_ite_nil, List.mem_singleton]
  constructor
  · rintro ⟨p1, h1, p2, h2, h⟩
    rcases h with ⟨h, rfl⟩ | ⟨hm, p3, h3, h⟩
    · simp [Increasing, Enabled, h1, h2, h]
    rcases h with ⟨⟨hd, h12, h23⟩, rfl⟩ | ⟨p4, h4, h⟩
    · have hd' : e.deuteron32 = true ∨ e.meson31 = true := by simpa using hd
      have := Int.lt_trans h12 h23
      simp [Increasing, Enabled, h1, h2, h3, h12, h23, this, hd']
    rcases h with ⟨⟨hd, h12, h23, h34⟩, rfl⟩ | ⟨⟨hd, -⟩, p5, h5, ⟨⟨h12, h23, h34, h45⟩, hp⟩, rfl⟩
    · have a := Int.lt_trans h12 h23
      have b := Int.lt_trans a h34
      have c := Int.lt_trans h23 h34
      simp [Increasing, Enabled, h1, h2, h3, h4, h12, h23, h34, a, b, c, hd]
    · have a := Int.lt_trans h12 h23
      have b := Int.lt_trans a h34
      have c := Int.lt_trans h23 h34
      have d := Int.lt_trans b h45
      have d' := Int.lt_trans c h45
      have d'' := Int.lt_trans h34 h45
      simp [Increasing, Enabled, h1, h2, h3, h4, h5, h12, h23, h34, h45, a, b, c, d, d', d'', hd,
        hp]
  · rintro ⟨hs, hi, he⟩
    rcases he with hl | ⟨hl, hd⟩ | ⟨hl, hd⟩ | ⟨hl, hd, hp⟩
    · obtain ⟨p1, p2, rfl⟩ := List.length_eq_two.1 hl
      simp [Increasing] at hi hs
      exact ⟨p1, hs.1, p2, hs.2, .inl ⟨hi, rfl⟩⟩
    · obtain ⟨p1, p2, p3, rfl⟩ := List.length_eq_three.1 hl
      simp [Increasing] at hi hs
      refine ⟨p1, hs.1, p2, hs.2.1, .inr ⟨?_, p3, hs.2.2, .inl ⟨⟨?_, hi.1.1, hi.2⟩, rfl⟩⟩⟩
      · rcases hd with h | h <;> simp [h]
      · rcases hd with h | h <;> simp [h]
    · match l, hl with
      | [p1, p2, p3, p4], _ =>
        simp [Increasing] at hi hs
        refine ⟨p1, hs.1, p2, hs.2.1, .inr ⟨by simp [hd], p3, hs.2.2.1, .inr ⟨p4, hs.2.2.2,
          .inl ⟨⟨hd, hi.1.1, hi.2.1.1, hi.2.2⟩, rfl⟩⟩⟩⟩
    · have hlen : s.length ≥ 5 := by
        have hnd : l.Nodup := by
          refine List.Nodup.of_map (fun p : P => p.id) ?_
          exact hi.imp (fun h => ne_of_lt h)
        have := (hnd.subperm (fun p hp => hs p hp)).length_le
        omega
      match l, hl with
      | [p1, p2, p3, p4, p5], _ =>
        simp [Increasing] at hi hs hp
        refine ⟨p1, hs.1, p2, hs.2.1, .inr ⟨by simp [hd], p3, hs.2.2.1, .inr ⟨p4, hs.2.2.2.1,
          .inr ⟨⟨hd, hlen⟩, p5, hs.2.2.2.2, ⟨⟨hi.1.1, hi.2.1.1, hi.2.2.1.1, hi.2.2.2⟩, hp⟩, rfl⟩⟩⟩⟩

theorem nodup_flatMap_key {s : List P} {f : P → List (List P)} (n : Nat) (hs : s.Nodup)
    (hf : ∀ x ∈ s, (f x).Nodup) (hk : ∀ x l, l ∈ f x → l[n]? = some x) :
    (s.flatMap f).Nodup := by
  rw [List.nodup_flatMap]
  refine ⟨hf, hs.imp ?_⟩
  intro a b hab l hla hlb
  have h1 := hk a l hla
  have h2 := hk b l hlb
  rw [h1] at h2
  exact hab (Option.some.inj h2)

theorem nodup_ite {α : Type} {c : Prop} [Decidable c] {x : List α} (h : x.Nodup) :
    (if c then x else []).Nodup := by
  split <;> simp_all

theorem nodup_cell (e : Env) (s : List P) (h : DistinctIds s) : (cellCandidates e s).Nodup := by
  have hs : s.Nodup := List.Nodup.of_map _ h
  unfold cellCandidates
  refine nodup_flatMap_key 0 hs (fun p1 _ => nodup_flatMap_key 1 hs (fun p2 _ => ?_) ?_) ?_
  · rw [List.nodup_append]
    refine ⟨nodup_ite (List.nodup_singleton _), nodup_ite ?_, ?_⟩
    · refine nodup_flatMap_key 2 hs (fun p3 _ => ?_) ?_
      · rw [List.nodup_append]
        refine ⟨nodup_ite (List.nodup_singleton _), ?_, ?_⟩
        · refine nodup_flatMap_key 3 hs (fun p4 _ => ?_) ?_
          · rw [List.nodup_append]
            refine ⟨nodup_ite (List.nodup_singleton _), nodup_ite ?_, ?_⟩
            · refine nodup_flatMap_key 4 hs (fun p5 _ => nodup_ite (List.nodup_singleton _)) ?_
              intro p5 l hl
              rw [mem_ite_single] at hl
              rw [hl.2]; rfl
            · intro a ha b hb
              simp only [List.mem_flatMap, mem_ite_nil, List.mem_singleton] at ha hb
              obtain ⟨-, p5, -, -, rfl⟩ := hb
              rw [ha.2]
              simp
          · intro p4 l hl
            simp only [List.mem_flatMap, List.mem_append, mem_ite_nil, List.mem_singleton] at hl
            rcases hl with ⟨-, rfl⟩ | ⟨-, p5, -, -, rfl⟩ <;> rfl
        · intro a ha b hb
          simp only [List.mem_flatMap, List.mem_append, mem_ite_nil, List.mem_singleton] at ha hb
          rw [ha.2]
          rcases hb with ⟨p4, -, ⟨-, rfl⟩ | ⟨-, p5, -, -, rfl⟩⟩ <;> simp
      · intro p3 l hl
        simp only [List.mem_flatMap, List.mem_append, mem_ite_nil, List.mem_singleton] at hl
        rcases hl with ⟨-, rfl⟩ | ⟨p4, -, ⟨-, rfl⟩ | ⟨-, p5, -, -, rfl⟩⟩ <;> rfl
    · intro a ha b hb
      simp only [List.mem_flatMap, List.mem_append, mem_ite_nil, List.mem_singleton] at ha hb
      rw [ha.2]
      rcases hb with ⟨-, p3, -, ⟨-, rfl⟩ | ⟨p4, -, ⟨-, rfl⟩ | ⟨-, p5, -, -, rfl⟩⟩⟩ <;> simp
  · intro p2 l hl
    simp only [List.mem_flatMap, List.mem_append, mem_ite_nil, List.mem_singleton] at hl
    rcases hl with ⟨-, rfl⟩ | ⟨-, p3, -, ⟨-, rfl⟩ | ⟨p4, -, ⟨-, rfl⟩ | ⟨-, p5, -, -, rfl⟩⟩⟩ <;> rfl
  · intro p1 l hl
    simp only [List.mem_flatMap, List.mem_append, mem_ite_nil, List.mem_singleton] at hl
    rcases hl with ⟨p2, -, ⟨-, rfl⟩ | ⟨-, p3, -, ⟨-, rfl⟩ | ⟨p4, -, ⟨-, rfl⟩ | ⟨-, p5, -, -, rfl⟩⟩⟩⟩
      <;> rfl

/-- **C53**, the lists examined in a cell: exactly the sets of different particles of the cell for
which a reaction is switched on, each exactly once. -/
theorem C53_candidates (e : Env) (s : List P) (h : DistinctIds s) :
    (cellCandidates e s).Nodup ∧
    ∀ l, l ∈ cellCandidates e s ↔ (∀ p ∈ l, p ∈ s) ∧ Increasing l ∧ Enabled e l :=
  ⟨nodup_cell e s h, mem_cell e s⟩

/-! ### What is done with them -/

theorem collect_ok (e : Env) (beam : List V4) (dt vol : ℝ) (ls : List (List P)) (acts : List Act) :
    collect e beam dt vol ls = .ok acts ↔
    (∀ l ∈ ls, ∃ r, check e beam dt vol l = .ok r) ∧
    acts = ls.filterMap (fun l => (check e beam dt vol l).toOption.join) := by
  induction ls generalizing acts with
  | nil =>
    simp only [collect, List.filterMap_nil]
    constructor
    · intro h; cases h; simp
    · rintro ⟨-, rfl⟩; rfl
  | cons l ls ih =>
    simp only [collect]
    cases hc : check e beam dt vol l with
    | error x =>
      simp only [Except.bind]
      constructor
      · intro h; cases h
      · rintro ⟨h, -⟩
        obtain ⟨r, hr⟩ := h l (by simp)
        rw [hc] at hr; cases hr
    | ok r =>
      simp only [Except.bind]
      cases hr : collect e beam dt vol ls with
      | error x =>
        simp only
        constructor
        · intro h; cases h
        · rintro ⟨h, rfl⟩
          have := (ih _).2 ⟨fun l' hl' => h l' (List.mem_cons_of_mem _ hl'), rfl⟩
          rw [hr] at this; cases this
      | ok rest =>
        have := (ih rest).1 hr
        simp only [Except.ok.injEq]
        rw [List.filterMap_cons, hc]
        simp only [Except.toOption, Option.join_some]
        constructor
        · rintro rfl
          refine ⟨fun l' hl' => ?_, ?_⟩
          · rcases List.mem_cons.1 hl' with rfl | h'
            · exact ⟨r, hc⟩
            · exact this.1 l' h'
          · rw [this.2]
            cases r <;> rfl
        · rintro ⟨-, rfl⟩
          rw [this.2]
          cases r <;> rfl

theorem decide_some {e : Env} {prob : Option ℝ} {act a : Act}
    (h : decide e prob act = .ok (some a)) : a = act ∧ ¬ Gt (e.draw act.incoming) prob := by
  unfold decide at h
  split at h
  · cases h
  · split at h
    · cases h
    · rename_i h2
      cases h
      exact ⟨rfl, h2⟩

theorem checkTwo_incoming {e : Env} {beam : List V4} {a b : P} {dt vol : ℝ} {act : Act}
    (h : checkTwo e beam a b dt vol = .ok (some act)) : act.incoming = [a, b] := by
  unfold checkTwo at h
  split at h
  · cases h
  split at h
  · cases h
  cases hc : collisionTime e beam a b dt with
  | error x => rw [hc] at h; cases h
  | ok t =>
    rw [hc] at h
    simp only [Except.bind, afterTime] at h
    split at h
    · cases h
    split at h
    · cases h
    split at h
    · rw [(decide_some h).1]
    split at h
    · cases h
    split at h
    · cases h
    · cases h; rfl

theorem check_incoming {e : Env} {beam : List V4} {l : List P} {dt vol : ℝ} {act : Act}
    (h : check e beam dt vol l = .ok (some act)) : act.incoming = l := by
  have hm : ∀ l', checkMulti e l' dt vol = .ok (some act) → act.incoming = l' := by
    intro l' h
    unfold checkMulti at h
    split at h
    · cases h
    split at h
    · cases h
    rw [(decide_some h).1]
  unfold check at h
  split at h
  · exact checkTwo_incoming h
  · exact hm _ h

theorem filterMap_incoming_sublist (e : Env) (beam : List V4) (dt vol : ℝ) (ls : List (List P)) :
    ((ls.filterMap (fun l => (check e beam dt vol l).toOption.join)).map (·.incoming)).Sublist
      ls := by
  induction ls with
  | nil => simp
  | cons l ls ih =>
    rw [List.filterMap_cons]
    cases hc : (check e beam dt vol l).toOption.join with
    | none => exact ih.trans (List.sublist_cons_self l ls)
    | some act =>
      have : check e beam dt vol l = .ok (some act) := by
        cases hx : check e beam dt vol l with
        | error x => rw [hx] at hc; cases hc
        | ok r => rw [hx] at hc; simp only [Except.toOption, Option.join_some] at hc; rw [hc]
      simp only [List.map_cons]
      rw [check_incoming this]
      exact ih.cons₂ l

/-- **C53**, in a cell: the proposed collisions have different sets of incoming particles, each a
set of different particles of the cell for which a reaction is switched on; every such set is
proposed exactly if its check succeeds. -/
theorem C53_cell (e : Env) (s : List P) (dt vol : ℝ) (beam : List V4) (acts : List Act)
    (h : DistinctIds s) (hf : findInCell e s dt vol beam = .ok acts) :
    (acts.map (·.incoming)).Nodup ∧
    (∀ act ∈ acts, (∀ p ∈ act.incoming, p ∈ s) ∧ Increasing act.incoming ∧
      Enabled e act.incoming) ∧
    ∀ l, (∀ p ∈ l, p ∈ s) → Increasing l → Enabled e l →
      ∀ act, (act ∈ acts ∧ act.incoming = l) ↔ check e beam dt vol l = .ok (some act) := by
  obtain ⟨hok, rfl⟩ := (collect_ok _ _ _ _ _ _).1 hf
  have hj : ∀ l act, (check e beam dt vol l).toOption.join = some act ↔
      check e beam dt vol l = .ok (some act) := by
    intro l act
    cases hx : check e beam dt vol l with
    | error x => simp [Except.toOption]
    | ok r => simp [Except.toOption]
  refine ⟨(nodup_cell e s h).sublist (filterMap_incoming_sublist e beam dt vol _), ?_, ?_⟩
  · intro act ha
    obtain ⟨l, hl, hc⟩ := List.mem_filterMap.1 ha
    rw [check_incoming ((hj l act).1 hc)]
    exact (mem_cell e s l).1 hl
  · intro l h1 h2 h3 act
    constructor
    · rintro ⟨ha, rfl⟩
      obtain ⟨l, hl, hc⟩ := List.mem_filterMap.1 ha
      have := (hj l act).1 hc
      rw [check_incoming this]
      exact this
    · intro hc
      exact ⟨List.mem_filterMap.2 ⟨l, (mem_cell e s l).2 ⟨h1, h2, h3⟩, (hj l act).2 hc⟩,
        check_incoming hc⟩

/-- **C53**, between neighbouring cells: nothing with the stochastic criterion, otherwise every
pair of one particle from each cell, each exactly once. -/
theorem C53_neighbors (e : Env) (s n : List P) (hs : DistinctIds (s ++ n)) :
    (neighborCandidates e s n).Nodup ∧
    ∀ l, l ∈ neighborCandidates e s n ↔
      e.crit ≠ .stochastic ∧ ∃ a ∈ s, ∃ b ∈ n, l = [a, b] ∧ a.id ≠ b.id := by
  have hd : ∀ a ∈ s, ∀ b ∈ n, a.id ≠ b.id := by
    intro a ha b hb
    unfold DistinctIds at hs
    rw [List.map_append, List.nodup_append] at hs
    exact hs.2.2 _ (List.mem_map_of_mem ha) _ (List.mem_map_of_mem hb)
  have hsn : s.Nodup ∧ n.Nodup := by
    have := List.Nodup.of_map _ hs
    rw [List.nodup_append] at this
    exact ⟨this.1, this.2.1⟩
  unfold neighborCandidates
  by_cases hc : e.crit = .stochastic
  · rw [if_pos hc]
    simp [hc]
  rw [if_neg hc]
  constructor
  · refine nodup_flatMap_key 0 hsn.1 (fun a _ => ?_) ?_
    · refine hsn.2.map ?_
      intro x y hxy
      simpa using hxy
    · intro x l hl
      obtain ⟨b, -, rfl⟩ := List.mem_map.1 hl
      rfl
  · intro l
    simp only [List.mem_flatMap, List.mem_map]
    constructor
    · rintro ⟨a, ha, b, hb, rfl⟩
      exact ⟨hc, a, ha, b, hb, rfl, hd a ha b hb⟩
    · rintro ⟨-, a, ha, b, hb, rfl, -⟩
      exact ⟨a, ha, b, hb, rfl⟩

/-- **C53**, for particles just produced: nothing with the stochastic criterion, otherwise every
pair of a produced particle and a particle of the system that is not a produced one, each exactly
once. -/
theorem C53_surrounding (e : Env) (s n : List P) (hs : DistinctIds s) (hn : DistinctIds n) :
    (surroundingCandidates e s n).Nodup ∧
    ∀ l, l ∈ surroundingCandidates e s n ↔
      e.crit ≠ .stochastic ∧ ∃ a ∈ s, ∃ b ∈ n, l = [a, b] ∧ ∀ c ∈ s, c.id ≠ b.id := by
  unfold surroundingCandidates
  by_cases hc : e.crit = .stochastic
  · rw [if_pos hc]
    simp [hc]
  rw [if_neg hc]
  have hnn : n.Nodup := List.Nodup.of_map _ hn
  have hss : s.Nodup := List.Nodup.of_map _ hs
  constructor
  · refine nodup_flatMap_key 1 hnn (fun b _ => ?_) ?_
    · split
      · simp
      · refine hss.map ?_
        intro x y hxy
        simpa using hxy
    · intro b l hl
      split at hl
      · simp at hl
      · obtain ⟨a, -, rfl⟩ := List.mem_map.1 hl
        rfl
  · intro l
    simp only [List.mem_flatMap]
    constructor
    · rintro ⟨b, hb, hl⟩
      split at hl
      · simp at hl
      · rename_i hany
        obtain ⟨a, ha, rfl⟩ := List.mem_map.1 hl
        refine ⟨hc, a, ha, b, hb, rfl, fun c hcs heq => hany ?_⟩
        exact List.any_eq_true.2 ⟨c, hcs, by simpa using heq⟩
    · rintro ⟨-, a, ha, b, hb, rfl, hall⟩
      refine ⟨b, hb, ?_⟩
      rw [if_neg]
      · exact List.mem_map_of_mem ha
      · intro hany
        obtain ⟨c, hcs, heq⟩ := List.any_eq_true.1 hany
        exact hall c hcs (by simpa using heq)

/-! ### When the check of a pair succeeds -/

/-- Two nucleons of the same initial nucleus that did not interact yet. -/
def UntouchedSameNucleus (a b : P) : Prop :=
  (a.belongs = .projectile ∧ b.belongs = .projectile ∨ a.belongs = .target ∧ b.belongs = .target) ∧
  a.ncoll = 0 ∧ b.ncoll = 0

theorem banned_iff (e : Env) (a b : P) :
    banned e a b = true ↔ e.allowWithin = false ∧ UntouchedSameNucleus a b := by
  unfold banned UntouchedSameNucleus
  simp

/-- The last collision of both particles was the same. -/
def JustCollided (a b : P) : Prop := 0 < a.process ∧ a.process = b.process

/-- **C53**, the momentum a particle moves with: the beam momentum for nucleons of the initial
nuclei (the first ids, if beam momenta are given) until they interact, the particle's own momentum
otherwise. -/
theorem C53_moving_momentum (beam : List V4) (p : P) (n : Nat) (hid : p.id = n) :
    (∀ m, p.ncoll = 0 → beam[n]? = some m → usedMom beam p = m) ∧
    (p.ncoll ≠ 0 → usedMom beam p = p.mom) ∧ (beam.length ≤ n → usedMom beam p = p.mom) := by
  have hn : p.id.toNat = n := by omega
  unfold usedMom
  rw [hn]
  refine ⟨fun m h0 hm => ?_, fun h => if_neg (fun hc => h hc.2), fun h => if_neg (by omega)⟩
  have hlt : n < beam.length := by
    by_contra hc
    rw [List.getElem?_eq_none (by omega)] at hm
    cases hm
  rw [if_pos ⟨hlt, h0⟩, List.getD_eq_getElem?_getD, hm]
  rfl

theorem two_geometric (e : Env) (beam : List V4) (a b : P) (dt vol : ℝ) (act : Act)
    (hc : e.crit ≠ .stochastic) :
    checkTwo e beam a b dt vol = .ok (some act) ↔
    ¬ (e.allowWithin = false ∧ UntouchedSameNucleus a b) ∧
    collisionTime e beam a b dt = .ok act.time ∧ act.incoming = [a, b] ∧
    0 ≤ act.time ∧ act.time < dt ∧ distance2 e.crit a b < maxDist2 e ∧ ¬ JustCollided a b ∧
    ¬ Ge (distance2 e.crit a b) ((scaledXs e a b act.time).map fun x => x * (1 / Real.pi)) := by
  unfold checkTwo
  by_cases hb : banned e a b = true
  · rw [if_pos hb]
    rw [banned_iff] at hb
    simp [hb]
  rw [if_neg hb]
  rw [banned_iff] at hb
  have h2 : ¬ (e.crit = .stochastic ∧ vol < reallySmall) := by tauto
  rw [if_neg h2]
  cases ht : collisionTime e beam a b dt with
  | error x => simp [Except.bind]
  | ok t =>
    simp only [Except.bind, afterTime, Except.ok.injEq]
    constructor
    · intro h
      split at h
      · cases h
      rename_i ht'
      split at h
      · cases h
      rename_i hd
      split at h
      · cases h
      rename_i hj
      split at h
      · cases h
      rename_i hg
      cases h
      refine ⟨hb, rfl, rfl, ?_, ?_, ?_, hj, hg⟩
      · by_contra hn
        exact ht' (.inl (not_le.1 hn))
      · by_contra hn
        exact ht' (.inr (not_lt.1 hn))
      · by_contra hn
        exact hd ⟨hc, not_lt.1 hn⟩
    · rintro ⟨-, rfl, hi, h0, hdt, hd, hj, hg⟩
      rw [if_neg (by intro hn; rcases hn with hn | hn <;> linarith),
        if_neg (by intro hn; linarith [hn.2]), if_neg hc,
        if_neg (show ¬ (a.process > 0 ∧ a.process = b.process) from hj), if_neg hg, ← hi]

/-- **C53**, geometric criterion: a pair is proposed exactly if it is not a forbidden pair of the
same nucleus, did not just collide, and approaches closest at a time in `[0, dt)` (with the momenta
it moves with) at a distance whose square times pi is below the cross section and below the largest
cross section. -/
theorem C53_geometric (e : Env) (beam : List V4) (a b : P) (dt vol : ℝ) (act : Act)
    (hc : e.crit = .geometric) (ha : 0 ≤ a.id) (hb : 0 ≤ b.id)
    (h1 : (usedMom beam a).t ≠ 0) (h2 : (usedMom beam b).t ≠ 0)
    (hv : 1 / 1000000 ≤ ((usedMom beam a).t * (usedMom beam b).t) ^ 2 *
      dist2 (vel (usedMom beam a)) (vel (usedMom beam b)))
    (fa fb : ℝ) (hfa : scalingFactor e.power a act.time = some fa)
    (hfb : scalingFactor e.power b act.time = some fb) :
    checkTwo e beam a b dt vol = .ok (some act) ↔
    act.incoming = [a, b] ∧ 0 ≤ act.time ∧ act.time < dt ∧
    Closest a.pos.vec b.pos.vec (vel (usedMom beam a)) (vel (usedMom beam b)) act.time ∧
    ¬ (e.allowWithin = false ∧ UntouchedSameNucleus a b) ∧ ¬ JustCollided a b ∧
    Real.pi * transverseDist2 a.pos b.pos a.mom b.mom < e.maxXs / 10 / e.testparticles ∧
    Real.pi * transverseDist2 a.pos b.pos a.mom b.mom < e.xs a b * fa * fb / 10 / e.testparticles
    := by
  rw [two_geometric e beam a b dt vol act (by rw [hc]; decide)]
  have ht : collisionTime e beam a b dt =
      .ok (geoTime a.pos b.pos (usedMom beam a) (usedMom beam b)) := by
    unfold collisionTime
    rw [if_neg (by rw [hc]; decide), if_neg (by omega), if_neg (by rw [hc]; decide)]
  rw [ht, Except.ok.injEq, C53_geometric_time _ _ _ _ h1 h2 hv]
  have hs : scaledXs e a b act.time = some (e.xs a b * fm2mb / e.testparticles * fa * fb) := by
    unfold scaledXs
    rw [hfa, hfb]; rfl
  have hpi := Real.pi_pos
  have hg : ¬ Ge (distance2 e.crit a b) ((scaledXs e a b act.time).map fun x => x * (1 / Real.pi)) ↔
      Real.pi * transverseDist2 a.pos b.pos a.mom b.mom <
        e.xs a b * fa * fb / 10 / e.testparticles := by
    rw [hs, hc]
    simp only [Ge, Option.map_some, Option.some.injEq, exists_eq_left', distance2, not_le, fm2mb,
      ge_iff_le]
    rw [mul_one_div, lt_div_iff₀ hpi, mul_comm]
    have : e.xs a b * (1 / 10) / (e.testparticles : ℝ) * fa * fb =
        e.xs a b * fa * fb / 10 / (e.testparticles : ℝ) := by ring
    rw [this]
  have hm : distance2 e.crit a b < maxDist2 e ↔
      Real.pi * transverseDist2 a.pos b.pos a.mom b.mom < e.maxXs / 10 / e.testparticles := by
    rw [hc]
    simp only [distance2, maxDist2, fm2mb]
    rw [mul_one_div, lt_div_iff₀ hpi, mul_comm]
    have : e.maxXs / (e.testparticles : ℝ) * (1 / 10) = e.maxXs / 10 / (e.testparticles : ℝ) := by
      ring
    rw [this]
  rw [hg, hm]
  tauto

/-- **C53**, covariant criterion: as above with the covariant time (`C77_covariant_time`) and
distance (`C77_covariant`). -/
theorem C53_covariant (e : Env) (beam : List V4) (a b : P) (dt vol : ℝ) (act : Act)
    (hc : e.crit = .covariant) (ha : 0 ≤ a.id) (hb : 0 ≤ b.id)
    (fa fb : ℝ) (hfa : scalingFactor e.power a act.time = some fa)
    (hfb : scalingFactor e.power b act.time = some fb) :
    checkTwo e beam a b dt vol = .ok (some act) ↔
    act.incoming = [a, b] ∧ 0 ≤ act.time ∧ act.time < dt ∧
    act.time = covTime a.pos b.pos (usedMom beam a) (usedMom beam b) ∧
    ¬ (e.allowWithin = false ∧ UntouchedSameNucleus a b) ∧ ¬ JustCollided a b ∧
    Real.pi * covTransverseDist2 a.pos b.pos a.mom b.mom < e.maxXs / 10 / e.testparticles ∧
    Real.pi * covTransverseDist2 a.pos b.pos a.mom b.mom <
      e.xs a b * fa * fb / 10 / e.testparticles := by
  rw [two_geometric e beam a b dt vol act (by rw [hc]; decide)]
  have ht : collisionTime e beam a b dt =
      .ok (covTime a.pos b.pos (usedMom beam a) (usedMom beam b)) := by
    unfold collisionTime
    rw [if_neg (by rw [hc]; decide), if_neg (by omega), if_pos hc]
  rw [ht, Except.ok.injEq]
  have hs : scaledXs e a b act.time = some (e.xs a b * fm2mb / e.testparticles * fa * fb) := by
    unfold scaledXs
    rw [hfa, hfb]; rfl
  have hpi := Real.pi_pos
  have hg : ¬ Ge (distance2 e.crit a b) ((scaledXs e a b act.time).map fun x => x * (1 / Real.pi)) ↔
      Real.pi * covTransverseDist2 a.pos b.pos a.mom b.mom <
        e.xs a b * fa * fb / 10 / e.testparticles := by
    rw [hs, hc]
    simp only [Ge, Option.map_some, Option.some.injEq, exists_eq_left', distance2, not_le, fm2mb,
      ge_iff_le]
    rw [mul_one_div, lt_div_iff₀ hpi, mul_comm]
    have : e.xs a b * (1 / 10) / (e.testparticles : ℝ) * fa * fb =
        e.xs a b * fa * fb / 10 / (e.testparticles : ℝ) := by ring
    rw [this]
  have hm : distance2 e.crit a b < maxDist2 e ↔
      Real.pi * covTransverseDist2 a.pos b.pos a.mom b.mom < e.maxXs / 10 / e.testparticles := by
    rw [hc]
    simp only [distance2, maxDist2, fm2mb]
    rw [mul_one_div, lt_div_iff₀ hpi, mul_comm]
    have : e.maxXs / (e.testparticles : ℝ) * (1 / 10) = e.maxXs / 10 / (e.testparticles : ℝ) := by
      ring
    rw [this]
  rw [hg, hm]
  constructor
  · rintro ⟨h1, h2, h3⟩; tauto
  · rintro ⟨h1, h2, h3, h4, h5⟩; tauto

/-- **C53**, stochastic criterion: with random numbers in `[0, 1)` a pair is proposed only with
`0 ≤ time < dt`, not within the same untouched nucleus (if disabled), only in a cell of positive
volume, and exactly if the second random number does not exceed the probability
`xs * v_rel * dt / volume`; a probability above one is an error unless only a warning is wanted. -/
theorem C53_stochastic (e : Env) (beam : List V4) (a b : P) (dt vol fa fb : ℝ)
    (hc : e.crit = .stochastic) (hdt : 0 < dt) (hr : 0 ≤ e.drawTime [a, b] ∧ e.drawTime [a, b] < 1)
    (hfa : scalingFactor e.power a (dt * e.drawTime [a, b]) = some fa)
    (hfb : scalingFactor e.power b (dt * e.drawTime [a, b]) = some fb) :
    let prob := e.xs a b * fa * fb / 10 / e.testparticles * relativeVelocity a.mom b.mom * dt / vol
    (∀ act, checkTwo e beam a b dt vol = .ok (some act) ↔
      act = ⟨[a, b], dt * e.drawTime [a, b]⟩ ∧ 0 ≤ act.time ∧ act.time < dt ∧
      ¬ (e.allowWithin = false ∧ UntouchedSameNucleus a b) ∧ 1 / 1000000 ≤ vol ∧
      (prob ≤ 1 ∨ e.warnOnly = true) ∧ e.draw [a, b] ≤ prob) ∧
    (∀ x, checkTwo e beam a b dt vol = .error x ↔
      x = .highProb ∧ ¬ (e.allowWithin = false ∧ UntouchedSameNucleus a b) ∧ 1 / 1000000 ≤ vol ∧
      1 < prob ∧ e.warnOnly = false) := by
  intro prob
  have ht0 : 0 ≤ dt * e.drawTime [a, b] := mul_nonneg hdt.le hr.1
  have ht1 : dt * e.drawTime [a, b] < dt := by nlinarith [hr.2]
  have hs : scaledXs e a b (dt * e.drawTime [a, b]) =
      some (e.xs a b * fm2mb / e.testparticles * fa * fb) := by
    unfold scaledXs
    rw [hfa, hfb]; rfl
  have hprob : ((scaledXs e a b (dt * e.drawTime [a, b])).map
      fun x => x * relativeVelocity a.mom b.mom * dt / vol) = some prob := by
    rw [hs, Option.map_some]
    congr 1
    simp only [prob, fm2mb]
    ring
  classical
  have hval : checkTwo e beam a b dt vol =
      if e.allowWithin = false ∧ UntouchedSameNucleus a b then .ok none
      else if vol < reallySmall then .ok none
      else decide e (some prob) ⟨[a, b], dt * e.drawTime [a, b]⟩ := by
    unfold checkTwo
    by_cases hb : banned e a b = true
    · rw [if_pos hb, if_pos ((banned_iff e a b).1 hb)]
    rw [if_neg hb, if_neg (fun h => hb ((banned_iff e a b).2 h))]
    by_cases hv : vol < reallySmall
    · rw [if_pos ⟨hc, hv⟩, if_pos hv]
    rw [if_neg (fun h => hv h.2), if_neg hv]
    unfold collisionTime
    rw [if_pos hc]
    simp only [Except.bind, afterTime]
    rw [if_neg (by intro hn; rcases hn with hn | hn <;> linarith), if_neg (fun h => h.1 hc),
      if_pos hc, hprob]
  have hdec : ∀ act : Act, decide e (some prob) act =
      if 1 < prob ∧ e.warnOnly = false then .error .highProb
      else if prob < e.draw act.incoming then .ok none else .ok (some act) := by
    intro act
    unfold decide Lt Gt
    simp
  rw [hval, hdec]
  have hvol : vol < reallySmall ↔ ¬ 1 / 1000000 ≤ vol := by unfold reallySmall; exact not_le.symm
  simp only [hvol]
  constructor
  · intro act
    split
    · rename_i h
      constructor
      · intro h'; cases h'
      · rintro ⟨-, -, -, h', -⟩; exact absurd h h'
    rename_i h
    split
    · rename_i h'
      constructor
      · intro h''; cases h''
      · rintro ⟨-, -, -, -, h'', -⟩; exact absurd h'' h'
    rename_i h'
    split
    · rename_i hp
      constructor
      · intro h''; cases h''
      · rintro ⟨-, -, -, -, -, h'', -⟩
        rcases h'' with h'' | h''
        · linarith [hp.1]
        · rw [hp.2] at h''; cases h''
    rename_i hp
    split
    · rename_i hd
      constructor
      · intro h''; cases h''
      · rintro ⟨-, -, -, -, -, -, h''⟩
        exact absurd hd (not_lt.2 h'')
    rename_i hd
    constructor
    · intro h''
      cases h''
      refine ⟨rfl, ht0, ht1, h, not_not.1 h', ?_, not_lt.1 hd⟩
      by_contra hn
      push Not at hn
      exact hp ⟨hn.1, by simpa using hn.2⟩
    · rintro ⟨rfl, -⟩; rfl
  · intro x
    split
    · rename_i h
      constructor
      · intro h'; cases h'
      · rintro ⟨-, h', -⟩; exact absurd h h'
    rename_i h
    split
    · rename_i h'
      constructor
      · intro h''; cases h''
      · rintro ⟨-, -, h'', -⟩; exact absurd h'' h'
    rename_i h'
    split
    · rename_i hp
      constructor
      · intro h''; cases h''; exact ⟨rfl, h, not_not.1 h', hp⟩
      · rintro ⟨rfl, -⟩; rfl
    · rename_i hp
      constructor
      · intro h''
        split at h'' <;> cases h''
      · rintro ⟨-, -, -, h''⟩; exact absurd h'' hp

/-- **C53**, more than two particles: proposed with `0 ≤ time < dt`, not if all are untouched
nucleons of the same nucleus (if disabled), and exactly if the random number does not exceed
`weight / testparticles ^ (n - 1)`. -/
theorem C53_multi (e : Env) (l : List P) (dt vol : ℝ) (hdt : 0 < dt)
    (hr : 0 ≤ e.drawTime l ∧ e.drawTime l < 1) (act : Act) :
    checkMulti e l dt vol = .ok (some act) ↔
    act = ⟨l, dt * e.drawTime l⟩ ∧ 0 ≤ act.time ∧ act.time < dt ∧
    (e.allowWithin = true ∨ (∃ p ∈ l, p.ncoll ≠ 0) ∨
      (∃ p ∈ l, p.belongs ≠ .projectile) ∧ (∃ p ∈ l, p.belongs ≠ .target)) ∧
    1 / 1000000 ≤ vol ∧
    (e.weight l / (e.testparticles : ℝ) ^ (l.length - 1) ≤ 1 ∨ e.warnOnly = true) ∧
    e.draw l ≤ e.weight l / (e.testparticles : ℝ) ^ (l.length - 1) := by
  have ht0 : 0 ≤ dt * e.drawTime l := mul_nonneg hdt.le hr.1
  have ht1 : dt * e.drawTime l < dt := by nlinarith [hr.2]
  unfold checkMulti
  have hban : (e.allowWithin = false ∧
      ((l.all (·.belongs == .projectile) || l.all (·.belongs == .target)) &&
        l.all (·.ncoll == 0)) = true) ↔ ¬ (e.allowWithin = true ∨ (∃ p ∈ l, p.ncoll ≠ 0) ∨
      (∃ p ∈ l, p.belongs ≠ .projectile) ∧ (∃ p ∈ l, p.belongs ≠ .target)) := by
    push Not
    simp only [Bool.and_eq_true, Bool.or_eq_true, List.all_eq_true, beq_iff_eq, ne_eq,
      Bool.not_eq_true]
    constructor
    · rintro ⟨h1, h2, h3⟩
      refine ⟨h1, h3, ?_⟩
      rintro ⟨p, hp, hne⟩
      rcases h2 with h2 | h2
      · exact absurd (h2 p hp) hne
      · exact h2
    · rintro ⟨h1, h3, h2⟩
      refine ⟨h1, ?_, h3⟩
      by_cases hq : ∀ p ∈ l, p.belongs = .projectile
      · exact .inl hq
      · push Not at hq
        exact .inr (h2 hq)
  by_cases hb : (e.allowWithin = true ∨ (∃ p ∈ l, p.ncoll ≠ 0) ∨
      (∃ p ∈ l, p.belongs ≠ .projectile) ∧ (∃ p ∈ l, p.belongs ≠ .target))
  · rw [if_neg (fun h => hban.1 h hb)]
    by_cases hv : vol < reallySmall
    · rw [if_pos hv]
      have : ¬ 1 / 1000000 ≤ vol := not_le.2 hv
      constructor
      · intro h; cases h
      · rintro ⟨-, -, -, -, h, -⟩; exact absurd h this
    · rw [if_neg hv]
      have hv' : 1 / 1000000 ≤ vol := not_lt.1 hv
      generalize e.weight l / (e.testparticles : ℝ) ^ (l.length - 1) = q
      unfold decide Lt Gt
      simp only [Option.some.injEq, exists_eq_left', gt_iff_lt]
      constructor
      · intro h
        split at h
        · cases h
        rename_i hp
        split at h
        · cases h
        rename_i hd
        cases h
        refine ⟨rfl, ht0, ht1, hb, hv', ?_, not_lt.1 hd⟩
        by_contra hn
        push Not at hn
        exact hp ⟨hn.1, by simpa using hn.2⟩
      · rintro ⟨rfl, -, -, -, -, hw, hd⟩
        rw [if_neg, if_neg (not_lt.2 hd)]
        rintro ⟨h1, h2⟩
        rcases hw with hw | hw
        · linarith
        · rw [h2] at hw; cases hw
  · rw [if_pos (hban.2 hb)]
    constructor
    · intro h; cases h
    · rintro ⟨-, -, -, h, -⟩; exact absurd h hb

/-! ### A cell with a pair that collides -/

/-- Parameters for the example: geometric criterion, cross section 40 mb, no multi-particle
reactions. -/
noncomputable def demoEnv : Env :=
  { crit := .geometric, allowWithin := false, testparticles := 1, warnOnly := false, power := 0,
    maxXs := 200, meson31 := false, deuteron32 := false, a342 := false, nnbar52 := false,
    xs := fun _ _ => 40, weight := fun _ => 0, drawTime := fun _ => 0, draw := fun _ => 0 }

/-- A nucleon of the projectile and one of the target that meet head on after 1 fm. -/
noncomputable def demoA : P :=
  { id := 0, pos := ⟨0, -1 / 2, 0, 0⟩, mom := ⟨2, 1, 0, 0⟩, belongs := .projectile }
@[inherit_doc demoA] noncomputable def demoB : P :=
  { id := 1, pos := ⟨0, 1 / 2, 0, 0⟩, mom := ⟨2, -1, 0, 0⟩, belongs := .target }

/-- They are proposed to collide at time 1 if the step is longer than that, and not otherwise; the
hypotheses of `C53_cell` and `C53_geometric` hold. -/
example (dt : ℝ) :
    DistinctIds [demoA, demoB] ∧
    (checkTwo demoEnv [] demoA demoB dt 0 = .ok (some ⟨[demoA, demoB], 1⟩) ↔ 1 < dt) := by
  refine ⟨by unfold DistinctIds demoA demoB; decide, ?_⟩
  have hm : ∀ p, usedMom [] p = p.mom := by intro p; simp [usedMom]
  rw [C53_geometric demoEnv [] demoA demoB dt 0 ⟨[demoA, demoB], 1⟩ rfl (by decide) (by decide)
    (by rw [hm]; norm_num [demoA]) (by rw [hm]; norm_num [demoB])
    (by rw [hm, hm]; norm_num [demoA, demoB, dist2, vel]) 1 1
    (by norm_num [scalingFactor, demoEnv, demoA]) (by norm_num [scalingFactor, demoEnv, demoB])]
  rw [hm, hm]
  have hv : (V4.add demoA.mom demoB.mom).velocity = ⟨0, 0, 0⟩ := by
    ext <;> norm_num [V4.velocity, V4.add, V4.vec, V3.div, V3.smul, demoA, demoB]
  have hd : transverseDist2 demoA.pos demoB.pos demoA.mom demoB.mom = 0 := by
    unfold transverseDist2
    simp only
    rw [hv]
    norm_num [demoA, demoB, boost, V4.mk', V3.sub, V3.smul, V4.vec, V3.dot, V3.sqr, reallySmall]
  have hcl : Closest demoA.pos.vec demoB.pos.vec (vel demoA.mom) (vel demoB.mom) 1 := by
    intro s
    have : dist2 (along demoA.pos.vec (vel demoA.mom) 1) (along demoB.pos.vec (vel demoB.mom) 1)
        = 0 := by norm_num [dist2, along, vel, V4.vec, demoA, demoB]
    rw [this]
    unfold dist2
    positivity
  rw [hd]
  have hu : ¬ UntouchedSameNucleus demoA demoB := by
    unfold UntouchedSameNucleus demoA demoB
    simp
  have hj : ¬ JustCollided demoA demoB := by
    unfold JustCollided demoA
    simp
  norm_num [demoEnv, hcl, hu, hj]

end Verif.Scat
