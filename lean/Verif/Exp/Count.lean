import Verif.Exp.Model
import Mathlib.Algebra.Order.Floor.Ring
import Mathlib.Data.Rat.Floor
import Mathlib.Tactic.Linarith
import Mathlib.Tactic.Positivity
/-
Properties C48 (number of events), C49 (counters and process ids) and C50 (beam
momenta).
-/
namespace Verif.Exp

/-! ## C48: number of events -/

/-- Number of ensembles with an interaction of projectile and target among the first
`n` events. -/
def nonemptyAfter (outcome : Nat → List Bool) (n : Nat) : Nat :=
  ((List.range n).map fun i => (outcome i).count true).sum

theorem countNonempty_eq (l : List Bool) : ∀ n, countNonempty n l = n + l.count true := by
  induction l with
  | nil => intro n; simp [countNonempty]
  | cons b l ih =>
    intro n
    have : countNonempty n (b :: l) = countNonempty (if b then n + 1 else n) l := rfl
    rw [this, ih]
    cases b <;> simp; ring

theorem nonemptyAfter_succ (outcome : Nat → List Bool) (n : Nat) :
    nonemptyAfter outcome (n + 1) = nonemptyAfter outcome n + (outcome n).count true := by
  simp [nonemptyAfter, List.range_succ]

theorem run_eq (k : Counting) (outcome : Nat → List Bool) (N : Nat)
    (hN : isFinished k N (nonemptyAfter outcome N) = true)
    (hlt : ∀ m < N, isFinished k m (nonemptyAfter outcome m) = false) :
    ∀ (d fuel n : Nat), n + d = N → d < fuel →
      run k outcome fuel n (nonemptyAfter outcome n) (List.range n) =
        some (List.range N, (nonemptyAfter outcome N : Int)) := by
  intro d
  induction d with
  | zero =>
    intro fuel n h1 h2
    obtain ⟨fuel, rfl⟩ : ∃ f, fuel = f + 1 := ⟨fuel - 1, by omega⟩
    have : n = N := by omega
    subst this
    rw [run, if_pos hN]
  | succ d ih =>
    intro fuel n h1 h2
    obtain ⟨fuel, rfl⟩ : ∃ f, fuel = f + 1 := ⟨fuel - 1, by omega⟩
    rw [run, if_neg (by rw [hlt n (by omega)]; simp)]
    have := ih fuel (n + 1) (by omega) (by omega)
    rw [countNonempty_eq]
    have e : ((nonemptyAfter outcome (n + 1) : Nat) : Int) =
      nonemptyAfter outcome n + ((outcome n).count true : Nat) := by
      rw [nonemptyAfter_succ]; push_cast; rfl
    rw [e, List.range_succ] at this
    exact this

/-- C48, fixed number: with `Nevents: n` exactly the events 0, …, n−1 are run (none for
n ≤ 0), whatever happens in them. -/
theorem C48_fixed (n : Int) (outcome : Nat → List Bool) :
    ∃ F, ∀ fuel ≥ F, ∃ m, run (.fixed n) outcome fuel 0 0 [] = some (List.range n.toNat, m) := by
  refine ⟨n.toNat + 1, fun fuel hf => ⟨(nonemptyAfter outcome n.toNat : Int), ?_⟩⟩
  have := run_eq (.fixed n) outcome n.toNat (by simp [isFinished])
    (by intro m hm; simp [isFinished]; omega) n.toNat fuel 0 (by omega) (by omega)
  simpa [nonemptyAfter] using this

/-- C48, minimum number of non-empty ensembles: the events run are 0, …, N−1, where N is
the first number of events after which the requested number of ensembles with an
interaction of projectile and target is reached or the maximum number of events is. -/
theorem C48_minimum (number maxEv : Int) (outcome : Nat → List Bool) :
    ∃ N : Nat,
      (number ≤ nonemptyAfter outcome N ∨ maxEv ≤ N) ∧
      (∀ m < N, (nonemptyAfter outcome m : Int) < number ∧ (m : Int) < maxEv) ∧
      ∃ F, ∀ fuel ≥ F, run (.minimum number maxEv) outcome fuel 0 0 [] =
        some (List.range N, (nonemptyAfter outcome N : Int)) := by
  have hex : ∃ N : Nat, isFinished (.minimum number maxEv) N (nonemptyAfter outcome N) = true :=
    ⟨maxEv.toNat, by simp [isFinished]⟩
  classical
  have h1 := Nat.find_spec hex
  have h2 : ∀ m < Nat.find hex, isFinished (.minimum number maxEv) m (nonemptyAfter outcome m) = false :=
    fun m hm => by
      have := Nat.find_min hex hm
      simpa using this
  refine ⟨Nat.find hex, ?_, ?_, Nat.find hex + 1, fun fuel hf => ?_⟩
  · simpa [isFinished] using h1
  · intro m hm
    have := h2 m hm
    simpa [isFinished] using this
  · have := run_eq _ outcome _ h1 h2 (Nat.find hex) fuel 0 (by omega) (by omega)
    simpa [nonemptyAfter] using this

/-- C48, limit on ensembles: `max_events_` events with `n` ensembles each run at least
`Maximum_Ensembles_Run` ensembles, but one event less would not. -/
theorem C48_max_events (maxEnsembles n : Int) (hn : 0 < n) :
    maxEnsembles ≤ maxEvents maxEnsembles n * n ∧
      (maxEvents maxEnsembles n - 1) * n < maxEnsembles := by
  unfold maxEvents
  have hq : (0 : ℚ) < n := by exact_mod_cast hn
  have h1 := Int.le_ceil ((maxEnsembles : ℚ) / n)
  have h2 := Int.ceil_lt_add_one ((maxEnsembles : ℚ) / n)
  rw [div_le_iff₀ hq] at h1
  constructor
  · exact_mod_cast h1
  · have h3 : ((⌈(maxEnsembles : ℚ) / n⌉ : ℚ) - 1) < maxEnsembles / n := by linarith
    rw [lt_div_iff₀ hq] at h3
    exact_mod_cast h3

/-- Two ensembles per event, one interaction in every second event, three non-empty
ensembles wanted: six events (numbers 0 to 5)… -/
example : run (.minimum 3 100) (fun i => [i % 2 == 1, false]) 50 0 0 [] =
    some ([0, 1, 2, 3, 4, 5], 3) := by decide +kernel

/-- … and with at most seven ensembles to be run, four events. -/
example : maxEvents 7 2 = 4 ∧
    run (.minimum 3 4) (fun i => [i % 2 == 1, false]) 50 0 0 [] = some ([0, 1, 2, 3], 2) := by
  decide +kernel

/-! ## C49: counters and process ids -/

/-- Number of performed actions in a list of calls. -/
def performedIn (ks : List Call) : Nat :=
  (ks.filter fun k => match k with
    | .inLoop r | .elsewhere r => r.performed
    | .output => false).length

/-- Number of performed wall crossings in a list of calls. -/
def wallsIn (ks : List Call) : Nat :=
  (ks.filter fun k => k == .inLoop .performedWall || k == .elsewhere .performedWall).length

theorem sub64_eq {a b : Nat} (h : b ≤ a) (ha : a < 2 ^ 64) : sub64 a b = a - b := by
  unfold sub64
  have : ((a : Int) - b).emod (2 ^ 64) = (a : Int) - b := Int.emod_eq_of_lt (by omega) (by omega)
  rw [this]; omega

/-- Invariant of the tally after the calls `ks`. -/
structure TInv (ks : List Call) (y : Tally) : Prop where
  total : y.c.total = performedIn ks
  wall : y.c.wall = wallsIn ks
  prev : y.c.prevTotal ≤ y.c.total
  prevW : y.c.prevWall ≤ y.c.wall
  le : y.c.wall - y.c.prevWall ≤ y.c.total - y.c.prevTotal
  lePrev : y.c.prevWall ≤ y.c.prevTotal
  sum : y.reports.sum + y.c.prevWall = y.c.prevTotal
  ids : y.ids = (List.range y.c.total).map fun i => (i + 1) % 2 ^ 32

theorem performedIn_snoc (ks : List Call) (k : Call) :
    performedIn (ks ++ [k]) = performedIn ks + (match k with
      | .inLoop r | .elsewhere r => if r.performed then 1 else 0
      | .output => 0) := by
  unfold performedIn
  rw [List.filter_append, List.length_append]
  congr 1
  cases k with
  | inLoop r => cases h : r.performed <;> simp [h]
  | elsewhere r => cases h : r.performed <;> simp [h]
  | output => simp

theorem wallsIn_snoc (ks : List Call) (k : Call) :
    wallsIn (ks ++ [k]) = wallsIn ks + (match k with
      | .inLoop r | .elsewhere r => if r = .performedWall then 1 else 0
      | .output => 0) := by
  unfold wallsIn
  rw [List.filter_append, List.length_append]
  congr 1
  cases k with
  | inLoop r => cases r <;> decide
  | elsewhere r => cases r <;> decide
  | output => decide

theorem tinv_perform {ks : List Call} {y : Tally} (h : TInv ks y) (r : Res) (k : Call)
    (hk : k = .inLoop r ∨ k = .elsewhere r) :
    TInv (ks ++ [k]) { y with c := (performAction y.c r).1, ids := y.ids ++ (performAction y.c r).2.toList } := by
  obtain ⟨h1, h2, h3, h4, h5, h6, h7, h8⟩ := h
  have hp := performedIn_snoc ks k
  have hw := wallsIn_snoc ks k
  have hp' : performedIn (ks ++ [k]) = performedIn ks + (if r.performed then 1 else 0) := by
    rcases hk with rfl | rfl <;> exact hp
  have hw' : wallsIn (ks ++ [k]) = wallsIn ks + (if r = .performedWall then 1 else 0) := by
    rcases hk with rfl | rfl <;> exact hw
  cases r <;> simp only [Res.performed, if_true, if_false, Bool.false_eq_true, reduceCtorEq] at hp' hw' <;>
    constructor <;> simp only [performAction, Option.toList, List.append_nil] <;>
    first
      | omega
      | exact h8
      | (rw [h8, List.range_succ, List.map_append]; rfl)

theorem tinv_call {ks : List Call} {y y' : Tally} (h : TInv ks y) (k : Call)
    (hlt : performedIn ks < 2 ^ 64) (hc : y.call k = some y') : TInv (ks ++ [k]) y' := by
  cases k with
  | inLoop r =>
    simp only [Tally.call] at hc
    split at hc
    · cases hc
    · injection hc with hc
      subst hc
      exact tinv_perform h r _ (.inl rfl)
  | elsewhere r =>
    simp only [Tally.call] at hc
    injection hc with hc
    subst hc
    exact tinv_perform h r _ (.inr rfl)
  | output =>
    simp only [Tally.call, intermediate] at hc
    injection hc with hc
    subst hc
    obtain ⟨h1, h2, h3, h4, h5, h6, h7, h8⟩ := h
    have hp := performedIn_snoc ks .output
    have hw := wallsIn_snoc ks .output
    simp only [Nat.add_zero] at hp hw
    have e1 : sub64 y.c.total y.c.prevTotal = y.c.total - y.c.prevTotal := sub64_eq h3 (by omega)
    have e2 : sub64 y.c.wall y.c.prevWall = y.c.wall - y.c.prevWall := sub64_eq h4 (by omega)
    have e3 := sub64_eq h5 (show y.c.total - y.c.prevTotal < 2 ^ 64 by omega)
    constructor <;> simp only [e1, e2, e3, List.sum_append, List.sum_cons, List.sum_nil] <;>
      first
        | omega
        | exact h8

theorem performedIn_le_snoc (ks : List Call) (k : Call) : performedIn ks ≤ performedIn (ks ++ [k]) := by
  rw [performedIn_snoc]; omega

theorem performedIn_append_le (ks l : List Call) : performedIn ks ≤ performedIn (ks ++ l) := by
  unfold performedIn
  rw [List.filter_append, List.length_append]; omega

theorem tinv_run : ∀ (l ks : List Call) (y y' : Tally), TInv ks y →
    performedIn (ks ++ l) < 2 ^ 64 → Tally.run l y = some y' → TInv (ks ++ l) y' := by
  intro l
  induction l with
  | nil => intro ks y y' h _ hr; simp only [Tally.run, Option.some.injEq] at hr; subst hr; simpa using h
  | cons k l ih =>
    intro ks y y' h hlt hr
    rw [Tally.run] at hr
    cases hc : y.call k with
    | none => rw [hc] at hr; cases hr
    | some y₁ =>
      rw [hc] at hr
      simp only at hr
      have h1 : performedIn ks < 2 ^ 64 := lt_of_le_of_lt (performedIn_append_le ks _) hlt
      have := ih (ks ++ [k]) y₁ y' (tinv_call h k h1 hc) (by simpa using hlt) hr
      simpa using this

/-- Counters at the start of an event. -/
def Tally.start : Tally := ⟨Counters.start, [], []⟩

theorem tinv_start : TInv [] Tally.start := by
  constructor <;> simp [Tally.start, Counters.start, performedIn, wallsIn]

/-- C49, process ids: the performed actions of an event get the ids 1, 2, 3, … in the
order in which they are performed (modulo 2^32); rejected and discarded ones get none. -/
theorem C49_ids (ks : List Call) (y : Tally) (h : Tally.run ks Tally.start = some y)
    (hlt : performedIn ks < 2 ^ 64) :
    y.ids = (List.range (performedIn ks)).map fun i => (i + 1) % 2 ^ 32 := by
  have := tinv_run ks [] _ _ tinv_start (by simpa using hlt) h
  simp only [List.nil_append] at this
  rw [this.ids, this.total]

/-- C49, uniqueness: with fewer than 2^32 performed actions the ids are exactly
1, 2, …, n: all different and none is 0 (which means "no interaction yet"). -/
theorem C49_ids_unique (ks : List Call) (y : Tally) (h : Tally.run ks Tally.start = some y)
    (hlt : performedIn ks < 2 ^ 32) :
    y.ids = List.range' 1 (performedIn ks) ∧ y.ids.Nodup ∧ 0 ∉ y.ids := by
  have h1 := C49_ids ks y h (by omega)
  have h2 : y.ids = List.range' 1 (performedIn ks) := by
    rw [h1]
    apply List.ext_getElem
    · simp
    · intro i hi1 hi2
      simp only [List.length_map, List.length_range] at hi1
      simp only [List.getElem_map, List.getElem_range, List.getElem_range']
      omega
  refine ⟨h2, ?_, ?_⟩
  · rw [h2]; exact List.nodup_range'
  · rw [h2, List.mem_range'_1]; omega

/-- C49, overflow guard: if all actions are performed in the loop over the queue, an
event that gets through has fewer than 2^32 − 1 performed actions, so the ids are unique
and never 0. -/
theorem C49_guard (ks : List Call) (y : Tally) (h : Tally.run ks Tally.start = some y)
    (hin : ∀ k ∈ ks, ∀ r, k ≠ .elsewhere r) :
    performedIn ks < 2 ^ 32 - 1 ∧ y.ids.Nodup ∧ 0 ∉ y.ids := by
  have key : ∀ (l : List Call) (z z' : Tally), (∀ k ∈ l, ∀ r, k ≠ .elsewhere r) →
      z.c.total < 2 ^ 32 - 1 → Tally.run l z = some z' →
      z'.c.total = z.c.total + performedIn l ∧ z'.c.total < 2 ^ 32 - 1 := by
    intro l
    induction l with
    | nil =>
      intro z z' _ hz hr
      simp only [Tally.run, Option.some.injEq] at hr; subst hr; exact ⟨by simp [performedIn], hz⟩
    | cons k l ih =>
      intro z z' hl hz hr
      rw [Tally.run] at hr
      cases hc : z.call k with
      | none => rw [hc] at hr; cases hr
      | some z₁ =>
        rw [hc] at hr
        simp only at hr
        have hpc : performedIn (k :: l) = performedIn [k] + performedIn l := by
          unfold performedIn
          rw [← List.length_append, ← List.filter_append]; rfl
        have hstep : z₁.c.total = z.c.total + performedIn [k] ∧ z₁.c.total < 2 ^ 32 - 1 := by
          cases k with
          | elsewhere r => exact absurd rfl (hl _ (by simp) r)
          | output =>
            simp only [Tally.call, intermediate] at hc
            injection hc with hc; subst hc
            exact ⟨by simp [performedIn], hz⟩
          | inLoop r =>
            simp only [Tally.call] at hc
            split at hc
            · cases hc
            · rename_i hn
              injection hc with hc; subst hc
              cases r <;> simp [performAction, Res.performed, performedIn] at hn ⊢ <;> omega
        have := ih z₁ z' (fun k hk => hl k (by simp [hk])) hstep.2 hr
        omega
  have := key ks _ y hin (by decide) h
  have h0 : Tally.start.c.total = 0 := rfl
  have hp : performedIn ks < 2 ^ 32 - 1 := by omega
  exact ⟨hp, (C49_ids_unique ks y h (by omega)).2⟩

/-- C49, interval numbers: what the intermediate outputs and the final output report as
interactions per interval adds up to the performed actions without wall crossings. -/
theorem C49_intervals (ks : List Call) (y : Tally) (h : Tally.run ks Tally.start = some y)
    (hlt : performedIn ks < 2 ^ 64) :
    y.reports.sum + final y.c + wallsIn ks = performedIn ks := by
  have := tinv_run ks [] _ _ tinv_start (by simpa using hlt) h
  simp only [List.nil_append] at this
  obtain ⟨h1, h2, h3, h4, h5, h6, h7, h8⟩ := this
  unfold final
  rw [sub64_eq h4 (by omega), sub64_eq h3 (by omega), sub64_eq h5 (by omega)]
  omega

/-- C49, the guard is only in the loop over the queue: after 2^32 − 2 actions there, two
more performed elsewhere (final decays, forced thermalisation) get the ids 2^32 − 1 and
0, the latter meaning "no interaction yet". -/
theorem C49_wrap_false :
    ∃ ks y, Tally.run ks Tally.start = some y ∧ 0 ∈ y.ids ∧ performedIn ks = 2 ^ 32 := by
  have hrep : ∀ (n : Nat) (z : Tally), z.c.total + n < 2 ^ 32 - 1 →
      ∃ z', Tally.run (List.replicate n (.inLoop .performedOther)) z = some z' ∧
        z'.c.total = z.c.total + n := by
    intro n
    induction n with
    | zero => intro z _; exact ⟨z, rfl, rfl⟩
    | succ n ih =>
      intro z hz
      obtain ⟨z', h1, h2⟩ := ih ⟨{ z.c with total := z.c.total + 1 }, z.ids ++ [(z.c.total + 1) % 2 ^ 32], z.reports⟩
        (by simp only; omega)
      refine ⟨z', ?_, by rw [h2]; simp only; omega⟩
      rw [List.replicate_succ, Tally.run]
      have : z.call (.inLoop .performedOther) =
          some ⟨{ z.c with total := z.c.total + 1 }, z.ids ++ [(z.c.total + 1) % 2 ^ 32], z.reports⟩ := by
        have hn : ¬ 2 ^ 32 - 1 ≤ z.c.total + 1 := by omega
        simp only [Tally.call, performAction, Res.performed, Bool.true_and, ge_iff_le,
          decide_eq_true_eq]
        rw [if_neg hn]
        rfl
      rw [this]
      exact h1
  have happ : ∀ (a b : List Call) (z z₁ z₂ : Tally), Tally.run a z = some z₁ →
      Tally.run b z₁ = some z₂ → Tally.run (a ++ b) z = some z₂ := by
    intro a
    induction a with
    | nil => intro b z z₁ z₂ h1 h2; simp only [Tally.run, Option.some.injEq] at h1; subst h1; exact h2
    | cons k a ih =>
      intro b z z₁ z₂ h1 h2
      rw [List.cons_append, Tally.run]
      rw [Tally.run] at h1
      cases hc : z.call k with
      | none => rw [hc] at h1; cases h1
      | some z' => rw [hc] at h1; exact ih b z' z₁ z₂ h1 h2
  have hcnt : ∀ n, performedIn (List.replicate n (.inLoop .performedOther)) = n := by
    intro n
    induction n with
    | zero => rfl
    | succ n ih =>
      have e : List.replicate (n + 1) (Call.inLoop .performedOther) =
        List.replicate n (.inLoop .performedOther) ++ [.inLoop .performedOther] := List.replicate_succ'
      rw [e, performedIn_snoc, ih]; rfl
  obtain ⟨n, hn⟩ : ∃ n : Nat, n + 2 = 2 ^ 32 := ⟨2 ^ 32 - 2, by norm_num⟩
  have hz : Tally.start.c.total = 0 := rfl
  obtain ⟨z', h1, h2⟩ := hrep n Tally.start (by rw [hz]; omega)
  have h0 : z'.c.total + 2 = 2 ^ 32 := by rw [h2, hz]; omega
  have hrun := happ _ [.elsewhere .performedOther, .elsewhere .performedOther] _ _ _ h1 rfl
  refine ⟨_, _, hrun, ?_, ?_⟩
  · simp only [performAction, Option.toList, List.mem_append, List.mem_singleton]
    right
    have : z'.c.total + 1 + 1 = 2 ^ 32 := h0
    rw [this, Nat.mod_self]
  · have e : List.replicate n (Call.inLoop .performedOther) ++
        [.elsewhere .performedOther, .elsewhere .performedOther] =
        (List.replicate n (Call.inLoop .performedOther) ++ [.elsewhere .performedOther]) ++
          [.elsewhere .performedOther] := by simp
    rw [e, performedIn_snoc, performedIn_snoc, hcnt]
    exact hn

/-- Discarded, blocked and performed actions, a wall crossing, two outputs. -/
example : (Tally.run [.inLoop .performedOther, .inLoop .invalid, .inLoop .performedWall, .output,
    .inLoop .pauliBlocked, .inLoop .performedFluidization, .output, .elsewhere .performedOther]
    Tally.start).map (fun y => (y.ids, y.reports, final y.c, y.c.discarded, y.c.blocked)) =
    some ([1, 2, 3, 4], [1, 1], 1, 1, 1) := by decide +kernel

/-! ## C50: beam momenta -/

section Beam
variable {M : Type}

theorem beamTable_eq (events : List (List M)) : beamTable events = events.flatten := by
  unfold beamTable
  have : ∀ (acc : List M), events.foldl addBeam acc = acc ++ events.flatten := by
    induction events with
    | nil => intro acc; simp
    | cons a l ih => intro acc; simp [addBeam, ih]
  simpa using this []

/-- C50, first event: an initial nucleon that has not collided moves with its beam
momentum, one that has collided and every particle produced later with its own. Missing:
later events, see `C50_second_event_false`. -/
theorem C50_first_event_partial (beam : List M) (id collisions : Nat) (own : M) :
    (∀ h : id < beam.length, collisions = 0 →
      propagationMomentum (beamTable [beam]) id collisions own = beam[id]) ∧
    (collisions ≠ 0 ∨ beam.length ≤ id →
      propagationMomentum (beamTable [beam]) id collisions own = own) := by
  rw [beamTable_eq]
  simp only [List.flatten_cons, List.flatten_nil, List.append_nil]
  unfold propagationMomentum
  constructor
  · intro h hc; rw [dif_pos ⟨h, hc⟩]
  · intro h; rw [dif_neg]; rintro ⟨h1, h2⟩; rcases h with h | h
    · exact h h2
    · omega

/-- C50, later events, initial nucleons: if all events have the same beam momenta (the
same nuclei in the same order), an initial nucleon without collisions moves with its
beam momentum in every event. -/
theorem C50_same_beam_partial (beam : List M) (n : Nat) (id : Nat) (own : M)
    (h : id < beam.length) :
    propagationMomentum (beamTable (List.replicate (n + 1) beam)) id 0 own = beam[id] := by
  rw [beamTable_eq, List.replicate_succ, List.flatten_cons]
  unfold propagationMomentum
  rw [dif_pos ⟨by rw [List.length_append]; omega, rfl⟩]
  exact List.getElem_append_left h

/-- C50 is false from the second event on: the table still has the momenta of the first
event at its front. If the order of nucleons or their momenta differ, a nucleon moves
with the momentum of another event's nucleon… -/
theorem C50_second_event_false :
    ∃ (first second : List Nat) (own : Nat),
      propagationMomentum (beamTable [first, second]) 0 0 own ≠ second[0]! :=
  ⟨[5], [7], 1, by decide⟩

/-- … and particles that are no initial nucleons but have not collided (e.g. added by the
library interface) are moved with a beam momentum: any id below the number of events
times the number of nucleons counts as an initial nucleon. -/
theorem C50_later_particles_false (beam : List M) (n id : Nat) (own : M)
    (h1 : beam.length ≤ id) (h2 : id < 2 * beam.length) :
    propagationMomentum (beamTable (List.replicate (n + 2) beam)) id 0 own =
      beam[id - beam.length]'(by omega) := by
  rw [beamTable_eq, List.replicate_succ, List.replicate_succ, List.flatten_cons, List.flatten_cons]
  unfold propagationMomentum
  rw [dif_pos ⟨by simp only [List.length_append]; omega, rfl⟩]
  rw [List.getElem_append_right h1]
  exact List.getElem_append_left (by omega)

example : propagationMomentum (beamTable [[10, 20]]) 1 0 3 = 20 ∧
    propagationMomentum (beamTable [[10, 20], [10, 20]]) 3 0 3 = 20 := by decide

end Beam

end Verif.Exp
