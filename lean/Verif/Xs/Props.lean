import Verif.Xs.Model
import Mathlib.Tactic.Ring
import Mathlib.Tactic.Linarith
import Mathlib.Tactic.NormNum
import Mathlib.Tactic.Positivity
import Mathlib.Algebra.BigOperators.Group.List.Basic
import Mathlib.Algebra.Order.BigOperators.Group.List
import Mathlib.Algebra.Order.Ring.Rat
import Mathlib.Algebra.Field.Rat

/-
C100: final-state cross sections.  The specification only speaks about the particle table, the partial
cross sections of the processes and the list of final states with their cross sections.
-/
namespace Verif.Xs

variable {K : Type} [Field K] [LinearOrder K] [IsStrictOrderedRing K]

/-- A sensible particle table: the branching ratios of every unstable type are not negative and add
up to one. -/
def Normalised (env : Env K) : Prop :=
  ∀ p, env.stable p = false →
    (∀ m ∈ env.modes p, 0 ≤ m.1) ∧ ((env.modes p).map Prod.fst).sum = 1

/-- The total of the cross sections of a list. -/
def total {α : Type} (l : List (α × K)) : K := (l.map Prod.snd).sum

/-- The total of the positive partial cross sections. -/
def totalPartial (procs : List (K × List Nat)) : K :=
  ((procs.filter fun p => decide (0 < p.1)).map Prod.fst).sum

/-- A quantity carried by the types is conserved in all decays. -/
def Conserved (env : Env K) (c : Nat → ℤ) : Prop :=
  ∀ p, ∀ m ∈ env.modes p, (m.2.map c).sum = c p

/-! ### Lemmas -/

omit [IsStrictOrderedRing K] in
theorem eraseAll_perm (state init rest : List Nat) (h : eraseAll state init = some rest) :
    state.Perm (init ++ rest) := by
  induction init generalizing state with
  | nil => simp only [eraseAll, Option.some.injEq] at h; subst h; exact List.Perm.refl _
  | cons p ps ih =>
    simp only [eraseAll] at h
    split at h
    · rename_i hp
      exact (List.perm_cons_erase hp).trans ((ih _ h).cons p)
    · exact absurd h (by simp)

omit [IsStrictOrderedRing K] in
theorem newState_perm (env : Env K) (state init fin s : List Nat)
    (h : newState env state init fin = some s) :
    ∃ rest, state.Perm (init ++ rest) ∧ s.Perm (rest ++ fin) := by
  simp only [newState, Option.map_eq_some_iff] at h
  obtain ⟨r, hr, rfl⟩ := h
  exact ⟨r, eraseAll_perm _ _ _ hr, List.perm_insertionSort _ _⟩

omit [IsStrictOrderedRing K] in
theorem newState_single (env : Env K) (state fin s : List Nat) (p : Nat)
    (h : newState env state [p] fin = some s) : p ∈ state ∧ s.Perm (state.erase p ++ fin) := by
  simp only [newState, Option.map_eq_some_iff, eraseAll] at h
  obtain ⟨r, hr, rfl⟩ := h
  split at hr
  · rename_i hp
    simp only [Option.some.injEq] at hr
    subst hr
    exact ⟨hp, List.perm_insertionSort _ _⟩
  · exact absurd hr (by simp)

omit [LinearOrder K] [IsStrictOrderedRing K] in
theorem leavesAll_append (a b : List (Tree K)) (f : K) :
    leavesAll (a ++ b) f = leavesAll a f ++ leavesAll b f := by
  induction a with
  | nil => simp [leavesAll]
  | cons c cs ih => simp [leavesAll, ih]

omit [LinearOrder K] [IsStrictOrderedRing K] in
theorem total_append {α : Type} (a b : List (α × K)) : total (a ++ b) = total a + total b := by
  simp [total]

/-- The invariant of the construction: `l` are final states made from total cross section `w`. -/
structure Good (env : Env K) (l : List (List Nat × K)) (w : K) : Prop where
  nonneg : ∀ x ∈ l, 0 ≤ x.2
  stable : ∀ x ∈ l, x.2 ≠ 0 → ∀ p ∈ x.1, env.stable p = true
  le : total l ≤ w

theorem Good.append {env : Env K} {a b : List (List Nat × K)} {v w : K} (ha : Good env a v)
    (hb : Good env b w) : Good env (a ++ b) (v + w) := by
  refine ⟨?_, ?_, ?_⟩
  · intro x hx
    rcases List.mem_append.1 hx with h | h
    · exact ha.nonneg x h
    · exact hb.nonneg x h
  · intro x hx
    rcases List.mem_append.1 hx with h | h
    · exact ha.stable x h
    · exact hb.stable x h
  · rw [total_append]
    exact add_le_add ha.le hb.le

theorem Good.nil {env : Env K} : Good env [] (0 : K) := ⟨by simp, by simp, by simp [total]⟩

/-- The recursive call builds good trees. -/
def RecGood (env : Env K) (rec : K → List Nat → K → Option (Tree K)) : Prop :=
  ∀ w s e t, rec w s e = some t → 0 ≤ w → ∀ f, 0 ≤ f → Good env (leaves t f) (f * w)

theorem modeNodes_good (env : Env K) (rec) (hrec : RecGood env rec) (norm sd : K) (hn : 0 ≤ norm)
    (state : List Nat) (p : Nat) (ms : List (K × List Nat)) (hms : ∀ m ∈ ms, 0 ≤ m.1)
    (ts : List (Tree K)) (h : modeNodes env rec norm sd state p ms = some ts) (f : K) (hf : 0 ≤ f) :
    Good env (leavesAll ts f) (f * norm * (ms.map Prod.fst).sum) ∧ ts.length = ms.length := by
  induction ms generalizing ts with
  | nil =>
    simp only [modeNodes, Option.some.injEq] at h
    subst h
    simpa [leavesAll] using (Good.nil (env := env))
  | cons m ms ih =>
    simp only [modeNodes, Option.bind_eq_bind, Option.bind_eq_some_iff, Option.pure_def,
      Option.some.injEq] at h
    obtain ⟨s, _, t, ht, ts', hts, rfl⟩ := h
    obtain ⟨h1, h2⟩ := ih (fun m hm => hms m (List.mem_cons_of_mem _ hm)) ts' hts
    have hm := hms m List.mem_cons_self
    have h3 := hrec _ _ _ _ ht (mul_nonneg hn hm) f hf
    refine ⟨?_, by simp [h2]⟩
    have h4 := h3.append h1
    simp only [leavesAll, List.map_cons, List.sum_cons]
    have e : f * norm * (m.1 + (ms.map Prod.fst).sum)
        = f * (norm * m.1) + f * norm * (ms.map Prod.fst).sum := by ring
    rw [e]
    exact h4

theorem sum_filter_le (l : List (K × List Nat)) (q : K × List Nat → Bool) (h : ∀ m ∈ l, 0 ≤ m.1) :
    ((l.filter q).map Prod.fst).sum ≤ (l.map Prod.fst).sum := by
  induction l with
  | nil => simp
  | cons a l ih =>
    have h1 := ih fun m hm => h m (List.mem_cons_of_mem _ hm)
    have h2 := h a List.mem_cons_self
    by_cases hq : q a
    · simp only [List.filter_cons, hq, if_true, List.map_cons, List.sum_cons]
      linarith
    · simp only [List.filter_cons, hq, List.map_cons, List.sum_cons]
      simp only [Bool.false_eq_true, if_false]
      linarith

theorem stateNodes_good (env : Env K) (hN : Normalised env) (rec) (hrec : RecGood env rec)
    (norm smm : K) (hn : 0 ≤ norm) (state ps : List Nat) (r : List (Tree K) × Bool)
    (h : stateNodes env rec norm smm state ps = some r) (f : K) (hf : 0 ≤ f) :
    Good env (leavesAll r.1 f) (f * norm * (nUnstable env ps : K)) ∧
      (r.2 = true → r.1 = [] → nUnstable env ps = 0) := by
  induction ps generalizing r with
  | nil =>
    simp only [stateNodes, Option.some.injEq] at h
    subst h
    refine ⟨by simpa [leavesAll, nUnstable] using (Good.nil (env := env)), by simp [nUnstable]⟩
  | cons p ps ih =>
    simp only [stateNodes] at h
    by_cases hs : env.stable p
    · rw [if_pos hs] at h
      have := ih r h
      simpa [nUnstable, List.countP_cons, hs] using this
    · rw [if_neg hs] at h
      have hs' : env.stable p = false := by simpa using hs
      obtain ⟨hm0, hm1⟩ := hN p hs'
      have hcount : nUnstable env (p :: ps) = nUnstable env ps + 1 := by
        simp [nUnstable, List.countP_cons, hs']
      rw [hcount]
      have hnn : 0 ≤ f * norm * ((nUnstable env ps + 1 : ℕ) : K) := by positivity
      split at h
      · simp only [Option.some.injEq] at h
        subst h
        refine ⟨⟨by simp [leavesAll], by simp [leavesAll], ?_⟩, by simp⟩
        simpa [leavesAll, total] using hnn
      · rename_i m ms hall
        simp only [Option.bind_eq_bind, Option.bind_eq_some_iff, Option.pure_def,
          Option.some.injEq] at h
        obtain ⟨ts, hts, r', hr', rfl⟩ := h
        have hal : ∀ x ∈ m :: ms, 0 ≤ x.1 := by
          intro x hx
          rw [← hall] at hx
          exact hm0 x (List.mem_of_mem_filter hx)
        obtain ⟨g1, g2⟩ := modeNodes_good env rec hrec norm _ hn state p _ hal ts hts f hf
        obtain ⟨g3, _⟩ := ih r' hr'
        have hle : (((m :: ms).map Prod.fst).sum : K) ≤ 1 := by
          rw [← hall, ← hm1]
          exact sum_filter_le _ _ hm0
        refine ⟨?_, ?_⟩
        · simp only [leavesAll_append]
          have g4 := g1.append g3
          refine ⟨g4.nonneg, g4.stable, g4.le.trans ?_⟩
          have : f * norm * (((m :: ms).map Prod.fst).sum : K) ≤ f * norm * 1 :=
            mul_le_mul_of_nonneg_left hle (by positivity)
          push_cast
          linarith
        · intro _ h0
          simp only [List.append_eq_nil_iff] at h0
          rw [h0.1] at g2
          simp at g2

theorem norm_mul (env : Env K) (state : List Nat) (h : nUnstable env state ≠ 0) :
    normOf env state * (nUnstable env state : K) = 1 := by
  have : (nUnstable env state : K) ≠ 0 := by exact_mod_cast h
  simp only [normOf, if_pos h]
  exact one_div_mul_cancel this

theorem norm_nonneg (env : Env K) (state : List Nat) : 0 ≤ normOf env state := by
  simp only [normOf]
  split
  · positivity
  · exact zero_le_one

theorem addDecays_good (env : Env K) (hN : Normalised env) (fuel : Nat) :
    RecGood env (addDecays env fuel) := by
  induction fuel with
  | zero => intro w s e t h; simp [addDecays] at h
  | succ fuel ih =>
    intro w s e t h hw f hf
    simp only [addDecays, Option.bind_eq_bind, Option.bind_eq_some_iff, Option.pure_def,
      Option.some.injEq] at h
    obtain ⟨r, hr, rfl⟩ := h
    have hfw : 0 ≤ f * w := mul_nonneg hf hw
    rcases hr1 : r.1 with _ | ⟨c, cs⟩
    · -- no children
      simp only [leaves]
      obtain ⟨_, g2⟩ := stateNodes_good env hN _ ih _ _ (norm_nonneg env s) s s r hr f hf
      by_cases hb : r.2 = true
      · have h0 := g2 hb hr1
        simp only [hb, if_true]
        refine ⟨by simpa using hfw, ?_, by simp [total]⟩
        intro x hx _ p hp
        simp only [List.mem_singleton] at hx
        subst hx
        have := (List.countP_eq_zero.1 h0) p hp
        simpa using this
      · simp only [hb]
        refine ⟨by simp, by simp, by simpa [total] using hfw⟩
    · simp only [leaves]
      by_cases hb : r.2 = true
      · simp only [hb, if_true]
        obtain ⟨g1, g2⟩ := stateNodes_good env hN _ ih _ _ (norm_nonneg env s) s s r hr (f * w) hfw
        rw [hr1] at g1
        refine ⟨g1.nonneg, g1.stable, g1.le.trans ?_⟩
        by_cases hu : nUnstable env s = 0
        · simp only [hu, Nat.cast_zero, mul_zero]
          exact hfw
        · rw [mul_assoc, norm_mul env s hu, mul_one]
      · simp only [hb]
        obtain ⟨g1, _⟩ := stateNodes_good env hN _ ih _ _ (norm_nonneg env s) s s r hr 0 le_rfl
        rw [hr1] at g1
        simp only [Bool.false_eq_true, if_false, mul_zero]
        refine ⟨g1.nonneg, g1.stable, g1.le.trans ?_⟩
        simpa using hfw

theorem processNodes_good (env : Env K) (hN : Normalised env) (fuel a b : Nat) (sqrts : K)
    (procs : List (K × List Nat)) (ts : List (Tree K))
    (h : processNodes env fuel a b sqrts procs = some ts) :
    Good env (leavesAll ts 1) (totalPartial procs) ∧
      (ts = [] ↔ ∀ p ∈ procs, p.1 ≤ 0) := by
  induction procs generalizing ts with
  | nil =>
    simp only [processNodes, Option.some.injEq] at h
    subst h
    exact ⟨by simpa [leavesAll, totalPartial] using (Good.nil (env := env)), by simp⟩
  | cons x xs ih =>
    simp only [processNodes] at h
    by_cases hx : x.1 ≤ 0
    · rw [if_pos hx] at h
      obtain ⟨g1, g2⟩ := ih ts h
      refine ⟨?_, ?_⟩
      · simpa [totalPartial, List.filter_cons, not_lt.2 hx] using g1
      · rw [g2]; simp [hx]
    · rw [if_neg hx] at h
      simp only [Option.bind_eq_bind, Option.bind_eq_some_iff, Option.pure_def,
        Option.some.injEq] at h
      obtain ⟨s, _, t, ht, ts', hts, rfl⟩ := h
      obtain ⟨g1, _⟩ := ih ts' hts
      have hx' : 0 < x.1 := not_le.1 hx
      have g3 := addDecays_good env hN fuel _ _ _ _ ht hx'.le 1 zero_le_one
      rw [one_mul] at g3
      refine ⟨?_, ?_⟩
      · have := g3.append g1
        simpa [totalPartial, List.filter_cons, hx', leavesAll] using this
      · simp only [reduceCtorEq, false_iff, not_forall]
        exact ⟨x, List.mem_cons_self, hx⟩

/-- C100: if some process is possible, every final state printed has a cross section that is not
negative, contains only stable particles unless its cross section is zero, and together they do not
exceed the sum of the partial cross sections. -/
theorem C100_bounds (env : Env K) (hN : Normalised env) (fuel a b : Nat) (sqrts : K)
    (procs : List (K × List Nat)) (hp : ∃ p ∈ procs, 0 < p.1) (l : List (List Nat × K))
    (h : finalStates env fuel a b sqrts procs = some l) :
    (∀ x ∈ l, 0 ≤ x.2) ∧ (∀ x ∈ l, x.2 ≠ 0 → ∀ p ∈ x.1, env.stable p = true) ∧
      total l ≤ totalPartial procs := by
  simp only [finalStates, Option.bind_eq_bind, Option.bind_eq_some_iff, Option.pure_def,
    Option.some.injEq] at h
  obtain ⟨ts, hts, hl⟩ := h
  obtain ⟨g1, g2⟩ := processNodes_good env hN fuel a b sqrts procs ts hts
  rcases ts with _ | ⟨t, ts⟩
  · obtain ⟨p, hp1, hp2⟩ := hp
    exact absurd ((g2.1 rfl) p hp1) (not_le.2 hp2)
  · simp only at hl
    subst hl
    exact ⟨g1.nonneg, g1.stable, g1.le⟩

/-! ### Conservation -/

theorem addDecays_charge (env : Env K) (c : Nat → ℤ) (hc : Conserved env c) (fuel : Nat) :
    ∀ w s e t, addDecays env fuel w s e = some t → ∀ f, ∀ x ∈ leaves t f,
      (x.1.map c).sum = (s.map c).sum := by
  induction fuel with
  | zero => intro w s e t h; simp [addDecays] at h
  | succ fuel ih =>
    intro w s e t h f
    simp only [addDecays, Option.bind_eq_bind, Option.bind_eq_some_iff, Option.pure_def,
      Option.some.injEq] at h
    obtain ⟨r, hr, rfl⟩ := h
    have key : ∀ norm smm ps r, stateNodes env (addDecays env fuel) norm smm s ps = some r →
        ∀ f, ∀ x ∈ leavesAll r.1 f, (x.1.map c).sum = (s.map c).sum := by
      intro norm smm ps
      induction ps with
      | nil =>
        intro r h f
        simp only [stateNodes, Option.some.injEq] at h
        subst h
        simp [leavesAll]
      | cons p ps ihp =>
        intro r h f
        simp only [stateNodes] at h
        split at h
        · exact ihp r h f
        · split at h
          · simp only [Option.some.injEq] at h
            subst h
            simp [leavesAll]
          · rename_i m ms hall
            simp only [Option.bind_eq_bind, Option.bind_eq_some_iff, Option.pure_def,
              Option.some.injEq] at h
            obtain ⟨ts, hts, r', hr', rfl⟩ := h
            intro x hx
            simp only [leavesAll_append] at hx
            rcases List.mem_append.1 hx with hx | hx
            · have hsub : ∀ y ∈ m :: ms, y ∈ env.modes p := by
                intro y hy
                rw [← hall] at hy
                exact List.mem_of_mem_filter hy
              generalize m :: ms = L at hts hsub
              generalize smm + env.mass p = sd at hts
              clear hall
              induction L generalizing ts with
              | nil =>
                simp only [modeNodes, Option.some.injEq] at hts
                subst hts
                simp [leavesAll] at hx
              | cons y ys ihy =>
                simp only [modeNodes, Option.bind_eq_bind, Option.bind_eq_some_iff,
                  Option.pure_def, Option.some.injEq] at hts
                obtain ⟨s', hs', t, ht, ts', hts', rfl⟩ := hts
                simp only [leavesAll] at hx
                rcases List.mem_append.1 hx with hx | hx
                · rw [ih _ _ _ _ ht f x hx]
                  obtain ⟨hp, hperm⟩ := newState_single env s y.2 s' p hs'
                  rw [(hperm.map c).sum_eq, ((List.perm_cons_erase hp).map c).sum_eq]
                  simp only [List.map_append, List.sum_append, List.map_cons, List.sum_cons,
                    hc p y (hsub y List.mem_cons_self)]
                  omega
                · exact ihy ts' (List.mem_append_left _ hx) hx
                    (fun z hz => hsub z (List.mem_cons_of_mem _ hz)) hts'
            · exact ihp r' hr' f x hx
    rcases hr1 : r.1 with _ | ⟨d, ds⟩
    · intro x hx
      simp only [leaves, List.mem_singleton] at hx
      subst hx
      rfl
    · intro x hx
      simp only [leaves] at hx
      rw [← hr1] at hx
      exact key _ _ _ r hr _ x hx

/-- C100: every additive quantity that the processes and the decay modes conserve has the same value
in every printed final state as in the incoming pair. -/
theorem C100_conserved (env : Env K) (c : Nat → ℤ) (hc : Conserved env c) (fuel a b : Nat) (sqrts : K)
    (procs : List (K × List Nat)) (hp : ∀ p ∈ procs, (p.2.map c).sum = c a + c b)
    (l : List (List Nat × K)) (h : finalStates env fuel a b sqrts procs = some l) :
    ∀ x ∈ l, (x.1.map c).sum = c a + c b := by
  simp only [finalStates, Option.bind_eq_bind, Option.bind_eq_some_iff, Option.pure_def,
    Option.some.injEq] at h
  obtain ⟨ts, hts, hl⟩ := h
  have key : ∀ x ∈ leavesAll ts 1, (x.1.map c).sum = c a + c b := by
    clear hl
    induction procs generalizing ts with
    | nil =>
      simp only [processNodes, Option.some.injEq] at hts
      subst hts
      simp [leavesAll]
    | cons y ys ih =>
      have hy := hp y List.mem_cons_self
      have hp' : ∀ p ∈ ys, (p.2.map c).sum = c a + c b := fun p h => hp p (List.mem_cons_of_mem _ h)
      simp only [processNodes] at hts
      split at hts
      · exact ih hp' ts hts
      · simp only [Option.bind_eq_bind, Option.bind_eq_some_iff, Option.pure_def,
          Option.some.injEq] at hts
        obtain ⟨s, hs, t, ht, ts', hts', rfl⟩ := hts
        intro x hx
        simp only [leavesAll] at hx
        rcases List.mem_append.1 hx with hx | hx
        · rw [addDecays_charge env c hc fuel _ _ _ _ ht 1 x hx]
          obtain ⟨rest, h1, h2⟩ := newState_perm env _ _ _ _ hs
          have h3 : rest = [] := by
            have := h1.length_eq
            simp only [List.length_append, List.length_cons, List.length_nil] at this
            exact List.length_eq_zero_iff.1 (by omega)
          subst h3
          rw [(h2.map c).sum_eq]
          simpa using hy
        · exact ih hp' ts' hts' x hx
  rcases ts with _ | ⟨t, ts⟩
  · subst hl
    simp
  · subst hl
    exact key

/-! ### Nothing is lost if every decay is possible -/

/-- The states and energies the tree goes through: `Reach env s e s' e'` if, starting from the state
`s` with the energy `e`, some decays one after the other lead to `s'` and `e'`.  The energy handed on
is what the code uses: the energy minus the masses of all other particles. -/
inductive Reach (env : Env K) : List Nat → K → List Nat → K → Prop where
  | refl (s e) : Reach env s e s e
  | step (s e p m s₁ s' e') (hp : p ∈ s) (hu : env.stable p = false) (hm : m ∈ env.modes p)
      (h₁ : s₁.Perm (s.erase p ++ m.2)) (h : Reach env s₁ (e - massOf env s + env.mass p) s' e') :
      Reach env s e s' e'

/-- Every decay that comes up is possible with the energy the code uses for it. -/
def AllPossible (env : Env K) (s : List Nat) (e : K) : Prop :=
  ∀ s' e', Reach env s e s' e' → ∀ p ∈ s', env.stable p = false → ∀ m ∈ env.modes p,
    massOf env m.2 ≤ e' - massOf env s' + env.mass p

omit [IsStrictOrderedRing K] in
theorem modeNodes_total (env : Env K) (rec) (norm sd : K) (state : List Nat) (p : Nat)
    (ms : List (K × List Nat)) (ts : List (Tree K)) (f : K)
    (hrec : ∀ m ∈ ms, ∀ w s t, s.Perm (state.erase p ++ m.2) → p ∈ state → rec w s sd = some t →
      total (leaves t f) = f * w)
    (h : modeNodes env rec norm sd state p ms = some ts) :
    total (leavesAll ts f) = f * norm * (ms.map Prod.fst).sum ∧ ts.length = ms.length := by
  induction ms generalizing ts with
  | nil =>
    simp only [modeNodes, Option.some.injEq] at h
    subst h
    simp [leavesAll, total]
  | cons m ms ih =>
    simp only [modeNodes, Option.bind_eq_bind, Option.bind_eq_some_iff, Option.pure_def,
      Option.some.injEq] at h
    obtain ⟨s, hs, t, ht, ts', hts, rfl⟩ := h
    obtain ⟨h1, h2⟩ := ih ts' (fun m hm => hrec m (List.mem_cons_of_mem _ hm)) hts
    obtain ⟨hp, hperm⟩ := newState_single env _ _ _ _ hs
    have h3 := hrec m List.mem_cons_self _ s t hperm hp ht
    refine ⟨?_, by simp [h2]⟩
    simp only [leavesAll, total_append, h3, h1, List.map_cons, List.sum_cons]
    ring

theorem addDecays_total (env : Env K) (hN : Normalised env) (fuel : Nat) :
    ∀ w s e t, addDecays env fuel w s e = some t → AllPossible env s e → ∀ f,
      total (leaves t f) = f * w := by
  induction fuel with
  | zero => intro w s e t h; simp [addDecays] at h
  | succ fuel ih =>
    intro w s e t h hall f
    simp only [addDecays, Option.bind_eq_bind, Option.bind_eq_some_iff, Option.pure_def,
      Option.some.injEq] at h
    obtain ⟨r, hr, rfl⟩ := h
    have key : ∀ norm ps r, (∀ p ∈ ps, p ∈ s) →
        stateNodes env (addDecays env fuel) norm (e - massOf env s) s ps = some r →
        r.2 = true ∧ (∀ f, total (leavesAll r.1 f) = f * norm * (nUnstable env ps : K)) ∧
          (r.1 = [] → nUnstable env ps = 0) ∧ (nUnstable env ps = 0 → r.1 = []) := by
      intro norm ps
      induction ps with
      | nil =>
        intro r _ h
        simp only [stateNodes, Option.some.injEq] at h
        subst h
        simp [leavesAll, total, nUnstable]
      | cons p ps ihp =>
        intro r hin h
        have hin' : ∀ p ∈ ps, p ∈ s := fun q hq => hin q (List.mem_cons_of_mem _ hq)
        simp only [stateNodes] at h
        by_cases hs : env.stable p
        · rw [if_pos hs] at h
          have := ihp r hin' h
          simpa [nUnstable, List.countP_cons, hs] using this
        · rw [if_neg hs] at h
          have hs' : env.stable p = false := by simpa using hs
          obtain ⟨hm0, hm1⟩ := hN p hs'
          have hps := hin p List.mem_cons_self
          have hcount : nUnstable env (p :: ps) = nUnstable env ps + 1 := by
            simp [nUnstable, List.countP_cons, hs']
          rw [hcount]
          have hfull : allowed env p (e - massOf env s + env.mass p) = env.modes p := by
            apply List.filter_eq_self.2
            intro m hm
            have := hall s e (Reach.refl s e) p hps hs' m hm
            simpa using this
          rw [hfull] at h
          split at h
          · rename_i h0
            rw [h0] at hm1
            simp at hm1
          · rename_i m ms hmm
            simp only [Option.bind_eq_bind, Option.bind_eq_some_iff, Option.pure_def,
              Option.some.injEq] at h
            obtain ⟨ts, hts, r', hr', rfl⟩ := h
            obtain ⟨g1, g2, g3, g4⟩ := ihp r' hin' hr'
            have g5 := fun f => modeNodes_total env (addDecays env fuel) norm
              (e - massOf env s + env.mass p) s p (m :: ms) ts f (by
                intro y hy w s' t hperm hp ht
                refine ih w s' _ t ht ?_ f
                intro s'' e'' hreach
                exact hall s'' e'' (Reach.step s e p y s' s'' e'' hp hs' (hmm ▸ hy) hperm hreach))
              hts
            refine ⟨g1, ?_, ?_, by simp⟩
            · intro f
              simp only [leavesAll_append, total_append, g2, (g5 f).1, ← hmm, hm1]
              push_cast
              ring
            · intro h0
              simp only [List.append_eq_nil_iff] at h0
              have := (g5 0).2
              rw [h0.1] at this
              simp at this
    obtain ⟨k1, k2, k3, k4⟩ := key _ s r (fun _ h => h) hr
    simp only [k1, if_true]
    rcases hr1 : r.1 with _ | ⟨d, ds⟩
    · simp [leaves, total]
    · simp only [leaves]
      rw [← hr1, k2]
      have hu : nUnstable env s ≠ 0 := fun h0 => by
        have := k4 h0
        rw [hr1] at this
        simp at this
      rw [mul_assoc, norm_mul env s hu, mul_one]

/-- C100 (partial: only if the code considers no decay impossible): the final states together have
exactly the sum of the partial cross sections. -/
theorem C100_total_partial (env : Env K) (hN : Normalised env) (fuel a b : Nat) (sqrts : K)
    (procs : List (K × List Nat)) (hp : ∃ p ∈ procs, 0 < p.1)
    (hall : ∀ p ∈ procs, ∀ s : List Nat, s.Perm p.2 → AllPossible env s sqrts)
    (l : List (List Nat × K)) (h : finalStates env fuel a b sqrts procs = some l) :
    total l = totalPartial procs := by
  simp only [finalStates, Option.bind_eq_bind, Option.bind_eq_some_iff, Option.pure_def,
    Option.some.injEq] at h
  obtain ⟨ts, hts, hl⟩ := h
  have g2 := (processNodes_good env hN fuel a b sqrts procs ts hts).2
  have key : total (leavesAll ts 1) = totalPartial procs := by
    clear hl g2 hp
    induction procs generalizing ts with
    | nil =>
      simp only [processNodes, Option.some.injEq] at hts
      subst hts
      simp [leavesAll, totalPartial, total]
    | cons x xs ih =>
      have hall' : ∀ p ∈ xs, ∀ s : List Nat, s.Perm p.2 → AllPossible env s sqrts :=
        fun p hp => hall p (List.mem_cons_of_mem _ hp)
      simp only [processNodes] at hts
      by_cases hx : x.1 ≤ 0
      · rw [if_pos hx] at hts
        simpa [totalPartial, List.filter_cons, not_lt.2 hx] using ih hall' ts hts
      · rw [if_neg hx] at hts
        simp only [Option.bind_eq_bind, Option.bind_eq_some_iff, Option.pure_def,
          Option.some.injEq] at hts
        obtain ⟨s, hs, t, ht, ts', hts', rfl⟩ := hts
        obtain ⟨rest, h1, h2⟩ := newState_perm env _ _ _ _ hs
        have h3 : rest = [] := by
          have := h1.length_eq
          simp only [List.length_append, List.length_cons, List.length_nil] at this
          exact List.length_eq_zero_iff.1 (by omega)
        subst h3
        have h4 := addDecays_total env hN fuel _ _ _ _ ht
          (hall x List.mem_cons_self s (by simpa using h2)) 1
        have hx' : 0 < x.1 := not_le.1 hx
        simp only [leavesAll, total_append, h4, ih hall' ts' hts', one_mul, totalPartial,
          List.filter_cons, hx', decide_true, if_true, List.map_cons, List.sum_cons]
  rcases ts with _ | ⟨t, ts⟩
  · obtain ⟨p, hp1, hp2⟩ := hp
    exact absurd ((g2.1 rfl) p hp1) (not_le.2 hp2)
  · subst hl
    exact key

/-! ### One resonance -/

/-- C100: a process that makes one resonance `p` (and stable particles), all of whose decay products
are stable, is split exactly according to the branching ratios of the modes that are possible with
the energy that the other particles leave. -/
theorem C100_one_resonance (env : Env K) (fuel a b p : Nat) (sqrts x : K) (hx : 0 < x)
    (fin : List Nat) (hp : p ∈ fin) (hu : env.stable p = false)
    (hs : ∀ q ∈ fin.erase p, env.stable q = true)
    (hm : ∀ m ∈ env.modes p, ∀ q ∈ m.2, env.stable q = true)
    (hex : ∃ m ∈ env.modes p, massOf env m.2 + massOf env (fin.erase p) ≤ sqrts) :
    ∃ l, finalStates env (fuel + 2) a b sqrts [(x, fin)] = some l ∧
      List.Forall₂ (fun y m => y.1.Perm (fin.erase p ++ m.2) ∧ y.2 = x * m.1) l
        ((env.modes p).filter fun m =>
          decide (massOf env m.2 + massOf env (fin.erase p) ≤ sqrts)) := by
  have hstab : ∀ (s : List Nat) (norm smm : K) (rec) (ps : List Nat),
      (∀ q ∈ ps, env.stable q = true) → stateNodes env rec norm smm s ps = some ([], true) := by
    intro s norm smm rec ps h
    induction ps with
    | nil => rfl
    | cons q qs ih =>
      simp only [stateNodes, h q List.mem_cons_self, if_true]
      exact ih fun r hr => h r (List.mem_cons_of_mem _ hr)
  -- the state of the process
  have hns : newState env [a, b] [a, b] fin
      = some (fin.insertionSort fun i j => env.rank i ≤ env.rank j) := by
    simp [newState, eraseAll]
  obtain ⟨S, hS⟩ : ∃ S, S = fin.insertionSort fun i j => env.rank i ≤ env.rank j := ⟨_, rfl⟩
  have hperm : S.Perm fin := hS ▸ List.perm_insertionSort _ _
  have hpS : p ∈ S := hperm.mem_iff.2 hp
  have hErase : (S.erase p).Perm (fin.erase p) := hperm.erase p
  have hone : nUnstable env S = 1 := by
    have h1 : nUnstable env S = nUnstable env (p :: fin.erase p) :=
      (hperm.trans (List.perm_cons_erase hp)).countP_eq _
    rw [h1]
    simp only [nUnstable, List.countP_cons, hu]
    have : (fin.erase p).countP (fun q => !env.stable q) = 0 :=
      List.countP_eq_zero.2 fun q hq => by simp [hs q hq]
    rw [this]
    rfl
  have hnorm : normOf env S = 1 := by simp [normOf, hone]
  have hmass : massOf env S = env.mass p + massOf env (fin.erase p) := by
    have := ((hperm.trans (List.perm_cons_erase hp)).map env.mass).sum_eq
    simpa [massOf] using this
  have hsd : sqrts - massOf env S + env.mass p = sqrts - massOf env (fin.erase p) := by
    rw [hmass]; ring
  have hallow : allowed env p (sqrts - massOf env S + env.mass p)
      = (env.modes p).filter fun m =>
          decide (massOf env m.2 + massOf env (fin.erase p) ≤ sqrts) := by
    simp only [allowed]
    apply List.filter_congr
    intro m _
    rw [hsd, Bool.eq_iff_iff]
    simp only [gt_iff_lt, Bool.not_eq_eq_eq_not, Bool.not_true, decide_eq_false_iff_not, not_lt,
      decide_eq_true_eq]
    exact le_sub_iff_add_le
  have hAsub : ∀ m ∈ (env.modes p).filter (fun m =>
      decide (massOf env m.2 + massOf env (fin.erase p) ≤ sqrts)), m ∈ env.modes p :=
    fun m hm => List.mem_of_mem_filter hm
  obtain ⟨A, hA⟩ : ∃ A, A = (env.modes p).filter (fun m =>
      decide (massOf env m.2 + massOf env (fin.erase p) ≤ sqrts)) := ⟨_, rfl⟩
  have hAne : A ≠ [] := by
    obtain ⟨m, hm1, hm2⟩ := hex
    intro h0
    have : m ∈ A := hA ▸ List.mem_filter.2 ⟨hm1, by simpa using hm2⟩
    rw [h0] at this
    simp at this
  rw [← hA] at hallow hAsub
  -- the nodes of the modes
  have hmodes : ∀ L : List (K × List Nat), (∀ m ∈ L, m ∈ env.modes p) → ∀ sd : K,
      ∃ ts, modeNodes env (addDecays env (fuel + 1)) 1 sd S p L = some ts ∧ ts.length = L.length ∧
        List.Forall₂ (fun y m => y.1.Perm (fin.erase p ++ m.2) ∧ y.2 = x * m.1)
          (leavesAll ts x) L := by
    intro L hL sd
    induction L with
    | nil => exact ⟨[], rfl, rfl, by simp [leavesAll]⟩
    | cons m ms ih =>
      obtain ⟨ts, h1, h2, h3⟩ := ih fun q hq => hL q (List.mem_cons_of_mem _ hq)
      have hstate : newState env S [p] m.2
          = some ((S.erase p ++ m.2).insertionSort fun i j => env.rank i ≤ env.rank j) := by
        simp [newState, eraseAll, hpS]
      obtain ⟨T, hT⟩ : ∃ T, T = (S.erase p ++ m.2).insertionSort
        fun i j => env.rank i ≤ env.rank j := ⟨_, rfl⟩
      have hTp : T.Perm (S.erase p ++ m.2) := hT ▸ List.perm_insertionSort _ _
      have hTs : ∀ q ∈ T, env.stable q = true := by
        intro q hq
        rcases List.mem_append.1 (hTp.mem_iff.1 hq) with h | h
        · exact hs q (hErase.mem_iff.1 h)
        · exact hm m (hL m List.mem_cons_self) q h
      have hadd : addDecays env (fuel + 1) (1 * m.1) T sd = some (.node (1 * m.1) T []) := by
        simp only [addDecays, hstab _ _ _ _ T hTs]
        rfl
      refine ⟨.node (1 * m.1) T [] :: ts, ?_, by simp [h2], ?_⟩
      · simp only [modeNodes, hstate, ← hT, hadd, h1, Option.bind_eq_bind, Option.bind_some,
          Option.pure_def]
      · simp only [leavesAll, leaves, List.singleton_append, one_mul]
        exact List.Forall₂.cons ⟨hTp.trans (hErase.append_right _), rfl⟩ h3
  obtain ⟨ts, ht1, ht2, ht3⟩ := hmodes A hAsub (sqrts - massOf env S + env.mass p)
  -- the loop over the state
  have hloop : ∀ ps : List Nat, ps.countP (fun q => !env.stable q) = 1 →
      (∀ q ∈ ps, env.stable q = false → q = p) →
      stateNodes env (addDecays env (fuel + 1)) 1 (sqrts - massOf env S) S ps = some (ts, true) := by
    intro ps hc hq
    induction ps with
    | nil => simp at hc
    | cons q qs ih =>
      simp only [stateNodes]
      by_cases hsq : env.stable q
      · rw [if_pos hsq]
        exact ih (by simpa [List.countP_cons, hsq] using hc)
          fun r hr => hq r (List.mem_cons_of_mem _ hr)
      · rw [if_neg hsq]
        have hsq' : env.stable q = false := by simpa using hsq
        have := hq q List.mem_cons_self hsq'
        subst this
        have h0 : ∀ r ∈ qs, env.stable r = true := by
          have : qs.countP (fun q => !env.stable q) = 0 := by
            simpa [List.countP_cons, hsq'] using hc
          intro r hr
          simpa using List.countP_eq_zero.1 this r hr
        rw [hallow]
        rcases A with _ | ⟨m, ms⟩
        · exact absurd rfl hAne
        · simp only [ht1, hstab _ _ _ _ qs h0, Option.bind_eq_bind, Option.bind_some,
            Option.pure_def, List.append_nil]
  have hSu : ∀ q ∈ S, env.stable q = false → q = p := by
    intro q hq hqu
    by_contra hne
    have : q ∈ fin.erase p := (List.mem_erase_of_ne hne).2 (hperm.mem_iff.1 hq)
    rw [hs q this] at hqu
    exact absurd hqu (by simp)
  have hd : addDecays env (fuel + 2) x S sqrts = some (.node x S ts) := by
    have e := hloop S hone hSu
    rw [addDecays, hnorm, e]
    rfl
  have htne : ts ≠ [] := by
    intro h0
    rw [h0] at ht2
    exact hAne (List.length_eq_zero_iff.1 ht2.symm)
  refine ⟨leavesAll ts x, ?_, by rw [← hA]; exact ht3⟩
  simp only [finalStates, processNodes, if_neg (not_le.2 hx), hns, ← hS, hd, Option.bind_eq_bind,
    Option.bind_some, Option.pure_def]
  rcases ts with _ | ⟨t, ts⟩
  · exact absurd rfl htne
  · simp [leavesAll, leaves]

/-! ### Where it fails -/

/-- A small particle table: 0 = N (0.938), 1 = π (0.138), 2 = Δ (1.232) → N π. -/
def small : Env ℚ where
  mass n := if n = 0 then 938/1000 else if n = 1 then 138/1000 else 1232/1000
  stable n := decide (n ≠ 2)
  modes n := if n = 2 then [(1, [0, 1])] else []
  rank n := n

/-- The table is normalised and conserves baryon number: the hypotheses of the theorems above can be
met. -/
example : Normalised small ∧ Conserved small fun n => if n = 1 then 0 else 1 := by
  constructor
  · intro p hp
    have : p = 2 := by simpa [small] using hp
    subst this
    simp [small]
  · intro p m hm
    by_cases h : p = 2
    · subst h
      simp only [small, if_true, List.mem_singleton] at hm
      subst hm
      rfl
    · simp [small, h] at hm

/-- NN → NΔ with 3 mb and NN → NN with 10 mb at √s = 2.5 GeV. -/
example : finalStates small 3 0 0 (5/2) [(10, [0, 0]), (0, [2, 2]), (3, [0, 2])]
    = some [([0, 0], 10), ([0, 0, 1], 3)] := by decide +kernel

/-- C100 fails for two resonances: ΔΔ at √s = 3 GeV is above all thresholds (2 m_Δ = 2.464, and
each Δ can decay at its pole), but its 5 mb do not appear in any final state, because the energy
handed to the second decay has the masses of the other particles subtracted twice. -/
theorem C100_two_resonances_false :
    massOf small [2, 2] ≤ 3 ∧ massOf small [0, 1] ≤ small.mass 2 ∧
    ∃ l, finalStates small 5 0 0 3 [(5, [2, 2])] = some l ∧ total l = 0 := by
  refine ⟨by norm_num [massOf, small], by norm_num [massOf, small],
    [([0, 1, 2], 0), ([0, 1, 2], 0)], by decide +kernel, by decide +kernel⟩

/-- C100 fails if there is no process at all: the incoming pair is printed as a final state with a
cross section of 1 mb. -/
theorem C100_no_process_false (env : Env K) (fuel a b : Nat) (sqrts : K) :
    finalStates env fuel a b sqrts [] = some [([a, b], 1)] := rfl

end Verif.Xs
