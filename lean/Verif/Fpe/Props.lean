import Verif.Fpe.Model
/-!
Floating-point traps (C179).
-/
namespace Verif.Fpe

/-! ### Specification -/

/-- Does the exception trap? -/
def Traps (e : Env) (x : Exc) : Prop := e.csr.getLsbD (x.bit + 7) = false

/-- Does the exception trap in the x87 unit (used for `long double`)? -/
def Traps87 (e : Env) (x : Exc) : Prop := e.cw.getLsbD x.bit = false

/-- Is the exception in the mask? -/
def In (x : Exc) (mask : BitVec 32) : Prop := mask.getLsbD x.bit = true

instance (e x) : Decidable (Traps e x) := by unfold Traps; infer_instance
instance (x m) : Decidable (In x m) := by unfold In; infer_instance

/-- No traps are enabled except in the scope of a guard. -/
def Scoped : Prog → Prop
  | .enable _ => False
  | .seq p q | .catch_ p q => Scoped p ∧ Scoped q
  | _ => True

/-- No traps are enabled anywhere, and guards have no mask. -/
def Quiet : Prog → Prop
  | .enable _ => False
  | .seq p q | .catch_ p q => Quiet p ∧ Quiet q
  | .guard m p => m = 0 ∧ Quiet p
  | _ => True

/-- No guards, and no traps are enabled. -/
def Plain : Prog → Prop
  | .enable _ | .guard _ _ => False
  | .seq p q | .catch_ p q => Plain p ∧ Plain q
  | _ => True

/-- The exceptions raised by a program if nothing traps, in order, and whether it ends with a C++ exception. -/
def events : Prog → List Exc × Bool
  | .raise x => ([x], false)
  | .throw => ([], true)
  | .seq p q => if (events p).2 then events p else ((events p).1 ++ (events q).1, (events q).2)
  | .catch_ p q => if (events p).2 then ((events p).1 ++ (events q).1, (events q).2) else events p
  | _ => ([], false)

/-! ### Registers -/

theorem traps_enable {pl : Platform} (hpl : pl ≠ .other) (m : BitVec 32) (e : Env) (x : Exc) :
    Traps (enable pl m e).2 x ↔ Traps e x ∨ In x m := by
  cases pl <;> first | exact absurd rfl hpl | skip
  all_goals
    unfold Traps In enable feAllExcept
    cases x <;> simp [Exc.bit, BitVec.getLsbD_and, BitVec.getLsbD_not, BitVec.getLsbD_shiftLeft] <;>
      grind

theorem traps_hold (e : Env) (x : Exc) : ¬ Traps (hold e) x := by
  unfold Traps hold
  cases x <;> simp [Exc.bit, BitVec.getLsbD_or, BitVec.getLsbD_and, BitVec.getLsbD_not]

theorem traps_raise {x : Exc} {e e' : Env} (h : raise x e = some e') (y : Exc) :
    Traps e' y ↔ Traps e y := by
  unfold raise at h
  split at h
  · injection h with h
    subst h
    unfold Traps Exc.flag
    cases x <;> cases y <;> simp [Exc.bit, BitVec.getLsbD_or, BitVec.getLsbD_shiftLeft]
  · cases h

theorem raise_none {x : Exc} {e : Env} : raise x e = none ↔ Traps e x := by
  unfold raise Traps
  split <;> simp_all

theorem traps87_enable {pl : Platform} (hpl : pl ≠ .other) (m : BitVec 32) (e : Env) (x : Exc) :
    Traps87 (enable pl m e).2 x ↔ Traps87 e x ∨ In x m := by
  cases pl <;> first | exact absurd rfl hpl | skip
  all_goals
    unfold Traps87 In enable feAllExcept
    cases x <;> simp [Exc.bit, BitVec.getLsbD_and, BitVec.getLsbD_not, BitVec.getLsbD_setWidth] <;>
      grind

theorem traps87_hold (e : Env) (x : Exc) : ¬ Traps87 (hold e) x := by
  unfold Traps87 hold
  cases x <;> simp [Exc.bit, BitVec.getLsbD_or]

/-- The traps inside a guard are those of its mask. -/
theorem traps_construct {pl : Platform} (hpl : pl ≠ .other) (m : BitVec 32) (e : Env) (x : Exc) :
    Traps (construct pl m e).1 x ↔ In x m := by
  unfold construct
  dsimp only
  by_cases hm : m ≠ 0
  · rw [if_pos hm, traps_enable hpl]
    exact ⟨fun h => h.resolve_left (traps_hold e x), .inr⟩
  · rw [if_neg hm]
    have : m = 0 := Classical.not_not.1 hm
    subst this
    exact ⟨fun h => absurd h (traps_hold e x), fun h => by simp [In] at h⟩

theorem traps_other (m : BitVec 32) (e : Env) (x : Exc) : ¬ Traps (construct .other m e).1 x := by
  unfold construct
  dsimp only
  split
  · exact traps_hold e x
  · exact traps_hold e x

/-! ### Guards -/

/-- **C179** (scope). Whatever a program does, with guards nested in any way and C++ exceptions thrown through them: if it enables no traps outside of
guards and is not aborted, then the same exceptions trap after it as before it, in both units. -/
theorem C179_scoped (pl : Platform) (p : Prog) (hp : Scoped p) (e : Env)
    (ho : ∀ x, (exec pl p e).out ≠ .aborted x) :
    (∀ y, Traps (exec pl p e).env y ↔ Traps e y) ∧ (exec pl p e).env.cw = e.cw := by
  induction p generalizing e with
  | skip => exact ⟨fun _ => Iff.rfl, rfl⟩
  | throw => exact ⟨fun _ => Iff.rfl, rfl⟩
  | enable m => exact absurd hp id
  | raise x =>
    unfold exec at ho ⊢
    rcases h : raise x e with _ | e'
    · rw [h] at ho; exact absurd rfl (ho x)
    · refine ⟨fun y => traps_raise h y, ?_⟩
      unfold raise at h
      split at h
      · injection h with h; rw [← h]
      · cases h
  | guard m p ih =>
    unfold exec at ho ⊢
    dsimp only at ho ⊢
    rcases h : (exec pl p (construct pl m e).1).out with _ | _ | x
    · exact ⟨fun _ => Iff.rfl, rfl⟩
    · exact ⟨fun _ => Iff.rfl, rfl⟩
    · rw [h] at ho; exact absurd rfl (ho x)
  | seq p q ih1 ih2 =>
    unfold exec at ho ⊢
    dsimp only at ho ⊢
    rcases h : (exec pl p e).out with _ | _ | x
    · rw [h] at ho
      have a := ih1 hp.1 e (by rw [h]; intro x; exact Out.noConfusion)
      have b := ih2 hp.2 _ ho
      exact ⟨fun y => (b.1 y).trans (a.1 y), b.2.trans a.2⟩
    · exact ih1 hp.1 e (by rw [h]; intro x; exact Out.noConfusion)
    · rw [h] at ho; exact absurd h (ho x)
  | catch_ p q ih1 ih2 =>
    unfold exec at ho ⊢
    dsimp only at ho ⊢
    rcases h : (exec pl p e).out with _ | _ | x
    · exact ih1 hp.1 e (by rw [h]; intro x; exact Out.noConfusion)
    · rw [h] at ho
      have a := ih1 hp.1 e (by rw [h]; intro x; exact Out.noConfusion)
      have b := ih2 hp.2 _ ho
      exact ⟨fun y => (b.1 y).trans (a.1 y), b.2.trans a.2⟩
    · rw [h] at ho; exact absurd h (ho x)

/-- **C179** (restored). After a guard the environment is exactly the one before it, including the flags, whatever is done inside, unless it is
aborted. -/
theorem C179_restored (pl : Platform) (m : BitVec 32) (p : Prog) (e : Env)
    (ho : ∀ x, (exec pl (.guard m p) e).out ≠ .aborted x) : (exec pl (.guard m p) e).env = e := by
  unfold exec at ho ⊢
  dsimp only at ho ⊢
  rcases h : (exec pl p (construct pl m e).1).out with _ | _ | x
  · rfl
  · rfl
  · rw [h] at ho; exact absurd rfl (ho x)

theorem quiet_ok (pl : Platform) (p : Prog) (hp : Quiet p) (e : Env) (he : ∀ x, ¬ Traps e x) :
    (∀ x, (exec pl p e).out ≠ .aborted x) ∧ ∀ x, ¬ Traps (exec pl p e).env x := by
  induction p generalizing e with
  | skip => exact ⟨fun _ => Out.noConfusion, he⟩
  | throw => exact ⟨fun _ => Out.noConfusion, he⟩
  | enable m => exact absurd hp id
  | raise x =>
    unfold exec
    rcases h : raise x e with _ | e'
    · exact absurd (raise_none.1 h) (he x)
    · exact ⟨fun _ => Out.noConfusion, fun y hy => he y ((traps_raise h y).1 hy)⟩
  | guard m p ih =>
    obtain ⟨rfl, hp⟩ := hp
    have hc : ∀ x, ¬ Traps (construct pl 0 e).1 x := traps_hold e
    have := ih hp _ hc
    unfold exec
    dsimp only
    rcases h : (exec pl p (construct pl 0 e).1).out with _ | _ | x
    · exact ⟨fun _ => Out.noConfusion, he⟩
    · exact ⟨fun _ => Out.noConfusion, he⟩
    · exact absurd h (this.1 x)
  | seq p q ih1 ih2 =>
    have a := ih1 hp.1 e he
    unfold exec
    dsimp only
    rcases h : (exec pl p e).out with _ | _ | x
    · exact ih2 hp.2 _ a.2
    · exact a
    · exact a
  | catch_ p q ih1 ih2 =>
    have a := ih1 hp.1 e he
    unfold exec
    dsimp only
    rcases h : (exec pl p e).out with _ | _ | x
    · exact a
    · exact ih2 hp.2 _ a.2
    · exact a

/-- **C179** (no traps). In the scope of a guard without mask nothing traps, whatever was enabled before, if no traps are enabled inside. -/
theorem C179_silent (pl : Platform) (p : Prog) (hp : Quiet p) (e : Env) (x : Exc) :
    (exec pl (.guard 0 p) e).out ≠ .aborted x := by
  have := (quiet_ok pl p hp (construct pl 0 e).1 (traps_hold e)).1
  unfold exec
  dsimp only
  rcases h : (exec pl p (construct pl 0 e).1).out with _ | _ | y
  · exact Out.noConfusion
  · exact Out.noConfusion
  · exact absurd h (this y)

/-- How a program ends if exactly the exceptions in the mask trap: the first of them aborts. -/
def expected (m : BitVec 32) (p : Prog) : Out :=
  match (events p).1.find? fun x => decide (In x m) with
  | some x => .aborted x
  | none => if (events p).2 then .thrown else .done

theorem plain_out (pl : Platform) (m : BitVec 32) (p : Prog) (hp : Plain p) (e : Env)
    (he : ∀ x, Traps e x ↔ In x m) :
    (exec pl p e).out = expected m p ∧
      ((∀ x, (exec pl p e).out ≠ .aborted x) → ∀ x, Traps (exec pl p e).env x ↔ In x m) := by
  induction p generalizing e with
  | skip => exact ⟨rfl, fun _ => he⟩
  | throw => exact ⟨rfl, fun _ => he⟩
  | enable m => exact absurd hp id
  | guard m p _ => exact absurd hp id
  | raise x =>
    unfold exec expected
    rcases h : raise x e with _ | e'
    · have := (he x).1 (raise_none.1 h)
      simp [events, this]
    · have : ¬ In x m := fun q => by
        rw [raise_none.2 ((he x).2 q)] at h; cases h
      refine ⟨by simp [events, this], fun _ y => (traps_raise h y).trans (he y)⟩
  | seq p q ih1 ih2 =>
    obtain ⟨a1, a2⟩ := ih1 hp.1 e he
    unfold exec
    dsimp only
    have hexp : expected m (.seq p q) =
        match expected m p with
        | .done => expected m q
        | o => o := by
      unfold expected
      rcases hf : (events p).1.find? (fun x => decide (In x m)) with _ | x
      · rcases ht : (events p).2
        · simp [events, ht, List.find?_append, hf]
        · simp [events, ht, hf]
      · rcases ht : (events p).2
        · simp [events, ht, List.find?_append, hf]
        · simp [events, ht, hf]
    rw [hexp, ← a1]
    rcases h : (exec pl p e).out with _ | _ | x
    · exact ih2 hp.2 _ (a2 (by rw [h]; exact fun _ => Out.noConfusion))
    · exact ⟨h, a2⟩
    · exact ⟨h, a2⟩
  | catch_ p q ih1 ih2 =>
    obtain ⟨a1, a2⟩ := ih1 hp.1 e he
    unfold exec
    dsimp only
    have hexp : expected m (.catch_ p q) =
        match expected m p with
        | .thrown => expected m q
        | o => o := by
      unfold expected
      rcases hf : (events p).1.find? (fun x => decide (In x m)) with _ | x
      · rcases ht : (events p).2
        · simp [events, ht, hf]
        · simp [events, ht, List.find?_append, hf]
      · rcases ht : (events p).2
        · simp [events, ht, hf]
        · simp [events, ht, List.find?_append, hf]
    rw [hexp, ← a1]
    rcases h : (exec pl p e).out with _ | _ | x
    · exact ⟨h, a2⟩
    · exact ih2 hp.2 _ (a2 (by rw [h]; exact fun _ => Out.noConfusion))
    · exact ⟨h, a2⟩

/-- **C179** (mask). In the scope of a guard with a mask exactly the exceptions in the mask trap: the first one raised aborts the program; without
one the program ends as it would without traps.  This does not depend on the environment outside of the guard. -/
theorem C179_mask (pl : Platform) (hpl : pl ≠ .other) (m : BitVec 32) (p : Prog) (hp : Plain p) (e : Env) :
    (exec pl (.guard m p) e).out = expected m p := by
  have h := (plain_out pl m p hp _ (traps_construct hpl m e)).1
  unfold exec
  dsimp only
  rw [← h]
  rcases (exec pl p (construct pl m e).1).out with _ | _ | x <;> rfl

/-- **C179** (unsupported). Without support by compiler and library no program is ever aborted by a trap, and each guard with a mask warns. -/
theorem C179_unsupported (p : Prog) (e : Env) (he : ∀ x, ¬ Traps e x) :
    (∀ x, (exec .other p e).out ≠ .aborted x) ∧ ∀ x, ¬ Traps (exec .other p e).env x := by
  induction p generalizing e with
  | skip => exact ⟨fun _ => Out.noConfusion, he⟩
  | throw => exact ⟨fun _ => Out.noConfusion, he⟩
  | enable m => exact ⟨fun _ => Out.noConfusion, he⟩
  | raise x =>
    unfold exec
    rcases h : raise x e with _ | e'
    · exact absurd (raise_none.1 h) (he x)
    · exact ⟨fun _ => Out.noConfusion, fun y hy => he y ((traps_raise h y).1 hy)⟩
  | guard m p ih =>
    have := ih _ (traps_other m e)
    unfold exec
    dsimp only
    rcases h : (exec .other p (construct .other m e).1).out with _ | _ | x
    · exact ⟨fun _ => Out.noConfusion, he⟩
    · exact ⟨fun _ => Out.noConfusion, he⟩
    · exact absurd h (this.1 x)
  | seq p q ih1 ih2 =>
    have a := ih1 e he
    unfold exec
    dsimp only
    rcases h : (exec .other p e).out with _ | _ | x
    · exact ih2 _ a.2
    · exact a
    · exact a
  | catch_ p q ih1 ih2 =>
    have a := ih1 e he
    unfold exec
    dsimp only
    rcases h : (exec .other p e).out with _ | _ | x
    · exact a
    · exact ih2 _ a.2
    · exact a

/-- **C179** (warning). A guard with a mask warns about it, first of all, exactly if traps cannot be enabled. -/
theorem C179_warning (pl : Platform) (m : BitVec 32) (e : Env) :
    (exec pl (.guard m .skip) e).warned = if pl = .other ∧ m ≠ 0 then [m] else [] := by
  unfold exec construct
  dsimp only
  by_cases hm : m = 0
  · subst hm
    simp [exec]
  · rw [if_pos hm]
    cases pl <;> simp [exec, enable]
    exact hm

/-! ### Start of the program -/

/-- **C179** (set-up). After the set-up at the start of SMASH poles, domain errors and overflows trap in addition to what did before, in both units;
without support nothing changes and there is a warning for each of the three. -/
theorem C179_setup (pl : Platform) (e : Env) :
    (pl ≠ .other → (setup pl e).2 = [] ∧ ∀ x,
      (Traps (setup pl e).1 x ↔ Traps e x ∨ x = .divByZero ∨ x = .invalid ∨ x = .overflow) ∧
      (Traps87 (setup pl e).1 x ↔ Traps87 e x ∨ x = .divByZero ∨ x = .invalid ∨ x = .overflow)) ∧
    (pl = .other → setup pl e = (e, [.divByZero, .invalid, .overflow])) := by
  have fl : ∀ x y : Exc, In x y.flag ↔ x = y := by intro x y; cases x <;> cases y <;> decide
  constructor
  · intro hpl
    constructor
    · cases pl <;> first | exact absurd rfl hpl | rfl
    · intro x
      unfold setup
      dsimp only
      rw [traps_enable hpl, traps_enable hpl, traps_enable hpl, traps87_enable hpl, traps87_enable hpl,
        traps87_enable hpl, fl, fl, fl]
      constructor <;> grind
  · rintro rfl
    rfl

/-- The traps of SMASH: of the five exceptions, three trap. -/
example : ∀ x, Traps (setup .glibc Env.initial).1 x ↔ x = .divByZero ∨ x = .invalid ∨ x = .overflow := by
  intro x; cases x <;> decide

/-- **C179** is false for masks: an exception that the mask is said to keep enabled is enabled by it.  Underflows do not abort SMASH, but they do in
the scope of a guard that keeps underflows enabled. -/
theorem C179_keep_false : ∃ (m : BitVec 32) (p : Prog),
    (exec .glibc p (setup .glibc Env.initial).1).out = .done ∧
      (exec .glibc (.guard m p) (setup .glibc Env.initial).1).out = .aborted .underflow :=
  ⟨Exc.underflow.flag, .raise .underflow, by decide, by decide⟩

/-- **C179** is false for nested guards: in the scope of a guard without mask a guard with a mask enables traps again, so that a division by zero in
this scope, which the outer guard should make harmless, aborts SMASH. -/
theorem C179_nested_false : ∃ (m : BitVec 32) (p : Prog),
    (exec .glibc (.guard 0 p) (setup .glibc Env.initial).1).out = .done ∧
      (exec .glibc (.guard 0 (.guard m p)) (setup .glibc Env.initial).1).out = .aborted .divByZero :=
  ⟨Exc.divByZero.flag, .raise .divByZero, by decide, by decide⟩

/-! ### Cases -/

/-- A guarded computation that raises two exceptions and throws is caught outside; afterwards a division by zero aborts again. -/
example : let e := (setup .glibc Env.initial).1
    let p : Prog := .catch_ (.guard 0 (.seq (.raise .overflow) (.seq (.raise .divByZero) .throw))) .skip
    Scoped p ∧ exec .glibc p e = ⟨.done, e, []⟩ ∧
      (exec .glibc (.seq p (.raise .divByZero)) e).out = .aborted .divByZero := by
  refine ⟨⟨trivial, trivial⟩, by decide, by decide⟩

/-- The guard of hadgas_eos.cc:402 lets underflows pass and aborts at a domain error. -/
example : let m := Exc.divByZero.flag ||| Exc.invalid.flag ||| Exc.overflow.flag
    let p : Prog := .seq (.raise .underflow) (.raise .invalid)
    Plain p ∧ expected m p = .aborted .invalid ∧ expected m (.raise .underflow) = .done :=
  ⟨⟨trivial, trivial⟩, by decide, by decide⟩

end Verif.Fpe
