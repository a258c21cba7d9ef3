import Verif.Files.Model
import Mathlib.Tactic.SplitIfs
/-! C25 and C26. -/
namespace Verif.Files

/-! ### C25 -/

/-- Object `o` owns the lock of path `p`: its `open` succeeded and it was neither destroyed
nor lost in a crash. -/
def Owns (w : LockWorld) (o p : Nat) : Prop :=
  w.obj o = some ⟨p, .opened⟩ ∨ w.obj o = some ⟨p, .acquired⟩

/-- The file of an owner exists, and a path has at most one owner. -/
def LockInv (w : LockWorld) : Prop :=
  (∀ o p, Owns w o p → w.file p = true) ∧
  ∀ o o' p, Owns w o p → Owns w o' p → o = o'

theorem owns_set_self {w : LockWorld} {o : Nat} {x : LockObj} {p : Nat} :
    Owns (setObj w o x) o p ↔ x = ⟨p, .opened⟩ ∨ x = ⟨p, .acquired⟩ := by
  unfold Owns setObj; simp

theorem owns_set_ne {w : LockWorld} {o o' : Nat} {x : LockObj} {p : Nat} (h : o' ≠ o) :
    Owns (setObj w o x) o' p ↔ Owns w o' p := by
  unfold Owns setObj; simp [h]

theorem inv_keep {w : LockWorld} {o p : Nat} (hw : LockInv w) (x : LockObj)
    (hx : (x = ⟨p, .opened⟩ ∨ x = ⟨p, .acquired⟩) → Owns w o p) (hxp : x.path = p) :
    LockInv (setObj w o x) := by
  have key : ∀ o' q, Owns (setObj w o x) o' q → Owns w o' q := by
    intro o' q h
    by_cases e : o' = o
    · subst e
      rw [owns_set_self] at h
      have : q = p := by rcases h with h | h <;> (rw [h] at hxp; exact hxp)
      subst this
      exact hx h
    · rwa [owns_set_ne e] at h
  exact ⟨fun o' q h => hw.1 o' q (key o' q h),
    fun o1 o2 q h1 h2 => hw.2 o1 o2 q (key _ _ h1) (key _ _ h2)⟩

theorem lockStep_inv {w : LockWorld} {e : LockStep} {r : LockWorld × LockResult}
    (hw : LockInv w) (h : lockStep w e = some r) : LockInv r.1 := by
  cases e with
  | construct o p =>
    simp only [lockStep] at h
    split at h
    · cases h
      exact inv_keep hw ⟨p, .fresh⟩ (by rintro (h | h) <;> cases h) rfl
    · cases h
  | acquireOpen o =>
    simp only [lockStep] at h
    split at h
    · rename_i p hp
      cases h
      exact inv_keep hw ⟨p, .acquired⟩ (fun _ => .inr hp) rfl
    · rename_i p hp
      split at h
      · cases h; exact hw
      · rename_i hf
        cases h
        have nobody : ∀ o', ¬ Owns w o' p := fun o' ho => hf (hw.1 o' p ho)
        have key : ∀ o' q, Owns (setObj (setFile w p true) o ⟨p, .opened⟩) o' q →
            (o' = o ∧ q = p) ∨ (o' ≠ o ∧ q ≠ p ∧ Owns w o' q) := by
          intro o' q h
          by_cases e : o' = o
          · subst e
            rw [owns_set_self] at h
            left
            refine ⟨rfl, ?_⟩
            rcases h with h | h
            · injection h with h; exact h.symm
            · cases h
          · rw [owns_set_ne e] at h
            have h' : Owns w o' q := h
            right
            refine ⟨e, ?_, h'⟩
            rintro rfl
            exact nobody o' h'
        refine ⟨fun o' q h => ?_, fun o1 o2 q h1 h2 => ?_⟩
        · show Function.update w.file p true q = true
          rcases key o' q h with ⟨_, rfl⟩ | ⟨_, hq, ho⟩
          · simp
          · rw [Function.update_of_ne hq]; exact hw.1 o' q ho
        · rcases key o1 q h1 with ⟨rfl, rfl⟩ | ⟨_, hq, ho1⟩
          · rcases key o2 q h2 with ⟨rfl, _⟩ | ⟨_, hq, _⟩
            · rfl
            · exact absurd rfl hq
          · rcases key o2 q h2 with ⟨_, rfl⟩ | ⟨_, _, ho2⟩
            · exact absurd rfl hq
            · exact hw.2 o1 o2 q ho1 ho2
    · cases h
  | acquireFinish o ok =>
    simp only [lockStep] at h
    split at h
    · rename_i p hp
      cases h
      exact inv_keep hw ⟨p, .acquired⟩ (fun _ => .inl hp) rfl
    · cases h
  | destroy o =>
    simp only [lockStep] at h
    split at h
    · rename_i p hp
      cases h
      have key : ∀ o' q, Owns (setObj (setFile w p false) o ⟨p, .gone⟩) o' q →
          Owns w o' q ∧ q ≠ p := by
        intro o' q h
        by_cases e : o' = o
        · subst e
          rw [owns_set_self] at h
          rcases h with h | h <;> cases h
        · rw [owns_set_ne e] at h
          have h' : Owns w o' q := h
          refine ⟨h', ?_⟩
          rintro rfl
          exact e (hw.2 o' o q h' (.inr hp))
      refine ⟨fun o' q h => ?_, fun o1 o2 q h1 h2 => hw.2 o1 o2 q (key _ _ h1).1 (key _ _ h2).1⟩
      show Function.update w.file p false q = true
      rw [Function.update_of_ne (key o' q h).2]
      exact hw.1 o' q (key o' q h).1
    · rename_i p hp
      cases h
      exact inv_keep hw ⟨p, .gone⟩ (by rintro (h | h) <;> cases h) rfl
    · cases h
  | crash o =>
    simp only [lockStep] at h
    split at h
    · cases h
      exact inv_keep hw ⟨_, .gone⟩ (by rintro (h | h) <;> cases h) rfl
    · cases h
      exact inv_keep hw ⟨_, .gone⟩ (by rintro (h | h) <;> cases h) rfl
    · cases h

theorem lockRun_inv {es : List LockStep} {w w' : LockWorld} (hw : LockInv w)
    (h : lockRun w es = some w') : LockInv w' := by
  induction es generalizing w with
  | nil => cases h; exact hw
  | cons e es ih =>
    simp only [lockRun] at h
    cases hs : lockStep w e with
    | none => rw [hs] at h; cases h
    | some r => rw [hs] at h; exact ih (lockStep_inv hw hs) h

theorem init_inv (left : Nat → Bool) : LockInv (lockInit left) := by
  have : ∀ o p, ¬ Owns (lockInit left) o p := by
    rintro o p (h | h) <;> cases h
  exact ⟨fun o p h => absurd h (this o p), fun o _ p h _ => absurd h (this o p)⟩

/-- **C25**, exclusiveness: in every history of any number of processes, with crashes at any
point and any left-over lock files, a path has at most one owner, and its lock file exists
as long as there is an owner. -/
theorem C25_exclusive (left : Nat → Bool) (es : List LockStep) (w : LockWorld)
    (h : lockRun (lockInit left) es = some w) :
    (∀ o o' p, Owns w o p → Owns w o' p → o = o') ∧ ∀ o p, Owns w o p → w.file p = true :=
  ⟨(lockRun_inv (init_inv left) h).2, (lockRun_inv (init_inv left) h).1⟩

/-- **C25**, result of `acquire`: the object becomes owner exactly if the file did not exist;
if it did, `acquire` returns `false` and changes nothing; once the file was created, `acquire`
returns `true` or throws because the file could not be closed, and the object is still
the owner. -/
theorem C25_acquire_result {w : LockWorld} {o : Nat} {p : Nat}
    (hobj : w.obj o = some ⟨p, .fresh⟩) :
    (w.file p = true → lockStep w (.acquireOpen o) = some (w, .returned false)) ∧
    (w.file p = false → ∃ w1, lockStep w (.acquireOpen o) = some (w1, .none) ∧ Owns w1 o p ∧
      w1.file p = true ∧ ∀ ok, ∃ w2, lockStep w1 (.acquireFinish o ok) =
        some (w2, if ok then .returned true else .threw) ∧ Owns w2 o p ∧ w2.file = w1.file) := by
  constructor
  · intro h; simp only [lockStep, hobj, h, if_true]
  · intro h
    refine ⟨setObj (setFile w p true) o ⟨p, .opened⟩, by simp [lockStep, hobj, h], ?_, ?_, ?_⟩
    · rw [owns_set_self]; exact .inl rfl
    · simp [setObj, setFile]
    · intro ok
      refine ⟨setObj (setObj (setFile w p true) o ⟨p, .opened⟩) o ⟨p, .acquired⟩, ?_, ?_, rfl⟩
      · simp [lockStep, setObj]
      · rw [owns_set_self]; exact .inr rfl

/-- **C25**, calling `acquire` on an object that already holds the lock throws and changes
neither the files nor the owner. -/
theorem C25_acquire_twice {w : LockWorld} {o p : Nat} (h : w.obj o = some ⟨p, .acquired⟩) :
    ∃ w', lockStep w (.acquireOpen o) = some (w', .threw) ∧ w'.file = w.file ∧ Owns w' o p := by
  refine ⟨setObj w o ⟨p, .acquired⟩, by simp [lockStep, h], rfl, ?_⟩
  rw [owns_set_self]; exact .inr rfl

/-- **C25**, the lock file is never stolen: whatever step makes a lock file disappear is the
destructor of its owner. -/
theorem C25_only_owner_removes {w : LockWorld} {e : LockStep} {r : LockWorld × LockResult}
    (h : lockStep w e = some r) (p : Nat) (hf : w.file p = true) (hf' : r.1.file p = false) :
    ∃ o, e = .destroy o ∧ w.obj o = some ⟨p, .acquired⟩ := by
  cases e with
  | construct o q =>
    simp only [lockStep] at h
    split at h <;> cases h
    exact absurd (hf.symm.trans hf') (by decide)
  | acquireOpen o =>
    simp only [lockStep] at h
    split at h
    · cases h; exact absurd (hf.symm.trans hf') (by decide)
    · rename_i q _
      split at h
      · cases h; exact absurd (hf.symm.trans hf') (by decide)
      · cases h
        have hf' : Function.update w.file q true p = false := hf'
        by_cases e : p = q
        · subst e; simp at hf'
        · rw [Function.update_of_ne e, hf] at hf'; cases hf'
    · cases h
  | acquireFinish o ok =>
    simp only [lockStep] at h
    split at h <;> cases h
    exact absurd (hf.symm.trans hf') (by decide)
  | destroy o =>
    simp only [lockStep] at h
    split at h
    · rename_i q hq
      cases h
      have hf' : Function.update w.file q false p = false := hf'
      by_cases e : p = q
      · subst e; exact ⟨o, rfl, hq⟩
      · rw [Function.update_of_ne e, hf] at hf'; cases hf'
    · cases h; exact absurd (hf.symm.trans hf') (by decide)
    · cases h
  | crash o =>
    simp only [lockStep] at h
    split at h <;> cases h <;> exact absurd (hf.symm.trans hf') (by decide)

/-- **C25**, the destructor of the owner removes its file. -/
theorem C25_owner_removes {w : LockWorld} {o p : Nat} (h : w.obj o = some ⟨p, .acquired⟩) :
    ∃ w', lockStep w (.destroy o) = some (w', .none) ∧ w'.file p = false ∧
      (∀ q, q ≠ p → w'.file q = w.file q) ∧ ¬ Owns w' o p := by
  refine ⟨setObj (setFile w p false) o ⟨p, .gone⟩, by simp [lockStep, h], by simp [setObj, setFile],
    fun q hq => by simp [setObj, setFile, hq], ?_⟩
  rw [owns_set_self]
  rintro (h | h) <;> cases h

/-- A file that exists but has no owner stays, and never gets an owner. -/
theorem orphan_step {w : LockWorld} {e : LockStep} {r : LockWorld × LockResult} {p : Nat}
    (h : lockStep w e = some r) (hf : w.file p = true) (ho : ∀ o, ¬ Owns w o p) :
    r.1.file p = true ∧ ∀ o, ¬ Owns r.1 o p := by
  have hfile : r.1.file p = true := by
    cases hb : r.1.file p with
    | true => rfl
    | false =>
      obtain ⟨o, _, hobj⟩ := C25_only_owner_removes h p hf hb
      exact absurd (.inr hobj) (ho o)
  refine ⟨hfile, ?_⟩
  have key (o : Nat) (x : LockObj) (w0 : LockWorld) (hw0 : w0.obj = w.obj)
      (hx : x.path = p → (x.pc = .opened ∨ x.pc = .acquired) → False) :
      ∀ o', ¬ Owns (setObj w0 o x) o' p := by
    intro o' hown
    by_cases e : o' = o
    · subst e
      rw [owns_set_self] at hown
      rcases hown with rfl | rfl
      · exact hx rfl (.inl rfl)
      · exact hx rfl (.inr rfl)
    · rw [owns_set_ne e] at hown
      unfold Owns at hown
      rw [hw0] at hown
      exact ho o' hown
  cases e with
  | construct o q =>
    simp only [lockStep] at h
    split at h <;> cases h
    exact key _ _ _ rfl (by rintro _ (h | h) <;> cases h)
  | acquireOpen o =>
    simp only [lockStep] at h
    split at h
    · rename_i q hq
      cases h
      exact key _ _ _ rfl (fun hqp _ => by subst hqp; exact ho o (.inr hq))
    · rename_i q _
      split at h
      · cases h; exact ho
      · rename_i hnf
        cases h
        exact key _ _ _ rfl (fun hqp _ => by subst hqp; exact hnf hf)
    · cases h
  | acquireFinish o ok =>
    simp only [lockStep] at h
    split at h
    · rename_i q hq
      cases h
      exact key _ _ _ rfl (fun hqp _ => by subst hqp; exact ho o (.inl hq))
    · cases h
  | destroy o =>
    simp only [lockStep] at h
    split at h
    · cases h; exact key _ _ _ rfl (by rintro _ (h | h) <;> cases h)
    · cases h; exact key _ _ _ rfl (by rintro _ (h | h) <;> cases h)
    · cases h
  | crash o =>
    simp only [lockStep] at h
    split at h
    · cases h; exact key _ _ _ rfl (by rintro _ (h | h) <;> cases h)
    · cases h; exact key _ _ _ rfl (by rintro _ (h | h) <;> cases h)
    · cases h

/-- **C25**, crash: once the owner of a path has crashed, its lock file is never removed and
the path never has an owner again, whatever the other processes do: they are kept out. -/
theorem C25_crash (left : Nat → Bool) (es es' : List LockStep) (w w1 w' : LockWorld)
    (r : LockResult) (o p : Nat) (h : lockRun (lockInit left) es = some w) (ho : Owns w o p)
    (hc : lockStep w (.crash o) = some (w1, r)) (h' : lockRun w1 es' = some w') :
    w'.file p = true ∧ ∀ o', ¬ Owns w' o' p := by
  have hinv := lockRun_inv (init_inv left) h
  have h1 : w1.file p = true ∧ ∀ o', ¬ Owns w1 o' p := by
    have hw1 : w1 = setObj w o ⟨p, .gone⟩ := by
      simp only [lockStep] at hc
      rcases ho with ho | ho <;> (rw [ho] at hc; simp at hc; exact hc.1.symm)
    subst hw1
    refine ⟨hinv.1 o p ho, fun o' hown => ?_⟩
    by_cases e : o' = o
    · subst e
      rw [owns_set_self] at hown
      rcases hown with h | h <;> cases h
    · rw [owns_set_ne e] at hown
      exact e (hinv.2 o' o p hown ho)
  clear hc h ho hinv
  induction es' generalizing w1 with
  | nil => cases h'; exact h1
  | cons e es ih =>
    simp only [lockRun] at h'
    cases hs : lockStep w1 e with
    | none => rw [hs] at h'; cases h'
    | some q => rw [hs] at h'; exact ih q.1 h' (orphan_step hs h1.1 h1.2)

/-- Non-vacuity: two processes compete; the first wins, the second is refused, the first
finishes and a third object gets the lock. -/
example : (lockRun (lockInit fun _ => false)
    [.construct 0 7, .construct 1 7, .acquireOpen 0, .acquireOpen 1, .acquireFinish 0 true,
     .destroy 0, .construct 2 7, .acquireOpen 2, .crash 2, .acquireOpen 1]).isSome = true := by
  decide +kernel

/-! ### C26 -/

/-- Invariant: without I/O errors, the unfinished file plus the buffer hold everything
written; the final name still has its old content until everything written is renamed
to it. -/
def RenInv (fs : Path → Option Data) (p : Path) (w : RenWorld) : Prop :=
  (∀ q, q ≠ p → q ≠ unfinished p → w.fs q = fs q) ∧
  match w.pc with
  | .before => w.fs = fs ∧ w.buffered = [] ∧ w.written = [] ∧ w.ioError = false
  | .open_ => w.fs p = fs p ∧ ∃ d, w.fs (unfinished p) = some d ∧
      (w.ioError = false → d ++ w.buffered = w.written)
  | .closed => w.fs p = fs p ∧ w.buffered = [] ∧ ∃ d, w.fs (unfinished p) = some d ∧
      (w.ioError = false → d = w.written)
  | .done => (w.fs p = fs p ∧ ∃ d, w.fs (unfinished p) = some d ∧ (w.ioError = false → d = w.written)) ∨
      (w.fs (unfinished p) = none ∧ ∃ d, w.fs p = some d ∧ (w.ioError = false → d = w.written))
  | .crashed => (w.fs p = fs p ∧ (w.fs (unfinished p) = fs (unfinished p) ∨
      ∃ d, w.fs (unfinished p) = some d ∧ (w.ioError = false → d <+: w.written))) ∨
      (w.fs (unfinished p) = none ∧ ∃ d, w.fs p = some d ∧ (w.ioError = false → d = w.written))

theorem unfinished_ne (p : Path) : p ≠ unfinished p := by
  intro h
  have := congrArg List.length h
  simp [unfinished] at this

theorem renStep_inv {fs : Path → Option Data} {p : Path} {w w' : RenWorld} {e : RenStep}
    (hw : RenInv fs p w) (h : renStep p w e = some w') : RenInv fs p w' := by
  obtain ⟨ho, hpc⟩ := hw
  have hne := unfinished_ne p
  cases e with
  | open_ exc =>
    simp only [renStep] at h
    split_ifs at h with hb
    cases h
    rw [hb] at hpc
    obtain ⟨h1, h2, h3, h4⟩ := hpc
    refine ⟨fun q hq hq' => by simp [hq', h1], ?_⟩
    refine ⟨by simp [hne, h1], [], by simp, fun _ => by simp [h2, h3]⟩
  | write d =>
    simp only [renStep] at h
    split_ifs at h with hb
    cases h
    rw [hb] at hpc
    obtain ⟨h1, d', h2, h3⟩ := hpc
    refine ⟨ho, ?_⟩
    simp only [hb]
    exact ⟨h1, d', h2, fun he => by rw [← List.append_assoc, h3 he]⟩
  | flush n ok =>
    simp only [renStep] at h
    split_ifs at h with hb hok
    · cases h
      rw [hb] at hpc
      obtain ⟨h1, d', h2, h3⟩ := hpc
      refine ⟨fun q hq hq' => by simp [appendTo, hq', ho q hq hq'], ?_⟩
      simp only [hb]
      refine ⟨by simp [appendTo, hne, h1], d' ++ w.buffered.take n, by simp [appendTo, h2], ?_⟩
      intro he
      rw [List.append_assoc, List.take_append_drop, h3 he]
    · cases h
      rw [hb] at hpc
      obtain ⟨h1, d', h2, h3⟩ := hpc
      refine ⟨ho, ?_⟩
      simp only [hb]
      exact ⟨h1, d', h2, fun he => by cases he⟩
  | close ok =>
    simp only [renStep] at h
    split_ifs at h with hb hok
    · cases h
      rw [hb] at hpc
      obtain ⟨h1, d', h2, h3⟩ := hpc
      refine ⟨fun q hq hq' => by simp [appendTo, hq', ho q hq hq'], ?_⟩
      exact ⟨by simp [appendTo, hne, h1], rfl, d' ++ w.buffered, by simp [appendTo, h2],
        fun he => h3 he⟩
    · cases h
      rw [hb] at hpc
      obtain ⟨h1, d', h2, h3⟩ := hpc
      exact ⟨ho, h1, rfl, d', h2, fun he => by cases he⟩
  | finish exc =>
    simp only [renStep] at h
    split_ifs at h with hb he
    · cases h
      rw [hb] at hpc
      obtain ⟨h1, _, d', h2, h3⟩ := hpc
      refine ⟨fun q hq hq' => by simp [hq, hq', ho q hq hq'], .inr ?_⟩
      exact ⟨by simp, d', by simp [hne, h2], h3⟩
    · cases h
      rw [hb] at hpc
      obtain ⟨h1, _, d', h2, h3⟩ := hpc
      exact ⟨ho, .inl ⟨h1, d', h2, h3⟩⟩
  | crash =>
    simp only [renStep] at h
    cases h
    refine ⟨ho, ?_⟩
    cases hb : w.pc <;> rw [hb] at hpc
    · exact .inl ⟨by simp [hpc.1], .inl (by simp [hpc.1])⟩
    · obtain ⟨h1, d', h2, h3⟩ := hpc
      exact .inl ⟨h1, .inr ⟨d', h2, fun he => ⟨w.buffered, h3 he⟩⟩⟩
    · obtain ⟨h1, _, d', h2, h3⟩ := hpc
      exact .inl ⟨h1, .inr ⟨d', h2, fun he => by rw [h3 he]; exact List.prefix_refl _⟩⟩
    · rcases hpc with ⟨h1, d', h2, h3⟩ | h
      · exact .inl ⟨h1, .inr ⟨d', h2, fun he => by rw [h3 he]; exact List.prefix_refl _⟩⟩
      · exact .inr h
    · exact hpc

theorem renRun_inv {fs : Path → Option Data} {p : Path} {es : List RenStep} {w w' : RenWorld}
    (hw : RenInv fs p w) (h : renRun p w es = some w') : RenInv fs p w' := by
  induction es generalizing w with
  | nil => cases h; exact hw
  | cons e es ih =>
    simp only [renRun] at h
    cases hs : renStep p w e with
    | none => rw [hs] at h; cases h
    | some r => rw [hs] at h; exact ih (renStep_inv hw hs) h

theorem ren_init_inv (fs : Path → Option Data) (p : Path) : RenInv fs p (renInit fs) :=
  ⟨fun _ _ _ => rfl, rfl, rfl, rfl, rfl⟩

/-- **C26**, crash points: after every history of writes and library flushes, stopped at any
point, no other file was touched, and the final name has either the content it had before
the run or, if the library reported no error while writing, everything that the program
wrote. Missing: `fclose` failing (`C26_io_error`). -/
theorem C26_final_name_complete_partial (fs : Path → Option Data) (p : Path) (es : List RenStep)
    (w : RenWorld) (h : renRun p (renInit fs) es = some w) (hio : w.ioError = false) :
    (∀ q, q ≠ p → q ≠ unfinished p → w.fs q = fs q) ∧
    (w.fs p = fs p ∨ w.fs p = some w.written) := by
  obtain ⟨ho, hpc⟩ := renRun_inv (ren_init_inv fs p) h
  refine ⟨ho, ?_⟩
  cases hb : w.pc <;> rw [hb] at hpc
  · exact .inl (by rw [hpc.1])
  · exact .inl hpc.1
  · exact .inl hpc.1
  · rcases hpc with ⟨h1, _⟩ | ⟨_, d, h2, h3⟩
    · exact .inl h1
    · exact .inr (by rw [h2, h3 hio])
  · rcases hpc with ⟨h1, _⟩ | ⟨_, d, h2, h3⟩
    · exact .inl h1
    · exact .inr (by rw [h2, h3 hio])


/-- While the destructor has not finished, the final name keeps its old content. -/
theorem ren_before_finish {fs : Path → Option Data} {p : Path} {es : List RenStep}
    {w w' : RenWorld} (hw : w.fs p = fs p) (hno : ∀ exc, .finish exc ∉ es)
    (h : renRun p w es = some w') : w'.fs p = fs p := by
  have hne := unfinished_ne p
  induction es generalizing w with
  | nil => cases h; exact hw
  | cons e es ih =>
    simp only [renRun] at h
    cases hs : renStep p w e with
    | none => rw [hs] at h; cases h
    | some r =>
      rw [hs] at h
      refine ih ?_ (fun exc hm => hno exc (by simp [hm])) h
      cases e with
      | open_ exc => simp only [renStep] at hs; split_ifs at hs; cases hs; simp [hne, hw]
      | write d => simp only [renStep] at hs; split_ifs at hs; cases hs; exact hw
      | flush n ok =>
        simp only [renStep] at hs; split_ifs at hs <;> cases hs
        · simp [appendTo, hne, hw]
        · exact hw
      | close ok =>
        simp only [renStep] at hs; split_ifs at hs <;> cases hs
        · simp [appendTo, hne, hw]
        · exact hw
      | finish exc => exact absurd (by simp) (hno exc)
      | crash => simp only [renStep] at hs; cases hs; exact hw

/-- **C26**, destruction: if the file was opened with `exc` exceptions in flight and is now
closed by the destructor with `exc'` in flight, then it gets its final name, and loses the
unfinished one, exactly if the two numbers agree; otherwise everything stays under the
unfinished name and the final name is as before the run. -/
theorem C26_destructor (fs : Path → Option Data) (p : Path) (exc exc' : Nat) (es : List RenStep)
    (hes : ∀ e ∈ es, (∃ d, e = .write d) ∨ ∃ n, e = .flush n true) :
    ∃ w, renRun p (renInit fs) (.open_ exc :: es ++ [.close true, .finish exc']) = some w ∧
      (exc' = exc → w.fs p = some w.written ∧ w.fs (unfinished p) = none) ∧
      (exc' ≠ exc → w.fs p = fs p ∧ w.fs (unfinished p) = some w.written) ∧
      w.written = es.flatMap (fun | .write d => d | _ => []) := by
  have hne := unfinished_ne p
  have body : ∀ (es : List RenStep) (w : RenWorld),
      (∀ e ∈ es, (∃ d, e = .write d) ∨ ∃ n, e = .flush n true) → w.pc = .open_ → w.ioError = false →
      ∃ w', renRun p w es = some w' ∧ w'.pc = .open_ ∧ w'.excAtCtor = w.excAtCtor ∧
        w'.ioError = false ∧ w'.written = w.written ++ es.flatMap (fun | .write d => d | _ => []) := by
    intro es
    induction es with
    | nil => intro w _ h h'; exact ⟨w, rfl, h, rfl, h', by simp⟩
    | cons e es ih =>
      intro w hes h h'
      rcases hes e (by simp) with ⟨d, rfl⟩ | ⟨n, rfl⟩
      · obtain ⟨w', e1, e2, e3, e4, e5⟩ := ih
          { w with buffered := w.buffered ++ d, written := w.written ++ d }
          (fun x hx => hes x (by simp [hx])) h h'
        refine ⟨w', ?_, e2, e3, e4, by rw [e5]; simp⟩
        simp only [renRun, renStep]
        rw [if_pos h]
        exact e1
      · obtain ⟨w', e1, e2, e3, e4, e5⟩ := ih
          { w with fs := appendTo w.fs (unfinished p) (w.buffered.take n),
                   buffered := w.buffered.drop n }
          (fun x hx => hes x (by simp [hx])) h h'
        refine ⟨w', ?_, e2, e3, e4, by rw [e5]; simp⟩
        simp only [renRun, renStep]
        rw [if_pos h]
        exact e1
  have run_append : ∀ (a b : List RenStep) (w : RenWorld),
      renRun p w (a ++ b) = (renRun p w a).bind fun w => renRun p w b := by
    intro a
    induction a with
    | nil => intro b w; rfl
    | cons e a ih =>
      intro b w
      simp only [List.cons_append, renRun]
      cases renStep p w e with
      | none => rfl
      | some r => exact ih b r
  obtain ⟨w1, r1, p1, x1, i1, wr1⟩ := body es
    { renInit fs with fs := Function.update fs (unfinished p) (some []), pc := .open_,
                      excAtCtor := exc } hes rfl rfl
  have hopen : renRun p (renInit fs) (.open_ exc :: es) = some w1 := by
    simp only [renRun, renStep, renInit, if_true]
    exact r1
  obtain ⟨_, hinv⟩ := renRun_inv (ren_init_inv fs p) hopen
  rw [p1] at hinv
  obtain ⟨h1, d, h2, h3⟩ := hinv
  have h3 := h3 i1
  have x1 : w1.excAtCtor = exc := x1
  have wr1 : w1.written = es.flatMap (fun | .write d => d | _ => []) := by simpa [renInit] using wr1
  rw [run_append, hopen]
  simp only [Option.bind_some, renRun, renStep, p1, if_true, x1]
  by_cases he : exc' = exc
  · simp only [he, if_true, Option.bind_some, ne_eq, not_true_eq_false, false_implies, true_and]
    refine ⟨_, rfl, fun _ => ⟨?_, ?_⟩, wr1⟩
    · simp [hne, appendTo, h2, h3]
    · simp
  · simp only [he, if_false, Option.bind_some, false_implies, true_and]
    refine ⟨_, rfl, fun _ => ⟨?_, ?_⟩, wr1⟩
    · simp [hne, appendTo, h1]
    · simp [appendTo, h2, h3]

/-- **C26**, no shortcut: as long as the destructor has not run, whatever happens, the final
name keeps the content it had before. -/
theorem C26_not_before_destructor (fs : Path → Option Data) (p : Path) (es : List RenStep)
    (w : RenWorld) (hno : ∀ exc, .finish exc ∉ es)
    (h : renRun p (renInit fs) es = some w) : w.fs p = fs p :=
  ren_before_finish rfl hno h

/-- If the C library cannot write the rest of the data when the file is closed, the
incomplete file still gets its final name. -/
theorem C26_io_error : ∃ w, renRun ['x'] (renInit fun _ => none)
    [.open_ 0, .write [1, 2], .close false, .finish 0] = some w ∧
    w.fs ['x'] = some [] ∧ w.written = [1, 2] := by
  refine ⟨_, rfl, ?_, rfl⟩
  decide +kernel

end Verif.Files
