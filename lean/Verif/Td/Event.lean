import Verif.Td.Names

/-!
C150: what one event leaves on the disk.
-/

namespace Verif.Td

open Verif.Bin (Byte W32 W64 put32 put64)

variable {T : Type}

/-- The quantity which a call writes. -/
def Call.out : Call T → Option Quantity
  | .density _ _ => some .eckart
  | .currents _ _ => some .jQBS
  | .tensor q _ _ => if q = .tmn ∨ q = .tmnLandau ∨ q = .vLandau then some q else none
  | _ => none

/-- The numbers of the lattice of a call. -/
def dataItems (p : Par) (o : TensorOps T) : Call T → List Item
  | .density g _ => (nodes g.nx g.ny g.nz).flatMap fun x => cellItems p g.nx x.1 (g.at x)
  | .currents g _ => (nodes g.nx g.ny g.nz).flatMap fun x => rowItems p (g.at x)
  | .tensor q g _ => match q with
    | .tmn => tensorItems p g o.comp
    | .tmnLandau => tensorItems p g (fun v => o.comp (o.landau v))
    | _ => (nodes g.nx g.ny g.nz).flatMap fun x => rowItems p [(o.vel (g.at x)).1, (o.vel (g.at x)).2.1, (o.vel (g.at x)).2.2]
  | _ => []

/-- The time of a call. -/
def Call.time : Call T → W64
  | .density _ t => t
  | .currents _ t => t
  | .tensor _ _ t => t
  | _ => 0

/-- The items of a call for one format. -/
def chunk (p : Par) (o : TensorOps T) (a : Bool) (c : Call T) : List Item :=
  (if a then [Item.num (.scientific 14) c.time, .eol] else dbl c.time) ++ dataItems p o c

/-- Which streams are open. -/
structure Rep (p : Par) (a : Bool) (nm : Quantity → List Char) (st : St) (opn : Quantity → Bool) : Prop where
  on : ∀ q, p.wants q = true → opn q = true → st.streams a q = some ⟨some (nm q), false⟩
  off : ∀ q, p.wants q = true → opn q = false → ∃ b, st.streams a q = some ⟨none, b⟩

theorem ok_bind {α β ε : Type} (x : α) (f : α → Except ε β) : (Except.ok x >>= f) = f x := rfl

theorem write_open {st : St} {a : Bool} {q : Quantity} {f : List Char} (h : st.streams a q = some ⟨some f, false⟩) (l : List Item) :
    write st (some (a, q)) l = .ok { st with disk := Function.update st.disk f (some ((st.disk f).getD [] ++ l)) } := by
  simp only [write, h]

/-- The exclusive choice of a format. -/
structure Single (p : Par) (a : Bool) : Prop where
  ascii : p.ascii = a
  binary : p.binary = !a

theorem writeTime_open {p : Par} {a : Bool} (hp : Single p a) {st : St} {q : Quantity} {f : List Char}
    (h : st.streams a q = some ⟨some f, false⟩) (t : W64) :
    writeTime p st q t = .ok ({ st with disk := Function.update st.disk f (some ((st.disk f).getD [] ++
      (if a then [Item.num (.scientific 14) t, .eol] else dbl t))) }, some (a, q)) := by
  unfold writeTime
  rw [hp.ascii, hp.binary]
  cases a
  · simp only [Bool.false_eq_true, if_false, Bool.not_false, if_true, ok_bind, write_open h]
  · simp only [if_true, ok_bind, write_open h, Bool.not_true, Bool.false_eq_true, if_false]

theorem two_writes (disk : List Char → Option (List Item)) (f : List Char) (x y : List Item) :
    Function.update (Function.update disk f (some ((disk f).getD [] ++ x))) f
      (some (((Function.update disk f (some ((disk f).getD [] ++ x))) f).getD [] ++ y)) =
    Function.update disk f (some ((disk f).getD [] ++ (x ++ y))) := by
  rw [Function.update_idem, Function.update_self]; simp only [Option.getD_some, List.append_assoc]

theorem not_both {p : Par} {a : Bool} (hp : Single p a) : (!p.ascii && !p.binary) = false := by
  rw [hp.ascii, hp.binary]; cases a <;> rfl

theorem step_out {p : Par} {a : Bool} (hp : Single p a) (ok : List Char → Bool) (o : TensorOps T) {st : St} {q : Quantity}
    {f : List Char} (h : st.streams a q = some ⟨some f, false⟩) {c : Call T} (hc : c.out = some q) :
    step p ok o st c = .ok { st with disk := Function.update st.disk f (some ((st.disk f).getD [] ++ chunk p o a c)) } := by
  have hb := not_both hp
  cases c with
  | startD => cases hc
  | startT => cases hc
  | finish => cases hc
  | density g t =>
    cases Option.some.inj hc
    simp only [step, outDensity, writeTime_open hp h, ok_bind, hb, Bool.false_eq_true, if_false]
    rw [write_open (f := f) (by exact h)]
    simp only [two_writes]; rfl
  | currents g t =>
    cases Option.some.inj hc
    simp only [step, outCurrents, writeTime_open hp h, ok_bind, hb, Bool.false_eq_true, if_false]
    rw [write_open (f := f) (by exact h)]
    simp only [two_writes]; rfl
  | tensor q' g t =>
    simp only [Call.out] at hc
    split_ifs at hc with hq
    cases Option.some.inj hc
    have h1 : (q == Quantity.eckart) = false := by rcases hq with rfl | rfl | rfl <;> rfl
    have h2 : (q == Quantity.jQBS) = false := by rcases hq with rfl | rfl | rfl <;> rfl
    simp only [step, outTensor, h1, h2, hb, Bool.or_false, Bool.false_eq_true, if_false, writeTime_open hp h, ok_bind]
    rw [write_open (f := f) (by exact h)]
    simp only [two_writes]
    rcases hq with rfl | rfl | rfl <;> rfl

/-- The call at the start of an event, experiment.h:2199-2236. -/
def startCall (ev : ℕ) (dens : Quantity → Dens) (nx ny nz : ℕ) (s r : W64 × W64 × W64) (q : Quantity) : Call T :=
  if q = .eckart ∨ q = .jQBS then .startD ev q (dens q) nx ny nz s r else .startT ev q (dens q) nx ny nz s r

/-- The header of a file. -/
def header (a : Bool) (nx ny nz : ℕ) (s r : W64 × W64 × W64) (q : Quantity) : List Item :=
  if a then asciiHeader q (⟨nx, ny, nz, s, r, fun _ => ()⟩ : Grid Unit) else binaryHeader q (⟨nx, ny, nz, s, r, fun _ => ()⟩ : Grid Unit)

theorem openWith_ok {a : Bool} {ok : List Char → Bool} (hok : ∀ n, ok n = true) {st : St} {q : Quantity} {b : Bool}
    (h : st.streams a q = some ⟨none, b⟩) (d : Dens) (ev nx ny nz : ℕ) (s r : W64 × W64 × W64) :
    openWith ok st a q q d ev (⟨nx, ny, nz, s, r, fun _ => ()⟩ : Grid Unit) (some (a, q)) =
      .ok ⟨Function.update st.streams a (Function.update (st.streams a) q (some ⟨some (latName (varName q d) ev a), false⟩)),
        Function.update st.disk (latName (varName q d) ev a) (some (header a nx ny nz s r q))⟩ := by
  unfold openWith openFile
  simp only [h, hok, Option.isSome_none, Bool.not_true, Bool.or_self, Bool.false_eq_true, if_false, ok_bind]
  rw [write_open (f := latName (varName q d) ev a) (by simp)]
  simp only [Function.update_self, Option.getD_some, List.nil_append, Function.update_idem, header]

theorem step_start {p : Par} {a : Bool} (hp : Single p a) {ok : List Char → Bool} (hok : ∀ n, ok n = true) (o : TensorOps T)
    {st : St} {q : Quantity} {b : Bool} (h : st.streams a q = some ⟨none, b⟩) (dens : Quantity → Dens) (ev nx ny nz : ℕ)
    (s r : W64 × W64 × W64) :
    step p ok o st (startCall ev dens nx ny nz s r q) =
      .ok ⟨Function.update st.streams a (Function.update (st.streams a) q (some ⟨some (latName (varName q (dens q)) ev a), false⟩)),
        Function.update st.disk (latName (varName q (dens q)) ev a) (some (header a nx ny nz s r q))⟩ := by
  have hb := not_both hp
  have key := openWith_ok hok h (dens q) ev nx ny nz s r
  cases q <;> cases a <;>
    simp [startCall, step, startDensity, startTensor, tensorStream, hb, hp.ascii, hp.binary, ok_bind, key]

theorem step_finish {p : Par} {a : Bool} (hp : Single p a) (ok : List Char → Bool) (o : TensorOps T) {st : St} {q : Quantity}
    {f : List Char} (h : st.streams a q = some ⟨some f, false⟩) :
    step p ok o st (.finish q) =
      .ok { st with streams := Function.update st.streams a (Function.update (st.streams a) q (some ⟨none, false⟩)) } := by
  have hb := not_both hp
  cases a <;> simp [step, finish, hb, hp.ascii, hp.binary, ok_bind, close, h]

theorem run_append (p : Par) (ok : List Char → Bool) (o : TensorOps T) (st : St) (l m : List (Call T)) :
    run p ok o st (l ++ m) = match run p ok o st l with
      | .error e => .error e
      | .ok st' => run p ok o st' m := by
  induction l generalizing st with
  | nil => rfl
  | cons c l ih =>
    rw [List.cons_append]
    simp only [run]
    cases step p ok o st c with
    | error e => rfl
    | ok st' => exact ih st'

section
variable {p : Par} {a : Bool} {ok : List Char → Bool} (o : TensorOps T) {nm : Quantity → List Char}

theorem starts_ok (hp : Single p a) (hok : ∀ n, ok n = true) (dens : Quantity → Dens) (ev nx ny nz : ℕ) (s r : W64 × W64 × W64)
    (hnm : ∀ q, nm q = latName (varName q (dens q)) ev a) (hinj : ∀ q q', nm q = nm q' → q = q') (qs : List Quantity) :
    ∀ (st : St) (opn : Quantity → Bool), qs.Nodup → (∀ q ∈ qs, p.wants q = true) → (∀ q ∈ qs, opn q = false) → Rep p a nm st opn →
      ∃ st', run p ok o st (qs.map (startCall ev dens nx ny nz s r)) = .ok st' ∧ Rep p a nm st' (fun q => opn q || decide (q ∈ qs)) ∧
        (∀ q ∈ qs, st'.disk (nm q) = some (header a nx ny nz s r q)) ∧
        (∀ name, (∀ q ∈ qs, name ≠ nm q) → st'.disk name = st.disk name) := by
  induction qs with
  | nil =>
    intro st opn _ _ _ hr
    exact ⟨st, rfl, by simpa using hr, by simp, fun _ _ => rfl⟩
  | cons q qs ih =>
    intro st opn hnd hw ho hr
    obtain ⟨b, hb⟩ := hr.off q (hw q (by simp)) (ho q (by simp))
    have hs := step_start hp hok o hb dens ev nx ny nz s r
    rw [← hnm q] at hs
    obtain ⟨hnq, hnd'⟩ := List.nodup_cons.1 hnd
    obtain ⟨st', h1, h2, h3, h4⟩ := ih
      ⟨Function.update st.streams a (Function.update (st.streams a) q (some ⟨some (nm q), false⟩)),
        Function.update st.disk (nm q) (some (header a nx ny nz s r q))⟩ (fun x => opn x || decide (x = q)) hnd'
      (fun x hx => hw x (by simp [hx])) (fun x hx => by
        have : x ≠ q := fun h => hnq (h ▸ hx)
        simp [ho x (by simp [hx]), this])
      ⟨fun x hx hox => by
          by_cases e : x = q
          · subst e; simp
          · simp only [Function.update_self, Function.update_of_ne e]
            exact hr.on x hx (by simpa [e] using hox),
        fun x hx hox => by
          simp only [Bool.or_eq_false_iff, decide_eq_false_iff_not] at hox
          simp only [Function.update_self, Function.update_of_ne hox.2]
          exact hr.off x hx hox.1⟩
    refine ⟨st', ?_, ?_, ?_, ?_⟩
    · rw [List.map_cons]; simp only [run, hs]; exact h1
    · have : (fun x => opn x || decide (x ∈ q :: qs)) = fun x => (opn x || decide (x = q)) || decide (x ∈ qs) := by
        funext x; simp [List.mem_cons, Bool.decide_or, Bool.or_assoc]
      rw [this]; exact h2
    · intro x hx
      rcases List.mem_cons.1 hx with rfl | hx
      · rw [h4 _ fun y hy e => hnq (by rw [hinj _ y e]; exact hy)]; simp
      · exact h3 x hx
    · intro name hname
      rw [h4 name fun y hy => hname y (by simp [hy])]
      exact Function.update_of_ne (hname q (by simp)) _ _

theorem outs_ok (hp : Single p a) (hinj : ∀ q q', nm q = nm q' → q = q') (qs : List Quantity) (hw : ∀ q ∈ qs, p.wants q = true) (cs : List (Call T)) :
    ∀ st : St, Rep p a nm st (fun q => decide (q ∈ qs)) → (∀ c ∈ cs, ∃ q ∈ qs, c.out = some q) →
      ∃ st', run p ok o st cs = .ok st' ∧ Rep p a nm st' (fun q => decide (q ∈ qs)) ∧
        (∀ q ∈ qs, ∀ x, st.disk (nm q) = some x →
          st'.disk (nm q) = some (x ++ (cs.filter fun c => c.out = some q).flatMap (chunk p o a))) ∧
        (∀ name, (∀ q ∈ qs, name ≠ nm q) → st'.disk name = st.disk name) := by
  induction cs with
  | nil =>
    intro st hr _
    exact ⟨st, rfl, hr, fun q _ x hx => by simpa using hx, fun _ _ => rfl⟩
  | cons c cs ih =>
    intro st hr hc
    obtain ⟨q, hq, hcq⟩ := hc c (by simp)
    have hopen := hr.on q (hw q hq) (by simpa using hq)
    have hs := step_out hp ok o hopen hcq
    obtain ⟨st', h1, h2, h3, h4⟩ := ih { st with disk := Function.update st.disk (nm q) (some ((st.disk (nm q)).getD [] ++ chunk p o a c)) }
      ⟨hr.on, hr.off⟩ (fun x hx => hc x (by simp [hx]))
    refine ⟨st', ?_, h2, ?_, ?_⟩
    · simp only [run, hs]; exact h1
    · intro y hy x hx
      by_cases e : y = q
      · subst e
        rw [h3 y hy (x ++ chunk p o a c) (by simp [hx])]
        rw [List.filter_cons_of_pos (by simpa using hcq), List.flatMap_cons, List.append_assoc]
      · have hne : nm y ≠ nm q := fun h => e (hinj _ _ h)
        rw [h3 y hy x (by rw [← hx]; exact Function.update_of_ne hne _ _)]
        rw [List.filter_cons_of_neg]
        simp only [hcq, decide_eq_true_eq, Option.some.injEq]
        exact fun h => e h.symm
    · intro name hname
      rw [h4 name hname]; exact Function.update_of_ne (hname q hq) _ _

theorem ends_ok (hp : Single p a) (qs : List Quantity) :
    ∀ (st : St) (opn : Quantity → Bool), qs.Nodup → (∀ q ∈ qs, p.wants q = true) → (∀ q ∈ qs, opn q = true) → Rep p a nm st opn →
      ∃ st', run p ok o st (qs.map .finish) = .ok st' ∧ Rep p a nm st' (fun q => opn q && decide (q ∉ qs)) ∧ st'.disk = st.disk := by
  induction qs with
  | nil =>
    intro st opn _ _ _ hr
    exact ⟨st, rfl, by simpa using hr, rfl⟩
  | cons q qs ih =>
    intro st opn hnd hw ho hr
    have hs := step_finish hp ok o (hr.on q (hw q (by simp)) (ho q (by simp)))
    obtain ⟨hnq, hnd'⟩ := List.nodup_cons.1 hnd
    obtain ⟨st', h1, h2, h3⟩ := ih
      { st with streams := Function.update st.streams a (Function.update (st.streams a) q (some ⟨none, false⟩)) }
      (fun x => opn x && decide (x ≠ q)) hnd' (fun x hx => hw x (by simp [hx])) (fun x hx => by
        have : x ≠ q := fun h => hnq (h ▸ hx)
        simp [ho x (by simp [hx]), this])
      ⟨fun x hx hox => by
          simp only [Bool.and_eq_true, decide_eq_true_eq] at hox
          simp only [Function.update_self, Function.update_of_ne hox.2]
          exact hr.on x hx hox.1,
        fun x hx hox => by
          by_cases e : x = q
          · subst e; exact ⟨false, by simp⟩
          · simp only [Function.update_self, Function.update_of_ne e]
            exact hr.off x hx (by simpa [e] using hox)⟩
    refine ⟨st', ?_, ?_, h3⟩
    · rw [List.map_cons]; simp only [run, hs]; exact h1
    · have : (fun x => opn x && decide (x ∉ q :: qs)) = fun x => (opn x && decide (x ≠ q)) && decide (x ∉ qs) := by
        funext x; simp [List.mem_cons, not_or, Bool.decide_and, Bool.and_assoc]
      rw [this]; exact h2

end

/-- No stream is open. -/
def Idle (p : Par) (a : Bool) (st : St) : Prop := ∀ q, p.wants q = true → ∃ b, st.streams a q = some ⟨none, b⟩

/-- C150: the object starts idle. -/
theorem C150_start {p : Par} {a : Bool} (hp : Single p a) (disk : List Char → Option (List Item)) : Idle p a (init p disk) := by
  intro q hq
  refine ⟨true, ?_⟩
  cases a <;> simp [init, Par.on, hp.ascii, hp.binary, hq]

/-- C150: for every set of quantities, every sequence of outputs and every event below 10 000 000 the event leaves, in one file for each
quantity, the header and the blocks of the outputs of that quantity in their order; all other files stay as they were, nothing
undefined happens and the next event can begin. -/
theorem C150_event {p : Par} {a : Bool} (hp : Single p a) {ok : List Char → Bool} (hok : ∀ n, ok n = true) (o : TensorOps T)
    {st : St} (hst : Idle p a st) (dens : Quantity → Dens) {ev : ℕ} (hev : ev < 10000000) (nx ny nz : ℕ) (s r : W64 × W64 × W64)
    {qs : List Quantity} (hnd : qs.Nodup) (hw : ∀ q ∈ qs, p.wants q = true) {cs : List (Call T)}
    (hcs : ∀ c ∈ cs, ∃ q ∈ qs, c.out = some q) :
    ∃ st', run p ok o st (qs.map (startCall ev dens nx ny nz s r) ++ cs ++ qs.map .finish) = .ok st' ∧ Idle p a st' ∧
      (∀ q ∈ qs, st'.disk (latName (varName q (dens q)) ev a) =
        some (header a nx ny nz s r q ++ (cs.filter fun c => c.out = some q).flatMap (chunk p o a))) ∧
      (∀ name, (∀ q ∈ qs, name ≠ latName (varName q (dens q)) ev a) → st'.disk name = st.disk name) := by
  have hinj : ∀ q q', latName (varName q (dens q)) ev a = latName (varName q' (dens q')) ev a → q = q' :=
    fun q q' h => (C150_names hev hev h).1
  obtain ⟨st1, h1, r1, d1, e1⟩ := starts_ok (nm := fun q => latName (varName q (dens q)) ev a) o hp hok dens ev nx ny nz s r (fun _ => rfl) hinj qs st
    (fun _ => false) hnd hw (fun _ _ => rfl) ⟨fun _ _ h => absurd h (by simp), fun q hq _ => hst q hq⟩
  obtain ⟨st2, h2, r2, d2, e2⟩ := outs_ok (ok := ok) o hp hinj qs hw cs st1 (by simpa using r1) hcs
  obtain ⟨st3, h3, r3, d3⟩ := ends_ok (ok := ok) o hp qs st2 _ hnd hw (fun q hq => by simpa using hq) r2
  refine ⟨st3, ?_, ?_, ?_, ?_⟩
  · rw [run_append, run_append, h1]; simp only [h2, h3]
  · intro q hq
    exact r3.off q hq (by simp)
  · intro q hq
    rw [d3]; exact d2 q hq _ (d1 q hq)
  · intro name hname
    rw [d3, e2 name hname, e1 name hname]

end Verif.Td
