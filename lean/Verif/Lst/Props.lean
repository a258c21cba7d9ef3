import Mathlib.Tactic.Linarith
import Verif.Text.Props
import Verif.Lst.Model
/-
Reading events from external particle lists (C54).
-/
namespace Verif.Lst
open Verif.Text

/-! ### Specification -/

/-- Lines, each followed by a line end. -/
def flat (ls : List Str) : Str := ls.flatMap (· ++ [10])

/-- The line contains " end ". -/
def IsEnd (l : Str) : Prop := [0x20, 0x65, 0x6e, 0x64, 0x20] <:+: l

/-- An event as it is written in a file: some lines and the line that ends it. -/
structure Ev where
  body : List Str
  last : Str

/-- The lines of the event. -/
def Ev.lines (e : Ev) : List Str := e.body ++ [e.last]

/-- A proper event: its last line, and no other, contains " end "; if it has less than five lines,
one of them begins with `#`. -/
def Ev.Proper (e : Ev) : Prop :=
  (∀ l ∈ e.lines, 10 ∉ l) ∧ (∀ l ∈ e.body, ¬ IsEnd l) ∧ IsEnd e.last ∧
    (e.lines.length < 5 → ∃ l ∈ e.lines, l.head? = some 0x23)

/-- What may follow the last event: at most four lines, none of which begins with `#`, and an
incomplete line. -/
def Trailer (ls : List Str) (tail : Str) : Prop :=
  ls.length ≤ 4 ∧ (∀ l ∈ ls, 10 ∉ l ∧ l.head? ≠ some 0x23) ∧ 10 ∉ tail

/-- The contents of a file with these events. -/
def contents (es : List Ev) (trailer : List Str) (tail : Str) : Str :=
  flat (es.flatMap Ev.lines) ++ (flat trailer ++ tail)

/-! ### Lines -/

theorem splitTerm_line {l : Str} (h : 10 ∉ l) (s : Str) :
    splitTerm (l ++ 10 :: s) = (l :: (splitTerm s).1, (splitTerm s).2) := by
  induction l with
  | nil => simp [splitTerm]
  | cons c l ih =>
    have hc : c ≠ 10 := fun hc => h (by simp [hc])
    have hl : 10 ∉ l := fun hc => h (List.mem_cons_of_mem _ hc)
    rw [List.cons_append, splitTerm, if_neg hc, ih hl]

theorem splitTerm_tail {l : Str} (h : 10 ∉ l) : splitTerm l = ([], l) := by
  induction l with
  | nil => rfl
  | cons c l ih =>
    have hc : c ≠ 10 := fun hc => h (by simp [hc])
    have hl : 10 ∉ l := fun hc => h (List.mem_cons_of_mem _ hc)
    rw [splitTerm, if_neg hc, ih hl]

theorem splitTerm_flat {ls : List Str} (h : ∀ l ∈ ls, 10 ∉ l) (s : Str) :
    splitTerm (flat ls ++ s) = (ls ++ (splitTerm s).1, (splitTerm s).2) := by
  induction ls with
  | nil => rfl
  | cons l ls ih =>
    have e : flat (l :: ls) ++ s = l ++ 10 :: (flat ls ++ s) := by simp [flat]
    rw [e, splitTerm_line (h l List.mem_cons_self),
      ih (fun x hx => h x (List.mem_cons_of_mem _ hx))]
    rfl

theorem hasEventsLoop_iff (ls : List Str) (k : Nat) (hk : k ≤ 4) :
    hasEventsLoop k ls = true ↔ 5 ≤ k + ls.length ∨ ∃ l ∈ ls.take (5 - k), l.head? = some 35 := by
  induction ls generalizing k with
  | nil => simp [hasEventsLoop]; omega
  | cons l ls ih =>
    rw [hasEventsLoop]
    by_cases hl : l.head? = some 35
    · rw [if_pos hl]
      refine ⟨fun _ => Or.inr ⟨l, ?_, hl⟩, fun _ => rfl⟩
      rw [show 5 - k = (4 - k) + 1 by omega]
      exact List.mem_cons_self
    · rw [if_neg hl]
      by_cases h4 : k < 4
      · rw [if_pos h4, ih (k + 1) (by omega), show 5 - k = (5 - (k + 1)) + 1 by omega,
          List.take_succ_cons]
        simp only [List.mem_cons, List.length_cons, exists_eq_or_imp, hl, false_or]
        rw [show k + 1 + ls.length = k + (ls.length + 1) by omega]
      · rw [if_neg h4]
        simp only [true_iff, List.length_cons]
        exact Or.inl (by omega)

theorem find_isNone {l : Str} : (find l needle).isNone = true ↔ ¬ IsEnd l := by
  rw [Option.isNone_iff_eq_none, find_none]
  rfl

theorem readLoop_event {body : List Str} (hb : ∀ l ∈ body, ¬ IsEnd l) {last : Str} (hl : IsEnd last)
    (ls : List Str) (tail : Str) :
    readLoop (body ++ last :: ls) tail = (flat body, some (flat (body ++ [last])).length) := by
  induction body with
  | nil =>
    rw [List.nil_append, readLoop, if_neg (by rw [find_isNone]; exact fun h => h hl)]
    simp [flat]
  | cons l body ih =>
    rw [List.cons_append, readLoop, if_pos (find_isNone.2 (hb l List.mem_cons_self)),
      ih (fun x hx => hb x (List.mem_cons_of_mem _ hx))]
    simp [flat]
    omega

/-! ### One file -/

theorem fileHasEvents_event {e : Ev} (he : e.Proper) (pre s : Str) :
    fileHasEvents (pre ++ (flat e.lines ++ s)) (some pre.length) = true := by
  unfold fileHasEvents
  dsimp only
  rw [List.drop_left, splitTerm_flat he.1, hasEventsLoop_iff _ _ (by omega)]
  by_cases h : e.lines.length < 5
  · obtain ⟨l, hl, h35⟩ := he.2.2.2 h
    refine Or.inr ⟨l, ?_, h35⟩
    rw [List.take_append]
    exact List.mem_append_left _ (by rwa [List.take_of_length_le (by omega)])
  · exact Or.inl (by rw [List.length_append]; omega)

theorem fileHasEvents_trailer {ls : List Str} {tail : Str} (h : Trailer ls tail) (pre : Str) :
    fileHasEvents (pre ++ (flat ls ++ tail)) (some pre.length) = false := by
  unfold fileHasEvents
  dsimp only
  rw [List.drop_left, splitTerm_flat (fun l hl => (h.2.1 l hl).1), splitTerm_tail h.2.2,
    ← Bool.not_eq_true, hasEventsLoop_iff _ _ (by omega)]
  have := h.1
  simp only [List.append_nil]
  rintro (h' | ⟨l, hl, h'⟩)
  · omega
  · exact (h.2.1 l (List.mem_of_mem_take hl)).2 h'

/-- Reading the next event of a file. -/
theorem nextEvent_event {fs : Option Int → Option Str} {i : Option Int} {pre s : Str} {e : Ev}
    (he : e.Proper) (hf : fs i = some (pre ++ (flat e.lines ++ s))) (fuel : Nat) :
    nextEvent fs fuel ⟨i, some pre.length⟩ =
      (⟨i, some (pre ++ flat e.lines).length⟩, .ok (flat e.body)) := by
  rw [nextEvent.eq_def]
  dsimp only
  rw [hf]
  dsimp only
  rw [if_pos (fileHasEvents_event he pre s)]
  simp only [Option.getD_some, List.drop_left]
  rw [splitTerm_flat he.1]
  dsimp only
  rw [Ev.lines, List.append_assoc, List.singleton_append, readLoop_event he.2.1 he.2.2.1]
  simp [Nat.add_comm]

/-- Reading beyond the last event of a single file. -/
theorem nextEvent_trailer_single {fs : Option Int → Option Str} {pre : Str}
    {ls : List Str} {tail : Str} (ht : Trailer ls tail)
    (hf : fs none = some (pre ++ (flat ls ++ tail))) (fuel : Nat) :
    nextEvent fs fuel ⟨none, some pre.length⟩ = (⟨none, some pre.length⟩, .error .noEvents) := by
  rw [nextEvent.eq_def]
  dsimp only
  rw [hf]
  dsimp only
  rw [if_neg (by rw [fileHasEvents_trailer ht pre]; exact Bool.false_ne_true)]

/-- Reading beyond the last event of a numbered file. -/
theorem nextEvent_trailer {fs : Option Int → Option Str} {i : Int} {pre : Str}
    {ls : List Str} {tail : Str} (ht : Trailer ls tail)
    (hf : fs (some i) = some (pre ++ (flat ls ++ tail))) (fuel : Nat) :
    nextEvent fs (fuel + 1) ⟨some i, some pre.length⟩ = nextEvent fs fuel ⟨some (i + 1), some 0⟩ := by
  rw [nextEvent.eq_def]
  dsimp only
  rw [hf]
  dsimp only
  rw [if_neg (by rw [fileHasEvents_trailer ht pre]; exact Bool.false_ne_true)]

/-! ### Successive calls -/

/-- A file of the list: events and what follows them. -/
structure File where
  events : List Ev
  trailer : List Str
  tail : Str

def File.Proper (f : File) : Prop := (∀ e ∈ f.events, e.Proper) ∧ Trailer f.trailer f.tail

/-- The texts of the events, without the lines that end them. -/
def texts (es : List Ev) : List (Except Err Str) := es.map fun e => .ok (flat e.body)

def File.contents (f : File) : Str := Lst.contents f.events f.trailer f.tail

theorem calls_error {fs : Option Int → Option Str} {fuel : Nat} {st : St} {e : Err}
    (h : nextEvent fs fuel st = (st, .error e)) (n : Nat) :
    calls fs fuel n st = List.replicate n (.error e) := by
  induction n with
  | zero => rfl
  | succ n ih => rw [calls, h, ih]; rfl

/-- The events of the file that are left. -/
theorem calls_events {fs : Option Int → Option Str} {i : Option Int} {s : Str} (fuel : Nat)
    (es : List Ev) (hes : ∀ e ∈ es, e.Proper) : ∀ (pre : Str) (n : Nat),
    fs i = some (pre ++ (flat (es.flatMap Ev.lines) ++ s)) →
    calls fs fuel n ⟨i, some pre.length⟩ =
      (texts es ++
        calls fs fuel (n - es.length) ⟨i, some (pre ++ flat (es.flatMap Ev.lines)).length⟩).take n := by
  induction es with
  | nil =>
    intro pre n _
    have hl : ∀ (m : Nat) (st : St), (calls fs fuel m st).length = m := by
      intro m
      induction m with
      | zero => intro st; rfl
      | succ m ih => intro st; rw [calls, List.length_cons, ih]
    simp [flat, texts, List.take_of_length_le, hl]
  | cons e es ih =>
    intro pre n hf
    cases n with
    | zero => simp [calls]
    | succ n =>
      have e1 : flat ((e :: es).flatMap Ev.lines) = flat e.lines ++ flat (es.flatMap Ev.lines) := by
        simp [flat]
      rw [e1, List.append_assoc] at hf
      rw [calls, nextEvent_event (hes e List.mem_cons_self) hf, texts, List.map_cons, List.cons_append,
        List.take_succ_cons, e1]
      congr 1
      rw [ih (fun x hx => hes x (List.mem_cons_of_mem _ hx)) (pre ++ flat e.lines) n
        (by rw [List.append_assoc]; exact hf)]
      rw [List.append_assoc, List.length_cons, Nat.add_sub_add_right]
      rfl

/-- **C54.** A single file: the calls return the text of the events in order, each once, and after
that every call reports an error. -/
theorem C54_single {fs : Option Int → Option Str} {f : File} (hf : f.Proper)
    (h : fs none = some f.contents) (fuel n : Nat) :
    calls fs fuel n ⟨none, some 0⟩ =
      (texts f.events ++
        List.replicate (n - f.events.length) (Except.error Err.noEvents)).take n := by
  have h0 : fs none = some ([] ++ (flat (f.events.flatMap Ev.lines) ++ (flat f.trailer ++ f.tail))) := h
  have := calls_events fuel f.events hf.1 [] n h0
  rw [show (([] : Str).length) = 0 from rfl] at this
  rw [this]
  congr 2
  refine calls_error ?_ _
  refine nextEvent_trailer_single hf.2 ?_ fuel
  rw [h0]
  simp

theorem nextEvent_missing {fs : Option Int → Option Str} {st : St} (h : fs st.fileId = none)
    (fuel : Nat) : nextEvent fs fuel st = (st, .error .noFile) := by
  rw [nextEvent.eq_def]
  dsimp only
  rw [h]

/-- The numbered files from `i` on are these, and the one after them does not exist. -/
def Numbered (fs : Option Int → Option Str) : Int → List File → Prop
  | i, [] => fs (some i) = none
  | i, f :: rest => fs (some i) = some f.contents ∧ Numbered fs (i + 1) rest

/-- The first call on a list of files, where `fuel` is at least their number: it does not depend on
`fuel`. -/
theorem nextEvent_files {fs : Option Int → Option Str} : ∀ (files : List File) (i : Int),
    (∀ f ∈ files, f.Proper) → Numbered fs i files →
    ∀ fuel fuel', files.length ≤ fuel → files.length ≤ fuel' →
      nextEvent fs fuel ⟨some i, some 0⟩ = nextEvent fs fuel' ⟨some i, some 0⟩ := by
  intro files
  induction files with
  | nil =>
    intro i _ hn fuel fuel' _ _
    rw [nextEvent_missing (st := ⟨some i, some 0⟩) hn, nextEvent_missing (st := ⟨some i, some 0⟩) hn]
  | cons f files ih =>
    intro i hp hn fuel fuel' h1 h2
    have hf := hp f List.mem_cons_self
    have hc : fs (some i) = some ([] ++ (flat (f.events.flatMap Ev.lines) ++ (flat f.trailer ++ f.tail))) :=
      hn.1
    cases hes : f.events with
    | nil =>
      rw [hes] at hc
      have hc' : fs (some i) = some ([] ++ (flat f.trailer ++ f.tail)) := by rw [hc]; simp [flat]
      obtain ⟨m, rfl⟩ : ∃ m, fuel = m + 1 := ⟨fuel - 1, by simp at h1; omega⟩
      obtain ⟨m', rfl⟩ : ∃ m, fuel' = m + 1 := ⟨fuel' - 1, by simp at h2; omega⟩
      have a1 := nextEvent_trailer hf.2 hc' m
      have a2 := nextEvent_trailer hf.2 hc' m'
      rw [show (([] : Str).length) = 0 from rfl] at a1 a2
      rw [a1, a2]
      exact ih (i + 1) (fun x hx => hp x (List.mem_cons_of_mem _ hx)) hn.2 m m'
        (by simpa using h1) (by simpa using h2)
    | cons e es =>
      rw [hes] at hc
      have e1 : flat ((e :: es).flatMap Ev.lines) = flat e.lines ++ flat (es.flatMap Ev.lines) := by
        simp [flat]
      rw [e1, List.append_assoc] at hc
      have he := hf.1 e (by rw [hes]; exact List.mem_cons_self)
      have a1 := nextEvent_event he hc fuel
      have a2 := nextEvent_event he hc fuel'
      rw [show (([] : Str).length) = 0 from rfl] at a1 a2
      rw [a1, a2]

theorem calls_length (fs : Option Int → Option Str) (fuel : Nat) : ∀ (n : Nat) (st : St),
    (calls fs fuel n st).length = n := by
  intro n
  induction n with
  | zero => intro st; rfl
  | succ n ih => intro st; rw [calls, List.length_cons, ih]

/-- **C54.** Numbered files: the calls return the events of all files, in the order of the files and
within them, each once; files without events are passed over; after the last event every call
reports that there is no further file. -/
theorem C54_numbered {fs : Option Int → Option Str} : ∀ (files : List File) (i : Int),
    (∀ f ∈ files, f.Proper) → Numbered fs i files → ∀ fuel, files.length ≤ fuel → ∀ n,
    calls fs fuel n ⟨some i, some 0⟩ =
      (texts (files.flatMap File.events) ++
        List.replicate (n - (files.flatMap File.events).length) (Except.error Err.noFile)).take n := by
  intro files
  induction files with
  | nil =>
    intro i _ hn fuel _ n
    rw [calls_error (nextEvent_missing (st := ⟨some i, some 0⟩) hn fuel)]
    simp [texts]
  | cons f files ih =>
    intro i hp hn fuel hfuel n
    have hf := hp f List.mem_cons_self
    have hrest : ∀ x ∈ files, x.Proper := fun x hx => hp x (List.mem_cons_of_mem _ hx)
    obtain ⟨m, rfl⟩ : ∃ m, fuel = m + 1 := ⟨fuel - 1, by simp at hfuel; omega⟩
    have hm : files.length ≤ m := by simpa using hfuel
    have h0 : fs (some i) =
        some ([] ++ (flat (f.events.flatMap Ev.lines) ++ (flat f.trailer ++ f.tail))) := hn.1
    have h1 := calls_events (m + 1) f.events hf.1 [] n h0
    rw [show (([] : Str).length) = 0 from rfl, List.nil_append] at h1
    have e2 : texts (f.events ++ files.flatMap File.events) =
        texts f.events ++ texts (files.flatMap File.events) := by
      simp [texts]
    rw [h1, List.flatMap_cons, e2, List.append_assoc, List.length_append]
    -- what is left is read from the next file
    have h2 : ∀ k, calls fs (m + 1) k ⟨some i, some (flat (f.events.flatMap Ev.lines)).length⟩ =
        calls fs (m + 1) k ⟨some (i + 1), some 0⟩ := by
      intro k
      cases k with
      | zero => rfl
      | succ k =>
        have h3 : fs (some i) = some (flat (f.events.flatMap Ev.lines) ++ (flat f.trailer ++ f.tail)) := h0
        rw [calls, calls, nextEvent_trailer hf.2 h3]
        rw [nextEvent_files files (i + 1) hrest hn.2 m (m + 1) hm (by omega)]
    rw [h2, ih (i + 1) hrest hn.2 (m + 1) (by omega)]
    rw [Nat.sub_sub]
    generalize hA : texts f.events = A
    have hlen : A.length = f.events.length := by rw [← hA, texts, List.length_map]
    generalize texts (files.flatMap File.events) ++ List.replicate _ _ = B
    rw [List.take_append (l₁ := A), List.take_append (l₁ := A), hlen, List.take_take, Nat.min_self]


/-! ### Files without event markers -/

theorem readLoop_plain {ls : List Str} (h : ∀ l ∈ ls, ¬ IsEnd l) {tail : Str} (ht : ¬ IsEnd tail) :
    readLoop ls tail = (flat ls ++ (if tail = [] then [] else tail ++ [10]), none) := by
  induction ls with
  | nil =>
    rw [readLoop, if_pos (find_isNone.2 ht)]
    by_cases h0 : tail = []
    · rw [if_pos h0, if_pos h0]; rfl
    · rw [if_neg h0, if_neg h0]; rfl
  | cons l ls ih =>
    rw [readLoop, if_pos (find_isNone.2 (h l List.mem_cons_self)),
      ih (fun x hx => h x (List.mem_cons_of_mem _ hx))]
    simp [flat]

/-- **C54.** A single file in which no line contains " end " is one event, provided it has at least
five complete lines or one of them begins with `#`; a further call is an error. -/
theorem C54_plain_partial {fs : Option Int → Option Str} {ls : List Str} {tail : Str}
    (hl : ∀ l ∈ ls, 10 ∉ l ∧ ¬ IsEnd l) (ht : 10 ∉ tail ∧ ¬ IsEnd tail)
    (hm : ls.length < 5 → ∃ l ∈ ls, l.head? = some 0x23)
    (h : fs none = some (flat ls ++ tail)) (fuel n : Nat) :
    calls fs fuel (n + 1) ⟨none, some 0⟩ =
      .ok (flat ls ++ (if tail = [] then [] else tail ++ [10])) ::
        List.replicate n (Except.error Err.noEvents) := by
  have hs : splitTerm (flat ls ++ tail) = (ls, tail) := by
    rw [splitTerm_flat (fun l h => (hl l h).1), splitTerm_tail ht.1, List.append_nil]
  have hh : fileHasEvents (flat ls ++ tail) (some 0) = true := by
    unfold fileHasEvents
    dsimp only
    rw [List.drop_zero, hs, hasEventsLoop_iff _ _ (by omega)]
    dsimp only
    by_cases h : ls.length < 5
    · obtain ⟨l, h1, h2⟩ := hm h
      exact Or.inr ⟨l, by rwa [List.take_of_length_le (by omega)], h2⟩
    · exact Or.inl (by omega)
  have h1 : nextEvent fs fuel ⟨none, some 0⟩ =
      (⟨none, none⟩, .ok (flat ls ++ (if tail = [] then [] else tail ++ [10]))) := by
    rw [nextEvent.eq_def]
    dsimp only
    rw [h]
    dsimp only
    rw [if_pos hh]
    simp only [Option.getD_some, List.drop_zero]
    rw [hs]
    dsimp only
    rw [readLoop_plain (fun l h => (hl l h).2) ht.2]
    rfl
  have h2 : nextEvent fs fuel ⟨none, none⟩ = (⟨none, none⟩, .error .noEvents) := by
    rw [nextEvent.eq_def]
    dsimp only
    rw [h]
    simp [fileHasEvents]
  rw [calls, h1, calls_error h2]

/-- **C54 (violated).** A file with at most four lines of particles and no comment is taken to have
no events: its particles are never returned. -/
theorem C54_short_plain_false {fs : Option Int → Option Str} {ls : List Str} {tail : Str}
    (h4 : ls.length ≤ 4) (hl : ∀ l ∈ ls, 10 ∉ l ∧ l.head? ≠ some 0x23) (ht : 10 ∉ tail)
    (h : fs none = some (flat ls ++ tail)) (fuel n : Nat) :
    calls fs fuel n ⟨none, some 0⟩ = List.replicate n (.error .noEvents) := by
  have := C54_single (fs := fs) (f := ⟨[], ls, tail⟩) ⟨by simp, h4, hl, ht⟩
    (by rw [h]; simp [File.contents, contents, flat]) fuel n
  rw [this]
  simp [texts]

/-- A file of two events and the following number missing: the header line belongs to the text of the
first event. -/
example : calls (fun i => if i = some 5 then some (lit "#!OSCAR\n1 2\n# event 0 end 0\n# event 1\n3\n# event 1 end 0\n")
      else if i = some 6 then some (lit "\n") else none) 2 3 ⟨some 5, some 0⟩ =
    [.ok (lit "#!OSCAR\n1 2\n"), .ok (lit "# event 1\n3\n"), .error .noFile] := by
  decide +kernel

example : (Ev.mk [lit "#!OSCAR", lit "1 2"] (lit "# event 0 end 0")).Proper := by
  refine ⟨by decide +kernel, ?_, ?_, fun _ => ⟨lit "#!OSCAR", by decide +kernel, by decide +kernel⟩⟩
  · simp only [← find_isNone]
    decide +kernel
  · by_contra h
    rw [← find_isNone] at h
    revert h
    decide +kernel

example : calls (fun _ => some (lit "0 1 2 3\n")) 2 1 ⟨none, some 0⟩ = [.error .noEvents] := by
  decide +kernel

/-! ### Lines to particles -/

/-- The particle of a line, if it has one. -/
def LineResult.toOption {P E : Type} : LineResult P E → Option P
  | .particle p => some p
  | _ => none

/-- **C54.** The particles of an event are those of its meaningful lines, in order, without those of
unknown type; if a line cannot be converted, the first such error is reported. -/
theorem C54_particles {P E : Type} (conv : Str → LineResult P E) (text : Str) :
    ((∀ l ∈ lineParser text, ∀ e, conv l.2 ≠ .failure e) ∧
      readEvent conv text = .ok ((lineParser text).filterMap fun l => (conv l.2).toOption)) ∨
    ∃ a l b e, lineParser text = a ++ l :: b ∧ (∀ x ∈ a, ∀ e, conv x.2 ≠ .failure e) ∧
      conv l.2 = .failure e ∧ readEvent conv text = .error e := by
  unfold readEvent
  generalize lineParser text = ls
  induction ls with
  | nil => exact Or.inl ⟨by simp, rfl⟩
  | cons l ls ih =>
    obtain ⟨k, l⟩ := l
    cases hc : conv l with
    | failure e => exact Or.inr ⟨[], (k, l), ls, e, rfl, by simp, hc, by rw [readLines, hc]⟩
    | unknown =>
      rcases ih with ⟨h1, h2⟩ | ⟨a, l', b, e, h1, h2, h3, h4⟩
      · refine Or.inl ⟨?_, ?_⟩
        · intro x hx e
          rcases List.mem_cons.1 hx with rfl | hx
          · simp [hc]
          · exact h1 x hx e
        · rw [readLines, hc]
          simp [h2, hc, LineResult.toOption]
      · refine Or.inr ⟨(k, l) :: a, l', b, e, by rw [h1]; rfl, ?_, h3, by rw [readLines, hc]; exact h4⟩
        intro x hx e
        rcases List.mem_cons.1 hx with rfl | hx
        · simp [hc]
        · exact h2 x hx e
    | particle p =>
      rcases ih with ⟨h1, h2⟩ | ⟨a, l', b, e, h1, h2, h3, h4⟩
      · refine Or.inl ⟨?_, ?_⟩
        · intro x hx e
          rcases List.mem_cons.1 hx with rfl | hx
          · simp [hc]
          · exact h1 x hx e
        · rw [readLines, hc]
          simp [h2, hc, LineResult.toOption]
      · refine Or.inr ⟨(k, l) :: a, l', b, e, by rw [h1]; rfl, ?_, h3,
          by rw [readLines, hc]; simp [h4]⟩
        intro x hx e
        rcases List.mem_cons.1 hx with rfl | hx
        · simp [hc]
        · exact h2 x hx e

end Verif.Lst
