import Verif.Bin.Model
import Mathlib.Data.List.Nodup
import Mathlib.Tactic.Tauto

/-!
# C76: the columns of the particle output

The specification is the table of the user guide (`oscaroutput.cc:695-825`, page "ASCII format"):
for every key the stored type and the particle property it denotes.
-/

namespace Verif.Bin

/-- A value as the documentation types it: `int32_t` or `double`. -/
inductive Field where
  | i (x : W32)
  | d (x : W64)
  deriving DecidableEq, Repr

/-- The documented types. -/
inductive Ty where
  | int32 | double
  deriving DecidableEq, Repr

/-- The documented type of a value. -/
def Field.ty : Field → Ty
  | .i _ => .int32
  | .d _ => .double

/-- The table of the user guide: key, type, property. -/
def docTable : List (String × Ty × (PData → Field)) :=
  [("t", .double, fun p => .d p.pos0), ("x", .double, fun p => .d p.pos1),
   ("y", .double, fun p => .d p.pos2), ("z", .double, fun p => .d p.pos3),
   ("mass", .double, fun p => .d p.effMass),
   ("p0", .double, fun p => .d p.mom0), ("px", .double, fun p => .d p.mom1),
   ("py", .double, fun p => .d p.mom2), ("pz", .double, fun p => .d p.mom3),
   ("pdg", .int32, fun p => .i p.pdg),
   ("ID", .int32, fun p => .i p.id), ("id", .int32, fun p => .i p.id),
   ("charge", .int32, fun p => .i p.charge), ("ncoll", .int32, fun p => .i p.ncoll),
   ("form_time", .double, fun p => .d p.formTime), ("xsecfac", .double, fun p => .d p.xsec),
   ("proc_id_origin", .int32, fun p => .i p.procId),
   ("proc_type_origin", .int32, fun p => .i p.procType),
   ("time_last_coll", .double, fun p => .d p.timeLast),
   ("pdg_mother1", .int32, fun p => .i p.mother1), ("pdg_mother2", .int32, fun p => .i p.mother2),
   ("baryon_number", .int32, fun p => .i p.baryon), ("strangeness", .int32, fun p => .i p.strange),
   ("0", .int32, fun _ => .i 0),
   ("tau", .double, fun p => .d p.tau),
   ("eta", .double, fun p => .d p.eta), ("eta_s", .double, fun p => .d p.eta),
   ("mt", .double, fun p => .d p.mt),
   ("Rap", .double, fun p => .d p.rap), ("y_rap", .double, fun p => .d p.rap),
   ("spin0", .double, fun p => .d p.spin0), ("spinx", .double, fun p => .d p.spin1),
   ("spiny", .double, fun p => .d p.spin2), ("spinz", .double, fun p => .d p.spin3),
   ("perturbative_weight", .double, fun p => .d p.pweight)]

/-- The documented keys. -/
def docKeys : List String := docTable.map (·.1)

/-- "Synonym quantities cannot be given together." -/
def synonyms : List (String × String) := [("ID", "id"), ("eta", "eta_s"), ("Rap", "y_rap")]

/-- The documented type of a key. -/
def docTy (q : String) : Option Ty := (docTable.find? (·.1 == q)).map (·.2.1)

/-- The documented value of a key. -/
def docField (p : PData) (q : String) : Option Field := (docTable.find? (·.1 == q)).map (·.2.2 p)

/-- A list of quantities the documentation allows. -/
def Allowed (qs : List String) : Prop :=
  qs ≠ [] ∧ qs.Nodup ∧ (∀ q ∈ qs, q ∈ docKeys) ∧ ∀ a ∈ synonyms, ¬ (a.1 ∈ qs ∧ a.2 ∈ qs)

/-- A documented row: the value of every quantity, in order. -/
def IsRow (p : PData) (qs : List String) (row : List Field) : Prop :=
  qs.map (docField p) = row.map some

/-- What the formatter hands to the converter, seen as a documented value. -/
def Val.field : Val → Field
  | .int x => .i x
  | .dbl x => .d x
  | .precise x => .d x

theorem mem_docKeys {q : String} : q ∈ docKeys ↔ (units.lookup q).isSome := by
  have he : docKeys = units.map (·.1) := by decide +kernel
  rw [he, List.lookup_isSome_iff]
  simp

/-- Every documented key has a getter returning the documented value. -/
theorem getter_doc {q : String} (h : q ∈ docKeys) :
    ∃ g, getterOf q = some g ∧ ∀ p, docField p q = some (g p).field ∧ docTy q = some (g p).field.ty := by
  simp only [docKeys, docTable, List.map_cons, List.map_nil, List.mem_cons, List.not_mem_nil,
    or_false] at h
  rcases h with h | h | h | h | h | h | h | h | h | h | h | h | h | h | h | h | h | h | h | h | h |
    h | h | h | h | h | h | h | h | h | h | h | h | h | h <;> subst h <;>
    exact ⟨_, by simp [getterOf]; rfl, fun p => ⟨by rfl, by rfl⟩⟩

theorem validate_ok (qs : List String) : validate qs = .ok () ↔ Allowed qs := by
  unfold validate Allowed
  have hrep : (qs.any fun q => decide (1 < qs.count q)) = false ↔ qs.Nodup := by
    rw [List.nodup_iff_count_le_one]
    simp only [List.any_eq_false, decide_eq_true_eq, Nat.not_lt]
    constructor
    · intro h a
      by_cases ha : a ∈ qs
      · exact h a ha
      · rw [List.count_eq_zero_of_not_mem ha]; omega
    · intro h a _
      exact h a
  have hunk : (qs.any fun q => (units.lookup q).isNone) = false ↔ ∀ q ∈ qs, q ∈ docKeys := by
    simp only [List.any_eq_false, Option.isNone_iff_eq_none, mem_docKeys]
    constructor
    · intro h q hq
      exact Option.isSome_iff_ne_none.2 (h q hq)
    · intro h q hq
      exact Option.isSome_iff_ne_none.1 (h q hq)
  have hali : (aliases.any fun a => qs.contains a.1 && qs.contains a.2) = false ↔
      ∀ a ∈ synonyms, ¬ (a.1 ∈ qs ∧ a.2 ∈ qs) := by
    simp [aliases, synonyms, and_comm]
    tauto
  have he : qs.isEmpty = false ↔ qs ≠ [] := by cases qs <;> simp
  rw [← hrep, ← hunk, ← hali, ← he]
  generalize qs.isEmpty = b1
  generalize (qs.any fun q => decide (1 < qs.count q)) = b2
  generalize (qs.any fun q => (units.lookup q).isNone) = b3
  generalize (aliases.any fun a => qs.contains a.1 && qs.contains a.2) = b4
  cases b1 <;> cases b2 <;> cases b3 <;> cases b4 <;> simp

/-- **C76 (validation).** A list of quantities is accepted exactly when the documentation allows it:
not empty, nothing repeated, only documented keys, no two synonyms. -/
theorem C76_accepted (qs : List String) : (∃ f, mkFormatter qs = .ok f) ↔ Allowed qs := by
  rw [← validate_ok]
  unfold mkFormatter
  cases h : validate qs with
  | error e => simp [bind, Except.bind]
  | ok u => simp [bind, Except.bind, pure, Except.pure]

theorem mkFormatter_eq {qs : List String} {f : Formatter} (h : mkFormatter qs = .ok f) :
    f = ⟨qs, qs.filterMap getterOf⟩ ∧ Allowed qs := by
  refine ⟨?_, (C76_accepted qs).1 ⟨f, h⟩⟩
  unfold mkFormatter at h
  cases hv : validate qs with
  | error e => rw [hv] at h; simp [bind, Except.bind] at h
  | ok u => rw [hv] at h; simp [bind, Except.bind, pure, Except.pure] at h; exact h.symm

theorem row_getters {qs : List String} (h : ∀ q ∈ qs, q ∈ docKeys) (p : PData) :
    IsRow p qs ((qs.filterMap getterOf).map fun g => (g p).field) ∧
      qs.map docTy = ((qs.filterMap getterOf).map fun g => (g p).field.ty).map some := by
  unfold IsRow
  induction qs with
  | nil => simp
  | cons q qs ih =>
    obtain ⟨g, hg, hv⟩ := getter_doc (h q (by simp))
    obtain ⟨i1, i2⟩ := ih fun q' hq' => h q' (by simp [hq'])
    simp only [List.map_cons, List.filterMap_cons, hg, (hv p).1, (hv p).2]
    exact ⟨by rw [i1], by rw [i2]⟩

/-- How the documentation stores a value: 4 bytes for an `int32_t`, 8 bytes for a `double`, lowest
byte first. -/
def Field.stored : Field → List Byte
  | .i x => [BitVec.ofNat 8 x.toNat, BitVec.ofNat 8 (x.toNat / 2 ^ 8), BitVec.ofNat 8 (x.toNat / 2 ^ 16),
      BitVec.ofNat 8 (x.toNat / 2 ^ 24)]
  | .d x => [BitVec.ofNat 8 x.toNat, BitVec.ofNat 8 (x.toNat / 2 ^ 8), BitVec.ofNat 8 (x.toNat / 2 ^ 16),
      BitVec.ofNat 8 (x.toNat / 2 ^ 24), BitVec.ofNat 8 (x.toNat / 2 ^ 32),
      BitVec.ofNat 8 (x.toNat / 2 ^ 40), BitVec.ofNat 8 (x.toNat / 2 ^ 48),
      BitVec.ofNat 8 (x.toNat / 2 ^ 56)]

theorem conv_binary (v : Val) : toBinary.conv v = v.field.stored := by
  cases v <;>
    simp [Converter.conv, toBinary, put32, put64, leBytes, Val.field, Field.stored, Nat.div_div_eq_div_mul]

theorem fields_binary (p : PData) (gs : List (PData → Val)) :
    fields toBinary p gs = (gs.map fun g => (g p).field).flatMap Field.stored := by
  induction gs with
  | nil => rfl
  | cons g gs ih =>
    cases gs with
    | nil => simp [fields, conv_binary]
    | cons g' gs =>
      rw [fields, ih, conv_binary]
      · simp [toBinary]
      · simp

theorem line_binary (f : Formatter) (p : PData) :
    particleLine toBinary f p = (f.getters.map fun g => (g p).field).flatMap Field.stored := by
  simp [particleLine, fields_binary]
  rfl

/-- **C76 (binary columns).** With an accepted list of quantities the binary line of a particle is
the documented values of exactly these quantities, in the order of the list, one after the other. -/
theorem C76_binary_line {qs : List String} {f : Formatter} (h : mkFormatter qs = .ok f) (p : PData) :
    ∃ row, IsRow p qs row ∧ particleLine toBinary f p = row.flatMap Field.stored := by
  obtain ⟨rfl, ha⟩ := mkFormatter_eq h
  exact ⟨_, (row_getters ha.2.2.1 p).1, line_binary _ p⟩

/-! ## Text lines -/

/-- `snprintf` with a `%g`-like format: at least one character, no blank, no line end. -/
def TextNumber (g : W64 → List Char) : Prop := ∀ x, g x ≠ [] ∧ ' ' ∉ g x ∧ '\n' ∉ g x

/-- Split a line at the blanks. -/
def splitBlank : List Char → List (List Char)
  | [] => [[]]
  | c :: cs =>
    if c = ' ' then [] :: splitBlank cs
    else match splitBlank cs with
      | [] => [[c]]
      | w :: ws => (c :: w) :: ws

theorem splitBlank_ne_nil (l : List Char) : splitBlank l ≠ [] := by
  cases l with
  | nil => simp [splitBlank]
  | cons c cs =>
    simp only [splitBlank]
    split
    · simp
    · split <;> simp

theorem splitBlank_word (w : List Char) (h : ' ' ∉ w) : splitBlank w = [w] := by
  induction w with
  | nil => rfl
  | cons c cs ih =>
    simp only [List.mem_cons, not_or] at h
    simp [splitBlank, ih h.2, Ne.symm h.1]

theorem splitBlank_sep (w l : List Char) (h : ' ' ∉ w) :
    splitBlank (w ++ ' ' :: l) = w :: splitBlank l := by
  induction w with
  | nil => simp [splitBlank]
  | cons c cs ih =>
    simp only [List.mem_cons, not_or] at h
    simp [splitBlank, ih h.2, Ne.symm h.1]

theorem decimal_ok (x : W32) : decimal x ≠ [] ∧ ' ' ∉ decimal x ∧ '\n' ∉ decimal x := by
  have key : ∀ n : Nat, ∀ c ∈ Nat.toDigits 10 n, c ≠ ' ' ∧ c ≠ '\n' := by
    intro n c hc
    have := Nat.isDigit_of_mem_toDigits (b := 10) (n := n) (by omega) (by omega) hc
    constructor <;> (rintro rfl; revert this; decide)
  unfold decimal
  split
  · refine ⟨by simp, ?_, ?_⟩ <;> (intro hc; simp at hc)
    · exact (key _ _ hc).1 rfl
    · exact (key _ _ hc).2 rfl
  · refine ⟨Nat.toDigits_ne_nil, ?_, ?_⟩ <;> intro hc
    · exact (key _ _ hc).1 rfl
    · exact (key _ _ hc).2 rfl

/-- A text shows a value if it is the decimal notation of the integer, or what one of the two number
formats prints for the double. -/
def Shows (g g9 : W64 → List Char) (w : List Char) : Field → Prop
  | .i x => w = decimal x
  | .d x => w = g x ∨ w = g9 x

theorem fields_text {g g9 : W64 → List Char} (hg : TextNumber g) (hg9 : TextNumber g9) (p : PData)
    (gs : List (PData → Val)) (hne : gs ≠ []) :
    splitBlank (fields (toASCII g g9) p gs) = gs.map (fun a => (toASCII g g9).conv (a p)) := by
  have hb : ∀ v, ' ' ∉ (toASCII g g9).conv v := by
    intro v
    cases v with
    | int x => exact (decimal_ok x).2.1
    | dbl x => exact (hg x).2.1
    | precise x => exact (hg9 x).2.1
  induction gs with
  | nil => exact absurd rfl hne
  | cons a gs ih =>
    cases gs with
    | nil => simp [fields, splitBlank_word _ (hb _)]
    | cons b gs =>
      rw [fields, List.map_cons, ← ih (by simp)]
      · have : (toASCII g g9).separator.toList = [' '] := rfl
        rw [this, List.append_assoc]
        simp only [List.cons_append, List.nil_append]
        exact splitBlank_sep _ _ (hb _)
      · simp

/-- **C76 (text columns).** With an accepted list of `n` quantities the text line of a particle ends
with the only line end in it and splits at the blanks into exactly `n` non-empty words, the `i`-th
showing the documented value of the `i`-th quantity. -/
theorem C76_text_line {g g9 : W64 → List Char} (hg : TextNumber g) (hg9 : TextNumber g9)
    {qs : List String} {f : Formatter} (h : mkFormatter qs = .ok f) (p : PData) :
    ∃ body row, particleLine (toASCII g g9) f p = body ++ ['\n'] ∧ '\n' ∉ body ∧ IsRow p qs row ∧
      (splitBlank body).length = qs.length ∧ (∀ w ∈ splitBlank body, w ≠ []) ∧
      List.Forall₂ (Shows g g9) (splitBlank body) row := by
  obtain ⟨rfl, ha⟩ := mkFormatter_eq h
  obtain ⟨hr, -⟩ := row_getters ha.2.2.1 p
  have hlen : (qs.filterMap getterOf).length = qs.length := by
    have := congrArg List.length hr
    simpa using this.symm
  have hne : qs.filterMap getterOf ≠ [] := by
    intro h0
    rw [h0] at hlen
    exact ha.1 (List.length_eq_zero_iff.1 hlen.symm)
  have hs := fields_text hg hg9 p _ hne
  refine ⟨fields (toASCII g g9) p (qs.filterMap getterOf), _, rfl, ?_, hr, ?_, ?_, ?_⟩
  · have hb : ∀ v, '\n' ∉ (toASCII g g9).conv v := by
      intro v
      cases v with
      | int x => exact (decimal_ok x).2.2
      | dbl x => exact (hg x).2.2
      | precise x => exact (hg9 x).2.2
    clear hs hne hlen hr
    generalize qs.filterMap getterOf = gs
    induction gs with
    | nil => simp [fields]
    | cons a gs ih =>
      cases gs with
      | nil => simpa [fields] using hb _
      | cons b gs =>
        rw [fields]
        · intro hm
          rcases List.mem_append.1 hm with hm | hm
          · rcases List.mem_append.1 hm with hm | hm
            · exact hb _ hm
            · simp [toASCII] at hm
          · exact ih hm
        · simp
  · rw [hs, List.length_map, hlen]
  · rw [hs]
    intro w hw
    obtain ⟨a, -, rfl⟩ := List.mem_map.1 hw
    cases a p with
    | int x => exact (decimal_ok x).1
    | dbl x => exact (hg x).1
    | precise x => exact (hg9 x).1
  · rw [hs, List.forall₂_map_left_iff, List.forall₂_map_right_iff]
    generalize qs.filterMap getterOf = gs
    induction gs with
    | nil => exact .nil
    | cons a gs ih =>
      refine .cons ?_ ih
      cases a p with
      | int x => exact rfl
      | dbl x => exact Or.inl rfl
      | precise x => exact Or.inr rfl

theorem nameLine_split (names : List (List Char)) (hne : names ≠ [])
    (hn : ∀ w ∈ names, w ≠ [] ∧ ' ' ∉ w) :
    ∃ body, nameLine (some ' ') (some '\n') names = body ++ ['\n'] ∧ splitBlank body = names := by
  have key : ∀ (names : List (List Char)) (out : List Char), out ≠ [] →
      (∀ w ∈ names, w ≠ [] ∧ ' ' ∉ w) →
      names.foldl (fun out n => (if out.isEmpty then out else out ++ [' ']) ++ n) out
        = out ++ names.flatMap fun w => ' ' :: w := by
    intro names
    induction names with
    | nil => simp
    | cons w ws ih =>
      intro out ho h
      have : out.isEmpty = false := by simpa using ho
      rw [List.foldl_cons, ih _ (by simp [this]) fun w' hw' => h w' (by simp [hw'])]
      simp [this]
  have spl : ∀ (ws : List (List Char)) (w : List Char), ' ' ∉ w → (∀ w ∈ ws, ' ' ∉ w) →
      splitBlank (w ++ ws.flatMap fun w => ' ' :: w) = w :: ws := by
    intro ws
    induction ws with
    | nil => intro w h _; simp [splitBlank_word w h]
    | cons v vs ih =>
      intro w h h2
      rw [List.flatMap_cons, List.cons_append, splitBlank_sep w _ h,
        ih v (h2 v (by simp)) fun w' hw' => h2 w' (by simp [hw'])]
  cases names with
  | nil => exact absurd rfl hne
  | cons w ws =>
    refine ⟨w ++ ws.flatMap fun w => ' ' :: w, ?_, spl ws w (hn w (by simp)).2
      fun w' hw' => (hn w' (by simp [hw'])).2⟩
    have := key ws w (hn w (by simp)).1 fun w' hw' => hn w' (by simp [hw'])
    simp only [nameLine, Option.toList_some, List.foldl_cons]
    simp only [List.isEmpty_nil, if_true, List.nil_append]
    rw [this]

theorem keys_words {q : String} (h : q ∈ docKeys) :
    (q.toList ≠ [] ∧ ' ' ∉ q.toList) ∧ ∃ u, units.lookup q = some u ∧ u.toList ≠ [] ∧ ' ' ∉ u.toList := by
  simp only [docKeys, docTable, List.map_cons, List.map_nil, List.mem_cons, List.not_mem_nil,
    or_false] at h
  rcases h with h | h | h | h | h | h | h | h | h | h | h | h | h | h | h | h | h | h | h | h | h |
    h | h | h | h | h | h | h | h | h | h | h | h | h | h <;> subst h <;>
    exact ⟨by decide +kernel, _, by rfl, by decide +kernel⟩

/-- **C76 (header lines).** With an accepted list of quantities the line of column names splits into
exactly these names, and the line of units exists and splits into one unit per quantity. -/
theorem C76_header_lines {qs : List String} {f : Formatter} (h : mkFormatter qs = .ok f) :
    (∃ body, quantitiesLine f = body ++ ['\n'] ∧ splitBlank body = qs.map String.toList) ∧
    ∃ line body, unitLine f = some line ∧ line = body ++ ['\n'] ∧
      (splitBlank body).length = qs.length := by
  obtain ⟨rfl, ha⟩ := mkFormatter_eq h
  constructor
  · refine nameLine_split _ (by simpa using ha.1) ?_
    intro w hw
    obtain ⟨q, hq, rfl⟩ := List.mem_map.1 hw
    exact (keys_words (ha.2.2.1 q hq)).1
  · have hm : ∀ qs : List String, (∀ q ∈ qs, q ∈ docKeys) →
        ∃ us, qs.mapM (fun q => units.lookup q) = some us ∧ us.length = qs.length ∧
          ∀ u ∈ us, u.toList ≠ [] ∧ ' ' ∉ u.toList := by
      intro qs
      induction qs with
      | nil => intro _; exact ⟨[], rfl, rfl, by simp⟩
      | cons q qs ih =>
        intro hk
        obtain ⟨us, h1, h2, h3⟩ := ih fun q' hq' => hk q' (by simp [hq'])
        obtain ⟨-, u, hu, hw⟩ := keys_words (hk q (by simp))
        refine ⟨u :: us, by simp [hu, h1], by simp [h2], ?_⟩
        intro v hv
        rcases List.mem_cons.1 hv with rfl | hv
        · exact hw
        · exact h3 v hv
    obtain ⟨us, h1, h2, h3⟩ := hm qs ha.2.2.1
    obtain ⟨body, e1, e2⟩ := nameLine_split (us.map String.toList)
      (by
        intro h0
        have : us = [] := by simpa using h0
        rw [this] at h2
        exact ha.1 (List.length_eq_zero_iff.1 h2.symm))
      (by
        intro w hw
        obtain ⟨u, hu, rfl⟩ := List.mem_map.1 hw
        exact h3 u hu)
    refine ⟨_, body, ?_, e1, ?_⟩
    · simp [unitLine, h1]
    · rw [e2, List.length_map, h2]

/-! ## Chunked writing -/

theorem fields_length {α : Type} (c : Converter α) (p : PData) (gs : List (PData → Val)) :
    (fields c p gs).length = (gs.map fun g => (c.conv (g p)).length).sum
      + (if c.separator.isSome then gs.length - 1 else 0) := by
  induction gs with
  | nil => simp [fields]
  | cons g gs ih =>
    cases gs with
    | nil => simp [fields]
    | cons g' gs =>
      rw [fields]
      · simp only [List.length_append, ih, List.map_cons, List.sum_cons, List.length_cons]
        cases c.separator <;> simp <;> omega
      · simp

theorem singleSize_eq {α : Type} (c : Converter α) (f : Formatter) (p : PData) (h : f.getters ≠ []) :
    singleSize c f p = (particleLine c f p).length := by
  have : f.getters.length ≠ 0 := by simpa using h
  rw [singleSize, if_neg this, particleLine, List.length_append, fields_length]
  cases c.endOfLine <;> simp

theorem chunkLoop_flatten {α : Type} (max : Nat) (lines : List (List α)) (buf : List α) :
    (chunkLoop max lines buf).flatten = buf ++ lines.flatten := by
  induction lines generalizing buf with
  | nil =>
    cases buf <;> simp [chunkLoop]
  | cons l ls ih =>
    simp only [chunkLoop]
    split
    · simp [ih]
    · rw [ih]; simp

theorem chunkLoop_le {α : Type} (max : Nat) (lines : List (List α)) (buf : List α)
    (hb : buf.length ≤ max) (hl : ∀ l ∈ lines, l.length ≤ max) :
    ∀ ch ∈ chunkLoop max lines buf, ch.length ≤ max := by
  induction lines generalizing buf with
  | nil =>
    cases buf with
    | nil => simp [chunkLoop]
    | cons b bs => simpa [chunkLoop] using hb
  | cons l ls ih =>
    simp only [chunkLoop]
    split
    · intro ch hch
      rcases List.mem_cons.1 hch with rfl | hch
      · exact hb
      · exact ih l (hl l (by simp)) (fun l' hl' => hl l' (by simp [hl'])) ch hch
    · rename_i hle
      exact ih _ (by simp; omega) fun l' hl' => hl l' (by simp [hl'])

/-- **C76 (chunks).** Writing a list of particles in chunks, for any buffer size: either the pieces
concatenate to the lines of all particles in order, or nothing is written and an exception is raised,
which happens exactly when there is a particle and its line is longer than half the buffer.  When
no line is longer than the first one, no piece exceeds the buffer. -/
theorem C76_chunks {α : Type} (c : Converter α) {qs : List String} {f : Formatter}
    (h : mkFormatter qs = .ok f) (max : Nat) (ps : List PData) :
    (∀ chunks, writeInChunk c f max ps = some chunks →
      chunks.flatten = (ps.map (particleLine c f)).flatten ∧
      ((∀ p ∈ ps, ∀ q ∈ ps.head?, (particleLine c f p).length ≤ (particleLine c f q).length) →
        ∀ ch ∈ chunks, ch.length ≤ max)) ∧
    (writeInChunk c f max ps = none ↔
      ∃ p rest, ps = p :: rest ∧ 2 * (particleLine c f p).length > max) := by
  obtain ⟨rfl, ha⟩ := mkFormatter_eq h
  have hne : (Formatter.mk qs (qs.filterMap getterOf)).getters ≠ [] := by
    cases hq : qs with
    | nil => exact absurd hq ha.1
    | cons q qs' =>
      obtain ⟨g, hg, -⟩ := getter_doc (ha.2.2.1 q (by simp [hq]))
      simp [hg]
  cases ps with
  | nil => simp [writeInChunk]
  | cons p ps =>
    simp only [writeInChunk, singleSize_eq c _ p hne]
    by_cases h1 : 2 * (particleLine c ⟨qs, qs.filterMap getterOf⟩ p).length > max
    · simp [h1]
    · rw [if_neg h1]
      refine ⟨?_, by
        constructor
        · intro h; split at h <;> cases h
        · rintro ⟨q, rest, he, h2⟩
          cases he
          exact absurd h2 h1⟩
      intro chunks hc
      split at hc
      · rename_i hle
        cases hc
        refine ⟨by simp [dataChunk, List.flatMap], ?_⟩
        intro hl ch hch
        rw [List.mem_singleton] at hch
        subst hch
        have hl' : ∀ q ∈ p :: ps, (particleLine c ⟨qs, qs.filterMap getterOf⟩ q).length
            ≤ (particleLine c ⟨qs, qs.filterMap getterOf⟩ p).length := fun q hq => hl q hq p (by simp)
        refine Nat.le_trans ?_ hle
        rw [dataChunk]
        generalize p :: ps = l at hl' ⊢
        clear hle
        induction l with
        | nil => simp
        | cons q l ih =>
          have i1 := ih fun x hx => hl' x (by simp [hx])
          have i2 := hl' q (by simp)
          simp only [List.flatMap_cons, List.length_append, List.length_cons, Nat.succ_mul]
          omega
      · cases hc
        refine ⟨by rw [chunkLoop_flatten]; rfl, ?_⟩
        intro hl
        refine chunkLoop_le _ _ _ (by simp) ?_
        intro l hl'
        obtain ⟨q, hq, rfl⟩ := List.mem_map.1 hl'
        have := hl q hq p (by simp)
        omega

/-! The hypotheses are met: the four predefined lists are accepted, and so is a custom one, while
each kind of wrong list is refused. -/
example : (mkFormatter oscar2013).isOk ∧ (mkFormatter oscar2013extended).isOk ∧
    (mkFormatter oscar1999).isOk ∧ (mkFormatter vHLLE).isOk ∧
    (mkFormatter ["p0", "pz", "pdg", "charge"]).isOk := by decide +kernel

example : validate [] = .error .empty ∧ validate ["t", "x", "t"] = .error .repeated ∧
    validate ["t", "energy"] = .error .unknown ∧ validate ["eta", "x", "eta_s"] = .error .aliased := by
  decide +kernel

example : TextNumber fun _ => ['1', '.', '5'] := by
  intro x
  refine ⟨by simp, by simp, by simp⟩

end Verif.Bin
