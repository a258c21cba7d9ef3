import Verif.Bin.Columns
import Mathlib.Data.List.Perm.Subperm

/-!
# C52: the binary output can be read back

The specification is a reader written from the user guide (`binaryoutput.cc:50-200`): it knows the list
of quantities and the documented block layouts and nothing about how the file was written.
-/

namespace Verif.Bin

/-! ## The documented format -/

/-- The blocks of a file.  `label` is the event and ensemble number; only the initial-conditions output
leaves it out. -/
inductive Block where
  | particles (label : Option (W32 × W32)) (rows : List (List Field))
  | interaction (incoming outgoing : List (List Field)) (density weight partialWeight : W64) (type : W32)
  | eventEnd (event ensemble : W32) (impact : W64) (empty : Byte)
  deriving DecidableEq, Repr

/-- The header of a file. -/
structure Header where
  formatVersion : Nat
  formatVariant : Nat
  smashVersion : List Byte
  deriving DecidableEq, Repr

/-- Two bytes, lowest first. -/
def get16 : List Byte → Option (Nat × List Byte)
  | a :: b :: rest => some (a.toNat + 256 * b.toNat, rest)
  | _ => none

/-- Four bytes, lowest first. -/
def get32 : List Byte → Option (W32 × List Byte)
  | a :: b :: c :: d :: rest =>
    some (BitVec.ofNat 32 (a.toNat + 2 ^ 8 * b.toNat + 2 ^ 16 * c.toNat + 2 ^ 24 * d.toNat), rest)
  | _ => none

/-- Eight bytes, lowest first. -/
def get64 : List Byte → Option (W64 × List Byte)
  | a :: b :: c :: d :: e :: f :: g :: h :: rest =>
    some (BitVec.ofNat 64 (a.toNat + 2 ^ 8 * b.toNat + 2 ^ 16 * c.toNat + 2 ^ 24 * d.toNat
      + 2 ^ 32 * e.toNat + 2 ^ 40 * f.toNat + 2 ^ 48 * g.toNat + 2 ^ 56 * h.toNat), rest)
  | _ => none

/-- One value of a documented type. -/
def getField : Ty → List Byte → Option (Field × List Byte)
  | .int32, l => (get32 l).map fun r => (.i r.1, r.2)
  | .double, l => (get64 l).map fun r => (.d r.1, r.2)

/-- One particle line. -/
def getRow : List Ty → List Byte → Option (List Field × List Byte)
  | [], l => some ([], l)
  | t :: ts, l => do
    let (v, l) ← getField t l
    let (vs, l) ← getRow ts l
    pure (v :: vs, l)

/-- A given number of particle lines. -/
def getRows (tys : List Ty) : Nat → List Byte → Option (List (List Field) × List Byte)
  | 0, l => some ([], l)
  | n + 1, l => do
    let (r, l) ← getRow tys l
    let (rs, l) ← getRows tys n l
    pure (r :: rs, l)

/-- One block.  `labelled` tells whether a `'p'` block carries the event and ensemble numbers. -/
def getBlock (labelled : Bool) (tys : List Ty) : List Byte → Option (Block × List Byte)
  | [] => none
  | c :: l =>
    if c = 112 then do                      -- 'p'
      let (label, l) ← if labelled then (do
          let (ev, l) ← get32 l
          let (en, l) ← get32 l
          pure (some (ev, en), l)) else some (none, l)
      let (n, l) ← get32 l
      let (rows, l) ← getRows tys n.toNat l
      pure (.particles label rows, l)
    else if c = 105 then do                 -- 'i'
      let (nin, l) ← get32 l
      let (nout, l) ← get32 l
      let (d, l) ← get64 l
      let (w, l) ← get64 l
      let (pw, l) ← get64 l
      let (ty, l) ← get32 l
      let (inc, l) ← getRows tys nin.toNat l
      let (out, l) ← getRows tys nout.toNat l
      pure (.interaction inc out d w pw ty, l)
    else if c = 102 then do                 -- 'f'
      let (ev, l) ← get32 l
      let (en, l) ← get32 l
      let (b, l) ← get64 l
      match l with
      | e :: l => pure (.eventEnd ev en b e, l)
      | [] => none
    else none

/-- Blocks until the end of the file; every block takes at least one byte, so the number of bytes bounds
the number of blocks. -/
def getBlocks (labelled : Bool) (tys : List Ty) : Nat → List Byte → Option (List Block)
  | _, [] => some []
  | 0, _ :: _ => none
  | n + 1, l => do
    let (b, l) ← getBlock labelled tys l
    let bs ← getBlocks labelled tys n l
    pure (b :: bs)

/-- The file header: "SMSH", format version, format variant, length, SMASH version. -/
def getHeader : List Byte → Option (Header × List Byte)
  | a :: b :: c :: d :: l => do
    if [a, b, c, d] ≠ [83, 77, 83, 72] then none
    let (v, l) ← get16 l
    let (x, l) ← get16 l
    let (n, l) ← get32 l
    if l.length < n.toNat then none
    else pure (⟨v, x, l.take n.toNat⟩, l.drop n.toNat)
  | _ => none

/-- The whole file. -/
def readFile (labelled : Bool) (tys : List Ty) (file : List Byte) : Option (Header × List Block) := do
  let (h, l) ← getHeader file
  let bs ← getBlocks labelled tys l.length l
  pure (h, bs)

/-- The documented types of an allowed list of quantities. -/
def tysOf (qs : List String) : List Ty := qs.filterMap docTy

/-- The documented rows of a list of particles. -/
def rowsOf (qs : List String) (ps : List PData) : List (List Field) :=
  ps.map fun p => qs.filterMap (docField p)

/-- What the documentation says each output contains.
* Collisions: every interaction, and at the beginning and end of an event the particle list if this was
  requested; an event end line at every event end.
* Particles: the particle list at every event start, output time and event end, reduced to the event
  end by `Only_Final: Yes`, and to the ends of non-empty events by `Only_Final: IfNotEmpty`; an event end
  line at every event end.
* Initial conditions: the particles of every fluidisation; an event end line at every event end. -/
def documented (k : Kind) (qs : List String) : Call → List Block
  | .eventStart ps ev en =>
    if k = .collisions true ∨ k = .particles .no then [.particles (some (ev, en)) (rowsOf qs ps)] else []
  | .intermediate ps ev en =>
    if k = .particles .no then [.particles (some (ev, en)) (rowsOf qs ps)] else []
  | .eventEnd ps ev en b e =>
    (if k = .collisions true ∨ k = .particles .no ∨ k = .particles .yes ∨
        (k = .particles .ifNotEmpty ∧ e = false)
      then [.particles (some (ev, en)) (rowsOf qs ps)] else [])
      ++ [.eventEnd ev en b (if e then 1 else 0)]
  | .interaction inc out d w pw ty =>
    match k with
    | .collisions _ => [.interaction (rowsOf qs inc) (rowsOf qs out) d w pw ty]
    | .particles _ => []
    | .initialConditions =>
      if ty = 8 ∨ ty = 21 then [.particles none (rowsOf qs inc)] else []

/-- The documented format variant: 0 for the OSCAR2013 columns, 1 for the extended ones, 2 otherwise. -/
def docVariant (qs : List String) : Nat :=
  if qs = ["t", "x", "y", "z", "mass", "p0", "px", "py", "pz", "pdg", "ID", "charge"] then 0
  else if qs = ["t", "x", "y", "z", "mass", "p0", "px", "py", "pz", "pdg", "ID", "charge", "ncoll",
    "form_time", "xsecfac", "proc_id_origin", "proc_type_origin", "time_last_coll", "pdg_mother1",
    "pdg_mother2", "baryon_number", "strangeness"] then 1
  else 2

/-- The numbers of particles a call may have to write. -/
def Call.counts : Call → List Nat
  | .eventStart ps _ _ => [ps.length]
  | .intermediate ps _ _ => [ps.length]
  | .eventEnd ps _ _ _ _ => [ps.length]
  | .interaction inc out _ _ _ _ => [inc.length, out.length]

/-- Particle numbers fit into the 32-bit counters of the format. -/
def Call.Fits (c : Call) : Prop := ∀ n ∈ c.counts, n < 2 ^ 32

/-! ## Reading back single values -/

theorem get32_put (x : W32) (l : List Byte) : get32 (put32 x ++ l) = some (x, l) := by
  simp only [put32, leBytes, List.cons_append, List.nil_append, get32, BitVec.toNat_ofNat]
  congr 2
  apply BitVec.eq_of_toNat_eq
  have := x.isLt
  rw [BitVec.toNat_ofNat]
  omega

theorem get32_size {n : Nat} (h : n < 2 ^ 32) (l : List Byte) :
    get32 (leBytes 4 n ++ l) = some (BitVec.ofNat 32 n, l) := by
  have := get32_put (BitVec.ofNat 32 n) l
  rwa [put32, BitVec.toNat_ofNat, Nat.mod_eq_of_lt h] at this

theorem get64_put (x : W64) (l : List Byte) : get64 (put64 x ++ l) = some (x, l) := by
  simp only [put64, leBytes, List.cons_append, List.nil_append, get64, BitVec.toNat_ofNat]
  congr 2
  apply BitVec.eq_of_toNat_eq
  have := x.isLt
  rw [BitVec.toNat_ofNat]
  omega

theorem get16_put {n : Nat} (h : n < 2 ^ 16) (l : List Byte) : get16 (put16 n ++ l) = some (n, l) := by
  simp only [put16, leBytes, List.cons_append, List.nil_append, get16, BitVec.toNat_ofNat]
  congr 2
  omega

theorem getField_stored (v : Field) (l : List Byte) : getField v.ty (v.stored ++ l) = some (v, l) := by
  cases v with
  | i x =>
    have := get32_put x l
    simp only [put32, leBytes, Nat.div_div_eq_div_mul] at this
    simp only [Field.ty, Field.stored, getField]
    rw [this]; rfl
  | d x =>
    have := get64_put x l
    simp only [put64, leBytes, Nat.div_div_eq_div_mul] at this
    simp only [Field.ty, Field.stored, getField]
    rw [this]; rfl

theorem getRow_stored (row : List Field) (l : List Byte) :
    getRow (row.map Field.ty) (row.flatMap Field.stored ++ l) = some (row, l) := by
  induction row with
  | nil => rfl
  | cons v vs ih =>
    simp only [List.map_cons, List.flatMap_cons, List.append_assoc, getRow, getField_stored,
      Option.bind_eq_bind, Option.bind_some, ih, Option.pure_def]

theorem filterMap_of_map_some {α β : Type} {f : α → Option β} {l : List α} {r : List β}
    (h : l.map f = r.map some) : l.filterMap f = r := by
  induction l generalizing r with
  | nil => cases r with
    | nil => rfl
    | cons b bs => simp at h
  | cons a l ih =>
    cases r with
    | nil => simp at h
    | cons b bs =>
      simp only [List.map_cons, List.cons.injEq] at h
      simp [h.1, ih h.2]

theorem line_row {qs : List String} {f : Formatter} (h : mkFormatter qs = .ok f) (p : PData) :
    particleLine toBinary f p = (qs.filterMap (docField p)).flatMap Field.stored ∧
      (qs.filterMap (docField p)).map Field.ty = tysOf qs := by
  obtain ⟨rfl, ha⟩ := mkFormatter_eq h
  obtain ⟨h1, h2⟩ := row_getters ha.2.2.1 p
  have e1 := filterMap_of_map_some h1
  have e2 := filterMap_of_map_some h2
  refine ⟨by rw [e1, line_binary], ?_⟩
  rw [e1, tysOf, e2, List.map_map]
  rfl

theorem getRows_lines {qs : List String} {f : Formatter} (h : mkFormatter qs = .ok f)
    (ps : List PData) (l : List Byte) :
    getRows (tysOf qs) ps.length ((ps.map (particleLine toBinary f)).flatten ++ l)
      = some (rowsOf qs ps, l) := by
  induction ps with
  | nil => rfl
  | cons p ps ih =>
    obtain ⟨h1, h2⟩ := line_row h p
    have := getRow_stored (qs.filterMap (docField p)) ((ps.map (particleLine toBinary f)).flatten ++ l)
    rw [h2, ← h1] at this
    simp only [List.map_cons, List.flatten_cons, List.append_assoc, List.length_cons, getRows, this,
      Option.bind_eq_bind, Option.bind_some, ih, Option.pure_def]
    rfl

/-- A binary line is at most 280 bytes, so chunked writing never refuses. -/
theorem line_short {qs : List String} {f : Formatter} (h : mkFormatter qs = .ok f) (p : PData) :
    (particleLine toBinary f p).length ≤ 280 := by
  have hl := (mkFormatter_eq h).2
  have hrow : ∀ row : List Field, (row.flatMap Field.stored).length ≤ 8 * row.length := by
    intro row
    induction row with
    | nil => simp
    | cons v vs ih =>
      rw [List.flatMap_cons, List.length_append, List.length_cons]
      have : v.stored.length ≤ 8 := by cases v <;> simp [Field.stored]
      omega
  have h1 := hrow (qs.filterMap (docField p))
  rw [← (line_row h p).1] at h1
  have h2 : (qs.filterMap (docField p)).length ≤ qs.length := List.length_filterMap_le _ _
  have h3 : qs.length ≤ docKeys.length := by
    have := List.Nodup.subperm hl.2.1 (fun q hq => hl.2.2.1 q hq)
    exact this.length_le
  have h4 : docKeys.length = 35 := by decide +kernel
  omega

theorem putParticles_eq {qs : List String} {f : Formatter} (h : mkFormatter qs = .ok f)
    (ps : List PData) : putParticles f ps = raw (ps.map (particleLine toBinary f)).flatten := by
  unfold putParticles
  obtain ⟨h1, h2⟩ := C76_chunks toBinary h maxBuffer ps
  cases hw : writeInChunk toBinary f maxBuffer ps with
  | none =>
    obtain ⟨p, rest, -, hlt⟩ := h2.1 hw
    have := line_short h p
    simp only [maxBuffer] at hlt
    omega
  | some chunks => simp only [(h1 chunks hw).1]

/-! ## Blocks -/

theorem raw_andThen (a b : List Byte) : (raw a).andThen (raw b) = raw (a ++ b) := rfl

theorem toNat_ofNat_small {n : Nat} (h : n < 2 ^ 32) : (BitVec.ofNat 32 n).toNat = n := by
  rw [BitVec.toNat_ofNat, Nat.mod_eq_of_lt h]

theorem read_p {qs : List String} {f : Formatter} (h : mkFormatter qs = .ok f) {ps : List PData}
    (hn : ps.length < 2 ^ 32) (ev en : W32) :
    ∃ b, putBlock f ps ev en = raw b ∧ b ≠ [] ∧ ∀ l, getBlock true (tysOf qs) (b ++ l)
      = some (.particles (some (ev, en)) (rowsOf qs ps), l) := by
  refine ⟨_, by
    simp only [putBlock, putSize, if_pos hn, putParticles_eq h, raw_andThen]
    rfl, by simp [chr], ?_⟩
  intro l
  have hp : chr 'p' = [112] := by decide
  simp only [hp, List.append_assoc, List.cons_append, List.nil_append, getBlock, if_true, get32_put,
    Option.bind_eq_bind, Option.bind_some, Option.pure_def, get32_size hn, toNat_ofNat_small hn,
    getRows_lines h]

theorem read_f (tys : List Ty) (lab : Bool) (ev en : W32) (b : W64) (e : Bool) :
    ∃ bs, putEnd ev en b e = raw bs ∧ bs ≠ [] ∧ ∀ l, getBlock lab tys (bs ++ l)
      = some (.eventEnd ev en b (if e then 1 else 0), l) := by
  refine ⟨_, rfl, by simp [chr], ?_⟩
  intro l
  have hp : chr 'f' = [102] := by decide
  have n1 : (102 : Byte) ≠ 112 := by decide
  have n2 : (102 : Byte) ≠ 105 := by decide
  simp only [hp, List.append_assoc, List.cons_append, List.nil_append, getBlock, if_neg n1, if_neg n2,
    if_true, get32_put, get64_put, Option.bind_eq_bind, Option.bind_some, Option.pure_def]

theorem read_i {qs : List String} {f : Formatter} (h : mkFormatter qs = .ok f) (lab : Bool)
    {inc out : List PData} (hi : inc.length < 2 ^ 32) (ho : out.length < 2 ^ 32) (d w pw : W64)
    (ty : W32) :
    ∃ b, putInteraction f inc out d w pw ty = raw b ∧ b ≠ [] ∧ ∀ l, getBlock lab (tysOf qs) (b ++ l)
      = some (.interaction (rowsOf qs inc) (rowsOf qs out) d w pw ty, l) := by
  refine ⟨_, by
    simp only [putInteraction, putSize, if_pos hi, if_pos ho, putParticles_eq h, raw_andThen]
    rfl, by simp [chr], ?_⟩
  intro l
  have hp : chr 'i' = [105] := by decide
  have n1 : (105 : Byte) ≠ 112 := by decide
  simp only [hp, List.append_assoc, List.cons_append, List.nil_append, getBlock, if_neg n1, if_true,
    get32_put, get64_put, Option.bind_eq_bind, Option.bind_some, Option.pure_def, get32_size hi,
    get32_size ho, toNat_ofNat_small hi, toNat_ofNat_small ho, getRows_lines h]

theorem read_ic {qs : List String} {f : Formatter} (h : mkFormatter qs = .ok f) {ps : List PData}
    (hn : ps.length < 2 ^ 32) :
    ∃ b, (raw (chr 'p')).andThen ((putSize ps.length).andThen (putParticles f ps)) = raw b ∧ b ≠ [] ∧
      ∀ l, getBlock false (tysOf qs) (b ++ l) = some (.particles none (rowsOf qs ps), l) := by
  refine ⟨_, by
    simp only [putSize, if_pos hn, putParticles_eq h, raw_andThen]
    rfl, by simp [chr], ?_⟩
  intro l
  have hp : chr 'p' = [112] := by decide
  simp [hp, getBlock, get32_size hn, toNat_ofNat_small hn, getRows_lines h]

/-- Bytes that read back as a list of blocks, whatever follows. -/
def Encodes (lab : Bool) (tys : List Ty) (b : List Byte) (bs : List Block) : Prop :=
  ∀ l rest n, getBlocks lab tys n l = some rest →
    getBlocks lab tys (n + b.length) (b ++ l) = some (bs ++ rest)

theorem getBlocks_fuel {lab : Bool} {tys : List Ty} {n m : Nat} {l : List Byte} {bs : List Block}
    (h : getBlocks lab tys n l = some bs) (hm : n ≤ m) : getBlocks lab tys m l = some bs := by
  induction n generalizing m l bs with
  | zero =>
    cases l with
    | nil => cases m <;> simpa [getBlocks] using h
    | cons a l => simp [getBlocks] at h
  | succ n ih =>
    cases l with
    | nil => cases m <;> simpa [getBlocks] using h
    | cons a l =>
      obtain ⟨m, rfl⟩ : ∃ m', m = m' + 1 := ⟨m - 1, by omega⟩
      simp only [getBlocks, Option.bind_eq_bind, Option.pure_def] at h ⊢
      rw [Option.bind_eq_some_iff] at h
      obtain ⟨⟨b, l'⟩, hb, h⟩ := h
      rw [Option.bind_eq_some_iff] at h
      obtain ⟨bs', hbs, h⟩ := h
      rw [hb, Option.bind_some, ih hbs (by omega)]
      exact h

theorem encodes_nil (lab : Bool) (tys : List Ty) : Encodes lab tys [] [] := by
  intro l rest n h
  simpa using h

theorem encodes_append {lab : Bool} {tys : List Ty} {a b : List Byte} {as bs : List Block}
    (ha : Encodes lab tys a as) (hb : Encodes lab tys b bs) : Encodes lab tys (a ++ b) (as ++ bs) := by
  intro l rest n h
  have h1 := ha _ _ _ (hb l rest n h)
  rw [List.append_assoc, List.append_assoc, List.length_append]
  rw [show n + (a.length + b.length) = n + b.length + a.length by omega]
  exact h1

theorem encodes_one {lab : Bool} {tys : List Ty} {b : List Byte} {x : Block} (hne : b ≠ [])
    (h : ∀ l, getBlock lab tys (b ++ l) = some (x, l)) : Encodes lab tys b [x] := by
  intro l rest n hr
  cases b with
  | nil => exact absurd rfl hne
  | cons c b =>
    rw [List.length_cons, ← Nat.add_assoc, List.cons_append, getBlocks]
    · have := h l
      rw [List.cons_append] at this
      rw [this]
      simp [getBlocks_fuel hr (show n ≤ n + b.length by omega)]
    · simp

/-- Reading with labels in the `'p'` blocks is right for every output but the initial conditions. -/
def labelledOf : Kind → Bool
  | .initialConditions => false
  | _ => true

theorem emit_encodes {qs : List String} {f : Formatter} (h : mkFormatter qs = .ok f) (k : Kind)
    {c : Call} (hc : c.Fits) :
    ∃ b, emit k f c = raw b ∧ Encodes (labelledOf k) (tysOf qs) b (documented k qs c) := by
  have raws : ∀ {a b : List Byte} {x y : Written}, x = raw a → y = raw b →
      x.andThen y = raw (a ++ b) := by
    rintro a b x y rfl rfl
    rfl
  cases c with
  | eventStart ps ev en =>
    obtain ⟨b, h1, h2, h3⟩ := read_p h (hc ps.length (by simp [Call.counts])) ev en
    have h4 := encodes_one h2 h3
    rcases k with pse | o | -
    · cases pse
      · exact ⟨[], rfl, by simpa [documented] using encodes_nil _ _⟩
      · exact ⟨b, h1, by simpa [documented, labelledOf] using h4⟩
    · cases o
      · exact ⟨[], rfl, by simpa [documented] using encodes_nil _ _⟩
      · exact ⟨b, h1, by simpa [documented, labelledOf] using h4⟩
      · exact ⟨[], rfl, by simpa [documented] using encodes_nil _ _⟩
    · exact ⟨[], rfl, by simpa [documented] using encodes_nil _ _⟩
  | intermediate ps ev en =>
    obtain ⟨b, h1, h2, h3⟩ := read_p h (hc ps.length (by simp [Call.counts])) ev en
    have h4 := encodes_one h2 h3
    rcases k with pse | o | -
    · exact ⟨[], rfl, by simpa [documented] using encodes_nil _ _⟩
    · cases o
      · exact ⟨[], rfl, by simpa [documented] using encodes_nil _ _⟩
      · exact ⟨b, h1, by simpa [documented, labelledOf] using h4⟩
      · exact ⟨[], rfl, by simpa [documented] using encodes_nil _ _⟩
    · exact ⟨[], rfl, by simpa [documented] using encodes_nil _ _⟩
  | eventEnd ps ev en b e =>
    obtain ⟨b1, h1, h2, h3⟩ := read_p h (hc ps.length (by simp [Call.counts])) ev en
    have h4 := encodes_one h2 h3
    have fl : ∀ lab, ∃ b2, putEnd ev en b e = raw b2 ∧
        Encodes lab (tysOf qs) b2 [.eventEnd ev en b (if e then 1 else 0)] := by
      intro lab
      obtain ⟨b2, f1, f2, f3⟩ := read_f (tysOf qs) lab ev en b e
      exact ⟨b2, f1, encodes_one f2 f3⟩
    obtain ⟨b2, f1, f2⟩ := fl true
    obtain ⟨b3, g1, g2⟩ := fl false
    rcases k with pse | o | -
    · cases pse
      · exact ⟨b2, f1, by simpa [documented, labelledOf] using f2⟩
      · exact ⟨b1 ++ b2, raws h1 f1, by simpa [documented, labelledOf] using encodes_append h4 f2⟩
    · cases o
      · exact ⟨b1 ++ b2, by simpa [emit] using raws h1 f1,
          by simpa [documented, labelledOf] using encodes_append h4 f2⟩
      · exact ⟨b1 ++ b2, by simpa [emit] using raws h1 f1,
          by simpa [documented, labelledOf] using encodes_append h4 f2⟩
      · cases e
        · exact ⟨b1 ++ b2, by simpa [emit] using raws h1 f1,
            by simpa [documented, labelledOf] using encodes_append h4 f2⟩
        · exact ⟨b2, by simpa [emit] using f1, by simpa [documented, labelledOf] using f2⟩
    · exact ⟨b3, g1, by simpa [documented, labelledOf] using g2⟩
  | interaction inc out d w pw ty =>
    have hi : inc.length < 2 ^ 32 := hc _ (by simp [Call.counts])
    have ho : out.length < 2 ^ 32 := hc _ (by simp [Call.counts])
    rcases k with pse | o | -
    · obtain ⟨b, h1, h2, h3⟩ := read_i h true hi ho d w pw ty
      exact ⟨b, h1, by simpa [documented, labelledOf] using encodes_one h2 h3⟩
    · exact ⟨[], rfl, by simpa [documented] using encodes_nil _ _⟩
    · obtain ⟨b, h1, h2, h3⟩ := read_ic h hi
      by_cases ht : ty = 8 ∨ ty = 21
      · refine ⟨b, ?_, ?_⟩
        · simp only [emit]
          rw [if_pos (show ty = fluidization ∨ ty = fluidizationNoRemoval from ht), h1]
        · simp only [documented, labelledOf]
          rw [if_pos ht]
          exact encodes_one h2 h3
      · refine ⟨[], ?_, ?_⟩
        · simp only [emit]
          rw [if_neg (show ¬ (ty = fluidization ∨ ty = fluidizationNoRemoval) from ht)]
        · simp only [documented, labelledOf]
          rw [if_neg ht]
          exact encodes_nil _ _

theorem getHeader_put {qs : List String} {version : List Byte} (hv : version.length < 2 ^ 32) :
    ∃ b, header qs version = raw b ∧ ∀ l, getHeader (b ++ l) = some (⟨10, docVariant qs, version⟩, l) := by
  refine ⟨_, by
    simp only [header, putSize, if_pos hv, raw_andThen]
    rfl, ?_⟩
  intro l
  have hd : (if qs = oscar2013 then 0 else if qs = oscar2013extended then 1 else 2) = docVariant qs := rfl
  have hlt : docVariant qs < 2 ^ 16 := by
    unfold docVariant
    split
    · omega
    · split <;> omega
  have hS : chr 'S' = [83] := by decide
  have hM : chr 'M' = [77] := by decide
  have hH : chr 'H' = [72] := by decide
  rw [hd]
  have e1 : ∀ l, get16 (put16 10 ++ l) = some (10, l) := fun l => get16_put (by omega) l
  have e2 : ∀ l, get16 (put16 (docVariant qs) ++ l) = some (docVariant qs, l) :=
    fun l => get16_put hlt l
  simp only [hS, hM, hH, List.append_assoc, List.cons_append, List.nil_append, getHeader,
    e1, e2, Option.bind_eq_bind, Option.bind_some, get32_size hv, toNat_ofNat_small hv]
  simp

/-- **C52.** Whatever an event loop does — any sequence of event starts, output times, interactions and
event ends, with any particles — a collisions or particles file in the binary format is written without
error as long as particle numbers fit into 32 bits, and the reader of the user guide recovers the header
and, in order, exactly the documented blocks with the documented values.  For the initial-conditions
file this holds for a reader that expects no event and ensemble number in the `'p'` blocks. -/
theorem C52_readable {qs : List String} {f : Formatter} (h : mkFormatter qs = .ok f) (k : Kind)
    {version : List Byte} (hv : version.length < 2 ^ 32) (calls : List Call)
    (hc : ∀ c ∈ calls, c.Fits) :
    (writeFile k f version calls).threw = false ∧
      readFile (labelledOf k) (tysOf qs) (writeFile k f version calls).bytes
        = some (⟨10, docVariant qs, version⟩, calls.flatMap (documented k qs)) := by
  have hq : f.quantities = qs := by rw [(mkFormatter_eq h).1]
  obtain ⟨b0, hb0, hr0⟩ := getHeader_put (qs := qs) hv
  have key : ∀ (calls : List Call), (∀ c ∈ calls, c.Fits) → ∀ b1,
      ∃ b, calls.foldl (fun w c => w.andThen (emit k f c)) (raw b1) = raw (b1 ++ b) ∧
        Encodes (labelledOf k) (tysOf qs) b (calls.flatMap (documented k qs)) := by
    intro calls
    induction calls with
    | nil => intro _ b1; exact ⟨[], by simp, encodes_nil _ _⟩
    | cons c cs ih =>
      intro hc b1
      obtain ⟨bc, e1, e2⟩ := emit_encodes h k (hc c (by simp))
      obtain ⟨b, i1, i2⟩ := ih (fun c' hc' => hc c' (by simp [hc'])) (b1 ++ bc)
      refine ⟨bc ++ b, ?_, encodes_append e2 i2⟩
      rw [List.foldl_cons, e1]
      have : (raw b1).andThen (raw bc) = raw (b1 ++ bc) := rfl
      rw [this, i1, List.append_assoc]
  obtain ⟨b, k1, k2⟩ := key calls hc b0
  have hw : writeFile k f version calls = raw (b0 ++ b) := by rw [writeFile, hq, hb0, k1]
  rw [hw]
  refine ⟨rfl, ?_⟩
  have := k2 [] [] 0 rfl
  rw [List.append_nil, List.append_nil, Nat.zero_add] at this
  simp only [readFile, raw, hr0, Option.bind_eq_bind, Option.bind_some, this, Option.pure_def]

/-- **C52 (error).** A call throws exactly when it has to write a number of particles of 2³² or more. -/
theorem C52_throws {qs : List String} {f : Formatter} (h : mkFormatter qs = .ok f) (k : Kind) (c : Call) :
    (emit k f c).threw = true ↔
      match c with
      | .eventStart ps _ _ => (k = .collisions true ∨ k = .particles .no) ∧ 2 ^ 32 ≤ ps.length
      | .intermediate ps _ _ => k = .particles .no ∧ 2 ^ 32 ≤ ps.length
      | .eventEnd ps _ _ _ e => (k = .collisions true ∨ k = .particles .no ∨ k = .particles .yes ∨
          (k = .particles .ifNotEmpty ∧ e = false)) ∧ 2 ^ 32 ≤ ps.length
      | .interaction inc out _ _ _ ty => (∃ b, k = .collisions b) ∧
          (2 ^ 32 ≤ inc.length ∨ 2 ^ 32 ≤ out.length) ∨
          k = .initialConditions ∧ (ty = 8 ∨ ty = 21) ∧ 2 ^ 32 ≤ inc.length := by
  have hb : ∀ ps ev en, (putBlock f ps ev en).threw = true ↔ 2 ^ 32 ≤ ps.length := by
    intro ps ev en
    by_cases hn : ps.length < 2 ^ 32
    · simp only [putBlock, putSize, if_pos hn, putParticles_eq h, raw, Written.andThen]
      simp; omega
    · simp only [putBlock, putSize, if_neg hn, raw, Written.andThen]
      simp; omega
  have hbe : ∀ ps ev en b e, ((putBlock f ps ev en).andThen (putEnd ev en b e)).threw = true ↔
      2 ^ 32 ≤ ps.length := by
    intro ps ev en b e
    rw [← hb ps ev en]
    unfold Written.andThen
    split
    · rfl
    · rename_i hf
      simp [putEnd, raw, hf]
  have he : ∀ ev en b e, (putEnd ev en b e).threw = false := fun _ _ _ _ => rfl
  cases c with
  | eventStart ps ev en =>
    rcases k with pse | o | -
    · cases pse <;> simp [emit, hb, raw]
    · cases o <;> simp [emit, hb, raw]
    · simp [emit, raw]
  | intermediate ps ev en =>
    rcases k with pse | o | -
    · simp [emit, raw]
    · cases o <;> simp [emit, hb, raw]
    · simp [emit, raw]
  | eventEnd ps ev en b e =>
    rcases k with pse | o | -
    · cases pse <;> simp [emit, hbe, he]
    · cases o <;> cases e <;> simp [emit, hbe, he]
    · simp [emit, he]
  | interaction inc out d w pw ty =>
    rcases k with pse | o | -
    · simp only [emit]
      by_cases hi : inc.length < 2 ^ 32
      · by_cases ho : out.length < 2 ^ 32
        · obtain ⟨b, e, -⟩ := read_i h true hi ho d w pw ty
          rw [e]
          simp [raw]; omega
        · simp only [putInteraction, putSize, if_pos hi, if_neg ho, raw, Written.andThen]
          simp; omega
      · simp only [putInteraction, putSize, if_neg hi, raw, Written.andThen]
        simp; omega
    · simp [emit, raw]
    · simp only [emit]
      by_cases ht : ty = 8 ∨ ty = 21
      · rw [if_pos (show ty = fluidization ∨ ty = fluidizationNoRemoval from ht)]
        by_cases hi : inc.length < 2 ^ 32
        · obtain ⟨b, e, -⟩ := read_ic h hi
          rw [e]
          simp [raw]; omega
        · simp only [putSize, if_neg hi, raw, Written.andThen]
          have := Nat.le_of_not_lt hi
          exact iff_of_true (by simp) (Or.inr ⟨trivial, ht, this⟩)
      · rw [if_neg (show ¬ (ty = fluidization ∨ ty = fluidizationNoRemoval) from ht)]
        simp only [raw, Bool.false_eq_true, false_iff]
        rintro (⟨⟨b, hk⟩, -⟩ | ⟨-, h, -⟩)
        · cases hk
        · exact ht h

/-- A particle for the examples. -/
def p0 (n : W64) (i : W32) : PData :=
  ⟨n, n, n, n, n, n, n, n, n, 211, i, 1, 0, n, n, 0, 0, n, 0, 0, 0, 0, n, n, n, n, n, n, n, n, n⟩

/-- **C52 (initial conditions).** The `'p'` blocks of the initial-conditions file do not carry the
documented event and ensemble numbers: the reader of the user guide fails on a file with one fluidised
particle. -/
theorem C52_initial_conditions_false :
    ∃ f, mkFormatter ["px", "pdg"] = .ok f ∧
      readFile true (tysOf ["px", "pdg"]) (writeFile .initialConditions f []
        [.interaction [p0 5 3] [] 0 0 0 8, .eventEnd [] 0 0 0 false]).bytes = none := by
  exact ⟨_, rfl, by decide +kernel⟩

/-! A non-trivial run meets the hypotheses of `C52_readable`: two particles at the start, an interaction
with one product, one particle at the end. -/
example : ∀ c ∈ [Call.eventStart [p0 1 0, p0 2 1] 0 0, .interaction [p0 1 0, p0 2 1] [p0 3 2] 1 2 3 2,
    .eventEnd [p0 3 2] 0 0 4 false], c.Fits := by
  intro c hc n hn
  rcases List.mem_cons.1 hc with rfl | hc
  · simp [Call.counts] at hn; omega
  · rcases List.mem_cons.1 hc with rfl | hc
    · simp [Call.counts] at hn; omega
    · rcases List.mem_cons.1 hc with rfl | hc
      · simp [Call.counts] at hn; omega
      · simp at hc

example : (documented (.collisions true) ["px", "pdg"]
    (.eventStart [p0 1 0, p0 2 1] 7 1)) =
    [.particles (some (7, 1)) [[.d 1, .i 211], [.d 2, .i 211]]] := by decide +kernel

end Verif.Bin
