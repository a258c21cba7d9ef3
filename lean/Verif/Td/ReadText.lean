import Verif.Td.Read

/-!
C150: reading the text files, and the theorems about the files of an event.
-/

namespace Verif.Td

open Verif.Bin (Byte W32 W64 put32 put64 get32 get64)

variable {T : Type}

theorem lines_append (l : List Item) (h : ∀ i ∈ l, i ≠ .eol) (r : List Item) : lines (l ++ .eol :: r) = l :: lines r := by
  induction l with
  | nil => simp [lines]
  | cons i l ih =>
    have hi : i ≠ .eol := h i (by simp)
    rw [List.cons_append]
    simp only [lines, hi, if_false, ih fun j hj => h j (by simp [hj])]

theorem lines_flat (ls : List (List Item)) (h : ∀ l ∈ ls, ∀ i ∈ l, i ≠ .eol) : lines (ls.flatMap fun l => l ++ [.eol]) = ls := by
  induction ls with
  | nil => rfl
  | cons l ls ih =>
    rw [List.flatMap_cons, List.append_assoc, List.singleton_append, lines_append l (h l (by simp)), ih fun m hm => h m (by simp [hm])]

/-- A line of numbers, each with a blank behind it. -/
def blanks (l : List W64) : List Item := l.flatMap fun v => [.num (.scientific 14) v, .text " "]

/-- A line of numbers with blanks between them. -/
def between (l : List W64) : List Item := ((l.map fun v => [Item.num (.scientific 14) v]).intersperse [.text " "]).flatten

theorem row_blanks (l : List W64) : row (blanks l) = some l := by
  induction l with
  | nil => rfl
  | cons v l ih => simp only [blanks, List.flatMap_cons, List.cons_append, List.nil_append, row] at ih ⊢; simp [ih]

theorem row_between (l : List W64) : row (between l) = some l := by
  induction l with
  | nil => rfl
  | cons v l ih =>
    cases l with
    | nil => simp [between, row]
    | cons w l =>
      simp only [between, List.map_cons, List.intersperse_cons_cons, List.flatten_cons, List.cons_append, List.nil_append, row] at ih ⊢
      simp [ih]

theorem blanks_eol (l : List W64) : ∀ i ∈ blanks l, i ≠ .eol := by
  intro i hi
  simp only [blanks, List.mem_flatMap] at hi
  obtain ⟨v, _, hv⟩ := hi
  rcases List.mem_cons.1 hv with rfl | hv
  · simp
  · rw [List.mem_singleton.1 hv]; simp

theorem between_eol (l : List W64) : ∀ i ∈ between l, i ≠ .eol := by
  induction l with
  | nil => simp [between]
  | cons v l ih =>
    cases l with
    | nil => simp [between]
    | cons w l =>
      simp only [between, List.map_cons, List.intersperse_cons_cons, List.flatten_cons, List.cons_append, List.nil_append] at ih ⊢
      intro i hi
      rcases List.mem_cons.1 hi with rfl | hi
      · simp
      · rcases List.mem_cons.1 hi with rfl | hi
        · simp
        · exact ih i hi

theorem cells_line {p : Par} (hp : Single p true) {nx : ℕ} (hx : 0 < nx) (f : ℕ → W64) :
    ((List.range nx).flatMap fun ix => cellItems p nx ix (f ix)) = blanks ((List.range nx).map f) ++ [.eol] := by
  obtain ⟨n, rfl⟩ : ∃ n, nx = n + 1 := ⟨nx - 1, by omega⟩
  have e : ∀ ix, cellItems p (n + 1) ix (f ix) = [.num (.scientific 14) (f ix), .text " "] ++ (if ix = n then [.eol] else []) := by
    intro ix; simp [cellItems, hp.ascii, hp.binary]
  simp only [e, blanks, List.range_succ, List.flatMap_append, List.map_append, List.flatMap_cons, List.flatMap_nil, List.map_cons,
    List.map_nil, List.append_nil, if_true, List.flatMap_map]
  rw [List.append_assoc]
  congr 1
  have : ∀ m, m ≤ n → ((List.range m).flatMap fun ix => [Item.num (.scientific 14) (f ix), .text " "] ++ (if ix = n then [.eol] else [])) =
      (List.range m).flatMap fun ix => [Item.num (.scientific 14) (f ix), .text " "] := by
    intro m
    induction m with
    | zero => intro _; rfl
    | succ m ih =>
      intro hm
      rw [List.range_succ, List.flatMap_append, List.flatMap_append, ih (by omega)]
      have : m ≠ n := by omega
      simp [this]
  exact this n (le_refl n)

/-- The lines of a scalar on the lattice. -/
def scalarLines (nx ny nz : ℕ) (f : ℕ × ℕ × ℕ → W64) : List (List W64) :=
  (List.range nz).flatMap fun z => (List.range ny).map fun y => (List.range nx).map fun x => f (x, y, z)

theorem cells_text {p : Par} (hp : Single p true) {nx : ℕ} (hx : 0 < nx) (ny nz : ℕ) (f : ℕ × ℕ × ℕ → W64) :
    ((nodes nx ny nz).flatMap fun x => cellItems p nx x.1 (f x)) = (scalarLines nx ny nz f).flatMap fun l => blanks l ++ [.eol] := by
  simp only [nodes, scalarLines, List.flatMap_assoc, List.flatMap_map]
  congr 1; funext z
  congr 1; funext y
  exact cells_line hp hx fun x => f (x, y, z)

theorem scalarLines_length (nx ny nz : ℕ) (f : ℕ × ℕ × ℕ → W64) : (scalarLines nx ny nz f).length = ny * nz := by
  unfold scalarLines
  rw [flatMap_length _ ny _ (by simp)]; simp [Nat.mul_comm]

theorem scalarLines_get {nx ny nz : ℕ} (f : ℕ × ℕ × ℕ → W64) {y z : ℕ} (hy : y < ny) (hz : z < nz) :
    (scalarLines nx ny nz f)[y + ny * z]? = some ((List.range nx).map fun x => f (x, y, z)) := by
  unfold scalarLines
  rw [show y + ny * z = z * ny + y by ring, flatMap_get _ ny _ (by simp) z y hy, List.getElem?_range hz]
  simp only [Option.bind_some]
  rw [List.getElem?_map, List.getElem?_range hy]; rfl

/-- Whether a quantity has one node per line. -/
def nodeRows : Quantity → Bool
  | .vLandau => true
  | .jQBS => true
  | _ => false

/-- The numbers of each line of an output, without the time. -/
def textLines (o : TensorOps T) : Call T → List (List W64)
  | .density g _ => scalarLines g.nx g.ny g.nz fun x => g.at x
  | .currents g _ => (nodes g.nx g.ny g.nz).map fun x => g.at x
  | .tensor q g _ => match q with
    | .tmn => pairs.flatMap fun ij => scalarLines g.nx g.ny g.nz fun x => o.comp (g.at x) (tmnIdx ij.1 ij.2)
    | .tmnLandau => pairs.flatMap fun ij => scalarLines g.nx g.ny g.nz fun x => o.comp (o.landau (g.at x)) (tmnIdx ij.1 ij.2)
    | _ => (nodes g.nx g.ny g.nz).map fun x => [(o.vel (g.at x)).1, (o.vel (g.at x)).2.1, (o.vel (g.at x)).2.2]
  | _ => []

/-- A line in the file. -/
def textLine (q : Quantity) (l : List W64) : List Item := if nodeRows q then between l else blanks l

theorem rowItems_text {p : Par} (hp : Single p true) (l : List W64) : rowItems p l = between l ++ [.eol] := by
  simp [rowItems, hp.ascii, hp.binary, between]

/-- The lines of an output. -/
def fileLines (o : TensorOps T) (q : Quantity) (c : Call T) : List (List Item) :=
  [.num (.scientific 14) c.time] :: (textLines o c).map (textLine q)

theorem Call.Fits.pos {nx ny nz : ℕ} {c : Call T} (h : c.Fits nx ny nz) (hx : 0 < nx) :
    match c with
    | .density g _ => 0 < g.nx
    | .tensor _ g _ => 0 < g.nx
    | _ => True := by
  cases c with
  | density g t => obtain ⟨rfl, _, _⟩ := h; exact hx
  | tensor q g t => obtain ⟨rfl, _, _⟩ := h; exact hx
  | _ => trivial

theorem chunk_text {p : Par} (hp : Single p true) (o : TensorOps T) {c : Call T} {q : Quantity} (hc : c.out = some q)
    {nx ny nz : ℕ} (hf : c.Fits nx ny nz) (hx : 0 < nx) :
    chunk p o true c = (fileLines o q c).flatMap fun l => l ++ [.eol] := by
  have hpos := hf.pos hx
  unfold chunk fileLines
  simp only [if_true, List.flatMap_cons, List.flatMap_map, List.cons_append, List.nil_append]
  congr 2
  cases c with
  | startD => cases hc
  | startT => cases hc
  | finish => cases hc
  | density g t =>
    cases Option.some.inj hc
    simp only [dataItems, textLines, textLine, nodeRows, Bool.false_eq_true, if_false]
    exact cells_text hp hpos _ _ _
  | currents g t =>
    cases Option.some.inj hc
    simp only [dataItems, textLines, textLine, nodeRows, if_true, rowItems_text hp, List.flatMap_map]
  | tensor q' g t =>
    simp only [Call.out] at hc
    split_ifs at hc with hq
    cases Option.some.inj hc
    rcases hq with rfl | rfl | rfl
    · simp only [dataItems, tensorItems, textLines, textLine, nodeRows, Bool.false_eq_true, if_false, List.flatMap_assoc]
      congr 1; funext ij
      exact cells_text hp hpos _ _ fun x => o.comp (g.at x) (tmnIdx ij.1 ij.2)
    · simp only [dataItems, tensorItems, textLines, textLine, nodeRows, Bool.false_eq_true, if_false, List.flatMap_assoc]
      congr 1; funext ij
      exact cells_text hp hpos _ _ fun x => o.comp (o.landau (g.at x)) (tmnIdx ij.1 ij.2)
    · simp only [dataItems, textLines, textLine, nodeRows, if_true, rowItems_text hp, List.flatMap_map]

theorem row_textLine (q : Quantity) (l : List W64) : row (textLine q l) = some l := by
  unfold textLine; split_ifs
  · exact row_between l
  · exact row_blanks l

theorem textLine_eol (q : Quantity) (l : List W64) : ∀ i ∈ textLine q l, i ≠ .eol := by
  unfold textLine; split_ifs
  · exact between_eol l
  · exact blanks_eol l

theorem fileLines_length (o : TensorOps T) {c : Call T} {q : Quantity} (hc : c.out = some q) {nx ny nz : ℕ} (hf : c.Fits nx ny nz) :
    (fileLines o q c).length = blockLines q nx ny nz := by
  unfold fileLines blockLines
  rw [List.length_cons, List.length_map]
  cases c with
  | startD => cases hc
  | startT => cases hc
  | finish => cases hc
  | density g t =>
    obtain ⟨rfl, rfl, rfl⟩ := hf
    cases Option.some.inj hc
    simp only [textLines, scalarLines_length, components]; omega
  | currents g t =>
    obtain ⟨⟨rfl, rfl, rfl⟩, hl⟩ := hf
    cases Option.some.inj hc
    simp only [textLines, List.length_map, nodes_length]; omega
  | tensor q' g t =>
    obtain ⟨rfl, rfl, rfl⟩ := hf
    simp only [Call.out] at hc
    split_ifs at hc with hq
    cases Option.some.inj hc
    rcases hq with rfl | rfl | rfl
    · simp only [textLines, components]
      rw [flatMap_length _ (g.ny * g.nz) _ fun x _ => scalarLines_length _ _ _ _, pairs_length]; omega
    · simp only [textLines, components]
      rw [flatMap_length _ (g.ny * g.nz) _ fun x _ => scalarLines_length _ _ _ _, pairs_length]; omega
    · simp only [textLines, List.length_map, nodes_length]; omega

theorem line_lt {ny nz y z : ℕ} (hy : y < ny) (hz : z < nz) : y + ny * z < ny * nz := by
  calc y + ny * z < ny + ny * z := by omega
    _ = ny * (z + 1) := by ring
    _ ≤ ny * nz := Nat.mul_le_mul_left _ hz

theorem textLines_get (o : TensorOps T) {c : Call T} {q : Quantity} (hc : c.out = some q) {nx ny nz : ℕ} (hf : c.Fits nx ny nz)
    {x y z k : ℕ} (hx : x < nx) (hy : y < ny) (hz : z < nz) (hk : k < components q) :
    ((textLines o c)[(linePosition q nx ny nz x y z k).1]?).bind (fun l => l[(linePosition q nx ny nz x y z k).2]?) = c.val o x y z k := by
  have hl := line_lt hy hz
  cases c with
  | startD => cases hc
  | startT => cases hc
  | finish => cases hc
  | density g t =>
    obtain ⟨rfl, rfl, rfl⟩ := hf
    cases Option.some.inj hc
    have hk0 : k = 0 := by simp only [components] at hk; omega
    subst hk0
    simp only [textLines, linePosition, Nat.zero_mul, Nat.zero_add, scalarLines_get _ hy hz, Option.bind_some, List.getElem?_map,
      List.getElem?_range hx, Option.map_some, Call.val, if_true, Grid.at]
  | currents g t =>
    obtain ⟨⟨rfl, rfl, rfl⟩, _⟩ := hf
    cases Option.some.inj hc
    simp only [textLines, linePosition, List.getElem?_map, nodes_get hx hy hz, Option.map_some, Option.bind_some, Grid.at, Call.val]
  | tensor q' g t =>
    obtain ⟨rfl, rfl, rfl⟩ := hf
    simp only [Call.out] at hc
    split_ifs at hc with hq
    cases Option.some.inj hc
    rcases hq with rfl | rfl | rfl
    · have hk' : k < 10 := hk
      obtain ⟨ij, h1, h2⟩ := pairs_get hk'
      simp only [textLines, linePosition]
      rw [flatMap_get _ _ _ (fun x _ => scalarLines_length _ _ _ _) k _ hl, h1]
      simp only [Option.bind_some, scalarLines_get _ hy hz, List.getElem?_map, List.getElem?_range hx, Option.map_some, Grid.at, Call.val,
        hk', dif_pos, h2]
    · have hk' : k < 10 := hk
      obtain ⟨ij, h1, h2⟩ := pairs_get hk'
      simp only [textLines, linePosition]
      rw [flatMap_get _ _ _ (fun x _ => scalarLines_length _ _ _ _) k _ hl, h1]
      simp only [Option.bind_some, scalarLines_get _ hy hz, List.getElem?_map, List.getElem?_range hx, Option.map_some, Grid.at, Call.val,
        hk', dif_pos, h2]
    · have hk' : k < 3 := hk
      simp only [textLines, linePosition, List.getElem?_map, nodes_get hx hy hz, Option.map_some, Option.bind_some, Grid.at, Call.val]
      rw [dif_pos (by omega)]
      interval_cases k <;> rfl

/-- The comment lines. -/
def headLines (nx ny nz : ℕ) (s r : W64 × W64 × W64) (q : Quantity) : List (List Item) :=
  [[.text "#Thermodynamic Lattice Output version: ", .num (.fixed 2) version],
    [.text "#Quantity:", .text " ", .text (qName q)],
    [.text "#Grid dimensions: ", .int nx, .text " ", .int ny, .text " ", .int nz],
    [.text "#Grid spacing: ", .num (.fixed 6) s.1, .text " ", .num (.fixed 6) s.2.1, .text " ", .num (.fixed 6) s.2.2],
    [.text "#Grid origin: ", .num (.fixed 6) r.1, .text " ", .num (.fixed 6) r.2.1, .text " ", .num (.fixed 6) r.2.2]]

theorem header_text (nx ny nz : ℕ) (s r : W64 × W64 × W64) (q : Quantity) :
    header true nx ny nz s r q = (headLines nx ny nz s r q).flatMap fun l => l ++ [.eol] := rfl

theorem headLines_eol (nx ny nz : ℕ) (s r : W64 × W64 × W64) (q : Quantity) : ∀ l ∈ headLines nx ny nz s r q, ∀ i ∈ l, i ≠ .eol := by
  simp [headLines]

theorem text_file {p : Par} (hp : Single p true) (o : TensorOps T) {nx ny nz : ℕ} (hx : 0 < nx)
    (s r : W64 × W64 × W64) {q : Quantity} {cs : List (Call T)} (hcs : ∀ c ∈ cs, c.out = some q ∧ c.Fits nx ny nz) :
    TextFile o q nx ny nz s r cs (header true nx ny nz s r q ++ cs.flatMap (chunk p o true)) := by
  have hch : ∀ l : List (Call T), (∀ c ∈ l, c.out = some q ∧ c.Fits nx ny nz) →
      l.flatMap (chunk p o true) = (l.flatMap (fileLines o q)).flatMap fun l => l ++ [.eol] := by
    intro l
    induction l with
    | nil => intro _; rfl
    | cons c l ih =>
      intro h
      rw [List.flatMap_cons, List.flatMap_cons, List.flatMap_append, chunk_text hp o (h c (by simp)).1 (h c (by simp)).2 hx,
        ih fun d hd => h d (by simp [hd])]
  have hlines : lines (header true nx ny nz s r q ++ cs.flatMap (chunk p o true)) = headLines nx ny nz s r q ++ cs.flatMap (fileLines o q) := by
    rw [header_text, hch cs hcs, ← List.flatMap_append, lines_flat]
    intro l hl
    rcases List.mem_append.1 hl with hl | hl
    · exact headLines_eol nx ny nz s r q l hl
    · obtain ⟨c, _, hl⟩ := List.mem_flatMap.1 hl
      rcases List.mem_cons.1 hl with rfl | hl
      · simp
      · obtain ⟨m, _, rfl⟩ := List.mem_map.1 hl
        exact textLine_eol q m
  have hlen := fun d hd => fileLines_length o (hcs d hd).1 (hcs d hd).2
  have get : ∀ i, (headLines nx ny nz s r q ++ cs.flatMap (fileLines o q))[5 + i]? = (cs.flatMap (fileLines o q))[i]? := by
    intro i
    rw [List.getElem?_append_right (by simp [headLines]), show 5 + i - (headLines nx ny nz s r q).length = i by simp [headLines]]
  have hpos : 0 < blockLines q nx ny nz := by unfold blockLines; cases q <;> simp only <;> omega
  refine ⟨?_, ?_, ?_⟩
  · rw [hlines]; rfl
  · rw [hlines, List.length_append, flatMap_length _ (blockLines q nx ny nz) _ hlen]; rfl
  · intro h c hc
    have hmem : c ∈ cs := List.mem_of_getElem? hc
    obtain ⟨h1, h2⟩ := hcs c hmem
    refine ⟨?_, ?_⟩
    · have := flatMap_get (fileLines o q) _ cs hlen h 0 hpos
      rw [Nat.add_zero, hc] at this
      rw [hlines, get, this]; rfl
    · intro x y z k hx hy hz hk
      have hw := textLines_get o h1 h2 hx hy hz hk
      have hb : 1 + (linePosition q nx ny nz x y z k).1 < blockLines q nx ny nz := by
        have hnode := node_lt hx hy hz
        have hl := line_lt hy hz
        have hm : ∀ m : ℕ, k < m → k * (ny * nz) + (y + ny * z) < m * (ny * nz) := by
          intro m hm
          calc k * (ny * nz) + (y + ny * z) < k * (ny * nz) + ny * nz := by omega
            _ = (k + 1) * (ny * nz) := by ring
            _ ≤ m * (ny * nz) := Nat.mul_le_mul_right _ hm
        have := hm _ hk
        unfold blockLines linePosition
        cases q <;> simp only <;> omega
      constructor
      · rw [← words_get o h1 h2 hx hy hz hk]
        have hbb : 1 + position q nx ny nz x y z k < (words o c).length := by rw [words_length o h1 h2]; exact position_lt hx hy hz hk
        rw [List.getElem?_eq_getElem hbb]; rfl
      · rw [hlines, get, flatMap_get _ _ _ hlen h _ hb, hc]
        simp only [Option.bind_some, fileLines, Nat.add_comm 1, List.getElem?_cons_succ, List.getElem?_map]
        rw [← hw]
        cases (textLines o c)[(linePosition q nx ny nz x y z k).1]? with
        | none => rfl
        | some l => simp only [Option.map_some, Option.bind_some, row_textLine]

/-- C150: after an event with the binary format there is for each quantity a file with the documented layout. The header has the sizes of
the cells before the origin, see `C150_header_order_false`. -/
theorem C150_binary {p : Par} (hp : Single p false) {ok : List Char → Bool} (hok : ∀ n, ok n = true) (o : TensorOps T)
    {st : St} (hst : Idle p false st) (dens : Quantity → Dens) {ev : ℕ} (hev : ev < 10000000) {nx ny nz : ℕ}
    (hn : nx < 2 ^ 31 ∧ ny < 2 ^ 31 ∧ nz < 2 ^ 31) (s r : W64 × W64 × W64) {qs : List Quantity} (hnd : qs.Nodup)
    (hw : ∀ q ∈ qs, p.wants q = true) {cs : List (Call T)} (hcs : ∀ c ∈ cs, c.Fits nx ny nz ∧ ∃ q ∈ qs, c.out = some q) :
    ∃ st', run p ok o st (qs.map (startCall ev dens nx ny nz s r) ++ cs ++ qs.map .finish) = .ok st' ∧ Idle p false st' ∧
      ∀ q ∈ qs, ∃ f : List Byte, st'.disk (latName (varName q (dens q)) ev false) = some (f.map .byte) ∧
        BinaryFile o q nx ny nz (cs.filter fun c => c.out = some q) f ∧
        (dblAt f 24 = some s.1 ∧ dblAt f 32 = some s.2.1 ∧ dblAt f 40 = some s.2.2) ∧
        (dblAt f 48 = some r.1 ∧ dblAt f 56 = some r.2.1 ∧ dblAt f 64 = some r.2.2) := by
  obtain ⟨st', h1, h2, h3, _⟩ := C150_event hp hok o hst dens hev nx ny nz s r hnd hw fun c hc => (hcs c hc).2
  refine ⟨st', h1, h2, fun q hq => ?_⟩
  have hfit : ∀ c ∈ cs.filter fun c => c.out = some q, c.out = some q ∧ c.Fits nx ny nz := by
    intro c hc
    obtain ⟨hm, he⟩ := List.mem_filter.1 hc
    exact ⟨by simpa using he, (hcs c hm).1⟩
  obtain ⟨f, hf, hb⟩ := binary_file hp o hn s r hfit
  refine ⟨f, by rw [h3 q hq, hf], hb, ?_⟩
  have hinj : Function.Injective (Item.byte) := fun _ _ h => Item.byte.inj h
  have hpre : f.take 72 = headerBytes nx ny nz s r q := by
    have e := congrArg (List.take 72) hf
    rw [header_binary, List.take_append_of_le_length (by simp [headerBytes_length]),
      List.take_of_length_le (by simp [headerBytes_length]), ← List.map_take] at e
    exact (hinj.list_map e).symm
  have hsplit : f = headerBytes nx ny nz s r q ++ f.drop 72 := by rw [← hpre, List.take_append_drop]
  rw [hsplit]
  exact ⟨⟨read_put (headerBytes nx ny nz s r q) _ 24 s.1 rfl, read_put _ _ 32 s.2.1 rfl, read_put _ _ 40 s.2.2 rfl⟩,
    read_put _ _ 48 r.1 rfl, read_put _ _ 56 r.2.1 rfl, read_put _ _ 64 r.2.2 rfl⟩

/-- C150: after an event with the text format there is for each quantity a file with the documented layout. -/
theorem C150_text {p : Par} (hp : Single p true) {ok : List Char → Bool} (hok : ∀ n, ok n = true) (o : TensorOps T)
    {st : St} (hst : Idle p true st) (dens : Quantity → Dens) {ev : ℕ} (hev : ev < 10000000) {nx ny nz : ℕ} (hx : 0 < nx)
    (s r : W64 × W64 × W64) {qs : List Quantity} (hnd : qs.Nodup) (hw : ∀ q ∈ qs, p.wants q = true) {cs : List (Call T)}
    (hcs : ∀ c ∈ cs, c.Fits nx ny nz ∧ ∃ q ∈ qs, c.out = some q) :
    ∃ st', run p ok o st (qs.map (startCall ev dens nx ny nz s r) ++ cs ++ qs.map .finish) = .ok st' ∧ Idle p true st' ∧
      ∀ q ∈ qs, ∃ f : List Item, st'.disk (latName (varName q (dens q)) ev true) = some f ∧
        TextFile o q nx ny nz s r (cs.filter fun c => c.out = some q) f := by
  obtain ⟨st', h1, h2, h3, _⟩ := C150_event hp hok o hst dens hev nx ny nz s r hnd hw fun c hc => (hcs c hc).2
  refine ⟨st', h1, h2, fun q hq => ⟨_, h3 q hq, text_file hp o hx s r fun c hc => ?_⟩⟩
  obtain ⟨hm, he⟩ := List.mem_filter.1 hc
  exact ⟨by simpa using he, (hcs c hm).1⟩

/-- Operations on tensors for the examples: a tensor is the function of its components. -/
def ops : TensorOps (Fin 10 → W64) := ⟨fun v => v, fun v => v, fun v => (v 1, v 2, v 3)⟩

/-- The hypotheses are met by an event with a density and a tensor on a lattice of two cells. -/
example : ∃ st', run ⟨true, false, fun _ => true⟩ (fun _ => true) ops (init ⟨true, false, fun _ => true⟩ fun _ => none)
    ([Quantity.eckart, .tmn].map (startCall 3 (fun _ => .baryon) 2 1 1 (1, 1, 1) (0, 0, 0)) ++
      [.density ⟨2, 1, 1, (1, 1, 1), (0, 0, 0), fun i => BitVec.ofNat 64 i⟩ 5,
        .tensor .tmn ⟨2, 1, 1, (1, 1, 1), (0, 0, 0), fun i _ => BitVec.ofNat 64 i⟩ 5] ++ [Quantity.eckart, .tmn].map .finish) = .ok st' := by
  obtain ⟨st', h, _⟩ := C150_text (p := ⟨true, false, fun _ => true⟩) ⟨rfl, rfl⟩ (ok := fun _ => true) (fun _ => rfl) ops
    (C150_start ⟨rfl, rfl⟩ fun _ => none) (fun _ => .baryon) (ev := 3) (by decide) (nx := 2) (ny := 1) (nz := 1) (by decide) (1, 1, 1) (0, 0, 0)
    (qs := [.eckart, .tmn]) (by decide) (fun _ _ => rfl)
    (cs := [.density ⟨2, 1, 1, (1, 1, 1), (0, 0, 0), fun i => BitVec.ofNat 64 i⟩ 5,
        .tensor .tmn ⟨2, 1, 1, (1, 1, 1), (0, 0, 0), fun i _ => BitVec.ofNat 64 i⟩ 5])
    (by
      intro c hc
      rcases List.mem_cons.1 hc with rfl | hc
      · exact ⟨⟨rfl, rfl, rfl⟩, .eckart, by simp, rfl⟩
      · rw [List.mem_singleton.1 hc]; exact ⟨⟨rfl, rfl, rfl⟩, .tmn, by simp, rfl⟩)
  exact ⟨st', h⟩

/-! ### Findings -/

/-- C150: the user guide puts the origin before the sizes of the cells in the binary header; the file has them in the other order. -/
theorem C150_header_order_false : ∃ (st st' : St) (f : List Byte) (s r : W64 × W64 × W64),
    run ⟨false, true, fun _ => true⟩ (fun _ => true) ops st ([startCall 0 (fun _ => .baryon) 1 1 1 s r .tmn] ++ [] ++ [.finish .tmn]) = .ok st' ∧
    st'.disk (latName (varName .tmn .baryon) 0 false) = some (f.map .byte) ∧ dblAt f 24 ≠ some r.1 := by
  obtain ⟨st', h1, _, h3⟩ := C150_binary (p := ⟨false, true, fun _ => true⟩) ⟨rfl, rfl⟩ (ok := fun _ => true) (fun _ => rfl) ops
    (C150_start ⟨rfl, rfl⟩ fun _ => none) (fun _ => .baryon) (ev := 0) (by decide) (nx := 1) (ny := 1) (nz := 1) (by decide) (1, 1, 1) (0, 0, 0)
    (qs := [.tmn]) (by decide) (fun _ _ => rfl) (cs := []) (by simp)
  obtain ⟨f, hf, _, hs, _⟩ := h3 .tmn (by simp)
  refine ⟨_, st', f, (1, 1, 1), (0, 0, 0), h1, hf, ?_⟩
  rw [hs.1]; decide

/-- C150: files which cannot be opened are not reported: the event ends without an error and there is no file. -/
theorem C150_open_failure_false : ∃ st', run ⟨true, false, fun _ => true⟩ (fun _ => false) ops (init ⟨true, false, fun _ => true⟩ fun _ => none)
    ([startCall 0 (fun _ => .baryon) 1 1 1 (1, 1, 1) (0, 0, 0) .tmn] ++
      [.tensor .tmn ⟨1, 1, 1, (1, 1, 1), (0, 0, 0), fun _ _ => 7⟩ 5] ++ [.finish .tmn]) = .ok st' ∧
    st'.disk (latName (varName .tmn .baryon) 0 true) = none := by
  refine ⟨_, rfl, ?_⟩
  simp [init]

/-- C150: an object with both formats writes the text of the values to the binary file (the program makes one object per format). -/
theorem C150_both_formats_false : ∃ st', run ⟨true, true, fun _ => true⟩ (fun _ => true) ops (init ⟨true, true, fun _ => true⟩ fun _ => none)
    ([startCall 0 (fun _ => .baryon) 1 1 1 (1, 1, 1) (0, 0, 0) .eckart] ++
      [.density ⟨1, 1, 1, (1, 1, 1), (0, 0, 0), fun _ => 7⟩ 5] ++ [.finish .eckart]) = .ok st' ∧
    ∃ f, st'.disk (latName (varName .eckart .baryon) 0 false) = some f ∧ Item.num (.scientific 14) 7 ∈ f := by
  refine ⟨_, rfl, ?_⟩
  decide +kernel

/-- C150: the file of the density of pions is named after the baryonic isospin. -/
theorem C150_density_name_false : ∃ d d', startDens .pion = some d ∧ startDens .isospin = some d' ∧ varName .eckart d = varName .eckart d' ∧
    varName .eckart d ≠ varName .eckart .pion := ⟨.isospin, .isospin, rfl, rfl, rfl, by decide +kernel⟩

/-- C150: from 10 000 000 events the extension is cut and different events have files of the same format with a damaged name. -/
theorem C150_long_number_false : latName [] 12345678 true = "_12345678.da".toList := by decide +kernel

end Verif.Td
