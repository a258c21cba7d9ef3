import Verif.Td.Event
import Verif.Bin.Binary

/-!
C150: reading the files. The specification is written from the user guide (thermodynamiclatticeoutput.cc:26-179).
-/

namespace Verif.Td

open Verif.Bin (Byte W32 W64 put32 put64 get32 get64)

variable {T : Type}

/-! ### Specification -/

/-- Number of values per node. -/
def components : Quantity → ℕ
  | .eckart => 1
  | .tmn => 10
  | .tmnLandau => 10
  | .vLandau => 3
  | .jQBS => 12

/-- The number of a quantity in the binary header. -/
def code : Quantity → ℕ
  | .eckart => 0
  | .tmn => 1
  | .tmnLandau => 2
  | .vLandau => 3
  | .jQBS => 4

/-- The `k`-th value of node `x`, `y`, `z` in an output. -/
def Call.val (o : TensorOps T) (c : Call T) (x y z k : ℕ) : Option W64 :=
  match c with
  | .density g _ => if k = 0 then some (g.data (x + g.nx * (y + z * g.ny))) else none
  | .currents g _ => (g.data (x + g.nx * (y + z * g.ny)))[k]?
  | .tensor q g _ =>
    if h : k < 10 then
      match q with
      | .tmn => some (o.comp (g.data (x + g.nx * (y + z * g.ny))) ⟨k, h⟩)
      | .tmnLandau => some (o.comp (o.landau (g.data (x + g.nx * (y + z * g.ny)))) ⟨k, h⟩)
      | .vLandau =>
        let v := o.vel (g.data (x + g.nx * (y + z * g.ny)))
        if k = 0 then some v.1 else if k = 1 then some v.2.1 else if k = 2 then some v.2.2 else none
      | _ => none
    else none
  | _ => none

/-- The lattice of an output has the given numbers of cells; the currents have four components each. -/
def Call.Fits (nx ny nz : ℕ) : Call T → Prop
  | .density g _ => g.nx = nx ∧ g.ny = ny ∧ g.nz = nz
  | .currents g _ => (g.nx = nx ∧ g.ny = ny ∧ g.nz = nz) ∧ ∀ i, (g.data i).length = 12
  | .tensor _ g _ => g.nx = nx ∧ g.ny = ny ∧ g.nz = nz
  | _ => False

/-- Position of a value after the time in the payload of one output: tensors and densities component by component, velocities and currents
node by node; in both cases x is the fastest index of the nodes and z the slowest. -/
def position (q : Quantity) (nx ny nz x y z k : ℕ) : ℕ :=
  match q with
  | .vLandau | .jQBS => (x + nx * (y + ny * z)) * components q + k
  | _ => k * (nx * ny * nz) + (x + nx * (y + ny * z))

/-- Number of values in the payload of one output, with the time. -/
def blockSize (q : Quantity) (nx ny nz : ℕ) : ℕ := 1 + components q * (nx * ny * nz)

/-- The double at a byte offset. -/
def dblAt (f : List Byte) (offset : ℕ) : Option W64 := (get64 (f.drop offset)).map (·.1)

/-- The integer at a byte offset. -/
def intAt (f : List Byte) (offset : ℕ) : Option ℕ := (get32 (f.drop offset)).map (·.1.toNat)

/-- The layout of a binary file: version, number of the quantity and numbers of cells, then for the output number `h` its time and
all its values at the documented positions, and nothing else. -/
structure BinaryFile (o : TensorOps T) (q : Quantity) (nx ny nz : ℕ) (cs : List (Call T)) (f : List Byte) : Prop where
  head : dblAt f 0 = some 0x3FF0000000000000 ∧ intAt f 8 = some (code q) ∧ intAt f 12 = some nx ∧ intAt f 16 = some ny ∧ intAt f 20 = some nz
  length : f.length = 72 + 8 * (cs.length * blockSize q nx ny nz)
  block : ∀ h c, cs[h]? = some c →
    dblAt f (72 + 8 * (h * blockSize q nx ny nz)) = some c.time ∧
    ∀ x y z k, x < nx → y < ny → z < nz → k < components q →
      (c.val o x y z k).isSome ∧ dblAt f (72 + 8 * (h * blockSize q nx ny nz + (1 + position q nx ny nz x y z k))) = c.val o x y z k

/-- The lines of a text file. -/
def lines : List Item → List (List Item)
  | [] => []
  | i :: r => if i = .eol then [] :: lines r else match lines r with
    | [] => [[i]]
    | l :: ls => (i :: l) :: ls

/-- The numbers of a line: in scientific notation with 14 digits after the point, with one blank between two numbers. -/
def row : List Item → Option (List W64)
  | [] => some []
  | [.num s x] => if s = .scientific 14 then some [x] else none
  | .num s x :: .text t :: r => if s = .scientific 14 ∧ t = " " then (row r).map (x :: ·) else none
  | _ => none

/-- The line of a value after the line of the time, and its column. -/
def linePosition (q : Quantity) (nx ny nz x y z k : ℕ) : ℕ × ℕ :=
  match q with
  | .vLandau | .jQBS => (x + nx * (y + ny * z), k)
  | _ => (k * (ny * nz) + (y + ny * z), x)

/-- Number of lines of one output. -/
def blockLines (q : Quantity) (nx ny nz : ℕ) : ℕ :=
  match q with
  | .vLandau | .jQBS => 1 + nx * ny * nz
  | _ => 1 + components q * (ny * nz)

/-- The layout of a text file: five comment lines, then for each output a line with the time and lines with the values. -/
structure TextFile (o : TensorOps T) (q : Quantity) (nx ny nz : ℕ) (s r : W64 × W64 × W64) (cs : List (Call T)) (f : List Item) : Prop where
  head : (lines f).take 5 = [[.text "#Thermodynamic Lattice Output version: ", .num (.fixed 2) 0x3FF0000000000000],
    [.text "#Quantity:", .text " ", .text (qName q)],
    [.text "#Grid dimensions: ", .int nx, .text " ", .int ny, .text " ", .int nz],
    [.text "#Grid spacing: ", .num (.fixed 6) s.1, .text " ", .num (.fixed 6) s.2.1, .text " ", .num (.fixed 6) s.2.2],
    [.text "#Grid origin: ", .num (.fixed 6) r.1, .text " ", .num (.fixed 6) r.2.1, .text " ", .num (.fixed 6) r.2.2]]
  length : (lines f).length = 5 + cs.length * blockLines q nx ny nz
  block : ∀ h c, cs[h]? = some c →
    ((lines f)[5 + h * blockLines q nx ny nz]?).bind row = some [c.time] ∧
    ∀ x y z k, x < nx → y < ny → z < nz → k < components q →
      (c.val o x y z k).isSome ∧
      (((lines f)[5 + (h * blockLines q nx ny nz + (1 + (linePosition q nx ny nz x y z k).1))]?).bind row).bind
        (fun l => l[(linePosition q nx ny nz x y z k).2]?) = c.val o x y z k

/-! ### Lists of constant blocks -/

theorem flatMap_get {α β : Type} (f : α → List β) (c : ℕ) : ∀ (l : List α), (∀ a ∈ l, (f a).length = c) → ∀ (i j : ℕ), j < c →
    (l.flatMap f)[i * c + j]? = (l[i]?).bind fun a => (f a)[j]? := by
  intro l
  induction l with
  | nil => intro _ i j _; simp
  | cons a l ih =>
    intro h i j hj
    rw [List.flatMap_cons]
    have ha := h a (by simp)
    cases i with
    | zero =>
      rw [Nat.zero_mul, Nat.zero_add, List.getElem?_append_left (by omega)]; rfl
    | succ i =>
      rw [List.getElem?_append_right (by rw [ha, Nat.succ_mul]; omega), ha]
      have e : (i + 1) * c + j - c = i * c + j := by rw [Nat.succ_mul]; omega
      rw [e, ih (fun b hb => h b (by simp [hb])) i j hj]; rfl

theorem flatMap_length {α β : Type} (f : α → List β) (c : ℕ) (l : List α) (h : ∀ a ∈ l, (f a).length = c) :
    (l.flatMap f).length = l.length * c := by
  induction l with
  | nil => simp
  | cons a l ih =>
    rw [List.flatMap_cons, List.length_append, h a (by simp), ih fun b hb => h b (by simp [hb]), List.length_cons, Nat.succ_mul]; omega

theorem plane_length (nx ny z : ℕ) :
    ((List.range ny).flatMap fun iy => (List.range nx).map fun ix => (ix, iy, z)).length = ny * nx := by
  rw [flatMap_length _ nx _ (by simp)]; simp

theorem nodes_length (nx ny nz : ℕ) : (nodes nx ny nz).length = nx * ny * nz := by
  unfold nodes
  rw [flatMap_length _ (ny * nx) _ fun z _ => plane_length nx ny z]; simp; ring

theorem nodes_get {nx ny nz x y z : ℕ} (hx : x < nx) (hy : y < ny) (hz : z < nz) :
    (nodes nx ny nz)[x + nx * (y + ny * z)]? = some (x, y, z) := by
  have hj : y * nx + x < ny * nx := by
    calc y * nx + x < y * nx + nx := by omega
      _ = (y + 1) * nx := by ring
      _ ≤ ny * nx := Nat.mul_le_mul_right _ hy
  have e : x + nx * (y + ny * z) = z * (ny * nx) + (y * nx + x) := by ring
  unfold nodes
  rw [e, flatMap_get _ (ny * nx) _ (fun z _ => plane_length nx ny z) z _ hj, List.getElem?_range hz]
  simp only [Option.bind_some]
  rw [flatMap_get _ nx _ (by simp) y x hx, List.getElem?_range hy]
  simp only [Option.bind_some]
  rw [List.getElem?_map, List.getElem?_range hx]; rfl

/-! ### Binary files -/

/-- The numbers of an output in the order in which they are written. -/
def words (o : TensorOps T) : Call T → List W64
  | .density g t => t :: (nodes g.nx g.ny g.nz).map fun x => g.at x
  | .currents g t => t :: (nodes g.nx g.ny g.nz).flatMap fun x => g.at x
  | .tensor q g t => t :: match q with
    | .tmn => pairs.flatMap fun ij => (nodes g.nx g.ny g.nz).map fun x => o.comp (g.at x) (tmnIdx ij.1 ij.2)
    | .tmnLandau => pairs.flatMap fun ij => (nodes g.nx g.ny g.nz).map fun x => o.comp (o.landau (g.at x)) (tmnIdx ij.1 ij.2)
    | _ => (nodes g.nx g.ny g.nz).flatMap fun x => [(o.vel (g.at x)).1, (o.vel (g.at x)).2.1, (o.vel (g.at x)).2.2]
  | _ => []

theorem flatMap_bytes (l : List W64) : l.flatMap dbl = (l.flatMap put64).map Item.byte := by
  induction l with
  | nil => rfl
  | cons a l ih => rw [List.flatMap_cons, List.flatMap_cons, List.map_append, ih]; rfl

theorem cellItems_binary {p : Par} (hp : Single p false) (nx ix : ℕ) (v : W64) : cellItems p nx ix v = dbl v := by
  simp [cellItems, hp.ascii, hp.binary]

theorem rowItems_binary {p : Par} (hp : Single p false) (l : List W64) : rowItems p l = l.flatMap dbl := by
  simp [rowItems, hp.ascii, hp.binary]

theorem chunk_binary {p : Par} (hp : Single p false) (o : TensorOps T) (c : Call T) {q : Quantity} (hc : c.out = some q) :
    chunk p o false c = ((words o c).flatMap put64).map Item.byte := by
  rw [← flatMap_bytes]
  unfold chunk
  simp only [Bool.false_eq_true, if_false]
  cases c with
  | startD => cases hc
  | startT => cases hc
  | finish => cases hc
  | density g t =>
    simp only [dataItems, words, Call.time, cellItems_binary hp, List.flatMap_cons, List.flatMap_map]
  | currents g t =>
    simp only [dataItems, words, Call.time, rowItems_binary hp, List.flatMap_cons, List.flatMap_assoc]
  | tensor q' g t =>
    cases q' <;>
    simp only [dataItems, words, tensorItems, Call.time, cellItems_binary hp, rowItems_binary hp, List.flatMap_cons, List.flatMap_map,
      List.flatMap_assoc]

theorem put64_length (x : W64) : (put64 x).length = 8 := rfl

theorem pairs_idx : pairs.map (fun ij => (tmnIdx ij.1 ij.2).val) = List.range 10 := by decide +kernel

theorem pairs_get {k : ℕ} (hk : k < 10) : ∃ ij, pairs[k]? = some ij ∧ tmnIdx ij.1 ij.2 = ⟨k, hk⟩ := by
  have h : (pairs.map fun ij => (tmnIdx ij.1 ij.2).val)[k]? = some k := by rw [pairs_idx, List.getElem?_range hk]
  rw [List.getElem?_map] at h
  obtain ⟨ij, h1, h2⟩ := Option.map_eq_some_iff.1 h
  exact ⟨ij, h1, Fin.ext h2⟩

theorem pairs_length : pairs.length = 10 := by decide +kernel

theorem words_length (o : TensorOps T) {c : Call T} {q : Quantity} (hc : c.out = some q) {nx ny nz : ℕ} (hf : c.Fits nx ny nz) :
    (words o c).length = blockSize q nx ny nz := by
  unfold blockSize
  cases c with
  | startD => cases hc
  | startT => cases hc
  | finish => cases hc
  | density g t =>
    obtain ⟨rfl, rfl, rfl⟩ := hf
    cases Option.some.inj hc
    simp only [words, List.length_cons, List.length_map, nodes_length, components]; omega
  | currents g t =>
    obtain ⟨⟨rfl, rfl, rfl⟩, hl⟩ := hf
    cases Option.some.inj hc
    simp only [words, List.length_cons, components]
    rw [flatMap_length (fun x => g.at x) 12 _ fun x _ => hl _, nodes_length]; omega
  | tensor q' g t =>
    obtain ⟨rfl, rfl, rfl⟩ := hf
    simp only [Call.out] at hc
    split_ifs at hc with hq
    cases Option.some.inj hc
    rcases hq with rfl | rfl | rfl
    · simp only [words, List.length_cons, components]
      rw [flatMap_length _ (g.nx * g.ny * g.nz) _ fun x _ => by rw [List.length_map, nodes_length], pairs_length]; omega
    · simp only [words, List.length_cons, components]
      rw [flatMap_length _ (g.nx * g.ny * g.nz) _ fun x _ => by rw [List.length_map, nodes_length], pairs_length]; omega
    · simp only [words, List.length_cons, components]
      rw [flatMap_length _ 3 _ fun x _ => rfl, nodes_length]; omega

theorem node_lt {nx ny nz x y z : ℕ} (hx : x < nx) (hy : y < ny) (hz : z < nz) : x + nx * (y + ny * z) < nx * ny * nz := by
  by_contra h
  have h1 := nodes_get hx hy hz
  rw [List.getElem?_eq_none (by rw [nodes_length]; omega)] at h1
  cases h1

theorem position_lt {q : Quantity} {nx ny nz x y z k : ℕ} (hx : x < nx) (hy : y < ny) (hz : z < nz) (hk : k < components q) :
    1 + position q nx ny nz x y z k < blockSize q nx ny nz := by
  have hnode := node_lt hx hy hz
  unfold blockSize position
  have hm : ∀ m : ℕ, k < m → k * (nx * ny * nz) + (x + nx * (y + ny * z)) < m * (nx * ny * nz) := by
    intro m hm
    calc k * (nx * ny * nz) + (x + nx * (y + ny * z)) < k * (nx * ny * nz) + nx * ny * nz := by omega
      _ = (k + 1) * (nx * ny * nz) := by ring
      _ ≤ m * (nx * ny * nz) := Nat.mul_le_mul_right _ hm
  have hr : ∀ m : ℕ, k < m → (x + nx * (y + ny * z)) * m + k < m * (nx * ny * nz) := by
    intro m hm
    calc (x + nx * (y + ny * z)) * m + k < (x + nx * (y + ny * z)) * m + m := by omega
      _ = (x + nx * (y + ny * z) + 1) * m := by ring
      _ ≤ (nx * ny * nz) * m := Nat.mul_le_mul_right _ hnode
      _ = m * (nx * ny * nz) := by ring
  cases q with
  | eckart => have := hm _ hk; simp only; omega
  | tmn => have := hm _ hk; simp only; omega
  | tmnLandau => have := hm _ hk; simp only; omega
  | vLandau => have := hr _ hk; simp only; omega
  | jQBS => have := hr _ hk; simp only; omega

theorem words_get (o : TensorOps T) {c : Call T} {q : Quantity} (hc : c.out = some q) {nx ny nz : ℕ} (hf : c.Fits nx ny nz)
    {x y z k : ℕ} (hx : x < nx) (hy : y < ny) (hz : z < nz) (hk : k < components q) :
    (words o c)[1 + position q nx ny nz x y z k]? = c.val o x y z k := by
  rw [Nat.add_comm 1]
  cases c with
  | startD => cases hc
  | startT => cases hc
  | finish => cases hc
  | density g t =>
    obtain ⟨rfl, rfl, rfl⟩ := hf
    cases Option.some.inj hc
    have hk0 : k = 0 := by simp only [components] at hk; omega
    subst hk0
    simp only [words, List.getElem?_cons_succ, position, Nat.zero_mul, Nat.zero_add, List.getElem?_map, nodes_get hx hy hz, Option.map_some,
      Call.val, if_true, Grid.at]
  | currents g t =>
    obtain ⟨⟨rfl, rfl, rfl⟩, hl⟩ := hf
    cases Option.some.inj hc
    simp only [words, List.getElem?_cons_succ, position]
    rw [show components Quantity.jQBS = 12 from rfl, flatMap_get (fun x => g.at x) 12 _ (fun x _ => hl _) _ k hk, nodes_get hx hy hz]
    simp only [Option.bind_some, Grid.at, Call.val]
  | tensor q' g t =>
    obtain ⟨rfl, rfl, rfl⟩ := hf
    simp only [Call.out] at hc
    split_ifs at hc with hq
    cases Option.some.inj hc
    have hnode := node_lt hx hy hz
    rcases hq with rfl | rfl | rfl
    · have hk' : k < 10 := hk
      obtain ⟨ij, h1, h2⟩ := pairs_get hk'
      simp only [words, List.getElem?_cons_succ, position]
      rw [flatMap_get _ _ _ (fun x _ => by rw [List.length_map, nodes_length]) k _ hnode, h1]
      simp only [Option.bind_some, List.getElem?_map, nodes_get hx hy hz, Option.map_some, Grid.at, Call.val, hk', dif_pos, h2]
    · have hk' : k < 10 := hk
      obtain ⟨ij, h1, h2⟩ := pairs_get hk'
      simp only [words, List.getElem?_cons_succ, position]
      rw [flatMap_get _ _ _ (fun x _ => by rw [List.length_map, nodes_length]) k _ hnode, h1]
      simp only [Option.bind_some, List.getElem?_map, nodes_get hx hy hz, Option.map_some, Grid.at, Call.val, hk', dif_pos, h2]
    · have hk' : k < 3 := hk
      simp only [words, List.getElem?_cons_succ, position]
      rw [show components Quantity.vLandau = 3 from rfl, flatMap_get _ 3 _ (fun x _ => rfl) _ k hk', nodes_get hx hy hz]
      simp only [Option.bind_some, Grid.at, Call.val]
      rw [dif_pos (by omega)]
      interval_cases k <;> rfl

theorem words_zero (o : TensorOps T) {c : Call T} {q : Quantity} (hc : c.out = some q) : (words o c)[0]? = some c.time := by
  cases c with
  | startD => cases hc
  | startT => cases hc
  | finish => cases hc
  | density => rfl
  | currents => rfl
  | tensor => rfl

theorem dblAt_words (h : List Byte) (ws : List W64) (i : ℕ) : dblAt (h ++ ws.flatMap put64) (h.length + 8 * i) = ws[i]? := by
  unfold dblAt
  rw [← List.drop_drop, List.drop_left]
  induction ws generalizing i with
  | nil => simp [get64]
  | cons w ws ih =>
    rw [List.flatMap_cons]
    cases i with
    | zero => rw [Nat.mul_zero, List.drop_zero, Verif.Bin.get64_put]; rfl
    | succ i =>
      have e : (put64 w ++ ws.flatMap put64).drop (8 + 8 * i) = (ws.flatMap put64).drop (8 * i) := by
        rw [← List.drop_drop, ← put64_length w, List.drop_left]
      rw [Nat.mul_succ, Nat.add_comm (8 * i) 8, e, ih]; rfl

/-- The bytes of the header. -/
def headerBytes (nx ny nz : ℕ) (s r : W64 × W64 × W64) (q : Quantity) : List Byte :=
  put64 version ++ (put32 (BitVec.ofNat 32 (toInt q)) ++ (put32 (BitVec.ofNat 32 nx) ++ (put32 (BitVec.ofNat 32 ny) ++
    (put32 (BitVec.ofNat 32 nz) ++ (put64 s.1 ++ (put64 s.2.1 ++ (put64 s.2.2 ++ (put64 r.1 ++ (put64 r.2.1 ++ put64 r.2.2)))))))))

theorem header_binary (nx ny nz : ℕ) (s r : W64 × W64 × W64) (q : Quantity) :
    header false nx ny nz s r q = (headerBytes nx ny nz s r q).map .byte := by
  simp only [header, binaryHeader, dbl, int4, headerBytes, List.map_append, List.append_assoc, Bool.false_eq_true, if_false]

theorem headerBytes_length (nx ny nz : ℕ) (s r : W64 × W64 × W64) (q : Quantity) : (headerBytes nx ny nz s r q).length = 72 := rfl

theorem binary_file {p : Par} (hp : Single p false) (o : TensorOps T) {nx ny nz : ℕ} (hn : nx < 2 ^ 31 ∧ ny < 2 ^ 31 ∧ nz < 2 ^ 31)
    (s r : W64 × W64 × W64) {q : Quantity} {cs : List (Call T)} (hcs : ∀ c ∈ cs, c.out = some q ∧ c.Fits nx ny nz) :
    ∃ f : List Byte, header false nx ny nz s r q ++ cs.flatMap (chunk p o false) = f.map .byte ∧ BinaryFile o q nx ny nz cs f := by
  have hch : ∀ l : List (Call T), (∀ c ∈ l, c.out = some q) →
      l.flatMap (chunk p o false) = ((l.flatMap (words o)).flatMap put64).map .byte := by
    intro l
    induction l with
    | nil => intro _; rfl
    | cons c l ih =>
      intro h
      rw [List.flatMap_cons, List.flatMap_cons, List.flatMap_append, List.map_append, chunk_binary hp o c (h c (by simp)),
        ih fun d hd => h d (by simp [hd])]
  refine ⟨headerBytes nx ny nz s r q ++ (cs.flatMap (words o)).flatMap put64, ?_, ?_, ?_, ?_⟩
  · rw [header_binary, List.map_append, hch cs fun c hc => (hcs c hc).1]
  · have small : ∀ n : ℕ, n < 2 ^ 31 → (BitVec.ofNat 32 n).toNat = n := by
      intro n hn; rw [BitVec.toNat_ofNat, Nat.mod_eq_of_lt (by omega)]
    unfold dblAt intAt headerBytes
    simp only [List.append_assoc]
    refine ⟨?_, ?_, ?_, ?_, ?_⟩
    · rw [List.drop_zero, Verif.Bin.get64_put]; rfl
    · rw [show (8 : ℕ) = (put64 version).length from rfl, List.drop_left, Verif.Bin.get32_put]
      simp only [Option.map_some]; cases q <;> rfl
    · rw [show (12 : ℕ) = (put64 version).length + (put32 (BitVec.ofNat 32 (toInt q))).length from rfl, ← List.drop_drop, List.drop_left,
        List.drop_left, Verif.Bin.get32_put]
      simp only [Option.map_some, small nx hn.1]
    · rw [show (16 : ℕ) = (put64 version).length + ((put32 (BitVec.ofNat 32 (toInt q))).length + (put32 (BitVec.ofNat 32 nx)).length) from rfl,
        ← List.drop_drop, List.drop_left, ← List.drop_drop, List.drop_left, List.drop_left, Verif.Bin.get32_put]
      simp only [Option.map_some, small ny hn.2.1]
    · rw [show (20 : ℕ) = (put64 version).length + ((put32 (BitVec.ofNat 32 (toInt q))).length + ((put32 (BitVec.ofNat 32 nx)).length +
          (put32 (BitVec.ofNat 32 ny)).length)) from rfl,
        ← List.drop_drop, List.drop_left, ← List.drop_drop, List.drop_left, ← List.drop_drop, List.drop_left, List.drop_left,
        Verif.Bin.get32_put]
      simp only [Option.map_some, small nz hn.2.2]
  · rw [List.length_append, headerBytes_length, flatMap_length _ 8 _ fun w _ => put64_length w,
      flatMap_length _ (blockSize q nx ny nz) _ fun c hc => words_length o (hcs c hc).1 (hcs c hc).2]; omega
  · intro h c hc
    have hmem : c ∈ cs := List.mem_of_getElem? hc
    obtain ⟨h1, h2⟩ := hcs c hmem
    have hlen := fun d hd => words_length o (hcs d hd).1 (hcs d hd).2
    refine ⟨?_, ?_⟩
    · have := dblAt_words (headerBytes nx ny nz s r q) (cs.flatMap (words o)) (h * blockSize q nx ny nz + 0)
      rw [headerBytes_length] at this
      rw [← Nat.add_zero (h * blockSize q nx ny nz), this, flatMap_get _ _ _ hlen h 0 (by unfold blockSize; omega), hc]
      exact words_zero o h1
    · intro x y z k hx hy hz hk
      have hw := words_get o h1 h2 hx hy hz hk
      have hb := position_lt hx hy hz hk
      constructor
      · rw [← hw]
        rw [← words_length o h1 h2] at hb
        rw [List.getElem?_eq_getElem hb]; rfl
      · have := dblAt_words (headerBytes nx ny nz s r q) (cs.flatMap (words o)) (h * blockSize q nx ny nz + (1 + position q nx ny nz x y z k))
        rw [headerBytes_length] at this
        rw [this, flatMap_get _ _ _ hlen h _ hb, hc]
        exact hw

theorem read_put (a b : List Byte) (i : ℕ) (x : W64) (h : a.drop i = put64 x ++ a.drop (i + 8)) : dblAt (a ++ b) i = some x := by
  have hi : i ≤ a.length := by
    by_contra hn
    rw [List.drop_eq_nil_of_le (by omega)] at h
    have := congrArg List.length h
    simp only [List.length_nil, List.length_append, put64_length] at this; omega
  unfold dblAt
  rw [List.drop_append_of_le_length hi, h, List.append_assoc, Verif.Bin.get64_put]; rfl

end Verif.Td
