import Verif.Td.Vtk
import Verif.Td.Read

/-!
C151: the VTK files can be read by a reader for the legacy format.
-/

namespace Verif.Td

open Verif.Bin (W64)

/-! ### Specification: a reader for the legacy format -/

/-- Geometry of a data set. -/
inductive Dataset where
  | points (nx ny nz : ℤ) (spacing origin : List Tok)
  | unstructured (pts : List Tok) (cells : List Tok) (types : List Tok)
  deriving DecidableEq

/-- An attribute: name, type, number of components, values. -/
structure Attr where
  name : String
  ty : String
  comps : ℕ
  vals : List Tok
  deriving DecidableEq

/-- A file. -/
structure Vtk where
  data : Dataset
  size : ℤ
  attrs : List Attr
  deriving DecidableEq

/-- Separators. -/
def sep : Tok → Bool
  | .sp => true
  | .nl => true
  | _ => false

/-- The words of a file. Two words must be separated. -/
def tokens : List Tok → Option (List Tok)
  | [] => some []
  | [x] => some (if sep x then [] else [x])
  | x :: y :: r => if sep x then tokens (y :: r) else if sep y then (tokens (y :: r)).map (x :: ·) else none

/-- The rest after the first line. -/
def nextLine : List Tok → List Tok
  | [] => []
  | x :: r => if x = .nl then r else nextLine r

/-- The first `n` words. -/
def need (n : ℕ) (l : List Tok) : Option (List Tok × List Tok) := if n ≤ l.length then some (l.take n, l.drop n) else none

/-- The attributes of `n` points. -/
def readAttrs (n : ℕ) : ℕ → List Tok → Option (List Attr)
  | _, [] => some []
  | 0, _ => none
  | k + 1, .word "SCALARS" :: .word name :: .word ty :: .int 1 :: .word "LOOKUP_TABLE" :: .word "default" :: r =>
    (need n r).bind fun v => (readAttrs n k v.2).map (⟨name, ty, 1, v.1⟩ :: ·)
  | k + 1, .word "VECTORS" :: .word name :: .word ty :: r =>
    (need (3 * n) r).bind fun v => (readAttrs n k v.2).map (⟨name, ty, 3, v.1⟩ :: ·)
  | _, _ => none

/-- The number of points and their attributes. -/
def readData (d : Dataset) : List Tok → Option Vtk
  | .word "POINT_DATA" :: .int n :: r => if 0 ≤ n then (readAttrs n.toNat r.length r).map (⟨d, n, ·⟩) else none
  | _ => none

/-- The types of the cells. -/
def readTypes (pts cells : List Tok) : List Tok → Option Vtk
  | .word "CELL_TYPES" :: .int n :: r => (need n.toNat r).bind fun v => readData (.unstructured pts cells v.1) v.2
  | _ => none

/-- The cells: their number and the number of words that follow. -/
def readCells (pts : List Tok) : List Tok → Option Vtk
  | .word "CELLS" :: .int _ :: .int m :: r => (need m.toNat r).bind fun v => readTypes pts v.1 v.2
  | _ => none

/-- The data set. -/
def readSet : List Tok → Option Vtk
  | .word "ASCII" :: .word "DATASET" :: .word "STRUCTURED_POINTS" :: .word "DIMENSIONS" :: .int nx :: .int ny :: .int nz :: .word "SPACING" ::
      sx :: sy :: sz :: .word "ORIGIN" :: ox :: oy :: oz :: r =>
    (readData (.points nx ny nz [sx, sy, sz] [ox, oy, oz]) r).bind fun v => if v.size = nx * ny * nz then some v else none
  | .word "ASCII" :: .word "DATASET" :: .word "UNSTRUCTURED_GRID" :: .word "POINTS" :: .int n :: .word "double" :: r =>
    (need (3 * n.toNat) r).bind fun v => (readCells v.1 v.2).bind fun w => if w.size = n then some w else none
  | _ => none

/-- The first line, the title, the data set. -/
def readVtk (f : List Tok) : Option Vtk :=
  if f.take 10 = [.word "#", .sp, .word "vtk", .sp, .word "DataFile", .sp, .word "Version", .sp, .word "2.0", .nl] then
    (tokens (nextLine (f.drop 10))).bind readSet
  else none

/-- The words of three numbers. -/
def vec (s : VStyle) (v : W64 × W64 × W64) : List Tok := [.num s v.1, .num s v.2.1, .num s v.2.2]

/-- The nodes of a lattice in the order of the format: x fastest, z slowest. -/
def values {T : Type} (g : Grid T) : List T := (List.range (g.nx * g.ny * g.nz)).map g.data

/-! ### Proofs -/

theorem tokens_words : ∀ (l m r : List Tok), tokens l = some m → (∀ x, l.getLast? = some x → sep x = true) →
    tokens (l ++ r) = (tokens r).map (m ++ ·) := by
  intro l
  induction l with
  | nil => intro m r h _; simp only [tokens, Option.some.injEq] at h; subst h; simp
  | cons x l ih =>
    intro m r h hlast
    cases l with
    | nil =>
      have hx : sep x = true := hlast x (by simp)
      simp only [tokens, hx, if_true, Option.some.injEq] at h
      subst h
      cases r with
      | nil => simp [tokens, hx]
      | cons y r => simp [tokens, hx]
    | cons y l =>
      have hl : ∀ z, (y :: l).getLast? = some z → sep z = true := fun z hz => hlast z (by rw [List.getLast?_cons_cons]; exact hz)
      simp only [tokens] at h
      rw [List.cons_append, List.cons_append]
      simp only [tokens]
      by_cases hx : sep x = true
      · simp only [hx, if_true] at h ⊢
        exact ih m r h hl
      · simp only [hx, Bool.false_eq_true, if_false] at h ⊢
        by_cases hy : sep y = true
        · simp only [hy, if_true] at h ⊢
          obtain ⟨m', h1, rfl⟩ := Option.map_eq_some_iff.1 h
          rw [← List.cons_append, ih m' r h1 hl]
          cases tokens r <;> simp
        · simp [hy] at h

/-- A piece of a file that ends with a separator, and its words. -/
def Piece (l m : List Tok) : Prop := tokens l = some m ∧ ∀ x, l.getLast? = some x → sep x = true

theorem Piece.nil : Piece [] [] := ⟨rfl, by simp⟩

theorem Piece.append {l m l' m' : List Tok} (h : Piece l m) (h' : Piece l' m') : Piece (l ++ l') (m ++ m') := by
  refine ⟨by rw [tokens_words l m l' h.1 h.2, h'.1]; rfl, ?_⟩
  intro x hx
  rw [List.getLast?_append] at hx
  cases hl : l'.getLast? with
  | none => rw [hl] at hx; exact h.2 x (by simpa using hx)
  | some y => rw [hl] at hx; exact h'.2 x (by rw [hl]; simpa using hx)

theorem Piece.flatMap {α : Type} {f g : α → List Tok} (l : List α) (h : ∀ a ∈ l, Piece (f a) (g a)) : Piece (l.flatMap f) (l.flatMap g) := by
  induction l with
  | nil => exact Piece.nil
  | cons a l ih => exact Piece.append (h a (by simp)) (ih fun b hb => h b (by simp [hb]))

theorem piece_line3 (s : VStyle) (v : W64 × W64 × W64) : Piece (line3 s v) (vec s v) := ⟨rfl, fun x hx => by
  simp only [line3, List.getLast?_cons_cons, List.getLast?_singleton, Option.some.injEq] at hx; subst hx; rfl⟩

theorem piece_end (l m : List Tok) (h : tokens l = some m) (hl : l.getLast? = some .nl) : Piece l m :=
  ⟨h, fun x hx => by rw [hl] at hx; cases hx; rfl⟩

/-- The words of the head of a scalar. -/
def scalarWords (name ty : String) : List Tok :=
  [.word "SCALARS", .word name, .word ty, .int 1, .word "LOOKUP_TABLE", .word "default"]

theorem piece_scalarHead (name ty : String) : Piece (scalarHead name ty) (scalarWords name ty) := piece_end _ _ rfl rfl

theorem piece_word (w : Tok) (h : sep w = false) : Piece [w, .nl] [w] :=
  piece_end _ _ (by simp only [tokens, h]; rfl) rfl

theorem flatMap_one {α : Type} (f : α → Tok) (l : List α) : (l.flatMap fun a => [f a]) = l.map f := by
  induction l with
  | nil => rfl
  | cons a l ih => rw [List.flatMap_cons, ih]; rfl

theorem readVtk_title (title r : List Tok) (h : ∀ x ∈ title, x ≠ .nl) :
    readVtk (firstLine ++ (title ++ .nl :: r)) = (tokens r).bind readSet := by
  unfold readVtk
  have e1 : (firstLine ++ (title ++ .nl :: r)).take 10 = firstLine := List.take_left' rfl
  have e2 : (firstLine ++ (title ++ .nl :: r)).drop 10 = title ++ .nl :: r := List.drop_left' rfl
  have e3 : nextLine (title ++ .nl :: r) = r := by
    clear e1 e2
    induction title with
    | nil => simp [nextLine]
    | cons x t ih => rw [List.cons_append, nextLine, if_neg (h x (by simp))]; exact ih fun y hy => h y (by simp [hy])
  rw [e2, e3]; exact if_pos e1

theorem piece_scalarPart (name ty : String) (f : Part → Tok) (hf : ∀ p, sep (f p) = false) (ps : List Part) :
    Piece (scalarPart name ty f ps) (scalarWords name ty ++ ps.map f) := by
  refine Piece.append (piece_scalarHead name ty) ?_
  have := Piece.flatMap (f := fun p => [f p, Tok.nl]) (g := fun p => [f p]) ps fun p _ => piece_word _ (hf p)
  rwa [flatMap_one] at this

theorem need_append {n : ℕ} {l : List Tok} (h : l.length = n) (r : List Tok) : need n (l ++ r) = some (l, r) := by
  unfold need
  rw [if_pos (by rw [List.length_append]; omega), ← h, List.take_left, List.drop_left]

/-- The words of an attribute. -/
def attrWords (a : Attr) : List Tok :=
  if a.comps = 1 then scalarWords a.name a.ty ++ a.vals else [.word "VECTORS", .word a.name, .word a.ty] ++ a.vals

/-- An attribute of `n` points. -/
def Attr.Ok (n : ℕ) (a : Attr) : Prop := (a.comps = 1 ∨ a.comps = 3) ∧ a.vals.length = a.comps * n

theorem readAttrs_words (n : ℕ) (as : List Attr) (h : ∀ a ∈ as, a.Ok n) :
    ∀ k, as.length ≤ k → readAttrs n k (as.flatMap attrWords) = some as := by
  induction as with
  | nil => intro k _; cases k <;> rfl
  | cons a as ih =>
    intro k hk
    obtain ⟨k, rfl⟩ : ∃ j, k = j + 1 := ⟨k - 1, by simp only [List.length_cons] at hk; omega⟩
    have hr := ih (fun b hb => h b (by simp [hb])) k (by simp only [List.length_cons] at hk; omega)
    obtain ⟨hc, hl⟩ := h a (by simp)
    rw [List.flatMap_cons]
    obtain ⟨name, ty, comps, vals⟩ := a
    simp only at hc hl
    rcases hc with rfl | rfl
    · simp only [attrWords, if_true, scalarWords, List.cons_append, List.nil_append, readAttrs]
      rw [need_append (by omega)]
      simp only [Option.bind_some, hr, Option.map_some]
    · simp only [attrWords, Nat.reduceEqDiff, if_false, List.cons_append, List.nil_append, readAttrs]
      rw [need_append (by omega)]
      simp only [Option.bind_some, hr, Option.map_some]

theorem attrWords_length (a : Attr) : 1 ≤ (attrWords a).length := by
  unfold attrWords; split_ifs <;> simp [scalarWords]

theorem readAttrs_all (n : ℕ) (as : List Attr) (h : ∀ a ∈ as, a.Ok n) :
    readAttrs n (as.flatMap attrWords).length (as.flatMap attrWords) = some as := by
  refine readAttrs_words n as h _ ?_
  induction as with
  | nil => simp
  | cons a as ih =>
    have := ih fun b hb => h b (by simp [hb])
    have := attrWords_length a
    rw [List.flatMap_cons, List.length_append, List.length_cons]; omega

theorem nodes_data {T : Type} (g : Grid T) : (nodes g.nx g.ny g.nz).map g.at = values g := by
  apply List.ext_getElem?
  intro i
  by_cases hi : i < g.nx * g.ny * g.nz
  · obtain ⟨x, y, z, hx, hy, hz, rfl⟩ : ∃ x y z, x < g.nx ∧ y < g.ny ∧ z < g.nz ∧ i = x + g.nx * (y + g.ny * z) := by
      have h0 : 0 < g.nx := Nat.pos_of_ne_zero fun h => by rw [h] at hi; simp at hi
      have h1 : 0 < g.ny := Nat.pos_of_ne_zero fun h => by rw [h] at hi; simp at hi
      refine ⟨i % g.nx, i / g.nx % g.ny, i / g.nx / g.ny, Nat.mod_lt _ h0, Nat.mod_lt _ h1, ?_, ?_⟩
      · rw [Nat.div_div_eq_div_mul, Nat.div_lt_iff_lt_mul (Nat.mul_pos h0 h1)]
        calc i < g.nx * g.ny * g.nz := hi
          _ = g.nz * (g.nx * g.ny) := by ring
      · have a1 := Nat.mod_add_div i g.nx
        have a2 := Nat.mod_add_div (i / g.nx) g.ny
        rw [a2, a1]
    rw [List.getElem?_map, nodes_get hx hy hz, values, List.getElem?_map, List.getElem?_range hi]
    simp only [Option.map_some, Grid.at, Nat.mul_comm z g.ny]
  · rw [List.getElem?_eq_none (by rw [List.length_map, nodes_length]; omega),
      List.getElem?_eq_none (by unfold values; rw [List.length_map, List.length_range]; omega)]

theorem values_length {T : Type} (g : Grid T) : (values g).length = g.nx * g.ny * g.nz := by simp [values]

/-- A scalar on the lattice. -/
def scalarAttr {T : Type} (g : Grid T) (name : String) (f : T → W64) : Attr := ⟨name, "double", 1, (values g).map fun v => .num .fixed3 (f v)⟩

/-- A vector on the lattice. -/
def vectorAttr {T : Type} (g : Grid T) (name : String) (f : T → W64 × W64 × W64) : Attr :=
  ⟨name, "double", 3, (values g).flatMap fun v => vec .fixed3 (f v)⟩

theorem scalarAttr_ok {T : Type} (g : Grid T) (name : String) (f : T → W64) : (scalarAttr g name f).Ok (g.nx * g.ny * g.nz) :=
  ⟨Or.inl rfl, by simp only [scalarAttr, List.length_map, values_length]; omega⟩

theorem vectorAttr_ok {T : Type} (g : Grid T) (name : String) (f : T → W64 × W64 × W64) : (vectorAttr g name f).Ok (g.nx * g.ny * g.nz) :=
  ⟨Or.inr rfl, by simp only [vectorAttr]; rw [flatMap_length _ 3 _ fun _ _ => rfl, values_length]; omega⟩

theorem piece_scalar {T : Type} (g : Grid T) (name : String) (f : T → W64) : Piece (vtkScalar g name f) (attrWords (scalarAttr g name f)) := by
  refine Piece.append (piece_scalarHead name "double") ?_
  have := Piece.flatMap (f := fun x : ℕ × ℕ × ℕ => [Tok.num .fixed3 (f (g.at x)), .sp] ++ (if (x.1 : ℤ) = g.nx - 1 then [.nl] else []))
    (g := fun x => [Tok.num .fixed3 (f (g.at x))]) (nodes g.nx g.ny g.nz) (by
      intro x _
      refine ⟨?_, ?_⟩
      · split_ifs <;> rfl
      · intro t ht
        split_ifs at ht
        · simp only [List.cons_append, List.nil_append, List.getLast?_cons_cons, List.getLast?_singleton, Option.some.injEq] at ht; subst ht; rfl
        · simp only [List.append_nil, List.getLast?_cons_cons, List.getLast?_singleton, Option.some.injEq] at ht; subst ht; rfl)
  rw [flatMap_one] at this
  have e : ((nodes g.nx g.ny g.nz).map fun x => Tok.num .fixed3 (f (g.at x))) = (values g).map fun v => .num .fixed3 (f v) := by
    rw [← nodes_data, List.map_map]; rfl
  rw [e] at this
  exact this

theorem piece_vector {T : Type} (g : Grid T) (name : String) (f : T → W64 × W64 × W64) :
    Piece (vtkVector g name f) (attrWords (vectorAttr g name f)) := by
  refine Piece.append (piece_end _ _ rfl rfl) ?_
  have := Piece.flatMap (f := fun x : ℕ × ℕ × ℕ => line3 .fixed3 (f (g.at x))) (g := fun x => vec .fixed3 (f (g.at x))) (nodes g.nx g.ny g.nz)
    fun x _ => piece_line3 _ _
  rw [← List.flatMap_map (f := g.at) (g := fun v => vec .fixed3 (f v)), nodes_data] at this
  exact this

/-- What a reader must find in a file for a lattice. -/
def gridVtk {T : Type} (g : Grid T) (as : List Attr) : Vtk :=
  ⟨.points g.nx g.ny g.nz (vec .general g.sizes) (vec .general g.origin), (g.nx * g.ny * g.nz : ℕ), as⟩

/-- The header without the first two lines. -/
def gridHead {T : Type} (g : Grid T) : List Tok := [.word "ASCII", .nl, .word "DATASET", .sp, .word "STRUCTURED_POINTS", .nl,
    .word "DIMENSIONS", .sp, .int g.nx, .sp, .int g.ny, .sp, .int g.nz, .nl,
    .word "SPACING", .sp, .num .general g.sizes.1, .sp, .num .general g.sizes.2.1, .sp, .num .general g.sizes.2.2, .nl,
    .word "ORIGIN", .sp, .num .general g.origin.1, .sp, .num .general g.origin.2.1, .sp, .num .general g.origin.2.2, .nl,
    .word "POINT_DATA", .sp, .int (g.nx * g.ny * g.nz : ℕ), .nl]

/-- Its words. -/
def gridWords {T : Type} (g : Grid T) : List Tok := [.word "ASCII", .word "DATASET", .word "STRUCTURED_POINTS",
    .word "DIMENSIONS", .int g.nx, .int g.ny, .int g.nz,
    .word "SPACING", .num .general g.sizes.1, .num .general g.sizes.2.1, .num .general g.sizes.2.2,
    .word "ORIGIN", .num .general g.origin.1, .num .general g.origin.2.1, .num .general g.origin.2.2,
    .word "POINT_DATA", .int (g.nx * g.ny * g.nz : ℕ)]

theorem piece_gridHead {T : Type} (g : Grid T) : Piece (gridHead g) (gridWords g) := piece_end _ _ rfl rfl

theorem read_grid {T : Type} (g : Grid T) (descr : String) (body : List Tok) (as : List Attr) (hb : Piece body (as.flatMap attrWords))
    (has : ∀ a ∈ as, a.Ok (g.nx * g.ny * g.nz)) : readVtk (vtkHeader g descr ++ body) = some (gridVtk g as) := by
  have e : vtkHeader g descr ++ body = firstLine ++ ([.word descr] ++ .nl :: (gridHead g ++ body)) := by
    simp only [vtkHeader, gridHead, List.append_assoc, List.cons_append, List.nil_append]
  rw [e, readVtk_title _ _ (by simp), ((piece_gridHead g).append hb).1]
  unfold gridWords
  simp only [Option.bind_some, List.cons_append, List.nil_append, readSet, readData]
  rw [if_pos (by positivity), Int.toNat_natCast, readAttrs_all _ _ has]
  simp only [Option.map_some, Option.bind_some]
  rw [if_pos (by push_cast; ring)]
  rfl

/-- C151: the file of a density. -/
theorem C151_density (q : Quantity) (d : Dens) (g : Grid W64) :
    readVtk (densityFile q d g) = some (gridVtk g [⟨varWord q d, "double", 1, (values g).map fun v => .num .fixed3 v⟩]) := by
  refine read_grid g _ _ [scalarAttr g (varWord q d) id] ?_ ?_
  · have := piece_scalar g (varWord q d) id
    simpa using this
  · intro a ha; rw [List.mem_singleton.1 ha]; exact scalarAttr_ok g _ _

/-- The components with the two indices in the name. -/
def tensorComps : List (String × Fin 10) :=
  [("00", 0), ("01", 1), ("02", 2), ("03", 3), ("11", 4), ("12", 5), ("13", 6), ("22", 7), ("23", 8), ("33", 9)]

theorem pairs_comps : pairs.map (fun ij => (digit ij.1 ++ digit ij.2, tmnIdx ij.1 ij.2)) = tensorComps := by decide +kernel

theorem read_tensor {T : Type} (q : Quantity) (d : Dens) (g : Grid T) (f : T → Fin 10 → W64) :
    readVtk (vtkHeader g (varWord q d) ++ pairs.flatMap fun ij =>
      vtkScalar g (varWord q d ++ digit ij.1 ++ digit ij.2) fun v => f v (tmnIdx ij.1 ij.2)) =
    some (gridVtk g (tensorComps.map fun c => ⟨varWord q d ++ c.1, "double", 1, (values g).map fun v => .num .fixed3 (f v c.2)⟩)) := by
  have e : (tensorComps.map fun c => (⟨varWord q d ++ c.1, "double", 1, (values g).map fun v => .num .fixed3 (f v c.2)⟩ : Attr)) =
      pairs.map fun ij => scalarAttr g (varWord q d ++ digit ij.1 ++ digit ij.2) fun v => f v (tmnIdx ij.1 ij.2) := by
    rw [← pairs_comps, List.map_map]
    apply List.map_congr_left
    intro ij _
    simp only [Function.comp, scalarAttr, String.append_assoc]
  rw [e]
  refine read_grid g _ _ _ ?_ ?_
  · rw [List.flatMap_map]
    exact Piece.flatMap pairs fun ij _ => piece_scalar g _ _
  · intro a ha
    obtain ⟨ij, _, rfl⟩ := List.mem_map.1 ha
    exact scalarAttr_ok g _ _

/-- C151: the file of the tensor has the ten components with their indices in the names. -/
theorem C151_tmn {T : Type} (o : TensorOps T) (d : Dens) (g : Grid T) :
    readVtk (tensorFile o .tmn d g) = some (gridVtk g (tensorComps.map fun c =>
      ⟨varWord .tmn d ++ c.1, "double", 1, (values g).map fun v => .num .fixed3 (o.comp v c.2)⟩)) := read_tensor .tmn d g o.comp

/-- C151: the same for the tensor in its rest frame. -/
theorem C151_tmn_landau {T : Type} (o : TensorOps T) (d : Dens) (g : Grid T) :
    readVtk (tensorFile o .tmnLandau d g) = some (gridVtk g (tensorComps.map fun c =>
      ⟨varWord .tmnLandau d ++ c.1, "double", 1, (values g).map fun v => .num .fixed3 (o.comp (o.landau v) c.2)⟩)) :=
  read_tensor .tmnLandau d g fun v => o.comp (o.landau v)

/-- C151: the file of the velocity. -/
theorem C151_velocity {T : Type} (o : TensorOps T) (d : Dens) (g : Grid T) :
    readVtk (tensorFile o .vLandau d g) = some (gridVtk g
      [⟨varWord .vLandau d, "double", 3, (values g).flatMap fun v => vec .fixed3 (o.vel v)⟩]) := by
  refine read_grid g _ _ [vectorAttr g (varWord .vLandau d) o.vel] ?_ ?_
  · have := piece_vector g (varWord .vLandau d) o.vel
    simpa using this
  · intro a ha; rw [List.mem_singleton.1 ha]; exact vectorAttr_ok g _ _

/-- C151: the files of the fields. -/
theorem C151_fields (name : String) (g : Grid ((W64 × W64 × W64) × (W64 × W64 × W64))) :
    readVtk (fieldFile name g false) = some (gridVtk g [⟨name, "double", 3, (values g).flatMap fun v => vec .fixed3 v.1⟩]) ∧
    readVtk (fieldFile name g true) = some (gridVtk g [⟨name, "double", 3, (values g).flatMap fun v => vec .fixed3 v.2⟩]) := by
  constructor
  · refine read_grid g _ _ [vectorAttr g name fun v => v.1] ?_ ?_
    · have := piece_vector g name fun v => v.1
      simpa using this
    · intro a ha; rw [List.mem_singleton.1 ha]; exact vectorAttr_ok g _ _
  · refine read_grid g _ _ [vectorAttr g name fun v => v.2] ?_ ?_
    · have := piece_vector g name fun v => v.2
      simpa using this
    · intro a ha; rw [List.mem_singleton.1 ha]; exact vectorAttr_ok g _ _

/-- C151: the file of the thermalizer. -/
theorem C151_fluid (g : Grid TNode) :
    readVtk (fluidFile g) = some (gridVtk g [⟨"e", "double", 1, (values g).map fun v => .num .fixed3 v.e⟩,
      ⟨"p", "double", 1, (values g).map fun v => .num .fixed3 v.p⟩, ⟨"v", "double", 3, (values g).flatMap fun v => vec .fixed3 v.v⟩,
      ⟨"T", "double", 1, (values g).map fun v => .num .fixed3 v.T⟩, ⟨"mub", "double", 1, (values g).map fun v => .num .fixed3 v.mub⟩,
      ⟨"mus", "double", 1, (values g).map fun v => .num .fixed3 v.mus⟩]) := by
  have e : fluidFile g = vtkHeader g "fluidization_td" ++ (vtkScalar g "e" TNode.e ++ (vtkScalar g "p" TNode.p ++ (vtkVector g "v" TNode.v ++
      (vtkScalar g "T" TNode.T ++ (vtkScalar g "mub" TNode.mub ++ (vtkScalar g "mus" TNode.mus ++ [])))))) := by
    simp only [fluidFile, List.append_assoc, List.append_nil]
  rw [e]
  refine read_grid g _ _ [scalarAttr g "e" TNode.e, scalarAttr g "p" TNode.p, vectorAttr g "v" TNode.v, scalarAttr g "T" TNode.T,
    scalarAttr g "mub" TNode.mub, scalarAttr g "mus" TNode.mus] ?_ ?_
  · exact (piece_scalar _ _ _).append ((piece_scalar _ _ _).append ((piece_vector _ _ _).append ((piece_scalar _ _ _).append
      ((piece_scalar _ _ _).append ((piece_scalar _ _ _).append Piece.nil)))))
  · intro a ha
    simp only [List.mem_cons, List.not_mem_nil, or_false] at ha
    rcases ha with rfl | rfl | rfl | rfl | rfl | rfl
    · exact scalarAttr_ok g _ _
    · exact scalarAttr_ok g _ _
    · exact vectorAttr_ok g _ _
    · exact scalarAttr_ok g _ _
    · exact scalarAttr_ok g _ _
    · exact scalarAttr_ok g _ _

/-- What a reader must find in a file for particles at time `t`. -/
def partVtk (t : ℚ) (ps : List Part) : Vtk :=
  ⟨.unstructured (ps.flatMap fun p => vec .general p.pos) ((List.range ps.length).flatMap fun i : ℕ => [.int 1, .int i]) (ps.map fun _ => .int 1),
    ps.length,
    [⟨"pdg_codes", "int", 1, ps.map fun p => .word p.pdg⟩,
      ⟨"is_formed", "int", 1, ps.map fun p => .word (if p.formation ≤ t then "1" else "0")⟩,
      ⟨"cross_section_scaling_factor", "double", 1, ps.map fun p => .num .general p.scaling⟩,
      ⟨"mass", "double", 1, ps.map fun p => .num .general p.mass⟩,
      ⟨"N_coll", "int", 1, ps.map fun p => .int p.ncoll⟩,
      ⟨"particle_ID", "int", 1, ps.map fun p => .int p.id⟩,
      ⟨"baryon_number", "int", 1, ps.map fun p => .int p.baryon⟩,
      ⟨"strangeness", "int", 1, ps.map fun p => .int p.strangeness⟩,
      ⟨"momentum", "double", 3, ps.flatMap fun p => vec .general p.mom⟩]⟩

/-- C151: the file of the particles. -/
theorem C151_particles (version : String) (ps : List Part) (h : ps ≠ []) (t : ℚ) (ht : ∀ p ∈ ps, p.time = t) :
    ∃ f, particleFile version ps = .ok f ∧ readVtk f = some (partVtk t ps) := by
  obtain ⟨p0, ps', rfl⟩ : ∃ p l, ps = p :: l := by
    cases ps with
    | nil => exact absurd rfl h
    | cons p l => exact ⟨p, l, rfl⟩
  have ht0 : p0.time = t := ht p0 (by simp)
  generalize hps : p0 :: ps' = ps at *
  have htime : timeOf ps = .ok t := by rw [← hps]; simp only [timeOf, ht0]
  unfold particleFile
  rw [htime]
  refine ⟨_, rfl, ?_⟩
  have hform : (fun p : Part => Tok.word (if t < p.formation then "0" else "1")) = fun p => .word (if p.formation ≤ t then "1" else "0") := by
    funext p
    by_cases hp : p.formation ≤ t
    · rw [if_pos hp, if_neg (not_lt.2 hp)]
    · rw [if_neg hp, if_pos (not_le.1 hp)]
  have hat : Piece (attrSec t ps).flatten ((partVtk t ps).attrs.flatMap attrWords) := by
    unfold attrSec
    rw [hform]
    have hv : Piece (momSec ps) (attrWords ⟨"momentum", "double", 3, ps.flatMap fun p => vec .general p.mom⟩) :=
      (piece_end [.word "VECTORS", .sp, .word "momentum", .sp, .word "double", .nl] _ rfl rfl).append
        (Piece.flatMap _ fun p _ => piece_line3 _ _)
    exact (piece_scalarPart _ _ _ (fun _ => rfl) ps).append ((piece_scalarPart _ _ _ (fun _ => rfl) ps).append
      ((piece_scalarPart _ _ _ (fun _ => rfl) ps).append ((piece_scalarPart _ _ _ (fun _ => rfl) ps).append
      ((piece_scalarPart _ _ _ (fun _ => rfl) ps).append ((piece_scalarPart _ _ _ (fun _ => rfl) ps).append
      ((piece_scalarPart _ _ _ (fun _ => rfl) ps).append ((piece_scalarPart _ _ _ (fun _ => rfl) ps).append (hv.append Piece.nil))))))))
  have hpt : Piece (pointSec ps) ([.word "POINTS", .int ps.length, .word "double"] ++ ps.flatMap fun p => vec .general p.pos) :=
    (piece_end [.word "POINTS", .sp, .int ps.length, .sp, .word "double", .nl] _ rfl rfl).append (Piece.flatMap _ fun p _ => piece_line3 _ _)
  have hcell : Piece (cellSec ps.length) ([.word "CELLS", .int ps.length, .int (ps.length * 2 : ℕ)] ++
      (List.range ps.length).flatMap fun i : ℕ => [Tok.int 1, .int i]) :=
    (piece_end [.word "CELLS", .sp, .int ps.length, .sp, .int (ps.length * 2 : ℕ), .nl] _ rfl rfl).append
      (Piece.flatMap _ fun i _ => piece_end _ _ rfl rfl)
  have htype : Piece (typeSec ps.length) ([.word "CELL_TYPES", .int ps.length] ++ ((ps.map fun _ => Tok.int 1) ++
      [.word "POINT_DATA", .int ps.length])) := by
    have e : ((List.range ps.length).flatMap fun _ => [Tok.int 1]) = ps.map fun _ => Tok.int 1 := by rw [flatMap_one]; simp
    rw [← e]
    exact (piece_end [.word "CELL_TYPES", .sp, .int ps.length, .nl] _ rfl rfl).append
      ((Piece.flatMap _ fun i _ => piece_end _ _ rfl rfl).append (piece_end [.word "POINT_DATA", .sp, .int ps.length, .nl] _ rfl rfl))
  have hset : Piece [.word "ASCII", .nl, .word "DATASET", .sp, .word "UNSTRUCTURED_GRID", .nl] [.word "ASCII", .word "DATASET", .word "UNSTRUCTURED_GRID"] :=
    piece_end _ _ rfl rfl
  have e : titleSec version ++ (pointSec ps ++ (cellSec ps.length ++ (typeSec ps.length ++ (attrSec t ps).flatten))) =
      [.word "Generated", .sp, .word "from", .sp, .word "molecular-offset", .sp, .word "data", .sp, .word version] ++
      .nl :: ([.word "ASCII", .nl, .word "DATASET", .sp, .word "UNSTRUCTURED_GRID", .nl] ++
        (pointSec ps ++ (cellSec ps.length ++ (typeSec ps.length ++ (attrSec t ps).flatten)))) := rfl
  rw [e, readVtk_title _ _ (by simp), (hset.append (hpt.append (hcell.append (htype.append hat)))).1]
  simp only [Option.bind_some, List.cons_append, List.nil_append, List.append_assoc, readSet, Int.toNat_natCast]
  rw [need_append (by rw [flatMap_length _ 3 _ fun _ _ => rfl]; omega)]
  simp only [Option.bind_some, readCells, Int.toNat_natCast]
  rw [need_append (by rw [flatMap_length _ 2 _ fun _ _ => rfl, List.length_range])]
  simp only [Option.bind_some, readTypes, Int.toNat_natCast]
  rw [need_append (by simp)]
  simp only [Option.bind_some, readData]
  rw [if_pos (by positivity), Int.toNat_natCast, readAttrs_all ps.length (partVtk t ps).attrs (by
    intro a ha
    simp only [partVtk, List.mem_cons, List.not_mem_nil, or_false] at ha
    rcases ha with rfl | rfl | rfl | rfl | rfl | rfl | rfl | rfl | rfl
    iterate 8 · exact ⟨Or.inl rfl, by simp⟩
    · exact ⟨Or.inr rfl, by simp only; rw [flatMap_length _ 3 _ fun _ _ => rfl]; omega⟩)]
  simp only [Option.map_some, Option.bind_some, if_true, partVtk]

/-- A list with two particles meets the hypotheses. -/
example : ∃ f, particleFile "SMASH" [⟨(1, 2, 3), "211", 5, 6, 0, 1, 0, 7, 0, 0, (4, 5, 6)⟩, ⟨(3, 2, 3), "-2212", 5, 5, 0, 1, 0, 7, -1, 0, (4, 5, 6)⟩] =
    .ok f ∧ readVtk f = some (partVtk 5 [⟨(1, 2, 3), "211", 5, 6, 0, 1, 0, 7, 0, 0, (4, 5, 6)⟩, ⟨(3, 2, 3), "-2212", 5, 5, 0, 1, 0, 7, -1, 0, (4, 5, 6)⟩]) :=
  C151_particles _ _ (by simp) 5 (by simp)

end Verif.Td
