/-
C45 and C74: interpolation of data.
-/
import Verif.Tab.Props
import Mathlib.Data.List.GetD

namespace Verif.Tab

/-! ### Sorting -/

theorem perm_mem (s : Sorter) (x : List ℚ) {i : Nat} : i ∈ s.perm x ↔ i < x.length := by
  rw [(s.isPerm x).mem_iff, List.mem_range]

theorem perm_length (s : Sorter) (x : List ℚ) : (s.perm x).length = x.length := by
  rw [(s.isPerm x).length_eq, List.length_range]

/-- The data in the order of the sorted `x`. -/
def arranged (s : Sorter) (x v : List ℚ) : List ℚ := (s.perm x).map fun i => v.getD i 0

theorem arranged_length (s : Sorter) (x v : List ℚ) : (arranged s x v).length = x.length := by
  rw [arranged, List.length_map, perm_length]

theorem apply_ok (s : Sorter) (x v : List ℚ) (h : v.length = x.length) :
    applyPermutation v (s.perm x) = .ok (arranged s x v) := by
  unfold applyPermutation
  rw [if_pos ⟨by rw [perm_length, h], fun i hi => by rw [h]; exact (perm_mem s x).1 hi⟩,
    perm_length, ← h, List.drop_length, List.append_nil]
  rfl

theorem map_getD_range (x : List ℚ) : (List.range x.length).map (fun i => x.getD i 0) = x := by
  apply List.ext_getElem
  · simp
  · intro i h1 h2
    simp only [List.getElem_map, List.getElem_range]
    rw [List.getD_eq_getElem _ _ h2]

theorem arranged_perm (s : Sorter) (x : List ℚ) : (arranged s x x).Perm x := by
  have := (s.isPerm x).map (fun i => x.getD i 0)
  rwa [map_getD_range] at this

theorem adjacent_iff : ∀ {l : List ℚ}, l.Pairwise (· ≤ ·) →
    (adjacentEqual l = false ↔ l.Pairwise (· < ·)) := by
  intro l
  induction l with
  | nil => intro _; simp [adjacentEqual]
  | cons a l ih =>
    intro h
    cases l with
    | nil => simp [adjacentEqual]
    | cons b l =>
      rw [List.pairwise_cons] at h
      rw [adjacentEqual, Bool.or_eq_false_iff, ih h.2, List.pairwise_cons (a := a)]
      constructor
      · rintro ⟨h1, h2⟩
        refine ⟨?_, h2⟩
        have hab : a < b := lt_of_le_of_ne (h.1 b (by simp)) (by simpa using h1)
        intro c hc
        rw [List.mem_cons] at hc
        rcases hc with rfl | hc
        · exact hab
        · exact hab.trans ((List.pairwise_cons.mp h2).1 c hc)
      · rintro ⟨h1, h2⟩
        exact ⟨by simpa using (h1 b (by simp)).ne, h2⟩

theorem strict_iff_nodup {l : List ℚ} (h : l.Pairwise (· ≤ ·)) :
    l.Pairwise (· < ·) ↔ l.Nodup := by
  constructor
  · intro h'; exact h'.imp (fun hab => hab.ne)
  · intro h'; exact (h.and h').imp (fun ⟨h1, h2⟩ => lt_of_le_of_ne h1 h2)

theorem adjacent_nodup (s : Sorter) (x : List ℚ) :
    adjacentEqual (arranged s x x) = false ↔ x.Nodup := by
  rw [adjacent_iff (l := arranged s x x) (s.sorted x),
    strict_iff_nodup (l := arranged s x x) (s.sorted x)]
  exact (arranged_perm s x).nodup_iff

theorem arranged_strict (s : Sorter) {x : List ℚ} (h : x.Nodup) :
    (arranged s x x).Pairwise (· < ·) :=
  (strict_iff_nodup (s.sorted x)).2 ((arranged_perm s x).nodup_iff.2 h)

/-- Where a data point ends up. -/
theorem arranged_find (s : Sorter) (x y : List ℚ) (he : x.length = y.length) {a b : ℚ}
    (h : (a, b) ∈ x.zip y) :
    ∃ k < x.length, (arranged s x x).getD k 0 = a ∧ (arranged s x y).getD k 0 = b := by
  obtain ⟨i, hi, hab⟩ := List.mem_iff_getElem.1 h
  have hix : i < x.length := by rw [List.length_zip] at hi; omega
  rw [List.getElem_zip] at hab
  injection hab with ha hb
  obtain ⟨k, hk, hki⟩ := List.mem_iff_getElem.1 ((perm_mem s x).2 hix)
  have hk' : k < x.length := by rw [perm_length] at hk; exact hk
  refine ⟨k, hk', ?_, ?_⟩
  · rw [List.getD_eq_getElem _ _ (by rw [arranged_length]; exact hk')]
    simp only [arranged, List.getElem_map, hki]
    rw [List.getD_eq_getElem _ _ hix, ha]
  · rw [List.getD_eq_getElem _ _ (by rw [arranged_length]; exact hk')]
    simp only [arranged, List.getElem_map, hki]
    rw [List.getD_eq_getElem _ _ (by omega), hb]

/-! ### Lookup -/

theorem lines_get : ∀ (xs ys : List ℚ), xs.length = ys.length → ∀ k, k + 1 < xs.length →
    (lines xs ys)[k]? = some (Line.new (xs.getD k 0) (ys.getD k 0) (xs.getD (k + 1) 0)
      (ys.getD (k + 1) 0)) := by
  intro xs
  induction xs with
  | nil => intro ys _ k h; simp at h
  | cons x0 xs ih =>
    intro ys he k hk
    cases ys with
    | nil => simp at he
    | cons y0 ys =>
      cases xs with
      | nil => simp at hk
      | cons x1 xs =>
        cases ys with
        | nil => simp at he
        | cons y1 ys =>
          rw [lines]
          cases k with
          | zero => simp
          | succ k =>
            rw [List.getElem?_cons_succ, ih (y1 :: ys) (by simpa using he) k (by simpa using hk)]
            simp

theorem lines_length : ∀ (xs ys : List ℚ), xs.length = ys.length →
    (lines xs ys).length = xs.length - 1 := by
  intro xs
  induction xs with
  | nil => intro ys h; cases ys with
    | nil => rfl
    | cons => simp at h
  | cons x0 xs ih =>
    intro ys he
    cases ys with
    | nil => simp at he
    | cons y0 ys =>
      cases xs with
      | nil => cases ys with
        | nil => rfl
        | cons => simp at he
      | cons x1 xs =>
        cases ys with
        | nil => simp at he
        | cons y1 ys =>
          rw [lines, List.length_cons, ih (y1 :: ys) (by simpa using he)]
          simp

theorem lowerBound_eq : ∀ (l : List ℚ) (t : ℚ) (m : Nat), l.Pairwise (· < ·) → m ≤ l.length →
    (m = 0 ∨ l.getD (m - 1) 0 < t) → (m = l.length ∨ t ≤ l.getD m 0) → lowerBound l t = m := by
  intro l t
  induction l with
  | nil => intro m _ h _ _; simp at h; subst h; rfl
  | cons a l ih =>
    intro m hs hm h1 h2
    rw [List.pairwise_cons] at hs
    unfold lowerBound
    cases m with
    | zero =>
      have : t ≤ a := by simpa using h2
      rw [List.takeWhile_cons, if_neg (by simpa using this)]
      rfl
    | succ m =>
      have ha : a < t := by
        cases m with
        | zero => simpa using h1
        | succ m =>
          have h1' : l.getD m 0 < t := by simpa using h1
          rw [List.length_cons] at hm
          have hml : m < l.length := by omega
          rw [List.getD_eq_getElem _ _ hml] at h1'
          exact (hs.1 _ (List.getElem_mem hml)).trans h1'
      rw [List.takeWhile_cons, if_pos (by simpa using ha), List.length_cons]
      congr 1
      refine ih m hs.2 (by simpa using hm) ?_ ?_
      · cases m with
        | zero => left; rfl
        | succ m => right; simpa using h1
      · rcases h2 with h2 | h2
        · left; simpa using h2
        · right; simpa using h2

theorem line_eval {x0 y0 x1 y1 : ℚ} (h : x0 < x1) (t : ℚ) :
    (Line.new x0 y0 x1 y1).eval t = through x0 y0 x1 y1 t := by
  have : x1 - x0 ≠ 0 := by linarith [sub_pos.2 h]
  unfold Line.eval Line.new through
  simp only
  field_simp
  ring

theorem through_left (x0 y0 x1 y1 : ℚ) : through x0 y0 x1 y1 x0 = y0 := by
  unfold through; rw [sub_self, zero_div]; ring

theorem through_right {x0 x1 : ℚ} (h : x0 < x1) (y0 y1 : ℚ) : through x0 y0 x1 y1 x1 = y1 := by
  unfold through; rw [div_self (sub_pos.2 h).ne']; ring

theorem getD_lt {l : List ℚ} (hs : l.Pairwise (· < ·)) {i j : Nat} (hij : i < j)
    (hj : j < l.length) : l.getD i 0 < l.getD j 0 := by
  rw [List.getD_eq_getElem _ _ (by omega), List.getD_eq_getElem _ _ hj]
  exact List.pairwise_iff_getElem.mp hs i j (by omega) hj hij

theorem eval_line {xs ys : List ℚ} (he : xs.length = ys.length) {t : ℚ} {i k : Nat}
    (hk : k + 1 < xs.length) (hi : findIndex xs t = i) (h : i = k ∨ (xs.length ≤ i + 1 ∧
      k + 2 = xs.length)) (hn : xs.length < 2 ^ 63) :
    Piecewise.eval ⟨xs, lines xs ys⟩ t = .ok ((Line.new (xs.getD k 0) (ys.getD k 0)
      (xs.getD (k + 1) 0) (ys.getD (k + 1) 0)).eval t) := by
  unfold Piecewise.eval
  simp only [hi, lines_length xs ys he]
  have : (if xs.length - 1 ≤ i then (xs.length - 1 + 2 ^ 64 - 1) % 2 ^ 64 else i) = k := by
    rcases h with rfl | ⟨h1, h2⟩
    · rw [if_neg (by omega)]
    · rw [if_pos (by omega)]; omega
  rw [this, lines_get xs ys he k hk]

theorem eval_sorted {xs ys : List ℚ} (he : xs.length = ys.length)
    (hs : xs.Pairwise (· < ·)) (hn : xs.length < 2 ^ 63) {t : ℚ} {k : Nat}
    (hk : k + 1 < xs.length) (h1 : k = 0 ∨ xs.getD k 0 ≤ t)
    (h2 : k + 2 = xs.length ∨ t ≤ xs.getD (k + 1) 0) :
    Piecewise.eval ⟨xs, lines xs ys⟩ t = .ok (through (xs.getD k 0) (ys.getD k 0)
      (xs.getD (k + 1) 0) (ys.getD (k + 1) 0) t) := by
  have hlt : xs.getD k 0 < xs.getD (k + 1) 0 := getD_lt hs (by omega) hk
  rcases lt_trichotomy (xs.getD k 0) t with hc | hc | hc
  · by_cases hr : t ≤ xs.getD (k + 1) 0
    · have hm : lowerBound xs t = k + 1 :=
        lowerBound_eq xs t (k + 1) hs (by omega) (Or.inr hc) (Or.inr hr)
      have hf : findIndex xs t = k := by unfold findIndex; rw [hm]; rfl
      rw [eval_line he hk hf (Or.inl rfl) hn, line_eval hlt]
    · have h2' := h2.resolve_right hr
      have hm : lowerBound xs t = k + 2 :=
        lowerBound_eq xs t (k + 2) hs (by omega) (Or.inr (by simpa using hr)) (Or.inl h2')
      have hf : findIndex xs t = k + 1 := by unfold findIndex; rw [hm]; rfl
      rw [eval_line he hk hf (Or.inr ⟨by omega, h2'⟩) hn, line_eval hlt]
  · cases k with
    | zero =>
      have hm : lowerBound xs t = 0 :=
        lowerBound_eq xs t 0 hs (by omega) (Or.inl rfl) (Or.inr hc.ge)
      have hf : findIndex xs t = 0 := by unfold findIndex; rw [hm]; rfl
      rw [eval_line he hk hf (Or.inl rfl) hn, line_eval hlt]
    | succ k =>
      have hlt' : xs.getD k 0 < xs.getD (k + 1) 0 := getD_lt hs (by omega) (by omega)
      have hm : lowerBound xs t = k + 1 :=
        lowerBound_eq xs t (k + 1) hs (by omega) (Or.inr (by simpa [← hc] using hlt'))
          (Or.inr hc.ge)
      have hf : findIndex xs t = k := by unfold findIndex; rw [hm]; rfl
      rw [eval_line he (by omega) hf (Or.inl rfl) hn, line_eval hlt', ← hc,
        through_right hlt', through_left]
  · have h0 : k = 0 := h1.resolve_right (not_le.mpr hc)
    subst h0
    have hm : lowerBound xs t = 0 :=
      lowerBound_eq xs t 0 hs (by omega) (Or.inl rfl) (Or.inr hc.le)
    have hf : findIndex xs t = 0 := by unfold findIndex; rw [hm]; rfl
    rw [eval_line he hk hf (Or.inl rfl) hn, line_eval hlt]

/-! ### C45 -/

/-- Data with equally many `x` and `y`, at least one point: they are rejected exactly if two
`x` are equal. -/
theorem C45_duplicates (s : Sorter) (x y : List ℚ) (he : x.length = y.length) (hx : x ≠ []) :
    (¬ x.Nodup → interpolate s x y = .error .duplicate) ∧
    (x.Nodup → ∃ g, interpolate s x y = .ok g) := by
  have h0 : x.length ≠ 0 := by simpa using hx
  unfold interpolate
  simp only [apply_ok s x x rfl, apply_ok s x y he.symm]
  constructor
  · intro hd
    have : adjacentEqual (arranged s x x) = true := by
      rw [← Bool.not_eq_false, adjacent_nodup]; exact hd
    rw [if_pos this]
  · intro hd
    have : adjacentEqual (arranged s x x) = false := (adjacent_nodup s x).2 hd
    rw [this, if_neg Bool.false_ne_true, if_neg h0]
    exact ⟨_, rfl⟩

theorem interpolate_ok (s : Sorter) {x y : List ℚ} (he : x.length = y.length) {g : Piecewise}
    (h : interpolate s x y = .ok g) :
    x.Nodup ∧ g = ⟨arranged s x x, lines (arranged s x x) (arranged s x y)⟩ := by
  unfold interpolate at h
  simp only [apply_ok s x x rfl, apply_ok s x y he.symm] at h
  cases hadj : adjacentEqual (arranged s x x) with
  | true => rw [hadj] at h; simp at h
  | false =>
    rw [hadj, if_neg Bool.false_ne_true] at h
    by_cases h0 : x.length = 0
    · rw [if_pos h0] at h; cases h
    · rw [if_neg h0] at h
      cases h
      exact ⟨(adjacent_nodup s x).1 hadj, rfl⟩

/-- Two neighbouring data points, in whatever order the data are given: between them the
interpolation is the straight line through them; to the left of all data that through the two
leftmost points, and to the right of all data that through the two rightmost points. -/
theorem C45_between (s : Sorter) {x y : List ℚ} (he : x.length = y.length)
    (hn : x.length < 2 ^ 63) {g : Piecewise} (h : interpolate s x y = .ok g) {a ya b yb : ℚ}
    (ha : (a, ya) ∈ x.zip y) (hb : (b, yb) ∈ x.zip y) (hab : a < b)
    (hmid : ∀ c ∈ x, ¬ (a < c ∧ c < b)) {t : ℚ} (h1 : a ≤ t ∨ ∀ c ∈ x, a ≤ c)
    (h2 : t ≤ b ∨ ∀ c ∈ x, c ≤ b) : g.eval t = .ok (through a ya b yb t) := by
  obtain ⟨hd, rfl⟩ := interpolate_ok s he h
  have hs := arranged_strict s hd
  have hl := arranged_length s x x
  have hmem : ∀ k < x.length, (arranged s x x).getD k 0 ∈ x := by
    intro k hk
    rw [List.getD_eq_getElem _ _ (by omega)]
    exact (arranged_perm s x).mem_iff.1 (List.getElem_mem _)
  obtain ⟨i, hi, rfl, rfl⟩ := arranged_find s x y he ha
  obtain ⟨j, hj, rfl, rfl⟩ := arranged_find s x y he hb
  have hij : i < j := by
    rcases Nat.lt_trichotomy i j with h | h | h
    · exact h
    · subst h; exact absurd hab (lt_irrefl _)
    · exact absurd (getD_lt hs h (by omega)) hab.le.not_gt
  have hj1 : j = i + 1 := by
    by_contra hne
    exact hmid _ (hmem (i + 1) (by omega))
      ⟨getD_lt hs (by omega) (by omega), getD_lt hs (by omega) (by omega)⟩
  subst hj1
  refine eval_sorted (by rw [arranged_length, arranged_length]) hs (by omega) (by omega) ?_ ?_
  · rcases h1 with h1 | h1
    · exact Or.inr h1
    · left
      by_contra h0
      exact absurd (h1 _ (hmem 0 (by omega))) (not_le.mpr (getD_lt hs (by omega) (by omega)))
  · rcases h2 with h2 | h2
    · exact Or.inr h2
    · left
      by_contra h0
      exact absurd (h2 _ (hmem (i + 2) (by omega)))
        (not_le.mpr (getD_lt hs (by omega) (by omega)))

/-- The interpolation passes through every data point. -/
theorem C45_points (s : Sorter) {x y : List ℚ} (he : x.length = y.length)
    (hn : x.length < 2 ^ 63) (h2 : 2 ≤ x.length) {g : Piecewise} (h : interpolate s x y = .ok g)
    {a ya : ℚ} (ha : (a, ya) ∈ x.zip y) : g.eval a = .ok ya := by
  obtain ⟨hd, rfl⟩ := interpolate_ok s he h
  have hs := arranged_strict s hd
  have hl := arranged_length s x x
  obtain ⟨i, hi, rfl, rfl⟩ := arranged_find s x y he ha
  have hle : (arranged s x x).length = (arranged s x y).length := by
    rw [arranged_length, arranged_length]
  by_cases hi1 : i + 1 < x.length
  · rw [eval_sorted hle hs (by omega) (k := i) (by omega) (Or.inr le_rfl)
      (Or.inr (getD_lt hs (by omega) (by omega)).le), through_left]
  · obtain ⟨j, rfl⟩ : ∃ j, i = j + 1 := ⟨i - 1, by omega⟩
    have hlt : (arranged s x x).getD j 0 < (arranged s x x).getD (j + 1) 0 :=
      getD_lt hs (by omega) (by omega)
    rw [eval_sorted hle hs (by omega) (k := j) (by omega) (Or.inr hlt.le) (Or.inr le_rfl),
      through_right hlt]

/-- With two points or more every argument is fine; with one point every evaluation reads
outside the vector; with none the constructor throws. -/
theorem C45_defined (s : Sorter) {x y : List ℚ} (he : x.length = y.length)
    (hn : x.length < 2 ^ 63) {g : Piecewise} (h : interpolate s x y = .ok g) (t : ℚ) :
    ((∃ v, g.eval t = .ok v) ↔ 2 ≤ x.length) := by
  obtain ⟨hd, rfl⟩ := interpolate_ok s he h
  have hl := arranged_length s x x
  have hle : (arranged s x x).length = (arranged s x y).length := by
    rw [arranged_length, arranged_length]
  have hll := lines_length _ _ hle
  constructor
  · rintro ⟨v, hv⟩
    by_contra h1
    have : lines (arranged s x x) (arranged s x y) = [] :=
      List.eq_nil_of_length_eq_zero (by omega)
    unfold Piecewise.eval at hv
    simp [this] at hv
  · intro h2
    unfold Piecewise.eval
    simp only [hll, hl]
    generalize hi : (if x.length - 1 ≤ findIndex (arranged s x x) t then
      (x.length - 1 + 2 ^ 64 - 1) % 2 ^ 64 else findIndex (arranged s x x) t) = i
    have : i + 1 < x.length := by
      rw [← hi]; split <;> omega
    rw [lines_get _ _ hle i (by omega)]
    exact ⟨_, rfl⟩

@[inherit_doc C45_defined]
theorem C45_no_points (s : Sorter) : interpolate s [] [] = .error .length := by
  have h := List.eq_nil_of_length_eq_zero (perm_length s [])
  unfold interpolate
  rw [h]
  rfl

/-- There is a sorting function. -/
def insertionSort : Sorter where
  perm v := (List.range v.length).mergeSort fun i j => decide (v.getD i 0 ≤ v.getD j 0)
  isPerm v := List.mergeSort_perm _ _
  sorted v := by
    rw [List.pairwise_map]
    have := List.pairwise_mergeSort (le := fun i j => decide (v.getD i 0 ≤ v.getD j 0))
      (fun a b c h1 h2 => by simp at *; exact h1.trans h2)
      (fun a b => by simp; exact le_total _ _) (List.range v.length)
    exact this.imp (fun h => by simpa using h)

/-- Three points, not in order. -/
example : ∃ g, interpolate insertionSort [3, 1, 2] [9, 1, 4] = .ok g ∧ g.eval 2 = .ok 4 ∧
    g.eval (5 / 2) = .ok (13 / 2) ∧ g.eval 5 = .ok 19 := by
  obtain ⟨g, hg⟩ := (C45_duplicates insertionSort [3, 1, 2] [9, 1, 4] rfl (by simp)).2
    (by decide +kernel)
  refine ⟨g, hg, C45_points insertionSort (x := [3, 1, 2]) (y := [9, 1, 4]) rfl (by decide) (by decide) hg (by simp), ?_, ?_⟩
  · rw [C45_between insertionSort (x := [3, 1, 2]) (y := [9, 1, 4]) rfl (by decide) hg (a := 2) (ya := 4) (b := 3) (yb := 9)
      (by simp) (by simp) (by norm_num) (by decide +kernel) (Or.inl (by norm_num))
      (Or.inl (by norm_num))]
    decide +kernel
  · rw [C45_between insertionSort (x := [3, 1, 2]) (y := [9, 1, 4]) rfl (by decide) hg (a := 2) (ya := 4) (b := 3) (yb := 9)
      (by simp) (by simp) (by norm_num) (by decide +kernel) (Or.inl (by norm_num))
      (Or.inr (by decide +kernel))]
    decide +kernel

/-! ### C74 -/

/-- A spline is constructed exactly if there are at least three points with different `x`;
it is constant below and above the data, with the `y` of the smallest and the largest `x`, and
the library's spline of the sorted data in between. -/
theorem C74_spline (s : Sorter) (gsl : List ℚ → List ℚ → ℚ → ℚ) (x y : List ℚ) :
    (x.length ≠ y.length → makeSpline s gsl x y = .error .sizes) ∧
    (x.length = y.length → x.length < 3 → makeSpline s gsl x y = .error .tooFew) ∧
    (x.length = y.length → 3 ≤ x.length → ¬ x.Nodup →
      makeSpline s gsl x y = .error .duplicate) ∧
    (x.length = y.length → 3 ≤ x.length → x.Nodup → ∃ g, makeSpline s gsl x y = .ok g ∧
      (∀ a ya t, (a, ya) ∈ x.zip y → (∀ c ∈ x, a ≤ c) → t < a → g.eval t = ya) ∧
      (∀ a ya t, (a, ya) ∈ x.zip y → (∀ c ∈ x, c ≤ a) → a < t → g.eval t = ya) ∧
      (∀ t, (∃ c ∈ x, c ≤ t) → (∃ c ∈ x, t ≤ c) → ∃ xs ys, g.eval t = gsl xs ys t ∧
        (xs.zip ys).Perm (x.zip y) ∧ xs.Pairwise (· < ·))) := by
  have hperm : ∀ x : List ℚ, 3 ≤ x.length → ∀ v : List ℚ, ∃ m l : ℚ,
      (arranged s x v).head? = some m ∧ (arranged s x v).getLast? = some l ∧
      m = (arranged s x v).getD 0 0 ∧ l = (arranged s x v).getD (x.length - 1) 0 := by
    intro x h3 v
    have hl := arranged_length s x v
    refine ⟨(arranged s x v).getD 0 0, (arranged s x v).getD (x.length - 1) 0, ?_, ?_, rfl, rfl⟩
    · rw [List.head?_eq_getElem?, List.getD_eq_getElem _ _ (by omega), List.getElem?_eq_getElem]
    · rw [List.getLast?_eq_getElem?, hl, List.getD_eq_getElem _ _ (by omega),
        List.getElem?_eq_getElem]
  refine ⟨?_, ?_, ?_, ?_⟩
  · intro h; unfold makeSpline; rw [if_pos (Ne.symm h)]
  · intro h h3; unfold makeSpline; rw [if_neg (by omega), if_pos h3]
  · intro h h3 hd
    unfold makeSpline
    rw [if_neg (by omega), if_neg (by omega)]
    simp only [apply_ok s x x rfl, apply_ok s x y h.symm]
    have : adjacentEqual (arranged s x x) = true := by
      rw [← Bool.not_eq_false, adjacent_nodup]; exact hd
    rw [if_pos this]
  · intro h h3 hd
    obtain ⟨m1, l1, e1, e2, em1, el1⟩ := hperm x h3 x
    obtain ⟨m2, l2, e3, e4, em2, el2⟩ := hperm x h3 y
    have hs := arranged_strict s hd
    have hl := arranged_length s x x
    have hmem : ∀ k < x.length, (arranged s x x).getD k 0 ∈ x := by
      intro k hk
      rw [List.getD_eq_getElem _ _ (by omega)]
      exact (arranged_perm s x).mem_iff.1 (List.getElem_mem _)
    refine ⟨⟨m1, l1, m2, l2, gsl (arranged s x x) (arranged s x y)⟩, ?_, ?_, ?_, ?_⟩
    · unfold makeSpline
      rw [if_neg (by omega), if_neg (by omega)]
      simp only [apply_ok s x x rfl, apply_ok s x y h.symm]
      rw [(adjacent_nodup s x).2 hd, if_neg Bool.false_ne_true, e1, e2, e3, e4]
    · intro a ya t ha hmin ht
      obtain ⟨k, hk, rfl, rfl⟩ := arranged_find s x y h ha
      have h0 : k = 0 := by
        by_contra h0
        exact absurd (hmin _ (hmem 0 (by omega)))
          (not_le.mpr (getD_lt hs (by omega) (by omega)))
      subst h0
      unfold Spline.eval
      simp only [em1, em2]
      rw [if_pos ht]
    · intro a ya t ha hmax ht
      obtain ⟨k, hk, rfl, rfl⟩ := arranged_find s x y h ha
      have h0 : k = x.length - 1 := by
        by_contra h0
        exact absurd (hmax _ (hmem (x.length - 1) (by omega)))
          (not_le.mpr (getD_lt hs (by omega) (by omega)))
      subst h0
      have hlt : (arranged s x x).getD 0 0 < (arranged s x x).getD (x.length - 1) 0 :=
        getD_lt hs (by omega) (by omega)
      unfold Spline.eval
      simp only [em1, el1, el2]
      rw [if_neg (by linarith), if_pos ht]
    · rintro t ⟨c, hc, hct⟩ ⟨d, hd', hdt⟩
      refine ⟨arranged s x x, arranged s x y, ?_, ?_, hs⟩
      · have hle : ∀ c ∈ x, (arranged s x x).getD 0 0 ≤ c ∧
            c ≤ (arranged s x x).getD (x.length - 1) 0 := by
          intro c hc
          obtain ⟨k, hk, rfl⟩ := List.mem_iff_getElem.1 ((arranged_perm s x).mem_iff.2 hc)
          rw [← List.getD_eq_getElem _ 0 hk]
          constructor
          · rcases Nat.eq_zero_or_pos k with rfl | h0
            · exact le_rfl
            · exact (getD_lt hs h0 hk).le
          · rcases Nat.lt_or_ge k (x.length - 1) with h0 | h0
            · exact (getD_lt hs h0 (by omega)).le
            · rw [show k = x.length - 1 by omega]
        unfold Spline.eval
        simp only [em1, el1]
        rw [if_neg (by linarith [(hle c hc).1]), if_neg (by linarith [(hle d hd').2])]
      · have e : (arranged s x x).zip (arranged s x y) =
            (s.perm x).map fun i => (x.getD i 0, y.getD i 0) := by
          unfold arranged; rw [List.zip_map']
        have e' : (List.range x.length).map (fun i => (x.getD i 0, y.getD i 0)) = x.zip y := by
          rw [← List.zip_map', map_getD_range, h, map_getD_range]
        rw [e, ← e']
        exact (s.isPerm x).map _

example : ∃ g, makeSpline insertionSort (fun _ _ t => t) [3, 1, 2] [9, 1, 4] = .ok g ∧
    g.eval 0 = 1 ∧ g.eval 7 = 9 ∧ g.eval 2 = 2 := by
  obtain ⟨g, hg, h1, h2, h3⟩ := (C74_spline insertionSort (fun _ _ t => t) [3, 1, 2]
    [9, 1, 4]).2.2.2 rfl (by decide) (by decide +kernel)
  refine ⟨g, hg, h1 1 1 0 (by simp) (by decide +kernel) (by norm_num),
    h2 3 9 7 (by simp) (by decide +kernel) (by norm_num), ?_⟩
  obtain ⟨_, _, h, _⟩ := h3 2 ⟨1, by simp, by norm_num⟩ ⟨3, by simp, by norm_num⟩
  exact h

/-- Corner `(i, j, k)` of the cube, where 0 is left, lower, front: the numbering of the
parameters of `interpolate_trilinear` according to its documentation (lower left front, lower
right front, upper left front, ...). -/
def corner (f1 f2 f3 f4 f5 f6 f7 f8 : ℚ) : Bool → Bool → Bool → ℚ
  | false, false, false => f1
  | true, false, false => f2
  | false, true, false => f3
  | true, true, false => f4
  | false, false, true => f5
  | true, false, true => f6
  | false, true, true => f7
  | true, true, true => f8

/-- The coordinate of a corner. -/
def coord (b : Bool) : ℚ := if b then 1 else 0

/-- The trilinear interpolation reproduces the values at the eight corners, is affine in each
of the three fractions, and inside the cube lies between any bounds of the corner values. -/
theorem C74_trilinear (f1 f2 f3 f4 f5 f6 f7 f8 : ℚ) :
    (∀ i j k, trilinear (coord i) (coord j) (coord k) f1 f2 f3 f4 f5 f6 f7 f8 =
      corner f1 f2 f3 f4 f5 f6 f7 f8 i j k) ∧
    (∀ a a' y z r, trilinear ((1 - r) * a + r * a') y z f1 f2 f3 f4 f5 f6 f7 f8 =
      (1 - r) * trilinear a y z f1 f2 f3 f4 f5 f6 f7 f8 +
      r * trilinear a' y z f1 f2 f3 f4 f5 f6 f7 f8) ∧
    (∀ a a' x z r, trilinear x ((1 - r) * a + r * a') z f1 f2 f3 f4 f5 f6 f7 f8 =
      (1 - r) * trilinear x a z f1 f2 f3 f4 f5 f6 f7 f8 +
      r * trilinear x a' z f1 f2 f3 f4 f5 f6 f7 f8) ∧
    (∀ a a' x y r, trilinear x y ((1 - r) * a + r * a') f1 f2 f3 f4 f5 f6 f7 f8 =
      (1 - r) * trilinear x y a f1 f2 f3 f4 f5 f6 f7 f8 +
      r * trilinear x y a' f1 f2 f3 f4 f5 f6 f7 f8) ∧
    (∀ x y z lo hi, 0 ≤ x → x ≤ 1 → 0 ≤ y → y ≤ 1 → 0 ≤ z → z ≤ 1 →
      (∀ i j k, lo ≤ corner f1 f2 f3 f4 f5 f6 f7 f8 i j k ∧
        corner f1 f2 f3 f4 f5 f6 f7 f8 i j k ≤ hi) →
      lo ≤ trilinear x y z f1 f2 f3 f4 f5 f6 f7 f8 ∧
        trilinear x y z f1 f2 f3 f4 f5 f6 f7 f8 ≤ hi) := by
  refine ⟨?_, ?_, ?_, ?_, ?_⟩
  · intro i j k; cases i <;> cases j <;> cases k <;> simp [trilinear, corner, coord]
  · intro a a' y z r; unfold trilinear; ring
  · intro a a' x z r; unfold trilinear; ring
  · intro a a' x y r; unfold trilinear; ring
  · intro x y z lo hi hx0 hx1 hy0 hy1 hz0 hz1 hb
    have mix : ∀ {r a b : ℚ}, 0 ≤ r → r ≤ 1 → lo ≤ a ∧ a ≤ hi → lo ≤ b ∧ b ≤ hi →
        lo ≤ r * a + (1 - r) * b ∧ r * a + (1 - r) * b ≤ hi := by
      intro r a b h0 h1 ha hb
      constructor
      · nlinarith [mul_nonneg h0 (sub_nonneg.2 ha.1), mul_nonneg (sub_nonneg.2 h1) (sub_nonneg.2 hb.1)]
      · nlinarith [mul_nonneg h0 (sub_nonneg.2 ha.2), mul_nonneg (sub_nonneg.2 h1) (sub_nonneg.2 hb.2)]
    have c := hb
    unfold trilinear
    exact mix hz0 hz1
      (mix hx0 hx1 (mix hy0 hy1 (c true true true) (c true false true))
        (mix hy0 hy1 (c false true true) (c false false true)))
      (mix hx0 hx1 (mix hy0 hy1 (c true true false) (c true false false))
        (mix hy0 hy1 (c false true false) (c false false false)))

end Verif.Tab
