/-
C42 and C44: lookups in tabulations, and averages.
-/
import Verif.Tab.Model
import Mathlib.Tactic.Linarith
import Mathlib.Tactic.FieldSimp
import Mathlib.Tactic.Ring
import Mathlib.Tactic.Positivity
import Mathlib.Tactic.NormNum
import Mathlib.Tactic.Push
import Mathlib.Tactic.Tauto

namespace Verif.Tab

/-! ### Specification -/

/-- Grid point number `i` of `num` equal steps from `a` to `a + range`. -/
def gridPoint (a range : ℚ) (num i : Nat) : ℚ := a + range * ((i : ℚ) / (num : ℚ))

/-- The straight line through two points. -/
def through (x0 y0 x1 y1 x : ℚ) : ℚ := y0 + (y1 - y0) * ((x - x0) / (x1 - x0))

/-! ### C42 -/

theorem gridPoint_eq (a range : ℚ) (num i : Nat) :
    a + (i : ℚ) * (range / (num : ℚ)) = gridPoint a range num i := by
  unfold gridPoint; ring

theorem tabulate_ok {a range : ℚ} {num : Nat} {f : ℚ → ℚ} {t : Table}
    (h : tabulate a range num f = .ok t) :
    2 ≤ num ∧ t.values = (List.range (num + 1)).map (fun i => f (gridPoint a range num i)) ∧
      t.xMin = a ∧ t.xMax = a + range ∧ t.invDx = (num : ℚ) / range := by
  unfold tabulate at h
  by_cases h2 : num < 2
  · rw [if_pos h2] at h; cases h
  · rw [if_neg h2] at h
    cases h
    refine ⟨by omega, ?_, rfl, rfl, rfl⟩
    simp only [gridPoint_eq]

theorem at_ok {a range : ℚ} {num : Nat} {f : ℚ → ℚ} {t : Table}
    (h : tabulate a range num f = .ok t) {i : Nat} (hi : i ≤ num) :
    t.at i = .ok (f (gridPoint a range num i)) := by
  obtain ⟨_, hv, _⟩ := tabulate_ok h
  unfold Table.at
  rw [hv, List.getElem?_map, List.getElem?_range (by omega)]
  rfl

theorem back_ok {a range : ℚ} {num : Nat} {f : ℚ → ℚ} {t : Table}
    (h : tabulate a range num f = .ok t) :
    t.back = .ok (f (gridPoint a range num num)) := by
  obtain ⟨_, hv, _⟩ := tabulate_ok h
  unfold Table.back
  rw [hv, List.range_succ, List.map_append]
  simp

theorem gridPoint_last {a range : ℚ} {num : Nat} (h : 2 ≤ num) :
    gridPoint a range num num = a + range := by
  have : (num : ℚ) ≠ 0 := by positivity
  unfold gridPoint
  rw [div_self this, mul_one]

theorem index_eq {a range x : ℚ} {num : Nat} (h : 2 ≤ num) (hr : 0 < range) (i : Nat) :
    (x - a) * ((num : ℚ) / range) - (i : ℚ) =
      (x - gridPoint a range num i) / (gridPoint a range num (i + 1) - gridPoint a range num i)
    := by
  have hn : (num : ℚ) ≠ 0 := by positivity
  have hr' : range ≠ 0 := ne_of_gt hr
  have e : gridPoint a range num (i + 1) - gridPoint a range num i = range / num := by
    unfold gridPoint; push_cast; field_simp; ring
  rw [e]
  unfold gridPoint
  field_simp
  ring

theorem step_pos {a range : ℚ} {num : Nat} (h : 2 ≤ num) (hr : 0 < range) (i : Nat) :
    0 < gridPoint a range num (i + 1) - gridPoint a range num i := by
  have hn : (0 : ℚ) < num := by positivity
  have : gridPoint a range num (i + 1) - gridPoint a range num i = range / num := by
    unfold gridPoint; push_cast; field_simp; ring
  rw [this]; positivity

/-- The lower index is the number of the cell. -/
theorem floor_index {a range x : ℚ} {num : Nat} (h : 2 ≤ num) (hr : 0 < range) {i : Nat}
    (h1 : gridPoint a range num i ≤ x) (h2 : x < gridPoint a range num (i + 1)) :
    ⌊(x - a) * ((num : ℚ) / range)⌋ = (i : Int) := by
  have e := index_eq (a := a) (x := x) h hr i
  have hp := step_pos (a := a) h hr i
  rw [Int.floor_eq_iff]
  have l1 : 0 ≤ (x - gridPoint a range num i) /
      (gridPoint a range num (i + 1) - gridPoint a range num i) :=
    div_nonneg (by linarith) hp.le
  have l2 : (x - gridPoint a range num i) /
      (gridPoint a range num (i + 1) - gridPoint a range num i) < 1 := by
    rw [div_lt_one hp]; linarith
  push_cast
  constructor <;> linarith

theorem sizeMinusTwo_eq {num : Nat} (h : 2 ≤ num) (hs : num < 2 ^ 63) :
    sizeMinusTwo (num + 1) = num - 1 := by
  unfold sizeMinusTwo; omega

theorem length_eq {a range : ℚ} {num : Nat} {f : ℚ → ℚ} {t : Table}
    (h : tabulate a range num f = .ok t) : t.values.length = num + 1 := by
  rw [(tabulate_ok h).2.1]; simp

theorem gridPoint_mono {a range : ℚ} {num : Nat} (h : 2 ≤ num) (hr : 0 < range) {i j : Nat}
    (hij : i ≤ j) : gridPoint a range num i ≤ gridPoint a range num j := by
  have hn : (0 : ℚ) < num := by positivity
  unfold gridPoint
  have : (i : ℚ) ≤ j := by exact_mod_cast hij
  have := div_le_div_of_nonneg_right this hn.le
  nlinarith

/-- The core of `get_value_linear`, once neither extrapolation nor the lower bound apply. -/
theorem linear_core {a range : ℚ} {num : Nat} {f : ℚ → ℚ} {t : Table}
    (h : tabulate a range num f = .ok t) (hs : num < 2 ^ 63) (hr : 0 < range) {x : ℚ}
    (e : Extrapolation) (hx : a ≤ x) (he : e = .linear ∨ x ≤ a + range) {i k : Nat}
    (hk : ⌊(x - a) * ((num : ℚ) / range)⌋ = (k : Int)) (hk64 : k < 2 ^ 64)
    (hi : i = min k (num - 1)) :
    t.getLinear x e = .ok (through (gridPoint a range num i) (f (gridPoint a range num i))
      (gridPoint a range num (i + 1)) (f (gridPoint a range num (i + 1))) x) := by
  obtain ⟨h2, hv, hmin, hmax, hinv⟩ := tabulate_ok h
  unfold Table.getLinear
  rw [hmin, hmax, hinv, if_neg (not_lt.mpr hx), if_neg, if_neg]
  rotate_left
  · rintro ⟨rfl, hlt⟩; rcases he with he | he
    · cases he
    · linarith
  · rintro ⟨rfl, hlt⟩; rcases he with he | he
    · cases he
    · linarith
  have ht : truncSize ((x - a) * ((num : ℚ) / range)) = .ok k := by
    unfold truncSize; rw [hk, if_pos (by exact_mod_cast hk64)]; simp
  rw [ht]
  simp only [length_eq h, sizeMinusTwo_eq h2 hs]
  rw [← hi, at_ok h (by omega), at_ok h (by omega)]
  simp only
  rw [index_eq h2 hr i]
  rfl

/-- Inside the range a lookup gives the straight line between the two neighbouring tabulated
values, for each of the kinds of extrapolation. -/
theorem C42_between {a range : ℚ} {num : Nat} {f : ℚ → ℚ} {t : Table}
    (h : tabulate a range num f = .ok t) (hs : num < 2 ^ 63) (hr : 0 < range) {i : Nat}
    (hi : i < num) {x : ℚ} (h1 : gridPoint a range num i ≤ x)
    (h2 : x ≤ gridPoint a range num (i + 1)) (e : Extrapolation) :
    t.getLinear x e = .ok (through (gridPoint a range num i) (f (gridPoint a range num i))
      (gridPoint a range num (i + 1)) (f (gridPoint a range num (i + 1))) x) := by
  have hn := (tabulate_ok h).1
  have h0 : gridPoint a range num 0 = a := by unfold gridPoint; simp
  have hxa : a ≤ x := by
    have := gridPoint_mono (a := a) hn hr (Nat.zero_le i); rw [h0] at this; linarith
  have hxb : x ≤ a + range := by
    have := gridPoint_mono (a := a) hn hr (show i + 1 ≤ num by omega)
    rw [gridPoint_last hn] at this; linarith
  rcases lt_or_eq_of_le h2 with hlt | heq
  · exact linear_core h hs hr e hxa (Or.inr hxb) (floor_index hn hr h1 hlt) (by omega) (by omega)
  · -- the right end of the cell: the next cell, or the last one
    by_cases hl : i + 1 = num
    · have hf : ⌊(x - a) * ((num : ℚ) / range)⌋ = ((i + 1 : Nat) : Int) :=
        floor_index hn hr heq.ge (by rw [heq]; linarith [step_pos (a := a) hn hr (i + 1)])
      exact linear_core h hs hr e hxa (Or.inr hxb) hf (by omega) (by omega)
    · have hf : ⌊(x - a) * ((num : ℚ) / range)⌋ = ((i + 1 : Nat) : Int) :=
        floor_index hn hr heq.ge (by rw [heq]; linarith [step_pos (a := a) hn hr (i + 1)])
      rw [linear_core h hs hr e hxa (Or.inr hxb) hf (by omega) (show i + 1 = _ by omega)]
      have p1 := (step_pos (a := a) hn hr i).ne'
      unfold through
      rw [heq, div_self p1, sub_self, zero_div]
      congr 1; ring

/-- At a grid point the value is that of the function. -/
theorem C42_grid_point {a range : ℚ} {num : Nat} {f : ℚ → ℚ} {t : Table}
    (h : tabulate a range num f = .ok t) (hs : num < 2 ^ 63) (hr : 0 < range) {i : Nat}
    (hi : i ≤ num) (e : Extrapolation) :
    t.getLinear (gridPoint a range num i) e = .ok (f (gridPoint a range num i)) := by
  have hn := (tabulate_ok h).1
  by_cases hl : i = num
  · obtain ⟨j, rfl⟩ : ∃ j, i = j + 1 := ⟨i - 1, by omega⟩
    rw [C42_between h hs hr (show j < num by omega)
      (by linarith [step_pos (a := a) hn hr j]) le_rfl e]
    unfold through
    rw [div_self (step_pos (a := a) hn hr j).ne']
    congr 1; ring
  · rw [C42_between h hs hr (show i < num by omega) le_rfl
      (by linarith [step_pos (a := a) hn hr i]) e]
    unfold through
    rw [sub_self, zero_div]
    congr 1; ring

/-- Between two grid points the value lies between the two tabulated values. -/
theorem C42_bounds {a range : ℚ} {num : Nat} {f : ℚ → ℚ} {t : Table}
    (h : tabulate a range num f = .ok t) (hs : num < 2 ^ 63) (hr : 0 < range) {i : Nat}
    (hi : i < num) {x : ℚ} (h1 : gridPoint a range num i ≤ x)
    (h2 : x ≤ gridPoint a range num (i + 1)) (e : Extrapolation) :
    ∃ v, t.getLinear x e = .ok v ∧
      min (f (gridPoint a range num i)) (f (gridPoint a range num (i + 1))) ≤ v ∧
      v ≤ max (f (gridPoint a range num i)) (f (gridPoint a range num (i + 1))) := by
  refine ⟨_, C42_between h hs hr hi h1 h2 e, ?_⟩
  have hp := step_pos (a := a) (tabulate_ok h).1 hr i
  unfold through
  set A := f (gridPoint a range num i)
  set B := f (gridPoint a range num (i + 1))
  set r := (x - gridPoint a range num i) /
    (gridPoint a range num (i + 1) - gridPoint a range num i)
  have r0 : 0 ≤ r := div_nonneg (by linarith) hp.le
  have r1 : r ≤ 1 := by rw [div_le_one hp]; linarith
  rcases le_total A B with hab | hab
  · rw [min_eq_left hab, max_eq_right hab]; constructor <;> nlinarith
  · rw [min_eq_right hab, max_eq_left hab]; constructor <;> nlinarith

/-- Below the range both lookups give 0. -/
theorem C42_below {a range : ℚ} {num : Nat} {f : ℚ → ℚ} {t : Table}
    (h : tabulate a range num f = .ok t) {x : ℚ} (hx : x < a) (e : Extrapolation) :
    t.getLinear x e = .ok 0 ∧ t.getStep x = .ok 0 := by
  obtain ⟨_, _, hmin, _, _⟩ := tabulate_ok h
  constructor
  · unfold Table.getLinear; rw [hmin, if_pos hx]
  · unfold Table.getStep; rw [hmin, if_pos hx]

/-- Above the range the value is 0, or the last tabulated value, or on the straight line
through the last two tabulated values; the last one only as long as the distance is less than
2^64 steps. -/
theorem C42_above_partial {a range : ℚ} {num : Nat} {f : ℚ → ℚ} {t : Table}
    (h : tabulate a range num f = .ok t) (hs : num < 2 ^ 63) (hr : 0 < range) {x : ℚ}
    (hx : a + range < x) :
    t.getLinear x .zero = .ok 0 ∧
    t.getLinear x .const = .ok (f (a + range)) ∧
    (x < a + 2 ^ 64 * (range / num) → t.getLinear x .linear =
      .ok (through (gridPoint a range num (num - 1)) (f (gridPoint a range num (num - 1)))
        (a + range) (f (a + range)) x)) := by
  obtain ⟨h2, hv, hmin, hmax, hinv⟩ := tabulate_ok h
  have hn : (0 : ℚ) < num := by positivity
  refine ⟨?_, ?_, ?_⟩
  · unfold Table.getLinear
    rw [hmin, hmax, if_neg (by linarith), if_pos ⟨rfl, hx⟩]
  · unfold Table.getLinear
    rw [hmin, hmax, if_neg (by linarith), if_neg (by simp), if_pos ⟨rfl, hx⟩, back_ok h,
      gridPoint_last h2]
  · intro hlt
    set q := (x - a) * ((num : ℚ) / range) with hq
    have hq1 : (num : ℚ) ≤ q := by
      rw [hq, ← mul_div_assoc, le_div_iff₀ hr]; nlinarith
    have hq2 : q < 2 ^ 64 := by
      rw [hq, ← mul_div_assoc, div_lt_iff₀ hr]
      have : x - a < 2 ^ 64 * (range / num) := by linarith
      have := mul_lt_mul_of_pos_right this hn
      have e : 2 ^ 64 * (range / num) * num = 2 ^ 64 * range := by field_simp
      linarith
    have hk0 : (num : Int) ≤ ⌊q⌋ := Int.le_floor.mpr (by exact_mod_cast hq1)
    have hk1 : ⌊q⌋ < 2 ^ 64 := Int.floor_lt.mpr (by exact_mod_cast hq2)
    have := linear_core h hs hr (x := x) .linear (by linarith) (Or.inl rfl)
      (k := ⌊q⌋.toNat) (i := num - 1) (by rw [← hq]; omega) (by omega) (by omega)
    rw [this, Nat.sub_add_cancel (by omega), gridPoint_last h2]

/-- What is missing in `C42_above_partial`: for an argument further away the conversion to
`size_t` is undefined behaviour, for every table. -/
theorem C42_far_ub {a range : ℚ} {num : Nat} {f : ℚ → ℚ} {t : Table}
    (h : tabulate a range num f = .ok t) (hr : 0 < range) {x : ℚ}
    (hx : a + 2 ^ 64 * (range / num) ≤ x) : t.getLinear x .linear = .error .ub := by
  obtain ⟨h2, hv, hmin, hmax, hinv⟩ := tabulate_ok h
  have hn : (0 : ℚ) < num := by positivity
  have hpos : 0 < 2 ^ 64 * (range / num) := by positivity
  have hq : (2 : ℚ) ^ 64 ≤ (x - a) * ((num : ℚ) / range) := by
    rw [← mul_div_assoc, le_div_iff₀ hr]
    have e : 2 ^ 64 * (range / num) * num = 2 ^ 64 * range := by field_simp
    have : 2 ^ 64 * (range / num) * num ≤ (x - a) * num :=
      mul_le_mul_of_nonneg_right (by linarith) hn.le
    linarith
  have hk : (2 : Int) ^ 64 ≤ ⌊(x - a) * ((num : ℚ) / range)⌋ :=
    Int.le_floor.mpr (by exact_mod_cast hq)
  unfold Table.getLinear
  rw [hmin, hinv, if_neg (by linarith), if_neg (by simp), if_neg (by simp)]
  have : truncSize ((x - a) * ((num : ℚ) / range)) = .error .ub := by
    unfold truncSize; rw [if_neg (by omega)]
  rw [this]

/-- The lookup without interpolation gives the value at the nearest grid point (the upper one
in the middle of two), and the last value above the range, as long as the distance is less
than 2^32 - 1/2 steps. -/
theorem C42_step_partial {a range : ℚ} {num : Nat} {f : ℚ → ℚ} {t : Table}
    (h : tabulate a range num f = .ok t) (hs : num < 2 ^ 32) (hr : 0 < range) {x : ℚ}
    (hx : a ≤ x) :
    (∀ i ≤ num, gridPoint a range num i - range / num / 2 ≤ x →
      x < gridPoint a range num i + range / num / 2 →
        t.getStep x = .ok (f (gridPoint a range num i))) ∧
    (a + range ≤ x → x < a + (2 ^ 32 - 1 / 2) * (range / num) →
      t.getStep x = .ok (f (a + range))) ∧
    (a + (2 ^ 32 - 1 / 2) * (range / num) ≤ x → t.getStep x = .error .ub) := by
  obtain ⟨h2, hv, hmin, hmax, hinv⟩ := tabulate_ok h
  have hn : (0 : ℚ) < num := by positivity
  set q := (x - a) * ((num : ℚ) / range) with hq
  have key : ∀ c : ℚ, (c ≤ q ↔ a + c * (range / num) ≤ x) := by
    intro c
    rw [hq, ← mul_div_assoc, le_div_iff₀ hr, ← sub_nonneg, ← sub_nonneg (a := x)]
    have e : x - (a + c * (range / num)) = ((x - a) * num - c * range) / num := by
      field_simp; ring
    rw [e, le_div_iff₀ hn, zero_mul]
  have hstep : t.getStep x = match floorU32 (q + 1 / 2) with
      | .error e => .error e
      | .ok n => if t.values.length ≤ n then t.back else t.at n := by
    unfold Table.getStep; rw [hmin, hinv, if_neg (not_lt.mpr hx)]; rfl
  rw [hstep, length_eq h]
  refine ⟨?_, ?_, ?_⟩
  · intro i hi g1 g2
    have hg : gridPoint a range num i = a + (i : ℚ) * (range / num) := (gridPoint_eq ..).symm
    have q1 : (i : ℚ) - 1 / 2 ≤ q := (key _).2 (by rw [hg] at g1; linarith)
    have q2 : q < (i : ℚ) + 1 / 2 := by
      rw [← not_le, key]; rw [hg] at g2; push Not; linarith
    have hf : ⌊q + 1 / 2⌋ = (i : Int) := by
      rw [Int.floor_eq_iff]; push_cast; constructor <;> linarith
    have : floorU32 (q + 1 / 2) = .ok i := by
      unfold floorU32; rw [hf, if_pos (by omega)]; simp
    rw [this]
    simp only
    rw [if_neg (by omega), at_ok h hi]
  · intro g1 g2
    have q1 : (num : ℚ) ≤ q := (key _).2 (by
      have : (num : ℚ) * (range / num) = range := by field_simp
      linarith)
    have q2 : q < 2 ^ 32 - 1 / 2 := by rw [← not_le, key]; push Not; exact g2
    have f1 : (num : Int) ≤ ⌊q + 1 / 2⌋ := Int.le_floor.mpr (by push_cast; linarith)
    have f2 : ⌊q + 1 / 2⌋ < 2 ^ 32 := Int.floor_lt.mpr (by push_cast; linarith)
    have : floorU32 (q + 1 / 2) = .ok ⌊q + 1 / 2⌋.toNat := by
      unfold floorU32; rw [if_pos f2]
    rw [this]
    simp only
    by_cases hl : num + 1 ≤ ⌊q + 1 / 2⌋.toNat
    · rw [if_pos hl, back_ok h, gridPoint_last h2]
    · rw [if_neg hl, show ⌊q + 1 / 2⌋.toNat = num by omega, at_ok h le_rfl, gridPoint_last h2]
  · intro g
    have q1 : 2 ^ 32 - 1 / 2 ≤ q := (key _).2 g
    have f1 : (2 : Int) ^ 32 ≤ ⌊q + 1 / 2⌋ := Int.le_floor.mpr (by push_cast; linarith)
    have : floorU32 (q + 1 / 2) = .error .ub := by
      unfold floorU32; rw [if_neg (by omega)]
    rw [this]

/-- Tables need two steps; a table that is not constructed from a function is empty and every
lookup at or above its lower bound 0, other than with zero extrapolation, is undefined. -/
theorem C42_few (a range : ℚ) (num : Nat) (f : ℚ → ℚ) :
    (∃ t, tabulate a range num f = .ok t) ↔ 2 ≤ num := by
  constructor
  · rintro ⟨t, h⟩; exact (tabulate_ok h).1
  · intro h; exact ⟨_, by unfold tabulate; rw [if_neg (by omega)]⟩

@[inherit_doc C42_few]
theorem C42_empty_ub (x : ℚ) (hx : 0 ≤ x) (e : Extrapolation) (he : e ≠ .zero) :
    Table.empty.getLinear x e = .error .ub := by
  unfold Table.getLinear Table.empty
  simp only
  rw [if_neg (not_lt.mpr hx), if_neg (fun h => he h.1)]
  by_cases hc : e = .const ∧ 0 < x
  · rw [if_pos hc]; rfl
  · rw [if_neg hc]
    simp [truncSize, Table.at]

/-- The square function on four steps from 1 to 3. -/
example : ∃ t, tabulate 1 2 4 (fun x => x * x) = .ok t ∧ t.getLinear (7 / 4) .linear = .ok (25 / 8)
    ∧ t.getLinear 4 .linear = .ok (29 / 2) ∧ t.getStep (7 / 4) = .ok 4 := by
  refine ⟨_, rfl, ?_, ?_, ?_⟩ <;> decide +kernel

/-! ### C44 -/

/-- Operations on an `Average`. -/
inductive AvgOp | add (x : ℚ) | clear

/-- The effect of an operation. -/
def AvgOp.run (a : Average) : AvgOp → Average
  | .add x => a.add x
  | .clear => a.clear

/-- The values added since the last `clear`. -/
def added (ops : List AvgOp) : List ℚ :=
  ops.foldl (fun l o => match o with | .add x => l ++ [x] | .clear => []) []

/-- The arithmetic mean; 0 for no values. -/
def mean (l : List ℚ) : ℚ := l.sum / (l.length : ℚ)

theorem avg_step {a : Average} {l : List ℚ} (hl : l.length + 1 < 2 ^ 64)
    (ha : a.avg = mean l ∧ a.n.toNat = l.length) (x : ℚ) :
    (a.add x).avg = mean (l ++ [x]) ∧ (a.add x).n.toNat = (l ++ [x]).length := by
  have hn : (a.n + 1).toNat = l.length + 1 := by
    rw [BitVec.toNat_add, ha.2]; simp; omega
  unfold Average.add
  refine ⟨?_, by simp only [hn]; simp⟩
  simp only [hn, ha.1, ha.2, mean, List.sum_append, List.sum_cons, List.sum_nil, add_zero,
    List.length_append, List.length_cons, List.length_nil]
  congr 1
  · by_cases h0 : l = []
    · subst h0; simp
    · have : (l.length : ℚ) ≠ 0 := by
        have := List.length_pos_iff.mpr h0
        positivity
      field_simp

/-- After every history of additions and clears of less than 2^64 values, the average is the
mean of the values added since the last clear. -/
theorem C44_average (ops : List AvgOp) (h : ops.length < 2 ^ 64) :
    (ops.foldl AvgOp.run .new).average = mean (added ops) ∧
      (ops.foldl AvgOp.run .new).numberOfValues = (added ops).length := by
  have gen : ∀ (ops : List AvgOp) (a : Average) (l : List ℚ), l.length + ops.length < 2 ^ 64 →
      a.avg = mean l ∧ a.n.toNat = l.length →
      (ops.foldl AvgOp.run a).avg = mean (ops.foldl (fun l o => match o with
        | .add x => l ++ [x] | .clear => []) l) ∧
      (ops.foldl AvgOp.run a).n.toNat = (ops.foldl (fun l o => match o with
        | .add x => l ++ [x] | .clear => []) l).length := by
    intro ops
    induction ops with
    | nil => intro a l _ ha; exact ha
    | cons o ops ih =>
      intro a l hl ha
      rw [List.foldl_cons, List.foldl_cons]
      cases o with
      | add x =>
        exact ih (a.add x) (l ++ [x]) (by simp at hl ⊢; omega) (avg_step (by simp at hl; omega) ha x)
      | clear =>
        exact ih a.clear [] (by simp at hl ⊢; omega) (by simp [Average.clear, mean])
  have := gen ops .new [] (by simpa using h) (by simp [Average.new, mean])
  exact this

example : ([AvgOp.add 5, .clear, .add 1, .add 4].foldl AvgOp.run .new).average = 5 / 2 := by
  decide +kernel

/-- Specification of `dedup_avg`: the data fall into runs of equal `x`, one after the other,
neighbouring runs having different `x`; every run becomes one point with the mean of its `y`
values. -/
inductive Runs : List (ℚ × ℚ) → List (ℚ × ℚ) → Prop
  | last (x : ℚ) (ys : List ℚ) (h : ys ≠ []) : Runs (ys.map fun y => (x, y)) [(x, mean ys)]
  | more (x : ℚ) (ys : List ℚ) (h : ys ≠ []) (x' y' : ℚ) (rest out : List (ℚ × ℚ))
      (hne : x' ≠ x) (hr : Runs ((x', y') :: rest) out) :
      Runs (ys.map (fun y => (x, y)) ++ (x', y') :: rest) ((x, mean ys) :: out)

theorem dedup_runs : ∀ (l : List (ℚ × ℚ)) (a : Average) (x : ℚ) (ys : List ℚ), ys ≠ [] →
    ys.length + l.length < 2 ^ 64 → a.avg = mean ys ∧ a.n.toNat = ys.length →
    Runs (ys.map (fun y => (x, y)) ++ l) (dedupLoop l a x x) := by
  intro l
  induction l with
  | nil =>
    intro a x ys h _ ha
    rw [List.append_nil, dedupLoop, Average.average, ha.1]
    exact .last x ys h
  | cons p l ih =>
    intro a x ys h hl ha
    obtain ⟨x', y'⟩ := p
    rw [dedupLoop]
    simp only [List.length_cons] at hl
    by_cases hx : x' = x
    · subst hx
      rw [if_pos rfl]
      have := ih (a.add y') x' (ys ++ [y']) (by simp) (by simp; omega)
        (avg_step (by omega) ha y')
      simpa using this
    · rw [if_neg hx, Average.average, ha.1]
      refine .more x ys h x' y' l _ hx ?_
      have e : (a.clear.add y').avg = mean [y'] ∧ (a.clear.add y').n.toNat = [y'].length := by
        have := avg_step (a := a.clear) (l := []) (by simp)
          (by simp [Average.clear, mean]) y'
        simpa using this
      have := ih (a.clear.add y') x' [y'] (by simp) (by simp; omega) e
      simpa using this

/-- `dedup_avg` fails exactly for no data or vectors of different sizes, and otherwise turns
every run of equal `x` into one point. -/
theorem C44_dedup (x y : List ℚ) (h : x.length < 2 ^ 64 - 1) :
    (x.length ≠ y.length → dedupAvg x y = .error .sizes) ∧
    (x = [] → y = [] → dedupAvg x y = .error .tooFew) ∧
    (x.length = y.length → x ≠ [] → ∃ out, dedupAvg x y = .ok out ∧ Runs (x.zip y) out) := by
  refine ⟨fun hne => by unfold dedupAvg; rw [if_pos hne], ?_, ?_⟩
  · rintro rfl rfl; rfl
  · intro he hx
    cases x with
    | nil => exact absurd rfl hx
    | cons x0 x =>
      cases y with
      | nil => simp at he
      | cons y0 y =>
        refine ⟨dedupLoop ((x0 :: x).zip (y0 :: y)) .new x0 x0, ?_, ?_⟩
        · unfold dedupAvg; rw [if_neg (not_not_intro he)]
        · rw [List.zip_cons_cons, dedupLoop, if_pos rfl]
          have e := avg_step (a := .new) (l := []) (by simp) (by simp [Average.new, mean]) y0
          have := dedup_runs (x.zip y) (Average.new.add y0) x0 [y0] (by simp)
            (by simp at h he ⊢; omega) (by simpa using e)
          simpa using this

/-- A run has an element. -/
theorem Runs.x_mem {l out : List (ℚ × ℚ)} (h : Runs l out) :
    ∀ x, x ∈ out.map Prod.fst ↔ x ∈ l.map Prod.fst := by
  induction h with
  | last x ys h =>
    intro z
    obtain ⟨y, ys', rfl⟩ := List.exists_cons_of_ne_nil h
    simp
  | more x ys h x' y' rest out hne _ ih =>
    intro z
    obtain ⟨y, ys', rfl⟩ := List.exists_cons_of_ne_nil h
    rw [List.map_cons, List.mem_cons, ih z, List.map_append, List.mem_append]
    simp
    tauto

/-- For data sorted by `x`, as `dedup_avg` assumes, the result has every `x` of the data
exactly once, in increasing order, with the mean of all `y` values that the data have for
this `x`. -/
theorem C44_dedup_sorted (x y : List ℚ) (h : x.length < 2 ^ 64 - 1) (he : x.length = y.length)
    (hx : x ≠ []) (hs : x.Pairwise (· ≤ ·)) :
    ∃ out, dedupAvg x y = .ok out ∧ (out.map Prod.fst).Pairwise (· < ·) ∧
      (∀ a, a ∈ out.map Prod.fst ↔ a ∈ x) ∧
      ∀ p ∈ out, p.2 = mean (((x.zip y).filter fun q => q.1 = p.1).map Prod.snd) := by
  obtain ⟨out, ho, hr⟩ := (C44_dedup x y h).2.2 he hx
  have hz : (x.zip y).map Prod.fst = x := List.map_fst_zip (by omega)
  refine ⟨out, ho, ?_⟩
  have gen : ∀ {l out : List (ℚ × ℚ)}, Runs l out → (l.map Prod.fst).Pairwise (· ≤ ·) →
      (out.map Prod.fst).Pairwise (· < ·) ∧
      ∀ p ∈ out, p.2 = mean ((l.filter fun q => q.1 = p.1).map Prod.snd) := by
    intro l out h
    induction h with
    | last x ys h =>
      intro _
      refine ⟨by simp, ?_⟩
      intro p hp
      simp only [List.mem_singleton] at hp
      subst hp
      congr 1
      rw [List.filter_eq_self.mpr (by simp)]
      simp
    | more x ys h x' y' rest out hne hr ih =>
      intro hs
      rw [List.map_append, List.pairwise_append] at hs
      obtain ⟨ih1, ih2⟩ := ih hs.2.1
      obtain ⟨y, ys', rfl⟩ := List.exists_cons_of_ne_nil h
      have hxx : x < x' := lt_of_le_of_ne
        (hs.2.2 x (by simp) x' (by simp)) (Ne.symm hne)
      have hlt : ∀ z ∈ ((x', y') :: rest).map Prod.fst, x < z := by
        intro z hz
        rw [List.map_cons, List.mem_cons] at hz
        rcases hz with rfl | hz
        · exact hxx
        · have := hs.2.1
          rw [List.map_cons, List.pairwise_cons] at this
          exact lt_of_lt_of_le hxx (this.1 z hz)
      constructor
      · rw [List.map_cons, List.pairwise_cons]
        exact ⟨fun z hz => hlt z ((hr.x_mem z).1 hz), ih1⟩
      · intro p hp
        rw [List.mem_cons] at hp
        rw [List.filter_append]
        rcases hp with rfl | hp
        · rw [List.filter_eq_self.mpr (by simp), List.filter_eq_nil_iff.mpr]
          · simp
          · intro q hq
            have := hlt q.1 (List.mem_map_of_mem hq)
            simpa using this.ne'
        · have hp1 : x < p.1 := hlt _ ((hr.x_mem _).1 (List.mem_map_of_mem hp))
          rw [List.filter_eq_nil_iff.mpr (by
            intro q hq
            rw [List.mem_map] at hq
            obtain ⟨_, _, rfl⟩ := hq
            simpa using hp1.ne), List.nil_append]
          exact ih2 p hp
  obtain ⟨g1, g2⟩ := gen hr (by rw [hz]; exact hs)
  exact ⟨g1, fun a => by rw [hr.x_mem a, hz], g2⟩

example : dedupAvg [1, 1, 2, 4, 4] [3, 5, 7, 1, 2] = .ok [(1, 4), (2, 7), (4, 3 / 2)] := by
  decide +kernel

end Verif.Tab
