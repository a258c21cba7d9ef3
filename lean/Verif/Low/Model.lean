import Mathlib.Analysis.Real.Sqrt
import Mathlib.Algebra.Order.Floor.Semiring
import Mathlib.Logic.Function.Basic

/-!
Model of the smoothing of tabulated data (lowess.h).

Simplifications: doubles are real numbers; arrays are functions of the index, with `n` elements; reading outside of an
array is the outcome `none`.
-/

namespace Verif.Low

/-! ### Partial sort -/

open Classical in
/-- `while (x[i] < v) i++;`, lowess.h:112-114, with `f` elements left from `i` on. -/
noncomputable def scanUp (a : ℕ → ℝ) (v : ℝ) : ℕ → ℕ → Option ℕ
  | 0, _ => none
  | f + 1, i => if a i < v then scanUp a v f (i + 1) else some i

open Classical in
/-- `while (v < x[j]) j--;`, lowess.h:115-117; below zero the index wraps and the read is out of bounds. -/
noncomputable def scanDown (a : ℕ → ℝ) (v : ℝ) : ℕ → Option ℕ
  | 0 => if v < a 0 then none else some 0
  | j + 1 => if v < a (j + 1) then scanDown a v j else some (j + 1)

/-- The exchange of two elements, lowess.h:119-121. -/
def swap (a : ℕ → ℝ) (i j : ℕ) : ℕ → ℝ := Function.update (Function.update a i (a j)) j (a i)

/-- The inner loop, lowess.h:111-123; after an exchange at `j = 0` the unsigned `j` wraps and the loop goes on reading out of
bounds. -/
noncomputable def partition (n : ℕ) (v : ℝ) : ℕ → (ℕ → ℝ) → ℕ → ℕ → Option ((ℕ → ℝ) × ℕ × ℕ)
  | 0, _, _, _ => none
  | f + 1, a, i, j =>
    if i ≤ j then
      match scanUp a v (n - i) i, scanDown a v j with
      | some i', some j' =>
        if i' ≤ j' then
          if j' = 0 then none else partition n v f (swap a i' j') (i' + 1) (j' - 1)
        else some (a, i', j')
      | _, _ => none
    else some (a, i, j)

/-- The outer loop of `psort`, lowess.h:107-130. -/
noncomputable def select (n k : ℕ) : ℕ → (ℕ → ℝ) → ℕ → ℕ → Option (ℕ → ℝ)
  | 0, _, _, _ => none
  | f + 1, a, pL, pR =>
    if pL < pR then
      match partition n (a k) (n + 1) a pL pR with
      | none => none
      | some (b, i, j) => select n k f b (if j < k then i else pL) (if k < i then j else pR)
    else some a

/-- `psort`, lowess.h:106-131. -/
noncomputable def psort (a : ℕ → ℝ) (n k : ℕ) : Option (ℕ → ℝ) := select n k n a 0 (n - 1)

/-! ### The local fit -/

open Classical in
/-- The weight of a point at the distance `r`, lowess.h:54-59. -/
noncomputable def kern (h r : ℝ) : ℝ :=
  if r ≤ 0.001 * h then 1 else
    let d := (r / h) * (r / h) * (r / h)
    (1 - d) * (1 - d) * (1 - d)

open Classical in
/-- The loop for the weights, lowess.h:46-68, with `f` points left from `j` on: indices and weights. -/
noncomputable def collect (x : ℕ → ℝ) (w : ℕ → ℝ → ℝ) (xs h : ℝ) : ℕ → ℕ → List (ℕ × ℝ)
  | 0, _ => []
  | f + 1, j =>
    let r := |x j - xs|
    if r ≤ 0.999 * h then (j, w j (kern h r)) :: collect x w xs h f (j + 1)
    else if x j > xs then []
    else (j, 0) :: collect x w xs h f (j + 1)

/-- Weighted sums over the points. -/
def wsum (l : List (ℕ × ℝ)) (g : ℕ → ℝ) : ℝ := (l.map fun p => p.2 * g p.1).sum

/-- The robustness weights, lowess.h:60-61. -/
def userWeight : Option (ℕ → ℝ) → ℕ → ℝ → ℝ
  | none => fun _ w => w
  | some g => fun j w => w * g j

open Classical in
/-- `lowest`, lowess.h:33-98; the points are numbered from 1 to `n`, `none` is `ok = false`; `rw` are the robustness weights,
if there are any. -/
noncomputable def lowest (x y : ℕ → ℝ) (n : ℕ) (xs : ℝ) (nl nr : ℕ) (rw : Option (ℕ → ℝ)) : Option ℝ :=
  let range := x n - x 1
  let h := max (xs - x nl) (x nr - xs)
  let l := collect x (userWeight rw) xs h (n + 1 - nl) nl
  let a := wsum l fun _ => 1
  if a ≤ 0 then none
  else
    let l1 := l.map fun p => (p.1, p.2 / a)
    let l2 :=
      if h > 0 then
        let m := wsum l1 x
        let c := wsum l1 fun j => (x j - m) * (x j - m)
        if Real.sqrt c > 0.001 * range then l1.map fun p => (p.1, p.2 * ((xs - m) / c * (x p.1 - m) + 1)) else l1
      else l1
    some (wsum l2 y)

/-! ### The smoother -/

/-- The variables of the loop over the points. -/
structure St where
  nl : ℕ
  nr : ℕ
  last : ℕ
  i : ℕ
  ys : ℕ → ℝ

open Classical in
/-- Points close to the last one, lowess.h:200-210, with `f` points left from `i` on: the new `i`, `last` and values. -/
noncomputable def close (x : ℕ → ℝ) (cut : ℝ) : ℕ → ℕ → ℕ → (ℕ → ℝ) → ℕ × ℕ × (ℕ → ℝ)
  | 0, i, last, ys => (i, last, ys)
  | f + 1, i, last, ys =>
    if x i > cut then (i, last, ys)
    else if x i = x last then close x cut f (i + 1) i (Function.update ys i (ys last))
    else close x cut f (i + 1) last ys

/-- Interpolation of points that were skipped, lowess.h:187-195. -/
noncomputable def skipped (x : ℕ → ℝ) (last i : ℕ) (ys : ℕ → ℝ) : ℕ → ℝ := fun j =>
  if last < j ∧ j < i then
    let alpha := (x j - x last) / (x i - x last)
    alpha * ys i + (1 - alpha) * ys last
  else ys j

open Classical in
/-- The loop over the points, lowess.h:164-213. -/
noncomputable def passLoop (x y : ℕ → ℝ) (n : ℕ) (delta : ℝ) (rw : Option (ℕ → ℝ)) : ℕ → St → Option (ℕ → ℝ)
  | 0, _ => none
  | f + 1, s =>
    if s.nl < 1 ∨ n < s.nr ∨ s.i < 1 ∨ n < s.i then none
    else if s.nr < n ∧ x s.i - x s.nl > x (s.nr + 1) - x s.i then
      passLoop x y n delta rw f { s with nl := s.nl + 1, nr := s.nr + 1 }
    else
      let v := (lowest x y n (x s.i) s.nl s.nr rw).getD (y s.i)
      let ys := skipped x s.last s.i (Function.update s.ys s.i v)
      let c := close x (x s.i + delta) (n - s.i) (s.i + 1) s.i ys
      if c.2.1 ≥ n then some c.2.2
      else passLoop x y n delta rw f { s with last := c.2.1, i := max (c.2.1 + 1) (c.1 - 1), ys := c.2.2 }

/-- One robustness iteration: all fitted values; `prev` are the values of the previous one. -/
noncomputable def pass (x y : ℕ → ℝ) (n ns : ℕ) (delta : ℝ) (rw : Option (ℕ → ℝ)) (prev : ℕ → ℝ) : Option (ℕ → ℝ) :=
  passLoop x y n delta rw (2 * n + 1) ⟨1, ns, 0, 1, prev⟩

/-- The robustness scale `cmad`, lowess.h:222-237, from the absolute values of the residuals. -/
noncomputable def cmad (r : ℕ → ℝ) (n : ℕ) : Option ℝ := do
  let m1 := n / 2
  let b ← psort r n m1
  if n % 2 = 0 then
    let m2 := n - m1 - 1
    let c ← psort b n m2
    some (3 * (c m1 + c m2))
  else some (6 * b m1)

open Classical in
/-- The robustness weight of a residual, lowess.h:239-257. -/
noncomputable def robust (cm r : ℝ) : ℝ :=
  if cm = 0 then 0
  else if r ≤ 0.001 * cm then 1
  else if r ≤ 0.999 * cm then (1 - (r / cm) * (r / cm)) * (1 - (r / cm) * (r / cm))
  else 0

/-- The robustness iterations, lowess.h:156-259, `m` of them left after this one. -/
noncomputable def iterate (x y : ℕ → ℝ) (n ns : ℕ) (delta : ℝ) :
    ℕ → Option (ℕ → ℝ) → (ℕ → ℝ) → Option (ℕ → ℝ)
  | 0, rw, prev => pass x y n ns delta rw prev
  | m + 1, rw, prev => do
    let ys ← pass x y n ns delta rw prev
    let cm ← cmad (fun i => |y (i + 1) - ys (i + 1)|) n
    iterate x y n ns delta m (some fun j => robust cm |y j - ys j|) ys

/-- The number of points of a fit, lowess.h:151-154. -/
noncomputable def points (n : ℕ) (span : ℝ) : ℕ := max 2 (min n ⌊span * n + 1 / 10000000⌋₊)

/-- `smooth` and `lowess`, lowess.h:139-260, 289-301; the data are numbered from 1 to `n`. -/
noncomputable def smooth (x y : ℕ → ℝ) (n : ℕ) (span : ℝ) (iter : ℕ) (delta : ℝ) : Option (ℕ → ℝ) :=
  if n = 0 then none
  else if n < 2 then some fun _ => y 1
  else iterate x y n (points n span) delta iter none fun _ => 0

end Verif.Low
