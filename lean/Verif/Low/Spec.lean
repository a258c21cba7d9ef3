import Mathlib.Analysis.Real.Sqrt
import Mathlib.Algebra.BigOperators.Intervals
import Mathlib.Order.Interval.Finset.Nat

/-!
Specification of the smoothing of tabulated data: robust locally weighted regression. Nothing here refers to the model.
-/

namespace Verif.Low.Spec

open Finset

open Classical in
/-- `v` has the rank `k` (from 0) among the first `n` elements: at most `k` are smaller, more than `k` are not larger. -/
def OrderStat (r : ℕ → ℝ) (n k : ℕ) (v : ℝ) : Prop :=
  ((range n).filter fun m => r m < v).card ≤ k ∧ k < ((range n).filter fun m => r m ≤ v).card

/-- The median of the first `n` elements: the mean of the two in the middle, which are the same for an odd number. -/
def Median (r : ℕ → ℝ) (n : ℕ) (v : ℝ) : Prop :=
  ∃ p q, OrderStat r n (n / 2) p ∧ OrderStat r n ((n - 1) / 2) q ∧ v = (p + q) / 2

open Classical in
/-- The tricube weight of a point at the distance `r` for the bandwidth `h`. -/
noncomputable def tricube (h r : ℝ) : ℝ :=
  if r ≤ h / 1000 then 1 else if r ≤ 999 / 1000 * h then (1 - (r / h) ^ 3) ^ 3 else 0

open Classical in
/-- The bisquare weight of a residual `r` for the scale `c`. -/
noncomputable def bisquare (c r : ℝ) : ℝ :=
  if c = 0 then 0 else if r ≤ c / 1000 then 1 else if r ≤ 999 / 1000 * c then (1 - (r / c) ^ 2) ^ 2 else 0

/-- The points from `l` to `u` are nearest neighbours of the point `i`, itself among them: none of the `n` points left out is
nearer than one of them. -/
def Nearest (x : ℕ → ℝ) (n i l u : ℕ) : Prop :=
  1 ≤ l ∧ l ≤ i ∧ i ≤ u ∧ u ≤ n ∧
    ∀ j, 1 ≤ j → j ≤ n → ¬ (l ≤ j ∧ j ≤ u) → ∀ k, l ≤ k → k ≤ u → |x k - x i| ≤ |x j - x i|

/-- `v` is the value at `t` of a straight line that fits the points with the weights `W` best. -/
def BestLine (x y W : ℕ → ℝ) (n : ℕ) (t v : ℝ) : Prop :=
  ∃ a b, v = a + b * t ∧
    ∀ a' b', (∑ j ∈ Icc 1 n, W j * (y j - (a + b * x j)) ^ 2) ≤ ∑ j ∈ Icc 1 n, W j * (y j - (a' + b' * x j)) ^ 2

/-- The weighted mean of `f`. -/
noncomputable def wmean (W f : ℕ → ℝ) (n : ℕ) : ℝ := (∑ j ∈ Icc 1 n, W j * f j) / ∑ j ∈ Icc 1 n, W j

/-- `v` is the value of the local regression at the point `i` with `ns` nearest neighbours and the weights `g` of the points:
the best line if the weighted points are spread over more than a thousandth of the range of the data, their mean if they
are not, and the value of the point itself if all weights vanish. -/
def LocalFit (x y g : ℕ → ℝ) (n ns i : ℕ) (v : ℝ) : Prop :=
  ∃ l u, u + 1 = l + ns ∧ Nearest x n i l u ∧
    let W := fun j => tricube (max (x i - x l) (x u - x i)) |x j - x i| * g j
    let c := wmean W (fun j => (x j - wmean W x n) ^ 2) n
    ((∀ j, 1 ≤ j → j ≤ n → W j = 0) ∧ v = y i) ∨
    (0 < ∑ j ∈ Icc 1 n, W j) ∧
      (Real.sqrt c > (x n - x 1) / 1000 ∧ BestLine x y W n (x i) v ∨
        Real.sqrt c ≤ (x n - x 1) / 1000 ∧ v = wmean W y n)

/-- `ys` is the result of the local regression with `m` robustness iterations, starting with the weights `g`. -/
def Smoothed (x y : ℕ → ℝ) (n ns : ℕ) : ℕ → (ℕ → ℝ) → (ℕ → ℝ) → Prop
  | 0, g, ys => ∀ i, 1 ≤ i → i ≤ n → LocalFit x y g n ns i (ys i)
  | m + 1, g, ys => ∃ (fit : ℕ → ℝ) (M : ℝ), (∀ i, 1 ≤ i → i ≤ n → LocalFit x y g n ns i (fit i)) ∧
      Median (fun j => |y (j + 1) - fit (j + 1)|) n M ∧
      Smoothed x y n ns m (fun j => bisquare (6 * M) |y j - fit j|) ys

end Verif.Low.Spec
