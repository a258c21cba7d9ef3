import Mathlib.Tactic.Linarith
import Mathlib.Tactic.Positivity
import Mathlib.Tactic.FieldSimp
import Mathlib.Tactic.NormNum
import Mathlib.Tactic.Ring
import Mathlib.Analysis.Real.Pi.Bounds
import Verif.Rand.Model
/-
Restricted random numbers stay in their range (C55), seeds (C81).
-/
namespace Verif.Rand

theorem uniform_between {a b u : ℝ} (h0 : 0 ≤ u) (h1 : u < 1) :
    min a b ≤ uniform a b u ∧ uniform a b u ≤ max a b := by
  unfold uniform
  rcases le_total a b with h | h
  · rw [min_eq_left h, max_eq_right h]
    constructor <;> nlinarith
  · rw [min_eq_right h, max_eq_left h]
    constructor <;> nlinarith

/-! ### `expo` -/

/-- **C55.** Whatever the random numbers, `expo` returns a number in (x2, x1]. -/
theorem C55_expo_range {A x1 x2 : ℝ} {us : List ℝ} {x : ℝ} (h : expo A x1 x2 us = some x) :
    x2 < x ∧ x ≤ x1 := by
  induction us with
  | nil => cases h
  | cons u us ih =>
    simp only [expo] at h
    split_ifs at h with hc
    · cases h; exact ⟨hc.2, hc.1⟩
    · exact ih h

theorem expo_arg_pos {A x1 x2 u : ℝ} (h0 : 0 ≤ u) (h1 : u < 1) :
    0 < uniform (Real.exp (A * x1)) (expoLow A x2) u := by
  unfold uniform expoLow
  have := Real.exp_pos (A * x1)
  split_ifs
  · have := Real.exp_pos (A * x2)
    nlinarith
  · nlinarith

/-- **C55.** If the interval is not empty, `expo` accepts a random number `u` at once, unless `x2` is
so far below that the smallest double is reached: then exactly those are rejected that lead to a
value below `x2`. -/
theorem C55_expo_accepts {A x1 x2 u : ℝ} (hA : 0 < A) (hx : x2 < x1) (h0 : 0 ≤ u) (h1 : u < 1)
    (us : List ℝ) :
    ((aMin < A * x2 ∨ Real.exp (A * x2) < (1 - u) * Real.exp (A * x1)) →
      ∃ x, expo A x1 x2 (u :: us) = some x ∧
        Real.exp (A * x) = (1 - u) * Real.exp (A * x1) +
          u * (if aMin < A * x2 then Real.exp (A * x2) else 0)) ∧
    (¬ (aMin < A * x2 ∨ Real.exp (A * x2) < (1 - u) * Real.exp (A * x1)) →
      expo A x1 x2 (u :: us) = expo A x1 x2 us) := by
  have hpos := expo_arg_pos (A := A) (x1 := x1) (x2 := x2) h0 h1
  have he : Real.exp (A * x2) < Real.exp (A * x1) :=
    Real.exp_lt_exp.2 (by nlinarith)
  have hle : uniform (Real.exp (A * x1)) (expoLow A x2) u ≤ Real.exp (A * x1) := by
    unfold uniform expoLow
    have := Real.exp_pos (A * x1)
    split_ifs <;> nlinarith
  have hxl : Real.log (uniform (Real.exp (A * x1)) (expoLow A x2) u) / A ≤ x1 := by
    rw [div_le_iff₀ hA, mul_comm x1 A]
    exact (Real.log_le_iff_le_exp hpos).2 hle
  constructor
  · intro hc
    have hgt : Real.exp (A * x2) < uniform (Real.exp (A * x1)) (expoLow A x2) u := by
      unfold uniform expoLow
      split_ifs with ha
      · nlinarith
      · linarith [hc.resolve_left ha]
    refine ⟨Real.log (uniform (Real.exp (A * x1)) (expoLow A x2) u) / A, ?_, ?_⟩
    · simp only [expo]
      refine if_pos ⟨hxl, ?_⟩
      rw [lt_div_iff₀ hA, mul_comm x2 A]
      exact (Real.lt_log_iff_exp_lt hpos).2 hgt
    · rw [mul_div_cancel₀ _ hA.ne', Real.exp_log hpos]
      unfold uniform expoLow
      ring
  · intro hc
    rw [not_or] at hc
    simp only [expo]
    rw [if_neg]
    rintro ⟨-, h⟩
    rw [lt_div_iff₀ hA, mul_comm x2 A] at h
    have h := (Real.lt_log_iff_exp_lt hpos).1 h
    unfold uniform expoLow at h
    rw [if_neg hc.1] at h
    exact hc.2 (by linarith)

/-- The full-range case has a fair share of accepted numbers: everything below `1 - exp(A (x2 - x1))`. -/
example : ∃ x, expo 1 1 0 [(1 / 2 : ℝ)] = some x := by
  obtain ⟨x, h, -⟩ := (C55_expo_accepts (A := 1) (x1 := 1) (x2 := 0) (u := 1 / 2) one_pos one_pos
    (by norm_num) (by norm_num) []).1 (Or.inl (by
      have := Real.log_pos one_lt_two
      norm_num [aMin]; exact this))
  exact ⟨x, h⟩

/-- **C55.** An empty interval is never left: `expo` with `x1 ≤ x2` rejects every random number. -/
theorem C55_expo_empty_false {A x1 x2 : ℝ} (h : x1 ≤ x2) (us : List ℝ) : expo A x1 x2 us = none := by
  induction us with
  | nil => rfl
  | cons u us ih =>
    simp only [expo]
    rw [if_neg (by rintro ⟨h1, h2⟩; exact absurd (lt_of_lt_of_le h2 h1) (not_lt.2 h)), ih]

/-- **C55 (violated).** `expo` always asks the standard library for a uniform number with the bounds
the wrong way round. -/
theorem C55_expo_bounds_false {A x1 x2 : ℝ} (hA : 0 < A) (hx : x2 < x1) :
    ¬ uniformOk (Real.exp (A * x1)) (expoLow A x2) := by
  unfold uniformOk expoLow
  split_ifs
  · exact not_le.2 (Real.exp_lt_exp.2 (by nlinarith))
  · exact not_le.2 (Real.exp_pos _)

/-! ### `power` -/

theorem pow_pos_eq {x p : ℝ} (hx : 0 < x) : pow x p = some (x ^ p) := by
  unfold pow
  rw [if_neg (not_lt.2 hx.le)]
  exact if_neg fun h => hx.ne' h.1

theorem rpow_inv_between {x y p w : ℝ} (hx : 0 < x) (hxy : x ≤ y) (hp : p ≠ 0)
    (h1 : min (x ^ p) (y ^ p) ≤ w) (h2 : w ≤ max (x ^ p) (y ^ p)) :
    0 < w ∧ x ≤ w ^ p⁻¹ ∧ w ^ p⁻¹ ≤ y := by
  have hy : 0 < y := lt_of_lt_of_le hx hxy
  have hw : 0 < w := lt_of_lt_of_le (lt_min (Real.rpow_pos_of_pos hx _) (Real.rpow_pos_of_pos hy _)) h1
  refine ⟨hw, ?_⟩
  rcases lt_or_gt_of_ne hp with hp | hp
  · have hm : y ^ p ≤ x ^ p := Real.rpow_le_rpow_of_nonpos hx hxy hp.le
    rw [min_eq_right hm] at h1
    rw [max_eq_left hm] at h2
    exact ⟨(Real.le_rpow_inv_iff_of_neg hx hw hp).2 h2, (Real.rpow_inv_le_iff_of_neg hw hy hp).2 h1⟩
  · have hm : x ^ p ≤ y ^ p := Real.rpow_le_rpow hx.le hxy hp.le
    rw [min_eq_left hm] at h1
    rw [max_eq_right hm] at h2
    exact ⟨(Real.le_rpow_inv_iff_of_pos hx.le hw.le hp).2 h1,
      (Real.rpow_inv_le_iff_of_pos hw.le hy.le hp).2 h2⟩


theorem uniform_neg (a b u : ℝ) : uniform (-a) (-b) u = -uniform a b u := by
  unfold uniform; ring

theorem power_log {n xMin xMax u : ℝ} (hn : |n + 1| < 1 / 1000) (h0 : 0 < xMax / xMin)
    (hm : xMin ≠ 0) : power n xMin xMax u = some (xMin * (xMax / xMin) ^ u) := by
  unfold power
  rw [if_pos hn, div, if_neg hm, Option.bind_some, pow_pos_eq h0, Option.map_some]

theorem power_pos {n xMin xMax u : ℝ} (h0 : 0 < xMin) (hx : xMin ≤ xMax) (hu0 : 0 ≤ u)
    (hu1 : u < 1) : ∃ x, power n xMin xMax u = some x ∧ xMin ≤ x ∧ x ≤ xMax := by
  have hM : 0 < xMax := lt_of_lt_of_le h0 hx
  by_cases hn : |n + 1| < 1 / 1000
  · have hr : 1 ≤ xMax / xMin := (one_le_div h0).2 hx
    refine ⟨_, power_log hn (by positivity) h0.ne', ?_, ?_⟩
    · nlinarith [Real.one_le_rpow hr hu0]
    · have : (xMax / xMin) ^ u ≤ (xMax / xMin) ^ (1 : ℝ) := Real.rpow_le_rpow_of_exponent_le hr hu1.le
      rw [Real.rpow_one] at this
      calc xMin * (xMax / xMin) ^ u ≤ xMin * (xMax / xMin) := by gcongr
        _ = xMax := by field_simp
  · have hp : n + 1 ≠ 0 := by
      intro h; rw [h] at hn; norm_num at hn
    have hb := uniform_between (a := xMin ^ (n + 1)) (b := xMax ^ (n + 1)) hu0 hu1
    obtain ⟨hw, hl, hr⟩ := rpow_inv_between h0 hx hp hb.1 hb.2
    refine ⟨uniform (xMin ^ (n + 1)) (xMax ^ (n + 1)) u ^ (n + 1)⁻¹, ?_, hl, hr⟩
    unfold power
    rw [if_neg hn, if_pos ⟨h0.le, hM⟩]
    simp only [pow_pos_eq h0, pow_pos_eq hM, Option.bind_some, pow_pos_eq hw, one_div]

theorem power_neg {n xMin xMax u : ℝ} (h0 : xMax < 0) (hx : xMin ≤ xMax) (hu0 : 0 ≤ u)
    (hu1 : u < 1) : ∃ x, power n xMin xMax u = some x ∧ xMin ≤ x ∧ x ≤ xMax := by
  have hM : xMin < 0 := lt_of_le_of_lt hx h0
  by_cases hn : |n + 1| < 1 / 1000
  · have hr0 : 0 < xMax / xMin := div_pos_of_neg_of_neg h0 hM
    have hr : xMax / xMin ≤ 1 := (div_le_one_of_neg hM).2 hx
    refine ⟨_, power_log hn hr0 hM.ne, ?_, ?_⟩
    · nlinarith [Real.rpow_le_one hr0.le hr hu0]
    · have : (xMax / xMin) ^ (1 : ℝ) ≤ (xMax / xMin) ^ u :=
        Real.rpow_le_rpow_of_exponent_ge hr0 hr hu1.le
      rw [Real.rpow_one] at this
      calc xMin * (xMax / xMin) ^ u ≤ xMin * (xMax / xMin) := by nlinarith
        _ = xMax := by have := hM.ne; field_simp
  · have hp : n + 1 ≠ 0 := by
      intro h; rw [h] at hn; norm_num at hn
    have ha : 0 < -xMax := by linarith
    have hb' : 0 < -xMin := by linarith
    have hb := uniform_between (a := (-xMin) ^ (n + 1)) (b := (-xMax) ^ (n + 1)) hu0 hu1
    rw [min_comm, max_comm] at hb
    obtain ⟨hw, hl, hr⟩ := rpow_inv_between ha (neg_le_neg hx) hp hb.1 hb.2
    refine ⟨-uniform ((-xMin) ^ (n + 1)) ((-xMax) ^ (n + 1)) u ^ (n + 1)⁻¹, ?_, by linarith, by linarith⟩
    have hs : sgn xMin = -1 := by
      unfold sgn; rw [if_pos hM, if_neg (not_lt.2 hM.le)]; norm_num
    unfold power
    rw [if_neg hn, if_neg (fun h => absurd h.1 (not_le.2 hM)), abs_of_neg hM, abs_of_neg h0, hs]
    simp only [pow_pos_eq ha, pow_pos_eq hb', Option.bind_some, pow_pos_eq hw, one_div,
      Option.map_some, neg_one_mul]

theorem power_zero {n xMax u : ℝ} (hn : 1 / 1000 ≤ n + 1) (hx : 0 < xMax) (hu0 : 0 ≤ u)
    (hu1 : u < 1) : ∃ x, power n 0 xMax u = some x ∧ 0 ≤ x ∧ x ≤ xMax := by
  have hp : 0 < n + 1 := lt_of_lt_of_le (by norm_num) hn
  have hpx := Real.rpow_pos_of_pos hx (n + 1)
  have hu : uniform 0 (xMax ^ (n + 1)) u = u * xMax ^ (n + 1) := by unfold uniform; ring
  have hw : 0 ≤ u * xMax ^ (n + 1) := by positivity
  refine ⟨(u * xMax ^ (n + 1)) ^ (n + 1)⁻¹, ?_, Real.rpow_nonneg hw _, ?_⟩
  · unfold power
    rw [if_neg (by rw [abs_of_pos hp]; exact not_lt.2 hn), if_pos ⟨le_rfl, hx⟩]
    have h1 : pow 0 (n + 1) = some 0 := by
      unfold pow
      rw [if_neg (lt_irrefl _), if_neg (fun h => absurd h.2 (not_lt.2 hp.le)),
        Real.zero_rpow hp.ne']
    rw [h1, pow_pos_eq hx, Option.bind_some, Option.bind_some, hu]
    unfold pow
    rw [if_neg (not_lt.2 hw), if_neg (fun h => absurd h.2 (not_lt.2 (by positivity))), one_div]
  · rw [Real.rpow_inv_le_iff_of_pos hw hx.le hp]
    nlinarith

/-- **C55.** `power` returns a number in the interval when its ends are both positive or both
negative, whatever the exponent, or when the lower end is zero and the exponent is above -1. -/
theorem C55_power {n xMin xMax u : ℝ} (hx : xMin ≤ xMax)
    (h : 0 < xMin ∨ xMax < 0 ∨ (xMin = 0 ∧ 0 < xMax ∧ 1 / 1000 ≤ n + 1))
    (hu0 : 0 ≤ u) (hu1 : u < 1) :
    ∃ x, power n xMin xMax u = some x ∧ xMin ≤ x ∧ x ≤ xMax := by
  rcases h with h | h | ⟨rfl, h, hn⟩
  · exact power_pos h hx hu0 hu1
  · exact power_neg h hx hu0 hu1
  · exact power_zero hn h hu0 hu1

/-- The law the numbers follow: the `(n+1)`-th power is uniform. -/
theorem C55_power_law {n xMin xMax u : ℝ} (h0 : 0 < xMin) (hx : xMin ≤ xMax)
    (hn : 1 / 1000 ≤ |n + 1|) (hu0 : 0 ≤ u) (hu1 : u < 1) :
    ∃ x, power n xMin xMax u = some x ∧
      x ^ (n + 1) = (1 - u) * xMin ^ (n + 1) + u * xMax ^ (n + 1) := by
  have hM : 0 < xMax := lt_of_lt_of_le h0 hx
  have hp : n + 1 ≠ 0 := by
    intro h; rw [h] at hn; norm_num at hn
  have hb := uniform_between (a := xMin ^ (n + 1)) (b := xMax ^ (n + 1)) hu0 hu1
  obtain ⟨hw, -, -⟩ := rpow_inv_between h0 hx hp hb.1 hb.2
  refine ⟨uniform (xMin ^ (n + 1)) (xMax ^ (n + 1)) u ^ (n + 1)⁻¹, ?_, ?_⟩
  · unfold power
    rw [if_neg (not_lt.2 hn), if_pos ⟨h0.le, hM⟩]
    simp only [pow_pos_eq h0, pow_pos_eq hM, Option.bind_some, pow_pos_eq hw, one_div]
  · rw [Real.rpow_inv_rpow hw.le hp]
    unfold uniform
    ring

/-- **C55 (violated).** With a lower end below and an upper end above zero the number can be outside
the interval. -/
theorem C55_power_mixed_false :
    ∃ x, power 1 (-1) 2 (1 / 2) = some x ∧ x < -1 := by
  refine ⟨-((5 / 2 : ℝ) ^ (1 / 2 : ℝ)), ?_, ?_⟩
  · unfold power
    rw [if_neg (by norm_num), if_neg (by norm_num)]
    have h1 : pow |(-1 : ℝ)| (1 + 1) = some 1 := by
      rw [abs_neg, abs_one, pow_pos_eq one_pos, Real.one_rpow]
    have h2 : pow |(2 : ℝ)| (1 + 1) = some 4 := by
      rw [abs_of_pos two_pos, pow_pos_eq two_pos]
      norm_num
    have h3 : uniform 1 4 (1 / 2) = 5 / 2 := by unfold uniform; norm_num
    rw [h1, h2, Option.bind_some, Option.bind_some, h3, pow_pos_eq (by norm_num), Option.map_some]
    unfold sgn
    norm_num
  · have : (1 : ℝ) < (5 / 2 : ℝ) ^ (1 / 2 : ℝ) := Real.one_lt_rpow (by norm_num) (by norm_num)
    linarith

/-- **C55 (violated).** From zero with an exponent of -1 or less there is no finite number, whatever
the random number. -/
theorem C55_power_zero_false {n xMax u : ℝ} (hn : n ≤ -1) : power n 0 xMax u = none := by
  unfold power
  split_ifs with h1 h2
  · simp [div]
  · have : n + 1 < 0 := by
      rcases lt_or_eq_of_le hn with h | h
      · linarith
      · exfalso; apply h1; rw [h]; norm_num
    simp [pow, this]
  · have : n + 1 < 0 := by
      rcases lt_or_eq_of_le hn with h | h
      · linarith
      · exfalso; apply h1; rw [h]; norm_num
    simp [pow, this]

example : ∃ x, power (-2) 1 3 (1 / 2) = some x ∧ 1 ≤ x ∧ x ≤ 3 :=
  C55_power (by norm_num) (Or.inl one_pos) (by norm_num) (by norm_num)

/-! ### `cauchy` -/

/-- **C55.** `cauchy` returns a number between the limits. -/
theorem C55_cauchy {pole width lo hi u : ℝ} (hw : width ≠ 0) (h : lo ≤ hi) (hu0 : 0 ≤ u)
    (hu1 : u < 1) : ∃ x, cauchy pole width lo hi u = some x ∧ lo ≤ x ∧ x ≤ hi := by
  set a := (lo - pole) / width with ha
  set b := (hi - pole) / width with hb
  refine ⟨pole + width * Real.tan (uniform (Real.arctan a) (Real.arctan b) u), ?_, ?_⟩
  · unfold cauchy div
    rw [if_neg hw, if_neg hw]
    rfl
  have hwa : width * a = lo - pole := by rw [ha]; field_simp
  have hwb : width * b = hi - pole := by rw [hb]; field_simp
  have hbt := uniform_between (a := Real.arctan a) (b := Real.arctan b) hu0 hu1
  have hmono : ∀ s t : ℝ, s ≤ t → Real.arctan s ≤ uniform (Real.arctan a) (Real.arctan b) u →
      uniform (Real.arctan a) (Real.arctan b) u ≤ Real.arctan t →
      s ≤ Real.tan (uniform (Real.arctan a) (Real.arctan b) u) ∧
      Real.tan (uniform (Real.arctan a) (Real.arctan b) u) ≤ t := by
    intro s t _ h1 h2
    have l1 := Real.neg_pi_div_two_lt_arctan s
    have l2 := Real.arctan_lt_pi_div_two t
    have hv : Real.arctan (Real.tan (uniform (Real.arctan a) (Real.arctan b) u)) =
        uniform (Real.arctan a) (Real.arctan b) u :=
      Real.arctan_tan (lt_of_lt_of_le l1 h1) (lt_of_le_of_lt h2 l2)
    rw [← hv] at h1 h2
    exact ⟨Real.arctan_le_arctan_iff.1 h1, Real.arctan_le_arctan_iff.1 h2⟩
  rcases lt_or_gt_of_ne hw with hn | hp
  · have hab : b ≤ a := by
      by_contra hc
      rw [not_le] at hc
      nlinarith
    have hm := Real.arctan_le_arctan_iff.2 hab
    rw [min_eq_right hm, max_eq_left hm] at hbt
    obtain ⟨h1, h2⟩ := hmono b a hab hbt.1 hbt.2
    constructor <;> nlinarith
  · have hab : a ≤ b := by
      by_contra hc
      rw [not_le] at hc
      nlinarith
    have hm := Real.arctan_le_arctan_iff.2 hab
    rw [min_eq_left hm, max_eq_right hm] at hbt
    obtain ⟨h1, h2⟩ := hmono a b hab hbt.1 hbt.2
    constructor <;> nlinarith

/-- Without a width there is no finite number. -/
theorem C55_cauchy_zero_width {pole lo hi u : ℝ} : cauchy pole 0 lo hi u = none := by
  simp [cauchy, div]

example : ∃ x, cauchy 1 (1 / 10) 0 3 (1 / 3) = some x ∧ 0 ≤ x ∧ x ≤ 3 :=
  C55_cauchy (by norm_num) (by norm_num) (by norm_num) (by norm_num)

/-! ### `beta_a0` -/

theorem exp_neg_uniform {xmin : ℝ} (h0 : 0 < xmin) (u : ℝ) :
    Real.exp (-uniform 0 (-Real.log xmin) u) = xmin ^ u := by
  rw [Real.rpow_def_of_pos h0]
  unfold uniform
  congr 1
  ring

/-- **C55.** `beta_a0` turns the random number `u` into `xmin ^ u` and keeps it exactly if the second
random number is not above `(1 - x) ^ b`. -/
theorem C55_beta_a0_accepts {xmin b u c : ℝ} (h0 : 0 < xmin) (h1 : xmin < 1) (hu : 0 < u)
    (us : List (ℝ × ℝ)) :
    betaA0 xmin b ((u, c) :: us) =
      if c ≤ (1 - xmin ^ u) ^ b then some (xmin ^ u) else betaA0 xmin b us := by
  have hx : 0 < 1 - xmin ^ u := by linarith [Real.rpow_lt_one h0.le h1 hu]
  simp only [betaA0]
  rw [exp_neg_uniform h0, pow_pos_eq hx]
  dsimp only
  by_cases hc : c ≤ (1 - xmin ^ u) ^ b
  · rw [if_pos hc, if_neg (not_lt.2 hc)]
  · rw [if_neg hc, if_pos (not_le.1 hc)]

/-- **C55.** Every number `beta_a0` returns is above `xmin` and not above 1. -/
theorem C55_beta_a0_range {xmin b x : ℝ} (h0 : 0 < xmin) (h1 : xmin < 1) {us : List (ℝ × ℝ)}
    (hus : ∀ p ∈ us, 0 ≤ p.1 ∧ p.1 < 1) (h : betaA0 xmin b us = some x) : xmin < x ∧ x ≤ 1 := by
  induction us with
  | nil => cases h
  | cons p us ih =>
    obtain ⟨u, c⟩ := p
    have hu := hus _ List.mem_cons_self
    have hr : xmin < xmin ^ u ∧ xmin ^ u ≤ 1 := by
      constructor
      · have := Real.rpow_lt_rpow_of_exponent_gt h0 h1 hu.2
        rwa [Real.rpow_one] at this
      · exact Real.rpow_le_one h0.le h1.le hu.1
    simp only [betaA0] at h
    rw [exp_neg_uniform h0] at h
    split at h
    · cases h; exact hr
    · split_ifs at h
      · exact ih (fun q hq => hus q (List.mem_cons_of_mem _ hq)) h
      · cases h; exact hr

/-- **C55 (violated).** The documented interval does not contain 1, but 1 can be returned. -/
theorem C55_beta_a0_one_false : betaA0 (1 / 2) 1 [(0, 0)] = some 1 := by
  simp only [betaA0]
  rw [exp_neg_uniform (by norm_num)]
  have h : pow (1 - (1 / 2 : ℝ) ^ (0 : ℝ)) 1 = some 0 := by
    rw [Real.rpow_zero, sub_self, pow, if_neg (lt_irrefl _), if_neg (by norm_num), Real.rpow_one]
  rw [h]
  simp

/-- For the default exponent `b = 0`-like weights nothing is rejected: a single draw always ends the
loop when `b ≤ 0`. -/
theorem C55_beta_a0_nonpos {xmin b u c : ℝ} (h0 : 0 < xmin) (h1 : xmin < 1) (hb : b ≤ 0)
    (hu : 0 < u) (hc : c < 1) (us : List (ℝ × ℝ)) :
    betaA0 xmin b ((u, c) :: us) = some (xmin ^ u) := by
  rw [C55_beta_a0_accepts h0 h1 hu, if_pos]
  have hx : 0 < 1 - xmin ^ u := by linarith [Real.rpow_lt_one h0.le h1 hu]
  have hx1 : 1 - xmin ^ u ≤ 1 := by linarith [Real.rpow_pos_of_pos h0 u]
  linarith [Real.one_le_rpow_of_pos_of_le_one_of_nonpos hx hx1 hb]

example : betaA0 (1 / 4) 3 [(1 / 2, 1), (1 / 2, 1 / 8)] = some (1 / 2) := by
  have h : ((1 : ℝ) / 4) ^ ((1 : ℝ) / 2) = 1 / 2 := by
    rw [← Real.sqrt_eq_rpow, show (1 : ℝ) / 4 = (1 / 2) ^ 2 by norm_num, Real.sqrt_sq (by norm_num)]
  rw [C55_beta_a0_accepts (by norm_num) (by norm_num) (by norm_num),
    C55_beta_a0_accepts (by norm_num) (by norm_num) (by norm_num), h]
  norm_num

/-! ### The others -/

/-- **C55.** `canonical_nonzero` is positive and at most one, and `exponential` not negative. -/
theorem C55_exponential {lambda u step : ℝ} (hl : 0 < lambda) (hs0 : 0 < step) (hs : step ≤ 1)
    (hu0 : 0 ≤ u) (hu1 : u < 1) :
    0 < canonicalNonzero u step ∧ canonicalNonzero u step ≤ 1 ∧ 0 ≤ exponential lambda u step := by
  have h : 0 < canonicalNonzero u step ∧ canonicalNonzero u step ≤ 1 := by
    unfold canonicalNonzero
    constructor <;> nlinarith
  refine ⟨h.1, h.2, ?_⟩
  unfold exponential
  have := Real.log_nonpos h.1.le h.2
  exact div_nonneg (by linarith) hl.le

/-- **C55.** A beta-distributed number is in [0, 1] unless both gamma-distributed numbers are zero. -/
theorem C55_beta {x1 x2 : ℝ} (h1 : 0 ≤ x1) (h2 : 0 ≤ x2) (h : 0 < x1 + x2) :
    ∃ x, beta x1 x2 = some x ∧ 0 ≤ x ∧ x ≤ 1 := by
  refine ⟨x1 / (x1 + x2), ?_, by positivity, ?_⟩
  · unfold beta div
    rw [if_neg h.ne']
  · rw [div_le_one h]; linarith

/-! ### Seeds -/

theorem seed63_toNat (r1 r2 : BitVec 32) :
    (seed63 r1 r2).toNat = (r1.toNat * 2 ^ 32 + r2.toNat) / 2 := by
  have h1 := r1.isLt
  have h2 := r2.isLt
  unfold seed63
  rw [BitVec.toNat_ushiftRight, BitVec.toNat_or, BitVec.toNat_shiftLeft, BitVec.toNat_setWidth,
    BitVec.toNat_setWidth, Nat.mod_eq_of_lt (a := r1.toNat) (by omega),
    Nat.mod_eq_of_lt (a := r2.toNat) (by omega), Nat.mod_eq_of_lt
      (by rw [Nat.shiftLeft_eq]; omega), ← Nat.shiftLeft_add_eq_or_of_lt h2, Nat.shiftLeft_eq,
    Nat.shiftRight_eq_div_pow]

/-- **C81.** A generated seed is not negative as a 64-bit integer, so a negative seed in the
configuration always means "choose one". -/
theorem C81_nonnegative (r1 r2 : BitVec 32) : 0 ≤ (seed63 r1 r2).toInt := by
  have h := seed63_toNat r1 r2
  have h1 := r1.isLt
  have h2 := r2.isLt
  rw [BitVec.toInt_eq_toNat_of_lt (by omega)]
  omega

/-- **C81.** Every non-negative 64-bit integer can be generated, each from exactly two pairs of
random 32-bit numbers: the first is fixed, the second up to its last bit. -/
theorem C81_uniform (s : BitVec 64) (r1 r2 : BitVec 32) :
    seed63 r1 r2 = s ↔
      r1.toNat = s.toNat / 2 ^ 31 ∧ r2.toNat / 2 = s.toNat % 2 ^ 31 := by
  have h := seed63_toNat r1 r2
  have h1 := r1.isLt
  have h2 := r2.isLt
  have h3 := s.isLt
  rw [← BitVec.toNat_inj, h]
  omega

example : seed63 0xFFFFFFFF 0xFFFFFFFF = 0x7FFFFFFFFFFFFFFF := by decide

end Verif.Rand
