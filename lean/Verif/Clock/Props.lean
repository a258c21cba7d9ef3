import Verif.Clock.Model
import Mathlib.Algebra.BigOperators.Group.Finset.Basic
import Mathlib.Algebra.BigOperators.Ring.Finset
import Mathlib.Data.List.Sort
/-
Properties C08–C10: clocks.
-/
namespace Verif.Clock
open Finset

/-! ## Rounding to ticks -/

theorem stdRound_int (n : Int) : stdRound (n : ℚ) = n := by
  unfold stdRound
  split
  · rw [Int.floor_eq_iff]; constructor <;> push_cast <;> linarith
  · have : ⌊-(n : ℚ) + 1 / 2⌋ = -n := by
      rw [Int.floor_eq_iff]; constructor <;> push_cast <;> linarith
    rw [this]; simp

theorem toTicks_ofTicks (n : Int) (h : -2 ^ 63 ≤ n ∧ n < 2 ^ 63) : toTicks (ofTicks n) = .ok n := by
  unfold toTicks ofTicks
  have : (n : ℚ) / 1000000 * 1000000 = n := by ring
  rw [this, stdRound_int, if_pos h]

/-- Rounding of a time to the clock resolution of 10⁻⁶ fm, as a real time. -/
def micro (x : ℚ) : ℚ := (stdRound (x * 1000000) : ℚ) / 1000000

theorem micro_close (x : ℚ) : |micro x - x| ≤ 1 / 2000000 := by
  have key : |(stdRound (x * 1000000) : ℚ) - x * 1000000| ≤ 1 / 2 := by
    unfold stdRound
    split
    · have h1 := Int.floor_le (x * 1000000 + 1 / 2)
      have h2 := Int.lt_floor_add_one (x * 1000000 + 1 / 2)
      rw [abs_le]; constructor <;> linarith
    · have h1 := Int.floor_le (-(x * 1000000) + 1 / 2)
      have h2 := Int.lt_floor_add_one (-(x * 1000000) + 1 / 2)
      push_cast
      rw [abs_le]; constructor <;> linarith
  rw [abs_le] at key ⊢
  unfold micro
  constructor <;> linarith [key.1, key.2]

/-- A valid configuration within the range in which times are meant to be used:
times up to 10¹² fm and a step of at least half the clock resolution. -/
structure Sane (t₀ dt tEnd : ℚ) : Prop where
  start : |t₀| ≤ 10 ^ 12
  stop : |tEnd| ≤ 10 ^ 12
  step_le : dt ≤ 10 ^ 12
  step_ge : 1 / 2000000 ≤ dt
  order : micro t₀ < micro tEnd

/-- The time grid the user asked for: start, start + dt, … cut off at the end. -/
def gridTime (t₀ dt tEnd : ℚ) (n : Nat) : ℚ := min (micro t₀ + n * micro dt) (micro tEnd)

/-- Tick-level range conditions. -/
structure Good (c : UClock) : Prop where
  dt_pos : 1 ≤ c.dt
  dt_le : c.dt ≤ 10 ^ 18 + 1
  reset_ge : -(10 ^ 18 + 1) ≤ c.reset
  reset_le : c.reset ≤ 10 ^ 18 + 1
  stop_ge : -(10 ^ 18 + 1) ≤ c.stop
  stop_le : c.stop ≤ 10 ^ 18 + 1
  order : c.reset < c.stop
  counter_nonneg : 0 ≤ c.counter
  covered : c.counter * c.dt ≤ 4 * 10 ^ 18 + 4

theorem stdRound_bounds {x : ℚ} {n : Int} (h : |x| ≤ n) : -n ≤ stdRound x ∧ stdRound x ≤ n := by
  rw [abs_le] at h
  unfold stdRound
  split
  · rename_i h0
    constructor
    · have : (0 : Int) ≤ ⌊x + 1 / 2⌋ := Int.floor_nonneg.2 (by linarith)
      have h2 : (0 : ℚ) ≤ n := by linarith
      have : (0 : Int) ≤ n := by exact_mod_cast h2
      omega
    · have : ⌊x + 1 / 2⌋ < n + 1 := Int.floor_lt.2 (by push_cast; linarith)
      omega
  · rename_i h0
    have h1 : ⌊-x + 1 / 2⌋ < n + 1 := Int.floor_lt.2 (by push_cast; linarith)
    have h2 : (0 : Int) ≤ ⌊-x + 1 / 2⌋ := Int.floor_nonneg.2 (by linarith)
    omega

theorem toTicks_ok {x : ℚ} (h : |x| ≤ 10 ^ 12) :
    toTicks x = .ok (stdRound (x * 1000000)) ∧ -10 ^ 18 ≤ stdRound (x * 1000000) ∧
      stdRound (x * 1000000) ≤ 10 ^ 18 := by
  have hb : -(10 ^ 18 : Int) ≤ stdRound (x * 1000000) ∧ stdRound (x * 1000000) ≤ 10 ^ 18 := by
    apply stdRound_bounds
    rw [abs_le] at h ⊢
    push_cast
    constructor <;> linarith [h.1, h.2]
  refine ⟨?_, by linarith [hb.1], hb.2⟩
  unfold toTicks
  rw [if_pos]
  constructor <;> omega

theorem mk_ok {t₀ dt tEnd : ℚ} (h : Sane t₀ dt tEnd) :
    ∃ c, UClock.mk' t₀ dt tEnd = .ok c ∧ Good c ∧ c.counter = 0 ∧
      ofTicks c.dt = micro dt ∧ ofTicks c.reset = micro t₀ ∧ ofTicks c.stop = micro tEnd := by
  have hdt : |dt| ≤ 10 ^ 12 := by
    rw [abs_le]; constructor <;> linarith [h.step_ge, h.step_le]
  obtain ⟨a1, a2, a3⟩ := toTicks_ok hdt
  obtain ⟨b1, b2, b3⟩ := toTicks_ok h.start
  obtain ⟨c1, c2, c3⟩ := toTicks_ok h.stop
  have hpos : ¬ dt ≤ 0 := by linarith [h.step_ge]
  have hlt : stdRound (t₀ * 1000000) < stdRound (tEnd * 1000000) := by
    have := h.order
    unfold micro at this
    have : (stdRound (t₀ * 1000000) : ℚ) < stdRound (tEnd * 1000000) := by linarith
    exact_mod_cast this
  have hd1 : 1 ≤ stdRound (dt * 1000000) := by
    unfold stdRound
    have := h.step_ge
    rw [if_pos (by linarith)]
    exact Int.le_floor.2 (by push_cast; linarith)
  refine ⟨⟨stdRound (dt * 1000000), stdRound (t₀ * 1000000), stdRound (tEnd * 1000000), 0⟩,
    ?_, ⟨hd1, by simp only; omega, by simp only; omega, by simp only; omega, by simp only; omega,
      by simp only; omega, hlt, by simp, by simp⟩, rfl, rfl, rfl, rfl⟩
  simp [UClock.mk', a1, b1, c1, bind, Except.bind, hpos, not_le.2 hlt, pure, Except.pure]

theorem utick_ok {c : UClock} (h : c.counter < i64max - 1) :
    c.tick = .ok { c with counter := c.counter + 1 } := by
  unfold UClock.tick; rw [if_neg (by omega)]

theorem ticks_ok {c : UClock} (h0 : c.counter = 0) (n : Nat) :
    (n : Int) ≤ 10 ^ 19 / 2 → c.ticks n = .ok { c with counter := n } := by
  induction n with
  | zero => intro _; simp only [UClock.ticks]; cases c; simp_all
  | succ n ih =>
    intro hn
    have ih := ih (by omega)
    simp only [UClock.ticks, ih, bind, Except.bind]
    rw [utick_ok (by simp only [i64max]; omega)]
    simp

theorem i64_ok {x : Int} (h1 : -2 ^ 63 ≤ x) (h2 : x < 2 ^ 63) : i64 x = .ok x := by
  unfold i64; rw [if_pos ⟨h1, h2⟩]

theorem present_ok {c : UClock} (h : Good c) :
    c.present = .ok (ofTicks (c.reset + c.counter * c.dt)) := by
  obtain ⟨h1, h2, h3, h4, h5, h6, h7, h8, h9⟩ := h
  have hp : 0 ≤ c.counter * c.dt := mul_nonneg h8 (by omega)
  unfold UClock.present
  rw [mul_comm c.dt, i64_ok (by omega) (by omega)]
  simp only [bind, Except.bind]
  rw [i64_ok (by omega) (by omega)]
  rfl

theorem ofTicks_min (a b : Int) : ofTicks (min a b) = min (ofTicks a) (ofTicks b) := by
  unfold ofTicks
  rcases le_total a b with h | h
  · have : (a : ℚ) ≤ b := by exact_mod_cast h
    rw [min_eq_left h, min_eq_left]; linarith
  · have : (b : ℚ) ≤ a := by exact_mod_cast h
    rw [min_eq_right h, min_eq_right]; linarith

theorem current_ok {c : UClock} (h : Good c) :
    c.currentTime = .ok (ofTicks (min (c.reset + c.counter * c.dt) c.stop)) := by
  have hp := present_ok h
  obtain ⟨h1, h2, h3, h4, h5, h6, h7, h8, h9⟩ := h
  have hp' : 0 ≤ c.counter * c.dt := mul_nonneg h8 (by omega)
  unfold UClock.currentTime
  simp only [hp, bind, Except.bind]
  rw [toTicks_ofTicks _ ⟨by omega, by omega⟩]
  simp only
  split
  · rw [min_eq_right (by omega)]; rfl
  · rw [min_eq_left (by omega)]; rfl

theorem next_ok {c : UClock} (h : Good c) :
    c.nextTime = .ok (ofTicks (min (c.reset + (c.counter + 1) * c.dt) c.stop)) := by
  obtain ⟨h1, h2, h3, h4, h5, h6, h7, h8, h9⟩ := h
  have hp' : 0 ≤ c.counter * c.dt := mul_nonneg h8 (by omega)
  have hcd : c.counter ≤ c.counter * c.dt := le_mul_of_one_le_right h8 h1
  have he : c.dt * (c.counter + 1) = c.counter * c.dt + c.dt := by ring
  unfold UClock.nextTime
  rw [i64_ok (by omega) (by omega)]
  simp only [bind, Except.bind, i64max]
  rw [i64_ok (by omega) (by omega)]
  simp only
  rw [if_neg (by omega), i64_ok (by omega) (by omega)]
  simp only
  rw [i64_ok (by omega) (by omega)]
  simp only
  rw [i64_ok (by omega) (by omega)]
  simp only
  have he2 : (c.counter + 1) * c.dt = c.dt * (c.counter + 1) := by ring
  rw [he2]
  split
  · rw [min_eq_right (by omega)]; rfl
  · rw [min_eq_left (by omega)]; rfl

theorem duration_ok {c : UClock} (h : Good c) :
    c.timestepDuration = .ok (ofTicks (min (c.reset + (c.counter + 1) * c.dt) c.stop) -
      ofTicks (min (c.reset + c.counter * c.dt) c.stop)) := by
  have hp := present_ok h
  obtain ⟨h1, h2, h3, h4, h5, h6, h7, h8, h9⟩ := h
  have hp' : 0 ≤ c.counter * c.dt := mul_nonneg h8 (by omega)
  have he : (c.counter + 1) * c.dt = c.counter * c.dt + c.dt := by ring
  unfold UClock.timestepDuration
  simp only [hp, bind, Except.bind]
  rw [toTicks_ofTicks _ ⟨by omega, by omega⟩]
  simp only
  split
  · rw [min_eq_right (by omega), min_eq_right (by omega)]; simp [pure, Except.pure]
  · rw [i64_ok (by omega) (by omega)]
    simp only
    split
    · rw [i64_ok (by omega) (by omega)]
      rw [min_eq_right (by omega), min_eq_left (by omega)]
      simp only [pure, Except.pure, ofTicks]
      congr 1; push_cast; ring
    · rw [min_eq_left (by omega), min_eq_left (by omega)]
      simp only [pure, Except.pure, ofTicks]
      congr 1; rw [he]; push_cast; ring

/-- C08: after `n` ticks of a clock the current time is the `n`-th point of the
requested grid, the next time the `n+1`-st, and the reported timestep duration
their difference. (`n` steps cover at most 4·10¹² fm, so that no 64-bit counter
overflows.) -/
theorem C08_times {t₀ dt tEnd : ℚ} (h : Sane t₀ dt tEnd) (n : Nat)
    (hn : n * micro dt ≤ 4 * 10 ^ 12) :
    ∃ c cn, UClock.mk' t₀ dt tEnd = .ok c ∧ c.ticks n = .ok cn ∧
      cn.currentTime = .ok (gridTime t₀ dt tEnd n) ∧
      cn.nextTime = .ok (gridTime t₀ dt tEnd (n + 1)) ∧
      cn.timestepDuration = .ok (gridTime t₀ dt tEnd (n + 1) - gridTime t₀ dt tEnd n) := by
  obtain ⟨c, hc, hg, h0, e1, e2, e3⟩ := mk_ok h
  have hcov : (n : Int) * c.dt ≤ 4 * 10 ^ 18 := by
    rw [← e1] at hn
    unfold ofTicks at hn
    have : (n : ℚ) * c.dt ≤ 4 * 10 ^ 18 := by linarith
    exact_mod_cast this
  have hnd : (n : Int) ≤ n * c.dt := le_mul_of_one_le_right (by omega) hg.dt_pos
  have ht := ticks_ok h0 n (by omega)
  have hgn : Good { c with counter := (n : Int) } :=
    ⟨hg.dt_pos, hg.dt_le, hg.reset_ge, hg.reset_le, hg.stop_ge, hg.stop_le, hg.order,
      by simp, by simp only; omega⟩
  have key : ∀ m : Nat, ofTicks (min (c.reset + (m : Int) * c.dt) c.stop) =
      gridTime t₀ dt tEnd m := by
    intro m
    rw [ofTicks_min, e3]
    unfold gridTime
    congr 1
    rw [← e1, ← e2]
    unfold ofTicks; push_cast; ring
  refine ⟨c, _, hc, ht, ?_, ?_, ?_⟩
  · rw [current_ok hgn]; simp only; rw [key]
  · rw [next_ok hgn]; simp only
    have := key (n + 1)
    push_cast at this ⊢
    rw [this]
  · rw [duration_ok hgn]; simp only
    have h1 := key (n + 1)
    have h2 := key n
    push_cast at h1 h2 ⊢
    rw [h1, h2]

theorem micro_dt_pos {t₀ dt tEnd : ℚ} (h : Sane t₀ dt tEnd) : 1 / 1000000 ≤ micro dt := by
  unfold micro
  have hd1 : 1 ≤ stdRound (dt * 1000000) := by
    unfold stdRound
    have := h.step_ge
    rw [if_pos (by linarith)]
    exact Int.le_floor.2 (by push_cast; linarith)
  have : (1 : ℚ) ≤ stdRound (dt * 1000000) := by exact_mod_cast hd1
  linarith

/-- C08: the grid never exceeds the end time, starts at the start time and strictly
increases until the end is reached. -/
theorem C08_monotone {t₀ dt tEnd : ℚ} (h : Sane t₀ dt tEnd) :
    gridTime t₀ dt tEnd 0 = micro t₀ ∧
    (∀ n, gridTime t₀ dt tEnd n ≤ micro tEnd) ∧
    (∀ n, gridTime t₀ dt tEnd n < micro tEnd →
      gridTime t₀ dt tEnd n < gridTime t₀ dt tEnd (n + 1)) ∧
    (∀ n, gridTime t₀ dt tEnd n = micro tEnd → gridTime t₀ dt tEnd (n + 1) = micro tEnd) := by
  have hd := micro_dt_pos h
  refine ⟨?_, fun n => min_le_right _ _, fun n hn => ?_, fun n hn => ?_⟩
  · unfold gridTime; rw [min_eq_left]
    · push_cast; ring
    · push_cast; linarith [h.order]
  · unfold gridTime at hn ⊢
    have h1 : micro t₀ + n * micro dt < micro tEnd := by
      rcases min_lt_iff.1 hn with h1 | h1
      · exact h1
      · exact absurd h1 (lt_irrefl _)
    rw [min_eq_left h1.le]
    apply lt_min
    · push_cast; linarith
    · exact h1
  · unfold gridTime at hn ⊢
    have h1 : micro tEnd ≤ micro t₀ + n * micro dt := by rw [← hn]; exact min_le_left _ _
    apply min_eq_right
    push_cast; linarith

/-- C08: the end time is reached exactly, after finitely many ticks that are all
within the range of `C08_times`. -/
theorem C08_reaches_end {t₀ dt tEnd : ℚ} (h : Sane t₀ dt tEnd) :
    ∃ n : Nat, n * micro dt ≤ 4 * 10 ^ 12 ∧ gridTime t₀ dt tEnd n = micro tEnd ∧
      ∀ m < n, gridTime t₀ dt tEnd m < micro tEnd := by
  have hd := micro_dt_pos h
  have hdpos : 0 < micro dt := by linarith
  have c1 := micro_close t₀
  have c2 := micro_close tEnd
  have c3 := micro_close dt
  have s1 := h.start
  have s2 := h.stop
  have s3 := h.step_le
  rw [abs_le] at c1 c2 c3 s1 s2
  have hq : 0 < (micro tEnd - micro t₀) / micro dt := div_pos (by linarith [h.order]) hdpos
  refine ⟨⌈(micro tEnd - micro t₀) / micro dt⌉₊, ?_, ?_, ?_⟩
  · have h1 := Nat.ceil_lt_add_one hq.le
    have h2 : (⌈(micro tEnd - micro t₀) / micro dt⌉₊ : ℚ) * micro dt ≤
        ((micro tEnd - micro t₀) / micro dt + 1) * micro dt :=
      mul_le_mul_of_nonneg_right h1.le hdpos.le
    have h3 : ((micro tEnd - micro t₀) / micro dt + 1) * micro dt =
        micro tEnd - micro t₀ + micro dt := by
      field_simp
    rw [h3] at h2
    linarith [c1.1, c1.2, c2.1, c2.2, c3.1, c3.2, s1.1, s1.2, s2.1, s2.2]
  · have h1 := Nat.le_ceil ((micro tEnd - micro t₀) / micro dt)
    rw [div_le_iff₀ hdpos] at h1
    unfold gridTime
    apply min_eq_right
    linarith
  · intro m hm
    have h1 := Nat.lt_ceil.1 hm
    rw [lt_div_iff₀ hdpos] at h1
    unfold gridTime
    apply lt_of_le_of_lt (min_le_left _ _)
    linarith

/-- C08: the timestep durations of the first `n` steps add up to the elapsed time;
at the end of the run (`C08_reaches_end`) this is the whole simulated span. -/
theorem C08_durations_sum {t₀ dt tEnd : ℚ} (h : Sane t₀ dt tEnd) (n : Nat) :
    ∑ k ∈ range n, (gridTime t₀ dt tEnd (k + 1) - gridTime t₀ dt tEnd k) =
      gridTime t₀ dt tEnd n - micro t₀ := by
  rw [Finset.sum_range_sub, (C08_monotone h).1]

theorem stalled (n e : Int) (he : 0 < e) :
    UClock.currentTime { dt := 0, reset := 0, stop := e, counter := n } = .ok 0 := by
  have h0 : toTicks (ofTicks 0) = .ok 0 := toTicks_ofTicks 0 (by norm_num)
  have hz : i64 0 = .ok 0 := i64_ok (by norm_num) (by norm_num)
  simp only [UClock.currentTime, UClock.present, zero_mul, bind, Except.bind, pure,
    Except.pure, hz, add_zero, h0]
  rw [if_neg (by omega)]
  simp [ofTicks]

/-- C08 needs the lower bound on the step: a positive step below half the
resolution is accepted by the constructor, but the clock never advances. -/
theorem C08_tiny_step_stalls :
    ∃ c, UClock.mk' 0 (1 / 10000000) 1 = .ok c ∧
      ∀ n : Nat, (n : Int) ≤ 10 ^ 18 → ∃ cn, c.ticks n = .ok cn ∧ cn.currentTime = .ok 0 := by
  have hround : stdRound (1 / 10000000 * 1000000) = 0 := by
    norm_num [stdRound]
  have hround1 : stdRound (1 * 1000000) = 1000000 := by
    have := stdRound_int 1000000
    norm_num at this ⊢; exact this
  have hround0 : stdRound (0 * 1000000) = 0 := by norm_num [stdRound]
  refine ⟨⟨0, 0, 1000000, 0⟩, ?_, ?_⟩
  · simp only [UClock.mk', toTicks, hround, hround1, hround0, bind, Except.bind, pure, Except.pure]
    norm_num
  · intro n hn
    exact ⟨_, ticks_ok rfl n (by omega), stalled n 1000000 (by norm_num)⟩

/-- The hypotheses are met by a usual setup: start −3.2, step 0.1, end 40 fm. -/
example : Sane (-16 / 5) (1 / 10) 40 := by
  refine ⟨?_, ?_, ?_, ?_, ?_⟩
  · rw [abs_le]; norm_num
  · rw [abs_le]; norm_num
  · norm_num
  · norm_num
  · have a := micro_close (-16 / 5)
    have b := micro_close 40
    rw [abs_le] at a b
    linarith [a.1, a.2, b.1, b.2]

/-! ## C09: overflow -/

/-- C09, part: `operator++` never has undefined behaviour; it either adds one or
throws. -/
theorem C09_tick_partial (c : UClock) :
    (c.tick = .ok { c with counter := c.counter + 1 } ∧ c.counter + 1 < i64max) ∨
      c.tick = .error .overflowError := by
  unfold UClock.tick
  split
  · exact .inr rfl
  · left; exact ⟨rfl, by omega⟩

/-- C09, part: advancing by a non-negative number of ticks either adds it exactly or
throws. Missing: the other operations, see the witnesses below. -/
theorem C09_advance_partial (c : UClock) (hc : -2 ^ 63 ≤ c.counter) (n : Int) (h0 : 0 ≤ n)
    (hn : n < 2 ^ 63) :
    (c.advance n = .ok { c with counter := c.counter + n } ∧ c.counter + n < i64max) ∨
      c.advance n = .error .overflowError := by
  unfold UClock.advance
  rw [i64_ok (by unfold i64max; omega) (by unfold i64max; omega)]
  simp only [bind, Except.bind]
  split
  · exact .inr rfl
  · rename_i hlt
    left
    rw [i64_ok (by omega) (by unfold i64max at hlt; omega)]
    exact ⟨rfl, by omega⟩

/-- C09, part: `next_time` either is exact or throws as long as the elapsed number of
ticks fits into 64 bits. -/
theorem C09_next_time_partial (c : UClock) (hd : 1 ≤ c.dt) (hd' : c.dt < 2 ^ 63)
    (hc : 0 ≤ c.counter) (hfit : c.counter * c.dt < 2 ^ 63) (hr : -2 ^ 63 ≤ c.reset)
    (hsum : c.reset + (c.counter + 1) * c.dt < 2 ^ 63) :
    c.nextTime = .ok (ofTicks (min (c.reset + (c.counter + 1) * c.dt) c.stop)) ∨
      c.nextTime = .error .overflowError := by
  have hp' : 0 ≤ c.counter * c.dt := mul_nonneg hc (by omega)
  have hcd : c.counter ≤ c.counter * c.dt := le_mul_of_one_le_right hc hd
  have he : (c.counter + 1) * c.dt = c.counter * c.dt + c.dt := by ring
  have he' : c.dt * (c.counter + 1) = c.counter * c.dt + c.dt := by ring
  unfold UClock.nextTime
  rw [i64_ok (by omega) (by omega)]
  simp only [bind, Except.bind, i64max]
  rw [i64_ok (by omega) (by omega)]
  simp only
  split
  · exact .inr rfl
  · left
    rw [i64_ok (by omega) (by omega)]
    simp only
    rw [i64_ok (by omega) (by omega)]
    simp only
    rw [i64_ok (by omega) (by omega)]
    simp only
    rw [he, ← he']
    split
    · rw [min_eq_right (by omega)]; rfl
    · rw [min_eq_left (by omega)]; rfl

/-- C09 is false for `next_time()`: the overflow test `counter_ * timestep_duration_
>= max - timestep_duration_` itself overflows. The state is reached by constructing a
clock with step 1 fm and advancing it by 2^62 ticks, which is accepted. -/
theorem C09_next_time_overflows :
    ∃ c c', UClock.mk' 0 1 40 = .ok c ∧ c.advance (2 ^ 62) = .ok c' ∧
      c'.nextTime = .error .ub ∧ c'.currentTime = .error .ub := by
  have r1 : stdRound (1 * 1000000) = 1000000 := by
    have := stdRound_int 1000000
    norm_num at this ⊢; exact this
  have r40 : stdRound (40 * 1000000) = 40000000 := by
    have := stdRound_int 40000000
    norm_num at this ⊢; exact this
  have r0 : stdRound (0 * 1000000) = 0 := by norm_num [stdRound]
  refine ⟨⟨1000000, 0, 40000000, 0⟩, ⟨1000000, 0, 40000000, 2 ^ 62⟩, ?_, by decide, ?_, ?_⟩
  · simp only [UClock.mk', toTicks, r0, r1, r40, bind, Except.bind, pure, Except.pure]
    norm_num
  · simp [UClock.nextTime, i64, bind, Except.bind]
  · simp [UClock.currentTime, UClock.present, i64, bind, Except.bind]

/-- C09 is false for `operator+=(double)`: the sum is not checked at all. -/
theorem C09_advance_by_overflows :
    ∃ c c', UClock.mk' 0 1 40 = .ok c ∧ c.advanceBy (5 * 10 ^ 12) = .ok c' ∧
      c'.advanceBy (5 * 10 ^ 12) = .error .ub := by
  have r1 : stdRound (1 * 1000000) = 1000000 := by
    have := stdRound_int 1000000
    norm_num at this ⊢; exact this
  have r40 : stdRound (40 * 1000000) = 40000000 := by
    have := stdRound_int 40000000
    norm_num at this ⊢; exact this
  have r0 : stdRound (0 * 1000000) = 0 := by norm_num [stdRound]
  have rbig : stdRound (5 * 10 ^ 12 * 1000000) = 5000000000000000000 := by
    have := stdRound_int 5000000000000000000
    norm_num at this ⊢; exact this
  refine ⟨⟨1000000, 0, 40000000, 0⟩, ⟨1000000, 5000000000000000000, 40000000, 0⟩, ?_, ?_, ?_⟩
  · simp only [UClock.mk', toTicks, r0, r1, r40, bind, Except.bind, pure, Except.pure]
    norm_num
  · simp only [UClock.advanceBy, toTicks, rbig, bind, Except.bind, pure, Except.pure, i64]
    norm_num
  · simp only [UClock.advanceBy, toTicks, rbig, bind, Except.bind, pure, Except.pure, i64]
    norm_num

/-- C09 is false for `operator+=` with a negative number: the guard overflows. -/
theorem C09_negative_advance_overflows (c : UClock) : c.advance (-1) = .error .ub := by
  simp [UClock.advance, i64, i64max, bind, Except.bind]

example : ∃ c : UClock, 1 ≤ c.dt ∧ c.dt < 2 ^ 63 ∧ 0 ≤ c.counter ∧ c.counter * c.dt < 2 ^ 63 ∧
    -2 ^ 63 ≤ c.reset ∧ c.reset + (c.counter + 1) * c.dt < 2 ^ 63 :=
  ⟨⟨100000, -3200000, 40000000, 77⟩, by decide⟩

/-! ## C10: custom output times -/

/-- C10: the clock holds the requested times in increasing order. -/
theorem C10_sorted (times : List ℚ) :
    (CClock.mk' times).times.Perm times ∧ (CClock.mk' times).times.Pairwise (· ≤ ·) := by
  refine ⟨List.mergeSort_perm _ _, ?_⟩
  have := List.pairwise_mergeSort (le := fun a b : ℚ => decide (a ≤ b))
    (fun a b c => by simp only [decide_eq_true_eq]; exact le_trans)
    (fun a b => by simp only [Bool.or_eq_true, decide_eq_true_eq]; exact le_total _ _) times
  simpa [CClock.mk'] using this

theorem ctick_ok {c : CClock} (h : c.counter < i64max - 1) :
    c.tick = .ok { c with counter := c.counter + 1 } := by
  unfold CClock.tick; rw [if_neg (by omega)]

theorem cticks_ok {c : CClock} (h0 : c.counter = -1) (n : Nat) :
    (n : Int) ≤ 2 ^ 62 → c.ticks n = .ok { c with counter := n - 1 } := by
  induction n with
  | zero => intro _; simp only [CClock.ticks]; cases c; simp_all
  | succ n ih =>
    intro hn
    have ih := ih (by omega)
    simp only [CClock.ticks, ih, bind, Except.bind]
    rw [ctick_ok (by simp only [i64max]; omega)]
    simp

/-- C10: set up as in `Experiment` (construct, drop past times, reset to the start
time), the clock shows the start time, then after `n+1` ticks the `n`-th smallest of
the requested times that are later than the start, and throws when there is none
left.  `nextTime` is always the time after the next tick. -/
theorem C10_visits_in_order (times : List ℚ) (start : ℚ) (n : Nat) (hn : (n : Int) < 2 ^ 62) :
    ∃ (l : List ℚ) (cn cn1 : CClock),
      (∃ c0, c0 = ((CClock.mk' times).removePast start).resetTo start ∧
        c0.ticks n = .ok cn ∧ c0.ticks (n + 1) = .ok cn1 ∧ c0.currentTime = .ok start) ∧
      l.Perm (times.filter (fun t => decide (start < t))) ∧ l.Pairwise (· ≤ ·) ∧
      cn.nextTime = cn1.currentTime ∧
      cn1.currentTime = (match l[n]? with | some t => .ok t | none => .error .outOfRange) := by
  have hs := C10_sorted times
  have hf : (fun t : ℚ => !(decide (t < start) || decide (t = start))) =
      fun t => decide (start < t) := by
    funext t
    by_cases h : start < t
    · simp [h, not_lt.2 h.le, ne_of_gt h]
    · rcases lt_or_eq_of_le (not_lt.1 h) with h1 | h1 <;> simp [h, h1]
  refine ⟨((CClock.mk' times).times).filter (fun t => decide (start < t)), _, _,
    ⟨_, rfl, cticks_ok rfl n (by omega), cticks_ok rfl (n + 1) (by push_cast; omega), ?_⟩,
    hs.1.filter _, hs.2.filter _, ?_, ?_⟩
  · simp [CClock.currentTime, CClock.resetTo]
  · have e : ((n + 1 : Nat) : Int) - 1 = n := by push_cast; omega
    rw [e]
    have h1 : ¬ ((n : Int) = -1) := by omega
    have h2 : ¬ ((n : Int) < -1) := by omega
    simp only [CClock.nextTime, CClock.currentTime, h1, h2, if_false]
    congr 1; omega
  · have e : ((n + 1 : Nat) : Int) - 1 = n := by push_cast; omega
    rw [e]
    have h1 : ¬ ((n : Int) = -1) := by omega
    have h2 : ¬ ((n : Int) < -1) := by omega
    simp only [CClock.currentTime, h1, h2, if_false, at', CClock.resetTo, CClock.removePast, hf,
      Int.toNat_natCast, show (0 : Int) ≤ n by omega, if_true]
    rfl

/-- Three output times given out of order, one of them in the past. -/
example : ((CClock.mk' [3, 1, 2]).removePast 1).times.Perm [3, 2] := by
  have := (List.mergeSort_perm [3, 1, 2] (fun a b : ℚ => decide (a ≤ b))).filter
    (fun t => !(decide (t < 1) || decide (t = 1)))
  have e : ([3, 1, 2] : List ℚ).filter (fun t => !(decide (t < 1) || decide (t = 1))) = [3, 2] := by
    norm_num [List.filter]
  rw [e] at this
  exact this

end Verif.Clock
