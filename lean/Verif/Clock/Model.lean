import Mathlib.Data.Rat.Floor
import Mathlib.Tactic.Linarith
/-
Model of the simulation clocks, /repo/src/include/smash/clock.h.
Real times (`double`) are exact rationals; tick counters are 64-bit integers
whose overflow is the outcome `ub`.
-/
namespace Verif.Clock

/-- Outcomes other than a value: undefined behaviour (signed overflow) and the
exceptions. -/
inductive Err where
  | ub | rangeError | overflowError | badCast | runtimeError | outOfRange
  deriving DecidableEq, Repr

/-- Signed 64-bit arithmetic (`Representation`, clock.h:90). -/
def i64 (x : Int) : Except Err Int :=
  if -2 ^ 63 ≤ x ∧ x < 2 ^ 63 then .ok x else .error .ub

/-- `std::numeric_limits<Representation>::max()`. -/
def i64max : Int := 2 ^ 63 - 1

/-- `std::round`: nearest integer, halves away from zero. -/
def stdRound (x : ℚ) : Int := if 0 ≤ x then ⌊x + 1 / 2⌋ else -⌊-x + 1 / 2⌋

/-- `UniformClock::convert(double)`, clock.h:390-392, resolution clock.h:223. A
value that does not fit makes `numeric_cast` throw. -/
def toTicks (x : ℚ) : Except Err Int :=
  if -2 ^ 63 ≤ stdRound (x * 1000000) ∧ stdRound (x * 1000000) < 2 ^ 63 then
    .ok (stdRound (x * 1000000)) else .error .badCast

/-- `UniformClock::convert(Representation)`, clock.h:394. -/
def ofTicks (n : Int) : ℚ := n / 1000000

/-- Members of `UniformClock` in ticks, clock.h:397-401 and :186. -/
structure UClock where
  dt : Int
  reset : Int
  stop : Int
  counter : Int
  deriving DecidableEq, Repr

/-- Constructor, clock.h:235-249. -/
def UClock.mk' (time dt timeEnd : ℚ) : Except Err UClock := do
  let d ← toTicks dt
  let r ← toTicks time
  let e ← toTicks timeEnd
  if dt ≤ 0 then .error .rangeError
  else if r ≥ e then .error .rangeError
  else return { dt := d, reset := r, stop := e, counter := 0 }

/-- `present_internal_time`, clock.h:379-381. -/
def UClock.present (c : UClock) : Except Err ℚ := do
  let p ← i64 (c.dt * c.counter)
  let t ← i64 (c.reset + p)
  return ofTicks t

/-- `current_time`, clock.h:253-261. -/
def UClock.currentTime (c : UClock) : Except Err ℚ := do
  let t ← c.present
  let n ← toTicks t
  if n > c.stop then return ofTicks c.stop else return t

/-- `next_time`, clock.h:270-281. -/
def UClock.nextTime (c : UClock) : Except Err ℚ := do
  let p ← i64 (c.counter * c.dt)
  let lim ← i64 (i64max - c.dt)
  if p ≥ lim then .error .overflowError
  else
    let k ← i64 (c.counter + 1)
    let q ← i64 (c.dt * k)
    let t ← i64 (c.reset + q)
    if t > c.stop then return ofTicks c.stop else return ofTicks t

/-- `timestep_duration`, clock.h:289-300. -/
def UClock.timestepDuration (c : UClock) : Except Err ℚ := do
  let t ← c.present
  let n ← toTicks t
  if n > c.stop then return 0
  else
    let m ← i64 (n + c.dt)
    if m > c.stop then
      let r ← i64 (c.stop - n)
      return ofTicks r
    else return ofTicks c.dt

/-- `operator++`, clock.h:119-126. -/
def UClock.tick (c : UClock) : Except Err UClock :=
  if c.counter ≥ i64max - 1 then .error .overflowError
  else .ok { c with counter := c.counter + 1 }

/-- `operator+=(Representation)`, clock.h:364-371 (and :136-143). -/
def UClock.advance (c : UClock) (n : Int) : Except Err UClock := do
  let lim ← i64 (i64max - n)
  if c.counter ≥ lim then .error .overflowError
  else
    let k ← i64 (c.counter + n)
    return { c with counter := k }

/-- `operator+=(double)`, clock.h:349-355. -/
def UClock.advanceBy (c : UClock) (x : ℚ) : Except Err UClock := do
  if x < 0 then .error .rangeError
  else
    let n ← toTicks x
    let r ← i64 (c.reset + n)
    return { c with reset := r }

/-- `reset`, clock.h:321-335. The debug message also evaluates `current_time()`. -/
def UClock.resetTo (c : UClock) (start : ℚ) (isOutputClock : Bool) : Except Err UClock := do
  let t : ℚ := if isOutputClock then ⌊start / ofTicks c.dt⌋ * ofTicks c.dt else start
  let _ ← c.currentTime
  let r ← toTicks t
  return { c with reset := r, counter := 0 }

/-- `n` times `operator++`. -/
def UClock.ticks (c : UClock) : Nat → Except Err UClock
  | 0 => .ok c
  | n + 1 => do
    let c ← c.ticks n
    c.tick

/-- Members of `CustomClock`, clock.h:498-500 and :186. -/
structure CClock where
  times : List ℚ
  start : ℚ
  counter : Int

/-- Constructor, clock.h:412-415 (`std::sort`). -/
def CClock.mk' (times : List ℚ) : CClock :=
  { times := times.mergeSort (fun a b => decide (a ≤ b)), start := 0, counter := -1 }

/-- `std::vector::at` with a signed 64-bit argument converted to `size_t`. -/
def at' (l : List ℚ) (i : Int) : Except Err ℚ :=
  if 0 ≤ i then
    match l[i.toNat]? with
    | some x => .ok x
    | none => .error .outOfRange
  else .error .outOfRange

/-- `current_time`, clock.h:423-433. -/
def CClock.currentTime (c : CClock) : Except Err ℚ :=
  if c.counter = -1 then .ok c.start
  else if c.counter < -1 then .error .runtimeError
  else at' c.times c.counter

/-- `next_time`, clock.h:439. -/
def CClock.nextTime (c : CClock) : Except Err ℚ := at' c.times (c.counter + 1)

/-- `timestep_duration`, clock.h:442-444. -/
def CClock.timestepDuration (c : CClock) : Except Err ℚ := do
  let b ← c.nextTime
  let a ← c.currentTime
  return b - a

/-- `reset`, clock.h:453-456. -/
def CClock.resetTo (c : CClock) (start : ℚ) : CClock :=
  { c with counter := -1, start := start }

/-- `remove_times_in_past`, clock.h:463-485. -/
def CClock.removePast (c : CClock) (start : ℚ) : CClock :=
  { c with times := c.times.filter (fun t => !(decide (t < start) || decide (t = start))) }

/-- `operator++`, clock.h:119-126. -/
def CClock.tick (c : CClock) : Except Err CClock :=
  if c.counter ≥ i64max - 1 then .error .overflowError
  else .ok { c with counter := c.counter + 1 }

/-- `n` times `operator++`. -/
def CClock.ticks (c : CClock) : Nat → Except Err CClock
  | 0 => .ok c
  | n + 1 => do
    let c ← c.ticks n
    c.tick

end Verif.Clock
