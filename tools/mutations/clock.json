[
 {
  "file": "Clock/Model.lean",
  "def": "UClock.currentTime",
  "old": "if n > c.stop then return ofTicks c.stop else return t",
  "new": "return t",
  "edit": "current_time not capped at the end",
  "claim": "C08 never exceeds the end"
 },
 {
  "file": "Clock/Model.lean",
  "def": "UClock.timestepDuration",
  "old": "    if m > c.stop then\n      let r ← i64 (c.stop - n)\n      return ofTicks r\n    else return ofTicks c.dt",
  "new": "    return ofTicks c.dt",
  "edit": "last timestep not shortened",
  "claim": "C08 durations add up"
 },
 {
  "file": "Clock/Model.lean",
  "def": "UClock.timestepDuration",
  "old": "let r ← i64 (c.stop - n)",
  "new": "let r ← i64 (c.stop - c.reset)",
  "edit": "wrong start in last duration",
  "claim": "C08 durations"
 },
 {
  "file": "Clock/Model.lean",
  "def": "UClock.nextTime",
  "old": "let k ← i64 (c.counter + 1)",
  "new": "let k ← i64 c.counter",
  "edit": "next_time returns the current time",
  "claim": "C08 next_time"
 },
 {
  "file": "Clock/Model.lean",
  "def": "UClock.tick",
  "old": "if c.counter ≥ i64max - 1 then .error .overflowError\n  else .ok { c with counter := c.counter + 1 }\n\n/-- `operator+=(Rep",
  "new": "if c.counter ≥ i64max + 5 then .error .overflowError\n  else .ok { c with counter := c.counter + 1 }\n\n/-- `operator+=(Rep",
  "edit": "overflow guard of ++ beyond the range",
  "claim": "C09"
 },
 {
  "file": "Clock/Model.lean",
  "def": "UClock.advance",
  "old": "let lim ← i64 (i64max - n)",
  "new": "let lim ← i64 i64max",
  "edit": "guard of += ignores n",
  "claim": "C09"
 },
 {
  "file": "Clock/Model.lean",
  "def": "stdRound",
  "old": "⌊x + 1 / 2⌋ else",
  "new": "⌊x⌋ else",
  "edit": "truncation instead of rounding",
  "claim": "C08 time grid (rounding to the resolution)"
 },
 {
  "file": "Clock/Model.lean",
  "def": "CClock.mk'",
  "old": "times.mergeSort (fun a b => decide (a ≤ b))",
  "new": "times",
  "edit": "constructor does not sort",
  "claim": "C10"
 },
 {
  "file": "Clock/Model.lean",
  "def": "CClock.removePast",
  "old": "!(decide (t < start) || decide (t = start))",
  "new": "!(decide (t < start))",
  "edit": "keeps the start time",
  "claim": "C10 not at the start time"
 },
 {
  "file": "Clock/Model.lean",
  "def": "CClock.currentTime",
  "old": "else at' c.times c.counter",
  "new": "else at' c.times (c.counter + 1)",
  "edit": "off by one",
  "claim": "C10"
 },
 {
  "file": "Clock/Model.lean",
  "def": "CClock.resetTo",
  "old": "{ c with counter := -1, start := start }",
  "new": "{ c with counter := 0, start := start }",
  "edit": "reset to counter 0 skips the first time",
  "claim": "C10"
 }
]