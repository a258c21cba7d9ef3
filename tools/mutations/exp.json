[
 {
  "file": "Exp/Model.lean",
  "def": "timestepless",
  "old": "      if t > tEnd then .ok { σ with parts := propagate E tEnd σ.parts }",
  "new": "      if t ≥ tEnd then .ok { σ with parts := propagate E tEnd σ.parts }",
  "edit": "stop already at actions exactly at the end",
  "claim": "actions at the end time are executed in this interval (queue afterwards strictly later)"
 },
 {
  "file": "Exp/Model.lean",
  "def": "timestepless",
  "old": "          if !actValid σ.parts a then",
  "new": "          if false then",
  "edit": "validity check dropped",
  "claim": "C46: only valid actions are executed"
 },
 {
  "file": "Exp/Model.lean",
  "def": "timestepless",
  "old": "            let s := propagate E a.time σ.parts\n",
  "new": "            let s := σ.parts\n",
  "edit": "particles not propagated to the action",
  "claim": "C46: all particles at the time of the action"
 },
 {
  "file": "Exp/Model.lean",
  "def": "timestepless",
  "old": "            let a' := updateIncoming s a\n",
  "new": "            let a' := a\n",
  "edit": "incoming particles not updated",
  "claim": "C46: the action uses the current incoming particles"
 },
 {
  "file": "Exp/Model.lean",
  "def": "timestepless",
  "old": "                { parts := s', queue := insertList Act.time H q new, world := w',",
  "new": "                { parts := s', queue := q ++ new, world := w',",
  "edit": "new actions appended without restoring the heap",
  "claim": "C46 time order"
 },
 {
  "file": "Exp/Model.lean",
  "def": "timestepless",
  "old": "                { parts := s', queue := insertList Act.time H q new, world := w',",
  "new": "                { parts := s', queue := q, world := w',",
  "edit": "new actions dropped",
  "claim": "C46: every found action is accounted for"
 },
 {
  "file": "Exp/Model.lean",
  "def": "timestepless",
  "old": "    | none => .ok { σ with parts := propagate E tEnd σ.parts }\n    | some t =>",
  "new": "    | none => .ok σ\n    | some t =>",
  "edit": "no final propagation when the queue is empty",
  "claim": "C46: all particles at the end"
 },
 {
  "file": "Exp/Model.lean",
  "def": "propagate",
  "old": "      if i < s.size ∧ (s.data i).hole = false then\n",
  "new": "      if i + 1 < s.size ∧ (s.data i).hole = false then\n",
  "edit": "last particle not propagated",
  "claim": "C46"
 },
 {
  "file": "Exp/Model.lean",
  "def": "updateIncoming",
  "old": "{ a with incoming := a.incoming.map fun p => s.data p.index }",
  "new": "{ a with incoming := a.incoming.map fun p => s.data (p.index + 1) }",
  "edit": "wrong slot looked up",
  "claim": "C46: incoming as in the list"
 },
 {
  "file": "Exp/Model.lean",
  "def": "actValid",
  "old": "a.incoming.all (isValid s)",
  "new": "a.incoming.any (isValid s)",
  "edit": "any instead of all incoming valid",
  "claim": "C46 validity"
 },
 {
  "file": "Exp/Model.lean",
  "def": "timestep",
  "old": "{ σ with queue := insertList Act.time H [] new, world := w } with",
  "new": "{ σ with queue := insertList Act.time H σ.queue new, world := w } with",
  "edit": "queue not cleared at the start of a timestep",
  "claim": "C46 (old queue is not ordered with respect to the search)"
 },
 {
  "file": "Exp/Model.lean",
  "def": "runTo",
  "old": "    match timestepless E H stepEnd t fuel σ with",
  "new": "    match timestepless E H stepEnd stepEnd fuel σ with",
  "edit": "propagated to the end of the step instead of the output time",
  "claim": "C46: particles at the output time"
 },
 {
  "file": "Exp/Model.lean",
  "def": "outputLoop",
  "old": "    if t < stepEnd then\n      let o' ←",
  "new": "    if t ≤ stepEnd then\n      let o' ←",
  "edit": "output also at the end of the step",
  "claim": "C47: no intermediate output at the end time"
 },
 {
  "file": "Exp/Model.lean",
  "def": "outputLoop",
  "old": "      let label ← lift o'.currentTime",
  "new": "      let label ← lift o.currentTime",
  "edit": "label taken before advancing the clock",
  "claim": "C47: label is the time evolved to"
 },
 {
  "file": "Exp/Model.lean",
  "def": "outputLoop",
  "old": "return (o'', .evolveTo t :: .output label :: evs)",
  "new": "return (o'', .output label :: .evolveTo t :: evs)",
  "edit": "output before evolving",
  "claim": "C47: output after evolving to its time"
 },
 {
  "file": "Exp/Model.lean",
  "def": "outputLoop",
  "old": "return (o'', .evolveTo t :: .output label :: evs)",
  "new": "return (o'', .evolveTo t :: evs)",
  "edit": "output not written",
  "claim": "C47"
 },
 {
  "file": "Exp/Model.lean",
  "def": "labLoop",
  "old": "    let t ← lift lab.present\n    if t < tEnd then",
  "new": "    let t ← lift lab.present\n    if t ≤ tEnd then",
  "edit": "one timestep too many",
  "claim": "C47: nothing (a zero-length step); possibly caught by the fuel argument"
 },
 {
  "file": "Exp/Model.lean",
  "def": "labLoop",
  "old": "return (lab, o, evs ++ .evolveTo stepEnd :: evs')",
  "new": "return (lab, o, evs ++ evs')",
  "edit": "no evolution to the end of the timestep",
  "claim": "C47: evolves to the end"
 },
 {
  "file": "Exp/Model.lean",
  "def": "labLoop",
  "old": "      let stepEnd ← lift lab.nextTime\n      let (o, evs)",
  "new": "      let stepEnd ← lift lab.present\n      let (o, evs)",
  "edit": "end of the step is the present time",
  "claim": "C47"
 },
 {
  "file": "Exp/Model.lean",
  "def": "runTimeEvolution",
  "old": "    let o ← lift o.tick\n    return (lab, o, evs)",
  "new": "    return (lab, o, evs)",
  "edit": "output clock not advanced at the end",
  "claim": "C47: final label"
 },
 {
  "file": "Exp/Model.lean",
  "def": "startClocks",
  "old": "    let c ← lift (c.resetTo start true)",
  "new": "    let c ← lift (c.resetTo start false)",
  "edit": "output clock reset to the start itself",
  "claim": "C47: output at multiples of the interval"
 },
 {
  "file": "Exp/Model.lean",
  "def": "startClocks",
  "old": ".custom ((c.resetTo start).removePast start))",
  "new": ".custom (c.resetTo start))",
  "edit": "times in the past not removed",
  "claim": "C47: no output before the start"
 },
 {
  "file": "Exp/Model.lean",
  "def": "outputClock",
  "old": "(times ++ [endTime + 1])))",
  "new": "times))",
  "edit": "no time after the end appended",
  "claim": "C47: the run finishes"
 },
 {
  "file": "Exp/Model.lean",
  "def": "outputClock",
  "old": "    let c ← lift (Clock.UClock.mk' 0 dt endTime)\n    return .uniform c",
  "new": "    let c ← lift (Clock.UClock.mk' 0 dt (endTime + 1))\n    return .uniform c",
  "edit": "output clock ends later",
  "claim": "C47: final label is the end"
 },
 {
  "file": "Exp/Model.lean",
  "def": "performAction",
  "old": "    ({ c with total := c.total + 1, wall := c.wall + 1 }, some ((c.total + 1) % 2 ^ 32))",
  "new": "    ({ c with total := c.total + 1 }, some ((c.total + 1) % 2 ^ 32))",
  "edit": "wall crossings not counted",
  "claim": "C49 interval numbers"
 },
 {
  "file": "Exp/Model.lean",
  "def": "performAction",
  "old": "  | .performedOther => ({ c with total := c.total + 1 }, some ((c.total + 1) % 2 ^ 32))",
  "new": "  | .performedOther => ({ c with total := c.total + 1 }, some (c.total % 2 ^ 32))",
  "edit": "id before incrementing, starts at 0",
  "claim": "C49 ids"
 },
 {
  "file": "Exp/Model.lean",
  "def": "performAction",
  "old": "  | .pauliBlocked => ({ c with blocked := c.blocked + 1 }, none)",
  "new": "  | .pauliBlocked => ({ c with blocked := c.blocked + 1, total := c.total + 1 }, none)",
  "edit": "blocked actions counted as performed",
  "claim": "C49"
 },
 {
  "file": "Exp/Model.lean",
  "def": "intermediate",
  "old": "({ c with prevWall := c.wall, prevTotal := c.total }, n)",
  "new": "({ c with prevTotal := c.total }, n)",
  "edit": "previous wall count not updated",
  "claim": "C49 interval numbers"
 },
 {
  "file": "Exp/Model.lean",
  "def": "intermediate",
  "old": "  let n := sub64 (sub64 c.total c.prevTotal) wallNow",
  "new": "  let n := sub64 c.total c.prevTotal",
  "edit": "wall crossings included",
  "claim": "C49"
 },
 {
  "file": "Exp/Model.lean",
  "def": "final",
  "old": "  sub64 (sub64 c.total c.prevTotal) (sub64 c.wall c.prevWall)",
  "new": "  sub64 c.total c.wall",
  "edit": "total instead of interval at the end",
  "claim": "C49"
 },
 {
  "file": "Exp/Model.lean",
  "def": "Tally.call",
  "old": "    if r.performed && decide (c.total ≥ 2 ^ 32 - 1) then none",
  "new": "    if r.performed && decide (c.total ≥ 2 ^ 32) then none",
  "edit": "guard one late",
  "claim": "C49 guard: fewer than 2^32-1"
 },
 {
  "file": "Exp/Model.lean",
  "def": "isFinished",
  "old": "  | .fixed n => decide (event ≥ n)",
  "new": "  | .fixed n => decide (event > n)",
  "edit": "one event too many",
  "claim": "C48"
 },
 {
  "file": "Exp/Model.lean",
  "def": "isFinished",
  "old": "decide (nonempty ≥ n) || decide (event ≥ m)",
  "new": "decide (nonempty ≥ n) && decide (event ≥ m)",
  "edit": "both conditions needed",
  "claim": "C48"
 },
 {
  "file": "Exp/Model.lean",
  "def": "isFinished",
  "old": "decide (nonempty ≥ n) || decide (event ≥ m)",
  "new": "decide (nonempty > n) || decide (event ≥ m)",
  "edit": "one non-empty ensemble too many",
  "claim": "C48"
 },
 {
  "file": "Exp/Model.lean",
  "def": "countNonempty",
  "old": "if b then n + 1 else n",
  "new": "if b then n else n + 1",
  "edit": "empty ensembles counted",
  "claim": "C48"
 },
 {
  "file": "Exp/Model.lean",
  "def": "countNonempty",
  "old": "hit.foldl (fun n b => if b then n + 1 else n) nonempty",
  "new": "if hit.any id then nonempty + 1 else nonempty",
  "edit": "events counted instead of ensembles",
  "claim": "C48"
 },
 {
  "file": "Exp/Model.lean",
  "def": "maxEvents",
  "old": "⌈(maxEnsembles : ℚ) / nEnsembles⌉",
  "new": "⌊(maxEnsembles : ℚ) / nEnsembles⌋",
  "edit": "rounded down",
  "claim": "C48 limit"
 },
 {
  "file": "Exp/Model.lean",
  "def": "run",
  "old": "(event + 1) (countNonempty nonempty (outcome event)) (done ++ [event])",
  "new": "(event + 1) (countNonempty 0 (outcome event)) (done ++ [event])",
  "edit": "non-empty count restarted in every event",
  "claim": "C48"
 },
 {
  "file": "Exp/Model.lean",
  "def": "propagationMomentum",
  "old": "if h : id < table.length ∧ collisions = 0 then",
  "new": "if h : id < table.length then",
  "edit": "collided nucleons keep the beam momentum",
  "claim": "C50"
 },
 {
  "file": "Exp/Model.lean",
  "def": "addBeam",
  "old": "table ++ new",
  "new": "new ++ table",
  "edit": "new momenta prepended",
  "claim": "C50 (the current event would be first): the negative theorem fails"
 }
]