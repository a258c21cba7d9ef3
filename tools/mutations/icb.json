[
 {
  "file": "Icb/Model.lean",
  "def": "start",
  "old": "parts.sum, 0, 0, 0, 0, 0, 0⟩",
  "new": "0, 0, 0, 0, 0, 0, 0⟩",
  "edit": "initial energy not stored",
  "claim": "C186"
 },
 {
  "file": "Icb/Model.lean",
  "def": "check",
  "old": "some (a.out.sum - a.inc.sum)",
  "new": "some (a.inc.sum - a.out.sum)",
  "edit": "violation with the wrong sign",
  "claim": "C186"
 },
 {
  "file": "Icb/Model.lean",
  "def": "check",
  "old": "some (a.out.sum - a.inc.sum)",
  "new": "some 0",
  "edit": "violation of strings not returned",
  "claim": "C186"
 },
 {
  "file": "Icb/Model.lean",
  "def": "check",
  "old": "      | _ => none",
  "new": "      | _ => some 0",
  "edit": "violations of other processes accepted",
  "claim": "C186"
 },
 {
  "file": "Icb/Model.lean",
  "def": "check",
  "old": "if a.out = 0 then some 0 else none",
  "new": "some 0",
  "edit": "removal not checked",
  "claim": "C186"
 },
 {
  "file": "Icb/Model.lean",
  "def": "perform",
  "old": "violated := s.violated + v",
  "new": "violated := v",
  "edit": "violations not summed",
  "claim": "C186"
 },
 {
  "file": "Icb/Model.lean",
  "def": "perform",
  "old": "parts := s.parts - a.inc + a.out",
  "new": "parts := s.parts + a.out",
  "edit": "incoming particles kept",
  "claim": "C186"
 },
 {
  "file": "Icb/Model.lean",
  "def": "perform",
  "old": "removed := s.removed + a.inc.sum",
  "new": "removed := s.removed + a.out.sum",
  "edit": "energy of outgoing particles booked as removed",
  "claim": "C186"
 },
 {
  "file": "Icb/Model.lean",
  "def": "perform",
  "old": "total := s.total + 1",
  "new": "total := s.total",
  "edit": "interactions not counted",
  "claim": "C186"
 },
 {
  "file": "Icb/Model.lean",
  "def": "perform",
  "old": "if a.kind = .wall then { s with walls := s.walls + 1 } else s",
  "new": "{ s with walls := s.walls + 1 }",
  "edit": "every action counted as a wall crossing",
  "claim": "C186"
 },
 {
  "file": "Icb/Model.lean",
  "def": "perform",
  "old": "discarded := s.discarded + 1",
  "new": "total := s.total + 1",
  "edit": "invalid actions counted as performed",
  "claim": "C186"
 },
 {
  "file": "Icb/Model.lean",
  "def": "deviates",
  "old": "reallySmall < |x / y - 1|",
  "new": "reallySmall < x / y - 1",
  "edit": "deviation in one direction only",
  "claim": "C186"
 },
 {
  "file": "Icb/Model.lean",
  "def": "deviates",
  "old": "decide (x ≠ 0)",
  "new": "false",
  "edit": "energy without removal accepted",
  "claim": "C186"
 },
 {
  "file": "Icb/Model.lean",
  "def": "report",
  "old": "ic ∧ s.parts.card = 0",
  "new": "s.parts.card = 0",
  "edit": "check in all runs",
  "claim": "C186"
 },
 {
  "file": "Icb/Model.lean",
  "def": "report",
  "old": "s.initial + s.violated",
  "new": "s.initial",
  "edit": "violations left out of the check",
  "claim": "C186"
 },
 {
  "file": "Icb/Model.lean",
  "def": "percent",
  "old": "* 100 /",
  "new": "/",
  "edit": "share instead of percentage",
  "claim": "C186"
 },
 {
  "file": "Icb/Model.lean",
  "def": "report",
  "old": "1 < percent s",
  "new": "1 ≤ percent s",
  "edit": "warning at exactly one percent",
  "claim": "C186"
 },
 {
  "file": "Icb/Model.lean",
  "def": "unformed",
  "old": "if endTime < t then n + 1 else n",
  "new": "if endTime ≤ t then n + 1 else n",
  "edit": "particles formed at the end counted",
  "claim": "C186"
 },
 {
  "file": "Icb/Model.lean",
  "def": "unformed",
  "old": "ps.foldl (fun n t => if endTime < t then n + 1 else n) n)",
  "new": "ps.foldl (fun n t => if endTime < t then n + 1 else n) 0)",
  "edit": "only the last ensemble counted",
  "claim": "C186"
 },
 {
  "file": "Icb/Model.lean",
  "def": "perform",
  "old": "{ s with walls := s.walls + 1 } else s",
  "new": "s else s",
  "edit": "wall crossings not counted",
  "claim": "C186",
  "tightened": [
   "C186_counters"
  ]
 },
 {
  "file": "Icb/Model.lean",
  "def": "perform",
  "old": "crossings := s.crossings + 1, removed",
  "new": "removed",
  "edit": "removals not counted",
  "claim": "C186",
  "tightened": [
   "C186_counters"
  ]
 },
 {
  "file": "Icb/Model.lean",
  "def": "perform",
  "old": "if a.inc ≤ s.parts then (if",
  "new": "if a.kind ≠ .other ∨ a.inc ≤ s.parts then (if",
  "edit": "validity checked only for some actions",
  "claim": "C186"
 }
]