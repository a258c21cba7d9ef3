[
 {
  "file": "Actions/Model.lean",
  "def": "cmp",
  "old": "decide (time b < time a)",
  "new": "decide (time a < time b)",
  "edit": "comparison reversed (max-heap)",
  "claim": "C07 pop returns the earliest action"
 },
 {
  "file": "Actions/Model.lean",
  "def": "insertList",
  "old": "l.foldl (insert time H) s",
  "new": "l.foldl (fun s a => s ++ [a]) s",
  "edit": "insert(list) appends without push_heap",
  "claim": "C07"
 },
 {
  "file": "Actions/Model.lean",
  "def": "pop",
  "old": "| some a => some (a, d.dropLast)",
  "new": "| some a => some (a, d)",
  "edit": "pop forgets pop_back",
  "claim": "C07 nothing duplicated"
 },
 {
  "file": "Actions/Model.lean",
  "def": "pop",
  "old": "    let d := H.popHeap s\n",
  "new": "    let d := s\n",
  "edit": "pop without pop_heap",
  "claim": "C07"
 },
 {
  "file": "Actions/Model.lean",
  "def": "earliestTime",
  "old": "s.head?.map time",
  "new": "s.getLast?.map time",
  "edit": "earliest_time reads the back",
  "claim": "C07 earliest_time"
 },
 {
  "file": "Actions/Model.lean",
  "def": "construct",
  "old": "H.makeHeap l",
  "new": "l",
  "edit": "constructor without make_heap",
  "claim": "C07"
 }
]