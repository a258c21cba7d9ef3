[
 {
  "file": "Files/Model.lean",
  "def": "lockStep",
  "old": "if w.file p then some (w, .returned false)",
  "new": "if false then some (w, .returned false)",
  "edit": "O_EXCL forgotten",
  "claim": "C25 exclusive"
 },
 {
  "file": "Files/Model.lean",
  "def": "lockStep",
  "old": "| some ⟨p, .fresh⟩ => some (setObj w o ⟨p, .gone⟩, .none)",
  "new": "| some ⟨p, .fresh⟩ => some (setObj (setFile w p false) o ⟨p, .gone⟩, .none)",
  "edit": "destructor removes the file although not acquired",
  "claim": "C25 never stolen"
 },
 {
  "file": "Files/Model.lean",
  "def": "lockStep",
  "old": "| some ⟨p, .acquired⟩ => some (setObj (setFile w p false) o ⟨p, .gone⟩, .none)",
  "new": "| some ⟨p, .acquired⟩ => some (setObj w o ⟨p, .gone⟩, .none)",
  "edit": "destructor keeps the file",
  "claim": "C25 owner removes"
 },
 {
  "file": "Files/Model.lean",
  "def": "lockStep",
  "old": "some (setObj w o ⟨p, .acquired⟩, if closeOk then .returned true else .threw)",
  "new": "some (setObj w o ⟨p, if closeOk then .acquired else .fresh⟩, if closeOk then .returned true else .threw)",
  "edit": "acquired_ set only after a successful close",
  "claim": "C25 result"
 },
 {
  "file": "Files/Model.lean",
  "def": "lockStep",
  "old": "else some (setObj (setFile w p true) o ⟨p, .opened⟩, .none)",
  "new": "else some (setObj w o ⟨p, .opened⟩, .none)",
  "edit": "file not created",
  "claim": "C25 exclusive"
 },
 {
  "file": "Files/Model.lean",
  "def": "renStep",
  "old": "if exc = w.excAtCtor then",
  "new": "if True then",
  "edit": "renamed also when unwinding",
  "claim": "C26 destructor"
 },
 {
  "file": "Files/Model.lean",
  "def": "renStep",
  "old": "some { w with fs := Function.update w.fs (unfinished p) (some []), pc := .open_,",
  "new": "some { w with fs := Function.update w.fs p (some []), pc := .open_,",
  "edit": "opened under the final name",
  "claim": "C26 crash points"
 },
 {
  "file": "Files/Model.lean",
  "def": "unfinished",
  "old": "p ++ \".unfinished\".toList",
  "new": "p",
  "edit": "no suffix",
  "claim": "C26"
 },
 {
  "file": "Files/Model.lean",
  "def": "renStep",
  "old": "some { w with fs := appendTo w.fs (unfinished p) w.buffered, buffered := [],\n                               pc := .closed }",
  "new": "some { w with buffered := [], pc := .closed }",
  "edit": "closed without flushing",
  "claim": "C26 complete"
 }
]