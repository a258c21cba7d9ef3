[
 {
  "file": "Log/Model.lean",
  "def": "getLevel",
  "old": "if s = \"WARN\" then some .warn",
  "new": "if s = \"WARN\" then some .info",
  "edit": "wrong level",
  "claim": "C180"
 },
 {
  "file": "Log/Model.lean",
  "def": "getLevel",
  "old": "  else none",
  "new": "  else some .all",
  "edit": "unknown levels accepted",
  "claim": "C180"
 },
 {
  "file": "Log/Model.lean",
  "def": "levelString",
  "old": "\" INFO\"",
  "new": "\"INFO\"",
  "edit": "no blank (part of the finding disappears)",
  "claim": "C180"
 },
 {
  "file": "Log/Model.lean",
  "def": "isEnabled",
  "old": "verbosity.num ≤ message.num",
  "new": "verbosity.num < message.num",
  "edit": "messages of the level itself suppressed",
  "claim": "C180"
 },
 {
  "file": "Log/Model.lean",
  "def": "isEnabled",
  "old": "message == .debug || message == .trace",
  "new": "message == .debug",
  "edit": "trace messages in a release",
  "claim": "C180"
 },
 {
  "file": "Log/Model.lean",
  "def": "isEnabled",
  "old": "if release && ",
  "new": "if !release && ",
  "edit": "debug messages suppressed in debug builds",
  "claim": "C180"
 },
 {
  "file": "Log/Model.lean",
  "def": "areas",
  "old": "\"Pythia\", \"GrandcanThermalizer\"",
  "new": "\"GrandcanThermalizer\"",
  "edit": "area forgotten",
  "claim": "C180"
 },
 {
  "file": "Log/Model.lean",
  "def": "logKeys",
  "old": "\"Tmn\"]",
  "new": "\"Tnm\"]",
  "edit": "misspelt key",
  "claim": "C180"
 },
 {
  "file": "Log/Model.lean",
  "def": "take",
  "old": "cfg.filter fun e => !(e.1 == key)",
  "new": "cfg",
  "edit": "key not removed",
  "claim": "C180"
 },
 {
  "file": "Log/Model.lean",
  "def": "take",
  "old": "| none => .error .badLevel",
  "new": "| none => .ok (dflt, cfg)",
  "edit": "invalid level ignored",
  "claim": "C180"
 },
 {
  "file": "Log/Model.lean",
  "def": "longest",
  "old": "longest len index (mid + 1) > longest len mid stop then",
  "new": "longest len index (mid + 1) < longest len mid stop then",
  "edit": "shortest name",
  "claim": "C180"
 },
 {
  "file": "Log/Model.lean",
  "def": "create",
  "old": "(⟨name, l⟩ :: acc)",
  "new": "(⟨lit a, l⟩ :: acc)",
  "edit": "name not padded",
  "claim": "C180"
 },
 {
  "file": "Log/Model.lean",
  "def": "create",
  "old": "create width dflt as cfg' (",
  "new": "create width l as cfg' (",
  "edit": "level of the last area used as default",
  "claim": "C180"
 },
 {
  "file": "Log/Model.lean",
  "def": "create",
  "old": "(⟨name, l⟩ :: acc)",
  "new": "(acc ++ [⟨name, l⟩])",
  "edit": "loggers in reverse order",
  "claim": "C180"
 },
 {
  "file": "Log/Model.lean",
  "def": "create",
  "old": "take cfg a dflt",
  "new": "take cfg a .all",
  "edit": "default level ignored",
  "claim": "C180"
 },
 {
  "file": "Log/Model.lean",
  "def": "setup",
  "old": "take cfg \"default\" .all",
  "new": "take cfg \"default\" .info",
  "edit": "wrong default",
  "claim": "C180"
 },
 {
  "file": "Log/Model.lean",
  "def": "setup",
  "old": "(areas.length - 1) 0",
  "new": "(areas.length - 1) 28",
  "edit": "longest of the last names only",
  "claim": "C180"
 }
]