[
 {
  "file": "Riv/Model.lean",
  "def": "unfinished",
  "old": "fileName name type ++ \".unfinished\".toList",
  "new": "fileName name type",
  "edit": "events written under the final name",
  "claim": "C184"
 },
 {
  "file": "Riv/Model.lean",
  "def": "hepStep",
  "old": "f.events ++ [e]",
  "new": "e :: f.events",
  "edit": "events in reverse order",
  "claim": "C184"
 },
 {
  "file": "Riv/Model.lean",
  "def": "hepStep",
  "old": "Function.update (Function.update fs (unfinished name type) none) (fileName name type)",
  "new": "Function.update fs (fileName name type)",
  "edit": "unfinished file left behind",
  "claim": "C184"
 },
 {
  "file": "Riv/Model.lean",
  "def": "hepStep",
  "old": "(some { f with closed := true })",
  "new": "(some f)",
  "edit": "file not closed",
  "claim": "C184"
 },
 {
  "file": "Riv/Model.lean",
  "def": "textWriter",
  "old": "decide (type = \"asciiv3\".toList)",
  "new": "decide (type = \"root\".toList)",
  "edit": "wrong writer",
  "claim": "C184"
 },
 {
  "file": "Riv/Model.lean",
  "def": "logName",
  "old": "then n else",
  "new": "then \"Rivet.\".toList ++ n else",
  "edit": "prefix doubled",
  "claim": "C184"
 },
 {
  "file": "Riv/Model.lean",
  "def": "joinFrom",
  "old": "(if comma then [','] else [])",
  "new": "(if comma then [] else [','])",
  "edit": "comma at the start",
  "claim": "C184"
 },
 {
  "file": "Riv/Model.lean",
  "def": "joinFrom",
  "old": "++ joinFrom true ws",
  "new": "++ joinFrom comma ws",
  "edit": "commas forgotten",
  "claim": "C184"
 },
 {
  "file": "Riv/Model.lean",
  "def": "setup",
  "old": "[.libPath x, .dataPath x]",
  "new": "[.libPath x]",
  "edit": "path of the data forgotten",
  "claim": "C184"
 },
 {
  "file": "Riv/Model.lean",
  "def": "setup",
  "old": "(p.preloads.getD []).map .readData ++\n  (p.analyses.getD []).map .addAnalysis ++",
  "new": "(p.analyses.getD []).map .addAnalysis ++\n  (p.preloads.getD []).map .readData ++",
  "edit": "analyses before the files",
  "claim": "C184"
 },
 {
  "file": "Riv/Model.lean",
  "def": "setup",
  "old": "p.disabled.toList.map fun l => .deselect",
  "new": "p.enabled.toList.map fun l => .deselect",
  "edit": "enabled weights disabled",
  "claim": "C184"
 },
 {
  "file": "Riv/Model.lean",
  "def": "setup",
  "old": "(if p.anyWeight then",
  "new": "(if !p.anyWeight then",
  "edit": "weights without a section",
  "claim": "C184"
 },
 {
  "file": "Riv/Model.lean",
  "def": "setup",
  "old": ".crossSection x.1 x.2",
  "new": ".crossSection x.2 x.1",
  "edit": "cross section and error exchanged",
  "claim": "C184"
 },
 {
  "file": "Riv/Model.lean",
  "def": "rivStep",
  "old": "⟨false, s.calls ++ [.init e, .analyze e]⟩",
  "new": "⟨true, s.calls ++ [.init e, .analyze e]⟩",
  "edit": "initialised for every event",
  "claim": "C184"
 },
 {
  "file": "Riv/Model.lean",
  "def": "rivStep",
  "old": "[.init e, .analyze e]",
  "new": "[.init e]",
  "edit": "first event not analysed",
  "claim": "C184"
 },
 {
  "file": "Riv/Model.lean",
  "def": "rivStep",
  "old": "[.finalize, .write file]",
  "new": "[.write file]",
  "edit": "results not finalised",
  "claim": "C184"
 },
 {
  "file": "Ang/Model.lean",
  "def": "powInt",
  "old": "base * powInt base (n - 1)",
  "new": "powInt base (n - 1)",
  "edit": "factor lost for odd powers",
  "claim": "C181"
 },
 {
  "file": "Ang/Model.lean",
  "def": "powInt",
  "old": "powInt base (n / 2) * powInt base (n / 2)",
  "new": "powInt base (n / 2)",
  "edit": "not squared",
  "claim": "C181"
 }
]