[
 {
  "file": "Fpe/Model.lean",
  "def": "enable",
  "old": "e.csr &&& ~~~(m <<< 7)",
  "new": "e.csr &&& ~~~m",
  "edit": "mask not shifted for the SSE unit",
  "claim": "C179"
 },
 {
  "file": "Fpe/Model.lean",
  "def": "enable",
  "old": "e.csr &&& ~~~(m <<< 7)",
  "new": "e.csr ||| (m <<< 7)",
  "edit": "traps disabled instead of enabled",
  "claim": "C179"
 },
 {
  "file": "Fpe/Model.lean",
  "def": "enable",
  "old": "e.cw &&& ~~~(m.setWidth 16)",
  "new": "e.cw",
  "edit": "x87 unit forgotten",
  "claim": "C179"
 },
 {
  "file": "Fpe/Model.lean",
  "def": "enable",
  "old": "e.cw &&& ~~~(m.setWidth 16)",
  "new": "~~~(m.setWidth 16)",
  "edit": "other bits of the control word lost",
  "claim": "C179"
 },
 {
  "file": "Fpe/Model.lean",
  "def": "enable",
  "old": "| .other, _, e => (false, e)",
  "new": "| .other, _, e => (true, e)",
  "edit": "failure not reported",
  "claim": "C179"
 },
 {
  "file": "Fpe/Model.lean",
  "def": "feAllExcept",
  "old": "0x3d#32",
  "new": "0x1d#32",
  "edit": "inexact results forgotten",
  "claim": "C179"
 },
 {
  "file": "Fpe/Model.lean",
  "def": "hold",
  "old": "e.csr ||| 0x1f80#32",
  "new": "e.csr ||| 0x0f80#32",
  "edit": "inexact results still trap",
  "claim": "C179"
 },
 {
  "file": "Fpe/Model.lean",
  "def": "hold",
  "old": "(e.csr ||| 0x1f80#32)",
  "new": "e.csr",
  "edit": "guard disables nothing",
  "claim": "C179"
 },
 {
  "file": "Fpe/Model.lean",
  "def": "construct",
  "old": "if mask ≠ 0 then",
  "new": "if mask = 0 then",
  "edit": "mask test inverted",
  "claim": "C179"
 },
 {
  "file": "Fpe/Model.lean",
  "def": "construct",
  "old": "let r := enable pl mask h",
  "new": "let r := enable pl mask e",
  "edit": "traps added to the old environment",
  "claim": "C179"
 },
 {
  "file": "Fpe/Model.lean",
  "def": "construct",
  "old": "if !r.1 then [mask] else []",
  "new": "if r.1 then [mask] else []",
  "edit": "warning on success",
  "claim": "C179"
 },
 {
  "file": "Fpe/Model.lean",
  "def": "exec",
  "old": "| o => ⟨o, e, c.2 ++ r.warned⟩",
  "new": "| o => ⟨o, r.env, c.2 ++ r.warned⟩",
  "edit": "environment not restored",
  "claim": "C179"
 },
 {
  "file": "Fpe/Model.lean",
  "def": "exec",
  "old": "| o => ⟨o, e, c.2 ++ r.warned⟩",
  "new": "| .thrown => ⟨.thrown, r.env, c.2 ++ r.warned⟩\n    | .done => ⟨.done, e, c.2 ++ r.warned⟩",
  "edit": "environment not restored by exceptions",
  "claim": "C179"
 },
 {
  "file": "Fpe/Model.lean",
  "def": "exec",
  "old": "| o => ⟨o, e, c.2 ++ r.warned⟩",
  "new": "| o => ⟨o, Env.initial, c.2 ++ r.warned⟩",
  "edit": "initial environment restored",
  "claim": "C179"
 },
 {
  "file": "Fpe/Model.lean",
  "def": "exec",
  "old": "let r := exec pl p c.1",
  "new": "let r := exec pl p e",
  "edit": "body outside of the guard",
  "claim": "C179"
 },
 {
  "file": "Fpe/Model.lean",
  "def": "setup",
  "old": "(Exc.overflow).flag r2.2",
  "new": "(Exc.underflow).flag r2.2",
  "edit": "underflow instead of overflow",
  "claim": "C179"
 },
 {
  "file": "Fpe/Model.lean",
  "def": "setup",
  "old": "(Exc.invalid).flag r1.2",
  "new": "(Exc.invalid).flag e",
  "edit": "first trap lost",
  "claim": "C179"
 },
 {
  "file": "Fpe/Model.lean",
  "def": "setup",
  "old": "if !r2.1 then [.invalid]",
  "new": "if !r2.1 then [.divByZero]",
  "edit": "wrong warning",
  "claim": "C179"
 }
]