[
 {
  "file": "Glue/Model.lean",
  "def": "quarks",
  "old": "if q.id > 0 then E.nq q.id f else 0",
  "new": "if q.id > 1 then E.nq q.id f else 0",
  "edit": "d quarks not counted",
  "claim": "C176"
 },
 {
  "file": "Glue/Model.lean",
  "def": "antiquarks",
  "old": "if q.id > 0 then 0 else E.nq |q.id| f",
  "new": "if q.id > 0 then 0 else E.nq q.id f",
  "edit": "absolute value dropped",
  "claim": "C176"
 },
 {
  "file": "Glue/Model.lean",
  "def": "half",
  "old": "1 / 2 * g.px + s * q.1",
  "new": "1 / 2 * g.px + q.1",
  "edit": "transverse momentum not opposite",
  "claim": "C176"
 },
 {
  "file": "Glue/Model.lean",
  "def": "half",
  "old": "let pz := 1 / 2 * g.pz",
  "new": "let pz := g.pz",
  "edit": "longitudinal momentum not divided",
  "claim": "C176"
 },
 {
  "file": "Glue/Model.lean",
  "def": "half",
  "old": "1 / 2 * g.py + s * q.2",
  "new": "1 / 2 * g.px + s * q.2",
  "edit": "wrong component",
  "claim": "C176"
 },
 {
  "file": "Glue/Model.lean",
  "def": "half",
  "old": "m * m + px * px + py * py + pz * pz",
  "new": "px * px + py * py + pz * pz",
  "edit": "mass left out of the energy",
  "claim": "C176"
 },
 {
  "file": "Glue/Model.lean",
  "def": "splitOne",
  "old": "⟨f, g.col, 0, half",
  "new": "⟨f, g.acol, 0, half",
  "edit": "anticolour given to the quark",
  "claim": "C176"
 },
 {
  "file": "Glue/Model.lean",
  "def": "splitOne",
  "old": "⟨-f, 0, g.acol, half",
  "new": "⟨-f, g.acol, 0, half",
  "edit": "anticolour stored as colour",
  "claim": "C176"
 },
 {
  "file": "Glue/Model.lean",
  "def": "splitOne",
  "old": "⟨-f, 0, g.acol, half",
  "new": "⟨f, 0, g.acol, half",
  "edit": "two quarks",
  "claim": "C176"
 },
 {
  "file": "Glue/Model.lean",
  "def": "splitOne",
  "old": "(l.eraseIdx i ++",
  "new": "(l ++",
  "edit": "gluon not removed",
  "claim": "C176"
 },
 {
  "file": "Glue/Model.lean",
  "def": "splitOne",
  "old": "if g.id ≠ 21 then .ok none",
  "new": "if g.id = 0 then .ok none",
  "edit": "a quark is split",
  "claim": "C176"
 },
 {
  "file": "Glue/Model.lean",
  "def": "splitTimes",
  "old": "Function.update s.nq f (s.nq f + 1)",
  "new": "s.nq",
  "edit": "number of quarks not updated",
  "claim": "C176"
 },
 {
  "file": "Glue/Model.lean",
  "def": "splitTimes",
  "old": "Function.update s.na f (s.na f + 1)",
  "new": "Function.update s.na f (s.na f - 1)",
  "edit": "number of antiquarks decreased",
  "claim": "C176"
 },
 {
  "file": "Glue/Model.lean",
  "def": "splitFlavours",
  "old": "if sign then s.nq f else s.na f",
  "new": "if sign then s.na f else s.nq f",
  "edit": "quarks and antiquarks swapped",
  "claim": "C176"
 },
 {
  "file": "Glue/Model.lean",
  "def": "splitFlavours",
  "old": "final.natAbs s with",
  "new": "1 s with",
  "edit": "only one gluon split",
  "claim": "C176"
 },
 {
  "file": "Glue/Model.lean",
  "def": "splitFlavours",
  "old": "let final := ex0 f + ex1 f +",
  "new": "let final := ex0 f +",
  "edit": "excess of the second hadron ignored",
  "claim": "C176"
 },
 {
  "file": "Glue/Model.lean",
  "def": "split",
  "old": "[1, 2, 3, 4, 5]",
  "new": "[1, 2, 3, 4]",
  "edit": "last flavour not treated",
  "claim": "C176"
 },
 {
  "file": "Glue/Model.lean",
  "def": "splitFlavours",
  "old": "| .ok (false, s') => .ok (false, s')",
  "new": "| .ok (false, s') => splitFlavours E sign ex0 ex1 fs s'",
  "edit": "failure ignored",
  "claim": "C176"
 },
 {
  "file": "Glue/Model.lean",
  "def": "rescaleAll",
  "old": "(energyOf l + (energyOf l2 - energyOf l1))",
  "new": "(energyOf l2)",
  "edit": "energy read after the splitting (the finding disappears)",
  "claim": "C176"
 },
 {
  "file": "Glue/Model.lean",
  "def": "rescaleAll",
  "old": "(energyOf l + (energyOf l2 - energyOf l1))",
  "new": "(energyOf l)",
  "edit": "replacement not followed",
  "claim": "C176"
 }
]