[
 {
  "file": "Str/Model.lean",
  "def": "firstHadron",
  "old": "then some (p.1, p.2 old p.1) else none",
  "new": "then some (old, p.2 old p.1) else none",
  "edit": "old flavour instead of the new one",
  "claim": "C168"
 },
 {
  "file": "Str/Model.lean",
  "def": "mT",
  "old": "√(m * m + √(qx * qx + qy * qy) * √(qx * qx + qy * qy))",
  "new": "√(m * m + √(qx * qx + qx * qy) * √(qx * qx + qx * qy))",
  "edit": "wrong transverse momentum",
  "claim": "C168"
 },
 {
  "file": "Str/Model.lean",
  "def": "offTwo",
  "old": "let new2 := P.anti new",
  "new": "let new2 := new",
  "edit": "flavour of the second hadron not conjugated",
  "claim": "C168"
 },
 {
  "file": "Str/Model.lean",
  "def": "offTwo",
  "old": "match secondHadron (if fwd then s.fNeg else s.fPos) new2 r.second",
  "new": "match secondHadron (if fwd then s.fPos else s.fNeg) new2 r.second",
  "edit": "second hadron made of the wrong end",
  "claim": "C168"
 },
 {
  "file": "Str/Model.lean",
  "def": "offTwo",
  "old": "let q2x := if fwd then s.qxNeg - r.qx else s.qxPos - r.qx",
  "new": "let q2x := if fwd then s.qxNeg + r.qx else s.qxPos + r.qx",
  "edit": "sign of the recoil",
  "claim": "C168"
 },
 {
  "file": "Str/Model.lean",
  "def": "offTwo",
  "old": "let q2y := if fwd then s.qyNeg - r.qy else s.qyPos - r.qy",
  "new": "let q2y := if fwd then s.qyPos - r.qy else s.qyNeg - r.qy",
  "edit": "transverse momentum of the wrong end",
  "claim": "C168"
 },
 {
  "file": "Str/Model.lean",
  "def": "offTwo",
  "old": "let m2 := mT r.mass2 q2x q2y",
  "new": "let m2 := mT r.mass1 q2x q2y",
  "edit": "mass of the first hadron for the second",
  "claim": "C168"
 },
 {
  "file": "Str/Model.lean",
  "def": "offTwo",
  "old": "else finalTwo s.pp s.pn m2 m1 r.flip)",
  "new": "else finalTwo s.pp s.pn m1 m2 r.flip)",
  "edit": "transverse masses swapped",
  "claim": "C168"
 },
 {
  "file": "Str/Model.lean",
  "def": "offTwo",
  "old": "else .two ⟨had1, stringMomentum b pb nb q1x q1y, r.mass1⟩ ⟨had2, stringMomentum b pf nf",
  "new": "else .two ⟨had1, stringMomentum b pf nf q1x q1y, r.mass1⟩ ⟨had2, stringMomentum b pb nb",
  "edit": "forward and backward swapped",
  "claim": "C168"
 },
 {
  "file": "Str/Model.lean",
  "def": "offOne",
  "old": "let lead := sep && (if fwd then P.isDiquark s.fPos else P.isDiquark s.fNeg) && P.isBaryon had1",
  "new": "let lead := sep && (if fwd then P.isDiquark s.fNeg else P.isDiquark s.fPos) && P.isBaryon had1",
  "edit": "diquark of the wrong end",
  "claim": "C168"
 },
 {
  "file": "Str/Model.lean",
  "def": "offOne",
  "old": "match fraction (if lead then P.aLead else P.aProd) (if lead then P.bLead else P.bProd) m1 r.z",
  "new": "match fraction (if lead then P.aProd else P.aLead) (if lead then P.bProd else P.bLead) m1 r.z",
  "edit": "functions swapped",
  "claim": "C168"
 },
 {
  "file": "Str/Model.lean",
  "def": "offOne",
  "old": "if p = 0 ∨ n > s.pn then .ok .fail",
  "new": "if p = 0 then .ok .fail",
  "edit": "p^- not limited",
  "claim": "C168"
 },
 {
  "file": "Str/Model.lean",
  "def": "offOne",
  "old": "{ s with pp := s.pp - p, pn := s.pn - n, fPos := P.anti new, qxPos := -r.qx, qyPos := -r.qy })",
  "new": "{ s with pp := s.pp - p, pn := s.pn, fPos := P.anti new, qxPos := -r.qx, qyPos := -r.qy })",
  "edit": "p^- not subtracted",
  "claim": "C168"
 },
 {
  "file": "Str/Model.lean",
  "def": "offOne",
  "old": "fPos := P.anti new, qxPos := -r.qx",
  "new": "fPos := new, qxPos := -r.qx",
  "edit": "flavour of the end not conjugated",
  "claim": "C168"
 },
 {
  "file": "Str/Model.lean",
  "def": "offOne",
  "old": "fNeg := P.anti new, qxNeg := -r.qx, qyNeg := -r.qy",
  "new": "fNeg := P.anti new, qxNeg := r.qx, qyNeg := -r.qy",
  "edit": "sign of the transverse momentum of the end",
  "claim": "C168"
 },
 {
  "file": "Str/Model.lean",
  "def": "offOne",
  "old": "let p := 1 / 2 * m1 * m1 / n",
  "new": "let p := m1 * m1 / n",
  "edit": "factor 1/2 dropped",
  "claim": "C168"
 },
 {
  "file": "Str/Model.lean",
  "def": "off",
  "old": "if mass < stopAt P s new r.smear then",
  "new": "if mass > stopAt P s new r.smear then",
  "edit": "condition inverted",
  "claim": "C168"
 },
 {
  "file": "Str/Model.lean",
  "def": "off",
  "old": "let q1x := if fwd then s.qxPos + r.qx else s.qxNeg + r.qx",
  "new": "let q1x := r.qx",
  "edit": "transverse momentum of the end forgotten",
  "claim": "C168"
 },
 {
  "file": "Str/Model.lean",
  "def": "restOk",
  "old": "if √mt2 < qt then false else decide (√(mt2 - qt * qt) > P.m0 s.fPos + P.m0 s.fNeg)",
  "new": "if √mt2 < qt then false else true",
  "edit": "mass of the remaining string not checked",
  "claim": "C168"
 },
 {
  "file": "Str/Model.lean",
  "def": "restOk",
  "old": "if √mt2 < qt then false else",
  "new": "",
  "edit": "transverse mass below transverse momentum not caught",
  "claim": "C168"
 },
 {
  "file": "Str/Model.lean",
  "def": "attempt",
  "old": ".ok (some ⟨hads ++ [h1, h2], none⟩)",
  "new": ".ok (some ⟨[h1, h2], none⟩)",
  "edit": "earlier hadrons dropped",
  "claim": "C168"
 },
 {
  "file": "Str/Model.lean",
  "def": "attempt",
  "old": "if fwd && P.isBaryon h.id then",
  "new": "if P.isBaryon h.id then",
  "edit": "baryon of the other end taken as leading",
  "claim": "C168"
 },
 {
  "file": "Str/Model.lean",
  "def": "attempt",
  "old": "else attempt P b sep (doneFwd || fwd) (hads ++ [h]) s' more",
  "new": "else attempt P b sep (doneFwd || fwd) hads s' more",
  "edit": "emitted hadron lost",
  "claim": "C168"
 },
 {
  "file": "Str/Model.lean",
  "def": "attempt",
  "old": "else attempt P b sep (doneFwd || fwd) (hads ++ [h]) s' more",
  "new": "else attempt P b sep (doneFwd || fwd) (hads ++ [h]) s more",
  "edit": "string not updated",
  "claim": "C168"
 },
 {
  "file": "Str/Model.lean",
  "def": "start",
  "old": "⟨mString * √(1 / 2), mString * √(1 / 2), 0",
  "new": "⟨mString * √(1 / 2), mString, 0",
  "edit": "p^- too large",
  "claim": "C168"
 },
 {
  "file": "Str/Model.lean",
  "def": "start",
  "old": "if bpos then idq2 else idq1, if bpos then idq1 else idq2⟩",
  "new": "if bpos then idq2 else idq1, if bpos then idq2 else idq1⟩",
  "edit": "same flavour at both ends",
  "claim": "C168"
 },
 {
  "file": "Str/Model.lean",
  "def": "ends",
  "old": "let pc := 1 / 2 * mt0 * mt0 * pp / pn",
  "new": "let pc := 1 / 2 * mt1 * mt1 * pp / pn",
  "edit": "transverse mass of the other end",
  "claim": "C168"
 },
 {
  "file": "Str/Model.lean",
  "def": "ends",
  "old": "(if bpos then -1 else 1)",
  "new": "(if bpos then 1 else -1)",
  "edit": "ends in the wrong order",
  "claim": "C168"
 },
 {
  "file": "Str/Model.lean",
  "def": "ends",
  "old": "let pb := (mt * mt + mt0 * mt0 - mt1 * mt1) / (4 * pn)",
  "new": "let pb := (mt * mt - mt0 * mt0 + mt1 * mt1) / (4 * pn)",
  "edit": "masses swapped",
  "claim": "C168"
 }
]