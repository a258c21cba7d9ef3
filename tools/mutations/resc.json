[
 {
  "file": "Resc/Model.lean",
  "def": "slope",
  "old": "q.pAbs2 / q.e",
  "new": "q.pAbs / q.e",
  "edit": "momentum not squared in the derivative",
  "claim": "C175"
 },
 {
  "file": "Resc/Model.lean",
  "def": "slope",
  "old": "q.pAbs2 / q.e",
  "new": "q.pAbs2 / (2 * q.e)",
  "edit": "derivative too small by a factor of two",
  "claim": "C175"
 },
 {
  "file": "Resc/Model.lean",
  "def": "rescale",
  "old": "⟨q.m, f * q.px, f * q.py, f * q.pz,",
  "new": "⟨q.m, f * q.px, f * q.py, q.pz,",
  "edit": "longitudinal momentum not scaled",
  "claim": "C175"
 },
 {
  "file": "Resc/Model.lean",
  "def": "rescale",
  "old": "⟨q.m, f * q.px, f * q.py, f * q.pz,",
  "new": "⟨q.m, f * q.px, f * q.px, f * q.pz,",
  "edit": "wrong component",
  "claim": "C175"
 },
 {
  "file": "Resc/Model.lean",
  "def": "rescale",
  "old": "let pabs := f * q.pAbs",
  "new": "let pabs := q.pAbs",
  "edit": "energy from the old momentum",
  "claim": "C175"
 },
 {
  "file": "Resc/Model.lean",
  "def": "rescale",
  "old": "Real.sqrt (q.m * q.m + pabs * pabs)",
  "new": "f * q.e",
  "edit": "energy scaled like the momentum",
  "claim": "C175"
 },
 {
  "file": "Resc/Model.lean",
  "def": "rescale",
  "old": "Real.sqrt (q.m * q.m + pabs * pabs)",
  "new": "Real.sqrt (q.m * q.m + pabs)",
  "edit": "momentum not squared in the energy",
  "claim": "C175"
 },
 {
  "file": "Resc/Model.lean",
  "def": "loop",
  "old": "|e - e0| ≤ |reallySmall * e0|",
  "new": "e - e0 ≤ |reallySmall * e0|",
  "edit": "too little energy accepted",
  "claim": "C175"
 },
 {
  "file": "Resc/Model.lean",
  "def": "loop",
  "old": "|e - e0| ≤ |reallySmall * e0|",
  "new": "|e - e0| ≤ |reallySmall * e|",
  "edit": "tolerance relative to the current energy",
  "claim": "C175"
 },
 {
  "file": "Resc/Model.lean",
  "def": "loop",
  "old": "1 + (e0 - e) / slope l",
  "new": "1 + (e - e0) / slope l",
  "edit": "scaled in the wrong direction",
  "claim": "C175"
 },
 {
  "file": "Resc/Model.lean",
  "def": "loop",
  "old": "loop n e0 (energy l') l'",
  "new": "loop n e0 e l'",
  "edit": "energy not updated",
  "claim": "C175"
 },
 {
  "file": "Resc/Model.lean",
  "def": "loop",
  "old": "loop n e0 (energy l') l'",
  "new": "loop n e0 (energy l') l",
  "edit": "momenta not updated",
  "claim": "C175"
 },
 {
  "file": "Resc/Model.lean",
  "def": "reallySmall",
  "old": "1 / 10 ^ 6",
  "new": "1 / 10 ^ 3",
  "edit": "larger tolerance",
  "claim": "C175"
 },
 {
  "file": "Resc/Model.lean",
  "def": "loop",
  "old": "else if slope l = 0 ∨ ∃ q ∈ l, q.e = 0 then none",
  "new": "else if e0 < energy l then none",
  "edit": "only scaled up",
  "claim": "C175"
 }
]