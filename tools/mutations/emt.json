[
 {
  "file": "Emt/Model.lean",
  "def": "indices",
  "old": "[0, 1, 2, 3, 1, 4, 5, 6, 2, 5, 7, 8, 3, 6, 8, 9]",
  "new": "[0, 1, 2, 3, 1, 4, 5, 6, 2, 5, 7, 8, 3, 6, 7, 9]",
  "edit": "wrong table entry",
  "claim": "C105"
 },
 {
  "file": "Emt/Model.lean",
  "def": "tmnIndex",
  "old": "if mu < 4 ∧ nu < 4 ∧ mu ≥ 0 ∧ nu ≥ 0",
  "new": "if mu ≤ 4 ∧ nu < 4 ∧ mu ≥ 0 ∧ nu ≥ 0",
  "edit": "index 4 accepted",
  "claim": "C105"
 },
 {
  "file": "Emt/Model.lean",
  "def": "tmnIndex",
  "old": "(indices.getD (mu + 4 * nu).toNat 0)",
  "new": "(indices.getD (mu + 3 * nu).toNat 0)",
  "edit": "wrong row length",
  "claim": "C105"
 },
 {
  "file": "Emt/Model.lean",
  "def": "sub",
  "old": "def sub (a b : Tmn) : Tmn := fun i => a i - b i",
  "new": "def sub (a b : Tmn) : Tmn := fun i => b i - a i",
  "edit": "operands swapped",
  "claim": "C105"
 },
 {
  "file": "Emt/Model.lean",
  "def": "addMom",
  "old": "mom.x * tmp.x, mom.x * tmp.y, mom.x * tmp.z,",
  "new": "mom.x * tmp.x, mom.x * tmp.z, mom.x * tmp.y,",
  "edit": "components swapped",
  "claim": "C105"
 },
 {
  "file": "Emt/Model.lean",
  "def": "addMom",
  "old": "let tmp := mom.vec.div mom.t",
  "new": "let tmp := mom.vec",
  "edit": "division by the energy dropped",
  "claim": "C105"
 },
 {
  "file": "Emt/Model.lean",
  "def": "addParticle",
  "old": "if factor ≠ 0 then addMom",
  "new": "if factor > 0 then addMom",
  "edit": "negative weights ignored",
  "claim": "C105"
 },
 {
  "file": "Emt/Model.lean",
  "def": "mixed",
  "old": "-T 1, -T 4, -T 5, -T 6;",
  "new": "T 1, -T 4, -T 5, -T 6;",
  "edit": "sign of one entry",
  "claim": "C106"
 },
 {
  "file": "Emt/Model.lean",
  "def": "maxIndex",
  "old": "if val m < val i then i else m",
  "new": "if val i < val m then i else m",
  "edit": "smallest eigenvalue taken",
  "claim": "C106"
 },
 {
  "file": "Emt/Model.lean",
  "def": "landau",
  "old": "if e.t < 0 then ⟨-e.t, -e.x, -e.y, -e.z⟩ else e",
  "new": "if e.t > 0 then ⟨-e.t, -e.x, -e.y, -e.z⟩ else e",
  "edit": "sign choice reversed",
  "claim": "C106"
 },
 {
  "file": "Emt/Model.lean",
  "def": "landau",
  "old": "if e.t < 0 then ⟨-e.t, -e.x, -e.y, -e.z⟩ else e",
  "new": "if e.t < 0 then ⟨-e.t, e.x, e.y, e.z⟩ else e",
  "edit": "only the time component flipped",
  "claim": "C106"
 },
 {
  "file": "Emt/Model.lean",
  "def": "landau",
  "old": "(1 / Real.sqrt uSqr)",
  "new": "(1 / uSqr)",
  "edit": "square root forgotten",
  "claim": "C106"
 },
 {
  "file": "Emt/Model.lean",
  "def": "landau",
  "old": "else ⟨1, 0, 0, 0⟩",
  "new": "else tmp",
  "edit": "non-time-like vector returned",
  "claim": "C106"
 },
 {
  "file": "Emt/Model.lean",
  "def": "boostMatrix",
  "old": "let tmp := u.vec.div (1 + u.t)",
  "new": "let tmp := u.vec.div u.t",
  "edit": "wrong denominator",
  "claim": "C105"
 },
 {
  "file": "Emt/Model.lean",
  "def": "boostMatrix",
  "old": "u.y, u.x * tmp.y, u.y * tmp.y + 1, u.z * tmp.y;",
  "new": "u.y, u.x * tmp.y, u.y * tmp.y, u.z * tmp.y;",
  "edit": "unit matrix entry dropped",
  "claim": "C105"
 },
 {
  "file": "Emt/Model.lean",
  "def": "boosted",
  "old": "R 1 1, R 1 2, R 1 3, R 2 2, R 2 3, R 3 3]",
  "new": "R 1 1, R 1 2, R 1 3, R 2 2, R 3 3, R 2 3]",
  "edit": "components stored in the wrong order",
  "claim": "C105"
 },
 {
  "file": "Emt/Model.lean",
  "def": "full",
  "old": "T 2, T 5, T 7, T 8;",
  "new": "T 2, T 5, T 8, T 7;",
  "edit": "entries swapped",
  "claim": "C105"
 }
]