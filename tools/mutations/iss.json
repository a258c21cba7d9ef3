[
 {
  "file": "Iss/Model.lean",
  "def": "headLine",
  "old": "if t.stable then 1 else t.modes.length",
  "new": "t.modes.length",
  "edit": "stable particle announces no decay",
  "claim": "C177"
 },
 {
  "file": "Iss/Model.lean",
  "def": "headLine",
  "old": "if t.stable then 1 else t.modes.length",
  "new": "if t.stable then 0 else t.modes.length",
  "edit": "stable particle announces no decay",
  "claim": "C177"
 },
 {
  "file": "Iss/Model.lean",
  "def": "headLine",
  "old": "t.isospin + 1",
  "new": "t.isospin",
  "edit": "isospin instead of the degeneracy",
  "claim": "C177"
 },
 {
  "file": "Iss/Model.lean",
  "def": "headLine",
  "old": "t.charm, t.bottom",
  "new": "t.bottom, t.charm",
  "edit": "charm and bottom swapped",
  "claim": "C177"
 },
 {
  "file": "Iss/Model.lean",
  "def": "decayLine",
  "old": "2, d.weight, [a, b, 0, 0, 0]",
  "new": "2, d.weight, [b, a, 0, 0, 0]",
  "edit": "products swapped",
  "claim": "C177"
 },
 {
  "file": "Iss/Model.lean",
  "def": "decayLine",
  "old": "some ⟨t.pdg, 2, d.weight",
  "new": "some ⟨a, 2, d.weight",
  "edit": "number of a product instead of the particle",
  "claim": "C177"
 },
 {
  "file": "Iss/Model.lean",
  "def": "decayLines",
  "old": "[t.pdg, 0, 0, 0, 0]⟩]",
  "new": "[0, 0, 0, 0, 0]⟩]",
  "edit": "stable particle without product",
  "claim": "C177"
 },
 {
  "file": "Iss/Model.lean",
  "def": "decayLines",
  "old": "else t.modes.mapM (decayLine t)",
  "new": "else (t.modes.drop 1).mapM (decayLine t)",
  "edit": "first decay left out",
  "claim": "C177"
 },
 {
  "file": "Iss/Model.lean",
  "def": "dump",
  "old": "if t.lepton || decide (t.baryon < 0) then dump ts",
  "new": "if t.lepton then dump ts",
  "edit": "antibaryons listed",
  "claim": "C177"
 },
 {
  "file": "Iss/Model.lean",
  "def": "dump",
  "old": "if t.lepton || decide (t.baryon < 0) then dump ts",
  "new": "if t.lepton || decide (t.baryon ≤ 0) then dump ts",
  "edit": "mesons left out",
  "claim": "C177"
 },
 {
  "file": "Iss/Model.lean",
  "def": "dump",
  "old": "if t.lepton || decide (t.baryon < 0) then dump ts",
  "new": "if t.lepton || decide (t.baryon < 0) then some []",
  "edit": "list ends at the first antibaryon",
  "claim": "C177"
 },
 {
  "file": "Iss/Model.lean",
  "def": "dump",
  "old": ".head (headLine t) :: ds.map .decay ++ ls",
  "new": "ds.map .decay ++ .head (headLine t) :: ls",
  "edit": "decays before the particle",
  "claim": "C177"
 }
]