[
 {
  "file": "Lat/Geom.lean",
  "def": "isInt",
  "old": "decide (n ≤ 2147483647)",
  "new": "decide (n ≤ 2147483648)",
  "edit": "largest int one too big",
  "claim": "C157"
 },
 {
  "file": "Lat/Geom.lean",
  "def": "widen",
  "old": "if l < 30 then (30, -(1 / 2) * 30)",
  "new": "if l < 30 then (30, o)",
  "edit": "origin not moved with the minimal extension",
  "claim": "C157"
 },
 {
  "file": "Lat/Geom.lean",
  "def": "widen",
  "old": "if l < 30 then",
  "new": "if l < 15 then",
  "edit": "smaller minimal extension",
  "claim": "C157"
 },
 {
  "file": "Lat/Geom.lean",
  "def": "colliderDefault",
  "old": "5 / gamma + tEnd",
  "new": "5 / gamma",
  "edit": "no expansion along the beam",
  "claim": "C157"
 },
 {
  "file": "Lat/Geom.lean",
  "def": "colliderDefault",
  "old": "5 + 7 / 10 * tEnd",
  "new": "5 + 5 / 10 * tEnd",
  "edit": "transverse expansion too slow",
  "claim": "C157"
 },
 {
  "file": "Lat/Geom.lean",
  "def": "colliderDefault",
  "old": "sqrts / (2 * nucleonMass)",
  "new": "sqrts / nucleonMass",
  "edit": "gamma twice too large",
  "claim": "C157"
 },
 {
  "file": "Lat/Geom.lean",
  "def": "colliderDefault",
  "old": "widen (2 * maxZ) (-maxZ)",
  "new": "widen (2 * maxZ) (-maxXY)",
  "edit": "origin of the wrong direction",
  "claim": "C157"
 },
 {
  "file": "Lat/Geom.lean",
  "def": "colliderDefault",
  "old": "toInt ⌈wx.1 / (8 / 10)⌉",
  "new": "toInt ⌊wx.1 / (8 / 10)⌋",
  "edit": "number of cells rounded down",
  "claim": "C157"
 },
 {
  "file": "Lat/Geom.lean",
  "def": "colliderDefault",
  "old": "sm = .discrete ∨ sm = .triangular then gamma",
  "new": "sm = .discrete then gamma",
  "edit": "triangular smearing with thick cells",
  "claim": "C157"
 },
 {
  "file": "Lat/Geom.lean",
  "def": "colliderDefault",
  "old": "⟨nxy, nxy, nz⟩",
  "new": "⟨nxy, nz, nz⟩",
  "edit": "wrong number of cells in y",
  "claim": "C157"
 },
 {
  "file": "Lat/Geom.lean",
  "def": "boxDefault",
  "old": ".all n, .all 0",
  "new": "(.all n), .all (-length / 2)",
  "edit": "box centred",
  "claim": "C157"
 },
 {
  "file": "Lat/Geom.lean",
  "def": "boxDefault",
  "old": "length / (5 / 10)",
  "new": "length / (8 / 10)",
  "edit": "coarser cells in the box",
  "claim": "C157"
 },
 {
  "file": "Lat/Geom.lean",
  "def": "sphereDefault",
  "old": "let maxD := radius + tEnd",
  "new": "let maxD := radius",
  "edit": "no expansion of the sphere",
  "claim": "C157"
 },
 {
  "file": "Lat/Geom.lean",
  "def": "sphereDefault",
  "old": ".all (-maxD)",
  "new": ".all 0",
  "edit": "sphere not centred",
  "claim": "C157"
 },
 {
  "file": "Lat/Geom.lean",
  "def": "sphereDefault",
  "old": "(.all (2 * maxD), ",
  "new": "(.all maxD, ",
  "edit": "half of the sphere",
  "claim": "C157"
 },
 {
  "file": "Lat/Geom.lean",
  "def": "defaults",
  "old": "| .list => .error .list",
  "new": "| .list => sphereDefault 0 tEnd",
  "edit": "list without geometry accepted",
  "claim": "C157"
 },
 {
  "file": "Lat/Geom.lean",
  "def": "defaults",
  "old": "| .box l | .listBox l => boxDefault l",
  "new": "| .box l => boxDefault l\n  | .listBox _ => .error .list",
  "edit": "list in a box refused",
  "claim": "C157"
 },
 {
  "file": "Lat/Geom.lean",
  "def": "geometry",
  "old": "g.periodic.getD m.isBox",
  "new": "m.isBox",
  "edit": "given periodicity ignored",
  "claim": "C157"
 },
 {
  "file": "Lat/Geom.lean",
  "def": "geometry",
  "old": "g.periodic.getD m.isBox",
  "new": "g.periodic.getD false",
  "edit": "boxes not periodic",
  "claim": "C157"
 },
 {
  "file": "Lat/Geom.lean",
  "def": "geometry",
  "old": "| false, _, _, _ => .error .missing\n",
  "new": "| false, some l, some n, none => .ok ⟨l, n, .all 0, per⟩\n  | false, _, _, _ => .error .missing\n",
  "edit": "missing origin accepted",
  "claim": "C157"
 },
 {
  "file": "Lat/Geom.lean",
  "def": "geometry",
  "old": "| true, some _, some _, some _ => .error .allGiven\n",
  "new": "",
  "edit": "automatic with everything given accepted",
  "claim": "C157"
 },
 {
  "file": "Lat/Geom.lean",
  "def": "geometry",
  "old": "l.getD dl, n.getD dn, o.getD dor",
  "new": "l.getD dl, dn, o.getD dor",
  "edit": "given number of cells ignored",
  "claim": "C157"
 },
 {
  "file": "Lat/Geom.lean",
  "def": "construct",
  "old": "!isInt (n.x * n.y) || !isInt (n.x * n.y * n.z)",
  "new": "!isInt (n.x * n.y * n.z)",
  "edit": "overflow of the first product not seen",
  "claim": "C157"
 },
 {
  "file": "Lat/Geom.lean",
  "def": "construct",
  "old": "if n.x < 1 ∨ n.y < 1 ∨ n.z < 1 ∨",
  "new": "if n.x < 0 ∨ n.y < 0 ∨ n.z < 0 ∨",
  "edit": "zero cells accepted",
  "claim": "C157"
 },
 {
  "file": "Lat/Geom.lean",
  "def": "construct",
  "old": "g.sizes.y < 0 ∨ g.sizes.z < 0",
  "new": "g.sizes.y < 0",
  "edit": "negative extension in z accepted",
  "claim": "C157"
 },
 {
  "file": "Lat/Geom.lean",
  "def": "construct",
  "old": "g.sizes.x < 0 ∨ g.sizes.y < 0",
  "new": "g.sizes.x ≤ 0 ∨ g.sizes.y < 0",
  "edit": "zero extension refused (the finding disappears)",
  "claim": "C157"
 }
]