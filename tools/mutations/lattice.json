[
 {
  "file": "Lattice/Model.lean",
  "def": "index1d",
  "old": "ix + L.n.x * (iy + iz * L.n.y)\n\n/-- `index_left`",
  "new": "ix + L.n.x * (iy + iz * L.n.x)\n\n/-- `index_left`",
  "edit": "wrong stride in z",
  "claim": "C18 bijection"
 },
 {
  "file": "Lattice/Model.lean",
  "def": "indexRight",
  "old": "if ix = L.n.x - 1 then",
  "new": "if ix = L.n.x then",
  "edit": "right border off by one",
  "claim": "C18 neighbours"
 },
 {
  "file": "Lattice/Model.lean",
  "def": "indexUp",
  "old": "if L.periodic then index1d L ix 0 iz else index1d L ix iy iz\n  else index1d L ix (iy + 1) iz",
  "new": "if L.periodic then index1d L 0 iy iz else index1d L ix iy iz\n  else index1d L ix (iy + 1) iz",
  "edit": "up wraps x instead of y",
  "claim": "C18 neighbours"
 },
 {
  "file": "Lattice/Model.lean",
  "def": "positiveModulo",
  "old": "let s ← i32 (n * 256)",
  "new": "let s ← i32 n",
  "edit": "only one period added",
  "claim": "C19/C65 periodic images"
 },
 {
  "file": "Lattice/Model.lean",
  "def": "node",
  "old": "L.get (a + L.n.x * (b + L.n.y * c))",
  "new": "L.get (a + L.n.x * (b + L.n.x * c))",
  "edit": "wrong stride in node",
  "claim": "C65"
 },
 {
  "file": "Lattice/Model.lean",
  "def": "outOfBounds",
  "old": "decide (iy ≥ L.n.y)",
  "new": "decide (iy > L.n.y)",
  "edit": "boundary cell off by one",
  "claim": "C65"
 },
 {
  "file": "Lattice/Model.lean",
  "def": "bounds",
  "old": "⌈(p - orig + rcut) / c - 1 / 2⌉",
  "new": "⌊(p - orig + rcut) / c - 1 / 2⌋",
  "edit": "floor instead of ceil for the upper bound",
  "claim": "C19"
 },
 {
  "file": "Lattice/Model.lean",
  "def": "bounds",
  "old": "let l ← castInt ⌈(p - orig - rcut) / c - 1 / 2⌉",
  "new": "let l ← castInt ⌈(p - orig - rcut) / c⌉",
  "edit": "half a cell missing",
  "claim": "C19"
 },
 {
  "file": "Lattice/Model.lean",
  "def": "clamp",
  "old": "let u := if b.2 > n then n else b.2",
  "new": "let u := if b.2 > n then n - 1 else b.2",
  "edit": "last cell skipped",
  "claim": "C19"
 },
 {
  "file": "Lattice/Model.lean",
  "def": "clamp",
  "old": "let l := if b.1 < 0 then 0 else b.1",
  "new": "let l := b.1",
  "edit": "lower bound not clamped",
  "claim": "C19 no access outside"
 },
 {
  "file": "Lattice/Model.lean",
  "def": "diff",
  "old": "      let b ← L.get (index + D - d)\n      return inv • (a - b)",
  "new": "      let b ← L.get (index + D)\n      return inv • (a - b)",
  "edit": "periodic left neighbour of the first node wrong",
  "claim": "C20 periodic"
 },
 {
  "file": "Lattice/Model.lean",
  "def": "diff",
  "old": "      let a ← L.get (index + d)\n      let b ← L.get index\n      return inv • ((2 : ℚ) • (a - b))",
  "new": "      let a ← L.get (index + d)\n      let b ← L.get index\n      return inv • (a - b)",
  "edit": "one-sided difference without factor 2",
  "claim": "C20 affine"
 },
 {
  "file": "Lattice/Model.lean",
  "def": "gradAt",
  "old": "diff L (1 / 2 / L.cell.y) index iy L.n.y",
  "new": "diff L (1 / 2 / L.cell.x) index iy L.n.y",
  "edit": "x cell size used in y",
  "claim": "C20"
 },
 {
  "file": "Lattice/Model.lean",
  "def": "fourGradAt",
  "old": "(1 / dt) • (a - b)",
  "new": "(1 / dt) • (b - a)",
  "edit": "sign of the time derivative",
  "claim": "C20 four-gradient"
 },
 {
  "file": "Lattice/Model.lean",
  "def": "resetAndResize",
  "old": "let c := cells sizes n",
  "new": "let c := L.cell",
  "edit": "cell sizes not recomputed",
  "claim": "C21"
 },
 {
  "file": "Lattice/Model.lean",
  "def": "resetAndResize",
  "old": "data := L.data.map fun _ => d",
  "new": "data := L.data",
  "edit": "values not reset",
  "claim": "C21"
 },
 {
  "file": "Lattice/Model.lean",
  "def": "centerOf",
  "old": "let iz := index.tdiv L.n.y",
  "new": "let iz := index.tdiv L.n.z",
  "edit": "wrong divisor",
  "claim": "C18"
 },
 {
  "file": "Lattice/Model.lean",
  "def": "iterateNearest",
  "old": "indexBackward L ix iy iz, indexForward L ix iy iz].mapM",
  "new": "indexForward L ix iy iz].mapM",
  "edit": "one neighbour forgotten",
  "claim": "C66"
 },
 {
  "file": "Lattice/Model.lean",
  "def": "cellOf",
  "old": "castInt ⌊(r - orig) / c⌋",
  "new": "castInt ((r - orig) / c).num",
  "edit": "no rounding down",
  "claim": "C65"
 }
]