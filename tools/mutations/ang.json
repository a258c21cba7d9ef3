[
 {
  "file": "Ang/Model.lean",
  "def": "bpp",
  "old": "if plab < 2 then",
  "new": "if plab < 6 then",
  "edit": "wrong range of the fit",
  "claim": "C181"
 },
 {
  "file": "Ang/Model.lean",
  "def": "bpp",
  "old": "min (highBpp plab)",
  "new": "max (highBpp plab)",
  "edit": "larger of the two fits",
  "claim": "C181"
 },
 {
  "file": "Ang/Model.lean",
  "def": "bnp",
  "old": "if plab < 225 / 1000 then 0",
  "new": "if plab < 6 / 10 then 0",
  "edit": "linear range dropped",
  "claim": "C181"
 },
 {
  "file": "Ang/Model.lean",
  "def": "bnp",
  "old": "-(163 / 100) * plab + 716 / 100",
  "new": "(163 / 100) * plab + 716 / 100",
  "edit": "sign of the slope",
  "claim": "C181"
 },
 {
  "file": "Ang/Model.lean",
  "def": "slope",
  "old": "f.charge.natAbs == 1",
  "new": "f.charge == 1",
  "edit": "antiproton-antineutron forgotten",
  "claim": "C181"
 },
 {
  "file": "Ang/Model.lean",
  "def": "slope",
  "old": "max (bnp plab) small",
  "new": "bnp plab",
  "edit": "slope of zero possible",
  "claim": "C181"
 },
 {
  "file": "Ang/Model.lean",
  "def": "slope",
  "old": "if plab < 8 / 10 then 1 else 64 / 100 / (plab * plab)",
  "new": "64 / 100 / (plab * plab)",
  "edit": "weight above one at low momentum",
  "claim": "C181"
 },
 {
  "file": "Ang/Model.lean",
  "def": "mirror",
  "old": "tr.1 + tr.2 - t else",
  "new": "tr.2 - t else",
  "edit": "mirrored about the wrong point",
  "claim": "C181"
 },
 {
  "file": "Ang/Model.lean",
  "def": "mirror",
  "old": "if u > thr",
  "new": "if u < thr",
  "edit": "forward and backward swapped",
  "claim": "C181"
 },
 {
  "file": "Ang/Model.lean",
  "def": "toCos",
  "old": "1 - 2 * (t - tr.1)",
  "new": "1 - (t - tr.1)",
  "edit": "backward angles lost",
  "claim": "C181"
 },
 {
  "file": "Ang/Model.lean",
  "def": "toCos",
  "old": "(t - tr.1) / (tr.2 - tr.1)",
  "new": "(t - tr.2) / (tr.1 - tr.2)",
  "edit": "forward and backward exchanged",
  "claim": "C181"
 },
 {
  "file": "Ang/Model.lean",
  "def": "drawT",
  "old": "if f.elastic && !f.isotropic then",
  "new": "if f.elastic then",
  "edit": "isotropic option ignored for elastic collisions",
  "claim": "C181"
 },
 {
  "file": "Ang/Model.lean",
  "def": "drawT",
  "old": "mirror (1 / (1 + b.2))",
  "new": "mirror (b.2 / (1 + b.2))",
  "edit": "forward and backward weights exchanged",
  "claim": "C181"
 },
 {
  "file": "Ang/Model.lean",
  "def": "drawT",
  "old": "if a < 30 then Rand.power (-a)",
  "new": "if a < 30 then Rand.power a",
  "edit": "sign of the exponent",
  "claim": "C181"
 },
 {
  "file": "Ang/Model.lean",
  "def": "drawT",
  "old": "else some tr.1).map",
  "new": "else some tr.2).map",
  "edit": "sharp distribution at the other end: same after symmetrising, but not the documented t",
  "claim": "C181"
 },
 {
  "file": "Ang/Model.lean",
  "def": "drawT",
  "old": "&& f.bNucleon && f.sameSign && !f.isotropic then",
  "new": "&& f.bNucleon && f.sameSign then",
  "edit": "isotropic option ignored for Δ",
  "claim": "C181"
 },
 {
  "file": "Ang/Model.lean",
  "def": "effectiveS",
  "old": "4 * √(p * p + mN * mN)",
  "new": "4 * (p * p + mN * mN)",
  "edit": "(the finding disappears)",
  "claim": "C181"
 },
 {
  "file": "Ang/Model.lean",
  "def": "outgoing",
  "old": "rotZTo q",
  "new": "rotZTo q.neg",
  "edit": "direction of the other particle",
  "claim": "C181"
 },
 {
  "file": "Ang/Model.lean",
  "def": "outgoing",
  "old": "sampleAngles m3 m4 E",
  "new": "sampleAngles m4 m3 E",
  "edit": "masses exchanged",
  "claim": "C181"
 }
]