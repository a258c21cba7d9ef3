[
 {
  "file": "Decay/Model.lean",
  "def": "hasParticles",
  "old": "|| (a == d && b == c)",
  "new": "",
  "edit": "only one order compared",
  "claim": "C37 merging"
 },
 {
  "file": "Decay/Model.lean",
  "def": "hasParticles",
  "old": "sortL l == [a, b, c]",
  "new": "l == [a, b, c]",
  "edit": "daughters not sorted before comparing",
  "claim": "C37 merging"
 },
 {
  "file": "Decay/Model.lean",
  "def": "DType.matches",
  "old": " && t.L == L",
  "new": "",
  "edit": "angular momentum not compared",
  "claim": "C37 merging"
 },
 {
  "file": "Decay/Model.lean",
  "def": "newType",
  "old": "else if parts.length = 3 then",
  "new": "else if parts.length ≥ 3 then",
  "edit": "four daughters accepted",
  "claim": "C37 add_mode rejects"
 },
 {
  "file": "Decay/Model.lean",
  "def": "addToModes",
  "old": "⟨m.ty, m.w + r⟩ :: ms",
  "new": "⟨m.ty, r⟩ :: ms",
  "edit": "weight replaced instead of added",
  "claim": "C37 merging"
 },
 {
  "file": "Decay/Model.lean",
  "def": "addToModes",
  "old": "if m.ty = ty then ⟨m.ty, m.w + r⟩ :: ms else m :: addToModes ty r ms",
  "new": "m :: addToModes ty r ms",
  "edit": "modes duplicated",
  "claim": "C37 merging"
 },
 {
  "file": "Decay/Model.lean",
  "def": "renormalize",
  "old": "⟨m.ty, m.w / sum⟩",
  "new": "⟨m.ty, m.w * sum⟩",
  "edit": "multiplied by the sum",
  "claim": "C37"
 },
 {
  "file": "Decay/Model.lean",
  "def": "renormalize",
  "old": "if |sum - 1| < reallySmall then .ok (ms, false)",
  "new": "if |sum - 1| < 1 / 10 then .ok (ms, false)",
  "edit": "skips too early",
  "claim": "C37"
 },
 {
  "file": "Decay/Model.lean",
  "def": "renormalize",
  "old": "decide (|sum - 1| > 1 / 100)",
  "new": "decide (sum - 1 > 1 / 100)",
  "edit": "deviation downwards not reported",
  "claim": "C37 report"
 },
 {
  "file": "Decay/Model.lean",
  "def": "minL2",
  "old": "min |s0 - s1 - s2| |s0 - s1 + s2|",
  "new": "|s0 - s1 + s2|",
  "edit": "one sign combination missing",
  "claim": "C38"
 },
 {
  "file": "Decay/Model.lean",
  "def": "minL2",
  "old": "  let m := min m |s0 + s1 - s2|\n  if m % 2 ≠ 0 then none else some (m / 2)\n\n/-- `min_ang",
  "new": "  let m := min m |s0 + s1 - s2|\n  some (m / 2)\n\n/-- `min_ang",
  "edit": "half-integer spins not rejected",
  "claim": "C38"
 },
 {
  "file": "Decay/Model.lean",
  "def": "minL3",
  "old": "let m := min m |s0 - s1 - s2 - s3|",
  "new": "",
  "edit": "mother against all daughters missing",
  "claim": "C38 (accepts less)"
 },
 {
  "file": "Decay/Model.lean",
  "def": "minL3",
  "old": "min |s0 - s1 + s2 + s3| |s0 + s1 - s2 + s3|",
  "new": "0",
  "edit": "no lower limit",
  "claim": "C38"
 },
 {
  "file": "Decay/Model.lean",
  "def": "finishState",
  "old": "let (ms, _) ← renormalize (pending s)\n",
  "new": "let ms := pending s\n",
  "edit": "not renormalised",
  "claim": "C37"
 },
 {
  "file": "Decay/Model.lean",
  "def": "conjugate",
  "old": "(W.T p).anti.getD p",
  "new": "p",
  "edit": "daughters not conjugated",
  "claim": "C71"
 },
 {
  "file": "Decay/Model.lean",
  "def": "antiState",
  "old": "addMode W db a m.w t.L (conjugate W t.parts)",
  "new": "addMode W db s m.w t.L (conjugate W t.parts)",
  "edit": "added to the particle itself",
  "claim": "C71, C37"
 },
 {
  "file": "Decay/Model.lean",
  "def": "sectionLine",
  "old": "if (W.M M).states.any fun s => !(st.done s).isEmpty then .error .loadFailure\n    else ",
  "new": "",
  "edit": "duplicates not detected",
  "claim": "C37"
 },
 {
  "file": "Decay/Model.lean",
  "def": "sectionLine",
  "old": "pending := fun _ => [] }",
  "new": "pending := st.pending }",
  "edit": "pending modes not cleared",
  "claim": "C37 (sums), C71"
 },
 {
  "file": "Decay/Model.lean",
  "def": "stateBranch",
  "old": "fun m => (W.T m).charge == charge",
  "new": "fun m => (W.T m).charge == charge || true",
  "edit": "charge not checked",
  "claim": "C71"
 },
 {
  "file": "Decay/Model.lean",
  "def": "finalChecks",
  "old": "L < r.minL ∨ L > r.maxL",
  "new": "L < r.minL",
  "edit": "upper limit not checked",
  "claim": "C38"
 },
 {
  "file": "Decay/Model.lean",
  "def": "finalChecks",
  "old": "if L % 2 = 1 then !r.parity else r.parity",
  "new": "r.parity",
  "edit": "orbital parity ignored",
  "claim": "C38 parity"
 },
 {
  "file": "Decay/Model.lean",
  "def": "multiBranch",
  "old": "minL, (s0 + s1 + s2) / 2⟩",
  "new": "minL, (s0 + s1 + s2)⟩",
  "edit": "maximum not halved",
  "claim": "C38"
 },
 {
  "file": "Decay/Model.lean",
  "def": "modeLine",
  "old": "if L < 0 then throw .loadFailure\n",
  "new": "",
  "edit": "negative L accepted",
  "claim": "C38"
 },
 {
  "file": "Decay/Model.lean",
  "def": "massCheck",
  "old": "(W.T m).stable || ",
  "new": "!(W.T m).stable || ",
  "edit": "only stable particles checked",
  "claim": "C71 mass"
 },
 {
  "file": "Decay/Model.lean",
  "def": "threshold",
  "old": "(parts.map fun p => (W.T p).minMass).sum",
  "new": "(parts.map fun p => (W.T p).mass).sum",
  "edit": "pole mass instead of minimal mass",
  "claim": "C71 mass"
 },
 {
  "file": "Decay/Model.lean",
  "def": "addCombos",
  "old": "decide (0 < c.2.2)).foldlM",
  "new": "decide (0 ≤ c.2.2)).foldlM",
  "edit": "forbidden combinations added",
  "claim": "C71, C37"
 },
 {
  "file": "Decay/Model.lean",
  "def": "addCombos",
  "old": "(ratio * c.2.2)",
  "new": "(ratio - c.2.2)",
  "edit": "wrong weight",
  "claim": "C37"
 }
]