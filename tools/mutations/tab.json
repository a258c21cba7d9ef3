[
 {
  "file": "Tab/Model.lean",
  "def": "tabulate",
  "old": "if num < 2 then .error .tooFew",
  "new": "if num < 1 then .error .tooFew",
  "edit": "one step is accepted",
  "claim": "C42: tables need two steps"
 },
 {
  "file": "Tab/Model.lean",
  "def": "tabulate",
  "old": "(List.range (num + 1)).map fun (i : Nat) => f (xMin",
  "new": "(List.range num).map fun (i : Nat) => f (xMin",
  "edit": "one value too few",
  "claim": "C42: value at the last grid point"
 },
 {
  "file": "Tab/Model.lean",
  "def": "tabulate",
  "old": "xMax := xMin + range",
  "new": "xMax := range",
  "edit": "x_max without x_min",
  "claim": "C42: values inside the range"
 },
 {
  "file": "Tab/Model.lean",
  "def": "tabulate",
  "old": "invDx := (num : ℚ) / range",
  "new": "invDx := ((num : ℚ) + 1) / range",
  "edit": "number of points instead of steps",
  "claim": "C42: values at grid points"
 },
 {
  "file": "Tab/Model.lean",
  "def": "Table.getStep",
  "old": "* t.invDx + 1 / 2) with",
  "new": "* t.invDx) with",
  "edit": "rounds down",
  "claim": "C42: nearest grid point"
 },
 {
  "file": "Tab/Model.lean",
  "def": "Table.getStep",
  "old": "if t.values.length ≤ n then t.back else t.at n",
  "new": "t.at n",
  "edit": "no upper bound",
  "claim": "C42: last value above the range"
 },
 {
  "file": "Tab/Model.lean",
  "def": "Table.getLinear",
  "old": "  if x < t.xMin then .ok 0\n  else if e = .zero ∧",
  "new": "  if x ≤ t.xMin then .ok 0\n  else if e = .zero ∧",
  "edit": "0 at the lower bound",
  "claim": "C42: value at the first grid point"
 },
 {
  "file": "Tab/Model.lean",
  "def": "Table.getLinear",
  "old": "else if e = .zero ∧ t.xMax < x then .ok 0",
  "new": "else if e = .zero ∧ t.xMax ≤ x then .ok 0",
  "edit": "0 at the upper bound",
  "claim": "C42: value at the last grid point"
 },
 {
  "file": "Tab/Model.lean",
  "def": "Table.getLinear",
  "old": "else if e = .const ∧ t.xMax < x then t.back",
  "new": "else if e = .const ∧ t.xMax < x then t.at 0",
  "edit": "extrapolates with the first value",
  "claim": "C42: extrapolation"
 },
 {
  "file": "Tab/Model.lean",
  "def": "sizeMinusTwo",
  "old": "(n + 2 ^ 64 - 2) % 2 ^ 64",
  "new": "(n + 2 ^ 64 - 1) % 2 ^ 64",
  "edit": "size - 1 instead of size - 2",
  "claim": "C42: never reads outside the table"
 },
 {
  "file": "Tab/Model.lean",
  "def": "Table.getLinear",
  "old": "let n := min k (sizeMinusTwo t.values.length)",
  "new": "let n := k",
  "edit": "no limit on the index",
  "claim": "C42: never reads outside the table"
 },
 {
  "file": "Tab/Model.lean",
  "def": "Table.getLinear",
  "old": ".ok (a + (b - a) * ((x - t.xMin) * t.invDx - (n : ℚ)))",
  "new": ".ok (b + (b - a) * ((x - t.xMin) * t.invDx - (n : ℚ)))",
  "edit": "starts from the upper value",
  "claim": "C42: interpolation"
 },
 {
  "file": "Tab/Model.lean",
  "def": "Stored.write",
  "old": "hash ++ bytesOf t.xMin ++ bytesOf t.xMax",
  "new": "hash ++ bytesOf t.xMax ++ bytesOf t.xMin",
  "edit": "bounds written in the other order",
  "claim": "C43: round trip"
 },
 {
  "file": "Tab/Model.lean",
  "def": "Stored.write",
  "old": "bytesOf (BitVec.ofNat 64 t.values.length) ++",
  "new": "",
  "edit": "size not written",
  "claim": "C43: round trip"
 },
 {
  "file": "Tab/Model.lean",
  "def": "readVector",
  "old": "let r := s1.read (8 * n.toNat)",
  "new": "let r := s1.read n.toNat",
  "edit": "number of bytes instead of doubles",
  "claim": "C43: round trip"
 },
 {
  "file": "Tab/Model.lean",
  "def": "fromFile",
  "old": "else if hash ≠ r.1 then .ok .empty",
  "new": "",
  "edit": "hash not compared",
  "claim": "C43: other hashes"
 },
 {
  "file": "Tab/Model.lean",
  "def": "fromFile",
  "old": "    let b := readWord a.2",
  "new": "    let b := readWord r.2",
  "edit": "reads x_min twice",
  "claim": "C43: round trip"
 },
 {
  "file": "Tab/Model.lean",
  "def": "cacheIntegral",
  "old": "if usable then fun p => if p = path then some (fresh.write hash) else d p",
  "new": "if usable then fun p => if p = path then some (fresh.write []) else d p",
  "edit": "written without the hash",
  "claim": "C43: history"
 },
 {
  "file": "Tab/Model.lean",
  "def": "cacheIntegral",
  "old": "    else .ok (t, d)",
  "new": "    else .ok (.empty, d)",
  "edit": "the loaded table is not used",
  "claim": "C43: history"
 },
 {
  "file": "Tab/Model.lean",
  "def": "Average.add",
  "old": "⟨(a.avg * (a.n.toNat : ℚ) + x) / ((a.n + 1).toNat : ℚ), a.n + 1⟩",
  "new": "⟨(a.avg * (a.n.toNat : ℚ) + x) / (a.n.toNat : ℚ), a.n + 1⟩",
  "edit": "divides by the old number",
  "claim": "C44: average"
 },
 {
  "file": "Tab/Model.lean",
  "def": "Average.add",
  "old": "⟨(a.avg * (a.n.toNat : ℚ) + x) /",
  "new": "⟨(a.avg + x) /",
  "edit": "average not weighted",
  "claim": "C44: average"
 },
 {
  "file": "Tab/Model.lean",
  "def": "Average.clear",
  "old": "def Average.clear (_ : Average) : Average := ⟨0, 0⟩",
  "new": "def Average.clear (a : Average) : Average := ⟨0, a.n⟩",
  "edit": "number not reset",
  "claim": "C44: average"
 },
 {
  "file": "Tab/Model.lean",
  "def": "dedupLoop",
  "old": "    else (last, avg.average) :: dedupLoop r (avg.clear.add y) x x",
  "new": "    else (last, avg.average) :: dedupLoop r avg.clear x x",
  "edit": "first value of a run not added",
  "claim": "C44: dedup"
 },
 {
  "file": "Tab/Model.lean",
  "def": "dedupLoop",
  "old": "    else (last, avg.average) :: dedupLoop r (avg.clear.add y) x x",
  "new": "    else (last, avg.average) :: dedupLoop r (avg.add y) x x",
  "edit": "average not cleared",
  "claim": "C44: dedup"
 },
 {
  "file": "Tab/Model.lean",
  "def": "dedupLoop",
  "old": "    else (last, avg.average) :: dedupLoop r (avg.clear.add y) x x",
  "new": "    else (x, avg.average) :: dedupLoop r (avg.clear.add y) x x",
  "edit": "the new x is pushed",
  "claim": "C44: dedup"
 },
 {
  "file": "Tab/Model.lean",
  "def": "dedupLoop",
  "old": "  | [], avg, _, last => [(last, avg.average)]",
  "new": "  | [], _, _, _ => []",
  "edit": "the last run is dropped",
  "claim": "C44: dedup"
 },
 {
  "file": "Tab/Model.lean",
  "def": "Line.new",
  "old": "⟨slope, y0 - slope * x0⟩",
  "new": "⟨slope, y0 - slope * x1⟩",
  "edit": "wrong intercept",
  "claim": "C45: lines"
 },
 {
  "file": "Tab/Model.lean",
  "def": "adjacentEqual",
  "old": "a == b || adjacentEqual (b :: r)",
  "new": "a == b",
  "edit": "only the first pair",
  "claim": "C45: duplicates"
 },
 {
  "file": "Tab/Model.lean",
  "def": "interpolate",
  "old": "      | .ok ys => if x.length = 0 then .error .length else .ok ⟨xs, lines xs ys⟩",
  "new": "      | .ok _ => if x.length = 0 then .error .length else .ok ⟨xs, lines xs y⟩",
  "edit": "y values not sorted",
  "claim": "C45: data points"
 },
 {
  "file": "Tab/Model.lean",
  "def": "interpolate",
  "old": ".ok ⟨xs, lines xs ys⟩",
  "new": ".ok ⟨x, lines xs ys⟩",
  "edit": "x values not sorted",
  "claim": "C45: data points"
 },
 {
  "file": "Tab/Model.lean",
  "def": "findIndex",
  "old": "if lowerBound v x = 0 then 0 else lowerBound v x - 1",
  "new": "lowerBound v x",
  "edit": "upper index",
  "claim": "C45: lines"
 },
 {
  "file": "Tab/Model.lean",
  "def": "lowerBound",
  "old": "decide (a < x)",
  "new": "decide (a ≤ x)",
  "edit": "upper_bound instead of lower_bound (equivalent for the interpolated values by continuity)",
  "claim": "none: find_index differs from its documentation only"
 },
 {
  "file": "Tab/Model.lean",
  "def": "Piecewise.eval",
  "old": "(g.f.length + 2 ^ 64 - 1) % 2 ^ 64",
  "new": "0",
  "edit": "first line beyond the last point",
  "claim": "C45: outside"
 },
 {
  "file": "Tab/Model.lean",
  "def": "trilinear",
  "old": "az * (ax * (ay * f8 + (1 - ay) * f6)",
  "new": "az * (ax * (ay * f6 + (1 - ay) * f8)",
  "edit": "corners swapped",
  "claim": "C74: corners"
 },
 {
  "file": "Tab/Model.lean",
  "def": "trilinear",
  "old": "(1 - ax) * (ay * f3 + (1 - ay) * f1))",
  "new": "(1 - ax) * (ay * f3 + ay * f1))",
  "edit": "wrong weight",
  "claim": "C74: corners"
 },
 {
  "file": "Tab/Model.lean",
  "def": "makeSpline",
  "old": "else if x.length < 3 then .error .tooFew",
  "new": "else if x.length < 2 then .error .tooFew",
  "edit": "two points accepted",
  "claim": "C74: three points"
 },
 {
  "file": "Tab/Model.lean",
  "def": "makeSpline",
  "old": "| some a, some b, some c, some d => .ok ⟨a, b, c, d, gsl xs ys⟩",
  "new": "| some a, some b, some c, some d => .ok ⟨a, b, d, c, gsl xs ys⟩",
  "edit": "first and last y swapped",
  "claim": "C74: constant outside"
 },
 {
  "file": "Tab/Model.lean",
  "def": "makeSpline",
  "old": "      if adjacentEqual xs then .error .duplicate\n      else match xs.head?",
  "new": "      match xs.head?",
  "edit": "duplicates accepted",
  "claim": "C74: duplicates"
 },
 {
  "file": "Tab/Model.lean",
  "def": "Spline.eval",
  "old": "  else if g.lastX < x then g.lastY\n",
  "new": "",
  "edit": "no limit above",
  "claim": "C74: constant outside"
 }
]