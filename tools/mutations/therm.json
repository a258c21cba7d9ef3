[
 {
  "file": "Therm/Model.lean",
  "def": "getClass",
  "old": "  else if h.B < 0 then .antibaryon\n",
  "new": "  else if h.B < 0 then .baryon\n",
  "edit": "antibaryons in the baryon class",
  "claim": "C51: baryon number"
 },
 {
  "file": "Therm/Model.lean",
  "def": "getClass",
  "old": "  else if h.S < 0 then .negS\n",
  "new": "",
  "edit": "strange mesons with negative S classified by charge",
  "claim": "C51: strangeness"
 },
 {
  "file": "Therm/Model.lean",
  "def": "multinomial",
  "old": "(sum - e.mult) (N - n) (i + 1)",
  "new": "sum (N - n) (i + 1)",
  "edit": "running sum not reduced",
  "claim": "C51: all particles of the class are distributed"
 },
 {
  "file": "Therm/Model.lean",
  "def": "multinomial",
  "old": "(sum - e.mult) (N - n) (i + 1)",
  "new": "(sum - e.mult) N (i + 1)",
  "edit": "number left not reduced",
  "claim": "C51"
 },
 {
  "file": "Therm/Model.lean",
  "def": "multinomial",
  "old": "    else if getClass e.had ≠ c then (k :: ·) <$> multinomial bin c es ks sum N (i + 1)\n",
  "new": "",
  "edit": "class not checked",
  "claim": "C51"
 },
 {
  "file": "Therm/Model.lean",
  "def": "bessel",
  "old": "if diff ≥ 0 then (n + |diff|, n) else (n, n + |diff|)",
  "new": "if diff ≥ 0 then (n, n + |diff|) else (n + |diff|, n)",
  "edit": "numbers swapped",
  "claim": "C51"
 },
 {
  "file": "Therm/Model.lean",
  "def": "bessel",
  "old": "else (n, n + |diff|)",
  "new": "else (n, n + diff)",
  "edit": "signed difference added",
  "claim": "C51 for negative charges"
 },
 {
  "file": "Therm/Model.lean",
  "def": "attempt",
  "old": "    let dS := S0 - weigh Had.S es ints\n",
  "new": "    let dS := S0\n",
  "edit": "strangeness of the baryons ignored",
  "claim": "C51"
 },
 {
  "file": "Therm/Model.lean",
  "def": "attempt",
  "old": "        let dC := Q0 - weigh Had.Q es ints\n",
  "new": "        let dC := Q0 + weigh Had.Q es ints\n",
  "edit": "wrong sign of the sampled charge",
  "claim": "C51"
 },
 {
  "file": "Therm/Model.lean",
  "def": "attempt",
  "old": "    if v = .unbiased ∧ ss.1 - ss.2 ≠ dS then .rejected",
  "new": "    if v = .unbiased ∧ ss.1 + ss.2 ≠ dS then .rejected",
  "edit": "sum instead of difference compared",
  "claim": "C51 unbiased"
 },
 {
  "file": "Therm/Model.lean",
  "def": "attempt",
  "old": "        if v = .unbiased ∧ cc.1 - cc.2 ≠ dC then .rejected",
  "new": "        if false then .rejected",
  "edit": "no rejection for the charge",
  "claim": "C51 unbiased"
 },
 {
  "file": "Therm/Model.lean",
  "def": "attempt",
  "old": "(sample .baryon bb.1 (List.replicate es.length 0)).bind (sample .antibaryon bb.2)",
  "new": "(sample .baryon bb.2 (List.replicate es.length 0)).bind (sample .antibaryon bb.1)",
  "edit": "baryons and antibaryons swapped",
  "claim": "C51"
 },
 {
  "file": "Therm/Model.lean",
  "def": "attempt",
  "old": "(sample .posS ss.1 ints).bind (sample .negS ss.2)",
  "new": "(sample .posS ss.1 ints)",
  "edit": "mesons with negative strangeness not sampled",
  "claim": "C51"
 },
 {
  "file": "Therm/Model.lean",
  "def": "bfLoop",
  "old": "    | .rejected => bfLoop v micro es B0 S0 Q0 ds\n",
  "new": "    | .rejected => some []\n",
  "edit": "rejected attempt accepted as empty",
  "claim": "C51"
 },
 {
  "file": "Therm/Model.lean",
  "def": "sampledList",
  "old": "List.replicate x.2.toNat x.1.had",
  "new": "List.replicate (x.2.toNat + 1) x.1.had",
  "edit": "one particle too many per type",
  "claim": "C51"
 },
 {
  "file": "Therm/Model.lean",
  "def": "pick",
  "old": "    if !cond h then pick cond dens r hs (i + 1) sum\n    else\n",
  "new": "    if false then none else\n",
  "edit": "condition of the mode ignored",
  "claim": "C51 mode"
 },
 {
  "file": "Therm/Model.lean",
  "def": "modeAlgo",
  "old": "(fun s h => decide (s + h.S ≥ S0)) Had.S ds sp 0 acc",
  "new": "(fun _ _ => true) Had.S ds sp 0 acc",
  "edit": "multiply strange particles not excluded",
  "claim": "C51 mode: strangeness"
 },
 {
  "file": "Therm/Model.lean",
  "def": "modeAlgo",
  "old": "decide (E0 > e) || decide (s < S0)",
  "new": "decide (E0 > e)",
  "edit": "strangeness not required in mode 1",
  "claim": "C51 mode: S0 > sampled"
 },
 {
  "file": "Therm/Model.lean",
  "def": "modeAlgo",
  "old": "  let (E1, B1) := (E0 - energy acc, B0 - total Had.B acc)",
  "new": "  let (E1, B1) := (E0 - energy acc, B0)",
  "edit": "baryons of the strange modes not subtracted",
  "claim": "C51 mode"
 },
 {
  "file": "Therm/Model.lean",
  "def": "modeAlgo",
  "old": "(fun b _ => decide (b > B1)) (fun b h => decide (b + h.B ≥ B1))",
  "new": "(fun b _ => decide (b > B1)) (fun b h => decide (b + h.B > B1))",
  "edit": "strict comparison: never ends",
  "claim": "C51 mode (the loop cannot end; ends only if already equal) equivalent for the property"
 },
 {
  "file": "Therm/Model.lean",
  "def": "modeAlgo",
  "old": "(fun h => decide (h.S = 0) && decide (h.B = 0) && decide (h.Q < 0))",
  "new": "(fun h => decide (h.B = 0) && decide (h.Q < 0))",
  "edit": "mode 6 also samples strange mesons",
  "claim": "C51 mode"
 },
 {
  "file": "Therm/Model.lean",
  "def": "modeAlgo",
  "old": "(fun h => decide (h.S = 0) && decide (h.B = 0) && decide (h.Q = 0))",
  "new": "(fun h => decide (h.S = 0) && decide (h.Q = 0))",
  "edit": "mode 7 also samples neutrons",
  "claim": "C51 mode"
 },
 {
  "file": "Therm/Model.lean",
  "def": "modeAlgo",
  "old": "  let (E2, Q2) := (E0 - energy acc, Q0 - total Had.Q acc)",
  "new": "  let (E2, Q2) := (E0, Q0)",
  "edit": "charge of the baryons not subtracted",
  "claim": "C51 mode"
 },
 {
  "file": "Therm/Model.lean",
  "def": "scaledE",
  "old": "a * (a + 2) * q.p.vec.sqr",
  "new": "a * a * q.p.vec.sqr",
  "edit": "wrong energy after scaling",
  "claim": "C75"
 },
 {
  "file": "Therm/Model.lean",
  "def": "centred",
  "old": "  let beta := (totalP ps).velocity\n",
  "new": "  let beta := req.velocity\n",
  "edit": "boosted with the required instead of the generated velocity",
  "claim": "C75"
 },
 {
  "file": "Therm/Model.lean",
  "def": "factor",
  "old": "bisect (scaledE cm) req.abs (1 / 1000000) 100 (-1) 0",
  "new": "bisect (scaledE cm) req.abs (1 / 1000000) 100 0 1",
  "edit": "wrong search interval below",
  "claim": "C75"
 },
 {
  "file": "Therm/Model.lean",
  "def": "factor",
  "old": "bisect (scaledE cm) req.abs (1 / 1000000) 100 0 10",
  "new": "bisect (scaledE cm) req.t (1 / 1000000) 100 0 10",
  "edit": "energy instead of invariant mass required",
  "claim": "C75"
 },
 {
  "file": "Therm/Model.lean",
  "def": "bisect",
  "old": "if er ≥ 0 then bisect f target tol k lo a else bisect f target tol k a hi",
  "new": "if er ≥ 0 then bisect f target tol k a hi else bisect f target tol k lo a",
  "edit": "wrong half",
  "claim": "C75"
 },
 {
  "file": "Therm/Model.lean",
  "def": "bisect",
  "old": "    if |er| > tol ∧ k ≠ 0 then",
  "new": "    if er > tol ∧ k ≠ 0 then",
  "edit": "no absolute value",
  "claim": "C75"
 },
 {
  "file": "Therm/Model.lean",
  "def": "renormalize",
  "old": "(onShell q.mass (q.p.vec.smul (1 + a))) req.velocity.neg",
  "new": "(onShell q.mass (q.p.vec.smul (1 + a))) req.velocity",
  "edit": "boosted in the wrong direction",
  "claim": "C75"
 },
 {
  "file": "Therm/Model.lean",
  "def": "renormalize",
  "old": "(onShell q.mass (q.p.vec.smul (1 + a))) req.velocity.neg",
  "new": "(onShell q.mass (q.p.vec.smul a)) req.velocity.neg",
  "edit": "scaled by a instead of 1 + a",
  "claim": "C75"
 }
]