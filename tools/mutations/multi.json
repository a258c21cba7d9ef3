[
 {
  "file": "Multi/Model.lean",
  "def": "threeDifferentPions",
  "old": "(a != b && b != c && c != a)",
  "new": "(a != b && b != c)",
  "edit": "drop the comparison of the first and the last pion",
  "claim": "3π → ω only from three different pions (charge)"
 },
 {
  "file": "Multi/Model.lean",
  "def": "twoPionsEta",
  "old": "(a == piM && b == eta && c == piP) ||",
  "new": "(a == piM && b == eta && c == piM) ||",
  "edit": "π⁻ η π⁻ accepted",
  "claim": "charge conservation in ππη → η'"
 },
 {
  "file": "Multi/Model.lean",
  "def": "twoPionsEta",
  "old": "  (a == eta && b == piZ && c == piZ) ||\n",
  "new": "",
  "edit": "missing order",
  "claim": "all orders of the incoming particles react"
 },
 {
  "file": "Multi/Model.lean",
  "def": "threeToOne",
  "old": "if a == b || b == c || c == a then 2 else 1",
  "new": "if a == b || b == c then 2 else 1",
  "edit": "symmetry factor misses one order",
  "claim": "symmetry factor of identical pions"
 },
 {
  "file": "Multi/Model.lean",
  "def": "fivePions",
  "old": "inc.countP (· == piZ) == 1",
  "new": "inc.countP (· == piZ) ≤ 1",
  "edit": "no requirement of a neutral pion",
  "claim": "5π states are 2π⁺2π⁻π⁰"
 },
 {
  "file": "Multi/Model.lean",
  "def": "fivePions",
  "old": "(inc.map charge).sum == 0 && ",
  "new": "",
  "edit": "dropped charge condition",
  "claim": "5π → NN̅ conserves charge"
 },
 {
  "file": "Multi/Model.lean",
  "def": "reactDegen",
  "old": "((out1 * out2 : Nat) : ℚ) / (inc : ℚ)",
  "new": "(inc : ℚ) / ((out1 * out2 : Nat) : ℚ)",
  "edit": "inverted degeneracy factor",
  "claim": "spin factor is outgoing over incoming"
 },
 {
  "file": "Multi/Model.lean",
  "def": "sixOrders",
  "old": "(a == x && b == y && f c) ||",
  "new": "(a == x && b == x && f c) ||",
  "edit": "typo in one order",
  "claim": "p p X does not form a deuteron"
 },
 {
  "file": "Multi/Model.lean",
  "def": "nucleonCatalyst",
  "old": "(if a == b then a else c)",
  "new": "(if a == b then c else a)",
  "edit": "wrong member of the pair chosen",
  "claim": "the catalyst is the particle left over"
 },
 {
  "file": "Multi/Model.lean",
  "def": "nucleonCatalyst",
  "old": "| none => [channel32 [a, b, c] 2",
  "new": "| none => [channel32 [a, b, c] 1",
  "edit": "symmetry factor of two equal nucleons dropped",
  "claim": "symmetry factor"
 },
 {
  "file": "Multi/Model.lean",
  "def": "threeToTwo",
  "old": "nucleonCatalyst a b c (-1) deuteron",
  "new": "nucleonCatalyst a b c (-1) antiDeuteron",
  "edit": "antideuteron from nucleons",
  "claim": "baryon number conservation"
 },
 {
  "file": "Multi/Model.lean",
  "def": "threeToTwo",
  "old": "nucleonCatalyst a b c 1 antiDeuteron",
  "new": "nucleonCatalyst a b c (-1) antiDeuteron",
  "edit": "wrong sign searched for",
  "claim": "catalyst of Np̅n̅"
 },
 {
  "file": "Multi/Model.lean",
  "def": "threeToTwo",
  "old": "if known deuteron && known antiDeuteron then",
  "new": "if known deuteron then",
  "edit": "antideuteron type not checked",
  "claim": "only known types are produced"
 },
 {
  "file": "Multi/Model.lean",
  "def": "catalystsIn",
  "old": "+ cnt inc piP +\n  cnt inc piZ + cnt inc piM",
  "new": "+ cnt inc piP +\n  cnt inc piM",
  "edit": "neutral pion no catalyst",
  "claim": "pions catalyse"
 },
 {
  "file": "Multi/Model.lean",
  "def": "canForm",
  "old": "decide (nucleusLa nuc ≤ cnt inc lambda)",
  "new": "decide (nucleusLa nuc ≤ 1)",
  "edit": "Λ not required",
  "claim": "hypertriton needs a Λ"
 },
 {
  "file": "Multi/Model.lean",
  "def": "canForm",
  "old": "nucleusN nuc + nucleusAn nuc) = 1)",
  "new": "nucleusN nuc + nucleusAn nuc) ≤ 1)",
  "edit": "catalyst not required",
  "claim": "a catalyst must remain"
 },
 {
  "file": "Multi/Model.lean",
  "def": "leftOver",
  "old": "(if x = neutron then nucleusN nuc else 0)",
  "new": "(if x = neutron then nucleusP nuc else 0)",
  "edit": "neutrons subtracted with the number of protons",
  "claim": "the catalyst is the particle left over"
 },
 {
  "file": "Multi/Model.lean",
  "def": "symmetry4",
  "old": "if inc.count x = 3 then (6 : ℚ)",
  "new": "if inc.count x = 3 then (3 : ℚ)",
  "edit": "3 instead of 3!",
  "claim": "symmetry factor"
 },
 {
  "file": "Multi/Model.lean",
  "def": "nucleusN",
  "old": "def nucleusN (d : Nat) : Int :=\n  if isNucleus d && !anti d then (A d : Int) - Z d - nLambda d else 0",
  "new": "def nucleusN (d : Nat) : Int :=\n  if isNucleus d && !anti d then (A d : Int) - Z d else 0",
  "edit": "Λ counted as neutron",
  "claim": "constituents of the hypertriton"
 },
 {
  "file": "Multi/Model.lean",
  "def": "nuclei3",
  "old": "hyperTriton, antiHyperTriton]",
  "new": "hyperTriton]",
  "edit": "antihypertriton missing",
  "claim": "every nucleus can be formed"
 },
 {
  "file": "Multi/Model.lean",
  "def": "fiveToTwo",
  "old": "let f : ℚ := 4 *",
  "new": "let f : ℚ := 2 *",
  "edit": "2! instead of 2!2!",
  "claim": "symmetry factor of five pions"
 },
 {
  "file": "Multi/Model.lean",
  "def": "fiveToTwo",
  "old": "⟨[neutron, antiNeutron], f",
  "new": "⟨[neutron, antiProton], f",
  "edit": "wrong pair",
  "claim": "charge conservation"
 },
 {
  "file": "Multi/Model.lean",
  "def": "he3",
  "old": "def he3 : Nat := 0x40030080",
  "new": "def he3 : Nat := 0x40030040",
  "edit": "code of the triton",
  "claim": "He-3 code"
 },
 {
  "file": "Multi/Model.lean",
  "def": "lambdaTilde",
  "old": "- 4 * b * c",
  "new": "- 2 * b * c",
  "edit": "wrong Källén function",
  "claim": "detailed balance"
 },
 {
  "file": "Multi/Model.lean",
  "def": "prob32",
  "old": "1 / (4 * e1 * e2 * e3) * lamb",
  "new": "1 / (8 * e1 * e2 * e3) * lamb",
  "edit": "wrong prefactor",
  "claim": "detailed balance 3→2"
 },
 {
  "file": "Multi/Model.lean",
  "def": "prob42",
  "old": "(4 * Real.pi * s) * lamb",
  "new": "(8 * Real.pi * s) * lamb",
  "edit": "wrong prefactor",
  "claim": "detailed balance 4→2"
 },
 {
  "file": "Multi/Model.lean",
  "def": "prob52",
  "old": "env.ppbarTotal s - env.ppbarElastic s",
  "new": "env.ppbarTotal s",
  "edit": "elastic part not subtracted",
  "claim": "detailed balance 5→2"
 },
 {
  "file": "Multi/Model.lean",
  "def": "prob52",
  "old": "hbarc ^ 11",
  "new": "hbarc ^ 8",
  "edit": "wrong power of ħc",
  "claim": "units of the 5→2 probability"
 },
 {
  "file": "Multi/Model.lean",
  "def": "prob31",
  "old": "dt / (vol * vol) * Real.pi",
  "new": "dt / vol * Real.pi",
  "edit": "one volume factor missing",
  "claim": "3→1 probability"
 },
 {
  "file": "Multi/Model.lean",
  "def": "gev2mb",
  "old": "hbarc * hbarc / 0.1",
  "new": "hbarc * hbarc * 0.1",
  "edit": "inverse conversion fm² to mb",
  "claim": "cross section units"
 },
 {
  "file": "Multi/Model.lean",
  "def": "g4",
  "old": "1 + 1.61741 * x - 2.12543",
  "new": "1 - 1.61741 * x - 2.12543",
  "edit": "sign of a coefficient",
  "claim": "Φ₄ is positive"
 },
 {
  "file": "Multi/Model.lean",
  "def": "g4",
  "old": "else if nn = 3 ∧ nl = 1 then",
  "new": "else if nn = 3 ∧ nl = 2 then",
  "edit": "missed case ΛNNN",
  "claim": "Φ₄ is parametrised for every reaction"
 },
 {
  "file": "Multi/Model.lean",
  "def": "phi5",
  "old": "25 * pionMass * pionMass",
  "new": "36 * pionMass * pionMass",
  "edit": "threshold of six pions",
  "claim": "Φ₅ is positive above threshold"
 },
 {
  "file": "Multi/Model.lean",
  "def": "i3",
  "old": "4 * m1 * m2 * Real.sqrt (qmm / qpp) * (x4 - m3 * sqrts + m1 * m2)",
  "new": "4 * m1 * m2 * Real.sqrt (qmm / qpp) * (x4 - m3 * sqrts + m1 * m1)",
  "edit": "m1 m1 instead of m1 m2",
  "claim": "I₃ symmetric in the first two masses"
 },
 {
  "file": "Multi/Model.lean",
  "def": "prob42",
  "old": "dt / vol ^ 3 * 1 / (16 * e1 * e2 * e3 * e4)",
  "new": "dt / vol ^ 3 * 1 / (16 * e1 * e2 * e3 * e3)",
  "edit": "energy of the last particle not used",
  "claim": "probability independent of the order"
 }
]