[
 {
  "file": "Sec/Table.lean",
  "def": "nkXx",
  "old": "⟨(0x2212), (-0x321), .knkn, .par .kMpKbarZn, (-0x311), (0x2112)⟩",
  "new": "⟨(0x2212), (-0x321), .knkn, .par .kMpKbarZn, (0x311), (0x2112)⟩",
  "edit": "K- p -> K0 n instead of K0bar n",
  "claim": "C109: strangeness"
 },
 {
  "file": "Sec/Table.lean",
  "def": "nkXx",
  "old": "⟨(0x2112), (-0x321), .strange, .par .kMnPiMSigmaZ, (0x111), (0x3112)⟩",
  "new": "⟨(0x2112), (-0x321), .strange, .par .kMnPiMSigmaZ, (0x111), (0x3222)⟩",
  "edit": "K- n -> pi0 Sigma+",
  "claim": "C109: charge"
 },
 {
  "file": "Sec/Table.lean",
  "def": "npiYk",
  "old": "⟨(0x2212), (-0x211), .always, .par .piMpSigmaMKP, (0x321), (0x3112)⟩",
  "new": "⟨(0x2212), (-0x211), .always, .par .piMpSigmaMKP, (0x321), (-0x3222)⟩",
  "edit": "antibaryon produced",
  "claim": "C109: baryon number"
 },
 {
  "file": "Sec/Table.lean",
  "def": "ypiXx",
  "old": "⟨(0x3212), (0x211), .always, .balance .kMnPiMSigmaZ (0x2212) (-0x311), (0x2212), (-0x311)⟩",
  "new": "⟨(0x3212), (0x211), .always, .balance .kMnPiMLambda (0x2212) (-0x311), (0x2212), (-0x311)⟩",
  "edit": "cross section of another reaction reversed",
  "claim": "C110: detailed balance"
 },
 {
  "file": "Sec/Table.lean",
  "def": "ypiXx",
  "old": "⟨(0x3212), (-0x211), .always, .balance .kMnPiMSigmaZ (0x2112) (-0x321), (0x2112), (-0x321)⟩",
  "new": "⟨(0x3212), (-0x211), .always, .balance .kMnPiMSigmaZ (-0x321) (0x2112), (0x2112), (-0x321)⟩",
  "edit": "swapped order in the factor (harmless: the factor is symmetric)",
  "claim": "C110"
 },
 {
  "file": "Sec/Table.lean",
  "def": "deltakXx",
  "old": "⟨(0x2114), (0x311), .always, .balanceR .kPpInel (0x2112) (0x311), (0x2112), (0x311)⟩",
  "new": "⟨(0x2114), (0x311), .always, .balanceR .kPnInel (0x2112) (0x311), (0x2112), (0x311)⟩",
  "edit": "K+ n background used for K0 n",
  "claim": "C110"
 },
 {
  "file": "Sec/Table.lean",
  "def": "ratioTable",
  "old": "[0x2112, 0x311, 0x321, 0x1114, 0x311, 0x2114]",
  "new": "[0x2112, 0x311, 0x321, 0x1114, 0x311, 0x2214]",
  "edit": "wrong partner channel",
  "claim": "C110: ratios sum to one"
 },
 {
  "file": "Sec/Table.lean",
  "def": "ratioTable",
  "old": "[0x2212, 0x311, 0x311, 0x2214, 0x321, 0x2114],\n",
  "new": "",
  "edit": "entry missing",
  "claim": "C110: ratio always defined"
 },
 {
  "file": "Sec/Table.lean",
  "def": "nkXx",
  "old": "⟨(-0x2112), (-0x321), .knkd, .ratio .kPnInel (-0x311) (-0x2214), (-0x311), (-0x2214)⟩",
  "new": "⟨(-0x2112), (-0x321), .knkd, .ratio .kPpInel (-0x311) (-0x2214), (-0x311), (-0x2214)⟩",
  "edit": "antiparticles with another background",
  "claim": "C111: conjugation"
 },
 {
  "file": "Sec/Model.lean",
  "def": "flip",
  "old": "if f = 0 then flip debug ps (sign p)",
  "new": "if f = 0 then flip debug ps 1",
  "edit": "sign of antinucleons ignored in get_ratio",
  "claim": "C110: ratio always defined"
 },
 {
  "file": "Sec/Model.lean",
  "def": "storedRatio",
  "old": "w / (w + other)",
  "new": "w / other",
  "edit": "not normalised",
  "claim": "C110: ratios sum to one"
 },
 {
  "file": "Sec/Model.lean",
  "def": "balanceStable",
  "old": "(if a.pdg = b.pdg then 2 else 1) / (if c.pdg = d.pdg then 2 else 1)\n  let s",
  "new": "(if c.pdg = d.pdg then 2 else 1) / (if a.pdg = b.pdg then 2 else 1)\n  let s",
  "edit": "symmetry factor inverted (harmless: the four hadrons are all different)",
  "claim": "C110"
 },
 {
  "file": "Sec/Model.lean",
  "def": "balanceStable",
  "old": "Kin.pCMsqrS s c.mass d.mass / Kin.pCMsqrS s a.mass b.mass",
  "new": "Kin.pCMsqrS s a.mass b.mass / Kin.pCMsqrS s c.mass d.mass",
  "edit": "momenta inverted",
  "claim": "C110"
 },
 {
  "file": "Sec/Model.lean",
  "def": "balanceRK",
  "old": "(Kin.pCM W.sqrts W.m1 W.m2 * W.intRK a)",
  "new": "(Kin.pCM W.sqrts W.m1 W.m2 * W.intRK b)",
  "edit": "integral of the kaon instead of the Delta",
  "claim": "C110"
 },
 {
  "file": "Sec/Model.lean",
  "def": "addChannel",
  "old": "if x > small then .ok [⟨[a, b], x⟩] else .ok []",
  "new": ".ok [⟨[a, b], x⟩]",
  "edit": "channels with negative cross section kept",
  "claim": "C109: non-negative"
 },
 {
  "file": "Sec/Model.lean",
  "def": "nnFromType",
  "old": "if charge r1 + charge r2 ≠ charge a + charge b then []",
  "new": "if charge r1 + charge r2 ≠ charge a - charge b then []",
  "edit": "charge compared with the wrong sign",
  "claim": "C109"
 },
 {
  "file": "Sec/Model.lean",
  "def": "nucPairs",
  "old": "if charge a + charge b ≠ charge n1 + charge n2 then []\n    else",
  "new": "if False then []\n    else",
  "edit": "charge not checked",
  "claim": "C109"
 },
 {
  "file": "Sec/Model.lean",
  "def": "product",
  "old": "charge n != charge t || ",
  "new": "",
  "edit": "charge of the produced nucleus not checked",
  "claim": "C109"
 },
 {
  "file": "Sec/Model.lean",
  "def": "product",
  "old": "Pdg.baryonNumber n.pdg != Pdg.baryonNumber t.pdg",
  "new": "Pdg.baryonNumber n.pdg == Pdg.baryonNumber t.pdg",
  "edit": "baryon number comparison inverted",
  "claim": "C109"
 },
 {
  "file": "Sec/Model.lean",
  "def": "dpiXx",
  "old": "if Pdg.baryonNumber a.pdg + Pdg.baryonNumber b.pdg > 0 then W.nucleons else W.antiNucleons",
  "new": "W.nucleons",
  "edit": "antideuteron breaks into nucleons",
  "claim": "C109"
 },
 {
  "file": "Sec/Model.lean",
  "def": "nnXx",
  "old": "let anti := sign a == -1 && sign b == -1",
  "new": "let anti := sign a == -1 && sign b == 1",
  "edit": "antinucleons not recognised",
  "claim": "C109"
 },
 {
  "file": "Sec/Model.lean",
  "def": "nnXx",
  "old": "(if anti then W.antiDeltas else W.deltas)",
  "new": "W.deltas",
  "edit": "Deltas from antinucleons",
  "claim": "C109"
 },
 {
  "file": "Sec/Model.lean",
  "def": "bbXx",
  "old": "if !sameSign && !anyNucleus then []\n  else",
  "new": "if False then []\n  else",
  "edit": "baryon-antibaryon pairs go to two nucleons",
  "claim": "C109"
 },
 {
  "file": "Sec/Model.lean",
  "def": "bbXx",
  "old": "let anti := sign a == -1",
  "new": "let anti := sign a == 1",
  "edit": "nucleons and antinucleons swapped",
  "claim": "C109"
 },
 {
  "file": "Sec/Model.lean",
  "def": "nnToDeuteron",
  "old": "(if anti then [ad] else [d])",
  "new": "[d]",
  "edit": "deuteron from antinucleons",
  "claim": "C109"
 },
 {
  "file": "Sec/Model.lean",
  "def": "matrixElement",
  "old": "if twoI = 2 then 45 / msqr else if twoI = 0 then 120 / msqr else 0",
  "new": "if twoI = 2 then -45 / msqr else if twoI = 0 then 120 / msqr else 0",
  "edit": "negative matrix element (harmless: guarded)",
  "claim": "C109"
 },
 {
  "file": "Sec/Model.lean",
  "def": "matrixElement",
  "old": "((isNstar a && isDelta b) || (isNstar b && isDelta a)) && same then\n    7 / msqr",
  "new": "(isNstar a && isDelta b) && same then\n    7 / msqr",
  "edit": "matrix element not symmetric",
  "claim": "C111: order"
 },
 {
  "file": "Sec/Model.lean",
  "def": "matrixElement",
  "old": "(isDelta a && isDelta b) && same",
  "new": "(isDelta a && isDelta b) && sign a == 1",
  "edit": "only for matter",
  "claim": "C111: conjugation"
 },
 {
  "file": "Sec/Model.lean",
  "def": "npiYkList",
  "old": "let pion := if isNucleon a then b else a",
  "new": "let pion := b",
  "edit": "pion taken as the second particle",
  "claim": "C111: order"
 },
 {
  "file": "Sec/Model.lean",
  "def": "nkXxList",
  "old": "decide (W.sqrts < knOffset + a.mass + b.mass)",
  "new": "decide (W.sqrts < knOffset + a.mass)",
  "edit": "second mass forgotten in the cutoff",
  "claim": "C111: order"
 },
 {
  "file": "Sec/Model.lean",
  "def": "ypiXxList",
  "old": "let hyperon := if Pdg.isHyperon a.pdg then a else b",
  "new": "let hyperon := if Pdg.isHyperon a.pdg then b else a",
  "edit": "hyperon and pion swapped",
  "claim": "C111: order"
 },
 {
  "file": "Sec/Model.lean",
  "def": "twoToTwo",
  "old": "if (isNucleon a && isKaon b) || (isNucleon b && isKaon a) then nkXxList",
  "new": "if (isNucleon a && isKaon b) then nkXxList",
  "edit": "kaon first not treated",
  "claim": "C111: order"
 },
 {
  "file": "Sec/Model.lean",
  "def": "nucChannel",
  "old": "let symIn : ℝ := if a.multiplet = b.multiplet then 2 else 1",
  "new": "let symIn : ℝ := if a.multiplet = b.multiplet ∧ sign a = 1 then 2 else 1",
  "edit": "symmetry factor only for matter",
  "claim": "C111: conjugation"
 }
]