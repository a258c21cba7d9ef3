[
 {
  "file": "Tot/Model.lean",
  "def": "canAnnihilate",
  "old": "isBBbar a b && [1, 2, 3, 4, 5].any",
  "new": "[1, 2, 3, 4, 5].any",
  "edit": "annihilation for pairs that are not baryon and antibaryon",
  "claim": "C112",
  "tightened": [
   "C112_annihilation"
  ]
 },
 {
  "file": "Tot/Model.lean",
  "def": "stringWeights",
  "old": "let nd := max 0 (total - ann - (single + d.2.2))",
  "new": "let nd := max 0 (total - (single + d.2.2))",
  "edit": "annihilation not subtracted from the non-diffractive part",
  "claim": "C112"
 },
 {
  "file": "Tot/Model.lean",
  "def": "stringWeights",
  "old": "let double := max 0 (diffractive - single)",
  "new": "let double := diffractive - single",
  "edit": "double diffractive part not cut at zero",
  "claim": "C112"
 },
 {
  "file": "Tot/Model.lean",
  "def": "stringWeights",
  "old": "let nd := max 0 (total - ann - (single + d.2.2))",
  "new": "let nd := total - ann - (single + d.2.2)",
  "edit": "non-diffractive part not cut at zero",
  "claim": "C112"
 },
 {
  "file": "Tot/Model.lean",
  "def": "stringWeights",
  "old": "let xb := d.2.1 * r",
  "new": "let xb := d.1 * r",
  "edit": "wrong diffractive cross section for XB",
  "claim": "C112"
 },
 {
  "file": "Tot/Model.lean",
  "def": "stringWeights",
  "old": "nd - soft else 0",
  "new": "nd else 0",
  "edit": "hard part counted twice",
  "claim": "C112"
 },
 {
  "file": "Tot/Model.lean",
  "def": "stringWeights",
  "old": "(if annihilates then [⟨.softAnnihilation, [], ann⟩] else [])",
  "new": "[]",
  "edit": "annihilation channel forgotten",
  "claim": "C112"
 },
 {
  "file": "Tot/Model.lean",
  "def": "stringWeights",
  "old": "if total - hd > 0 then",
  "new": "if hd ≤ 0 then",
  "edit": "soft channels only without hard ones",
  "claim": "C112"
 },
 {
  "file": "Tot/Model.lean",
  "def": "stringExcitation",
  "old": "min total (if P.useAQM",
  "new": "max total (if P.useAQM",
  "edit": "annihilation not limited by the total",
  "claim": "C112"
 },
 {
  "file": "Tot/Model.lean",
  "def": "stringPart",
  "old": ".ok (scaled p l ++",
  "new": ".ok (l ++",
  "edit": "strings not weighted with the probability",
  "claim": "C112"
 },
 {
  "file": "Tot/Model.lean",
  "def": "stringPart",
  "old": "(max 0 (P.scale * h - current))",
  "new": "(P.scale * h)",
  "edit": "elastic cross section not subtracted",
  "claim": "C112"
 },
 {
  "file": "Tot/Model.lean",
  "def": "lowPart",
  "old": "scaled ((1 - p) * P.scale) l",
  "new": "scaled P.scale l",
  "edit": "low energy channels not weighted with 1 - p",
  "claim": "C112"
 },
 {
  "file": "Tot/Model.lean",
  "def": "generate",
  "old": "let low ← lowPart W H P a b p\n",
  "new": "let low ← lowPart W H P a b 0\n",
  "edit": "low energy channels with the wrong probability",
  "claim": "C112"
 },
 {
  "file": "Tot/Model.lean",
  "def": "generate",
  "old": "if H.core1 != H.core2 then .ok el",
  "new": "if H.core1 && H.core2 then .ok el",
  "edit": "core-corona condition wrong",
  "claim": "C114"
 },
 {
  "file": "Tot/Model.lean",
  "def": "allScatterings",
  "old": "if h - sumXs l > 0 then do\n        let st ← stringExcitation W H P a b sp (h - sumXs l)",
  "new": "if h > 0 then do\n        let st ← stringExcitation W H P a b sp h",
  "edit": "string cross section added to the rest",
  "claim": "C112"
 },
 {
  "file": "Tot/Model.lean",
  "def": "transit",
  "old": "if sqrts < lower then .ok 0",
  "new": "if sqrts < lower then .ok 1",
  "edit": "string probability one below the region",
  "claim": "C113"
 },
 {
  "file": "Tot/Model.lean",
  "def": "transit",
  "old": "(sqrts - 1 / 2 * (lower + upper))",
  "new": "(sqrts - lower)",
  "edit": "wrong centre of the transition",
  "claim": "C113"
 },
 {
  "file": "Tot/Model.lean",
  "def": "transit",
  "old": ".ok (1 / 2 * (Real.sin",
  "new": ".ok ((Real.sin",
  "edit": "missing factor one half",
  "claim": "C113"
 },
 {
  "file": "Tot/Model.lean",
  "def": "region",
  "old": "a.mass + b.mass + aqmOffset P a b + P.width)",
  "new": "a.mass + b.mass + P.width)",
  "edit": "upper end without offset",
  "claim": "C113"
 },
 {
  "file": "Tot/Model.lean",
  "def": "stringProbability",
  "old": ".ok (if sqrts > a.mass + b.mass + aqmOffset P a b then 1 else 0)",
  "new": ".ok (if sqrts > a.mass + b.mass + aqmOffset P a b then 0 else 1)",
  "edit": "threshold reversed",
  "claim": "C113"
 },
 {
  "file": "Tot/Model.lean",
  "def": "isKplusP",
  "old": "((b.pdg == 0x321 || b.pdg == 0x311) && a.pdg == 0x2212) ||",
  "new": "((b.pdg == 0x321 || b.pdg == 0x311) && a.pdg == 0x2112) ||",
  "edit": "neutron instead of proton for one order",
  "claim": "C115"
 },
 {
  "file": "Tot/Model.lean",
  "def": "isKplusP",
  "old": "((a.pdg == 2 ^ 31 + 0x321 || a.pdg == 2 ^ 31 + 0x311) && b.pdg == 2 ^ 31 + 0x2212)",
  "new": "((a.pdg == 2 ^ 31 + 0x321 || a.pdg == 2 ^ 31 + 0x311) && b.pdg == 0x2212)",
  "edit": "antikaon with proton",
  "claim": "C115"
 },
 {
  "file": "Tot/Model.lean",
  "def": "npiPair",
  "old": "(isPion a && isNucleon b) || (isNucleon a && isPion b)",
  "new": "(isPion a && isNucleon b)",
  "edit": "only one order of pion and nucleon",
  "claim": "C115"
 },
 {
  "file": "Tot/Model.lean",
  "def": "aqmPair",
  "old": "(Pdg.isBaryon b.pdg && Pdg.isMeson a.pdg)) ||",
  "new": "(Pdg.isBaryon b.pdg && Pdg.isMeson b.pdg)) ||",
  "edit": "wrong particle tested",
  "claim": "C115"
 },
 {
  "file": "Tot/Model.lean",
  "def": "npiTable",
  "old": "(n == -0x2212 && m == -0x211) || (n == -0x2112 && m == 0x211) then H.f .pipEl s",
  "new": "(n == -0x2212 && m == 0x211) || (n == -0x2112 && m == -0x211) then H.f .pipEl s",
  "edit": "antinucleons with the wrong pions",
  "claim": "C115"
 },
 {
  "file": "Tot/Model.lean",
  "def": "nkTable",
  "old": "if m = 0x321 then H.f .kmPEl s\n    else if m = -0x321 then H.f .kpPEl s",
  "new": "if m = 0x321 then H.f .kpPEl s\n    else if m = -0x321 then H.f .kmPEl s",
  "edit": "antiprotons like protons",
  "claim": "C115"
 },
 {
  "file": "Tot/Model.lean",
  "def": "totalRaw",
  "old": "(m == -0x321 && n == -0x2212) || (m == -0x311 && n == -0x2112) then H.f .kpPTot s",
  "new": "(m == -0x321 && n == -0x2112) || (m == -0x311 && n == -0x2212) then H.f .kpPTot s",
  "edit": "antinucleons exchanged",
  "claim": "C115"
 },
 {
  "file": "Tot/Model.lean",
  "def": "totalRaw",
  "old": "(m == -0x211 && (n == 0x2112 || n == -0x2212)) then H.f .pipPTot W.sqrts",
  "new": "(m == -0x211 && (n == 0x2112)) then H.f .pipPTot W.sqrts",
  "edit": "antiproton forgotten",
  "claim": "C115"
 },
 {
  "file": "Tot/Model.lean",
  "def": "totalRaw",
  "old": "let baryon := if ma then b else a",
  "new": "let baryon := b",
  "edit": "baryon is always the second",
  "claim": "C115"
 },
 {
  "file": "Tot/Model.lean",
  "def": "totalRaw",
  "old": "if Pdg.isospin3 a.pdg + Pdg.isospin3 b.pdg = 0 then",
  "new": "if Pdg.isospin3 a.pdg = 0 then",
  "edit": "pi0 pi0 recognised by the first pion",
  "claim": "C115"
 },
 {
  "file": "Tot/Model.lean",
  "def": "elasticParametrization",
  "old": "let other := if Pdg.isNucleus a.pdg then b else a\n    if isDeuteron nucleus && isPion",
  "new": "let other := b\n    if isDeuteron nucleus && isPion",
  "edit": "partner of the nucleus is always the second",
  "claim": "C115"
 },
 {
  "file": "Tot/Model.lean",
  "def": "elasticAQM",
  "old": "(a.pdg == piM && b.pdg == piP)",
  "new": "(a.pdg == piM && b.pdg == piM)",
  "edit": "pi- pi+ not recognised",
  "claim": "C115"
 },
 {
  "file": "Tot/Model.lean",
  "def": "highEnergy",
  "old": "(b.pdg == piM && a.pdg == 0x2112) then H.f .pipHigh s",
  "new": "(b.pdg == piM && a.pdg == 0x2212) then H.f .pipHigh s",
  "edit": "proton for neutron in one order",
  "claim": "C115"
 },
 {
  "file": "Tot/Model.lean",
  "def": "highBB",
  "old": "if Pdg.code a.pdg = -Pdg.code b.pdg then",
  "new": "if Pdg.code a.pdg > -Pdg.code b.pdg then",
  "edit": "comparison depends on the order",
  "claim": "C115"
 },
 {
  "file": "Tot/Model.lean",
  "def": "breakUp",
  "old": "let p ← lift (find W (-0x2212))",
  "new": "let p ← lift (find W 0x2212)",
  "edit": "antideuteron breaks up into a proton",
  "claim": "C114"
 },
 {
  "file": "Tot/Model.lean",
  "def": "twoToThree",
  "old": "(if isDeuteron a then a else b) (if isNucleon a then a else b)",
  "new": "(if isDeuteron a then a else b) b",
  "edit": "spectator is always the second",
  "claim": "C114"
 },
 {
  "file": "Tot/Model.lean",
  "def": "components",
  "old": "let bit := if anti then 2 ^ 31 else 0",
  "new": "let bit := 0",
  "edit": "antinuclei break up into nucleons",
  "claim": "C114"
 },
 {
  "file": "Tot/Model.lean",
  "def": "components",
  "old": "((Pdg.A t.pdg : Int) - Pdg.Z t.pdg - Pdg.nLambda t.pdg).toNat",
  "new": "((Pdg.A t.pdg : Int) - Pdg.Z t.pdg).toNat",
  "edit": "Lambdas counted as neutrons",
  "claim": "C114"
 },
 {
  "file": "Tot/Model.lean",
  "def": "possible",
  "old": "charge r == charge a + charge b &&",
  "new": "charge r == charge a &&",
  "edit": "charge of the second particle forgotten",
  "claim": "C114"
 },
 {
  "file": "Tot/Model.lean",
  "def": "possible",
  "old": "Pdg.strangeness r.pdg == Pdg.strangeness a.pdg + Pdg.strangeness b.pdg &&",
  "new": "",
  "edit": "strangeness not checked",
  "claim": "C114"
 },
 {
  "file": "Tot/Model.lean",
  "def": "nnbarTo5pi",
  "old": "[p, m, p, m, z]",
  "new": "[p, p, p, m, z]",
  "edit": "wrong pions",
  "claim": "C114"
 },
 {
  "file": "Tot/Model.lean",
  "def": "nnbarTo5pi",
  "old": "max 0 (H.f .ppbarTot (sOf W) - H.f .ppbarEl (sOf W)) * P.scale⟩",
  "new": "(H.f .ppbarTot (sOf W) - H.f .ppbarEl (sOf W)) * P.scale⟩",
  "edit": "negative cross sections possible",
  "claim": "C114"
 },
 {
  "file": "Tot/Model.lean",
  "def": "nnbarCreation",
  "old": ".ok [⟨.twoToTwo, [n, nb], x⟩, ⟨.twoToTwo, [m, mb], x⟩]",
  "new": ".ok [⟨.twoToTwo, [n, nb], x⟩, ⟨.twoToTwo, [m, m], x⟩]",
  "edit": "two neutrons created",
  "claim": "C114"
 },
 {
  "file": "Tot/Model.lean",
  "def": "breakXs",
  "old": "if t ≤ 0 then 0\n",
  "new": "if t ≤ -1 then 0\n",
  "edit": "below threshold",
  "claim": "C114"
 }
]