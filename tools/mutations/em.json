[
 {
  "file": "Em/Model.lean",
  "def": "emit",
  "old": "if f m.2 > 0 then some (m.1, f m.2)",
  "new": "if f m.2 > 0 then some (m.1, m.2)",
  "edit": "width written instead of the weight",
  "claim": "C137 weight"
 },
 {
  "file": "Em/Model.lean",
  "def": "emit",
  "old": "if f m.2 > 0 then",
  "new": "if f m.2 > 1 then",
  "edit": "small weights dropped",
  "claim": "C137 every mode shines"
 },
 {
  "file": "Em/Model.lean",
  "def": "shineOne",
  "old": "if all.length == 0 then .ok []\n  else\n    let dil",
  "new": "if all.length != 0 then .ok []\n  else\n    let dil",
  "edit": "shining only without open channels",
  "claim": "C137"
 },
 {
  "file": "Em/Model.lean",
  "def": "shineOne",
  "old": "dil.length == all.length || R.stable || core",
  "new": "R.stable || core",
  "edit": "pure dilepton emitters shine although they decay never",
  "claim": "C137 nothing"
 },
 {
  "file": "Em/Model.lean",
  "def": "shineOne",
  "old": "dil.length == all.length || R.stable || core then",
  "new": "dil.length == all.length || R.stable then",
  "edit": "core particles shine",
  "claim": "C137 nothing"
 },
 {
  "file": "Em/Model.lean",
  "def": "shineOne",
  "old": "dt * inverseGamma p.momentum * w",
  "new": "dt * w",
  "edit": "time dilation forgotten",
  "claim": "C137 weight"
 },
 {
  "file": "Em/Model.lean",
  "def": "shineOne",
  "old": "* w * p.scaling / hbarc",
  "new": "* w / hbarc",
  "edit": "cross section scaling forgotten",
  "claim": "C137 weight"
 },
 {
  "file": "Em/Model.lean",
  "def": "shineOne",
  "old": "p.momentum.abs .dileptons R.modes\n    if dil",
  "new": "p.momentum.abs .hadronic R.modes\n    if dil",
  "edit": "hadronic modes shine",
  "claim": "C137 modes"
 },
 {
  "file": "Em/Model.lean",
  "def": "shineFinalOne",
  "old": "w / totalWeight all",
  "new": "w / totalWeight dil",
  "edit": "branching within the dilepton modes",
  "claim": "C137 final"
 },
 {
  "file": "Em/Model.lean",
  "def": "shineFinalOne",
  "old": "(onlyRes && R.stable) || core then",
  "new": "R.stable || core then",
  "edit": "stable particles never shine at the end",
  "claim": "C137 final"
 },
 {
  "file": "Em/Model.lean",
  "def": "shines",
  "old": "(onlyRes && x.stable)",
  "new": "onlyRes",
  "edit": "nothing shines during the final decays",
  "claim": "C137 once"
 },
 {
  "file": "Em/Model.lean",
  "def": "shines",
  "old": "!(!x.modes ||",
  "new": "!(x.modes ||",
  "edit": "only particles without decay modes shine",
  "claim": "C137 once"
 },
 {
  "file": "Em/Model.lean",
  "def": "decays",
  "old": "F.findFinal && !(!F.nonStrong && x.stable)",
  "new": "!(!F.nonStrong && x.stable)",
  "edit": "final decays not switchable",
  "claim": "C137 once"
 },
 {
  "file": "Em/Model.lean",
  "def": "replace",
  "old": "(if decays F x then prod i x else [x]) ++ replace F prod (i + 1) l",
  "new": "(if decays F x then x :: prod i x else [x]) ++ replace F prod (i + 1) l",
  "edit": "decayed particles stay",
  "claim": "C137 once"
 },
 {
  "file": "Em/Model.lean",
  "def": "products",
  "old": "(if decays F x then prod i x else []) ++ products",
  "new": "(if decays F x then prod i x else [x]) ++ products",
  "edit": "particles left counted as products",
  "claim": "C137 count"
 },
 {
  "file": "Em/Model.lean",
  "def": "rounds",
  "old": "some (ps.filter (shines true) ++ s, products",
  "new": "some (s, products",
  "edit": "only the last round shines",
  "claim": "C137 once"
 },
 {
  "file": "Em/Model.lean",
  "def": "doFinal",
  "old": "r.2.2.filter (shines false)",
  "new": "r.2.2.filter (shines true)",
  "edit": "stable particles at the end do not shine",
  "claim": "C137 once"
 },
 {
  "file": "Em/Model.lean",
  "def": "nonLepton",
  "old": "if !o.lepton then some 0",
  "new": "if o.lepton then some 0",
  "edit": "lepton taken for the hadron",
  "claim": "C138"
 },
 {
  "file": "Em/Model.lean",
  "def": "dalitz",
  "old": "if out.length ≠ 3 then",
  "new": "if out.length < 3 then",
  "edit": "four-body decays accepted",
  "claim": "C138 refused"
 },
 {
  "file": "Em/Model.lean",
  "def": "dalitz",
  "old": "let i2 := (i + 2) % 3",
  "new": "let i2 := (i + 1) % 3",
  "edit": "second lepton is the first",
  "claim": "C138 momenta"
 },
 {
  "file": "Em/Model.lean",
  "def": "dalitz",
  "old": "m1 + m2 + (E - mh - (m1 + m2)) * r",
  "new": "m1 + m2 + (E - (m1 + m2)) * r",
  "edit": "dilepton mass up to the mass of the mother",
  "claim": "C138 momenta"
 },
 {
  "file": "Em/Model.lean",
  "def": "dalitz",
  "old": "let branching := delta * diff dil / w",
  "new": "let branching := diff dil / w",
  "edit": "range forgotten in the weight",
  "claim": "C138 weight"
 },
 {
  "file": "Em/Model.lean",
  "def": "dalitz",
  "old": "let delta := E - mh - m1 - m2",
  "new": "let delta := E - mh",
  "edit": "range without the lepton masses",
  "claim": "C138 weight"
 },
 {
  "file": "Em/Model.lean",
  "def": "dalitz",
  "old": "let pd := pCM E dil mh",
  "new": "let pd := pCM E (m1 + m2) mh",
  "edit": "momentum for the smallest dilepton mass",
  "claim": "C138 momenta"
 },
 {
  "file": "Em/Model.lean",
  "def": "dalitz",
  "old": "let ph := onShell mh (u.neg.smul pd)",
  "new": "let ph := onShell mh (u.smul pd)",
  "edit": "hadron goes along with the dilepton",
  "claim": "C138 momenta"
 },
 {
  "file": "Em/Model.lean",
  "def": "dalitz",
  "old": "let p1 := boost (onShell m1 (v.smul pl)) d4.velocity.neg",
  "new": "let p1 := boost (onShell m1 (v.smul pl)) d4.velocity",
  "edit": "boost of a lepton in the wrong direction",
  "claim": "C138 momenta"
 },
 {
  "file": "Em/Model.lean",
  "def": "totalDilWeight",
  "old": "shining * branching",
  "new": "shining",
  "edit": "Dalitz weight forgotten",
  "claim": "C138 weight"
 },
 {
  "file": "Em/Model.lean",
  "def": "reaction",
  "old": "| .piM, .rhoP => .pmrpPz",
  "new": "| .piM, .rhoP => .pzrpPp",
  "edit": "wrong reaction for π⁻ρ⁺",
  "claim": "C139 reactions"
 },
 {
  "file": "Em/Model.lean",
  "def": "reaction",
  "old": "| .piP, .piM | .piM, .piP => .pppmRz",
  "new": "| .piP, .piM => .pppmRz",
  "edit": "π⁻π⁺ forgotten",
  "claim": "C139 pairs"
 },
 {
  "file": "Em/Model.lean",
  "def": "outHadron",
  "old": "| .pzpmRm => some .rhoM",
  "new": "| .pzpmRm => some .rhoP",
  "edit": "charge of the ρ",
  "claim": "C139 reactions"
 },
 {
  "file": "Em/Model.lean",
  "def": "possible",
  "old": "if med = .pion && reac = .pzrzPz then false\n    else ",
  "new": "",
  "edit": "π⁰ρ⁰ also without ω exchange",
  "claim": "C139 open"
 },
 {
  "file": "Em/Model.lean",
  "def": "possible",
  "old": "!(ty h).stable && sqrts < (ty h).minSpectral + reallySmall",
  "new": "!(ty h).stable && sqrts < (ty h).mass",
  "edit": "pole mass as threshold of the ρ",
  "claim": "C139 open"
 },
 {
  "file": "Em/Model.lean",
  "def": "possible",
  "old": "(ty h).stable && sqrts < (ty h).mass then false",
  "new": "(ty h).stable && sqrts > (ty h).mass then false",
  "edit": "threshold reversed",
  "claim": "C139 open"
 },
 {
  "file": "Em/Model.lean",
  "def": "outMass",
  "old": "if !h.stable then draw else h.mass",
  "new": "if h.stable then draw else h.mass",
  "edit": "mass drawn for pions",
  "claim": "C139"
 },
 {
  "file": "Em/Model.lean",
  "def": "clamp",
  "old": "if c > 1 then 1 else if c < -1 then -1 else c",
  "new": "if c > 1 then 1 else if c < 0 then 0 else c",
  "edit": "only the forward hemisphere",
  "claim": "C139 transfer"
 },
 {
  "file": "Em/Model.lean",
  "def": "photonFinal",
  "old": "let a := if x.mes.isPion then x else y\n  let b := if x.mes.isPion then y else x",
  "new": "let a := x\n  let b := y",
  "edit": "pion not sorted first",
  "claim": "C139 range"
 },
 {
  "file": "Em/Model.lean",
  "def": "photonFinal",
  "old": "let t1 := tr.2",
  "new": "let t1 := tr.1",
  "edit": "range of length zero",
  "claim": "C139 range"
 },
 {
  "file": "Em/Model.lean",
  "def": "photonFinal",
  "old": "let pout := pCM sqrts mOut 0",
  "new": "let pout := pin",
  "edit": "outgoing momentum as large as the incoming one",
  "claim": "C139 momenta"
 },
 {
  "file": "Em/Model.lean",
  "def": "photonFinal",
  "old": "let g := onShell 0 (u.neg.smul pout)",
  "new": "let g := onShell 0 (u.smul pout)",
  "edit": "photon along the hadron",
  "claim": "C139 momenta"
 },
 {
  "file": "Em/Model.lean",
  "def": "photonFinal",
  "old": "s + b.mass ^ 2 - a.mass ^ 2",
  "new": "s + a.mass ^ 2 - b.mass ^ 2",
  "edit": "masses swapped in the angle",
  "claim": "C139 transfer"
 },
 {
  "file": "Em/Model.lean",
  "def": "photonFinal",
  "old": "(toLab P h, toLab P g, t, t2 - t1)",
  "new": "(h, g, t, t2 - t1)",
  "edit": "not boosted back",
  "claim": "C139 momenta"
 },
 {
  "file": "Em/Model.lean",
  "def": "photonWeight",
  "old": "diff * range / (n * sigma)",
  "new": "diff * range / sigma",
  "edit": "number of fractional photons forgotten",
  "claim": "C140 mean"
 },
 {
  "file": "Em/Model.lean",
  "def": "photonWeight",
  "old": "else total / sigma) * (f1 * f2)",
  "new": "else total / sigma) * f1",
  "edit": "scaling of one particle",
  "claim": "C140"
 },
 {
  "file": "Em/Model.lean",
  "def": "photonWeight",
  "old": "if n > 1 then",
  "new": "if n > 0 then",
  "edit": "fractional photons also for a single one",
  "claim": "C140 single"
 },
 {
  "file": "Em/Model.lean",
  "def": "fixTotal",
  "old": "if x < 0 then 1 / 10 else x",
  "new": "x",
  "edit": "negative cross sections",
  "claim": "C140 range"
 },
 {
  "file": "Em/Model.lean",
  "def": "fixDiff",
  "old": "if x < 0 then 1 / 100 else x",
  "new": "x",
  "edit": "negative differential cross sections",
  "claim": "C140 range"
 },
 {
  "file": "Em/Model.lean",
  "def": "cutOff",
  "old": "if x > 200 then 200 else x",
  "new": "if x > 200 then 0 else x",
  "edit": "large cross sections dropped",
  "claim": "C140 form factors"
 },
 {
  "file": "Em/Model.lean",
  "def": "withFF",
  "old": "| .sum => some (cutOff (fpi ^ 4 * x .pion + fom ^ 4 * x .omega))",
  "new": "| .sum => some (cutOff (fpi ^ 4 * x .pion + fpi ^ 4 * x .omega))",
  "edit": "pion form factor for the ω",
  "claim": "C140 form factors"
 },
 {
  "file": "Em/Model.lean",
  "def": "withFF",
  "old": "| .pzrzPz => some (cutOff (fom ^ 4 * x med))",
  "new": "| .pzrzPz => some (cutOff (fpi ^ 4 * x med))",
  "edit": "pion form factor for π⁰ρ⁰",
  "claim": "C140 form factors"
 },
 {
  "file": "Em/Model.lean",
  "def": "dipole",
  "old": "  ff * ff",
  "new": "  ff",
  "edit": "monopole",
  "claim": "C140 dipole"
 },
 {
  "file": "Em/Model.lean",
  "def": "kMax",
  "old": "(E * E - 2 * m0 * 2 * m1) / (2 * E)",
  "new": "(E * E - m0 * m1) / (2 * E)",
  "edit": "threshold masses",
  "claim": "C141 energies"
 },
 {
  "file": "Em/Model.lean",
  "def": "drawK",
  "old": "if kMax E m0 m1 - kMin < 0 then (0, 0)\n  else ",
  "new": "",
  "edit": "no check of the range",
  "claim": "C141 energies"
 },
 {
  "file": "Em/Model.lean",
  "def": "drawK",
  "old": "(kMin + (kMax E m0 m1 - kMin) * r, kMax E m0 m1 - kMin)",
  "new": "(kMin + kMax E m0 m1 * r, kMax E m0 m1 - kMin)",
  "edit": "range starts at zero",
  "claim": "C141 energies"
 },
 {
  "file": "Em/Model.lean",
  "def": "bremsFinal",
  "old": "let Eab := E - mc - k",
  "new": "let Eab := E - mc",
  "edit": "photon energy forgotten",
  "claim": "C141 momenta"
 },
 {
  "file": "Em/Model.lean",
  "def": "bremsFinal",
  "old": "let pp := pCM Eab ma mb",
  "new": "let pp := pCM E ma mb",
  "edit": "pions get the whole energy",
  "claim": "C141 momenta"
 },
 {
  "file": "Em/Model.lean",
  "def": "bremsFinal",
  "old": "onShell mb (v.neg.smul pp)",
  "new": "onShell mb (v.smul pp)",
  "edit": "pions not back to back",
  "claim": "C141 momenta"
 },
 {
  "file": "Em/Model.lean",
  "def": "bremsWeight",
  "old": "/ (n * sigma) * (f1 * f2)",
  "new": "/ sigma * (f1 * f2)",
  "edit": "number of fractional photons",
  "claim": "C142 mean"
 },
 {
  "file": "Em/Model.lean",
  "def": "bremsWeight",
  "old": "dth * (Real.pi - 0)",
  "new": "dth",
  "edit": "range of the angle",
  "claim": "C142 mean"
 },
 {
  "file": "Em/Model.lean",
  "def": "bremsReaction",
  "old": "| .piZ, .piP | .piP, .piZ => .zp",
  "new": "| .piZ, .piP => .zp",
  "edit": "π⁺π⁰ in the other order forgotten",
  "claim": "C141 reactions"
 },
 {
  "file": "Em/Model.lean",
  "def": "positive",
  "old": "if x ≤ 0 then reallySmall else x",
  "new": "x",
  "edit": "negative cross sections",
  "claim": "C141 channel"
 },
 {
  "file": "Em/Model.lean",
  "def": "bremsChannel",
  "old": "some ([.piZ, .piZ], x2)",
  "new": "some (inc, x2)",
  "edit": "charges not changed",
  "claim": "C141 channel"
 },
 {
  "file": "Em/Model.lean",
  "def": "bremsChannel",
  "old": "| .zz => some ([.piP, .piM], positive T.fromZero)",
  "new": "| .zz => some ([.piP, .piP], positive T.fromZero)",
  "edit": "charge not conserved",
  "claim": "C141 channel"
 },
 {
  "file": "Em/Model.lean",
  "def": "bremsChannel",
  "old": "if r * (x1 + x2) ≤ x1 then",
  "new": "if r ≤ 1 / 2 then",
  "edit": "channels with equal probability",
  "claim": "C142 channels"
 }
]