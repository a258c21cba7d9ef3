[
 {
  "file": "Wid/Model.lean",
  "def": "bwLoop",
  "old": "((2 * l + 1 : ℕ) : ℂ) * p",
  "new": "((2 * l - 1 : ℕ) : ℂ) * p",
  "edit": "recursion with 2l-1",
  "claim": "C116"
 },
 {
  "file": "Wid/Model.lean",
  "def": "bwLoop",
  "old": "- (x2 : ℂ) * pp)",
  "new": "+ (x2 : ℂ) * pp)",
  "edit": "wrong sign in the recursion",
  "claim": "C116"
 },
 {
  "file": "Wid/Model.lean",
  "def": "bwLoop",
  "old": "(num * x2)",
  "new": "num",
  "edit": "numerator not multiplied",
  "claim": "C116: small momenta"
 },
 {
  "file": "Wid/Model.lean",
  "def": "blattWeisskopfSqr",
  "old": "bwLoop x2 (L - 1).toNat 1 1 ⟨1, -x⟩ x2",
  "new": "bwLoop x2 L.toNat 1 1 ⟨1, -x⟩ x2",
  "edit": "one iteration too many",
  "claim": "C116"
 },
 {
  "file": "Wid/Model.lean",
  "def": "blattWeisskopfSqr",
  "old": "x2 / (1 + x2)",
  "new": "x2 / (1 - x2)",
  "edit": "wrong sign for L = 1",
  "claim": "C116: range"
 },
 {
  "file": "Wid/Model.lean",
  "def": "blattWeisskopfSqr",
  "old": "if L = 0 then 1\n",
  "new": "if L = 0 then 0\n",
  "edit": "L = 0 suppressed",
  "claim": "C116"
 },
 {
  "file": "Wid/Model.lean",
  "def": "blattWeisskopfSqr",
  "old": "Complex.normSq r.1",
  "new": "r.1.re",
  "edit": "real part instead of norm",
  "claim": "C116: range"
 },
 {
  "file": "Wid/Model.lean",
  "def": "postFFSqr",
  "old": "let sminus := (s0 - M2) * (1 / 2)",
  "new": "let sminus := (s0 + M2) * (1 / 2)",
  "edit": "sum instead of difference",
  "claim": "C116: 1 at the pole"
 },
 {
  "file": "Wid/Model.lean",
  "def": "postFFSqr",
  "old": "let splus := m * m - (s0 + M2) * (1 / 2)",
  "new": "let splus := m * m - (s0 + M2)",
  "edit": "factor 1/2 dropped",
  "claim": "C116: 1 at the pole"
 },
 {
  "file": "Wid/Model.lean",
  "def": "postFFSqr",
  "old": "  FF * FF\n",
  "new": "  FF\n",
  "edit": "not squared (still 1 at pole and threshold)",
  "claim": "C116"
 },
 {
  "file": "Wid/Model.lean",
  "def": "breitWigner",
  "old": "2 * msqr * width / (Real.pi",
  "new": "msqr * width / (Real.pi",
  "edit": "factor 2 dropped",
  "claim": "C118: normalisation"
 },
 {
  "file": "Wid/Model.lean",
  "def": "breitWigner",
  "old": "msqr * width * width))",
  "new": "pole * pole * width * width))",
  "edit": "pole mass in the denominator",
  "claim": "C118"
 },
 {
  "file": "Wid/Model.lean",
  "def": "cauchyPdf",
  "old": "width / (Real.pi * (dm * dm + width * width))",
  "new": "width / (dm * dm + width * width)",
  "edit": "pi dropped",
  "claim": "C118: normalisation"
 },
 {
  "file": "Wid/Model.lean",
  "def": "breitWignerNonrel",
  "old": "cauchyPdf m pole (width / 2)",
  "new": "cauchyPdf m pole width",
  "edit": "full width instead of half",
  "claim": "C119: density"
 },
 {
  "file": "Wid/Model.lean",
  "def": "rhoStable",
  "old": "p / m * blattWeisskopfSqr p L",
  "new": "p * m * blattWeisskopfSqr p L",
  "edit": "mass multiplied",
  "claim": "C117"
 },
 {
  "file": "Wid/Model.lean",
  "def": "width",
  "old": "if m ≤ D.threshold then 0 else G0 * rhoStable m1 m2 L m / rhoStable m1 m2 L m0",
  "new": "if m ≤ D.threshold then 0 else G0 * rhoStable m1 m2 L m",
  "edit": "not normalised to the pole",
  "claim": "C117: width at the pole"
 },
 {
  "file": "Wid/Model.lean",
  "def": "width",
  "old": ".ok (G0 * rho m / rho m0 * postFFSqr m m0 D.threshold lambda)",
  "new": ".ok (G0 * rho m / rho m0 * postFFSqr m0 m D.threshold lambda)",
  "edit": "mass and pole mass exchanged",
  "claim": "C117"
 },
 {
  "file": "Wid/Model.lean",
  "def": "width",
  "old": "| .threeBody => .ok G0\n  | .dalitz st",
  "new": "| .threeBody => .ok (G0 * m)\n  | .dalitz st",
  "edit": "three-body width not constant",
  "claim": "C117"
 },
 {
  "file": "Wid/Model.lean",
  "def": "width",
  "old": "else G0 * ((m0 / m) * (m0 / m) * (m0 / m)) * Real.sqrt (1 - 4",
  "new": "else G0 * ((m0 / m) * (m0 / m) * (m0 / m)) * Real.sqrt (1 + 4",
  "edit": "sign in the phase space of dileptons",
  "claim": "C117"
 },
 {
  "file": "Wid/Model.lean",
  "def": "partialWidth",
  "old": "if m < D.threshold then .ok 0 else",
  "new": "if m > D.threshold then .ok 0 else",
  "edit": "threshold the wrong way round",
  "claim": "C117"
 },
 {
  "file": "Wid/Model.lean",
  "def": "partialWidth",
  "old": "(R.width * D.weight) m",
  "new": "R.width m",
  "edit": "branching ratio dropped",
  "claim": "C117"
 },
 {
  "file": "Wid/Model.lean",
  "def": "sumWidths",
  "old": ".ok (w + r)",
  "new": ".ok (max w r)",
  "edit": "largest instead of sum",
  "claim": "C117: total"
 },
 {
  "file": "Wid/Model.lean",
  "def": "totalWidth",
  "old": ".ok (if w < cutoff then 0 else w)",
  "new": ".ok (if w < cutoff then cutoff else w)",
  "edit": "cut-off as minimal width",
  "claim": "C117: total"
 },
 {
  "file": "Wid/Model.lean",
  "def": "partialWidths",
  "old": "if w > 0 ∧ wanted D wh = true then",
  "new": "if w ≥ 0 ∧ wanted D wh = true then",
  "edit": "closed channels offered",
  "claim": "C117: branches"
 },
 {
  "file": "Wid/Model.lean",
  "def": "partialWidths",
  "old": "if w > 0 ∧ wanted D wh = true then",
  "new": "if w > 0 then",
  "edit": "all modes whatever wanted",
  "claim": "C117: branches"
 },
 {
  "file": "Wid/Model.lean",
  "def": "wanted",
  "old": "| .hadronic => !D.kind.isDilepton",
  "new": "| .hadronic => D.kind.isDilepton",
  "edit": "hadronic and dilepton modes mixed up",
  "claim": "C117: branches"
 },
 {
  "file": "Wid/Model.lean",
  "def": "isDilepton",
  "old": "  | .dalitz _ _ => true\n",
  "new": "  | .dalitz _ _ => false\n",
  "edit": "Dalitz decays counted as hadronic",
  "claim": "C117: branches"
 },
 {
  "file": "Wid/Model.lean",
  "def": "minMassKinematic",
  "old": "min m D.threshold",
  "new": "max m D.threshold",
  "edit": "largest threshold",
  "claim": "C117: minimum mass"
 },
 {
  "file": "Wid/Model.lean",
  "def": "minMassKinematic",
  "old": "if R.stable then R.mass else",
  "new": "if R.stable then 0 else",
  "edit": "threshold of stable particles not set",
  "claim": "C117: stable particles have their pole mass as minimum"
 },
 {
  "file": "Wid/Model.lean",
  "def": "spectralNoNorm",
  "old": "if w < cutoff then 0 else breitWigner m R.mass w",
  "new": "if w < cutoff then breitWigner m R.mass R.width else breitWigner m R.mass w",
  "edit": "spectral function below the threshold",
  "claim": "C117"
 },
 {
  "file": "Wid/Model.lean",
  "def": "findRight",
  "old": "findRight sf mmin n (i + 1)",
  "new": "findRight sf mmin n i",
  "edit": "step not advanced",
  "claim": "C119: smallest mass"
 },
 {
  "file": "Wid/Model.lean",
  "def": "bisect",
  "old": "then bisect sf n l ((l + r) / 2) else bisect sf n ((l + r) / 2) r",
  "new": "then bisect sf n ((l + r) / 2) r else bisect sf n l ((l + r) / 2)",
  "edit": "halves exchanged",
  "claim": "C119: smallest mass"
 },
 {
  "file": "Wid/Model.lean",
  "def": "bisect",
  "old": "if r - l > 1 / 1000000 then none else some r",
  "new": "if r - l > 1 / 1000000 then none else some l",
  "edit": "left end returned",
  "claim": "C119: smallest mass"
 },
 {
  "file": "Wid/Model.lean",
  "def": "minMassSpectral",
  "old": "bisect sf 14",
  "new": "bisect sf 10",
  "edit": "fewer bisection steps",
  "claim": "C119: the bisection ends"
 },
 {
  "file": "Wid/Model.lean",
  "def": "minMassSpectral",
  "old": "(r - 1 / 100) r",
  "new": "(r - 2 / 100) r",
  "edit": "wrong left bound",
  "claim": "C119: smallest mass"
 },
 {
  "file": "Wid/Model.lean",
  "def": "sampleVal",
  "old": "S.sf m / breitWignerNonrel m S.mass S.width *\n    (pCM cms mst m *",
  "new": "S.sf m *\n    (pCM cms mst m *",
  "edit": "proposal density not divided out",
  "claim": "C119: density"
 },
 {
  "file": "Wid/Model.lean",
  "def": "sampleTop",
  "old": "max 1 (S.sf mmax",
  "new": "min 1 (S.sf mmax",
  "edit": "smaller envelope",
  "claim": "C119: envelope"
 },
 {
  "file": "Wid/Model.lean",
  "def": "sampleTop",
  "old": "pCM cms mst S.mmin * blattWeisskopfSqr (pCM cms mst S.mmin) L *",
  "new": "pCM cms mst mmax * blattWeisskopfSqr (pCM cms mst mmax) L *",
  "edit": "smallest momentum in the envelope",
  "claim": "C119: envelope"
 },
 {
  "file": "Wid/Model.lean",
  "def": "sampleMass",
  "old": "if sampleVal S mst cms L m < Rand.uniform 0 top v then",
  "new": "if sampleVal S mst cms L m > Rand.uniform 0 top v then",
  "edit": "acceptance inverted",
  "claim": "C119: acceptance"
 },
 {
  "file": "Wid/Model.lean",
  "def": "sampleMass",
  "old": "(f * (sampleVal S mst cms L m / top)) rest",
  "new": "(f / (sampleVal S mst cms L m / top)) rest",
  "edit": "factor decreased",
  "claim": "C119: factor"
 },
 {
  "file": "Wid/Model.lean",
  "def": "sampleMass",
  "old": "Rand.cauchy S.mass (S.width / 2) S.mmin mmax u",
  "new": "Rand.cauchy S.mass (S.width / 2) 0 mmax u",
  "edit": "masses from 0",
  "claim": "C119: range"
 },
 {
  "file": "Wid/Model.lean",
  "def": "samplePair",
  "old": "Rand.cauchy T.mass (T.width / 2) T.mmin max2 u2",
  "new": "Rand.cauchy T.mass (T.width / 2) T.mmin (max1 + max2) u2",
  "edit": "second mass not limited",
  "claim": "C119: range"
 },
 {
  "file": "Wid/Model.lean",
  "def": "samplePair",
  "old": "else some ((m1, m2), f)",
  "new": "else some ((m2, m1), f)",
  "edit": "masses exchanged",
  "claim": "C119: pair"
 },
 {
  "file": "Wid/Model.lean",
  "def": "sampleMasses",
  "old": "if E < A.mkin + B.mkin then",
  "new": "if E < A.mkin then",
  "edit": "threshold of one particle only",
  "claim": "C119: exception"
 },
 {
  "file": "Wid/Model.lean",
  "def": "sampleMasses",
  "old": "draws.map fun d => (d.1, d.2.2))).map fun r => (r.1, B.shape.mass))",
  "new": "draws.map fun d => (d.1, d.2.2))).map fun r => (B.shape.mass, r.1))",
  "edit": "masses exchanged",
  "claim": "C119: masses"
 },
 {
  "file": "Wid/Model.lean",
  "def": "sampleMasses",
  "old": "(sampleMass A.shape B.shape.mass E (next (E - B.shape.mass))",
  "new": "(sampleMass A.shape B.shape.mass E E",
  "edit": "no limit from the partner",
  "claim": "C119: masses"
 },
 {
  "file": "Wid/Model.lean",
  "def": "inverseGamma",
  "old": "Real.sqrt (1 - p.vec.dot",
  "new": "Real.sqrt (1 + p.vec.dot",
  "edit": "wrong sign",
  "claim": "C120: rate"
 },
 {
  "file": "Wid/Model.lean",
  "def": "decayTime",
  "old": "(1 / hbarc * inverseGamma p.momentum * width)",
  "new": "(1 / hbarc * (1 / inverseGamma p.momentum) * width)",
  "edit": "clock runs faster",
  "claim": "C120: rate"
 },
 {
  "file": "Wid/Model.lean",
  "def": "decayTime",
  "old": "let t := lifetimeFactor *",
  "new": "let t := 1 / lifetimeFactor *",
  "edit": "lifetime factor inverted",
  "claim": "C120: rate"
 },
 {
  "file": "Wid/Model.lean",
  "def": "decayTime",
  "old": "if p.scaling < 1 then t + (p.formation - p.time) else t",
  "new": "t",
  "edit": "decays before formation",
  "claim": "C120: formation"
 },
 {
  "file": "Wid/Model.lean",
  "def": "findOne",
  "old": "if !F.decayInitial && p.collisions == 0 then",
  "new": "if p.collisions == 0 then",
  "edit": "initial particles never decay",
  "claim": "C120"
 },
 {
  "file": "Wid/Model.lean",
  "def": "findOne",
  "old": ".ok (if t < dt then some (t, l) else none)",
  "new": ".ok (some (t, l))",
  "edit": "decays after the time step",
  "claim": "C120: time"
 },
 {
  "file": "Wid/Model.lean",
  "def": "findOne",
  "old": ".hadronic R.modes\n    let w",
  "new": ".all R.modes\n    let w",
  "edit": "dilepton widths included",
  "claim": "C120: hadronic decays"
 },
 {
  "file": "Wid/Model.lean",
  "def": "findFinalOne",
  "old": "if !F.nonStrong && R.stable then",
  "new": "if R.stable then",
  "edit": "weak decays never performed",
  "claim": "C120: final"
 },
 {
  "file": "Wid/Model.lean",
  "def": "findFinalOne",
  "old": ".all R.modes",
  "new": ".hadronic R.modes",
  "edit": "only hadronic final decays",
  "claim": "C120: final"
 }
]