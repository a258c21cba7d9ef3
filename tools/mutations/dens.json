[
 {
  "file": "Dens/Model.lean",
  "def": "smearingNorm",
  "old": "twoSigmaSqr * Real.pi * Real.sqrt (twoSigmaSqr * Real.pi)",
  "new": "twoSigmaSqr * Real.pi * Real.sqrt twoSigmaSqr",
  "edit": "wrong norm",
  "claim": "C107"
 },
 {
  "file": "Dens/Model.lean",
  "def": "rcutCorrection",
  "old": "(-2) / Real.sqrt Real.pi",
  "new": "(-1) / Real.sqrt Real.pi",
  "edit": "wrong correction",
  "claim": "C107"
 },
 {
  "file": "Dens/Model.lean",
  "def": "Params.rCut",
  "old": "P.cutoff * P.sigma",
  "new": "P.cutoff",
  "edit": "cut-off not in units of the width",
  "claim": "C107"
 },
 {
  "file": "Dens/Model.lean",
  "def": "Params.twoSigSqrInv",
  "old": "1 / (2 * P.sigma * P.sigma)",
  "new": "1 / (P.sigma * P.sigma)",
  "edit": "factor 2 dropped",
  "claim": "C107"
 },
 {
  "file": "Dens/Model.lean",
  "def": "Params.normFactor",
  "old": "* P.ntest * P.nens * rcutCorrection",
  "new": "* P.ntest * rcutCorrection",
  "edit": "number of ensembles forgotten",
  "claim": "C107"
 },
 {
  "file": "Dens/Model.lean",
  "def": "smearing",
  "old": "if rest > P.rCutSqr then",
  "new": "if rest ≥ P.rCutSqr then",
  "edit": "boundary excluded",
  "claim": "C107"
 },
 {
  "file": "Dens/Model.lean",
  "def": "smearing",
  "old": "let rest := r.sqr + ur * ur",
  "new": "let rest := r.sqr - ur * ur",
  "edit": "sign of the contraction",
  "claim": "C107"
 },
 {
  "file": "Dens/Model.lean",
  "def": "smearing",
  "old": "* P.twoSigSqrInv) * u.t",
  "new": "* P.twoSigSqrInv)",
  "edit": "Lorentz factor dropped",
  "claim": "C107"
 },
 {
  "file": "Dens/Model.lean",
  "def": "smearing",
  "old": "r.add (u.vec.smul ur)",
  "new": "r.sub (u.vec.smul ur)",
  "edit": "sign in the gradient",
  "claim": "C107"
 },
 {
  "file": "Dens/Model.lean",
  "def": "smearing",
  "old": "smul P.twoSigSqrInv).smul 2)",
  "new": "smul P.twoSigSqrInv))",
  "edit": "factor 2 in the gradient dropped",
  "claim": "C107"
 },
 {
  "file": "Dens/Model.lean",
  "def": "counted",
  "old": "P.onlyParticipants && p.collisions == 0",
  "new": "P.onlyParticipants && p.collisions != 0",
  "edit": "spectators kept instead of participants",
  "claim": "C107"
 },
 {
  "file": "Dens/Model.lean",
  "def": "flow",
  "old": "p.factor / p.mom.t",
  "new": "p.factor / p.mom.abs",
  "edit": "divided by the mass instead of the energy",
  "claim": "C107"
 },
 {
  "file": "Dens/Model.lean",
  "def": "sfGrad",
  "old": "(p.pos.sub r)",
  "new": "(r.sub p.pos)",
  "edit": "argument order: sign of the gradient",
  "claim": "C107"
 },
 {
  "file": "Dens/Model.lean",
  "def": "timeTerm",
  "old": "smul4 (smul4 (smul4 f g.y) f.y) (-1 / p.factor)",
  "new": "smul4 (smul4 (smul4 f g.y) f.x) (-1 / p.factor)",
  "edit": "wrong velocity component",
  "claim": "C107"
 },
 {
  "file": "Dens/Model.lean",
  "def": "timeTerm",
  "old": "sumV4 [smul4 (smul4 (smul4 f g.x) f.x) (-1 / p.factor)",
  "new": "sumV4 [smul4 (smul4 (smul4 f g.x) f.x) (1 / p.factor)",
  "edit": "sign of one term",
  "claim": "C107"
 },
 {
  "file": "Dens/Model.lean",
  "def": "current",
  "old": "(jpos.abs - jneg.abs) * n",
  "new": "(jpos.abs + jneg.abs) * n",
  "edit": "densities added",
  "claim": "C107"
 },
 {
  "file": "Dens/Model.lean",
  "def": "current",
  "old": "⟨d2.z - d3.y, d3.x - d1.z, d1.y - d2.x⟩",
  "new": "⟨d2.z - d3.y, d1.z - d3.x, d1.y - d2.x⟩",
  "edit": "sign of a curl component",
  "claim": "C107"
 },
 {
  "file": "Dens/Model.lean",
  "def": "current",
  "old": "gradJ0 := ⟨d1.t * n, d2.t * n, d3.t * n⟩",
  "new": "gradJ0 := ⟨d1.t * n, d3.t * n, d2.t * n⟩",
  "edit": "components swapped",
  "claim": "C107"
 },
 {
  "file": "Dens/Model.lean",
  "def": "current",
  "old": "then (smul4 jpos n).add (smul4 jneg n)",
  "new": "then (smul4 jpos n).sub (smul4 jneg n)",
  "edit": "negative charges subtracted again",
  "claim": "C107"
 },
 {
  "file": "Dens/Model.lean",
  "def": "rhoDerivative",
  "old": "- jmu.z * dj.z)",
  "new": "+ jmu.z * dj.z)",
  "edit": "metric sign",
  "claim": "C107"
 },
 {
  "file": "Dens/Smear.lean",
  "def": "Node.addParticle",
  "old": "else ⟨n.pos, n.neg + vel * w⟩",
  "new": "else ⟨n.pos, n.neg - vel * w⟩",
  "edit": "sign of negative charges",
  "claim": "C108"
 },
 {
  "file": "Dens/Smear.lean",
  "def": "discreteWeights",
  "old": "(1 - big) / 6",
  "new": "(1 - big) / 8",
  "edit": "wrong number of neighbours",
  "claim": "C108"
 },
 {
  "file": "Dens/Smear.lean",
  "def": "discreteWeights",
  "old": "c.factor / (P.ntest * P.nens * vCell)",
  "new": "c.factor / (P.ntest * vCell)",
  "edit": "number of ensembles forgotten",
  "claim": "C108"
 },
 {
  "file": "Dens/Smear.lean",
  "def": "discreteWeights",
  "old": "L.cell.x * L.cell.y * L.cell.z",
  "new": "L.cell.x * L.cell.y * L.cell.x",
  "edit": "wrong cell volume",
  "claim": "C108"
 },
 {
  "file": "Dens/Smear.lean",
  "def": "triangularWeights",
  "old": "rad.y - |cc.y - c.pos.y|",
  "new": "rad.y - |cc.y - c.pos.x|",
  "edit": "wrong coordinate",
  "claim": "C108"
 },
 {
  "file": "Dens/Smear.lean",
  "def": "triangularWeights",
  "old": "rad.x * rad.x * rad.y * rad.y * rad.z * rad.z",
  "new": "rad.x * rad.y * rad.z",
  "edit": "wrong normalisation",
  "claim": "C108"
 },
 {
  "file": "Dens/Smear.lean",
  "def": "deposit",
  "old": "deposit vel ws L\n\n",
  "new": "return L\n\n",
  "edit": "only the first node updated",
  "claim": "C108"
 },
 {
  "file": "Dens/Smear.lean",
  "def": "contributes",
  "old": "!decide (|c.factor| < 1 / 1000000)",
  "new": "!decide (c.factor < 1 / 1000000)",
  "edit": "negative charges skipped",
  "claim": "C108",
  "tightened": [
   "C108_discrete_partial",
   "C108_triangular_partial"
  ]
 },
 {
  "file": "Dens/Smear.lean",
  "def": "update",
  "old": "else update weights P cs L",
  "new": "else .ok L",
  "edit": "break instead of continue",
  "claim": "C108"
 }
]