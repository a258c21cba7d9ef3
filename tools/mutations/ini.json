[
 {
  "file": "Ini/Model.lean",
  "def": "densityMass",
  "old": "p2 * Real.sqrt p2 * Real.exp (-e / T)",
  "new": "p2 * Real.exp (-e / T)",
  "edit": "power of the momentum wrong",
  "claim": "C123: p^3 exp(-E/T)"
 },
 {
  "file": "Ini/Model.lean",
  "def": "density1M",
  "old": "14 / 5) * Real.exp",
  "new": "4 / 5) * Real.exp",
  "edit": "constant wrong, density negative",
  "claim": "C123: positive density"
 },
 {
  "file": "Ini/Model.lean",
  "def": "density2M",
  "old": "1 / 480 * (p2",
  "new": "1 / 4800 * (p2",
  "edit": "constant wrong, density negative",
  "claim": "C123: positive density"
 },
 {
  "file": "Ini/Model.lean",
  "def": "juttner",
  "old": "B / (1 + s * B)",
  "new": "B / (1 - s * B)",
  "edit": "Bose and Fermi exchanged",
  "claim": "C124: occupation"
 },
 {
  "file": "Ini/Model.lean",
  "def": "reject",
  "old": "if Rand.uniform 0 top w > prob (draw u)",
  "new": "if Rand.uniform 0 top w < prob (draw u)",
  "edit": "accepts the rejected",
  "claim": "C123: first accepted"
 },
 {
  "file": "Ini/Model.lean",
  "def": "pNonEqSq",
  "old": "81 * T * T + 36 * m * m",
  "new": "81 * T * T + 4 * m * m",
  "edit": "wrong maximum",
  "claim": "C123: bound"
 },
 {
  "file": "Ini/Model.lean",
  "def": "nonEqTop",
  "old": "2 * densityMass (Real.sqrt (pNonEqSq T m + m * m))",
  "new": "2 * densityMass (Real.sqrt (pNonEqSq T m))",
  "edit": "mass dropped in the energy of the maximum",
  "claim": "C123: bound"
 },
 {
  "file": "Ini/Model.lean",
  "def": "sampleNonEq",
  "old": "let top := Real.sqrt (50 * 50 * T * T - m * m)",
  "new": "let top := 60 * T",
  "edit": "range too large",
  "claim": "C123: range"
 },
 {
  "file": "Ini/Model.lean",
  "def": "energyAverage",
  "old": "3 * T + m * ratio (m / T) else 3 * T",
  "new": "3 * T + m * ratio (m / T) else T",
  "edit": "average energy of massless particles wrong",
  "claim": "C123: bound"
 },
 {
  "file": "Ini/Model.lean",
  "def": "momentTop",
  "old": "16 * g",
  "new": "1 * g",
  "edit": "safety factor dropped",
  "claim": "C123: bound"
 },
 {
  "file": "Ini/Model.lean",
  "def": "sampleMoment",
  "old": ".ok (Real.sqrt ((e - m) * (e + m)))",
  "new": ".ok (Real.sqrt (e * e + m * m))",
  "edit": "momentum from energy wrong",
  "claim": "C123: range"
 },
 {
  "file": "Ini/Model.lean",
  "def": "thermalWeights",
  "old": "(m * m, 2 * m * T, 2 * T * T)",
  "new": "(m * m, m * T, T * T)",
  "edit": "weights of the branches wrong",
  "claim": "C123: Boltzmann"
 },
 {
  "file": "Ini/Model.lean",
  "def": "thermalBranch",
  "old": "if r0 < w.1 / tot then 1",
  "new": "if r0 < w.2.1 / tot then 1",
  "edit": "wrong branch chosen",
  "claim": "C123: Boltzmann"
 },
 {
  "file": "Ini/Model.lean",
  "def": "thermalBranch",
  "old": "if r0 < (w.1 + w.2.1) / tot then 2",
  "new": "if r0 < w.2.1 / tot then 2",
  "edit": "sum of the weights forgotten",
  "claim": "C123: Boltzmann"
 },
 {
  "file": "Ini/Model.lean",
  "def": "kinetic",
  "old": "else if n = 2 then -T * Real.log (R.r1 * R.r2)",
  "new": "else if n = 2 then -T * Real.log R.r1",
  "edit": "second exponential forgotten",
  "claim": "C123: Boltzmann"
 },
 {
  "file": "Ini/Model.lean",
  "def": "kinetic",
  "old": "if n = 1 then -T * Real.log R.r1",
  "new": "if n = 1 then -Real.log R.r1 / T",
  "edit": "temperature inverted",
  "claim": "C123: Boltzmann"
 },
 {
  "file": "Ini/Model.lean",
  "def": "thermalRound",
  "old": "Real.exp ((p - Real.sqrt (p * p + m * m)) / T)",
  "new": "Real.exp (-Real.sqrt (p * p + m * m) / T)",
  "edit": "probability of acceptance not corrected for the proposal",
  "claim": "C123: Boltzmann"
 },
 {
  "file": "Ini/Model.lean",
  "def": "thermalRound",
  "old": "(p, p / e)",
  "new": "(p, p / m)",
  "edit": "divided by the mass instead of the energy",
  "claim": "C123: Boltzmann"
 },
 {
  "file": "Ini/Model.lean",
  "def": "thermalRound",
  "old": "let e := kinetic T (thermalBranch T m R.r0) R + m",
  "new": "let e := kinetic T (thermalBranch T m R.r0) R",
  "edit": "rest mass forgotten",
  "claim": "C123: Boltzmann"
 },
 {
  "file": "Ini/Model.lean",
  "def": "thermalRound",
  "old": "T * (-Real.log R.r1 + -Real.log R.r2 + -Real.log R.r3)",
  "new": "T * (-Real.log R.r1 + -Real.log R.r2)",
  "edit": "third exponential forgotten for hot particles",
  "claim": "C123: Boltzmann"
 },
 {
  "file": "Ini/Model.lean",
  "def": "thermal",
  "old": "if R.c < (thermalRound T m R).2 then .ok",
  "new": "if R.c > (thermalRound T m R).2 then .ok",
  "edit": "accepts the rejected",
  "claim": "C123: first accepted"
 },
 {
  "file": "Ini/Model.lean",
  "def": "sampleES",
  "old": "3 / 4 * T *",
  "new": "T *",
  "edit": "factor 3/4 forgotten",
  "claim": "C123: density of ES"
 },
 {
  "file": "Ini/Model.lean",
  "def": "pMaxEquation",
  "old": "2 * (1 + s * Real.exp (-(e - mu) / T)) - p * p / (T * e)",
  "new": "2 * (1 + s * Real.exp (-(e - mu) / T)) - p / (T * e)",
  "edit": "derivative wrong",
  "claim": "C124: maximum"
 },
 {
  "file": "Ini/Model.lean",
  "def": "pMaxEquation",
  "old": "2 * (1 + s * Real",
  "new": "2 * (1 - s * Real",
  "edit": "statistics with the wrong sign",
  "claim": "C124: maximum"
 },
 {
  "file": "Ini/Model.lean",
  "def": "statistics",
  "old": "if j % 2 = 0 then -1 else 1",
  "new": "if j % 2 = 0 then 1 else -1",
  "edit": "Bose and Fermi exchanged",
  "claim": "C124: statistics by spin"
 },
 {
  "file": "Ini/Model.lean",
  "def": "distrMax",
  "old": "pmax * pmax * juttner",
  "new": "pmax * juttner",
  "edit": "maximum of another function",
  "claim": "C124: maximum"
 },
 {
  "file": "Ini/Model.lean",
  "def": "quantumTable",
  "old": "then some (solve pdg) else none",
  "new": "then none else some (solve pdg)",
  "edit": "entries for the wrong species",
  "claim": "C124: every species"
 },
 {
  "file": "Ini/Model.lean",
  "def": "quantumLoop",
  "old": "let p := Rand.uniform 0 10 u",
  "new": "let p := Rand.uniform 0 1 u",
  "edit": "momenta only up to 1 GeV",
  "claim": "C124: sampling"
 },
 {
  "file": "Ini/Model.lean",
  "def": "quantumLoop",
  "old": "if c > p * p * juttner p m T mu s / top",
  "new": "if c > p * juttner p m T mu s / top",
  "edit": "phase space factor wrong",
  "claim": "C124: sampling"
 },
 {
  "file": "Ini/Model.lean",
  "def": "quantumSample",
  "old": "let s := statistics (spin pdg)",
  "new": "let s := statistics pdg",
  "edit": "code instead of spin",
  "claim": "C124: sampling"
 },
 {
  "file": "Ini/Model.lean",
  "def": "species",
  "old": "List.replicate (e.2 * C.testparticles) e.1",
  "new": "List.replicate e.2 e.1",
  "edit": "test particles ignored",
  "claim": "C121: numbers"
 },
 {
  "file": "Ini/Model.lean",
  "def": "species",
  "old": "C.drawn.flatMap fun e => List.replicate e.2 e.1",
  "new": "C.drawn.flatMap fun e => List.replicate (e.2 * C.testparticles) e.1",
  "edit": "test particles counted twice",
  "claim": "C121: numbers"
 },
 {
  "file": "Ini/Model.lean",
  "def": "initMult",
  "old": "if C.thermalMult then [] else C.mults",
  "new": "if C.thermalMult then C.mults else []",
  "edit": "table for the wrong mode",
  "claim": "C124: every species"
 },
 {
  "file": "Ini/Model.lean",
  "def": "radial",
  "old": "let m := if C.widths then d.mass else C.mass pdg",
  "new": "let m := d.mass",
  "edit": "sampled mass although widths are off",
  "claim": "C121: masses"
 },
 {
  "file": "Ini/Model.lean",
  "def": "boxPos",
  "old": "Rand.uniform 0 L d.u.1,",
  "new": "Rand.uniform (-L) L d.u.1,",
  "edit": "half of the particles outside",
  "claim": "C121: in the box"
 },
 {
  "file": "Ini/Model.lean",
  "def": "spherePos",
  "old": "d.u.1 ^ ((1 : ℝ) / 3) * R",
  "new": "d.u.1 * R",
  "edit": "radius linear in the random number",
  "claim": "C122: uniform"
 },
 {
  "file": "Ini/Model.lean",
  "def": "place",
  "old": "V4.mk' C.start (pos C.size d), C.start⟩",
  "new": "V4.mk' 0 (pos C.size d), C.start⟩",
  "edit": "time of the particles not the starting time",
  "claim": "C121: time"
 },
 {
  "file": "Ini/Model.lean",
  "def": "place",
  "old": "V4.mk' C.start (pos C.size d), C.start⟩",
  "new": "V4.mk' C.start (pos C.size d), C.start + 1⟩",
  "edit": "particles not formed",
  "claim": "C121: formed"
 },
 {
  "file": "Ini/Model.lean",
  "def": "recenter",
  "old": "p.mom.vec.sub (total.vec.div l.length)",
  "new": "p.mom.vec.sub total.vec",
  "edit": "not divided by the number of particles",
  "claim": "C121: momentum zero"
 },
 {
  "file": "Ini/Model.lean",
  "def": "recenter",
  "old": "p.mom.vec.sub (total.vec.div l.length)",
  "new": "p.mom.vec.add (total.vec.div l.length)",
  "edit": "momentum added",
  "claim": "C121: momentum zero"
 },
 {
  "file": "Ini/Model.lean",
  "def": "recenter",
  "old": "Real.sqrt |p.mom.sqr|",
  "new": "Real.sqrt |total.sqr|",
  "edit": "mass of the whole system",
  "claim": "C121: mass shell"
 },
 {
  "file": "Ini/Model.lean",
  "def": "boxJet",
  "old": "Coll.onShell (C.mass pdg) ⟨p, 0, 0⟩",
  "new": "Coll.onShell (C.mass pdg) ⟨0, p, 0⟩",
  "edit": "jet along y",
  "claim": "C121: jet"
 },
 {
  "file": "Ini/Model.lean",
  "def": "box",
  "old": ".ok (l ++ boxJet C jet, C.start)",
  "new": ".ok (boxJet C jet, C.start)",
  "edit": "medium dropped",
  "claim": "C121: jet"
 },
 {
  "file": "Ini/Model.lean",
  "def": "sphereJets",
  "old": "⟨-j.mom, 0, 0⟩",
  "new": "⟨j.mom, 0, 0⟩",
  "edit": "both jets the same way",
  "claim": "C122: jets"
 },
 {
  "file": "Ini/Model.lean",
  "def": "sphereJets",
  "old": "(if j.back then j.separation else 0) / 2",
  "new": "(if j.back then j.separation else 0)",
  "edit": "twice the separation",
  "claim": "C122: jets"
 },
 {
  "file": "Ini/Model.lean",
  "def": "sphereJets",
  "old": "if Pdg.hasAntiparticle j.pdg then Pdg.getAntiparticle j.pdg else j.pdg",
  "new": "j.pdg",
  "edit": "two particles instead of particle and antiparticle",
  "claim": "C122: jets"
 },
 {
  "file": "Ini/Model.lean",
  "def": "flowVelocity",
  "old": "(-1 * v0)).smul",
  "new": "v0).smul",
  "edit": "flow inwards",
  "claim": "C122: flow"
 },
 {
  "file": "Ini/Model.lean",
  "def": "flowVelocity",
  "old": "(r / R) ^ n",
  "new": "(R / r) ^ n",
  "edit": "ratio inverted",
  "claim": "C122: flow"
 },
 {
  "file": "Ini/Model.lean",
  "def": "flow",
  "old": "{ p with mom := boost p.mom v }",
  "new": "{ p with mom := boost p.pos v }",
  "edit": "position boosted",
  "claim": "C122: flow"
 }
]