[
 {
  "file": "Pot/Model.lean",
  "def": "skyrmePot",
  "old": ".ok (mev * sgn tmp * (A * |tmp| + B * pw))",
  "new": ".ok (mev * (A * |tmp| + B * pw))",
  "edit": "sign dropped",
  "claim": "C125: potential odd"
 },
 {
  "file": "Pot/Model.lean",
  "def": "skyrmePot",
  "old": "let pw ← pow |tmp| tau",
  "new": "let pw ← pow |rho| tau",
  "edit": "power of the density in 1/fm3",
  "claim": "C125: value"
 },
 {
  "file": "Pot/Model.lean",
  "def": "symmetryS",
  "old": "let p ← pow (rhoB / rho0) (2 / 3)",
  "new": "let p ← pow (rhoB / rho0) (1 / 3)",
  "edit": "wrong power",
  "claim": "C125: symmetry energy"
 },
 {
  "file": "Pot/Model.lean",
  "def": "symmetryPot",
  "old": ".ok (pot + mev * s * rhoI * rhoI / (rhoB * rhoB))",
  "new": ".ok (pot + mev * s * rhoI / rhoB)",
  "edit": "not squared",
  "claim": "C125: symmetry energy and its force"
 },
 {
  "file": "Pot/Model.lean",
  "def": "symmetryPot",
  "old": "let pot := mev * 2 * P.sPot * rhoI / rho0",
  "new": "let pot := mev * P.sPot * rhoI / rho0",
  "edit": "factor 2 dropped",
  "claim": "C125: symmetry potential"
 },
 {
  "file": "Pot/Model.lean",
  "def": "vdfF2",
  "old": "e.1 * absRho rho ^ (e.2 - 2) / P.sat ^ (e.2 - 1)).sum * sgn rho",
  "new": "e.1 * absRho rho ^ (e.2 - 1) / P.sat ^ (e.2 - 1)).sum * sgn rho",
  "edit": "wrong power",
  "claim": "C126: field"
 },
 {
  "file": "Pot/Model.lean",
  "def": "vdfF1",
  "old": "e.1 * (e.2 - 2) * absRho",
  "new": "e.1 * (e.2 - 1) * absRho",
  "edit": "wrong factor of the derivative",
  "claim": "C126: force"
 },
 {
  "file": "Pot/Model.lean",
  "def": "vdfF1",
  "old": "absRho rho ^ (e.2 - 3)",
  "new": "absRho rho ^ (e.2 - 2)",
  "edit": "wrong power of the derivative",
  "claim": "C126: force"
 },
 {
  "file": "Pot/Model.lean",
  "def": "forceScale",
  "old": "(((3 - |Pdg.strangeness pdg| : Int) : ℝ) / 3",
  "new": "(((3 - Pdg.strangeness pdg : Int) : ℝ) / 3",
  "edit": "absolute value of strangeness dropped",
  "claim": "C125: share of quarks"
 },
 {
  "file": "Pot/Model.lean",
  "def": "forceScale",
  "old": "/ 3 * (Pdg.baryonNumber pdg : Int), Pdg.baryonNumber pdg)",
  "new": "/ 3 * |Pdg.baryonNumber pdg|, Pdg.baryonNumber pdg)",
  "edit": "antiparticles like particles",
  "claim": "C125: antiparticles"
 },
 {
  "file": "Pot/Model.lean",
  "def": "dSkyrme",
  "old": "let pw ← pow (|rho| / rho0) (P.tau - 1)",
  "new": "let pw ← pow (|rho| / rho0) P.tau",
  "edit": "power not reduced",
  "claim": "C125: force is the derivative"
 },
 {
  "file": "Pot/Model.lean",
  "def": "dSkyrme",
  "old": "(P.a + P.b * P.tau * pw) * mev / rho0",
  "new": "(P.a + P.b * P.tau * pw) * mev",
  "edit": "factor 1/rho0 dropped",
  "claim": "C125: force is the derivative"
 },
 {
  "file": "Pot/Model.lean",
  "def": "skyrmeForce",
  "old": ".ok (zero3.sub ((gradJ0.add dj).smul d), zero3.add (curl.smul d))",
  "new": ".ok (zero3.add ((gradJ0.add dj).smul d), zero3.add (curl.smul d))",
  "edit": "sign of the electric force",
  "claim": "C125: minus the gradient"
 },
 {
  "file": "Pot/Model.lean",
  "def": "skyrmeForce",
  "old": ".ok (zero3.sub ((gradJ0.add dj).smul d), zero3.add (curl.smul d))",
  "new": ".ok (zero3.sub (gradJ0.smul d), zero3.add (curl.smul d))",
  "edit": "time derivative dropped",
  "claim": "C125: force"
 },
 {
  "file": "Pot/Model.lean",
  "def": "dSymI",
  "old": "(t1 + 2 * rhoI * s / (rhoB * rhoB))",
  "new": "(t1 + rhoI * s / (rhoB * rhoB))",
  "edit": "factor 2 dropped",
  "claim": "C125: derivative of the symmetry potential"
 },
 {
  "file": "Pot/Model.lean",
  "def": "dSymB",
  "old": "let t1 := 82 / 10 * p / rho0 + 20 * g * q / rhoB",
  "new": "let t1 := 82 / 10 * p / rho0 + 20 * g * q / rho0",
  "edit": "divided by the wrong density",
  "claim": "C125: derivative of the symmetry potential"
 },
 {
  "file": "Pot/Model.lean",
  "def": "dSymB",
  "old": "let t2 := -2 * s / rhoB",
  "new": "let t2 := 2 * s / rhoB",
  "edit": "wrong sign",
  "claim": "C125: derivative of the symmetry potential"
 },
 {
  "file": "Pot/Model.lean",
  "def": "symmetryForce",
  "old": "(((I.gradJ0.add I.djdt).smul di).add ((B.gradJ0.add B.djdt).smul db))",
  "new": "(((I.gradJ0.add I.djdt).smul db).add ((B.gradJ0.add B.djdt).smul di))",
  "edit": "factors exchanged",
  "claim": "C125: symmetry force"
 },
 {
  "file": "Pot/Model.lean",
  "def": "vdfForce",
  "old": "(gradRho.smul B.j.t).add (B.j.vec.smul drhodt)",
  "new": "(gradRho.smul B.j.t)",
  "edit": "time derivative of the density dropped",
  "claim": "C126: force"
 },
 {
  "file": "Pot/Model.lean",
  "def": "vdfForceA",
  "old": "(zero3.sub (gradA0.add dAdt), zero3.add curlA)",
  "new": "(zero3.sub (gradA0.sub dAdt), zero3.add curlA)",
  "edit": "wrong sign of the time derivative",
  "claim": "C126: both ways agree"
 },
 {
  "file": "Pot/Model.lean",
  "def": "drho",
  "old": "1 / rho * (j.t * dj.t - j.x * dj.x - j.y * dj.y - j.z * dj.z)",
  "new": "1 / rho * (j.t * dj.t + j.x * dj.x + j.y * dj.y + j.z * dj.z)",
  "edit": "metric forgotten",
  "claim": "C126: force"
 },
 {
  "file": "Pot/Model.lean",
  "def": "vdfAll",
  "old": "vdfForce P rho dt g (g.cross B.jmu.vec)",
  "new": "vdfForce P rho dt g (B.jmu.vec.cross g)",
  "edit": "factors of the cross product exchanged",
  "claim": "C126: magnetic force"
 },
 {
  "file": "Pot/Model.lean",
  "def": "momAtRest",
  "old": "mev * 4 * C / (Real.pi",
  "new": "mev * 2 * C / (Real.pi",
  "edit": "degeneracy wrong",
  "claim": "C127: value at rest"
 },
 {
  "file": "Pot/Model.lean",
  "def": "momMoving",
  "old": "- 2 * (Real.arctan ((k + kF) / L) - Real.arctan ((k - kF) / L))",
  "new": "- 2 * (Real.arctan ((k + kF) / L) + Real.arctan ((k - kF) / L))",
  "edit": "sign of the second arctangent",
  "claim": "C127: integral"
 },
 {
  "file": "Pot/Model.lean",
  "def": "momMoving",
  "old": "(kF * kF + L * L - k * k) / (2 * k * L)",
  "new": "(kF * kF + L * L + k * k) / (2 * k * L)",
  "edit": "sign of k^2",
  "claim": "C127: integral"
 },
 {
  "file": "Pot/Model.lean",
  "def": "fermiMomentum",
  "old": "cbrt (6 * Real.pi * Real.pi * rho / 4)",
  "new": "cbrt (6 * Real.pi * Real.pi * rho / 2)",
  "edit": "degeneracy 2",
  "claim": "C127: Fermi momentum"
 },
 {
  "file": "Pot/Model.lean",
  "def": "momPart",
  "old": "else momMoving (p / hbarc) (fermiMomentum rho) C L",
  "new": "else momMoving p (fermiMomentum rho) C L",
  "edit": "momentum not converted",
  "claim": "C127: units"
 },
 {
  "file": "Pot/Model.lean",
  "def": "betaLRF",
  "old": "if j.t > reallySmall then j.vec.div j.t else zero3",
  "new": "if j.t > reallySmall then j.vec else zero3",
  "edit": "current instead of velocity",
  "claim": "C128: rest frame"
 },
 {
  "file": "Pot/Model.lean",
  "def": "toLRF",
  "old": "then boost p (betaLRF j) else p",
  "new": "then boost p (betaLRF j).neg else p",
  "edit": "boost in the wrong direction",
  "claim": "C128: rest frame"
 },
 {
  "file": "Pot/Model.lean",
  "def": "energyLRF",
  "old": "Real.sqrt (m * m + pLRF * pLRF) + u +",
  "new": "Real.sqrt (m * m + pLRF * pLRF) +",
  "edit": "Skyrme potential dropped",
  "claim": "C128: energy"
 },
 {
  "file": "Pot/Model.lean",
  "def": "rootEq",
  "old": "(eL * eL - q * q)",
  "new": "(eL * eL - p.sqr)",
  "edit": "momentum of the wrong frame",
  "claim": "C128: equation"
 },
 {
  "file": "Pot/Model.lean",
  "def": "scan",
  "old": "if ¬ lo > g - 100 ∧ ¬ hi < g + 100 then some (.error .noRoot)",
  "new": "if ¬ lo > g - 100 ∨ ¬ hi < g + 100 then some (.error .noRoot)",
  "edit": "gives up at the first bound",
  "claim": "C128: fails only on the full interval"
 },
 {
  "file": "Pot/Model.lean",
  "def": "scan",
  "old": "else if ¬ lo > g - 100 then scan solve g coin fuel lo (hi + 1 / 10)",
  "new": "else if ¬ lo > g - 100 then scan solve g coin fuel (lo - 1 / 10) hi",
  "edit": "goes on over the bound",
  "claim": "C128: ends, within 100 GeV"
 },
 {
  "file": "Pot/Model.lean",
  "def": "energyGradient",
  "old": "((eh - el) / (2 * h))",
  "new": "((eh - el) / h)",
  "edit": "factor 2",
  "claim": "C128: gradient"
 },
 {
  "file": "Pot/Model.lean",
  "def": "energyGradient",
  "old": "let y ← comp ⟨0, d.y, 0⟩ d.y",
  "new": "let y ← comp ⟨0, d.y, 0⟩ d.x",
  "edit": "wrong cell size",
  "claim": "C128: gradient"
 },
 {
  "file": "Pot/Model.lean",
  "def": "currentAt",
  "old": "if outside then some (direct r) else none",
  "new": "some (direct r)",
  "edit": "setting ignored",
  "claim": "C128: current outside"
 },
 {
  "file": "Pot/Model.lean",
  "def": "eIntegrand",
  "old": "(dr.abs ^ 3)\n\nopen Classical in\n/-- `B_field",
  "new": "(dr.abs ^ 2)\n\nopen Classical in\n/-- `B_field",
  "edit": "power 2",
  "claim": "C130: inverse square"
 },
 {
  "file": "Pot/Model.lean",
  "def": "eIntegrand",
  "old": "let dr := point.sub pos\n  if dr.abs < reallySmall then zero3 else (dr.smul",
  "new": "let dr := pos.sub point\n  if dr.abs < reallySmall then zero3 else (dr.smul",
  "edit": "points towards the charge",
  "claim": "C130: direction"
 },
 {
  "file": "Pot/Model.lean",
  "def": "bIntegrand",
  "old": "(j.cross dr)",
  "new": "(dr.cross j)",
  "edit": "factors exchanged",
  "claim": "C130: magnetic field"
 },
 {
  "file": "Pot/Model.lean",
  "def": "integrateVolume",
  "old": "((f c.1 c.2 point).smul vol).add (integrateVolume f vol point cs)",
  "new": "(f c.1 c.2 point).add (integrateVolume f vol point cs)",
  "edit": "volume dropped",
  "claim": "C130: sum"
 },
 {
  "file": "Pot/Model.lean",
  "def": "effMass",
  "old": "then .ok p.pole else abs4 p.mom",
  "new": "then .ok p.pole else .ok p.pole",
  "edit": "pole mass instead of the mass",
  "claim": "C129: mass kept"
 },
 {
  "file": "Pot/Model.lean",
  "def": "forceOn",
  "old": "if !(Pdg.isBaryon p.pdg || Pdg.isNucleus p.pdg) then .ok (none, s)",
  "new": "if !Pdg.isBaryon p.pdg then .ok (none, s)",
  "edit": "nuclei forgotten",
  "claim": "C129: nuclei feel forces"
 },
 {
  "file": "Pot/Model.lean",
  "def": "forceOn",
  "old": "let fb := if !P.skyrme && !P.vdf then noForce else b.2",
  "new": "let fb := b.2",
  "edit": "left-over force of the previous particle",
  "claim": "C129: independence"
 },
 {
  "file": "Pot/Model.lean",
  "def": "forceOn",
  "old": "let fi := if !P.symmetry then noForce else c.2",
  "new": "let fi := c.2",
  "edit": "left-over force of the previous particle",
  "claim": "C129: independence"
 },
 {
  "file": "Pot/Model.lean",
  "def": "forceOn",
  "old": "if !c.1 && !P.outside then",
  "new": "if !c.1 then",
  "edit": "forces outside ignored",
  "claim": "C129: forces outside of the lattice"
 },
 {
  "file": "Pot/Model.lean",
  "def": "kick",
  "old": "(p.mom.vec.add (f.smul dt))",
  "new": "(f.smul dt)",
  "edit": "momentum replaced",
  "claim": "C129: change of the momentum"
 },
 {
  "file": "Pot/Model.lean",
  "def": "updateMomenta",
  "old": "let qs ← updateMomenta P E dt q.2 ps\n    .ok (q.1 :: qs)",
  "new": "let qs ← updateMomenta P E dt q.2 ps\n    .ok (qs ++ [q.1])",
  "edit": "order reversed",
  "claim": "C129: each particle on its own"
 },
 {
  "file": "Pot/Model.lean",
  "def": "created",
  "old": "⟨P.skyrme || P.vdf || printB, P.symmetry, P.skyrme || P.vdf, P.symmetry⟩",
  "new": "⟨P.skyrme || P.vdf || printB, P.symmetry, P.vdf, P.symmetry⟩",
  "edit": "lattice of the potential not created for Skyrme",
  "claim": "C129: node"
 },
 {
  "file": "Pot/Model.lean",
  "def": "skyrmeNode",
  "old": ".ok { c with ub := smul4 (flow B) u, fb := f }",
  "new": ".ok { c with ub := smul4 (flow I) u, fb := f }",
  "edit": "flow of isospin",
  "claim": "C129: node"
 },
 {
  "file": "Pot/Model.lean",
  "def": "fieldAt",
  "old": "(absRho rho / P.sat) ^ (e.2 - 2) / P.sat",
  "new": "(absRho rho / P.sat) ^ (e.2 - 2)",
  "edit": "factor dropped",
  "claim": "C126: field on the lattice"
 },
 {
  "file": "Pot/Root.lean",
  "def": "testInterval",
  "old": "then min |a| |b| else 0",
  "new": "then max |a| |b| else 1",
  "edit": "absolute precision around zero",
  "claim": "C131: relative precision"
 },
 {
  "file": "Pot/Root.lean",
  "def": "tryFindRoot",
  "old": "if f lo * f hi > 0 then none",
  "new": "if f lo * f hi < 0 then none",
  "edit": "check of the sign inverted",
  "claim": "C131: finds a root"
 },
 {
  "file": "Pot/Root.lean",
  "def": "iterate",
  "old": "some (1 / 2 * (a + b))",
  "new": "some (a + b)",
  "edit": "not the middle",
  "claim": "C131: in the interval"
 },
 {
  "file": "Pot/Root.lean",
  "def": "tryFindRoot",
  "old": "iterate step (max 1 itermax) 0",
  "new": "iterate step 1 0",
  "edit": "one iteration",
  "claim": "C131: enough iterations"
 },
 {
  "file": "Pot/Root.lean",
  "def": "usedEqs",
  "old": "| _, .destroy _ :: ops => usedEqs none ops\n  | s, .solve o",
  "new": "| s, .destroy _ :: ops => usedEqs s ops\n  | s, .solve o",
  "edit": "pointer kept",
  "claim": "C131_shared_false (null pointer)"
 },
 {
  "file": "Pot/Root.lean",
  "def": "usedEqs",
  "old": "| _, .construct _ e :: ops => usedEqs (some e) ops\n  | _, .destroy",
  "new": "| s, .construct _ e :: ops => usedEqs (s.or (some e)) ops\n  | _, .destroy",
  "edit": "first equation kept (with the reset on destruction: right for one at a time)",
  "claim": "C131_shared_false"
 }
]