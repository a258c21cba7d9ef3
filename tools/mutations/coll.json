[
 {
  "file": "Coll/Model.lean",
  "def": "fillFromList",
  "old": "List.replicate (e.2.2 * t) (fresh",
  "new": "List.replicate e.2.2 (fresh",
  "edit": "test particles forgotten",
  "claim": "C91"
 },
 {
  "file": "Coll/Model.lean",
  "def": "numberOfParticles",
  "old": "let nop := l.length / t",
  "new": "let nop := l.length / t + 1",
  "edit": "one particle too many",
  "claim": "C91"
 },
 {
  "file": "Coll/Model.lean",
  "def": "numberOfProtons",
  "old": "(l.filter fun n => n.species = .proton).length\n  if",
  "new": "(l.filter fun n => n.species = .neutron).length\n  if",
  "edit": "neutrons counted",
  "claim": "C91"
 },
 {
  "file": "Coll/Model.lean",
  "def": "center",
  "old": "s.x / l.length, s.y",
  "new": "s.x / (l.length + 1), s.y",
  "edit": "centre divided by wrong number",
  "claim": "C91"
 },
 {
  "file": "Coll/Model.lean",
  "def": "alignCenter",
  "old": "n.pos.sub (center l)",
  "new": "n.pos.add (center l)",
  "edit": "shift in the wrong direction",
  "claim": "C91"
 },
 {
  "file": "Coll/Model.lean",
  "def": "rotate",
  "old": "V4.mk' n.pos.t (n.pos.vec.rotate phi theta psi)",
  "new": "V4.mk' n.pos.t ((n.pos.vec.rotate phi theta psi).add ⟨phi, 0, 0⟩)",
  "edit": "rotation around another point",
  "claim": "C91"
 },
 {
  "file": "Coll/Model.lean",
  "def": "arrange",
  "old": "mom := onShell n.mass ⟨0, 0, 0⟩, pos",
  "new": "mom := n.mom, pos",
  "edit": "momenta of the last event kept",
  "claim": "C91"
 },
 {
  "file": "Coll/Model.lean",
  "def": "fermi",
  "old": "(n.mom.vec.sub (ptot.div a))",
  "new": "(n.mom.vec.add (ptot.div a))",
  "edit": "wrong sign of the centralizer",
  "claim": "C91"
 },
 {
  "file": "Coll/Model.lean",
  "def": "fermi",
  "old": "let ptot := sum3 ((l1.filter (·.isNucleon)).map fun n => n.mom.vec)",
  "new": "let ptot := sum3 (l1.map fun n => n.mom.vec)",
  "edit": "momenta of other particles included",
  "claim": "C91"
 },
 {
  "file": "Coll/Model.lean",
  "def": "fermi",
  "old": "if n.isNucleon then { n with mom := V4.mk' n.mom.t (draw i) } else n",
  "new": "{ n with mom := V4.mk' n.mom.t (draw i) }",
  "edit": "all particles get Fermi momenta",
  "claim": "C91"
 },
 {
  "file": "Coll/Model.lean",
  "def": "fermi",
  "old": "{ n with mom := onShell n.mass (n.mom",
  "new": "{ n with mom := V4.mk' n.mom.t (n.mom",
  "edit": "energy not updated",
  "claim": "C91"
 },
 {
  "file": "Coll/Model.lean",
  "def": "fermiDraw",
  "old": " * u) ^ ((1 : ℝ) / 3)",
  "new": " * u) ^ ((1 : ℝ) / 2)",
  "edit": "wrong exponent",
  "claim": "C91"
 },
 {
  "file": "Coll/Model.lean",
  "def": "fermiDraw",
  "old": "3 * π * π * (rho",
  "new": "3 * π * (rho",
  "edit": "pi forgotten",
  "claim": "C91"
 },
 {
  "file": "Coll/Model.lean",
  "def": "boostNucleus",
  "old": "n.pos.z * oneOverGamma⟩",
  "new": "n.pos.z * gamma⟩",
  "edit": "stretched instead of contracted",
  "claim": "C91"
 },
 {
  "file": "Coll/Model.lean",
  "def": "boostNucleus",
  "old": "gamma * (beta * n.mom.t + n.mom.z)",
  "new": "gamma * (beta * n.mom.t - n.mom.z)",
  "edit": "wrong sign in the boost",
  "claim": "C91"
 },
 {
  "file": "Coll/Model.lean",
  "def": "boostNucleus",
  "old": "gamma * (beta * n.mom.t + n.mom.z)",
  "new": "gamma * beta * n.mass + n.mom.z",
  "edit": "mass instead of energy",
  "claim": "C91"
 },
 {
  "file": "Coll/Model.lean",
  "def": "getVelocities",
  "old": "(p / √(ma * ma + p * p), -p / √(mb * mb + p * p))",
  "new": "(p / √(ma * ma + p * p), -p / √(ma * ma + p * p))",
  "edit": "projectile mass for the target",
  "claim": "C92"
 },
 {
  "file": "Coll/Model.lean",
  "def": "getVelocities",
  "old": "(fixedTargetV s ma mb, 0)",
  "new": "(0, fixedTargetV s ma mb)",
  "edit": "projectile at rest",
  "claim": "C92"
 },
 {
  "file": "Coll/Model.lean",
  "def": "getVelocities",
  "old": "(centerOfVelocityV s ma mb, -centerOfVelocityV s ma mb)",
  "new": "(centerOfVelocityV s ma mb, centerOfVelocityV s ma mb)",
  "edit": "same direction",
  "claim": "C92"
 },
 {
  "file": "Coll/Model.lean",
  "def": "energyOption",
  "old": "* MA * MB / (ma * mb) + MA * MA + MB * MB, e)",
  "new": "* MA * MB / (ma * mb), e)",
  "edit": "masses forgotten",
  "claim": "C92"
 },
 {
  "file": "Coll/Model.lean",
  "def": "energyOption",
  "old": "some (sFromEtot (e * na) MA MB, √(sFromEtot e (MA / na) (MB / nb)))",
  "new": "some (sFromEtot e MA MB, √(sFromEtot e (MA / na) (MB / nb)))",
  "edit": "energy per nucleon used for the nucleus",
  "claim": "C92"
 },
 {
  "file": "Coll/Model.lean",
  "def": "energyOption",
  "old": "some (sFromEkin (e * na) MA MB, √(sFromEkin e (MA / na) (MB / nb)))",
  "new": "some (sFromEkin (e * na) MA MB, √(sFromEtot e (MA / na) (MB / nb)))",
  "edit": "total instead of kinetic energy",
  "claim": "C92"
 },
 {
  "file": "Coll/Model.lean",
  "def": "energyOption",
  "old": "some (sFromPlab (e * na) MA MB,",
  "new": "some (sFromPlab (e * nb) MA MB,",
  "edit": "nucleons of the other nucleus",
  "claim": "C92"
 },
 {
  "file": "Coll/Model.lean",
  "def": "energyOption",
  "old": "some (sFromEtot2 (p * na) (t * nb) MA MB",
  "new": "some (sFromEtot2 (p * na) (t * na) MA MB",
  "edit": "nucleons of the projectile for the target",
  "claim": "C92"
 },
 {
  "file": "Coll/Model.lean",
  "def": "collisionEnergy",
  "old": "  | [e] => energyOption MA MB na nb e",
  "new": "  | e :: _ => energyOption MA MB na nb e",
  "edit": "first of several options taken",
  "claim": "C92"
 },
 {
  "file": "Coll/Model.lean",
  "def": "initialConditions",
  "old": "let pb := boostNucleus v.2 pb",
  "new": "let pb := boostNucleus (-v.2) pb",
  "edit": "target boosted the wrong way",
  "claim": "C92"
 },
 {
  "file": "Coll/Model.lean",
  "def": "massOf",
  "old": ".sum / t",
  "new": ".sum",
  "edit": "test particles in the mass",
  "claim": "C92"
 },
 {
  "file": "Coll/Model.lean",
  "def": "initialConditions",
  "old": "let za := -dz - √",
  "new": "let za := -dz + √",
  "edit": "radius added with the wrong sign",
  "claim": "C93"
 },
 {
  "file": "Coll/Model.lean",
  "def": "initialConditions",
  "old": "√(1 - v.1 * v.1) * (a.radius + da)",
  "new": "(a.radius + da)",
  "edit": "radius not contracted",
  "claim": "C93"
 },
 {
  "file": "Coll/Model.lean",
  "def": "initialConditions",
  "old": "dz * |v.2 / v.1|",
  "new": "dz * |v.2|",
  "edit": "displacement of the target",
  "claim": "C93"
 },
 {
  "file": "Coll/Model.lean",
  "def": "initialConditions",
  "old": "shift zb (-impact / 2) time pb",
  "new": "shift zb (impact / 2) time pb",
  "edit": "both nuclei shifted to the same side",
  "claim": "C93"
 },
 {
  "file": "Coll/Model.lean",
  "def": "initialConditions",
  "old": "let time := -dz / |v.1|",
  "new": "let time := dz / |v.1|",
  "edit": "positive start time",
  "claim": "C93"
 },
 {
  "file": "Coll/Model.lean",
  "def": "shift",
  "old": "form := t }",
  "new": "form := 0 }",
  "edit": "formation time not set",
  "claim": "C93"
 },
 {
  "file": "Coll/Model.lean",
  "def": "rotatePlane",
  "old": "pos := V4.mk' n.pos.t (n.pos.vec.rotZ phi)",
  "new": "pos := n.pos",
  "edit": "positions not rotated",
  "claim": "C93"
 },
 {
  "file": "Coll/Model.lean",
  "def": "impactQuadratic",
  "old": "u * (bmax * bmax - bmin * bmin)",
  "new": "u * (bmax - bmin) * (bmax - bmin)",
  "edit": "wrong area",
  "claim": "C94"
 },
 {
  "file": "Coll/Model.lean",
  "def": "impactCustom",
  "old": "if w > p then impactCustom",
  "new": "if w < p then impactCustom",
  "edit": "accepts when it should refuse",
  "claim": "C94"
 },
 {
  "file": "Coll/Model.lean",
  "def": "vertices",
  "old": "⟨-1 / 3, √8 / 3, 0⟩",
  "new": "⟨-1 / 3, √8 / 6, 0⟩",
  "edit": "wrong corner",
  "claim": "C95"
 },
 {
  "file": "Coll/Model.lean",
  "def": "scaleVertices",
  "old": ".smul (√6)).div 4)",
  "new": ".smul (√6)).div 2)",
  "edit": "wrong scale",
  "claim": "C95"
 },
 {
  "file": "Coll/Model.lean",
  "def": "vertexOf",
  "old": "calls % 4",
  "new": "calls / 4",
  "edit": "blocks of nucleons",
  "claim": "C95"
 },
 {
  "file": "Coll/Custom.lean",
  "def": "getLine",
  "old": "| l :: _ => (l, 1)",
  "new": "| l :: _ => (l, 0)",
  "edit": "first line read twice after the end",
  "claim": "C96"
 },
 {
  "file": "Coll/Custom.lean",
  "def": "readfile",
  "old": "≠ np ∨ (l.filter",
  "new": "≠ np ∧ (l.filter",
  "edit": "error only if both numbers are wrong",
  "claim": "C96"
 },
 {
  "file": "Coll/Custom.lean",
  "def": "fillCustom",
  "old": "if c.isospin = 1 then (fillCustom l).map (⟨.proton",
  "new": "if c.isospin = 1 then (fillCustom l).map (⟨.neutron",
  "edit": "protons become neutrons",
  "claim": "C96"
 },
 {
  "file": "Coll/Custom.lean",
  "def": "distribute",
  "old": "if s.nucleus.length ≤ s.index then",
  "new": "if s.nucleus.length < s.index then",
  "edit": "reads past the end",
  "claim": "C96"
 },
 {
  "file": "Coll/Custom.lean",
  "def": "distribute",
  "old": "| .ok ps => .ok ⟨pos, l, 0, ps⟩\n    else",
  "new": "| .ok ps => .ok ⟨pos, l, 1, ps⟩\n    else",
  "edit": "index not reset",
  "claim": "C96"
 },
 {
  "file": "Coll/Custom.lean",
  "def": "distribute",
  "old": ".ok (c.pos, { s with index := s.index + 1 })",
  "new": ".ok (c.pos, s)",
  "edit": "index not advanced",
  "claim": "C96"
 },
 {
  "file": "Coll/WoodsSaxon.lean",
  "def": "branchWeights",
  "old": "let p3 := 2 * p2 / rs",
  "new": "let p3 := p2 / rs",
  "edit": "factor 2 forgotten",
  "claim": "C97"
 },
 {
  "file": "Coll/WoodsSaxon.lean",
  "def": "branchWeights",
  "old": "let p4 := 1 * p3 / rs",
  "new": "let p4 := 2 * p3 / rs",
  "edit": "wrong weight of the last branch",
  "claim": "C97"
 },
 {
  "file": "Coll/WoodsSaxon.lean",
  "def": "keep",
  "old": "exp (-|t|)",
  "new": "exp (-t)",
  "edit": "absolute value forgotten",
  "claim": "C97"
 },
 {
  "file": "Coll/WoodsSaxon.lean",
  "def": "branchOf",
  "old": "(if which ≥ w.2.1 + w.2.2.1 then 3 else 2) else 1\n\n",
  "new": "(if which ≥ w.2.2.1 then 3 else 2) else 1\n\n",
  "edit": "wrong threshold",
  "claim": "C97"
 },
 {
  "file": "Coll/WoodsSaxon.lean",
  "def": "inside",
  "old": "(u ^ ((1 : ℝ) / 3) - 1)",
  "new": "(u ^ ((1 : ℝ) / 2) - 1)",
  "edit": "square root instead of cubic root",
  "claim": "C97"
 },
 {
  "file": "Coll/Model.lean",
  "def": "drawnRadius",
  "old": "if which ≥ p2 + p3 then t - log u3 else t",
  "new": "if which ≥ p2 + p3 then t - log u2 else t",
  "edit": "random number reused",
  "claim": "C97"
 }
]