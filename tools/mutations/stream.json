[
 {
  "file": "Stream/Model.lean",
  "def": "moveVel",
  "old": "if p.id.toNat < beam.length ∧ p.ncoll = 0 then",
  "new": "if p.id.toNat ≤ beam.length ∧ p.ncoll = 0 then",
  "edit": "first produced particle treated as frozen",
  "claim": "C58 (getD falls back to own momentum: may be equivalent)"
 },
 {
  "file": "Stream/Model.lean",
  "def": "moveVel",
  "old": "if p.id.toNat < beam.length ∧ p.ncoll = 0 then",
  "new": "if p.id.toNat < beam.length then",
  "edit": "beam momentum also after the first interaction",
  "claim": "C58 straight line"
 },
 {
  "file": "Stream/Model.lean",
  "def": "moveOne",
  "old": "let dt := toTime - p.pos.t",
  "new": "let dt := p.pos.t - toTime",
  "edit": "wrong sign of the time",
  "claim": "C58"
 },
 {
  "file": "Stream/Model.lean",
  "def": "moveOne",
  "old": "{ p with pos := { pos with t := toTime } }",
  "new": "{ p with pos := pos }",
  "edit": "time not updated",
  "claim": "C58: sets its time to t"
 },
 {
  "file": "Stream/Model.lean",
  "def": "propagate",
  "old": "((ps.getLast?).map",
  "new": "((ps.head?).map",
  "edit": "elapsed time of the first particle: same if all have the same time",
  "claim": "none (equivalent under the theorem)"
 },
 {
  "file": "Stream/Model.lean",
  "def": "backOne",
  "old": "p.pos.vec.add (p.mom.velocity.smul dt)",
  "new": "p.pos.vec.sub (p.mom.velocity.smul dt)",
  "edit": "moved forward",
  "claim": "C58 back"
 },
 {
  "file": "Stream/Model.lean",
  "def": "backOne",
  "old": "let p := setFormation p t",
  "new": "let p := setFormation p toTime",
  "edit": "formation time is the target time",
  "claim": "C58 back: unformed until the original time"
 },
 {
  "file": "Stream/Model.lean",
  "def": "backOne",
  "old": "{ p with initialScaling := 0 }",
  "new": "p",
  "edit": "scaling factor kept",
  "claim": "C58 back"
 },
 {
  "file": "Stream/Model.lean",
  "def": "setFormation",
  "old": "formation := some t, beginFormation := some t,",
  "new": "formation := some t,",
  "edit": "begin of formation not set",
  "claim": "C58 back"
 },
 {
  "file": "Stream/Model.lean",
  "def": "calcHubble",
  "old": "b / (2 * (b * time + 1))",
  "new": "b / (b * time + 1)",
  "edit": "factor 2",
  "claim": "C79"
 },
 {
  "file": "Stream/Model.lean",
  "def": "calcHubble",
  "old": "2 * b / (3 * (b * time + 1))",
  "new": "2 * b / (3 * (b * time) + 1)",
  "edit": "parenthesis",
  "claim": "C79"
 },
 {
  "file": "Stream/Model.lean",
  "def": "calcHubble",
  "old": "| .exponential => b * time",
  "new": "| .exponential => b / 2",
  "edit": "the documented rate: repaired program, the negative theorem must fail",
  "claim": "C79_exponential_false"
 },
 {
  "file": "Stream/Model.lean",
  "def": "expandOne",
  "old": "let mom := (p.mom.sub deltaMom).vec",
  "new": "let mom := (p.mom.add deltaMom).vec",
  "edit": "momenta grow",
  "claim": "C79"
 },
 {
  "file": "Stream/Model.lean",
  "def": "expandOne",
  "old": "mom := V4.mk' (Real.sqrt (p.poleMass * p.poleMass + mom.dot mom)) mom",
  "new": "mom := V4.mk' p.mom.t mom",
  "edit": "energy not adjusted",
  "claim": "C79 mass shell"
 },
 {
  "file": "Stream/Model.lean",
  "def": "expandOne",
  "old": "pos := p.pos.add dist",
  "new": "pos := p.pos.sub dist",
  "edit": "contraction",
  "claim": "C79"
 },
 {
  "file": "Stream/Model.lean",
  "def": "crosses",
  "old": "if tau before ≤ tau0 ∧ tau0 ≤ tau after then",
  "new": "if tau before ≤ tau0 then",
  "edit": "end of the step not checked",
  "claim": "C60"
 },
 {
  "file": "Stream/Model.lean",
  "def": "crosses",
  "old": "if tau before ≤ tau0 ∧ tau0 ≤ tau after then",
  "new": "if tau0 ≤ tau after then",
  "edit": "particles already inside reported again and again",
  "claim": "C60 once"
 },
 {
  "file": "Stream/Model.lean",
  "def": "crosses",
  "old": "else if ¬ |before.t| > |before.z| ∧ |after.t| > |after.z| then\n    if tau after ≥ tau0 then true else false\n",
  "new": "",
  "edit": "particles from outside the light cone not detected",
  "claim": "C60 detected exactly"
 },
 {
  "file": "Stream/Model.lean",
  "def": "crosses",
  "old": "if |before.t| > |before.z| ∧ |after.t| > |after.z| then",
  "new": "if before.t > |before.z| ∧ |after.t| > |after.z| then",
  "edit": "sign of the time considered: repaired program for long steps",
  "claim": "C60_long_step_false"
 },
 {
  "file": "Stream/Model.lean",
  "def": "sol1",
  "old": "n * m / (1 - m * m) + Real.sqrt",
  "new": "n * m / (1 - m * m) - Real.sqrt",
  "edit": "other root",
  "claim": "C60 point on the hypersurface"
 },
 {
  "file": "Stream/Model.lean",
  "def": "sol1",
  "old": "let n := before.z - m * before.t",
  "new": "let n := before.z",
  "edit": "intercept at the present time",
  "claim": "C60 point"
 },
 {
  "file": "Stream/Model.lean",
  "def": "crossingPoint",
  "old": "{ pos with t := s }",
  "new": "pos",
  "edit": "time not set",
  "claim": "C60 point"
 },
 {
  "file": "Stream/Model.lean",
  "def": "findCrossing",
  "old": "if tEnd < 0 then none\n  else if",
  "new": "if",
  "edit": "collisions before t = 0 considered: none crosses (tau of the past cone)",
  "claim": "C60"
 },
 {
  "file": "Stream/Model.lean",
  "def": "findCrossing",
  "old": "else if p.core then none\n",
  "new": "",
  "edit": "core particles reported",
  "claim": "C60 exact"
 },
 {
  "file": "Stream/Model.lean",
  "def": "findCrossing",
  "old": "crosses p.pos after tau0 ∧ withinCuts rapCut pTCut p",
  "new": "crosses p.pos after tau0",
  "edit": "cuts ignored",
  "claim": "C60 exact"
 },
 {
  "file": "Stream/Model.lean",
  "def": "findCrossing",
  "old": "some (crossingPoint p.pos after p.mom.velocity tau0)",
  "new": "some (crossingPoint p.pos after (moveVel beam p) tau0)",
  "edit": "velocity of the motion used: repaired program",
  "claim": "C60_frozen_false"
 },
 {
  "file": "Stream/Model.lean",
  "def": "withinCuts",
  "old": "|rapidity p.mom| > rapCut",
  "new": "rapidity p.mom > rapCut",
  "edit": "negative rapidities not cut",
  "claim": "C60 cuts"
 },
 {
  "file": "Stream/Model.lean",
  "def": "withinCuts",
  "old": "p.mom.x * p.mom.x + p.mom.y * p.mom.y) > pTCut",
  "new": "p.mom.x * p.mom.x + p.mom.y * p.mom.y + p.mom.z * p.mom.z) > pTCut",
  "edit": "total instead of transverse momentum",
  "claim": "C60 cuts"
 },
 {
  "file": "Stream/Model.lean",
  "def": "withinCuts",
  "old": "(1 + p.z / p.t) / (1 - p.z / p.t)) / 2",
  "new": "(1 + p.z / p.t) / (1 - p.z / p.t))",
  "edit": "factor 1/2 of the rapidity",
  "claim": "C60 cuts"
 }
]