[
 {
  "file": "Act/Model.lean",
  "def": "addProcess",
  "old": "if p.w > 0 then ⟨s.list",
  "new": "if p.w ≥ 0 then ⟨s.list",
  "edit": "zero weight channels kept",
  "claim": "C32 zero-weight channels are never chosen"
 },
 {
  "file": "Act/Model.lean",
  "def": "addProcess",
  "old": "add s.total p.w⟩ else s",
  "new": "s.total⟩ else s",
  "edit": "total not updated",
  "claim": "C32"
 },
 {
  "file": "Act/Model.lean",
  "def": "chooseLoop",
  "old": "if r ≤ sum' then some p",
  "new": "if r ≤ sum then some p",
  "edit": "compare before adding",
  "claim": "C32"
 },
 {
  "file": "Act/Model.lean",
  "def": "chooseLoop",
  "old": "let sum' := add sum p.w",
  "new": "let sum' := p.w",
  "edit": "weights not accumulated",
  "claim": "C32"
 },
 {
  "file": "Act/Model.lean",
  "def": "chooseLoop",
  "old": "if r ≤ sum' then some p",
  "new": "if sum' ≤ r then some p",
  "edit": "comparison reversed",
  "claim": "C32"
 },
 {
  "file": "Act/Model.lean",
  "def": "chooseChannel",
  "old": "chooseLoop add r 0 l",
  "new": "chooseLoop add r r l",
  "edit": "sum starts at the random number",
  "claim": "C32"
 },
 {
  "file": "Act/Model.lean",
  "def": "rescale",
  "old": "let f := tot / s.chans.total",
  "new": "let f := s.chans.total / tot",
  "edit": "inverse factor",
  "claim": "C32 rescaled channels"
 },
 {
  "file": "Act/Model.lean",
  "def": "rescale",
  "old": "⟨elasticId, tot⟩",
  "new": "⟨elasticId, s.chans.total⟩",
  "edit": "elastic channel with the small sum as weight",
  "claim": "C32 rescaled"
 },
 {
  "file": "Act/Model.lean",
  "def": "Scatter.drawTotal",
  "old": "s.param.getD s.chans.total",
  "new": "s.chans.total",
  "edit": "unscaled total used for the draw",
  "claim": "C32 rescaled"
 },
 {
  "file": "Act/Model.lean",
  "def": "QN.addValues",
  "old": "q.strangeness + Pdg.strangeness p.pdg",
  "new": "q.strangeness - Pdg.strangeness p.pdg",
  "edit": "sign of strangeness",
  "claim": "C33"
 },
 {
  "file": "Act/Model.lean",
  "def": "QN.addValues",
  "old": "q.charmness + Pdg.charmness p.pdg",
  "new": "q.charmness",
  "edit": "charm not summed",
  "claim": "C33"
 },
 {
  "file": "Act/Model.lean",
  "def": "QN.addValues",
  "old": "q.baryon + Pdg.baryonNumber p.pdg",
  "new": "q.baryon + Pdg.charge p.pdg",
  "edit": "charge added to baryon number",
  "claim": "C33"
 },
 {
  "file": "Act/Model.lean",
  "def": "QN.eq",
  "old": "a.bottomness == b.bottomness && ",
  "new": "",
  "edit": "bottomness not compared",
  "claim": "C33"
 },
 {
  "file": "Act/Model.lean",
  "def": "QN.eq",
  "old": "Q4.eq a.mom b.mom && ",
  "new": "",
  "edit": "momentum not compared",
  "claim": "C33"
 },
 {
  "file": "Act/Model.lean",
  "def": "QN.ofList",
  "old": "l.foldl QN.addValues QN.zero",
  "new": "l.tail.foldl QN.addValues QN.zero",
  "edit": "first particle left out",
  "claim": "C33"
 },
 {
  "file": "Act/Model.lean",
  "def": "checkConservation",
  "old": "isStringSoft t || t == .stringHard then",
  "new": "isStringSoft t || t == .stringHard || t == .twoToTwo then",
  "edit": "2-to-2 exempted",
  "claim": "C33"
 },
 {
  "file": "Act/Model.lean",
  "def": "checkConservation",
  "old": "if p.stable then .returned (some 0) else .threw",
  "new": "if p.stable then .threw else .returned (some 0)",
  "edit": "branches swapped",
  "claim": "C33"
 },
 {
  "file": "Act/Model.lean",
  "def": "checkConservation",
  "old": "(Dbl.add after.mom.t (before.mom.t.map (-·)))",
  "new": "(Dbl.add before.mom.t (after.mom.t.map (-·)))",
  "edit": "violation with the other sign",
  "claim": "C33 violation"
 },
 {
  "file": "Act/Model.lean",
  "def": "sampleAngles",
  "old": "u.neg.smul pcm",
  "new": "u.smul pcm",
  "edit": "both particles in the same direction",
  "claim": "C34"
 },
 {
  "file": "Act/Model.lean",
  "def": "onShell",
  "old": "m * m + p.dot p",
  "new": "m + p.dot p",
  "edit": "mass not squared",
  "claim": "C34"
 },
 {
  "file": "Act/Model.lean",
  "def": "sortedT",
  "old": "(0 :: us ++ [x]).mergeSort",
  "new": "(us ++ [x]).mergeSort",
  "edit": "0 missing",
  "claim": "C34"
 },
 {
  "file": "Act/Model.lean",
  "def": "sortedT",
  "old": "(fun a b => decide (a ≤ b))",
  "new": "(fun a b => decide (b ≤ a))",
  "edit": "sorted downwards",
  "claim": "C34"
 },
 {
  "file": "Act/Model.lean",
  "def": "minv",
  "old": "(sqrts - msum m (us.length + 1))",
  "new": "(sqrts - msum m us.length)",
  "edit": "one mass missing",
  "claim": "C34"
 },
 {
  "file": "Act/Model.lean",
  "def": "initialMomenta",
  "old": "((u 1).smul (-pcm))",
  "new": "((u 1).smul pcm)",
  "edit": "first particle not opposite",
  "claim": "C34"
 },
 {
  "file": "Act/Model.lean",
  "def": "betaOf",
  "old": "pCM (M (i + 2)) (M (i + 1)) (m (i + 2))",
  "new": "pCM (M (i + 2)) (M (i + 1)) (m (i + 1))",
  "edit": "wrong mass",
  "claim": "C34"
 },
 {
  "file": "Act/Model.lean",
  "def": "betaOf",
  "old": "M (i + 1) * M (i + 1)))",
  "new": "M (i + 2) * M (i + 2)))",
  "edit": "wrong invariant mass",
  "claim": "C34"
 },
 {
  "file": "Act/Model.lean",
  "def": "boostFirst",
  "old": "if j ≤ i + 1 then",
  "new": "if j ≤ i then",
  "edit": "one particle not boosted",
  "claim": "C34"
 },
 {
  "file": "Act/Model.lean",
  "def": "manyBody",
  "old": "if sqrts ≤ msum m (us.length + 1) then none",
  "new": "if sqrts ≤ msum m us.length then none",
  "edit": "last mass not counted",
  "claim": "C34 refusal"
 },
 {
  "file": "Act/Model.lean",
  "def": "toLab",
  "old": "ptot.velocity.neg",
  "new": "ptot.velocity",
  "edit": "boost in the wrong direction",
  "claim": "C34"
 },
 {
  "file": "Act/Model.lean",
  "def": "setHistory",
  "old": "{ h with ncoll := ncoll, time := time } else h",
  "new": "{ h with ncoll := ncoll } else h",
  "edit": "time of last collision not updated",
  "claim": "C35"
 },
 {
  "file": "Act/Model.lean",
  "def": "setHistory",
  "old": "{ h with pid := pid, ptype := pt }",
  "new": "{ h with pid := pid }",
  "edit": "process type not updated",
  "claim": "C35"
 },
 {
  "file": "Act/Model.lean",
  "def": "setHistory",
  "old": "pure { h with p1 := a, p2 := b }",
  "new": "pure { h with p1 := a, p2 := a }",
  "edit": "second parent",
  "claim": "C35"
 },
 {
  "file": "Act/Model.lean",
  "def": "performHistory",
  "old": "(h.ncoll + 1)",
  "new": "h.ncoll",
  "edit": "collision counter not increased",
  "claim": "C35"
 },
 {
  "file": "Act/Model.lean",
  "def": "performReplaces",
  "old": "t != .elastic && ",
  "new": "",
  "edit": "elastic particles get new ids",
  "claim": "C35 replace"
 },
 {
  "file": "Act/Model.lean",
  "def": "xsecScaling",
  "old": "if t < tForm then init else 1",
  "new": "if t < tForm then 1 else init",
  "edit": "branches swapped",
  "claim": "C36"
 },
 {
  "file": "Act/Model.lean",
  "def": "xsecScaling",
  "old": "(t - tBegin) / (tForm - tBegin)",
  "new": "(tForm - t) / (tForm - tBegin)",
  "edit": "growth reversed",
  "claim": "C36"
 },
 {
  "file": "Act/Model.lean",
  "def": "xsecScaling",
  "old": "init + (1 - init) *",
  "new": "init + init *",
  "edit": "wrong end value",
  "claim": "C36"
 }
]