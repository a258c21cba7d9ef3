[
 {
  "file": "Enums/Model.lean",
  "def": "CalcFrame.read",
  "old": "s = \"center of mass\" then some .centerOfMass",
  "new": "s = \"center of mass\" then some .centerOfVelocity",
  "edit": "wrong frame",
  "claim": "C153"
 },
 {
  "file": "Enums/Model.lean",
  "def": "Fermi.read",
  "old": "if s = \"on\" then some .on",
  "new": "if s = \"On\" then some .on",
  "edit": "capital letter",
  "claim": "C153"
 },
 {
  "file": "Enums/Model.lean",
  "def": "Dens.read",
  "old": "else if s = \"baryonic isospin\" then some .baryonicIsospin",
  "new": "else if s = \"isospin\" then some .baryonicIsospin",
  "edit": "other word",
  "claim": "C153"
 },
 {
  "file": "Enums/Model.lean",
  "def": "Dens.read",
  "old": "  else if s = \"pion\" then some .pion\n",
  "new": "",
  "edit": "pion density not accepted",
  "claim": "C153"
 },
 {
  "file": "Enums/Model.lean",
  "def": "Dens.read",
  "old": "  else if s = \"none\" then some .noDensity\n",
  "new": "  else if s = \"none\" then some .noDensity\n  else if s = \"charge\" then some .charge\n",
  "edit": "charge accepted (undocumented word)",
  "claim": "C153"
 },
 {
  "file": "Enums/Model.lean",
  "def": "Expansion.read",
  "old": "\"MassiveFRW\" then some .massiveFRW",
  "new": "\"MassiveFRW\" then some .masslessFRW",
  "edit": "wrong expansion",
  "claim": "C153"
 },
 {
  "file": "Enums/Model.lean",
  "def": "Deriv.print",
  "old": "| .finiteDifference => \"Finite difference\"",
  "new": "| .finiteDifference => \"Finite Difference\"",
  "edit": "capital letter when printed",
  "claim": "C153"
 },
 {
  "file": "Enums/Model.lean",
  "def": "FieldDeriv.print",
  "old": "| .chainRule => \"Chain Rule\"",
  "new": "| .chainRule => \"Direct\"",
  "edit": "wrong word printed",
  "claim": "C153"
 },
 {
  "file": "Enums/Model.lean",
  "def": "Smear.read",
  "old": "\"Triangular\" then some .triangular",
  "new": "\"Triangular\" then some .discrete",
  "edit": "wrong smearing",
  "claim": "C153"
 },
 {
  "file": "Enums/Model.lean",
  "def": "Step.read",
  "old": "  else if s = \"Fixed\" then some .fixed\n",
  "new": "",
  "edit": "fixed not accepted",
  "claim": "C153"
 },
 {
  "file": "Enums/Model.lean",
  "def": "BoxIc.read",
  "old": "\"thermal momenta quantum\" then some .thermalQuantum\n  else if s = \"peaked",
  "new": "\"thermal momenta quantum\" then some .thermalBoltzmann\n  else if s = \"peaked",
  "edit": "quantum ignored",
  "claim": "C153"
 },
 {
  "file": "Enums/Model.lean",
  "def": "SphereIc.read",
  "old": "\"IC_1M\" then some .ic1M",
  "new": "\"IC_1M\" then some .ic2M",
  "edit": "wrong initial condition",
  "claim": "C153"
 },
 {
  "file": "Enums/Model.lean",
  "def": "SphereIc.print",
  "old": "| .icMassive => \"IC_Massive\"",
  "new": "| .icMassive => \"IC_massive\"",
  "edit": "word printed in small letters",
  "claim": "C153"
 },
 {
  "file": "Enums/Model.lean",
  "def": "NNbarTr.read",
  "old": "\"two to five\" then some .twoToFive",
  "new": "\"two_to_five\" then some .twoToFive",
  "edit": "underscores",
  "claim": "C153"
 },
 {
  "file": "Enums/Model.lean",
  "def": "Sampl.print",
  "old": "| .custom => \"custom\"",
  "new": "| .custom => \"uniform\"",
  "edit": "wrong word printed",
  "claim": "C153"
 },
 {
  "file": "Enums/Model.lean",
  "def": "Sampl.offered",
  "old": "[\"quadratic\", \"uniform\", \"custom\"]",
  "new": "[\"quadratic\", \"uniform\"]",
  "edit": "message incomplete",
  "claim": "C153"
 },
 {
  "file": "Enums/Model.lean",
  "def": "ThermAlgo.read",
  "old": "\"biased BF\" then some .biasedBF\n",
  "new": "\"biased BF\" then some .unbiasedBF\n",
  "edit": "wrong algorithm",
  "claim": "C153"
 },
 {
  "file": "Enums/Model.lean",
  "def": "Criterion.print",
  "old": "| .covariant => \"Covariant\"",
  "new": "| .covariant => \"Geometric\"",
  "edit": "wrong word printed",
  "claim": "C153"
 },
 {
  "file": "Enums/Model.lean",
  "def": "Criterion.offered",
  "old": "[\"Geometric\", \"Stochastic\", \"Covariant\"]",
  "new": "[\"Geometric\", \"Stochastic\", \"Covariant\", \"Minimal\"]",
  "edit": "message offers a wrong word",
  "claim": "C153"
 },
 {
  "file": "Enums/Model.lean",
  "def": "Spin.read",
  "old": "  else if s = \"Off\" then some .off\n  else none\n\n/-- The values which the text of that exception offers — the end of the same lines. -/\ndef Spin.",
  "new": "  else some .off\n\n/-- The values which the text of that exception offers — the end of the same lines. -/\ndef Spin.",
  "edit": "every other word means off",
  "claim": "C153"
 },
 {
  "file": "Enums/Model.lean",
  "def": "TotXs.read",
  "old": "\"TopDown\" then some .topDown\n",
  "new": "\"TopDown\" then some .topDownMeasured\n",
  "edit": "wrong strategy",
  "claim": "C153"
 },
 {
  "file": "Enums/Model.lean",
  "def": "Pseudo.read",
  "old": "\"ClosestFromUnstable\" then some .closestFromUnstable",
  "new": "\"ClosestFromUnstable\" then some .closest",
  "edit": "wrong pseudo-resonance",
  "claim": "C153"
 },
 {
  "file": "Enums/Model.lean",
  "def": "Fluidization.print",
  "old": "| .constantTau => \"Constant_Tau\"",
  "new": "| .constantTau => \"ConstantTau\"",
  "edit": "underscore missing",
  "claim": "C153"
 },
 {
  "file": "Enums/Model.lean",
  "def": "OnlyFinal.read",
  "old": "\"IfNotEmpty\" then some .ifNotEmpty",
  "new": "\"IfNotEmpty\" then some .yes",
  "edit": "wrong value",
  "claim": "C153"
 },
 {
  "file": "Enums/Model.lean",
  "def": "Bits.put",
  "old": "if j = i then true else s j",
  "new": "if j = i then true else false",
  "edit": "only the last word kept",
  "claim": "C153"
 },
 {
  "file": "Enums/Model.lean",
  "def": "Bits.put",
  "old": "if j = i then true else s j",
  "new": "if j = i then !(s j) else s j",
  "edit": "repeated word switches off",
  "claim": "C153"
 },
 {
  "file": "Enums/Model.lean",
  "def": "Bits.full",
  "old": "fun _ => true",
  "new": "fun i => i.1 + 1 < n",
  "edit": "All without the last process",
  "claim": "C153"
 },
 {
  "file": "Enums/Model.lean",
  "def": "reactionBit",
  "old": "\"KN_to_KDelta\" then some 4",
  "new": "\"KN_to_KDelta\" then some 3",
  "edit": "wrong bit",
  "claim": "C153"
 },
 {
  "file": "Enums/Model.lean",
  "def": "multiBit",
  "old": "\"NNbar_5to2\" then some 2",
  "new": "\"NNbar_5to2\" then some 3",
  "edit": "wrong bit",
  "claim": "C153"
 },
 {
  "file": "Enums/Model.lean",
  "def": "fluidBit",
  "old": "\"HardString\" then some 4",
  "new": "\"HardString\" then some 3",
  "edit": "wrong bit",
  "claim": "C153"
 },
 {
  "file": "Enums/Model.lean",
  "def": "readBits",
  "old": "| none => none\n\n/-- `operator ReactionsBitSet`",
  "new": "| none => readBits bit v s\n\n/-- `operator ReactionsBitSet`",
  "edit": "unknown words ignored",
  "claim": "C153"
 },
 {
  "file": "Enums/Model.lean",
  "def": "readBits",
  "old": "if x = \"All\" then some (Bits.full n)",
  "new": "if x = \"All\" then readBits bit v (Bits.full n)",
  "edit": "no break after All (unknown words are noticed: the finding disappears, C153_all no longer for every rest)",
  "claim": "C153"
 },
 {
  "file": "Enums/Model.lean",
  "def": "readBits",
  "old": "if x = \"All\" then some (Bits.full n)",
  "new": "if x = \"All\" then some s",
  "edit": "All sets nothing",
  "claim": "C153"
 },
 {
  "file": "Enums/Model.lean",
  "def": "printReactions",
  "old": "pushIf (s 6) \"NNbar\" r",
  "new": "pushIf (s 5) \"NNbar\" r",
  "edit": "wrong bit tested",
  "claim": "C153"
 },
 {
  "file": "Enums/Model.lean",
  "def": "printMulti",
  "old": "pushIf (s 1) \"Deuteron_3to2\" r\n",
  "new": "pushIf (s 1) \"Deuteron_2to3\" r\n",
  "edit": "wrong word printed",
  "claim": "C153"
 },
 {
  "file": "Enums/Model.lean",
  "def": "printFluid",
  "old": "pushIf (s 2) \"Inelastic\" r",
  "new": "r",
  "edit": "inelastic not printed",
  "claim": "C153"
 },
 {
  "file": "Enums/Model.lean",
  "def": "pushIf",
  "old": "if b then result ++ [name] else result",
  "new": "if b then [name] else result",
  "edit": "earlier words dropped",
  "claim": "C153"
 },
 {
  "file": "Enums/Model.lean",
  "def": "ThermQ.read",
  "old": "\"tmn_landau\" then some .tmnLandau",
  "new": "\"tmn_landau\" then some .landauVelocity",
  "edit": "wrong quantity",
  "claim": "C153"
 },
 {
  "file": "Enums/Model.lean",
  "def": "ThermQ.print",
  "old": "| .jQBS => \"j_QBS\"",
  "new": "| .jQBS => \"j_qbs\"",
  "edit": "wrong word printed",
  "claim": "C153"
 },
 {
  "file": "Enums/Model.lean",
  "def": "readQuantities",
  "old": "if r = q then true else s r",
  "new": "if r = q then true else false",
  "edit": "only the last quantity kept",
  "claim": "C153"
 },
 {
  "file": "Enums/Model.lean",
  "def": "readQuantities",
  "old": "    | none => none\n\n/-! ### Log",
  "new": "    | none => some s\n\n/-! ### Log",
  "edit": "reading stops silently at an unknown word",
  "claim": "C153"
 },
 {
  "file": "Enums/Model.lean",
  "def": "Level.read",
  "old": "\"WARN\" then some .warn",
  "new": "\"WARNING\" then some .warn",
  "edit": "other word",
  "claim": "C153"
 },
 {
  "file": "Enums/Model.lean",
  "def": "Level.print",
  "old": "| .fatal => \"FATAL\"\n  | .off => \"OFF\"",
  "new": "| .fatal => \"ERROR\"\n  | .off => \"OFF\"",
  "edit": "wrong word printed",
  "claim": "C153"
 },
 {
  "file": "Enums/Model.lean",
  "def": "Level.encode",
  "old": "| .info => \" INFO\"",
  "new": "| .info => \"INFO\"",
  "edit": "info stored correctly (the finding disappears)",
  "claim": "C153"
 }
]