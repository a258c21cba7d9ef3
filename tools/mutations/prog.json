[
 {
  "file": "Prog/Model.lean",
  "def": "Path.parent",
  "old": "if p.slash && !p.parts.isEmpty then { p with slash := false } else",
  "new": "if false then p else",
  "edit": "slash at the end ignored (the finding disappears)",
  "claim": "C161"
 },
 {
  "file": "Prog/Model.lean",
  "def": "Path.hasParent",
  "old": "p.abs || p.slash || decide (2 ≤ p.parts.length)",
  "new": "p.abs || p.slash || decide (3 ≤ p.parts.length)",
  "edit": "parent of a/b not seen",
  "claim": "C161"
 },
 {
  "file": "Prog/Model.lean",
  "def": "mkdirs",
  "old": "x.isPrefixOf l && (fs x).isNone",
  "new": "x.isPrefixOf l",
  "edit": "existing files replaced by directories",
  "claim": "C161"
 },
 {
  "file": "Prog/Model.lean",
  "def": "applyOpt",
  "old": ".c y => .go { s with extra := s.extra ++ [y] }",
  "new": ".c y => .go { s with extra := y :: s.extra }",
  "edit": "-c texts in reverse order",
  "claim": "C160"
 },
 {
  "file": "Prog/Model.lean",
  "def": "applyOpt",
  "old": ".c y => .go { s with extra := s.extra ++ [y] }",
  "new": ".c y => .go { s with extra := [y] }",
  "edit": "only the last -c text",
  "claim": "C160"
 },
 {
  "file": "Prog/Model.lean",
  "def": "applyOpt",
  "old": ".d p => .go { s with decaymodes := p }",
  "new": ".d p => .go { s with particles := p }",
  "edit": "decay modes read as particles",
  "claim": "C160"
 },
 {
  "file": "Prog/Model.lean",
  "def": "applyOpt",
  "old": ".h => .stop 0 .usage",
  "new": ".h => .stop 1 .usage",
  "edit": "help ends with failure",
  "claim": "C160"
 },
 {
  "file": "Prog/Model.lean",
  "def": "applyOpt",
  "old": ".unknown => .stop 1 .usage",
  "new": ".unknown => .go s",
  "edit": "unknown options ignored",
  "claim": "C160"
 },
 {
  "file": "Prog/Model.lean",
  "def": "applyOpt",
  "old": ".S a => .go { s with finalState := true, xs := true",
  "new": ".S a => .go { s with finalState := false, xs := true",
  "edit": "-S like -s",
  "claim": "C160"
 },
 {
  "file": "Prog/Model.lean",
  "def": "applyOpt",
  "old": ".S a => .go { s with finalState := true, xs := true",
  "new": ".S a => .go { s with finalState := true",
  "edit": "fall through missing",
  "claim": "C160"
 },
 {
  "file": "Prog/Model.lean",
  "def": "applyOpt",
  "old": ".m v => .go { s with modus := some v }",
  "new": ".m v => .go { s with modus := s.modus.or (some v) }",
  "edit": "first -m wins",
  "claim": "C160"
 },
 {
  "file": "Prog/Model.lean",
  "def": "applyOpt",
  "old": ".n => .go { s with cache := false }",
  "new": ".n => .go { s with cache := true }",
  "edit": "-n without effect",
  "claim": "C160"
 },
 {
  "file": "Prog/Model.lean",
  "def": "applyOpt",
  "old": ".r p => .go { s with resonance := true, pdg := some p",
  "new": ".r p => .go { s with resonance := true, iss := true, pdg := some p",
  "edit": "break missing after -r",
  "claim": "C160"
 },
 {
  "file": "Prog/Model.lean",
  "def": "parse",
  "old": "| .go s' => parse s' os",
  "new": "| .go s' => .go s'",
  "edit": "only the first option read",
  "claim": "C160"
 },
 {
  "file": "Prog/Model.lean",
  "def": "hasCrlf",
  "old": "(c == '\\r' && r.head? == some '\\n') || hasCrlf r",
  "new": "(c == '\\r' && r.head? == some '\\n')",
  "edit": "only the first line checked",
  "claim": "C162"
 },
 {
  "file": "Prog/Model.lean",
  "def": "hasCrlf",
  "old": "(c == '\\r' && r.head? == some '\\n') || hasCrlf r",
  "new": "(c == '\\n') || hasCrlf r",
  "edit": "every file with lines refused",
  "claim": "C162"
 },
 {
  "file": "Prog/Model.lean",
  "def": "loadTable",
  "old": "if p.isEmpty then .ok builtin else readFile fs (p.loc env.cwd)",
  "new": ".ok builtin",
  "edit": "given files ignored",
  "claim": "C162"
 },
 {
  "file": "Prog/Model.lean",
  "def": "mergeAll",
  "old": "| .ok st' => mergeAll env st' ys",
  "new": "| .ok st' => .ok st'",
  "edit": "only the first -c text merged",
  "claim": "C162"
 },
 {
  "file": "Prog/Model.lean",
  "def": "mergeAll",
  "old": "match Config.mergeYaml st b with\n      | .error _ => .error .config\n      | .ok st' =>",
  "new": "match mergeAll env st ys with\n      | .error _ => .error .config\n      | .ok st0 => match Config.mergeYaml st0 b with\n      | .error _ => .error .config\n      | .ok st' => if true then .ok st' else",
  "edit": "first -c text wins",
  "claim": "C162"
 },
 {
  "file": "Prog/Model.lean",
  "def": "createConfiguration",
  "old": "mergeAll env ⟨root, []⟩ s.extra",
  "new": "mergeAll env ⟨root, []⟩ []",
  "edit": "-c texts ignored",
  "claim": "C162"
 },
 {
  "file": "Prog/Model.lean",
  "def": "setupLogging",
  "old": ".ok (sub, rest) => if env.loggers sub.root then .ok rest",
  "new": ".ok (sub, rest) => if env.loggers sub.root then .ok (if true then st else rest)",
  "edit": "logging stays in the configuration",
  "claim": "C162"
 },
 {
  "file": "Prog/Model.lean",
  "def": "setTable",
  "old": "if !has || given then",
  "new": "if !has then",
  "edit": "configuration wins over the given file",
  "claim": "C162"
 },
 {
  "file": "Prog/Model.lean",
  "def": "setTable",
  "old": "if !has || given then",
  "new": "if given || true then",
  "edit": "compiled-in table wins over the configuration",
  "claim": "C162"
 },
 {
  "file": "Prog/Model.lean",
  "def": "setTables",
  "old": "setTable st1 \"decaymodes\" (!s.decaymodes.isEmpty) dt",
  "new": "setTable st1 \"decaymodes\" (!s.particles.isEmpty) dt",
  "edit": "given decay modes lose against the configuration",
  "claim": "C162"
 },
 {
  "file": "Prog/Model.lean",
  "def": "setTables",
  "old": "setTable st1 \"decaymodes\" (!s.decaymodes.isEmpty) dt",
  "new": "setTable st1 \"decaymodes\" (!s.decaymodes.isEmpty) pt",
  "edit": "particles used as decay modes",
  "claim": "C162"
 },
 {
  "file": "Prog/Model.lean",
  "def": "setup",
  "old": "if env.valid st.root then\n      match",
  "new": "if true then\n      match",
  "edit": "input not validated",
  "claim": "C162"
 },
 {
  "file": "Prog/Model.lean",
  "def": "fixSeed",
  "old": "if z < 0 then some",
  "new": "if z ≤ 0 then some",
  "edit": "seed 0 replaced",
  "claim": "C162"
 },
 {
  "file": "Prog/Model.lean",
  "def": "fixSeed",
  "old": "if z < 0 then some (.scalar (env.seedText env.newSeed)) else none",
  "new": "none",
  "edit": "negative seed kept",
  "claim": "C162"
 },
 {
  "file": "Prog/Model.lean",
  "def": "fixSeed",
  "old": "setOpt st [\"General\", \"Randomseed\"]",
  "new": "setOpt st [\"General\", \"Seed\"]",
  "edit": "new seed under a wrong key",
  "claim": "C162"
 },
 {
  "file": "Prog/Model.lean",
  "def": "endTimeNode",
  "old": "if env.atof t < 0 then -env.atof t else env.atof t",
  "new": "env.atof t",
  "edit": "sign kept",
  "claim": "C160"
 },
 {
  "file": "Prog/Model.lean",
  "def": "adjust",
  "old": "setOpt st1 [\"General\", \"End_Time\"]",
  "new": "setOpt st [\"General\", \"End_Time\"]",
  "edit": "mode lost if an end time is given",
  "claim": "C162"
 },
 {
  "file": "Prog/Model.lean",
  "def": "freeId",
  "old": "if taken id then freeId taken fuel (id + 1) else id",
  "new": "if taken id then freeId taken fuel (id + 2) else id",
  "edit": "every second number",
  "claim": "C161"
 },
 {
  "file": "Prog/Model.lean",
  "def": "freeId",
  "old": "if taken id then freeId taken fuel (id + 1) else id",
  "new": "if taken id then id else freeId taken fuel (id + 1)",
  "edit": "existing directory chosen",
  "claim": "C161"
 },
 {
  "file": "Prog/Model.lean",
  "def": "defaultOutput",
  "old": "if (fs data).isNone then 0 else",
  "new": "if (fs data).isNone then 1 else",
  "edit": "first run gets number 1",
  "claim": "C161"
 },
 {
  "file": "Prog/Model.lean",
  "def": "ensure",
  "old": "| some (.file _) => none\n    | none => mkdirs",
  "new": "| some (.file _) => some fs\n    | none => mkdirs",
  "edit": "file accepted as directory",
  "claim": "C161"
 },
 {
  "file": "Prog/Model.lean",
  "def": "tabLoc",
  "old": "if s.cache then\n    some",
  "new": "if !s.cache then\n    some",
  "edit": "-n inverted",
  "claim": "C161"
 },
 {
  "file": "Prog/Model.lean",
  "def": "partnerMass",
  "old": "if stable && decide (m ≠ pole) then pole else m",
  "new": "m",
  "edit": "given mass for stable particles",
  "claim": "C160"
 },
 {
  "file": "Prog/Model.lean",
  "def": "partnerMass",
  "old": "if arg = [] then some pole\n",
  "new": "if arg = [] then some 0\n",
  "edit": "no default mass",
  "claim": "C160"
 },
 {
  "file": "Prog/Model.lean",
  "def": "momenta",
  "old": "(momenta env as).map (x :: ·)",
  "new": "(momenta env as).map (· ++ [x])",
  "edit": "momenta in reverse order",
  "claim": "C160"
 },
 {
  "file": "Prog/Model.lean",
  "def": "xsArgs",
  "old": "args.length ≠ 2 ∧ args.length ≠ 4 ∧ args.length < 5",
  "new": "args.length ≠ 2 ∧ args.length < 3",
  "edit": "three pieces accepted",
  "claim": "C160"
 },
 {
  "file": "Prog/Model.lean",
  "def": "xsArgs",
  "old": "partnerMass env mb sb (more.tail.headD [])",
  "new": "partnerMass env mb sb (more.headD [])",
  "edit": "both masses from one piece",
  "claim": "C160"
 },
 {
  "file": "Prog/Model.lean",
  "def": "xsArgs",
  "old": "momenta env (more.drop 2)",
  "new": "momenta env (more.drop 1)",
  "edit": "mass taken as momentum",
  "claim": "C160"
 },
 {
  "file": "Prog/Model.lean",
  "def": "dumpWidths",
  "old": ".widths pdg⟩ else failed fs2",
  "new": ".widths \"\"⟩ else failed fs2",
  "edit": "wrong resonance",
  "claim": "C160"
 },
 {
  "file": "Prog/Model.lean",
  "def": "conduct",
  "old": "if Config.isEmpty left then",
  "new": "if true then",
  "edit": "unused keys not noticed",
  "claim": "C160"
 },
 {
  "file": "Prog/Model.lean",
  "def": "simulate",
  "old": "if (fs lock).isSome then failed fs",
  "new": "if false then failed fs",
  "edit": "lock ignored",
  "claim": "C161"
 },
 {
  "file": "Prog/Model.lean",
  "def": "simulate",
  "old": "if !s.force && (fs1 copy).isSome then failed (put fs1 lock none)",
  "new": "if (fs1 lock).isNone then failed (put fs1 lock none)",
  "edit": "existing results overwritten",
  "claim": "C161"
 },
 {
  "file": "Prog/Model.lean",
  "def": "simulate",
  "old": "if !s.force && (fs1 copy).isSome then failed (put fs1 lock none)",
  "new": "if !s.force && (fs1 copy).isSome then failed fs1",
  "edit": "lock left behind after a refusal",
  "claim": "C161"
 },
 {
  "file": "Prog/Model.lean",
  "def": "simulate",
  "old": "⟨r.code, put r.fs lock none, r.job⟩",
  "new": "r",
  "edit": "lock left behind after the run",
  "claim": "C161"
 },
 {
  "file": "Prog/Model.lean",
  "def": "simulate",
  "old": "let r := conduct env s fs2 st1",
  "new": "let r := conduct env s fs2 st",
  "edit": "simulated without the changes of the command line",
  "claim": "C161"
 },
 {
  "file": "Prog/Model.lean",
  "def": "simulate",
  "old": "(some (.file (env.header ++ env.text st1.root)))",
  "new": "(some (.file (env.header ++ env.text st.root)))",
  "edit": "copy without the new seed",
  "claim": "C161"
 },
 {
  "file": "Prog/Model.lean",
  "def": "body",
  "old": "if s.list2n then dumpReactions env s fs1 st\n      else if s.iss then dumpIss env s fs1 st",
  "new": "if s.iss then dumpIss env s fs1 st\n      else if s.list2n then dumpReactions env s fs1 st",
  "edit": "precedence changed",
  "claim": "C160"
 },
 {
  "file": "Prog/Model.lean",
  "def": "body",
  "old": "match ensure env fs s.output with\n    | none => failed fs",
  "new": "match some fs with\n    | none => failed fs",
  "edit": "output directory not created",
  "claim": "C161"
 },
 {
  "file": "Prog/Model.lean",
  "def": "main",
  "old": "if rest then ⟨1, fs, .usage⟩ else",
  "new": "if rest then ⟨0, fs, .usage⟩ else",
  "edit": "left-over arguments end with success",
  "claim": "C160"
 }
]