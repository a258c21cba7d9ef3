[
 {
  "file": "Xs/Model.lean",
  "def": "newState",
  "old": "    (s ++ final).insertionSort",
  "new": "    (final).insertionSort",
  "edit": "spectators dropped from the state",
  "claim": "C100"
 },
 {
  "file": "Xs/Model.lean",
  "def": "eraseAll",
  "old": "eraseAll (state.erase p) ps else none",
  "new": "eraseAll state ps else none",
  "edit": "incoming not removed",
  "claim": "C100"
 },
 {
  "file": "Xs/Model.lean",
  "def": "allowed",
  "old": "massOf env m.2 > sqrtsDecay",
  "new": "massOf env m.2 < sqrtsDecay",
  "edit": "comparison reversed",
  "claim": "C100"
 },
 {
  "file": "Xs/Model.lean",
  "def": "allowed",
  "old": "massOf env m.2 > sqrtsDecay",
  "new": "massOf env m.2 ≥ sqrtsDecay",
  "edit": "threshold excluded",
  "claim": "C100"
 },
 {
  "file": "Xs/Model.lean",
  "def": "modeNodes",
  "old": "rec (norm * m.1) s sd",
  "new": "rec m.1 s sd",
  "edit": "normalisation dropped",
  "claim": "C100"
 },
 {
  "file": "Xs/Model.lean",
  "def": "modeNodes",
  "old": "rec (norm * m.1) s sd",
  "new": "rec norm s sd",
  "edit": "branching ratio dropped",
  "claim": "C100"
 },
 {
  "file": "Xs/Model.lean",
  "def": "stateNodes",
  "old": "let sd := smm + env.mass p",
  "new": "let sd := smm",
  "edit": "mass of the mother not added back",
  "claim": "C100"
 },
 {
  "file": "Xs/Model.lean",
  "def": "stateNodes",
  "old": "| [] => some ([], false)",
  "new": "| [] => some ([], true)",
  "edit": "resonance that cannot decay kept",
  "claim": "C100"
 },
 {
  "file": "Xs/Model.lean",
  "def": "stateNodes",
  "old": "return (ts ++ r.1, r.2)",
  "new": "return (r.1, r.2)",
  "edit": "children lost",
  "claim": "C100"
 },
 {
  "file": "Xs/Model.lean",
  "def": "stateNodes",
  "old": "    if env.stable p then stateNodes env rec norm smm state ps",
  "new": "    if !env.stable p then stateNodes env rec norm smm state ps",
  "edit": "stable particles decay",
  "claim": "C100"
 },
 {
  "file": "Xs/Model.lean",
  "def": "nUnstable",
  "old": "state.countP fun p => !env.stable p",
  "new": "state.countP fun p => env.stable p",
  "edit": "counts stable particles",
  "claim": "C100"
 },
 {
  "file": "Xs/Model.lean",
  "def": "normOf",
  "old": "1 / (nUnstable env state : K) else 1",
  "new": "(nUnstable env state : K) else 1",
  "edit": "norm inverted",
  "claim": "C100"
 },
 {
  "file": "Xs/Model.lean",
  "def": "addDecays",
  "old": "(if r.2 then w else 0)",
  "new": "w",
  "edit": "weight kept",
  "claim": "C100"
 },
 {
  "file": "Xs/Model.lean",
  "def": "addDecays",
  "old": "(sqrts - massOf env state) state",
  "new": "sqrts state",
  "edit": "masses not subtracted",
  "claim": "C100"
 },
 {
  "file": "Xs/Model.lean",
  "def": "leaves",
  "old": "  | .node w s [], f => [(s, f * w)]",
  "new": "  | .node w s [], f => [(s, w)]",
  "edit": "weight of the parents lost",
  "claim": "C100"
 },
 {
  "file": "Xs/Model.lean",
  "def": "leaves",
  "old": "leavesAll (c :: cs) (f * w)",
  "new": "leavesAll (c :: cs) f",
  "edit": "own weight lost",
  "claim": "C100"
 },
 {
  "file": "Xs/Model.lean",
  "def": "leavesAll",
  "old": "leaves c f ++ leavesAll cs f",
  "new": "leaves c f",
  "edit": "only first child",
  "claim": "C100"
 },
 {
  "file": "Xs/Model.lean",
  "def": "processNodes",
  "old": "    if x.1 ≤ 0 then processNodes",
  "new": "    if x.1 ≥ 0 then processNodes",
  "edit": "sign of the skipped processes",
  "claim": "C100"
 },
 {
  "file": "Xs/Model.lean",
  "def": "processNodes",
  "old": "addDecays env fuel x.1 s sqrts",
  "new": "addDecays env fuel 1 s sqrts",
  "edit": "process weight lost",
  "claim": "C100"
 },
 {
  "file": "Xs/Model.lean",
  "def": "processNodes",
  "old": "newState env [a, b] [a, b] x.2",
  "new": "newState env [a, b] [a] x.2",
  "edit": "second incoming particle kept",
  "claim": "C100"
 },
 {
  "file": "Xs/Model.lean",
  "def": "mergeAdjacent",
  "old": "mergeAdjacent ((a.1, a.2 + b.2) :: t)",
  "new": "mergeAdjacent ((a.1, a.2) :: t)",
  "edit": "duplicate dropped without adding",
  "claim": "C101"
 },
 {
  "file": "Xs/Model.lean",
  "def": "mergeAdjacent",
  "old": "mergeAdjacent ((a.1, a.2 + b.2) :: t)",
  "new": "(a.1, a.2 + b.2) :: mergeAdjacent t",
  "edit": "three equal names not merged",
  "claim": "C101"
 },
 {
  "file": "Xs/Model.lean",
  "def": "deduplicate",
  "old": "mergeAdjacent (l.insertionSort fun x y => x.1 ≤ y.1)",
  "new": "mergeAdjacent l",
  "edit": "not sorted",
  "claim": "C101"
 },
 {
  "file": "Xs/Model.lean",
  "def": "addXs",
  "old": "(d n).dropLast ++ [(l.1, l.2 + p.2)]",
  "new": "(d n).dropLast ++ [(l.1, p.2)]",
  "edit": "second process overwrites",
  "claim": "C101"
 },
 {
  "file": "Xs/Model.lean",
  "def": "addXs",
  "old": "(d n).dropLast ++ [(l.1, l.2 + p.2)]",
  "new": "d n ++ [(l.1, l.2 + p.2)]",
  "edit": "entry repeated",
  "claim": "C101"
 },
 {
  "file": "Xs/Model.lean",
  "def": "addXs",
  "old": "  if p.2 ≤ 0 then d",
  "new": "  if p.2 < 0 then d",
  "edit": "zero cross sections listed (harmless in the printed value)",
  "claim": "C101"
 },
 {
  "file": "Xs/Model.lean",
  "def": "addXs",
  "old": "else d n ++ [(sqrts, p.2)]",
  "new": "else d n ++ [(l.1, p.2)]",
  "edit": "wrong energy",
  "claim": "C101"
 },
 {
  "file": "Xs/Model.lean",
  "def": "printed",
  "old": "if |e.1 - sqrts| < 1 / 1000000 then e.2 else 0",
  "new": "e.2",
  "edit": "energy not checked",
  "claim": "C101"
 },
 {
  "file": "Xs/Model.lean",
  "def": "printed",
  "old": "decide (e.1 < sqrts)",
  "new": "decide (e.1 ≤ sqrts)",
  "edit": "next energy printed",
  "claim": "C101"
 },
 {
  "file": "Xs/Model.lean",
  "def": "dumpAll",
  "old": "energies.foldl (addPoint procs) fun _ => []",
  "new": "energies.reverse.foldl (addPoint procs) fun _ => []",
  "edit": "energies in decreasing order",
  "claim": "C101"
 },
 {
  "file": "Xs/Model.lean",
  "def": "momenta",
  "old": "(plab.insertionSort (· ≤ ·))",
  "new": "plab",
  "edit": "not sorted",
  "claim": "C101"
 }
]