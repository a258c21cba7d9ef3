[
 {
  "file": "Fluid/Model.lean",
  "def": "aboveThreshold",
  "old": "| none => false\n  | some e => decide (c.eThr",
  "new": "| none => true\n  | some e => decide (c.eThr",
  "edit": "particles off the lattice are hot",
  "claim": "C132: found"
 },
 {
  "file": "Fluid/Model.lean",
  "def": "aboveThreshold",
  "old": "c.eThr + p.pole * c.kernel0 ≤ e +",
  "new": "c.eThr ≤ e +",
  "edit": "own contribution not subtracted",
  "claim": "C132: found"
 },
 {
  "file": "Fluid/Model.lean",
  "def": "aboveThreshold",
  "old": "(w.background p.id).getD 0",
  "new": "(w.background 0).getD 0",
  "edit": "background of another particle",
  "claim": "C132: found"
 },
 {
  "file": "Fluid/Model.lean",
  "def": "aboveThreshold",
  "old": "c.kernel0 ≤ e +",
  "new": "c.kernel0 < e +",
  "edit": "threshold not inclusive",
  "claim": "C132: found"
 },
 {
  "file": "Fluid/Model.lean",
  "def": "processFluidizable",
  "old": "if isStringSoft t then c.fromSoft",
  "new": "if isStringSoft t then c.fromHard",
  "edit": "soft strings by the switch of hard ones",
  "claim": "C132: found"
 },
 {
  "file": "Fluid/Model.lean",
  "def": "processFluidizable",
  "old": "if ncoll = 1 ∧ c.delay = true then false else c.fromElastic",
  "new": "c.fromElastic",
  "edit": "first elastic collision not delayed",
  "claim": "C132: found"
 },
 {
  "file": "Fluid/Model.lean",
  "def": "processFluidizable",
  "old": "ncoll = 1 ∧ c.delay",
  "new": "ncoll ≤ 1 ∧ c.delay",
  "edit": "delay also without collision",
  "claim": "C132: found"
 },
 {
  "file": "Fluid/Model.lean",
  "def": "processFluidizable",
  "old": "    | _ => false",
  "new": "    | _ => true",
  "edit": "initial nucleons may become fluid",
  "claim": "C132: initial"
 },
 {
  "file": "Fluid/Model.lean",
  "def": "processFluidizable",
  "old": "    | .multi3To2 | .multi4To2 | .multi5To2 => c.fromInelastic",
  "new": "    | .multi3To2 | .multi4To2 => c.fromInelastic",
  "edit": "5 to 2 forgotten",
  "claim": "C132: found"
 },
 {
  "file": "Fluid/Model.lean",
  "def": "fluidTime",
  "old": "p.tBegin + c.frac * (p.tForm - p.tBegin)",
  "new": "c.frac * p.tForm",
  "edit": "fraction of the absolute time",
  "claim": "C132: found"
 },
 {
  "file": "Fluid/Model.lean",
  "def": "timeUntil",
  "old": "≤ reallySmall then 0\n  else max (fluidTime c p - p.pos.t) 0",
  "new": "≤ reallySmall then 0\n  else fluidTime c p - p.pos.t",
  "edit": "action in the past",
  "claim": "C132: time"
 },
 {
  "file": "Fluid/Model.lean",
  "def": "timeUntil",
  "old": "p.pos.t ≤ reallySmall then 0",
  "new": "p.pos.t ≥ reallySmall then 0",
  "edit": "forming particles at once",
  "claim": "C132: fraction"
 },
 {
  "file": "Fluid/Model.lean",
  "def": "findInCell",
  "old": "if p.pos.t + dt < c.tMin ∨ c.tMax < p.pos.t then []",
  "new": "if c.tMax < p.pos.t then []",
  "edit": "minimal time ignored",
  "claim": "C132: window"
 },
 {
  "file": "Fluid/Model.lean",
  "def": "findInCell",
  "old": "if p.pos.t + dt < c.tMin ∨ c.tMax < p.pos.t then []",
  "new": "if p.pos.t < c.tMin ∨ c.tMax < p.pos.t + dt then []",
  "edit": "window of the whole step",
  "claim": "C132: found"
 },
 {
  "file": "Fluid/Model.lean",
  "def": "findInCell",
  "old": "    else if p.core = true then findInCell c w dt ps\n",
  "new": "    else if p.core = true then []\n",
  "edit": "break at a core particle",
  "claim": "C132: found"
 },
 {
  "file": "Fluid/Model.lean",
  "def": "findInCell",
  "old": "    else if p.core = true then findInCell c w dt ps\n",
  "new": "",
  "edit": "core particles again",
  "claim": "C132: found, initial"
 },
 {
  "file": "Fluid/Model.lean",
  "def": "findInCell",
  "old": "p.pos.t + dt ≤ fluidTime c p",
  "new": "p.pos.t ≤ fluidTime c p",
  "edit": "begin of the step",
  "claim": "C132: found"
 },
 {
  "file": "Fluid/Model.lean",
  "def": "findInCell",
  "old": "    else if p.pos.t + dt ≤ fluidTime c p then findInCell c w dt ps\n",
  "new": "",
  "edit": "formation not checked",
  "claim": "C132: time"
 },
 {
  "file": "Fluid/Model.lean",
  "def": "coreGate",
  "old": "if t = .fluidizationNoRemoval then .ok false",
  "new": "if t = .fluidization then .ok false",
  "edit": "wrong process type",
  "claim": "C133: gate"
 },
 {
  "file": "Fluid/Model.lean",
  "def": "coreGate",
  "old": ".ok (cores.all id)",
  "new": ".ok (cores.any id)",
  "edit": "any instead of all",
  "claim": "C133: gate"
 },
 {
  "file": "Fluid/Model.lean",
  "def": "coreGate",
  "old": "      else .ok true\n  else .ok true",
  "new": "      else .ok false\n  else .ok true",
  "edit": "elastic refused",
  "claim": "C133: gate"
 },
 {
  "file": "Fluid/Model.lean",
  "def": "coresOut",
  "old": "if t = .elastic then cores else",
  "new": "",
  "edit": "elastic collisions spread the core",
  "claim": "C133: inherited"
 },
 {
  "file": "Fluid/Model.lean",
  "def": "coresOut",
  "old": "List.replicate n (cores.any id)",
  "new": "List.replicate n (cores.all id)",
  "edit": "all must be core",
  "claim": "C133: inherited"
 },
 {
  "file": "Fluid/Model.lean",
  "def": "coresOut",
  "old": "List.replicate n (cores.any id)",
  "new": "List.replicate n false",
  "edit": "scattering products not core",
  "claim": "C133: inherited"
 },
 {
  "file": "Fluid/Model.lean",
  "def": "coresOut",
  "old": "| .decay => List.replicate n (cores.headD false)",
  "new": "| .decay => List.replicate n false",
  "edit": "decay products not core",
  "claim": "C133: inherited"
 },
 {
  "file": "Fluid/Model.lean",
  "def": "fluidizeOut",
  "old": "if remove then [] else",
  "new": "if !remove then [] else",
  "edit": "removal swapped",
  "claim": "C133: fluidize"
 },
 {
  "file": "Fluid/Model.lean",
  "def": "fluidizeOut",
  "old": "[{ p with core := true }]",
  "new": "[{ p with core := true, ncoll := 0 }]",
  "edit": "history reset",
  "claim": "C133: fluidize"
 },
 {
  "file": "Fluid/Model.lean",
  "def": "fluidizeCheck",
  "old": "else if out.length = 0 then .error .removed\n",
  "new": "",
  "edit": "removal not noticed",
  "claim": "C133: check"
 },
 {
  "file": "Fluid/Model.lean",
  "def": "performed",
  "old": "if t ≠ .wall ∧ t ≠ .fluidizationNoRemoval then",
  "new": "if t ≠ .wall then",
  "edit": "fluidization counts as collision",
  "claim": "C133: fluidize"
 },
 {
  "file": "Fluid/Model.lean",
  "def": "performed",
  "old": "tLast := time }",
  "new": "tLast := p.tLast }",
  "edit": "time of the last collision kept",
  "claim": "C134: ends"
 },
 {
  "file": "Fluid/Model.lean",
  "def": "Free.finalState",
  "old": "p.setFormation p.pos.t with",
  "new": "p with",
  "edit": "formation time kept",
  "claim": "C134: formation"
 },
 {
  "file": "Fluid/Model.lean",
  "def": "Free.finalState",
  "old": "⟨1 * (a.time - p.pos.t), p.mom.velocity.x * (a.time - p.pos.t)",
  "new": "⟨1 * (a.time - p.pos.t), p.mom.velocity.x * a.time",
  "edit": "wrong time difference",
  "claim": "C134: corona"
 },
 {
  "file": "Fluid/Model.lean",
  "def": "backpropagated",
  "old": "let tc := o.tLast + 0.01",
  "new": "let tc := o.tLast",
  "edit": "offset forgotten in the position",
  "claim": "C134: corona"
 },
 {
  "file": "Fluid/Model.lean",
  "def": "backpropagated",
  "old": "o.pos.vec.sub (o.mom",
  "new": "o.pos.vec.add (o.mom",
  "edit": "moved the wrong way",
  "claim": "C134: corona"
 },
 {
  "file": "Fluid/Model.lean",
  "def": "backpropagated",
  "old": "mom := o.mom, tBegin",
  "new": "mom := ⟨o.pole, 0, 0, 0⟩, tBegin",
  "edit": "momentum forgotten",
  "claim": "C134: corona, momentum"
 },
 {
  "file": "Fluid/Model.lean",
  "def": "coronaActions",
  "old": "if o.ncoll = 0 then []\n  else if",
  "new": "if",
  "edit": "spectators moved",
  "claim": "C134: corona"
 },
 {
  "file": "Fluid/Model.lean",
  "def": "coronaActions",
  "old": "  else if o.pos.t = o.tLast then []\n",
  "new": "",
  "edit": "moved again and again",
  "claim": "C134: ends"
 },
 {
  "file": "Fluid/Model.lean",
  "def": "coronaActions",
  "old": "[⟨[o], [], o.pos.t⟩, ⟨[], [backpropagated o], o.tLast + 0.01⟩]",
  "new": "[⟨[], [backpropagated o], o.tLast + 0.01⟩]",
  "edit": "original not removed",
  "claim": "C134: corona"
 },
 {
  "file": "Fluid/Model.lean",
  "def": "findFinal",
  "old": "if l.any (·.core) then",
  "new": "if l.all (·.core) then",
  "edit": "core removed only if all are core",
  "claim": "C134: core"
 },
 {
  "file": "Fluid/Model.lean",
  "def": "findFinal",
  "old": "(s.1 + 1, s.2 + p.mom.t)",
  "new": "(s.1 + 1, s.2 + p.pole)",
  "edit": "mass counted",
  "claim": "C134: core"
 },
 {
  "file": "Fluid/Model.lean",
  "def": "findFinal",
  "old": "((l.filter (·.core)).map fun p =>",
  "new": "(l.map fun p =>",
  "edit": "everything removed",
  "claim": "C134: core"
 },
 {
  "file": "Fluid/Model.lean",
  "def": "startSide",
  "old": "max tMin 40",
  "new": "min tMin 40",
  "edit": "smaller lattice",
  "claim": "C136: start"
 },
 {
  "file": "Fluid/Model.lean",
  "def": "resize",
  "old": "if side < t then side + 5",
  "new": "if side < t then side + 4",
  "edit": "grows less",
  "claim": "C136: contains"
 },
 {
  "file": "Fluid/Model.lean",
  "def": "resize",
  "old": "else if side < t then",
  "new": "else if side + 10 < t then",
  "edit": "too late",
  "claim": "C136: contains"
 },
 {
  "file": "Fluid/Model.lean",
  "def": "resize",
  "old": "if t < tMin ∨ tMax < t then side",
  "new": "if tMax < 2 * t then side",
  "edit": "stops growing early",
  "claim": "C136: contains"
 },
 {
  "file": "Fluid/Model.lean",
  "def": "tau",
  "old": "if a.t * a.t - a.z * a.z < 0",
  "new": "if a.t < 0",
  "edit": "no NaN",
  "claim": "C135: accepted"
 },
 {
  "file": "Fluid/Model.lean",
  "def": "Out.call",
  "old": "if p.ncoll = 0 then o else {",
  "new": "if p.ncoll = 1 then o else {",
  "edit": "wrong spectators",
  "claim": "C135: spectators"
 },
 {
  "file": "Fluid/Model.lean",
  "def": "Out.call",
  "old": "({ o with lines := o.lines ++ [.finish ev ens] }, none)",
  "new": "({ o with lines := o.lines ++ [.start ev ens] }, none)",
  "edit": "wrong line",
  "claim": "C135: lines"
 },
 {
  "file": "Fluid/Model.lean",
  "def": "Out.call",
  "old": "if negative o.proper then ({ o with proper := tau p.pos }, none)",
  "new": "if negative o.proper then (o, none)",
  "edit": "proper time never stored",
  "claim": "C135: accepted"
 },
 {
  "file": "Fluid/Model.lean",
  "def": "Out.call",
  "old": "    else if notLater (tau p.pos) o.proper then (o, none)",
  "new": "    else if notLater (tau p.pos) o.proper then ({ o with proper := tau p.pos }, none)",
  "edit": "reference moves along",
  "claim": "C135: accepted"
 },
 {
  "file": "Fluid/Model.lean",
  "def": "notLater",
  "old": "decide (a - b < reallySmall)",
  "new": "decide (b - a < reallySmall)",
  "edit": "swapped difference",
  "claim": "C135: accepted"
 },
 {
  "file": "Fluid/Model.lean",
  "def": "Out.call",
  "old": "| .start ev ens n => if n ≠ 1 then",
  "new": "| .start ev ens n => if n = 0 then",
  "edit": "several ensembles accepted",
  "claim": "C135: accepted"
 }
]