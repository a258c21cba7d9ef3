[
 {
  "file": "Pauli/Model.lean",
  "def": "phaseVolume",
  "old": "2 * (4 / 3 * Real.pi * c.rr * c.rr * c.rr)",
  "new": "(4 / 3 * Real.pi * c.rr * c.rr * c.rr)",
  "edit": "spin factor dropped",
  "claim": "C102"
 },
 {
  "file": "Pauli/Model.lean",
  "def": "norm",
  "old": "c.rc * 2 / Real.sqrt (2 * Real.pi)",
  "new": "c.rc / Real.sqrt (2 * Real.pi)",
  "edit": "factor 2 dropped",
  "claim": "C102"
 },
 {
  "file": "Pauli/Model.lean",
  "def": "integralOf",
  "old": "2 * c.rr * Real.exp (-A * A)) * (c.sig * c.sig)",
  "new": "2 * c.rr * Real.exp (-A * A)) * c.sig",
  "edit": "power of sigma",
  "claim": "C102"
 },
 {
  "file": "Pauli/Model.lean",
  "def": "integralOf",
  "old": "else if c.rc > rj + c.rr then",
  "new": "else if c.rc < rj + c.rr then",
  "edit": "branches exchanged",
  "claim": "C102"
 },
 {
  "file": "Pauli/Model.lean",
  "def": "integralOf",
  "old": "- c.rr * c.rr + 2 * c.sig * c.sig",
  "new": "+ c.rr * c.rr + 2 * c.sig * c.sig",
  "edit": "sign",
  "claim": "C102"
 },
 {
  "file": "Pauli/Model.lean",
  "def": "integralOf",
  "old": "(c.sig / rj * (Real.exp (-A * A) - Real.exp (-B * B))",
  "new": "(c.sig / rj * (Real.exp (-B * B) - Real.exp (-A * A))",
  "edit": "sign",
  "claim": "C102"
 },
 {
  "file": "Pauli/Model.lean",
  "def": "weight",
  "old": "/ norm c /\n    phaseVolume c",
  "new": "/\n    phaseVolume c",
  "edit": "norm dropped",
  "claim": "C102"
 },
 {
  "file": "Pauli/Model.lean",
  "def": "contrib",
  "old": "  if q.pdg ≠ pdg then 0\n  else if",
  "new": "  if",
  "edit": "species not checked",
  "claim": "C102"
 },
 {
  "file": "Pauli/Model.lean",
  "def": "contrib",
  "old": "(q.mom.sub p).sqr > c.rp * c.rp",
  "new": "(q.mom.sub p).sqr > c.rp",
  "edit": "radius not squared",
  "claim": "C102"
 },
 {
  "file": "Pauli/Model.lean",
  "def": "contrib",
  "old": "rd ≥ (c.rr + c.rc) * (c.rr + c.rc)",
  "new": "rd ≥ c.rr * c.rr",
  "edit": "smaller region",
  "claim": "C102"
 },
 {
  "file": "Pauli/Model.lean",
  "def": "contrib",
  "old": "    else if disregard.any (fun d => decide (q.id = d.id)) then 0\n",
  "new": "",
  "edit": "incoming particles counted",
  "claim": "C102"
 },
 {
  "file": "Pauli/Model.lean",
  "def": "contrib",
  "old": "if i + 1 < tableSize then",
  "new": "if i < tableSize then",
  "edit": "read past the end of the table (harmless on the model table)",
  "claim": "C102"
 },
 {
  "file": "Pauli/Model.lean",
  "def": "dens",
  "old": "/ c.ntest / c.nens",
  "new": "/ c.ntest",
  "edit": "not averaged over ensembles",
  "claim": "C102"
 },
 {
  "file": "Pauli/Model.lean",
  "def": "dens",
  "old": "/ c.ntest / c.nens",
  "new": "/ c.nens",
  "edit": "not divided by test particles",
  "claim": "C102",
  "tightened": [
   "C102_average"
  ]
 },
 {
  "file": "Pauli/Model.lean",
  "def": "blockedLoop",
  "old": "> u 0 then true",
  "new": "< u 0 then true",
  "edit": "comparison reversed",
  "claim": "C102"
 },
 {
  "file": "Pauli/Model.lean",
  "def": "blockedLoop",
  "old": "    if q.baryon then",
  "new": "    if !q.baryon then",
  "edit": "mesons blocked",
  "claim": "C102"
 },
 {
  "file": "Pauli/Model.lean",
  "def": "blockedLoop",
  "old": "blockedLoop c w ensembles incoming qs fun n => u (n + 1)",
  "new": "blockedLoop c w ensembles incoming qs u",
  "edit": "random number reused",
  "claim": "C102"
 },
 {
  "file": "Pauli/Model.lean",
  "def": "isBlocked",
  "old": "if wall then false else",
  "new": "",
  "edit": "wall crossings blocked",
  "claim": "C102"
 }
]