[
 {
  "file": "Types/Model.lean",
  "def": "splitCharge",
  "old": "if has name (plus ++ plus) then (cut name (plus ++ plus), minus ++ minus)\n  else if has name plus",
  "new": "if has name plus",
  "edit": "double plus not recognised: only one suffix stripped",
  "claim": "C80 names"
 },
 {
  "file": "Types/Model.lean",
  "def": "splitCharge",
  "old": "(cut name minus, plus)",
  "new": "(cut name minus, minus)",
  "edit": "antiparticle of a negative state keeps the minus",
  "claim": "C80 names"
 },
 {
  "file": "Types/Model.lean",
  "def": "splitCharge",
  "old": "(cut name zero, zero)",
  "new": "(name, zero)",
  "edit": "zero not stripped",
  "claim": "C80 names: N0 gets its own multiplet"
 },
 {
  "file": "Types/Model.lean",
  "def": "cut",
  "old": "s.take (s.length - p.length)",
  "new": "s.take (s.length - p.length - 1)",
  "edit": "sizeof off by one",
  "claim": "C80 names"
 },
 {
  "file": "Types/Model.lean",
  "def": "seqLen",
  "old": "else if lead / 2 ^ 5 = 0x6 then 2",
  "new": "else if lead / 2 ^ 5 = 0x6 then 1",
  "edit": "bar inserted inside the first character",
  "claim": "C80 names"
 },
 {
  "file": "Types/Model.lean",
  "def": "antiname",
  "old": "base.take (seqLen base) ++ bar",
  "new": "bar ++ base.take (seqLen base)",
  "edit": "bar in front of the first character",
  "claim": "C80 names"
 },
 {
  "file": "Types/Model.lean",
  "def": "antiname",
  "old": "Verif.Pdg.strangeness d != 0 ||",
  "new": "",
  "edit": "no bar for antikaons: they land in the kaon multiplet",
  "claim": "C80 names"
 },
 {
  "file": "Types/Model.lean",
  "def": "chargestr",
  "old": "if c = 1 then .ok plus",
  "new": "if c = 1 then .ok minus",
  "edit": "wrong suffix for charge one",
  "claim": "C80 names"
 },
 {
  "file": "Types/Model.lean",
  "def": "chargestr",
  "old": "else if c = -2 then .ok (minus ++ minus)\n  else",
  "new": "else",
  "edit": "charge -2 refused",
  "claim": "C57 created"
 },
 {
  "file": "Types/Model.lean",
  "def": "parseParity",
  "old": "if s = [45] then some false",
  "new": "if s = [45] then some true",
  "edit": "negative parity read as positive",
  "claim": "C57 contents"
 },
 {
  "file": "Types/Model.lean",
  "def": "parseParity",
  "old": "else if s = [45] then some false else none",
  "new": "else some false",
  "edit": "any other word is negative parity",
  "claim": "C57 created"
 },
 {
  "file": "Types/Model.lean",
  "def": "antiFrom",
  "old": "if s % 2 = 0 then t.parity else !t.parity",
  "new": "t.parity",
  "edit": "parity of antifermions not inverted",
  "claim": "C57 antiparticle"
 },
 {
  "file": "Types/Model.lean",
  "def": "antiFrom",
  "old": "if s % 2 = 0 then t.parity else !t.parity",
  "new": "if s % 2 = 0 then !t.parity else t.parity",
  "edit": "parity inverted for bosons",
  "claim": "C57 antiparticle"
 },
 {
  "file": "Types/Model.lean",
  "def": "antiFrom",
  "old": "⟨nm, t.mass, t.width,",
  "new": "⟨nm, t.width, t.mass,",
  "edit": "mass and width of the antiparticle swapped",
  "claim": "C57 antiparticle"
 },
 {
  "file": "Types/Model.lean",
  "def": "addState",
  "old": "| .ok t => (acc ++ [⟨f, mass, width, parity, d⟩, t], none)",
  "new": "| .ok _ => (acc ++ [⟨f, mass, width, parity, d⟩], none)",
  "edit": "antiparticle not added",
  "claim": "C57 antiparticle"
 },
 {
  "file": "Types/Model.lean",
  "def": "addState",
  "old": "if Verif.Pdg.hasAntiparticle d then",
  "new": "if !Verif.Pdg.anti d then",
  "edit": "antiparticle added for every positive code",
  "claim": "C57 contents"
 },
 {
  "file": "Types/Model.lean",
  "def": "addLine",
  "old": "if l.codes = [] then (acc, some .loadFailure)\n    else",
  "new": "",
  "edit": "line without codes accepted",
  "claim": "C57 created"
 },
 {
  "file": "Types/Model.lean",
  "def": "addLine",
  "old": "if checkMass (ds.headD 0) mass then\n          addStates l.name mass width parity (decide (1 < ds.length)) acc ds\n        else (acc, some .mass)",
  "new": "addStates l.name mass width parity (decide (1 < ds.length)) acc ds",
  "edit": "hard-coded masses not checked",
  "claim": "C57 created"
 },
 {
  "file": "Types/Model.lean",
  "def": "addLine",
  "old": "(decide (1 < ds.length))",
  "new": "(decide (0 < ds.length))",
  "edit": "charge suffix also for single states",
  "claim": "C57 created / names"
 },
 {
  "file": "Types/Model.lean",
  "def": "addLines",
  "old": "| (acc', none) => addLines acc' ls",
  "new": "| (_, none) => addLines acc ls",
  "edit": "a line replaces the previous ones",
  "claim": "C57 contents"
 },
 {
  "file": "Types/Model.lean",
  "def": "duplicate",
  "old": "duplicate t.code ts",
  "new": "duplicate prev ts",
  "edit": "previous code not updated",
  "claim": "C57 no duplicates"
 },
 {
  "file": "Types/Model.lean",
  "def": "create",
  "old": "if duplicate 0 (sortTypes l) then ({ st with types := sortTypes l }, some .loadFailure)",
  "new": "if duplicate 0 l then ({ st with types := sortTypes l }, some .loadFailure)",
  "edit": "duplicates searched before sorting",
  "claim": "C57 no duplicates"
 },
 {
  "file": "Types/Model.lean",
  "def": "create",
  "old": "| .ok isos => (⟨sortTypes l, true, isos⟩, none)",
  "new": "| .ok isos => (⟨l, true, isos⟩, none)",
  "edit": "list not sorted: binary search fails",
  "claim": "C57 find"
 },
 {
  "file": "Types/Model.lean",
  "def": "create",
  "old": "else if st.built then ({ st with types := sortTypes l }, some .alreadyBuilt)",
  "new": "else if st.built then (st, some .alreadyBuilt)",
  "edit": "repaired: refused call leaves the list alone",
  "claim": "C57_second_call_false"
 },
 {
  "file": "Types/Model.lean",
  "def": "lowerBoundLoop",
  "old": "(len - len / 2 - 1)",
  "new": "(len - len / 2)",
  "edit": "wrong length after the middle element",
  "claim": "C57 find"
 },
 {
  "file": "Types/Model.lean",
  "def": "lowerBoundLoop",
  "old": "(first + len / 2 + 1)",
  "new": "(first + len / 2)",
  "edit": "middle element not skipped",
  "claim": "C57 find"
 },
 {
  "file": "Types/Model.lean",
  "def": "lowerBoundLoop",
  "old": "if p x then lowerBoundLoop",
  "new": "if !p x then lowerBoundLoop",
  "edit": "comparison inverted",
  "claim": "C57 find"
 },
 {
  "file": "Types/Model.lean",
  "def": "Store.tryFind",
  "old": "if t.code = d then (addressOf i).map some else .ok none",
  "new": "(addressOf i).map some",
  "edit": "next larger code returned",
  "claim": "C57 find"
 },
 {
  "file": "Types/Model.lean",
  "def": "Store.tryFind",
  "old": "decide (t.code < d)",
  "new": "decide (t.code ≤ d)",
  "edit": "upper bound instead of lower bound",
  "claim": "C57 find"
 },
 {
  "file": "Types/Model.lean",
  "def": "Store.find",
  "old": "| .ok none => .error .notFound",
  "new": "| .ok none => .error .assertion",
  "edit": "not found not reported as such",
  "claim": "C57 find"
 },
 {
  "file": "Types/Model.lean",
  "def": "Store.getAntiparticle",
  "old": "st.find (Verif.Pdg.getAntiparticle t.code)",
  "new": "st.find t.code",
  "edit": "returns the particle itself",
  "claim": "C57 antiparticle"
 },
 {
  "file": "Types/Model.lean",
  "def": "isoFind",
  "old": "if x.name = name then some i else none",
  "new": "some i",
  "edit": "next multiplet in order returned",
  "claim": "C80 multiplets"
 },
 {
  "file": "Types/Model.lean",
  "def": "Iso.addState",
  "old": "x.states ++ [i]",
  "new": "[i]",
  "edit": "only the last state kept",
  "claim": "C80 multiplets"
 },
 {
  "file": "Types/Model.lean",
  "def": "createMultiplet",
  "old": "let l := sortIsos l\n    match isoFind l nm with",
  "new": "match isoFind l nm with",
  "edit": "multiplets not sorted",
  "claim": "C80 multiplets"
 },
 {
  "file": "Types/Model.lean",
  "def": "createMultiplet",
  "old": "| some _ => .ok isos\n    | none =>",
  "new": "| some _ => .ok isos\n    | none => if t.width = 0 then .ok isos else",
  "edit": "no multiplet for stable types",
  "claim": "C80 multiplets / C57 created"
 },
 {
  "file": "Types/Model.lean",
  "def": "createMultiplets",
  "old": "createMultiplets (i + 1) isos' ts",
  "new": "createMultiplets i isos' ts",
  "edit": "position not advanced",
  "claim": "C80 multiplets"
 },
 {
  "file": "Types/Model.lean",
  "def": "Store.findState",
  "old": "st.findMultiplet (multipletName name)",
  "new": "st.findMultiplet name",
  "edit": "looked up by the full name",
  "claim": "C80 states"
 },
 {
  "file": "Types/Model.lean",
  "def": "Store.existsName",
  "old": "st.types.any fun t => t.name == name",
  "new": "st.types.any fun t => multipletName t.name == name",
  "edit": "multiplet names count",
  "claim": "C80 states"
 }
]