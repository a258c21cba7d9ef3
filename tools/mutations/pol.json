[
 {
  "file": "Pol/Model.lean",
  "def": "unpolarize",
  "old": "if o.spinless then ⟨0, 0, 0, 0⟩ else unpolarizedSpin o.p s",
  "new": "unpolarizedSpin o.p s",
  "edit": "spin of spinless particles",
  "claim": "C183"
 },
 {
  "file": "Pol/Model.lean",
  "def": "flip",
  "old": "⟨r.t, -r.x, -r.y, -r.z⟩",
  "new": "⟨r.t, -r.x, -r.y, r.z⟩",
  "edit": "one component not reversed",
  "claim": "C183"
 },
 {
  "file": "Pol/Model.lean",
  "def": "flip",
  "old": "boost ⟨r.t, -r.x, -r.y, -r.z⟩ v.neg",
  "new": "boost ⟨r.t, -r.x, -r.y, -r.z⟩ v",
  "edit": "boosted in the same direction twice",
  "claim": "C183"
 },
 {
  "file": "Pol/Model.lean",
  "def": "spinInteraction",
  "old": "S := boost b.S b.p.velocity",
  "new": "S := boost a.S b.p.velocity",
  "edit": "spin of the other particle",
  "claim": "C183"
 },
 {
  "file": "Pol/Model.lean",
  "def": "spinInteraction",
  "old": "if k ≤ 7 then",
  "new": "if k < 7 then",
  "edit": "wrong probability of a flip",
  "claim": "C183"
 },
 {
  "file": "Pol/Model.lean",
  "def": "spinInteraction",
  "old": "let l := if i1.isLambda then i1 else i2",
  "new": "let l := if i1.isLambda then i2 else i1",
  "edit": "spin of the pion",
  "claim": "C183"
 },
 {
  "file": "Pol/Model.lean",
  "def": "spinInteraction",
  "old": "if !on then some out\n  else if pr = .elastic",
  "new": "if pr = .elastic",
  "edit": "option ignored",
  "claim": "C183"
 },
 {
  "file": "Pol/Model.lean",
  "def": "stringSpin",
  "old": "let i := if pr = .stringAX then i1 else i2",
  "new": "let i := if pr = .stringXB then i1 else i2",
  "edit": "spin of the wrong hadron",
  "claim": "C183"
 },
 {
  "file": "Pol/Model.lean",
  "def": "stringSpin",
  "old": "unpolarizeAll draw out.dropLast ++",
  "new": "out.dropLast ++",
  "edit": "new particles keep undefined spins",
  "claim": "C183"
 },
 {
  "file": "Pol/Model.lean",
  "def": "final",
  "old": "[{ a with S := i1.S }, { b with S := i2.S }]",
  "new": "[{ a with S := i2.S }, { b with S := i1.S }]",
  "edit": "spins exchanged",
  "claim": "C183"
 },
 {
  "file": "Pol/Model.lean",
  "def": "final",
  "old": "| .twoToOne => some (if on then unpolarizeAll draw out else out)",
  "new": "| .twoToOne => spinInteraction on pr k i1 i2 (if on then unpolarizeAll draw out else out)",
  "edit": "(the finding disappears)",
  "claim": "C183"
 },
 {
  "file": "Pol/Model.lean",
  "def": "final",
  "old": "| .twoToMany => some (if on then unpolarizeAll draw out else out)",
  "new": "| .twoToMany => some out",
  "edit": "no spins for many particles",
  "claim": "C183"
 },
 {
  "file": "Pol/Model.lean",
  "def": "decaySpin",
  "old": "[{ a with S := ⟨0, 0, 0, 0⟩ }, { b with S := boost parent.S b.p.velocity }]",
  "new": "[{ a with S := boost parent.S b.p.velocity }, { b with S := ⟨0, 0, 0, 0⟩ }]",
  "edit": "spin given to the pion",
  "claim": "C183"
 },
 {
  "file": "Pol/Model.lean",
  "def": "decaySpin",
  "old": "if !on then out\n  else match",
  "new": "match",
  "edit": "option ignored in decays",
  "claim": "C183"
 },
 {
  "file": "Pol/Model.lean",
  "def": "decaySpin",
  "old": "boost parent.S a.p.velocity }, { b with S := ⟨0, 0, 0, 0⟩ }",
  "new": "boost parent.S a.p.velocity }, b",
  "edit": "spin of the pion undefined",
  "claim": "C183"
 }
]