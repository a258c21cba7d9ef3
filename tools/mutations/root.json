[
 {
  "file": "Root/Model.lean",
  "def": "extBranches",
  "old": ".many \"pdg_mother1\" .mother1",
  "new": ".many \"pdg_mother1\" .mother2",
  "edit": "wrong variable",
  "claim": "C152 extended entries"
 },
 {
  "file": "Root/Model.lean",
  "def": "partBranches",
  "old": ".many \"px\" .px",
  "new": ".many \"px\" .py",
  "edit": "wrong variable",
  "claim": "C152 entries"
 },
 {
  "file": "Root/Model.lean",
  "def": "partBranches",
  "old": ".many \"formation_time\" .formation",
  "new": ".many \"formation_time\" .lastColl",
  "edit": "wrong variable",
  "claim": "C152 entries"
 },
 {
  "file": "Root/Model.lean",
  "def": "particleBranches",
  "old": ".one \"current_t\" .currentT, ",
  "new": "",
  "edit": "time missing",
  "claim": "C152 entries"
 },
 {
  "file": "Root/Model.lean",
  "def": "particleBranches",
  "old": "++ (if ext then extBranches else [])\n\n/-- The branches of the tree of the collisions",
  "new": "++ (if ext then [] else extBranches)\n\n/-- The branches of the tree of the collisions",
  "edit": "extended branches in the standard output",
  "claim": "C152 entries"
 },
 {
  "file": "Root/Model.lean",
  "def": "collisionBranches",
  "old": ".one \"nin\" .nin, .one \"nout\" .nout",
  "new": ".one \"nin\" .nout, .one \"nout\" .nin",
  "edit": "incoming and outgoing swapped",
  "claim": "C152 collisions"
 },
 {
  "file": "Root/Model.lean",
  "def": "field",
  "old": "| .t => .dbl p.pos.1",
  "new": "| .t => .dbl p.mom.1",
  "edit": "energy as time",
  "claim": "C152 entries"
 },
 {
  "file": "Root/Model.lean",
  "def": "field",
  "old": "| .baryon => .int p.baryon",
  "new": "| .baryon => .int p.strange",
  "edit": "strangeness as baryon number",
  "claim": "C152 extended entries"
 },
 {
  "file": "Root/Model.lean",
  "def": "put",
  "old": "if v.isExt && !ext then",
  "new": "if v.isExt || !ext then",
  "edit": "extended arrays not filled",
  "claim": "C152 extended entries"
 },
 {
  "file": "Root/Model.lean",
  "def": "fillLoop",
  "old": "let m' := m.set .npart (.int B)",
  "new": "let m' := m.set .npart (.int i)",
  "edit": "number of particles of a full buffer",
  "claim": "(equal to B there: harmless?)"
 },
 {
  "file": "Root/Model.lean",
  "def": "fillLoop",
  "old": "fillLoop B ext ps 0 m' (t ++",
  "new": "fillLoop B ext ps i m' (t ++",
  "edit": "place not reset after a full buffer",
  "claim": "C152 blocks"
 },
 {
  "file": "Root/Model.lean",
  "def": "fillLoop",
  "old": "fillLoop B ext ps 0 m' (t ++ [fill (particleBranches ext) m'])",
  "new": "fillLoop B ext ps 1 (put ext m' 0 p) (t ++ [fill (particleBranches ext) m'])",
  "edit": "particle kept (the finding disappears)",
  "claim": "C152 lost particles"
 },
 {
  "file": "Root/Model.lean",
  "def": "fillLoop",
  "old": "if B ≤ i then\n",
  "new": "if B + 1 ≤ i then\n",
  "edit": "one place beyond the buffer",
  "claim": "C152 blocks"
 },
 {
  "file": "Root/Model.lean",
  "def": "particlesToTree",
  "old": "if 0 < r.1 then",
  "new": "if 1 < r.1 then",
  "edit": "single particles not written",
  "claim": "C152 blocks"
 },
 {
  "file": "Root/Model.lean",
  "def": "particlesToTree",
  "old": "(.int r.1)",
  "new": "(.int (r.1 + 1))",
  "edit": "one particle too many",
  "claim": "C152 entries"
 },
 {
  "file": "Root/Model.lean",
  "def": "particlesToTree",
  "old": ".set .tcounter (.int st.counter)\n",
  "new": "\n",
  "edit": "number of the output not set",
  "claim": "C152 entries"
 },
 {
  "file": "Root/Model.lean",
  "def": "particlesToTree",
  "old": "(st.mem.set .ev (.int st.event)).set .ens (.int st.ens)).set .tcounter",
  "new": "(st.mem.set .ev (.int st.ens)).set .ens (.int st.event)).set .tcounter",
  "edit": "event and ensemble swapped",
  "claim": "C152 entries"
 },
 {
  "file": "Root/Model.lean",
  "def": "collisionsToTree",
  "old": "putAll B o.collExt (inc ++ out) 0 m",
  "new": "putAll B o.collExt (out ++ inc) 0 m",
  "edit": "outgoing particles first",
  "claim": "C152 collisions"
 },
 {
  "file": "Root/Model.lean",
  "def": "collisionsToTree",
  "old": ".npart (.int (inc.length + out.length))",
  "new": ".npart (.int inc.length)",
  "edit": "only incoming particles",
  "claim": "C152 collisions"
 },
 {
  "file": "Root/Model.lean",
  "def": "collisionsToTree",
  "old": "(.dbl w)).set .parWgt (.dbl pw)",
  "new": "(.dbl pw)).set .parWgt (.dbl w)",
  "edit": "weights swapped",
  "claim": "C152 collisions"
 },
 {
  "file": "Root/Model.lean",
  "def": "putAll",
  "old": "putAll B ext ps (i + 1) (put ext m i p)",
  "new": "putAll B ext ps i (put ext m i p)",
  "edit": "all particles at the same place",
  "claim": "C152 collisions"
 },
 {
  "file": "Root/Model.lean",
  "def": "common",
  "old": ".set .eTot (.dbl e.eTot)",
  "new": ".set .eTot (.dbl e.eKin)",
  "edit": "kinetic energy as total energy",
  "claim": "C152 entries"
 },
 {
  "file": "Root/Model.lean",
  "def": "common",
  "old": ".set .currentT (.dbl e.time))",
  "new": ".set .currentT (.dbl e.length))",
  "edit": "length as time",
  "claim": "C152 entries"
 },
 {
  "file": "Root/Model.lean",
  "def": "eventStart",
  "old": "counter := 0, mem",
  "new": "counter := st.counter, mem",
  "edit": "number not reset at the start of an event",
  "claim": "C152 event"
 },
 {
  "file": "Root/Model.lean",
  "def": "eventStart",
  "old": "(st.mem.set .impactB (.dbl minusOne)).set .emptyEvent (.bool false) }",
  "new": "st.mem.set .emptyEvent (.bool false) }",
  "edit": "impact parameter not reset",
  "claim": "C152 event"
 },
 {
  "file": "Root/Model.lean",
  "def": "eventStart",
  "old": "if o.kind = .particles ∧ o.only = .no then\n    let st := { st with counter",
  "new": "if o.kind = .particles then\n    let st := { st with counter",
  "edit": "initial particles although only final ones are wanted",
  "claim": "C152 event"
 },
 {
  "file": "Root/Model.lean",
  "def": "eventStart",
  "old": "event := ev, ens := ens, mem := st.mem.common e }",
  "new": "ens := ens, mem := st.mem.common e }",
  "edit": "event not saved",
  "claim": "C152 event"
 },
 {
  "file": "Root/Model.lean",
  "def": "intermediate",
  "old": "let st := { st with ens := ens, mem := st.mem.common e }",
  "new": "let st := { st with mem := st.mem.common e }",
  "edit": "ensemble not updated",
  "claim": "C152 event"
 },
 {
  "file": "Root/Model.lean",
  "def": "intermediate",
  "old": "let st := particlesToTree B o st ps\n    { st with counter := st.counter + 1 }\n  else st\n\n/-- The frequency",
  "new": "let st := particlesToTree B o st ps\n    st\n  else st\n\n/-- The frequency",
  "edit": "number not increased",
  "claim": "C152 event"
 },
 {
  "file": "Root/Model.lean",
  "def": "frequency",
  "old": "if 1000 / nEns = 0 then 1 else 1000 / nEns",
  "new": "1000 / nEns",
  "edit": "frequency zero",
  "claim": "C152 saving"
 },
 {
  "file": "Root/Model.lean",
  "def": "autosave",
  "old": "if o.kind = .collisions then { st with csaved := st.ctree }",
  "new": "if o.kind = .collisions then { st with psaved := st.ptree }",
  "edit": "wrong tree saved",
  "claim": "C152 saving"
 },
 {
  "file": "Root/Model.lean",
  "def": "endWrite",
  "old": "(e.empty = true ∧ o.only = .ifNotEmpty)",
  "new": "(e.empty = true ∧ o.only = .yes)",
  "edit": "wrong option",
  "claim": "C152 event"
 },
 {
  "file": "Root/Model.lean",
  "def": "endWrite",
  "old": "(e.empty = true ∧ o.only = .ifNotEmpty)",
  "new": "(e.empty = true ∨ o.only = .ifNotEmpty)",
  "edit": "or instead of and",
  "claim": "C152 event"
 },
 {
  "file": "Root/Model.lean",
  "def": "endWrite",
  "old": ".set .impactB (.dbl e.impact))",
  "new": ".set .impactB (.dbl minusOne))",
  "edit": "impact parameter not written",
  "claim": "C152 event"
 },
 {
  "file": "Root/Model.lean",
  "def": "saveNow",
  "old": "st.event % st.freq.getD 1 = 0",
  "new": "st.event % st.freq.getD 1 = 1",
  "edit": "wrong events saved",
  "claim": "C152 saving"
 },
 {
  "file": "Root/Model.lean",
  "def": "withFreq",
  "old": "some (st.freq.getD (frequency n))",
  "new": "some (frequency (n + 1))",
  "edit": "wrong frequency",
  "claim": "C152 saving"
 },
 {
  "file": "Root/Model.lean",
  "def": "interaction",
  "old": "if fluid then particlesToTree B o st inc else st",
  "new": "particlesToTree B o st inc",
  "edit": "all interactions as initial conditions",
  "claim": "C152 initial"
 },
 {
  "file": "Root/Model.lean",
  "def": "interaction",
  "old": "if fluid then particlesToTree B o st inc else st",
  "new": "if fluid then particlesToTree B o st out else st",
  "edit": "outgoing particles as initial conditions",
  "claim": "C152 initial"
 }
]