[
 {
  "file": "Hep/Model.lean",
  "def": "statusOf",
  "old": "if type = 5 then dcy else type + off",
  "new": "if type = 5 then final else type + off",
  "edit": "decayed particles keep the final status",
  "claim": "C147 final"
 },
 {
  "file": "Hep/Model.lean",
  "def": "statusOf",
  "old": "else type + off",
  "new": "else type",
  "edit": "offset of the status forgotten",
  "claim": "C147 status"
 },
 {
  "file": "Hep/Model.lean",
  "def": "push",
  "old": "n := st.n + 1 }",
  "new": "n := st.n }",
  "edit": "entry overwritten",
  "claim": "C147"
 },
 {
  "file": "Hep/Model.lean",
  "def": "register",
  "old": "Function.update st'.map p.id (some st.n)",
  "new": "Function.update st'.map p.id (some st'.n)",
  "edit": "map points to the next entry",
  "claim": "C147 vertices"
 },
 {
  "file": "Hep/Model.lean",
  "def": "register",
  "old": "⟨p.pdg, final, p.mom, prod, ends⟩",
  "new": "⟨p.pdg, final, p.mom, ends, prod⟩",
  "edit": "production and end vertex exchanged",
  "claim": "C147 vertices"
 },
 {
  "file": "Hep/Model.lean",
  "def": "register",
  "old": "{ st' with map := Function.update st'.map p.id (some st.n) }",
  "new": "st'",
  "edit": "outgoing particles not registered",
  "claim": "C147 no dangling particle"
 },
 {
  "file": "Hep/Model.lean",
  "def": "emit",
  "old": "| p :: ps => emit (register st p prod ends) prod ends ps",
  "new": "| p :: ps => register (emit st prod ends ps) p prod ends",
  "edit": "order of the particles reversed",
  "claim": "C147 order of outgoing particles"
 },
 {
  "file": "Hep/Model.lean",
  "def": "consume",
  "old": "{ st.recs r with status := status, ends := some v }",
  "new": "{ st.recs r with ends := some v }",
  "edit": "status of incoming particles not changed",
  "claim": "C147 final"
 },
 {
  "file": "Hep/Model.lean",
  "def": "consume",
  "old": "{ st.recs r with status := status, ends := some v }",
  "new": "{ st.recs r with status := status }",
  "edit": "incoming particles not attached to the vertex",
  "claim": "C147 vertices"
 },
 {
  "file": "Hep/Model.lean",
  "def": "consume",
  "old": "{ st.recs r with status := status, ends := some v }",
  "new": "{ st.recs r with status := status, prod := some v }",
  "edit": "incoming particles added as outgoing",
  "claim": "C147 vertices"
 },
 {
  "file": "Hep/Model.lean",
  "def": "interact",
  "old": "{ st with nv := st.nv + 1 } st.nv (statusOf",
  "new": "st st.nv (statusOf",
  "edit": "no new vertex",
  "claim": "C147 vertices"
 },
 {
  "file": "Hep/Model.lean",
  "def": "interact",
  "old": "(some st.nv) none a.outs",
  "new": "(some st.nv) none a.ins",
  "edit": "incoming particles written as outgoing",
  "claim": "C147"
 },
 {
  "file": "Hep/Model.lean",
  "def": "interact",
  "old": "(some st.nv) none a.outs",
  "new": "(some 0) none a.outs",
  "edit": "outgoing particles leave the interaction point",
  "claim": "C147 vertices"
 },
 {
  "file": "Hep/Model.lean",
  "def": "nucleus",
  "old": "p.side == some side",
  "new": "p.side == some true",
  "edit": "target counted as projectile",
  "claim": "C147 beams"
 },
 {
  "file": "Hep/Model.lean",
  "def": "ionPdg",
  "old": "z * 10 * 1000 + a * 10",
  "new": "z * 10 * 1000 + a",
  "edit": "isomer digit forgotten",
  "claim": "C147 ion codes"
 },
 {
  "file": "Hep/Model.lean",
  "def": "ionPdg",
  "old": "z * 10 * 1000 + a * 10",
  "new": "a * 10 * 1000 + z * 10",
  "edit": "charge and mass number exchanged",
  "claim": "C147 ion codes"
 },
 {
  "file": "Hep/Model.lean",
  "def": "ionPdg",
  "old": "else if z = 1 ∧ a = 0 then 2112",
  "new": "else if z = 0 ∧ a = 1 then 2112",
  "edit": "repaired neutron (the finding disappears)",
  "claim": "C147 finding"
 },
 {
  "file": "Hep/Model.lean",
  "def": "start",
  "old": "if ensembles ≠ 1 then .error .ensembles\n  else if coll &&",
  "new": "if ensembles = 0 then .error .ensembles\n  else if coll &&",
  "edit": "several ensembles accepted",
  "claim": "C147 errors"
 },
 {
  "file": "Hep/Model.lean",
  "def": "start",
  "old": "coll && ps.any (fun p => !p.nucleon)",
  "new": "ps.any (fun p => !p.nucleon)",
  "edit": "pions refused outside of the collider",
  "claim": "C147 final"
 },
 {
  "file": "Hep/Model.lean",
  "def": "start",
  "old": "coll && ps.any (fun p => !p.nucleon)",
  "new": "coll && ps.all (fun p => !p.nucleon)",
  "edit": "only beams without any nucleon are refused",
  "claim": "C147 errors"
 },
 {
  "file": "Hep/Model.lean",
  "def": "start",
  "old": "if coll then emit clear (some 0) none ps else emit clear none (some 0) ps",
  "new": "if coll then emit clear none (some 0) ps else emit clear (some 0) none ps",
  "edit": "initial particles on the wrong side",
  "claim": "C147 beams"
 },
 {
  "file": "Hep/Model.lean",
  "def": "start",
  "old": "⟨ionPdg pr.2.1 pr.2.2, beam, pr.1, none, some 0⟩",
  "new": "⟨ionPdg pr.2.1 pr.2.2, final, pr.1, none, some 0⟩",
  "edit": "beam with final status",
  "claim": "C147 beams"
 },
 {
  "file": "Hep/Model.lean",
  "def": "start",
  "old": "⟨ionPdg ta.2.1 ta.2.2, beam, ta.1, none, some 0⟩",
  "new": "⟨ionPdg ta.2.1 ta.2.2, beam, pr.1, none, some 0⟩",
  "edit": "target with the momentum of the projectile",
  "claim": "C147 beams"
 },
 {
  "file": "Hep/Model.lean",
  "def": "finish",
  "old": "else if !full then .ok (emit st (some 0) none ps)",
  "new": "else if full then .ok (emit st (some 0) none ps)",
  "edit": "final particles added to the full record",
  "claim": "C147"
 },
 {
  "file": "Hep/Model.lean",
  "def": "finish",
  "old": "else if ps.any (fun p => (st.map p.id).isNone) then .error .dangling\n",
  "new": "",
  "edit": "dangling particle not noticed",
  "claim": "C147 errors"
 },
 {
  "file": "Hep/Model.lean",
  "def": "finish",
  "old": "(st.map p.id).isNone",
  "new": "(st.map p.id).isSome",
  "edit": "test reversed",
  "claim": "C147 errors"
 }
]