[
 {
  "file": "Particles/Model.lean",
  "def": "nextId",
  "old": ".ok { s with idMax := s.idMax + 1 } else .error .overflow",
  "new": ".ok s else .error .overflow",
  "edit": "forget ++id_max_",
  "claim": "C01 ids fresh and unique"
 },
 {
  "file": "Particles/Model.lean",
  "def": "insert",
  "old": "    let s := { s with dirty := rest }\n    let s ← copyIn s offset p",
  "new": "    let s ← copyIn s offset p",
  "edit": "insert does not pop the hole stack (slot handed out twice)",
  "claim": "C01/C02 contents"
 },
 {
  "file": "Particles/Model.lean",
  "def": "insert",
  "old": "    let s := { s with size := s.size + 1 }\n    let r ← rd s i\n    return (s, r)",
  "new": "    let r ← rd s i\n    return (s, r)",
  "edit": "insert at the end forgets ++data_size_",
  "claim": "C02 contents"
 },
 {
  "file": "Particles/Model.lean",
  "def": "insert",
  "old": "    let s ← wr s offset { slot with hole := false }\n    let r ← rd s offset",
  "new": "    let r ← rd s offset",
  "edit": "hole flag not cleared when a hole is reused",
  "claim": "C02: iteration skips the new particle"
 },
 {
  "file": "Particles/Model.lean",
  "def": "remove",
  "old": "    let s ← wr s index { slot with id := -1, hole := true }",
  "new": "    let s ← wr s index { slot with hole := true }",
  "edit": "removed particle keeps its id",
  "claim": "C04 stale copies rejected"
 },
 {
  "file": "Particles/Model.lean",
  "def": "remove",
  "old": "if index = s.size - 1 then return { s with size := s.size - 1 }",
  "new": "if index = s.size then return { s with size := s.size - 1 }",
  "edit": "wrong boundary for the last element",
  "claim": "C02/C03"
 },
 {
  "file": "Particles/Model.lean",
  "def": "ensureCapacity",
  "old": "else if s.size + toAdd ≥ s.cap then",
  "new": "else if s.size + toAdd > s.cap then",
  "edit": "capacity check off by one (iterator sentinel outside the array)",
  "claim": "C03 no access outside the storage"
 },
 {
  "file": "Particles/Model.lean",
  "def": "isValid",
  "old": "(s.data c.index).id == c.id && (s.data c.index).proc == c.proc",
  "new": "(s.data c.index).id == c.id",
  "edit": "is_valid ignores the process id",
  "claim": "C04: copy from before another process accepted"
 },
 {
  "file": "Particles/Model.lean",
  "def": "isValid",
  "old": "if s.size ≤ c.index then false",
  "new": "if s.size < c.index then false",
  "edit": "is_valid bound off by one",
  "claim": "C04"
 },
 {
  "file": "Particles/Model.lean",
  "def": "replace",
  "old": "    return (s, { a with id := slot.id, index := r.index } :: out)",
  "new": "    return (s, { a with id := r.id, index := r.index } :: out)",
  "edit": "outgoing particle gets the id of the incoming one",
  "claim": "C05"
 },
 {
  "file": "Particles/Model.lean",
  "def": "reset",
  "old": "idMax := -1, size := 0, dirty := [],",
  "new": "idMax := -1, size := 0,",
  "edit": "reset keeps the hole stack",
  "claim": "C02/C03 after reset"
 },
 {
  "file": "Particles/Model.lean",
  "def": "reset",
  "old": "    data := fun i => if i ∈ s.dirty then { s.data i with hole := false } else s.data i }",
  "new": "    data := s.data }",
  "edit": "reset does not clear hole flags",
  "claim": "C02: particles inserted after reset are skipped"
 },
 {
  "file": "Particles/Model.lean",
  "def": "sizeOf",
  "old": "s.size - s.dirty.length",
  "new": "s.size",
  "edit": "size() counts holes",
  "claim": "C02 size"
 }
]