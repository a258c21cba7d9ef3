[
 {
  "file": "Grid/Model.lean",
  "def": "dyxList",
  "old": "else if y = 0 then [0, 1] else if y = n - 1 then [-1, 0] else [-1, 0, 1]",
  "new": "else if y = 0 then [0, 1] else [-1, 0]",
  "edit": "interior cells miss the upper neighbour",
  "claim": "C12"
 },
 {
  "file": "Grid/Model.lean",
  "def": "dyxList",
  "old": "if n = 1 then [0] else if y = 0",
  "new": "if y = 0",
  "edit": "no special case for a single cell",
  "claim": "C12 in bounds"
 },
 {
  "file": "Grid/Model.lean",
  "def": "dzList",
  "old": "if z = n - 1 then [0] else [0, 1]",
  "new": "if z = n then [0] else [0, 1]",
  "edit": "wrong boundary for last z layer",
  "claim": "C12 in bounds"
 },
 {
  "file": "Grid/Model.lean",
  "def": "normalCell",
  "old": "if di > 0 then",
  "new": "if di ≥ 0 then",
  "edit": "cell is its own neighbour",
  "claim": "C12 no pair twice"
 },
 {
  "file": "Grid/Model.lean",
  "def": "zEntries",
  "old": "if z + 1 = n then ⟨0, .minus⟩",
  "new": "if z + 1 = n then ⟨0, .no⟩",
  "edit": "missing wrap in z",
  "claim": "C13"
 },
 {
  "file": "Grid/Model.lean",
  "def": "yxEntries",
  "old": "if y = 0 then [⟨y, .no⟩, ⟨y + 1, .no⟩, ⟨n - 1, .plus⟩]",
  "new": "if y = 0 then [⟨y, .no⟩, ⟨y + 1, .no⟩, ⟨n - 1, .minus⟩]",
  "edit": "wrong wrap direction",
  "claim": "C13 nearest image"
 },
 {
  "file": "Grid/Model.lean",
  "def": "dyLoop",
  "old": "let s := { r.2 with v := { r.2.v with x := a.x }, w := { r.2.w with x := 0 } }",
  "new": "let s := { r.2 with v := { r.2.v with x := a.x } }",
  "edit": "wrap_vector[0] not reset",
  "claim": "C13 nearest image"
 },
 {
  "file": "Grid/Model.lean",
  "def": "dyLoop",
  "old": "let s := { r.2 with v := { r.2.v with x := a.x }, w := { r.2.w with x := 0 } }",
  "new": "let s := { r.2 with w := { r.2.w with x := 0 } }",
  "edit": "virtual_search_index[0] not reset",
  "claim": "C13 exactly once"
 },
 {
  "file": "Grid/Model.lean",
  "def": "dxLoop",
  "old": "if j ≤ makeIndex n s.v then",
  "new": "if j < makeIndex n s.v then",
  "edit": "neighbour test off by one (own cell counted)",
  "claim": "C13"
 },
 {
  "file": "Grid/Model.lean",
  "def": "dxLoop",
  "old": "            cur := s.w }",
  "new": "            cur := s.cur }",
  "edit": "current_wrap_vector not updated: translations accumulate",
  "claim": "C13 coordinates"
 },
 {
  "file": "Grid/Model.lean",
  "def": "place",
  "old": "(cells.modify idx.toNat (· ++ [p]))",
  "new": "(cells.modify idx.toNat (fun _ => [p]))",
  "edit": "cell overwritten",
  "claim": "C11 no particle lost"
 },
 {
  "file": "Grid/Model.lean",
  "def": "place",
  "old": "if !incl && !p.active then",
  "new": "if !p.active then",
  "edit": "include_unformed_particles ignored",
  "claim": "C11 (particles to be on the grid)"
 },
 {
  "file": "Grid/Model.lean",
  "def": "limitCells",
  "old": "if n₀ = 0 ∧ o ≠ .periodic then .ok 1",
  "new": "if n₀ = 0 ∧ o ≠ .periodic then .ok 0",
  "edit": "no cell along a short axis",
  "claim": "C11 bounds"
 },
 {
  "file": "Grid/Model.lean",
  "def": "indexFactor",
  "old": "if (n / len) * len ≥ n then prev (n / len) else n / len",
  "new": "n / len",
  "edit": "no nextafter margin",
  "claim": "C11 bounds (particle at the upper border)"
 },
 {
  "file": "Grid/Model.lean",
  "def": "rawCells",
  "old": "else .ok ⌊len * (1 / l)⌋",
  "new": "else .ok (⌊len * (1 / l)⌋ + 1)",
  "edit": "cells smaller than the interaction length",
  "claim": "C12/C13 close pairs"
 },
 {
  "file": "Grid/Model.lean",
  "def": "makeIndex",
  "old": "(c.z * n.y + c.y) * n.x + c.x",
  "new": "(c.z * n.x + c.y) * n.x + c.x",
  "edit": "wrong stride",
  "claim": "C11"
 },
 {
  "file": "Grid/Model.lean",
  "def": "cellIndexFor",
  "old": "let y ← toI32 ⌊(p.pos.y - lo.y) * f.y⌋",
  "new": "let y ← toI32 ⌊(p.pos.y - lo.x) * f.y⌋",
  "edit": "min position of the wrong axis",
  "claim": "C11"
 },
 {
  "file": "Grid/Model.lean",
  "def": "findMinAndLength",
  "old": "⟨max m.x p.pos.x, max m.y p.pos.y, max m.z p.pos.z⟩",
  "new": "⟨max m.x p.pos.x, max m.y p.pos.x, max m.z p.pos.z⟩",
  "edit": "swapped coordinate in the maximum",
  "claim": "C11"
 }
]