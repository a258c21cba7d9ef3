[
 {
  "file": "Bin/Model.lean",
  "def": "getterOf",
  "old": "else if q = \"y\" then some fun p => .dbl p.pos2",
  "new": "else if q = \"y\" then some fun p => .dbl p.pos3",
  "edit": "y column shows z",
  "claim": "C76: column holds the documented property"
 },
 {
  "file": "Bin/Model.lean",
  "def": "getterOf",
  "old": "else if q = \"spinz\" then some fun p => .dbl p.spin3\n",
  "new": "",
  "edit": "spinz has no getter",
  "claim": "C76: one column per quantity"
 },
 {
  "file": "Bin/Model.lean",
  "def": "getterOf",
  "old": "else if q = \"ncoll\" then some fun p => .int p.ncoll",
  "new": "else if q = \"ncoll\" then some fun p => .dbl p.timeLast",
  "edit": "ncoll written as double",
  "claim": "C76 documented type"
 },
 {
  "file": "Bin/Model.lean",
  "def": "getterOf",
  "old": "else if q = \"pdg_mother2\" then some fun p => .int p.mother2",
  "new": "else if q = \"pdg_mother2\" then some fun p => .int p.mother1",
  "edit": "second mother shows the first",
  "claim": "C76 documented property"
 },
 {
  "file": "Bin/Model.lean",
  "def": "getterOf",
  "old": "q = \"Rap\" ∨ q = \"y_rap\"",
  "new": "q = \"Rap\"",
  "edit": "y_rap has no getter",
  "claim": "C76: one column per quantity"
 },
 {
  "file": "Bin/Model.lean",
  "def": "units",
  "old": "(\"tau\", \"fm\"), ",
  "new": "",
  "edit": "tau missing from the known units",
  "claim": "C76: documented keys accepted"
 },
 {
  "file": "Bin/Model.lean",
  "def": "aliases",
  "old": "[(\"ID\", \"id\"), (\"eta_s\", \"eta\"), (\"y_rap\", \"Rap\")]",
  "new": "[(\"ID\", \"id\"), (\"eta_s\", \"eta\")]",
  "edit": "one synonym pair not checked",
  "claim": "C76: synonyms refused"
 },
 {
  "file": "Bin/Model.lean",
  "def": "validate",
  "old": "decide (1 < qs.count q)",
  "new": "decide (2 < qs.count q)",
  "edit": "only triples refused",
  "claim": "C76: repetitions refused"
 },
 {
  "file": "Bin/Model.lean",
  "def": "validate",
  "old": "if qs.isEmpty then .error .empty\n  else if qs.any fun q => decide",
  "new": "if qs.any fun q => decide",
  "edit": "empty list accepted",
  "claim": "C76: empty list refused"
 },
 {
  "file": "Bin/Model.lean",
  "def": "fields",
  "old": "c.conv (g p) ++ c.separator.toList ++ fields c p gs",
  "new": "c.conv (g p) ++ fields c p gs",
  "edit": "separator dropped",
  "claim": "C76: text line splits"
 },
 {
  "file": "Bin/Model.lean",
  "def": "particleLine",
  "old": "fields c p f.getters ++ c.endOfLine.toList",
  "new": "fields c p f.getters",
  "edit": "line end dropped",
  "claim": "C76 text line"
 },
 {
  "file": "Bin/Model.lean",
  "def": "singleSize",
  "old": "then f.getters.length - 1 else 0)",
  "new": "then f.getters.length else 0)",
  "edit": "size estimate off by one",
  "claim": "C76: exception exactly when the line exceeds half the buffer"
 },
 {
  "file": "Bin/Model.lean",
  "def": "chunkLoop",
  "old": "if buffer.length + line.length > max then buffer :: chunkLoop max rest line",
  "new": "if buffer.length + line.length > max then buffer :: chunkLoop max rest []",
  "edit": "line lost at a chunk boundary",
  "claim": "C76: chunks concatenate to everything"
 },
 {
  "file": "Bin/Model.lean",
  "def": "chunkLoop",
  "old": "| [], buffer => if buffer.isEmpty then [] else [buffer]",
  "new": "| [], _ => []",
  "edit": "last buffer not flushed",
  "claim": "C76 chunks"
 },
 {
  "file": "Bin/Model.lean",
  "def": "chunkLoop",
  "old": "if buffer.length + line.length > max then",
  "new": "if buffer.length > max then",
  "edit": "buffer limit checked too late",
  "claim": "C76: no chunk exceeds the buffer"
 },
 {
  "file": "Bin/Model.lean",
  "def": "writeInChunk",
  "old": "if 2 * singleSize c f p > max then none",
  "new": "if singleSize c f p > max then none",
  "edit": "only lines longer than the buffer refused",
  "claim": "C76 exception"
 },
 {
  "file": "Bin/Model.lean",
  "def": "nameLine",
  "old": "(if out.isEmpty then out else out ++ sep.toList) ++ n",
  "new": "(out ++ sep.toList) ++ n",
  "edit": "separator before the first name",
  "claim": "C76 header lines"
 },
 {
  "file": "Bin/Model.lean",
  "def": "leBytes",
  "old": "BitVec.ofNat 8 n :: leBytes k (n / 256)",
  "new": "BitVec.ofNat 8 n :: leBytes k (n / 128)",
  "edit": "wrong shift",
  "claim": "C52 values round trip"
 },
 {
  "file": "Bin/Model.lean",
  "def": "put64",
  "old": "leBytes 8 x.toNat",
  "new": "leBytes 4 x.toNat",
  "edit": "float written instead of double",
  "claim": "C52"
 },
 {
  "file": "Bin/Model.lean",
  "def": "putSize",
  "old": "if n < 2 ^ 32 then raw (leBytes 4 n) else ⟨[], true⟩",
  "new": "raw (leBytes 4 n)",
  "edit": "count truncated silently",
  "claim": "C52: error exactly for too large counts"
 },
 {
  "file": "Bin/Model.lean",
  "def": "putBlock",
  "old": "raw (chr 'p' ++ put32 event ++ put32 ensemble)",
  "new": "raw (chr 'p' ++ put32 ensemble ++ put32 event)",
  "edit": "event and ensemble swapped",
  "claim": "C52"
 },
 {
  "file": "Bin/Model.lean",
  "def": "putEnd",
  "old": "put64 impact ++ [if emptyEvent then 1 else 0]",
  "new": "put64 impact ++ [if emptyEvent then 0 else 1]",
  "edit": "empty flag inverted",
  "claim": "C52"
 },
 {
  "file": "Bin/Model.lean",
  "def": "putInteraction",
  "old": "(putSize inc.length).andThen <| (putSize out.length).andThen <|",
  "new": "(putSize out.length).andThen <| (putSize inc.length).andThen <|",
  "edit": "in and out counts swapped",
  "claim": "C52"
 },
 {
  "file": "Bin/Model.lean",
  "def": "putInteraction",
  "old": "(putParticles f inc).andThen (putParticles f out)",
  "new": "(putParticles f out).andThen (putParticles f inc)",
  "edit": "outgoing written first",
  "claim": "C52"
 },
 {
  "file": "Bin/Model.lean",
  "def": "putInteraction",
  "old": "put64 weight ++ put64 partialWeight",
  "new": "put64 partialWeight ++ put64 weight",
  "edit": "weights swapped",
  "claim": "C52"
 },
 {
  "file": "Bin/Model.lean",
  "def": "emit",
  "old": "    | .collisions true => putBlock f ps ev en\n    | .particles .no => putBlock f ps ev en",
  "new": "    | .collisions _ => putBlock f ps ev en\n    | .particles .no => putBlock f ps ev en",
  "edit": "start list written although not requested",
  "claim": "C52 documented blocks"
 },
 {
  "file": "Bin/Model.lean",
  "def": "emit",
  "old": "if !(e && decide (o = .ifNotEmpty)) then",
  "new": "if !(e && decide (o = .yes)) then",
  "edit": "empty events skipped for the wrong option",
  "claim": "C52 documented blocks"
 },
 {
  "file": "Bin/Model.lean",
  "def": "emit",
  "old": "    | .collisions false => putEnd ev en b e",
  "new": "    | .collisions false => raw []",
  "edit": "event end line missing",
  "claim": "C52 documented blocks"
 },
 {
  "file": "Bin/Model.lean",
  "def": "fluidizationNoRemoval",
  "old": "def fluidizationNoRemoval : W32 := 21",
  "new": "def fluidizationNoRemoval : W32 := 22",
  "edit": "fluidisation without removal not written",
  "claim": "C52 documented blocks"
 },
 {
  "file": "Bin/Model.lean",
  "def": "header",
  "old": "put16 10 ++",
  "new": "put16 9 ++",
  "edit": "wrong format version",
  "claim": "C52 header"
 },
 {
  "file": "Bin/Model.lean",
  "def": "header",
  "old": "if qs = oscar2013 then 0 else if qs = oscar2013extended then 1 else 2",
  "new": "if qs = oscar2013 then 0 else if qs = oscar2013extended then 2 else 1",
  "edit": "variants swapped",
  "claim": "C52 header"
 },
 {
  "file": "Bin/Model.lean",
  "def": "header",
  "old": "(putSize version.length).andThen (raw version)",
  "new": "(putSize (version.length + 1)).andThen (raw version)",
  "edit": "length counts a terminator",
  "claim": "C52 header"
 }
]