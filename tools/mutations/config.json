[
 {
  "file": "Config/Model.lean",
  "def": "Forest.remove",
  "old": "  | .cons k n r => if k = key then r else .cons k n (r.remove key)",
  "new": "  | .cons k n r => if k = key then .nil else .cons k n (r.remove key)",
  "edit": "removal drops all later pairs",
  "claim": "C40: other keys keep their values"
 },
 {
  "file": "Config/Model.lean",
  "def": "findNode",
  "old": "    | .ok none => .ok none\n    | .ok (some c) => findNode c ks",
  "new": "    | .ok none => findNode n ks\n    | .ok (some c) => findNode c ks",
  "edit": "an absent label is skipped",
  "claim": "C40: value of the key"
 },
 {
  "file": "Config/Model.lean",
  "def": "removeAt",
  "old": "  | [k], .map f => .map (f.remove k)",
  "new": "  | [_], .map _ => .map .nil",
  "edit": "the whole section is removed",
  "claim": "C40: other keys keep their values"
 },
 {
  "file": "Config/Model.lean",
  "def": "removeAt",
  "old": "    | some c => .map (f.set k (removeAt ks c))",
  "new": "    | some _ => .map (f.remove k)",
  "edit": "the enclosing section is removed",
  "claim": "C40: other keys keep their values"
 },
 {
  "file": "Config/Model.lean",
  "def": "clean",
  "old": "    .map (((List.replicate g.size \"\") ++ emptyKeys g).foldl (fun h k => h.remove k) g)",
  "new": "    .map g",
  "edit": "empty maps are not removed",
  "claim": "C40: empty when every key was taken"
 },
 {
  "file": "Config/Model.lean",
  "def": "cleanKids",
  "old": "  | .cons k n r => .cons k (clean n) (cleanKids r)",
  "new": "  | .cons k n r => .cons k n (cleanKids r)",
  "edit": "no recursion into sections",
  "claim": "C40: sections that become empty are removed"
 },
 {
  "file": "Config/Model.lean",
  "def": "emptyKeys",
  "old": "if n.isMap && n.size == 0 then",
  "new": "if n.size == 0 then",
  "edit": "scalars and nulls count as empty maps",
  "claim": "C40: other keys keep their values"
 },
 {
  "file": "Config/Model.lean",
  "def": "hasValue",
  "old": "  | .ok (some n) => .ok (!n.isNull && !n.isMap)",
  "new": "  | .ok (some n) => .ok (!n.isMap)",
  "edit": "a null counts as value",
  "claim": "C40: a key without value is not taken"
 },
 {
  "file": "Config/Model.lean",
  "def": "takeNode",
  "old": "      { root := clean (removeAt k.labels st.root)",
  "new": "      { root := st.root",
  "edit": "the key is not removed",
  "claim": "C40: the key is removed"
 },
 {
  "file": "Config/Model.lean",
  "def": "takeNode",
  "old": "taken := if k.labels ∈ st.taken then st.taken else st.taken ++ [k.labels] })",
  "new": "taken := st.taken })",
  "edit": "the taken key is not recorded",
  "claim": "C40: taking twice is an error"
 },
 {
  "file": "Config/Model.lean",
  "def": "take",
  "old": "if k.labels ∈ st.taken then (.error .twice, st) else (defaultOr k, st)",
  "new": "(defaultOr k, st)",
  "edit": "no check for keys taken before",
  "claim": "C40: taking twice is an error"
 },
 {
  "file": "Config/Model.lean",
  "def": "take",
  "old": "if k.isMap then takeNode st k else (.error .notAMap, st)",
  "new": "takeNode st k",
  "edit": "a section is taken by a key of any type",
  "claim": "C40: only the taken keys are removed"
 },
 {
  "file": "Config/Model.lean",
  "def": "takeOr",
  "old": "    | .ok true => take st k\n    | .ok false => (.ok d, st)",
  "new": "    | .ok true => (.ok d, st)\n    | .ok false => (.ok d, st)",
  "edit": "the default is returned although there is a value",
  "claim": "C40: value of the key"
 },
 {
  "file": "Config/Model.lean",
  "def": "takeOr",
  "old": "  else if !k.valid d then (.error .badDefault, st)\n",
  "new": "",
  "edit": "the default is not validated",
  "claim": "C40: error for an invalid default"
 },
 {
  "file": "Config/Model.lean",
  "def": "read",
  "old": "    | .ok (some n) => convert k n\n    | _ => .error .noKey\n  | .ok false =>",
  "new": "    | .ok (some _) => defaultOr k\n    | _ => .error .noKey\n  | .ok false =>",
  "edit": "read returns the default",
  "claim": "C40: read returns the value"
 },
 {
  "file": "Config/Model.lean",
  "def": "isEmpty",
  "old": "st.root.size == 0",
  "new": "st.root.size == 1",
  "edit": "is_empty off by one",
  "claim": "C40: empty when every key was taken"
 },
 {
  "file": "Config/Model.lean",
  "def": "destroyThrows",
  "old": "st.root.size != 0",
  "new": "st.root.size == 0",
  "edit": "destructor condition inverted",
  "claim": "C40: destruction reports unused keys"
 },
 {
  "file": "Config/Model.lean",
  "def": "mergeN",
  "old": "  | b => .ok (some b)",
  "new": "  | b => .ok (match a with | some n => some n | none => some b)",
  "edit": "existing values are not overridden",
  "claim": "C41: new values"
 },
 {
  "file": "Config/Model.lean",
  "def": "mergeN",
  "old": "  | .map f => mergeF a f",
  "new": "  | .map f => .ok (some (.map f))",
  "edit": "a section replaces the old section",
  "claim": "C41: other keys keep their values"
 },
 {
  "file": "Config/Model.lean",
  "def": "mergeF",
  "old": "      | .ok (some c) => mergeF (some (.map (f.set k c))) r",
  "new": "      | .ok (some c) => .ok (some (.map (f.set k c)))",
  "edit": "only the first entry is merged",
  "claim": "C41: every key of the text"
 },
 {
  "file": "Config/Model.lean",
  "def": "mergeF",
  "old": "mergeN (f.find k) v with",
  "new": "mergeN none v with",
  "edit": "merged into an empty node",
  "claim": "C41: other keys keep their values"
 },
 {
  "file": "Config/Model.lean",
  "def": "subscript",
  "old": "  | some (.scalar _) => .error .badSubscript",
  "new": "  | some (.scalar _) => .ok .nil",
  "edit": "a scalar becomes a section silently",
  "claim": "C41: exception"
 },
 {
  "file": "Config/Model.lean",
  "def": "Forest.set",
  "old": "  | .nil => .cons key v .nil",
  "new": "  | .nil => .nil",
  "edit": "new keys are not added",
  "claim": "C41: every key of the text"
 },
 {
  "file": "Config/Model.lean",
  "def": "extract",
  "old": "{ st with root := clean (removeAt labels st.root) })",
  "new": "st)",
  "edit": "the section is not removed from the original",
  "claim": "C72: the section is moved"
 },
 {
  "file": "Config/Model.lean",
  "def": "extract",
  "old": "if emptyIfMissing then .ok (⟨.null, []⟩, st) else",
  "new": "if !emptyIfMissing then .ok (⟨.null, []⟩, st) else",
  "edit": "flag inverted",
  "claim": "C72: missing sections"
 },
 {
  "file": "Config/Model.lean",
  "def": "nest",
  "old": "  | k :: ks, n => .map (.cons k (nest ks n) .nil)",
  "new": "  | k :: _, n => .map (.cons k n .nil)",
  "edit": "only the first label is used",
  "claim": "C72: enclose"
 },
 {
  "file": "Config/Model.lean",
  "def": "removeAllBut",
  "old": "(f.keys.filter (· ≠ key))",
  "new": "(f.keys.filter (· = key))",
  "edit": "the given entry is removed",
  "claim": "C72: remove all but one"
 },
 {
  "file": "Config/Model.lean",
  "def": "setAt",
  "old": "      | .ok c => .ok (.map (f.set k c))",
  "new": "      | .ok c => .ok (.map (.cons k c .nil))",
  "edit": "the other entries are lost",
  "claim": "C72: set_value"
 },
 {
  "file": "Config/Model.lean",
  "def": "prefixCheck",
  "old": "  | a :: as, b :: bs => if a = b then prefixCheck as bs else .ok false",
  "new": "  | a :: as, b :: bs => if a = b then .ok (as.length == bs.length) else .ok false",
  "edit": "compares the first label only",
  "claim": "C73: keys read as maps"
 },
 {
  "file": "Config/Model.lean",
  "def": "adjustOne",
  "old": "(if b then labels else l) :: r",
  "new": "l :: r",
  "edit": "not adjusted",
  "claim": "C73: keys read as maps"
 },
 {
  "file": "Config/Model.lean",
  "def": "unique",
  "old": "if a = b then unique (a :: r) else a :: unique (b :: r)",
  "new": "if a = b then unique (a :: r) else unique (b :: r)",
  "edit": "drops distinct elements",
  "claim": "C73: all keys are checked"
 },
 {
  "file": "Config/Model.lean",
  "def": "validateKey",
  "old": "if k.removed then .invalid else",
  "new": "",
  "edit": "removed keys are valid",
  "claim": "C73: removed keys"
 },
 {
  "file": "Config/Model.lean",
  "def": "accumulate",
  "old": "  | .deprecated => if new ≠ .valid then new else .deprecated",
  "new": "  | .deprecated => new",
  "edit": "a later valid key hides a deprecated one",
  "claim": "C73: deprecated"
 },
 {
  "file": "Config/Model.lean",
  "def": "accumulate",
  "old": "  | .invalid => .invalid",
  "new": "  | .invalid => new",
  "edit": "a later key hides an invalid one",
  "claim": "C73: invalid"
 },
 {
  "file": "Config/Model.lean",
  "def": "firstBad",
  "old": "else firstBad db ls",
  "new": "else .valid",
  "edit": "only the first key is checked",
  "claim": "C73: short validation"
 },
 {
  "file": "Config/Model.lean",
  "def": "labelsOf",
  "old": "  | .map f => labelsIn pre f",
  "new": "  | .map _ => []",
  "edit": "keys in sections are not listed",
  "claim": "C73: all keys are checked"
 }
]