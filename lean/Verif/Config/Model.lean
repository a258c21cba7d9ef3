/-! # Model of the configuration object (configuration.h, configuration.cc, key.h)

A configuration is a YAML tree. What is used of yaml-cpp is modelled by its documented behaviour:
a map is a list of pairs in the order of insertion, look-up and removal act on the first pair with the
key. Simplifications: no aliases (the tree is a tree), keys are strings, the items of a sequence are
strings. -/
namespace Verif.Config

mutual
/-- A YAML node (yaml-cpp `NodeType`), without `Undefined`, which is represented by absence. -/
inductive Node where
  | null
  | scalar (s : String)
  | seq (items : List String)
  | map (f : Forest)
/-- The pairs of a map. -/
inductive Forest where
  | nil
  | cons (k : String) (n : Node) (rest : Forest)
end

/-- Exceptions (and undefined behaviour). -/
inductive Err where
  | invalidNode | badSubscript | notAMap | twice | missing | notDependent | badDefault | conversion
  | invalidValue | noSection | emptySection | notASection | noKey | ub
  deriving DecidableEq, Repr

/-- Number of pairs, `YAML::Node::size` of a map. -/
def Forest.size : Forest → Nat
  | .nil => 0
  | .cons _ _ r => r.size + 1

/-- `YAML::Node::size`: zero for null and scalars. -/
def Node.size : Node → Nat
  | .seq l => l.length
  | .map f => f.size
  | _ => 0

/-- `YAML::Node::IsMap`. -/
def Node.isMap : Node → Bool
  | .map _ => true
  | _ => false

/-- `YAML::Node::IsNull`. -/
def Node.isNull : Node → Bool
  | .null => true
  | _ => false

/-- Look-up of a key: the first pair. -/
def Forest.find (key : String) : Forest → Option Node
  | .nil => none
  | .cons k n r => if k = key then some n else r.find key

/-- `YAML::Node::remove(key)` of a map: the first pair. -/
def Forest.remove (key : String) : Forest → Forest
  | .nil => .nil
  | .cons k n r => if k = key then r else .cons k n (r.remove key)

/-- Assignment to `map[key]`: the first pair, or a new one at the end. -/
def Forest.set (key : String) (v : Node) : Forest → Forest
  | .nil => .cons key v .nil
  | .cons k n r => if k = key then .cons k v r else .cons k n (r.set key v)

/-- The keys of a map in order. -/
def Forest.keys : Forest → List String
  | .nil => []
  | .cons k _ r => k :: r.keys

/-- `descend_one_existing_level`, configuration.cc:40-62: the pairs are compared with the key one by
one. A sequence with items throws `InvalidNode` when the first pair is accessed. -/
def descend (n : Node) (key : String) : Except Err (Option Node) :=
  match n with
  | .map f => .ok (f.find key)
  | .seq (_ :: _) => .error .invalidNode
  | _ => .ok none

/-- `find_existing_node`, configuration.cc:366-376: once the node is absent it stays absent. -/
def findNode (n : Node) : List String → Except Err (Option Node)
  | [] => .ok (some n)
  | k :: ks =>
    match descend n k with
    | .error e => .error e
    | .ok none => .ok none
    | .ok (some c) => findNode c ks

/-- Removal of a pair in the node reached by all labels but the last one
(`previous_to_last_node.value().remove(*last_key_it)`, configuration.cc:232). -/
def removeAt : List String → Node → Node
  | [k], .map f => .map (f.remove k)
  | k :: ks, .map f =>
    match f.find k with
    | some c => .map (f.set k (removeAt ks c))
    | none => .map f
  | _, n => n

mutual
/-- `remove_empty_maps`, configuration.cc:71-86. -/
def clean : Node → Node
  | .map f =>
    let g := cleanKids f
    -- configuration.cc:72: the vector starts with `root.size()` empty strings
    .map (((List.replicate g.size "") ++ emptyKeys g).foldl (fun h k => h.remove k) g)
  | n => n
/-- The recursive calls on the values, configuration.cc:74. -/
def cleanKids : Forest → Forest
  | .nil => .nil
  | .cons k n r => .cons k (clean n) (cleanKids r)
/-- The keys of the empty maps, configuration.cc:76-78. -/
def emptyKeys : Forest → List String
  | .nil => []
  | .cons k n r => if n.isMap && n.size == 0 then k :: emptyKeys r else emptyKeys r
end

/-- The object: `root_node_` and `existing_keys_already_taken_`. -/
structure State where
  root : Node
  taken : List (List String)

/-- A key (key.h): labels, whether its type is a `std::map`, default value, whether the default is
dependent, conversion from YAML (`none`: the conversion throws) and validator. -/
structure Key (T : Type) where
  labels : List String
  isMap : Bool
  default : Option T
  dependent : Bool
  conv : Node → Option T
  valid : T → Bool

/-- `has_value`, configuration.h:773-779. -/
def hasValue {T : Type} (st : State) (k : Key T) : Except Err Bool :=
  match findNode st.root k.labels with
  | .error e => .error e
  | .ok none => .ok false
  | .ok (some n) => .ok (!n.isNull && !n.isMap)

/-- `has_key`, configuration.h:759-764. -/
def hasKey {T : Type} (st : State) (k : Key T) : Except Err Bool :=
  match findNode st.root k.labels with
  | .error e => .error e
  | .ok none => .ok false
  | .ok (some n) => .ok (!n.isMap)

/-- `has_section`, configuration.h:786-789. -/
def hasSection (st : State) (labels : List String) : Except Err Bool :=
  match findNode st.root labels with
  | .error e => .error e
  | .ok none => .ok false
  | .ok (some n) => .ok n.isMap

/-- Conversion of a `Value` and `get_validated_key_value`, configuration.h:853-909 and 1608-1616. -/
def convert {T : Type} (k : Key T) (n : Node) : Except Err T :=
  match k.conv n with
  | none => .error .conversion
  | some v => if k.valid v then .ok v else .error .invalidValue

/-- The private `take`, configuration.cc:215-243, and `unconditionally_take_and_validate`,
configuration.h:1630-1634. The node is removed before the conversion, so it is gone even if the
conversion throws. -/
def takeNode {T : Type} (st : State) (k : Key T) : Except Err T × State :=
  match findNode st.root k.labels with
  | .ok (some n) =>
    (convert k n,
      { root := clean (removeAt k.labels st.root)
        taken := if k.labels ∈ st.taken then st.taken else st.taken ++ [k.labels] })
  | _ => (.error .noKey, st)

/-- The default value or an exception, configuration.h:534-543. -/
def defaultOr {T : Type} (k : Key T) : Except Err T :=
  match k.default with
  | some v => .ok v
  | none => .error .missing

/-- `take(key)`, configuration.h:514-544. -/
def take {T : Type} (st : State) (k : Key T) : Except Err T × State :=
  match hasValue st k with
  | .error e => (.error e, st)
  | .ok true => takeNode st k
  | .ok false =>
    match hasSection st k.labels with
    | .error e => (.error e, st)
    | .ok true => if k.isMap then takeNode st k else (.error .notAMap, st)
    | .ok false => if k.labels ∈ st.taken then (.error .twice, st) else (defaultOr k, st)

/-- `take(key, default_value)`, configuration.h:561-577. -/
def takeOr {T : Type} (st : State) (k : Key T) (d : T) : Except Err T × State :=
  if !k.dependent then (.error .notDependent, st)
  else if !k.valid d then (.error .badDefault, st)
  else
    match hasValue st k with
    | .error e => (.error e, st)
    | .ok true => take st k
    | .ok false => (.ok d, st)

/-- `read(key)`, configuration.h:605-631. -/
def read {T : Type} (st : State) (k : Key T) : Except Err T :=
  match hasValue st k with
  | .error e => .error e
  | .ok true =>
    match findNode st.root k.labels with
    | .ok (some n) => convert k n
    | _ => .error .noKey
  | .ok false =>
    match hasSection st k.labels with
    | .error e => .error e
    | .ok true =>
      if k.isMap then
        match findNode st.root k.labels with
        | .ok (some n) => convert k n
        | _ => .error .noKey
      else .error .notAMap
    | .ok false => defaultOr k

/-- `is_empty`, configuration.h:795. -/
def isEmpty (st : State) : Bool := st.root.size == 0

/-- The destructor outside of stack unwinding, configuration.cc:179-190: `true` if it throws. -/
def destroyThrows (st : State) : Bool := st.root.size != 0

/-! ### Merging -/

/-- A sequence turned into a map by the access with a string key (yaml-cpp): the keys are the
indices. -/
def indexForest (i : Nat) : List String → Forest
  | [] => .nil
  | x :: xs => .cons (toString i) (.scalar x) (indexForest (i + 1) xs)

/-- The map into which `a[key]` reaches; `none` is an undefined node (yaml-cpp `node_data::get`): null,
undefined and sequences become maps, scalars throw. -/
def subscript (a : Option Node) : Except Err Forest :=
  match a with
  | none => .ok .nil
  | some .null => .ok .nil
  | some (.map f) => .ok f
  | some (.seq l) => .ok (indexForest 0 l)
  | some (.scalar _) => .error .badSubscript

mutual
/-- `operator|=`, configuration.cc:95-104, for a value `b` merged into `a`. -/
def mergeN (a : Option Node) : Node → Except Err (Option Node)
  | .map f => mergeF a f
  | b => .ok (some b)
/-- The loop over the pairs of `b`. An entry that stays undefined is not part of the map. -/
def mergeF (a : Option Node) : Forest → Except Err (Option Node)
  | .nil => .ok a
  | .cons k v r =>
    match subscript a with
    | .error e => .error e
    | .ok f =>
      match mergeN (f.find k) v with
      | .error e => .error e
      | .ok (some c) => mergeF (some (.map (f.set k c))) r
      | .ok none => mergeF (a.map fun _ => .map f) r
end

/-- `merge_yaml`, configuration.cc:192-204, after the text was parsed to `b`. -/
def mergeYaml (st : State) (b : Node) : Except Err State :=
  match mergeN (some st.root) b with
  | .error e => .error e
  | .ok (some c) => .ok { st with root := c }
  | .ok none => .ok st

/-! ### Sections -/

/-- `extract_sub_configuration`, configuration.cc:293-328: the new configuration and the remaining
one. -/
def extract (st : State) (labels : List String) (emptyIfMissing : Bool) : Except Err (State × State) :=
  match findNode st.root labels with
  | .error e => .error e
  | .ok none => if emptyIfMissing then .ok (⟨.null, []⟩, st) else .error .noSection
  | .ok (some .null) => .error .emptySection
  | .ok (some (.map .nil)) => .error .emptySection
  | .ok (some (.map f)) => .ok (⟨.map f, []⟩, { st with root := clean (removeAt labels st.root) })
  | .ok (some _) => .error .notASection

/-- The chain of maps, configuration.cc:351-356. -/
def nest : List String → Node → Node
  | [], n => n
  | k :: ks, n => .map (.cons k (nest ks n) .nil)

/-- `enclose_into_section`, configuration.cc:338-359. -/
def enclose (st : State) (labels : List String) : State :=
  { st with root := nest labels (if st.root.size = 0 then .map .nil else st.root) }

/-- `remove_all_entries_in_section_but_one`, configuration.cc:263-283: keys to remove in order. -/
def removeAllBut (key : String) (f : Forest) : Forest :=
  (f.keys.filter (· ≠ key)).foldl (fun h k => h.remove k) f

/-- Replace the node at the given labels. -/
def replaceAt : List String → Node → Node → Node
  | [], m, _ => m
  | k :: ks, m, .map f =>
    match f.find k with
    | some c => .map (f.set k (replaceAt ks m c))
    | none => .map f
  | _ :: _, _, n => n

/-- `remove_all_entries_in_section_but_one`, configuration.cc:258-291, where the section is a map. -/
def removeAllButOne (st : State) (key : String) (labels : List String) : Except Err State :=
  match findNode st.root labels with
  | .error e => .error e
  | .ok none => .error .noSection
  | .ok (some (.map f)) =>
    if key ∈ f.keys then .ok { st with root := replaceAt labels (.map (removeAllBut key f)) st.root }
    else .error .noKey
  | .ok (some (.seq (_ :: _))) => .error .invalidNode
  | .ok (some _) => .error .noKey

/-- `set_value`, configuration.h:689-695, with `find_node_creating_it_if_not_existing`,
configuration.cc:379-388, given the YAML form of the value. -/
def setAt (a : Option Node) (v : Node) : List String → Except Err Node
  | [] => .ok v
  | k :: ks =>
    match subscript a with
    | .error e => .error e
    | .ok f =>
      match setAt (f.find k) v ks with
      | .error e => .error e
      | .ok c => .ok (.map (f.set k c))

/-! ### Validation -/

mutual
/-- `fill_list_of_labels_per_key_in_yaml_tree`, configuration.cc:410-424: one entry per non-map node
below the root. -/
def labelsIn (pre : List String) : Forest → List (List String)
  | .nil => []
  | .cons k n r => labelsOf (pre ++ [k]) n ++ labelsIn pre r
/-- One pair of the loop. -/
def labelsOf (pre : List String) : Node → List (List String)
  | .map f => labelsIn pre f
  | _ => [pre]
end

/-- The comparison of `std::equal` with `labels.size()` elements of the second list,
configuration.cc:527-529; reading past its end is undefined. -/
def prefixCheck : List String → List String → Except Err Bool
  | [], _ => .ok true
  | _ :: _, [] => .error .ub
  | a :: as, b :: bs => if a = b then prefixCheck as bs else .ok false

/-- One key taken as a map, configuration.cc:523-533. -/
def adjustOne (labels : List String) : List (List String) → Except Err (List (List String))
  | [] => .ok []
  | l :: ls =>
    match prefixCheck labels l with
    | .error e => .error e
    | .ok b =>
      match adjustOne labels ls with
      | .error e => .error e
      | .ok r => .ok ((if b then labels else l) :: r)

/-- The loop over all keys taken as maps. -/
def adjustAll : List (List String) → List (List String) → Except Err (List (List String))
  | [], l => .ok l
  | m :: ms, l =>
    match adjustOne m l with
    | .error e => .error e
    | .ok l' => adjustAll ms l'

/-- `std::unique`: drop elements equal to their predecessor. -/
def unique : List (List String) → List (List String)
  | [] => []
  | [a] => [a]
  | a :: b :: r => if a = b then unique (a :: r) else a :: unique (b :: r)

/-- Result of validation. -/
inductive Is where
  | invalid | deprecated | valid
  deriving DecidableEq, Repr

/-- An input key of the database: labels, removed?, deprecated? -/
structure DbKey where
  labels : List String
  removed : Bool
  deprecated : Bool

/-- `validate_key`, configuration.cc:555-595: the first key of the list with the same labels. -/
def validateKey (db : List DbKey) (labels : List String) : Is :=
  match db.find? (fun k => decide (k.labels = labels)) with
  | none => .invalid
  | some k => if k.removed then .invalid else if k.deprecated then .deprecated else .valid

/-- `accumulate_validation`, configuration.cc:607-621. -/
def accumulate (r new : Is) : Is :=
  match r with
  | .invalid => .invalid
  | .deprecated => if new ≠ .valid then new else .deprecated
  | .valid => new

/-- The loop without full validation, configuration.cc:633-636. -/
def firstBad (db : List DbKey) : List (List String) → Is
  | [] => .valid
  | l :: ls => if validateKey db l ≠ .valid then validateKey db l else firstBad db ls

/-- `get_list_of_labels_per_key_in_yaml_tree`, configuration.cc:439-444. -/
def rootLabels : Node → List (List String)
  | .map f => labelsIn [] f
  | _ => []

/-- `validate`, configuration.cc:625-640. `maps`: the labels of the keys taken as maps. -/
def validate (db : List DbKey) (maps : List (List String)) (st : State) (full : Bool) : Except Err Is :=
  match adjustAll maps (rootLabels st.root) with
  | .error e => .error e
  | .ok l' =>
    if full then .ok ((unique l').foldl (fun r k => accumulate r (validateKey db k)) .valid)
    else .ok (firstBad db (unique l'))

end Verif.Config
