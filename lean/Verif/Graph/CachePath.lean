import Verif.Graph.Ready
import Verif.Combine.Py
import Verif.Cache.Coders
import Mathlib.Data.List.Lex
import Mathlib.Data.List.Sort
import Mathlib.Data.Nat.Digits.Defs

/-!
# The keys of cache entries

Model of `graph_tools.describe_path_as_analyzer_cache_hash`, which describes how a tensor is computed
from the inputs, and of `_OptimizeVisitor._make_next_hashed_path`, which describes an analyzer's
operation. `sha1` is a parameter everywhere.
-/

namespace TFT.Graph.CachePath

open TFT.Graph.Ready
open TFT.Coders (Bytes)

/-- An `AttrValue` proto of a node, as far as `_serialize_op_attr` looks at it: whether
`list.func` is not empty, whether `func` is set, and `SerializeToString()`. -/
structure Attr where
  listFunc : Bool
  isFunc : Bool
  serialized : Bytes

/-- A `NodeDef`: the operation's type (`node_def.op`) and its attributes. The attributes are a
dict: the names are distinct and the order of the list has no meaning. -/
structure NodeDef where
  opType : String
  attrs : List (Bytes × Attr)

/-- The strings `"f"`, `"Tin"` and `"Tout"`, `graph_tools.py:907, 912`. -/
def keyF : Bytes := [102]
@[inherit_doc keyF] def keyTin : Bytes := [84, 105, 110]
@[inherit_doc keyF] def keyTout : Bytes := [84, 111, 117, 116]

/-- The loop of `_serialize_op_attr`, `graph_tools.py:913-925`. `ClearField("func")` leaves an
empty message (`func` is part of a `oneof`), which serializes to the empty string. -/
def serializeAttrs : List (Bytes × Attr) → Except Err (List Bytes)
  | [] => .ok []
  | (key, a) :: rest =>
    if a.listFunc then
      .error "Unable to serialize op attributes that contain a `list.func` field"
    else do
      let tail ← serializeAttrs rest
      .ok (key :: (if a.isFunc then [] else a.serialized) :: tail)

/-- `sorted(op_attr.items(), key=lambda kv: kv[0])` and the selection for functions,
`graph_tools.py:906-912`. -/
def selectAttrs (attrs : List (Bytes × Attr)) : List (Bytes × Attr) :=
  let sorted := attrs.insertionSort (fun a b => a.1 ≤ b.1)
  if attrs.any (fun kv => kv.1 == keyF) then
    sorted.filter (fun kv => kv.1 == keyTin || kv.1 == keyTout)
  else sorted

/-- `_serialize_op_attr`, `graph_tools.py:904-925`. -/
def serializeOpAttr (attrs : List (Bytes × Attr)) : Except Err (List Bytes) :=
  serializeAttrs (selectAttrs attrs)

/-- `str` of a number, as bytes: `tf.compat.as_str_any(x.value_index)`, `graph_tools.py:959`. -/
def decimal (n : Nat) : Bytes :=
  if n = 0 then [48] else (Nat.digits 10 n).reverse.map (fun d => Fin.ofNat 256 (48 + d))

/-- What `translate_path_fn` is called with: an operation, a tensor, or the name of a source. -/
inductive Described where
  | operation (node : NodeDef)
  | tensor (valueIndex : Nat)
  | source (name : Bytes)

/-- The strings of the node itself, `graph_tools.py:955-962`. The type of an operation is not
among them. -/
def ownValues : Described → Except Err (List Bytes)
  | .operation node => serializeOpAttr node.attrs
  | .tensor i => .ok [decimal i]
  | .source name => .ok [name]

/-- `describe_path_as_analyzer_cache_hash`, `graph_tools.py:928-972`. Calls of `h.update` append
to the hashed string. -/
def describe (sha1 : Bytes → Bytes) (x : Option Described) (parents : List (Option Bytes)) :
    Except Err (Option Bytes) :=
  match x with
  | none => .ok none
  | some x =>
    if parents.any (fun p => p.isNone) then .ok none
    else do
      let values ← ownValues x
      .ok (some (sha1 (values.flatten ++ (parents.filterMap id).flatten)))

/-- A path, or the exception raised by `describe_path_as_analyzer_cache_hash` while it was
computed. (In the code the exception ends the whole analysis. Here it is carried along: the path
of a node is an error iff that of a node it depends on is.) -/
abbrev Path := Except Err (Option Bytes)

/-- A graph with its contents. `asBytes` is `tf.compat.as_bytes`, applied to names of sources; the
"name" of a table is the digest that `_get_table_init_op_source_info` computed,
`graph_tools.py:735-777`. -/
structure PathGraph (N : Type) where
  kind : N → Kind N
  content : N → Described
  source : N → Option SourceInfo
  asBytes : String → Bytes
  funcs : N → List (Result N Path) → Except Err (List (Result N Path))

/-- The analyzer that `build` creates, `beam/analysis_graph_builder.py:704-709`. -/
def PathGraph.analyzer {N : Type} (g : PathGraph N) (sha1 : Bytes → Bytes) : Analyzer N Path where
  kind := g.kind
  source := g.source
  translateSource name := describe sha1 (name.map (fun s => .source (g.asBytes s))) []
  translate n ps := do
    let ps ← seqExcept ps
    describe sha1 (some (g.content n)) ps
  funcs := g.funcs

/-! ### The analyzer operations -/

/-- A public attribute of an operation definition that is not a field: its name, whether it is
callable, and `str((attr, value))`. -/
structure Member where
  name : Bytes
  callable : Bool
  text : Bytes

/-- An `OperationDef` as far as `_make_next_hashed_path` looks at it. `keys` is `some` for
`ExtractFromDict`. `members` is `dir(operation_def)` without the fields; `fields` are the texts
`str((field, get_field_str(field)))` in the order of `_fields`. -/
structure OpDef where
  className : Bytes
  keys : Option (List String)
  members : List Member
  fields : List Bytes

/-- Whether a name starts with an underscore. -/
def isPrivate (name : Bytes) : Bool := name.head? == some 95

/-- `self._tensor_keys_to_paths[key]`, `beam/analysis_graph_builder.py:240`. A tensor that is not in
`tensor_keys_to_paths` is a `KeyError`. -/
def pathOf (paths : String → Option (Option Bytes)) (k : String) : Except Err (Option Bytes) :=
  match paths k with
  | some p => .ok p
  | none => .error "KeyError"

/-- `paths_to_hash` after the parents, `beam/analysis_graph_builder.py:236-254`. -/
def OpDef.parts (op : OpDef) (paths : String → Option (Option Bytes)) :
    Except Err (List (Option Bytes)) :=
  match op.keys with
  | some ks => do
    let ps ← seqExcept (ks.map (pathOf paths))
    .ok (some op.className :: ps)
  | none =>
    let members := (op.members.insertionSort (fun a b => a.name ≤ b.name)).filter
      (fun m => !(isPrivate m.name || m.callable))
    .ok (some op.className :: (members.map (fun m => some m.text) ++ op.fields.map some))

/-- `_OptimizeVisitor._make_next_hashed_path`, `beam/analysis_graph_builder.py:233-261`. -/
def nextHashedPath (sha1 : Bytes → Bytes) (parents : List (Option Bytes)) (op : OpDef)
    (paths : String → Option (Option Bytes)) : Except Err (Option Bytes) := do
  let parts ← op.parts paths
  let all := parents ++ parts
  if all.any (fun p => p.isNone) then .ok none
  else .ok (some (sha1 (all.filterMap id).flatten))

/-- `b"APPLY_SAVEDMODEL"`, `beam/analysis_graph_builder.py:456`. -/
def applySavedModelPath : Bytes :=
  [65, 80, 80, 76, 89, 95, 83, 65, 86, 69, 68, 77, 79, 68, 69, 76]

/-- The cache entry key, `beam/analysis_graph_builder.py:378-380` and
`beam/analyzer_cache.py:442-443`. Without a path the concatenation raises a `TypeError`. -/
def cacheEntryKey (version label : Bytes) (path : Option Bytes) : Except Err Bytes :=
  match path with
  | some p => .ok (version ++ (label ++ [45] ++ p))
  | none => .error "TypeError"

/-- The cache entry key of a cacheable operation that reads tensors of phase 0: the views of
`ApplySavedModel` (`beam/analysis_graph_builder.py:422-458`), then `ExtractFromDict`, then the
operations `ops` one after the other, the last of which has the label `label`
(`_visit_partitionable_operation`, `beam/analysis_graph_builder.py:315-356`, for operations with
one input). -/
def chainPath (sha1 : Bytes → Bytes) (paths : String → Option (Option Bytes)) :
    Option Bytes → List OpDef → Except Err (Option Bytes)
  | p, [] => .ok p
  | p, op :: ops => do
    let q ← nextHashedPath sha1 [p] op paths
    chainPath sha1 paths q ops

@[inherit_doc chainPath]
def entryKey (sha1 : Bytes → Bytes) (version : Bytes) (paths : String → Option (Option Bytes))
    (label : Bytes) (ops : List OpDef) : Except Err Bytes := do
  let p ← chainPath sha1 paths (some applySavedModelPath) ops
  cacheEntryKey version label p

end TFT.Graph.CachePath
