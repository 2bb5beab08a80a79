import Verif.Combine.Py
import Mathlib.Data.List.Basic
import Mathlib.Logic.Function.Basic

/-!
# Loading a transform function into a graph

Model of `saved/saved_model_loader.py` and `saved/saved_transform_io.py`: writing the graph of a
transform function with its signature, choosing the graph of a SavedModel, converting signatures of
old models, and importing the graph into another one. Strings are lists of characters. Types and
shapes of tensors are not modelled.
-/

namespace TFT.SavedLoad

abbrev Str := List Char

/-- A tensor of a graph, given by the names of its components: a `Tensor`, a `SparseTensor`, or
another composite tensor with its type spec. -/
inductive Tensor where
  | dense (name : Str)
  | sparse (indices values shape : Str)
  | composite (spec : Str) (components : List Str)
deriving DecidableEq

/-- `TensorInfo` (TensorFlow) without dtype and shape: the `encoding` oneof. Fields of
`coo_sparse` that are not set are empty. -/
inductive Info where
  | unset
  | name (name : Str)
  | coo (indices values shape : Str)
  | composite (spec : Str) (components : List Str)
deriving DecidableEq

/-- A protobuf map from names to `TensorInfo`; its entries come in any order. -/
abbrev InfoMap := List (Str × Info)

/-- `m.get(k)`. -/
def find {α : Type} (m : List (Str × α)) (k : Str) : Option α :=
  (m.find? (fun e => e.1 = k)).map Prod.snd

/-- `del m[k]`. -/
def erase {α : Type} (m : List (Str × α)) (k : Str) : List (Str × α) := m.filter (fun e => e.1 ≠ k)

/-- `m[k] = v`. -/
def put {α : Type} (m : List (Str × α)) (k : Str) (v : α) : List (Str × α) := erase m k ++ [(k, v)]

/-- `SignatureDef`. -/
structure Signature where
  inputs : InfoMap
  outputs : InfoMap
deriving DecidableEq

/-- What a node of a graph computes; a placeholder has no value of its own. -/
inductive Op (V : Type) where
  | placeholder
  | compute (f : List V → V)

/-- A node with one output tensor. -/
structure Node (V : Type) where
  out : Str
  op : Op V
  ins : List Str

/-- A graph: its nodes in the order of their creation. -/
abbrev Graph (V : Type) := List (Node V)

/-- The value of a node in a session run; `none` if something it needs is not fed. -/
def nodeValue {V : Type} (feeds : Str → Option V) (env : Str → Option V) (n : Node V) : Option V :=
  match feeds n.out with
  | some v => some v
  | none =>
    match n.op with
    | .placeholder => none
    | .compute f => (n.ins.mapM env).map f

/-- The values of the tensors of a graph in a session run (TensorFlow). -/
def run {V : Type} (g : Graph V) (feeds : Str → Option V) : Str → Option V :=
  g.foldl (fun env n => Function.update env n.out (nodeValue feeds env n)) (fun _ => none)

/-- `MetaGraphDef`: `assets` are the names of the tensors of asset paths, with the paths. -/
structure MetaGraph (V : Type) where
  tags : List Str
  signatures : List (Str × Signature)
  nodes : Graph V
  trainable : List Str
  assets : List (Str × Str)

/-- `TRANSFORM_TAG` and `TRANSFORM_SIGNATURE`, saved/constants.py:17-19. -/
def transformTag : Str := "transform".toList
def transformSignature : Str := "transform_signature".toList

/-- `build_tensor_info` (TensorFlow). -/
def tensorInfo : Tensor → Info
  | .dense t => .name t
  | .sparse i v s => .coo i v s
  | .composite spec cs => .composite spec cs

/-- `predict_signature_def` (TensorFlow): inputs and outputs must not be empty. -/
def predictSignature (inputs outputs : List (Str × Tensor)) : Except Err Signature :=
  if inputs = [] then .error "ValueError: Prediction inputs cannot be None or empty."
  else if outputs = [] then .error "ValueError: Prediction outputs cannot be None or empty."
  else .ok { inputs := inputs.map (fun e => (e.1, tensorInfo e.2))
             outputs := outputs.map (fun e => (e.1, tensorInfo e.2)) }

/-- `write_saved_transform_from_session`, saved_transform_io.py:462-481. -/
def writeSavedTransform {V : Type} (nodes : Graph V) (trainable : List Str)
    (assets : List (Str × Str)) (inputs outputs : List (Str × Tensor)) :
    Except Err (List (MetaGraph V)) := do
  let signature ← predictSignature inputs outputs
  .ok [{ tags := [transformTag], signatures := [(transformSignature, signature)], nodes := nodes,
         trainable := trainable, assets := assets }]

/-- `_choose_meta_graph_def_internal`, `choose_meta_graph_def` and
`choose_meta_graph_def_and_raise`, saved_model_loader.py:27-93: the first graph whose set of tags is
the given one. -/
def chooseMetaGraph {V : Type} (savedModel : List (MetaGraph V)) : Except Err (MetaGraph V) :=
  match savedModel.find? (fun g =>
      g.tags.all (fun t => t = transformTag) && g.tags.contains transformTag) with
  | some g => .ok g
  | none => .error "RuntimeError: MetaGraphDef associated with tags transform could not be found"

/-- The suffixes of names in old signatures. -/
inductive Kind where
  | indices
  | values
  | denseShape
  | denseTensor
deriving DecidableEq

def Kind.suffix : Kind → Str
  | .indices => "$indices".toList
  | .values => "$values".toList
  | .denseShape => "$dense_shape".toList
  | .denseTensor => "$dense_tensor".toList

/-- `_MANGLED_TENSOR_NAME_RE.match`, saved_transform_io.py:34-36. The dot does not match a newline,
and the end of the pattern matches before a newline at the end. -/
def matchMangled (name : Str) : Option (Str × Kind) :=
  let s := if name.getLast? = some '\n' then name.dropLast else name
  ([Kind.indices, Kind.values, Kind.denseShape, Kind.denseTensor].find?
      (fun k => k.suffix.isSuffixOf s && !(s.take (s.length - k.suffix.length)).contains '\n')).map
    (fun k => (s.take (s.length - k.suffix.length), k))

/-- The name in a `TensorInfo`, empty if it has another encoding. -/
def Info.nameField : Info → Str
  | .name n => n
  | _ => []

/-- The part of the loop body that changes the new entry, saved_transform_io.py:67-86. -/
def component (kind : Kind) (new original : Info) : Info :=
  match kind, new with
  | .indices, .coo _ v s => .coo original.nameField v s
  | .indices, _ => .coo original.nameField [] []
  | .values, .coo i _ s => .coo i original.nameField s
  | .values, _ => .coo [] original.nameField []
  | .denseShape, .coo i v _ => .coo i v original.nameField
  | .denseShape, _ => .coo [] [] original.nameField
  | .denseTensor, _ => original

/-- Whether an entry is a sparse tensor. -/
def Info.isCoo : Info → Bool
  | .coo _ _ _ => true
  | _ => false

/-- One iteration of `_update_legacy_signature`, saved_transform_io.py:50-87. -/
def updateEntry (m : InfoMap) (originalName : Str) : Except Err InfoMap :=
  match matchMangled originalName with
  | none => .ok m
  | some (name, kind) =>
    let old := find m name
    let allowed := if name = "dense_shape".toList then old.isNone else old.all Info.isCoo
    if allowed then
      .ok (erase (put m name (component kind (old.getD .unset)
        ((find m originalName).getD .unset))) originalName)
    else .error "AssertionError"

/-- `_update_legacy_signature`, saved_transform_io.py:39-87, for one of the two maps: a loop over a
copy of the entries. -/
def updateMap (m : InfoMap) : Except Err InfoMap :=
  (m.map Prod.fst).foldlM updateEntry m

/-- `_update_legacy_signature`, saved_transform_io.py:39-87. -/
def updateLegacySignature (s : Signature) : Except Err Signature := do
  let inputs ← updateMap s.inputs
  let outputs ← updateMap s.outputs
  .ok { inputs := inputs, outputs := outputs }

/-- `_load_transform_saved_model`, saved_transform_io.py:90-123. A missing entry of the map of
signatures is an empty signature. -/
def loadSavedModel {V : Type} (savedModel : List (MetaGraph V)) :
    Except Err (MetaGraph V × Signature) := do
  let g ← chooseMetaGraph savedModel
  let s ← updateLegacySignature ((find g.signatures transformSignature).getD ⟨[], []⟩)
  .ok (g, s)

/-- One input of `_expand_input_map`, saved_transform_io.py:145-167: the names of the components
in the graph that is loaded, with the tensors given for them. A composite tensor given for a dense
one is refused by TensorFlow on import. -/
def expandOne (info : Info) (replacement : Tensor) : Except Err (List (Str × Str)) :=
  match info, replacement with
  | .coo i v s, .sparse i' v' s' => .ok [(i, i'), (v, v'), (s, s')]
  | .coo _ _ _, _ => .error "AssertionError"
  | .composite _ cs, .composite _ cs' => .ok (cs.zip cs')
  | .composite _ cs, .sparse i v s => .ok (cs.zip [i, v, s])
  | .composite _ cs, .dense t => .ok (cs.zip [t])
  | .name n, .dense t => .ok [(n, t)]
  | .name _, _ => .error "TypeError: not a Tensor"
  | .unset, _ => .error "ValueError: Unsupported TensorInfo encoding None"

/-- `dict.update`. -/
def putAll {α : Type} (m : List (Str × α)) (es : List (Str × α)) : List (Str × α) :=
  es.foldl (fun m e => put m e.1 e.2) m

/-- `_expand_input_map`, saved_transform_io.py:126-168. -/
def expandInputMap (inputs : InfoMap) : List (Str × Tensor) → Except Err (List (Str × Str))
  | [] => .ok []
  | e :: rest =>
    match find inputs e.1 with
    | none => .error "KeyError"
    | some info => do
      let here ← expandOne info e.2
      let there ← expandInputMap inputs rest
      .ok (here ++ there)

/-- `prepend_name_scope` (TensorFlow). -/
def scopedName (scope name : Str) : Str := scope ++ '/' :: name

/-- `lookup_remapped_tensor`, saved_transform_io.py:361-365, for a tensor of the imported graph. -/
def remap (scope : Str) (inputMap : List (Str × Str)) (name : Str) : Str :=
  (find inputMap name).getD (scopedName scope name)

/-- `import_meta_graph` (TensorFlow), saved_transform_io.py:294-296: every node of the graph gets a
copy in the scope, whose inputs are the copies, or the tensors of the input map. Names in the input
map that the graph does not have are refused. -/
def importGraph {V : Type} (host : Graph V) (scope : Str) (inputMap : List (Str × Str))
    (nodes : Graph V) : Except Err (Graph V) :=
  if inputMap.all (fun e => (nodes.map Node.out).contains e.1) then
    .ok (host ++ nodes.map (fun n =>
      { out := scopedName scope n.out, op := n.op, ins := n.ins.map (remap scope inputMap) }))
  else .error "ValueError: Attempted to map inputs that were not found in graph_def"

/-- `lookup_remapped_tensor`, saved_transform_io.py:361-365. -/
def lookupRemapped {V : Type} (g : Graph V) (scope : Str) (inputMap : List (Str × Str))
    (name : Str) : Except Err Str :=
  match find inputMap name with
  | some t => .ok t
  | none =>
    if (g.map Node.out).contains (scopedName scope name) then .ok (scopedName scope name)
    else .error "KeyError: The name refers to a Tensor which does not exist"

/-- `lookup_tensor_or_sparse_or_composite_tensor`, saved_transform_io.py:367-395. -/
def lookupTensor {V : Type} (g : Graph V) (scope : Str) (inputMap : List (Str × Str)) :
    Info → Except Err Tensor
  | .coo i v s => do
    let i ← lookupRemapped g scope inputMap i
    let v ← lookupRemapped g scope inputMap v
    let s ← lookupRemapped g scope inputMap s
    .ok (.sparse i v s)
  | .composite spec cs => do
    let cs ← cs.mapM (lookupRemapped g scope inputMap)
    .ok (.composite spec cs)
  | .name n => do
    let t ← lookupRemapped g scope inputMap n
    .ok (.dense t)
  | .unset => .error "ValueError: Unsupported TensorInfo encoding None"

/-- The tensors of the entries of a signature, saved_transform_io.py:397-407. -/
def lookupEntries {V : Type} (g : Graph V) (scope : Str) (inputMap : List (Str × Str))
    (m : InfoMap) : Except Err (List (Str × Tensor)) :=
  m.mapM (fun e => (lookupTensor g scope inputMap e.2).map (fun t => (e.1, t)))

/-- A graph with its collection of asset paths. -/
structure World (V : Type) where
  graph : Graph V
  assets : List Str

/-- What loading returns: the graph and the tensors. -/
structure Loaded (V : Type) where
  world : World V
  unbound : List (Str × Tensor)
  outputs : List (Str × Tensor)

/-- The assets of the loaded model as constants of the graph, saved_transform_io.py:241: `constant`
is the value of a string, and `names` are the names that TensorFlow gives to the new tensors. -/
def assetNodes {V : Type} (constant : Str → V) (assets : List (Str × Str)) (names : List Str) :
    Graph V :=
  (assets.zip names).map (fun e => { out := e.2, op := .compute (fun _ => constant e.1.2), ins := [] })

/-- The tensors of a model, with those to use in their place, saved_transform_io.py:250-256. -/
def inputMapOf (expanded : List (Str × Str)) (assets : List (Str × Str)) (names : List Str)
    (replacements : List (Str × Str)) : List (Str × Str) :=
  putAll (putAll (putAll [] expanded) ((assets.map Prod.fst).zip names)) replacements

/-- `_partially_apply_saved_transform_impl`, saved_transform_io.py:191-409, without the variables
(`varMap`) and Python functions (`Pipeline/PyFunc`). `scope` is the unique name of the new scope. -/
def partiallyApply {V : Type} (constant : Str → V) (w : World V) (savedModel : List (MetaGraph V))
    (logical : List (Str × Tensor)) (replacements : List (Str × Str)) (scope : Str)
    (names : List Str) : Except Err (Loaded V) := do
  let (mg, signature) ← loadSavedModel savedModel
  let host := w.graph ++ assetNodes constant mg.assets names
  if logical.any (fun e => (find signature.inputs e.1).isNone) then
    .error "ValueError: Unexpected inputs to transform"
  else do
    let expanded ← expandInputMap signature.inputs logical
    let inputMap := inputMapOf expanded mg.assets names replacements
    if mg.trainable ≠ [] then
      .error "ValueError: The SavedModel contained trainable variables"
    else do
      let graph ← importGraph host scope inputMap mg.nodes
      let outputs ← lookupEntries graph scope inputMap signature.outputs
      let unbound ← lookupEntries graph scope inputMap
        (signature.inputs.filter (fun e => (find logical e.1).isNone))
      .ok { world := { graph := graph
                       assets := w.assets ++ names.take mg.assets.length }
            unbound := unbound
            outputs := outputs }

/-- What a name in a checkpoint restores: a variable, or the parts of one. -/
inductive Slot where
  | single (var : Str)
  | parts (vars : List (Option Str))
deriving DecidableEq

/-- The value of a string of digits, `int`. -/
def digitsValue (ds : Str) : Nat := ds.foldl (fun n d => 10 * n + (d.toNat - '0'.toNat)) 0

/-- `_PARTITIONED_VARIABLE_NAME_RE.match`, saved_transform_io.py:170: the base name and the
digits. -/
def matchPartition (name : Str) : Option (Str × Str) :=
  let digits := (name.reverse.takeWhile Char.isDigit).reverse
  let rest := name.take (name.length - digits.length)
  if "/part_".toList.isSuffixOf rest then
    some (rest.take (rest.length - "/part_".toList.length), digits)
  else none

/-- The names without scope of the variables in the scope, saved_transform_io.py:328-333. -/
def inScope (scope var : Str) : Option Str :=
  if (scopedName scope []).isPrefixOf var then some (var.drop (scope.length + 1)) else none

/-- One iteration of the loop over variables, saved_transform_io.py:327-349. -/
def addVariable (scope : Str) (m : List (Str × Slot)) (var : Str) :
    Except Err (List (Str × Slot)) :=
  match inScope scope var with
  | none => .ok m
  | some name =>
    match matchPartition name with
    | none => .ok (put m name (.single var))
    | some (base, digits) =>
      if digits = [] then .error "ValueError: invalid literal for int() with base 10: ''"
      else
        let i := digitsValue digits
        match (find m base).getD (.parts []) with
        | .single _ => .error "TypeError: object has no len()"
        | .parts vs =>
          let padded := vs ++ List.replicate (i + 1 - vs.length) none
          match padded[i]? with
          | some none => .ok (put m base (.parts (padded.set i (some var))))
          | _ => .error "AssertionError"

/-- The map of names in the checkpoint to variables, saved_transform_io.py:326-352. -/
def varMap (scope : Str) (vars : List Str) : Except Err (List (Str × Slot)) :=
  vars.foldlM (addVariable scope) []

end TFT.SavedLoad
