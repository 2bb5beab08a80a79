import Verif.Saved.Load

/-!
# Applying pretrained models

Model of `pretrained_models.py`: `apply_saved_model` and `apply_function_with_checkpoint`. Graphs and
their import are those of `Saved/Load`; an operation with several outputs is a node for each of them.
Types and shapes of tensors are not modelled.
-/

namespace TFT.Pretrained

open TFT.SavedLoad

/-- A node of the graph of a model, with the name of its tensor. -/
inductive PNode (V : Type) where
  | placeholder (out : Str)
  | readVar (out : Str) (var : Str)
  | compute (out : Str) (f : List V → V) (ins : List Str)

def PNode.out {V : Type} : PNode V → Str
  | .placeholder o => o
  | .readVar o _ => o
  | .compute o _ _ => o

def PNode.ins {V : Type} : PNode V → List Str
  | .placeholder _ => []
  | .readVar _ _ => []
  | .compute _ _ is => is

/-- A graph in a SavedModel. `vars` are the values of its variables, `initializers` the operations of
its collection `TABLE_INITIALIZERS`, and `assets` the tensors of asset paths with the paths of the
files in the SavedModel; in the graph itself these tensors are constants. -/
structure Model (V : Type) where
  tags : List Str
  signatures : List (Str × Signature)
  nodes : List (PNode V)
  vars : Str → Option V
  initializers : List Str
  assets : List (Str × Str)

/-- The graph of a preprocessing function with its collection `TABLE_INITIALIZERS`. -/
structure Host (V : Type) where
  graph : Graph V
  initializers : List Str

/-- `inputs` of `apply_saved_model`: a dictionary or a single tensor. -/
inductive Inputs where
  | dict (d : List (Str × Str))
  | single (t : Str)

/-- What is returned: a tensor or a list of tensors. -/
inductive Result where
  | single (t : Str)
  | many (ts : List Str)
deriving DecidableEq

def Result.tensors : Result → List Str
  | .single t => [t]
  | .many ts => ts

def Result.isSingle : Result → Bool
  | .single _ => true
  | .many _ => false

/-- `extract_sub_graph` (TensorFlow), for the nodes in reverse order: those that are needed. -/
def pruneRev {V : Type} : List (PNode V) → List Str → List (PNode V)
  | [], _ => []
  | n :: rest, need =>
    if need.contains n.out then pruneRev rest (need ++ n.ins) ++ [n] else pruneRev rest need

def prune {V : Type} (nodes : List (PNode V)) (need : List Str) : List (PNode V) :=
  pruneRev nodes.reverse need

/-- A node in which the variable is replaced by its value; a variable without value cannot be read. -/
def freezeNode {V : Type} (vars : Str → Option V) : PNode V → Except Err (Node V)
  | .placeholder o => .ok { out := o, op := .placeholder, ins := [] }
  | .compute o f is => .ok { out := o, op := .compute f, ins := is }
  | .readVar o x =>
    match vars x with
    | some v => .ok { out := o, op := .compute (fun _ => v), ins := [] }
    | none => .error "FailedPreconditionError: Attempting to use uninitialized value"

/-- `convert_variables_to_constants` (TensorFlow). -/
def toConstants {V : Type} (vars : Str → Option V) (nodes : List (PNode V)) (need : List Str) :
    Except Err (Graph V) :=
  (prune nodes need).mapM (freezeNode vars)

/-- `import_graph_def` (TensorFlow) with `return_elements`. -/
def importElements {V : Type} (host : Graph V) (scope : Str) (inputMap : List (Str × Str))
    (nodes : Graph V) (elements : List Str) : Except Err (Graph V × List Str) := do
  let graph ← importGraph host scope inputMap nodes
  let returned ← elements.mapM (lookupRemapped graph scope inputMap)
  .ok (graph, returned)

/-- `tf.compat.v1.saved_model.load`, pretrained_models.py:142-144: the graph with exactly the tags. -/
def loadModel {V : Type} (savedModel : List (Model V)) (tags : List Str) :
    Except Err (Model V) :=
  match savedModel.find? (fun m => m.tags.all tags.contains && tags.all m.tags.contains) with
  | some m => .ok m
  | none => .error "RuntimeError: MetaGraphDef associated with tags could not be found"

/-- The choice of the signature, pretrained_models.py:152-160. A missing entry of the map of
signatures is an empty signature, and an empty name counts as none. -/
def chooseSignature (signatures : List (Str × Signature)) (name : Option Str) :
    Except Err Signature :=
  match name with
  | some (c :: cs) => .ok ((find signatures (c :: cs)).getD ⟨[], []⟩)
  | _ =>
    match signatures with
    | [] => .error "StopIteration"
    | [s] => .ok s.2
    | _ => .error "ValueError: The SavedModel contains multiple signatures"

/-- The map of tensors of the model to given tensors, pretrained_models.py:163-178. The name of a
sparse tensor is empty. -/
def inputMapOf (signature : Signature) (inputs : Inputs) : Except Err (List (Str × Str)) :=
  match inputs with
  | .dict d =>
    if (signature.inputs.map Prod.fst).all (d.map Prod.fst).contains
        && (d.map Prod.fst).all (signature.inputs.map Prod.fst).contains then
      .ok (putAll [] (d.map (fun e => (((find signature.inputs e.1).getD .unset).nameField, e.2))))
    else .error "ValueError: The keys in `inputs` do not match inputs of the SavedModel"
  | .single t =>
    match signature.inputs with
    | [e] => .ok [(e.2.nameField, t)]
    | _ => .error "ValueError: The SavedModel does not have exactly one input"

/-- The names of the output tensors, and whether a single tensor is returned,
pretrained_models.py:181-200. -/
def outputNames (signature : Signature) (keys : List Str) : Except Err (List Str × Bool) :=
  if keys ≠ [] then
    if keys.all (signature.outputs.map Prod.fst).contains then
      .ok (keys.map (fun k => ((find signature.outputs k).getD .unset).nameField), false)
    else .error "ValueError: output_keys_in_signature is not a subset of outputs of the SavedModel"
  else
    match signature.outputs with
    | [e] => .ok ([e.2.nameField], true)
    | _ => .error "ValueError: The SavedModel does not have exactly one output"

/-- A single tensor or a list, pretrained_models.py:225-229 and 302-306. -/
def resultOf (single : Bool) (ts : List Str) : Except Err Result :=
  if single then
    match ts with
    | [t] => .ok (.single t)
    | _ => .error "AssertionError"
  else .ok (.many ts)

/-- `apply_saved_model`, pretrained_models.py:96-229. `scope` is the unique name of the scope of the
import; `output_keys_in_signature=None` is the empty list, which the code treats alike. -/
def applySavedModel {V : Type} (host : Host V) (savedModel : List (Model V)) (inputs : Inputs)
    (tags : List Str) (signatureName : Option Str) (outputKeys : List Str) (scope : Str) :
    Except Err (Host V × Result) := do
  let model ← loadModel savedModel tags
  let signature ← chooseSignature model.signatures signatureName
  let inputMap ← inputMapOf signature inputs
  let (names, single) ← outputNames signature outputKeys
  if names.all (model.nodes.map PNode.out).contains then do
    let constant ← toConstants model.vars model.nodes (names ++ model.initializers)
    let (graph, returned) ←
      importElements host.graph scope inputMap constant (names ++ model.initializers)
    let result ← resultOf single (returned.take names.length)
    .ok ({ graph := graph, initializers := host.initializers ++ returned.drop names.length }, result)
  else .error "KeyError: The name refers to a Tensor which does not exist"

/-! ## Functions with a checkpoint -/

/-- `Graph.unique_name` (TensorFlow): names are compared without case. Returns the name and the names
in use with their counts. -/
def uniqueName (used : List (Str × Nat)) (name : Str) : Except Err (Str × List (Str × Nat)) :=
  let key := name.map Char.toLower
  let i := (find used key).getD 0
  let used1 := put used key (i + 1)
  if i = 0 then .ok (name, used1)
  else
    match ((List.range (used1.length + 1)).map (fun k : Nat => i + k)).find? (fun j =>
        (find used1 (key ++ '_' :: Nat.toDigits 10 j)).isNone) with
    | some j => .ok (name ++ '_' :: Nat.toDigits 10 j, put used1 (key ++ '_' :: Nat.toDigits 10 j) 1)
    | none => .error "unreachable"

/-- The names of new operations in an empty graph. -/
def uniqueNames : List (Str × Nat) → List Str → Except Err (List Str)
  | _, [] => .ok []
  | used, name :: rest => do
    let (fresh, used) ← uniqueName used name
    let others ← uniqueNames used rest
    .ok (fresh :: others)

/-- `tensor.op.name`: the part before the colon. -/
def opName (t : Str) : Str := t.takeWhile (· ≠ ':')

/-- The name of the first output of an operation. -/
def firstOutput (op : Str) : Str := op ++ ":0".toList

/-- What a function adds to a graph: its nodes, the variables of the collection `GLOBAL_VARIABLES`,
the collection `TABLE_INITIALIZERS`, and what it returns. -/
structure Built (V : Type) where
  nodes : List (PNode V)
  globals : List Str
  initializers : List Str
  output : Result

/-- `_get_variables_to_restore`, pretrained_models.py:55-93. A scope is a regular expression, given by
what it matches. -/
def variablesToRestore (globals : List Str) (inclScopes exclScopes : Option (List (Str → Bool))) :
    List Str :=
  let included := match inclScopes with
    | none => globals
    | some scopes => scopes.flatMap (fun s => globals.filter s)
  let excluded := match exclScopes with
    | none => []
    | some scopes => scopes.flatMap (fun s => globals.filter s)
  included.filter (fun v => !excluded.contains v)

/-- `Saver` and `restore` (TensorFlow), pretrained_models.py:286-288: the variables that have values
afterwards. -/
def restore {V : Type} (checkpoint : Str → Option V) (vars : List Str) :
    Except Err (Str → Option V) :=
  if vars = [] then .error "ValueError: No variables to save"
  else if ¬ vars.Nodup then .error "ValueError: At least two variables have the same name"
  else if vars.all (fun v => (checkpoint v).isSome) then
    .ok (fun v => if vars.contains v then checkpoint v else none)
  else .error "NotFoundError: Key not found in checkpoint"

/-- `apply_function_with_checkpoint`, pretrained_models.py:232-306. `fn` builds a graph on top of the
placeholders whose tensors it is given. -/
def applyFunction {V : Type} (host : Graph V) (fn : List Str → Built V) (inputs : List Str)
    (checkpoint : Str → Option V) (inclScopes exclScopes : Option (List (Str → Bool)))
    (scope : Str) : Except Err (Graph V × Result) := do
  let names ← uniqueNames [] (inputs.map opName)
  let placeholders := names.map firstOutput
  let built := fn placeholders
  if built.initializers ≠ [] then .error "ValueError: Models with table init ops are not supported."
  else do
    let vars ← restore checkpoint (variablesToRestore built.globals inclScopes exclScopes)
    let constant ← toConstants vars (placeholders.map .placeholder ++ built.nodes)
      built.output.tensors
    let inputMap := putAll [] (inputs.map (fun t => (t, t)))
    let (graph, returned) ← importElements host scope inputMap constant built.output.tensors
    let result ← resultOf built.output.isSingle returned
    .ok (graph, result)

end TFT.Pretrained
