import Mathlib.Data.Rat.Defs
import Verif.Pipeline.Analyze

/-!
# Lookups in vocabularies during the phases of an analysis

Model of `construct_and_lookup_table` (`tf_utils.py:2080-2167`) in the traces of a `preprocessing_fn`, with
the phases of `Pipeline/Analyze`. With TF1 behaviour a table is built from the placeholder of the vocabulary
file. With TF2 behaviour it is built outside the traced function from the path of a file: the result of an
earlier phase, or a temporary file as long as there is none; so what a trace contains depends on the results
found so far.

What is left out, besides what `Pipeline/Analyze` leaves out: the contents of a vocabulary file stand for its
path, and files whose path is a tensor computed in the `preprocessing_fn` are not used.
-/

namespace TFT.VocabTables

open TFT TFT.Analyze

/-- The file given to `apply_vocabulary`: the output of the analyzer with this name, or a Python string with
the path of a file with these contents. -/
inductive Path (V : Type) where
  | vocabulary (name : String)
  | file (contents : V)

/-- A tensor of a `preprocessing_fn` in terms of what the user called: `ids` is the result of
`apply_vocabulary` (`mappers.py:1286-1288`), `size` the size of its table (1299), from which
`get_num_buckets_for_transformed_feature` (1310-1371) computes the number of buckets with ordinary
operations. `before` are the analyzers with vocabulary files that were called before the call of
`apply_vocabulary`. -/
inductive Expr (V Op : Type) where
  | input (key : String)
  | op (o : Op) (ins : List (Expr V Op))
  | result (name : String)
  | ids (before : List String) (path : Path V) (x : Expr V Op)
  | size (before : List String) (path : Path V)

/-- A `preprocessing_fn`: its tensors by name, its outputs, its analyzers in the order of the calls, and
whether some output is a composite tensor. -/
structure Program (V Op An : Type) where
  tensors : List (String × Expr V Op)
  outputs : List (String × String)
  sinks : List (Sink An)
  composite : Bool

/-- What operations, analyzers and tables compute, and the contents of the temporary file or the default of the
placeholder of an analyzer without result. -/
structure World (V Op An : Type) where
  op : Op → List V → Except Err V
  analyze : An → List (List V) → Except Err V
  lookup : V → V → Except Err V
  size : V → Except Err V
  temporary : String → V

/-- The operations of a trace: those of the user, and the lookups in tables and their sizes. A table is built
from a tensor with the path, or outside the trace from a given path. -/
inductive TOp (V Op : Type) where
  | user (o : Op)
  | lookup
  | lookupIn (file : V)
  | size
  | sizeOf (file : V)

/-- What the operations compute. The second input of `lookupIn` is the control dependency of
`_lookup_table`. With TF1 behaviour a placeholder without result cannot be evaluated. -/
def World.meaning {V Op An : Type} (w : World V Op An) (tf2 : Bool) : Meaning V (TOp V Op) An where
  op
    | .user o, vs => w.op o vs
    | .lookup, [x, file] => w.lookup file x
    | .lookupIn file, x :: _ => w.lookup file x
    | .size, [file] => w.size file
    | .sizeOf file, [] => w.size file
    | _, _ => .error "TypeError"
  analyze := w.analyze
  temporary name := if tf2 then .ok (w.temporary name)
    else .error "InvalidArgumentError: You must feed a value for placeholder tensor"

/-- `asset_filepath`: a tensor of the graph, an eager tensor, or a string. -/
inductive Asset (V : Type) where
  | graph (name : String)
  | eager (file : V)
  | str (file : V)

variable {V Op An : Type}

/-- `_get_asset_analyzer_output_and_control_dependency` (`tf_utils.py:2090-2111`); `tracked` is the collection
`_ASSET_REPLACEMENTS` (2080-2087). -/
def resolve (tracked : List (String × V)) (asset : Asset V) : Except Err (Asset V × Option String) :=
  if tracked.isEmpty then .ok (asset, none)
  else
    match asset with
    | .str _ => .error "ValueError: Expected asset_filepath to be a tf.Tensor."
    | .eager file => .ok (.eager file, none)
    | .graph name =>
      match tracked.lookup name with
      | some file => .ok (.eager file, some name)
      | none => .ok (.graph name, none)

/-- `_lookup_table` (`tf_utils.py:2114-2129`). -/
def lookupTable (asset : Asset V) (dependency : Option String) (x : Tensor (TOp V Op)) : Tensor (TOp V Op) :=
  match asset with
  | .graph name => .op .lookup [x, .sink name]
  | .eager file => .op (.lookupIn file) (x :: dependency.toList.map .sink)
  | .str file => .op (.lookupIn file) (x :: dependency.toList.map .sink)

/-- `table.size()` (`tf_utils.py:2159-2166`): for a table that is built outside the traced function, the size
is computed there too. -/
def tableSize (asset : Asset V) : Tensor (TOp V Op) :=
  match asset with
  | .graph name => .op .size [.sink name]
  | .eager file => .op (.sizeOf file) []
  | .str file => .op (.sizeOf file) []

/-- `construct_and_lookup_table` (`tf_utils.py:2132-2167`). -/
def constructAndLookup (tracked : List (String × V)) (asset : Asset V) (x : Tensor (TOp V Op)) :
    Except Err (Tensor (TOp V Op) × Tensor (TOp V Op)) := do
  let (asset, dependency) ← resolve tracked asset
  .ok (lookupTable asset dependency x, tableSize asset)

/-- What the call of an analyzer returns: with TF2 behaviour `_bind_future_as_tensor_v2`
(`analyzer_nodes.py:251-316`), with TF1 behaviour a placeholder (144-153). -/
def assetOf (tf2 : Bool) (bound : List (String × V)) (path : Path V) : Asset V :=
  match path with
  | .file contents => .str contents
  | .vocabulary name =>
    if tf2 then
      match bound.lookup name with
      | some file => .eager file
      | none => .graph name
    else .graph name

/-- The collection `_ASSET_REPLACEMENTS` after the calls of the analyzers `before`: those without result, with
their temporary files (`analyzer_nodes.py:306-312`). -/
def trackedAfter (w : World V Op An) (tf2 : Bool) (bound : List (String × V)) (before : List String) :
    List (String × V) :=
  if tf2 then
    (before.filter fun n => !(bound.map Prod.fst).contains n).map fun n => (n, w.temporary n)
  else []

mutual
/-- The tensor in the graph of a trace. -/
def Expr.traced (w : World V Op An) (tf2 : Bool) (bound : List (String × V)) :
    Expr V Op → Except Err (Tensor (TOp V Op))
  | .input key => .ok (.input key)
  | .op o ins => do
    let ts ← Expr.tracedAll w tf2 bound ins
    .ok (.op (.user o) ts)
  | .result name => .ok (.sink name)
  | .ids before path x => do
    let t ← x.traced w tf2 bound
    let r ← constructAndLookup (trackedAfter w tf2 bound before) (assetOf tf2 bound path) t
    .ok r.1
  | .size before path => do
    let r ← constructAndLookup (trackedAfter w tf2 bound before) (assetOf tf2 bound path) (.input "")
    .ok r.2
def Expr.tracedAll (w : World V Op An) (tf2 : Bool) (bound : List (String × V)) :
    List (Expr V Op) → Except Err (List (Tensor (TOp V Op)))
  | [] => .ok []
  | e :: es => do
    let t ← e.traced w tf2 bound
    let ts ← Expr.tracedAll w tf2 bound es
    .ok (t :: ts)
end

/-- A trace of the `preprocessing_fn` when the results `bound` are known. -/
def Program.trace (w : World V Op An) (tf2 : Bool) (bound : List (String × V)) (prog : Program V Op An) :
    Except Err (Trace (TOp V Op) An) := do
  let tensors ← seqExcept (prog.tensors.map fun e => (e.2.traced w tf2 bound).bind fun t => .ok (e.1, t))
  .ok { tensors := tensors, outputs := prog.outputs, sinks := prog.sinks, composite := prog.composite }

/-- The graph of a phase: a new trace with TF2 behaviour (`beam/impl.py:606-697`), the first one with TF1
behaviour. -/
def retrace (w : World V Op An) (tf2 : Bool) (prog : Program V Op An) (first : Trace (TOp V Op) An)
    (bound : List (String × V)) : Except Err (Trace (TOp V Op) An) :=
  if tf2 then prog.trace w true bound else .ok first

/-- The loop over phases, as `Analyze.phases` (`beam/analysis_graph_builder.py:699-759`), where the graph of a
phase is given by the results found before. -/
def phases (w : World V Op An) (tf2 : Bool) (keys : List String) (prog : Program V Op An)
    (first : Trace (TOp V Op) An) (data : Nat → List (List (String × V))) (p : Nat) (todo : List (Sink An))
    (bound : List (String × V)) : Except Err (Nat × List (String × V)) :=
  if todo.isEmpty then .ok (p, bound)
  else
    if h : (first.ready bound todo).isEmpty then .error "the loop does not end"
    else
      (retrace w tf2 prog first bound).bind fun again =>
        (validate (first.fingerprint keys) (again.fingerprint keys)).bind fun _ =>
          (seqExcept ((first.ready bound todo).map (bindSink (w.meaning tf2) again bound (data p)))).bind
            fun new =>
              phases w tf2 keys prog first data (p + 1) (first.waiting bound todo) (bound ++ new)
termination_by todo.length
decreasing_by exact waiting_lt _ _ _ h

/-- The analysis of a dataset, as `Analyze.analyzeDataset` (`beam/analysis_graph_builder.py:619-777`,
`beam/impl.py:1066-1345`): the transform function, from a batch to its outputs. -/
def analyze (w : World V Op An) (tf2 : Bool) (keys : List String) (prog : Program V Op An)
    (data : Nat → List (List (String × V))) :
    Except Err (List (String × V) → Except Err (List (String × V))) :=
  (prog.trace w tf2 []).bind fun first =>
    (phases w tf2 keys prog first data 0 prog.sinks []).bind fun r =>
      (retrace w tf2 prog first r.2).bind fun again =>
        (validate (first.fingerprint keys) (again.fingerprint keys)).bind fun _ =>
          .ok (final (w.meaning tf2) first again r.2)

/-! ## The number of buckets -/

/-- The collections of `set_tensor_schema_override` (`schema_inference.py:446-473`), for values: tensors with
their smallest and largest values. -/
abbrev Overrides := List (String × Int × Int)

/-- `set_tensor_schema_override`. -/
def setOverride (overrides : Overrides) (tensor : String) (minValue maxValue : Int) : Overrides :=
  overrides ++ [(tensor, minValue, maxValue)]

/-- `get_tensor_schema_override` with `_get_tensor_ranges` (`schema_inference.py:476-485, 501-510`): of several
entries of a dictionary the last one counts. -/
def getOverride (overrides : Overrides) (tensor : String) : Except Err (Int × Int) :=
  match overrides.reverse.lookup tensor with
  | some r => .ok r
  | none => .error "ValueError: Requested tensor does not have recorded min/max values"

/-- The end of `_apply_vocabulary_internal` (`mappers.py:1298-1305`). -/
def annotateIds (overrides : Overrides) (tensor : String) (tableSize defaultValue numOovBuckets : Int) :
    Overrides :=
  if numOovBuckets ≤ 0 then
    setOverride overrides tensor (min 0 defaultValue) (max (tableSize - 1) defaultValue)
  else setOverride overrides tensor 0 (tableSize - 1)

/-- The end of `apply_buckets` (`mappers.py:2345-2351`), for the boundaries of its only row. -/
def annotateBuckets (overrides : Overrides) (tensor : String) (boundaries : List ℚ) : Overrides :=
  setOverride overrides tensor 0 boundaries.length

/-- `get_num_buckets_for_transformed_feature` (`mappers.py:1310-1371`). -/
def getNumBuckets (overrides : Overrides) (tensor : String) : Except Err Int := do
  let r ← getOverride overrides tensor
  .ok (r.2 + 1)

end TFT.VocabTables
