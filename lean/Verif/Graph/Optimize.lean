import Verif.Graph.Traverse
import Verif.Graph.CachePath
import Verif.Cache.Run

/-!
# The cache optimization of the analysis graph

Model of `_OptimizeVisitor`, `_perform_cache_optimization`, `_InspectVisitor`,
`get_analysis_dataset_keys` and `get_analysis_cache_entry_keys` in
`beam/analysis_graph_builder.py`.
-/

namespace TFT.Graph.Optimize

open TFT.Graph.CachePath
open TFT.Coders (Bytes)

/-- The classes of operations that the visitors tell apart, `analysis_graph_builder.py:266-269,
509`: `ExtractInputForSavedModel` for the flattened dataset (the only one in a graph before the
optimization, `analysis_graph_builder.py:690-694`), `ApplySavedModel` with its phase, any other. -/
inductive OpKind where
  | extractInput
  | applySavedModel (phase : Nat)
  | other
  deriving DecidableEq

/-- An `OperationDef` as far as `_OptimizeVisitor` looks at it, `nodes.py:35-86`. `hasCoder` says
that `cache_coder` is not `None`; `desc` is what `_make_next_hashed_path` looks at. -/
structure OpInfo where
  label : Bytes
  kind : OpKind
  isPartitionable : Bool
  hasCoder : Bool
  desc : OpDef

/-- The `ValueNode`s of the optimized graph. The `OperationDef` of an operation of the original
graph is represented by that operation: `op o i ins j` is output `j` of
`OperationNode(operation_def, ins)`, where `operation_def` is that of `o`, with the label extended
by `[AnalysisIndex{i}]` if there is an `i`. The other nodes are the new operations. A node stands
for all the operations it depends on: nodes that are shared in the code are repeated here. -/
inductive Node (Op : Type) where
  | op (o : Op) (dataset : Option Nat) (ins : List (Node Op)) (index : Nat)
  | extractInput (dataset : Nat) (k : DatasetKey)
  | flatten (o : Op) (ins : List (Node Op))
  | decodeCache (o : Op) (dataset : Nat) (k : DatasetKey) (key : Bytes)
  | encodeCache (o : Op) (dataset : Nat) (input : Node Op)

/-- `_OptimizationView`, `analysis_graph_builder.py:116-135`. The fine grained view is an
`OrderedDict` from dataset keys. -/
structure View (Op : Type) where
  prefer : Bool
  flat : Node Op
  fine : Option (List (DatasetKey × Node Op))
  path : Option Bytes

/-- The truth value of a fine grained view: `None` and the empty dict are false. -/
def truthy {α : Type} : Option (List α) → Bool
  | some (_ :: _) => true
  | _ => false

/-- `_OptimizationView.__post_init__`, `analysis_graph_builder.py:133-135`. -/
def View.make {Op : Type} (prefer : Bool) (flat : Node Op)
    (fine : Option (List (DatasetKey × Node Op))) (path : Option Bytes) : Except Err (View Op) :=
  if prefer && !truthy fine then
    .error "ValueError: Cannot prefer fine_grained_view when one is not provided"
  else .ok ⟨prefer, flat, fine, path⟩

/-- The arguments of `_OptimizeVisitor.__init__`, `analysis_graph_builder.py:150-181`, together
with the definitions of the operations, `sha1` and the cache version. `keys` is
`_sorted_dataset_keys`. In `cache`, which is `cache_dict`, an entry is the PCollection of its
encoded elements. -/
structure Config (Op Coll : Type) where
  info : Op → OpInfo
  numOutputs : Op → Nat
  keys : List DatasetKey
  cache : Option (DatasetKey → Bytes → Option Coll)
  paths : String → Option (Option Bytes)
  sha1 : Bytes → Bytes
  version : Bytes

variable {Op Coll : Type}

/-- An entry of `cache_output_nodes`: the dataset key, the cache entry key, the node. -/
abbrev Write (Op : Type) := (DatasetKey × Bytes) × Node Op

/-- `_validate_operation_def`, `analysis_graph_builder.py:183-195`. -/
def Config.validateDef (c : Config Op Coll) (o : Op) : Except Err Unit :=
  if (c.info o).hasCoder && !(c.info o).isPartitionable then
    .error "ValueError: Non partitionable OperationDefs cannot be cacheable"
  else if ((c.info o).isPartitionable || (c.info o).hasCoder) && c.numOutputs o != 1 then
    .error "ValueError: Cacheable OperationDefs must have exactly 1 output"
  else .ok ()

/-- `v[dataset_key]` for a fine grained view. -/
def lookupKey (k : DatasetKey) (v : List (DatasetKey × Node Op)) : Except Err (Node Op) :=
  match v.lookup k with
  | some n => .ok n
  | none => .error "KeyError"

/-- Whether `self._cache_dict.get(dataset_key, {}).get(cache_entry_key) is not None`,
`analysis_graph_builder.py:385-390`. -/
def Config.hasEntry (c : Config Op Coll) (k : DatasetKey) (key : Bytes) : Bool :=
  match c.cache with
  | some cache => (cache k key).isSome
  | none => false

/-- The body of the loop of `_apply_operation_on_fine_grained_view`,
`analysis_graph_builder.py:382-418`. (For the counters see `Instrument.lean`.) -/
def Config.fineStep (c : Config Op Coll) (o : Op) (views : List (List (DatasetKey × Node Op)))
    (key : Bytes) (idx : Nat) (k : DatasetKey) : Except Err (Node Op × Option (Write Op)) :=
  if (c.info o).hasCoder && c.hasEntry k key then .ok (.decodeCache o idx k key, none)
  else do
    let ins ← seqExcept (views.map (lookupKey k))
    let out := Node.op o (some idx) ins 0
    if (c.info o).hasCoder && k.isCached then .ok (out, some ((k, key), .encodeCache o idx out))
    else .ok (out, none)

/-- The loop of `_apply_operation_on_fine_grained_view`, `analysis_graph_builder.py:382-418`,
from the dataset with index `idx` on: `result_fine_grained_view` and what is added to
`cache_output_nodes`. -/
def Config.fineLoop (c : Config Op Coll) (o : Op) (views : List (List (DatasetKey × Node Op)))
    (key : Bytes) : Nat → List DatasetKey →
    Except Err (List (DatasetKey × Node Op) × List (Write Op))
  | _, [] => .ok ([], [])
  | idx, k :: ks => do
    let (out, w) ← c.fineStep o views key idx k
    let (fine, ws) ← c.fineLoop o views key (idx + 1) ks
    .ok ((k, out) :: fine, w.toList ++ ws)

/-- `_apply_operation_on_fine_grained_view`, `analysis_graph_builder.py:358-420`. -/
def Config.applyFine (c : Config Op Coll) (o : Op) (views : List (List (DatasetKey × Node Op)))
    (path : Option Bytes) : Except Err (List (DatasetKey × Node Op) × List (Write Op)) := do
  let key ← cacheEntryKey c.version (c.info o).label path
  c.fineLoop o views key 0 c.keys

/-- `OperationNode(operation_def, ins).outputs`, `nodes.py:155-161`. -/
def Config.outputs (c : Config Op Coll) (o : Op) (ins : List (Node Op)) : List (Node Op) :=
  (List.range (c.numOutputs o)).map (fun i : Nat => Node.op o none ins i)

/-- The view of one output, `analysis_graph_builder.py:347-355`. -/
def makeView (prefer : Bool) (path : Option Bytes)
    (p : Node Op × Option (List (DatasetKey × Node Op))) : Except Err (View Op) :=
  View.make prefer p.1 p.2 path

/-- `_visit_partitionable_operation`, `analysis_graph_builder.py:315-356`. -/
def Config.visitPartitionable (c : Config Op Coll) (o : Op) (ins : List (View Op)) :
    Except Err (List (View Op) × List (Write Op)) := do
  let allFine := ins.all (fun v => truthy v.fine)
  let prefer := ins.any (fun v => v.prefer) || (allFine && (c.info o).hasCoder)
  let path ← nextHashedPath c.sha1 (ins.map (fun v => v.path)) (c.info o).desc c.paths
  let (fines, ws) ← (if allFine then do
      let (fine, ws) ← c.applyFine o (ins.map (fun v => v.fine.getD [])) path
      .ok ([some fine], ws)
    else .ok (List.replicate (c.numOutputs o) none, []) :
      Except Err (List (Option (List (DatasetKey × Node Op))) × List (Write Op)))
  let flats := c.outputs o (ins.map (fun v => v.flat))
  if fines.length ≠ flats.length then .error "AssertionError"
  else do
    let views ← seqExcept ((flats.zip fines).map (makeView prefer path))
    .ok (views, ws)

/-- The fine grained view of `_visit_apply_savedmodel_operation`,
`analysis_graph_builder.py:429-441`, from the dataset with index `idx` on. -/
def applyViews (o : Op) (model : Node Op) : Nat → List DatasetKey → List (DatasetKey × Node Op)
  | _, [] => []
  | idx, k :: ks =>
    (k, .op o (some idx) [model, .extractInput idx k] 0) :: applyViews o model (idx + 1) ks

/-- `_visit_apply_savedmodel_operation`, `analysis_graph_builder.py:422-458`. -/
def Config.visitApply (c : Config Op Coll) (o : Op) (ins : List (View Op)) :
    Except Err (List (View Op) × List (Write Op)) :=
  if ins.any (fun v => truthy v.fine) then
    .error "ValueError: Was not expecting a fine_grained_view input for ApplySavedModel"
  else match ins with
    | [model, input] =>
      .ok ([⟨false, .op o none [model.flat, input.flat] 0,
        some (applyViews o model.flat 0 c.keys), some applySavedModelPath⟩], [])
    | _ => .error "ValueError: unpack"

/-- `view.fine_grained_view.values()`, `analysis_graph_builder.py:285`. -/
def fineValues (v : View Op) : Except Err (List (Node Op)) :=
  match v.fine with
  | some f => .ok (f.map Prod.snd)
  | none => .error "AttributeError: 'NoneType' object has no attribute 'values'"

/-- `next_inputs`, `analysis_graph_builder.py:280-301`: all the fine grained views of all inputs
go through one `Flatten`, or the flattened views are used. -/
def nextInputs (o : Op) (ins : List (View Op)) : Except Err (List (Node Op)) :=
  if ins.any (fun v => truthy v.fine && v.prefer) then do
    let values ← seqExcept (ins.map fineValues)
    .ok [.flatten o values.flatten]
  else .ok (ins.map (fun v => v.flat))

/-- `_OptimizeVisitor.visit`, `analysis_graph_builder.py:263-313`: the views of the outputs, and
what is added to `cache_output_nodes`. -/
def Config.visit (c : Config Op Coll) (o : Op) (ins : List (View Op)) :
    Except Err (List (View Op) × List (Write Op)) := do
  c.validateDef o
  if (c.info o).kind = .applySavedModel 0 then c.visitApply o ins
  else if c.cache.isSome && (c.info o).isPartitionable then c.visitPartitionable o ins
  else do
    let next ← nextInputs o ins
    .ok ((c.outputs o next).map (fun n => ⟨false, n, none, none⟩), [])

/-- `validate_value`, `analysis_graph_builder.py:460-465`. -/
def Config.validateValue (c : Config Op Coll) (v : View Op) : Except Err Unit :=
  match v.fine with
  | some f =>
    if truthy (some f) then
      if (f.map Prod.fst).all (fun k => k ∈ c.keys) && c.keys.all (fun k => k ∈ f.map Prod.fst)
      then .ok () else .error "AssertionError"
    else .ok ()
  | none => .ok ()

/-- `_OptimizeVisitor` as a visitor. -/
def Config.visitor (c : Config Op Coll) : Visitor Op (View Op) where
  visit _ o ins := (c.visit o ins).map Prod.fst
  validate := c.validateValue

/-- What one call of `visit` adds to `cache_output_nodes`. -/
def Config.writesOf (c : Config Op Coll) (call : Call Op (View Op)) : List (Write Op) :=
  match c.visit call.op call.ins with
  | .ok (_, ws) => ws
  | .error _ => []

/-- `_perform_cache_optimization`, `analysis_graph_builder.py:468-499`, for the graph `g` and the
node `target`: the optimized node and `cache_output_nodes`. -/
def Config.optimize [DecidableEq Op] [Fintype Op] (c : Config Op Coll) (g : OpGraph Op)
    (target : Op × Nat) : Except Err (Node Op × List (Write Op)) := do
  let (st, views) ← traverse g c.visitor [target]
  match views with
  | [v] => .ok (v.flat, st.calls.flatMap c.writesOf)
  | _ => .error "unreachable"

/-! ### Which datasets are read -/

mutual
/-- `_InspectVisitor`, `analysis_graph_builder.py:502-514`: the dataset keys of the
`ExtractInputForSavedModel` operations that a node depends on; `none` is the key of the
flattened dataset. -/
def Node.datasetKeys (info : Op → OpInfo) : Node Op → List (Option DatasetKey)
  | .op o _ ins _ =>
    if (info o).kind = .extractInput then [none] else datasetKeysList info ins
  | .extractInput _ k => [some k]
  | .flatten _ ins => datasetKeysList info ins
  | .decodeCache _ _ _ _ => []
  | .encodeCache _ _ n => n.datasetKeys info

@[inherit_doc Node.datasetKeys]
def datasetKeysList (info : Op → OpInfo) : List (Node Op) → List (Option DatasetKey)
  | [] => []
  | n :: ns => n.datasetKeys info ++ datasetKeysList info ns
end

/-- `get_analysis_dataset_keys`, `analysis_graph_builder.py:541-573`, for the optimized node. -/
def Config.requiredKeys (c : Config Op Coll) (n : Node Op) : List DatasetKey :=
  let result := n.datasetKeys c.info
  if result.any (fun k => k.isNone) then c.keys else result.filterMap id

/-- `get_analysis_cache_entry_keys`, `analysis_graph_builder.py:576-601`, for the result of
`optimize`. -/
def entryKeys (ws : List (Write Op)) : List Bytes := ws.map (fun w => w.1.2)

/-! ### What the nodes compute -/

/-- What the operations compute: `run` gives the outputs of an operation from its inputs, `flatten`
is `beam.Flatten`, `encode` and `decode` are `EncodeCache` and `DecodeCache` for the coder of an
operation. All are functions: the results of an operation do not depend on the order and the
bundling of its input. -/
structure Meaning (Op Coll : Type) where
  run : Op → List Coll → Except Err (List Coll)
  flatten : List Coll → Coll
  encode : Op → Coll → Coll
  decode : Op → Coll → Except Err Coll

/-- Output `i` of an operation with the given outputs. -/
def pick {α : Type} (outs : List α) (i : Nat) : Except Err α :=
  match outs[i]? with
  | some x => .ok x
  | none => .error "ValueError: value_index out of range"

mutual
/-- What a node of the optimized graph computes when `ConstructBeamPipelineVisitor`
(`beam/common.py:156-230`) turns it into a pipeline that is run: `all` is the flattened dataset,
`env` gives the datasets (`_ExtractInputForSavedModelImpl`, `beam/impl.py:816-837`), `cache` the
entries of the input cache. -/
def Node.eval (m : Meaning Op Coll) (info : Op → OpInfo) (all : Coll) (env : DatasetKey → Coll)
    (cache : DatasetKey → Bytes → Option Coll) : Node Op → Except Err Coll
  | .op o _ ins i =>
    if (info o).kind = .extractInput then .ok all
    else do
      let cs ← evalList m info all env cache ins
      let outs ← m.run o cs
      pick outs i
  | .extractInput _ k => .ok (env k)
  | .flatten _ ins => do
    let cs ← evalList m info all env cache ins
    .ok (m.flatten cs)
  | .decodeCache o _ k key =>
    match cache k key with
    | some e => m.decode o e
    | none => .error "KeyError"
  | .encodeCache o _ n => do
    let x ← n.eval m info all env cache
    .ok (m.encode o x)

@[inherit_doc Node.eval]
def evalList (m : Meaning Op Coll) (info : Op → OpInfo) (all : Coll) (env : DatasetKey → Coll)
    (cache : DatasetKey → Bytes → Option Coll) : List (Node Op) → Except Err (List Coll)
  | [] => .ok []
  | n :: ns => do
    let x ← n.eval m info all env cache
    let xs ← evalList m info all env cache ns
    .ok (x :: xs)
end

end TFT.Graph.Optimize
