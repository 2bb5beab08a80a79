import Verif.Pipeline.Construct
import Verif.Cache.Coders

/-!
# Analyzers that users write

Model of `tft.experimental.ptransform_analyzer` (`experimental/analyzers.py`): the operations it adds to the
graph of analyzers, what they compute, and how their outputs become tensors (`analyzer_nodes.py:139-339`).
-/

namespace TFT.CustomAnalyzer

open TFT TFT.Construct
open TFT.Coders (Bytes)

/-- `TemporaryAssetInfo` (analyzer_nodes.py:65-67). -/
structure AssetInfo where
  value : Option Bytes
  fileFormat : String
deriving DecidableEq

/-- `TensorInfo` (analyzer_nodes.py:70-99). The types of the fields, which `__new__` checks, are in the types
here. `S` are shapes, `D` dtypes. -/
structure TensorInfo (D S : Type) where
  dtype : D
  shape : S
  asset : Option AssetInfo
deriving DecidableEq

/-- The operation `PTransform` (analyzer_nodes.py:1113-1160), without its label. -/
structure StageDef (P K D S : Type) where
  ptransform : P
  infos : List (TensorInfo D S)
  isPartitionable : Bool
  cacheCoder : Option K

/-- The value nodes of the graph of analyzers: the output of `TensorSource` (analyzer_nodes.py:102-132), and
output `index` of a `PTransform`. -/
inductive Node (T P K D S : Type) where
  | source (tensors : List T)
  | output (d : StageDef P K D S) (ins : List (Node T P K D S)) (index : Nat)

variable {T P K D S : Type}

/-- `nodes.apply_multi_output_operation(analyzer_nodes.PTransform, *ins, …)` (nodes.py:184-193), with
`OperationNode.outputs` (nodes.py:155-161) and `AnalyzerDef.num_outputs` (analyzer_nodes.py:493-496). -/
def applyStage (d : StageDef P K D S) (ins : List (Node T P K D S)) : List (Node T P K D S) :=
  (List.range d.infos.length).map (fun i : Nat => Node.output d ins i)

/-- `CacheablePTransformAnalyzer` (experimental/analyzers.py:72-110). -/
structure Cacheable (P K : Type) where
  make : P
  merge : P
  extract : P
  coder : K

/-- The argument `ptransform`. -/
inductive Analyzer (P K : Type) where
  | plain (p : P)
  | cacheable (c : Cacheable P K)

/-- `get_input_tensors_value_nodes` (analyzer_nodes.py:135-136), with `TensorSource.__new__`
(analyzer_nodes.py:122-132), whose `TypeError` becomes a `RuntimeError` (nodes.py:188-193). -/
def inputNode (isTensor : T → Bool) (inputs : List T) : Except Err (Node T P K D S) :=
  if inputs.all isTensor then .ok (.source inputs)
  else .error "RuntimeError: Failed to apply Operation TensorSource"

/-- `wrap_as_tensor` (analyzer_nodes.py:331-339) up to the call of `bind_future_as_tensor`: the future and its
`TensorInfo`. -/
def infoOf : Node T P K D S → Except Err (TensorInfo D S)
  | .source _ => .error "AssertionError"
  | .output d _ i =>
    match d.infos[i]? with
    | some info => .ok info
    | none => .error "IndexError"

/-- What `_apply_analyzer` gives for one output: the future and the description of its tensor. -/
abbrev Future (T P K D S : Type) := Node T P K D S × TensorInfo D S

/-- `wrap_as_tensor` for one output. -/
def wrap (n : Node T P K D S) : Except Err (Future T P K D S) := do
  let info ← infoOf n
  .ok (n, info)

/-- The outputs of the last operation of `_apply_analyzer` (experimental/analyzers.py:133-175). -/
def outputNodes (a : Analyzer P K) (input : Node T P K D S) (infos : List (TensorInfo D S)) :
    List (Node T P K D S) :=
  match a with
  | .cacheable c =>
    let made := applyStage ⟨c.make, infos, true, none⟩ [input]
    let cached := applyStage ⟨c.merge, infos, true, some c.coder⟩ made
    let merged := applyStage ⟨c.merge, infos, false, none⟩ cached
    applyStage ⟨c.extract, infos, false, none⟩ merged
  | .plain p => applyStage ⟨p, infos, false, none⟩ [input]

/-- `_apply_analyzer` (experimental/analyzers.py:113-176). -/
def applyAnalyzer (isTensor : T → Bool) (a : Analyzer P K) (inputs : List T) (infos : List (TensorInfo D S)) :
    Except Err (List (Future T P K D S)) := do
  let input ← inputNode isTensor inputs
  (outputNodes a input infos).mapM wrap

/-- The descriptions of the assets (experimental/analyzers.py:279-290). -/
def assetInfos (n : Nat) (defaults : Option (List (Option Bytes))) : Except Err (List (Option AssetInfo)) :=
  match defaults with
  | some ds =>
    if ds.length ≠ n then
      .error "ValueError: output_dtypes and output_asset_default_values had different lengths"
    else .ok (ds.map (fun value => some ⟨value, "text"⟩))
  | none => .ok (List.replicate n none)

/-- `ptransform_analyzer` (experimental/analyzers.py:180-300). The name scope is not modelled. -/
def ptransformAnalyzer (isTensor : T → Bool) (inputs : List T) (a : Analyzer P K) (dtypes : List D)
    (shapes : List S) (defaults : Option (List (Option Bytes))) : Except Err (List (Future T P K D S)) :=
  if dtypes.length ≠ shapes.length then
    .error "ValueError: output_dtypes and output_shapes had different lengths"
  else do
    let assets ← assetInfos dtypes.length defaults
    applyAnalyzer isTensor a inputs
      (((dtypes.zip shapes).zip assets).map (fun x => ⟨x.1.1, x.1.2, x.2⟩))

/-! ### What the operations compute -/

/-- What is outside: the `PCollection` of the tuples of the values of the tensors, batch by batch, and what a
`beam.PTransform` gives for a `PCollection`. -/
structure World (T P C : Type) where
  values : List T → C
  apply : P → C → Except Err (Result C)

/-- `_validate_operation_def` (beam/analysis_graph_builder.py:183-195), which every operation has to pass, with
and without a cache. -/
def validateStage (d : StageDef P K D S) : Except Err Unit :=
  if d.cacheCoder.isSome && !d.isPartitionable then
    .error "ValueError: Non partitionable OperationDefs cannot be cacheable"
  else if (d.isPartitionable || d.cacheCoder.isSome) && d.infos.length != 1 then
    .error "ValueError: Cacheable OperationDefs must have exactly 1 output"
  else .ok ()

/-- One operation in the pipeline: `_PTransformImpl.expand` (beam/analyzer_impls.py:1457-1459), which unpacks
exactly one input, in `ConstructBeamPipelineVisitor.visit` (beam/common.py:183-215), and the check of the number
of outputs (nodes.py:298-315; for results that have a length). -/
def runStage {C : Type} (w : World T P C) (d : StageDef P K D S) (ins : List C) : Except Err (List C) := do
  validateStage d
  match ins with
  | [c] =>
    match w.apply d.ptransform c with
    | .error _ => .error "RuntimeError: Failed to apply"
    | .ok .other => .error "ValueError: expected visitor to return a tuple"
    | .ok (.single x) =>
      if d.infos.length ≠ 1 then .error "ValueError: Operation has a different number of outputs" else .ok [x]
    | .ok (.tuple xs) =>
      if xs.length ≠ d.infos.length then .error "ValueError: Operation has a different number of outputs"
      else .ok xs
  | _ => .error "RuntimeError: Failed to apply"

mutual
/-- The `PCollection` of a value node, without the optimizations of the graph (`Graph/Optimize`). -/
def Node.eval {C : Type} (w : World T P C) : Node T P K D S → Except Err C
  | .source tensors => .ok (w.values tensors)
  | .output d ins i => do
    let xs ← evalAll w ins
    let outs ← runStage w d xs
    match outs[i]? with
    | some x => .ok x
    | none => .error "IndexError"

/-- The `PCollection`s of the inputs of an operation. -/
def evalAll {C : Type} (w : World T P C) : List (Node T P K D S) → Except Err (List C)
  | [] => .ok []
  | n :: ns => do
    let x ← n.eval w
    let xs ← evalAll w ns
    .ok (x :: xs)
end

/-! ### How the outputs become tensors -/

/-- `TensorSink` (analyzer_nodes.py:139-141); the tensor is given by its name. -/
structure Sink (F : Type) where
  tensor : String
  future : F
  isAsset : Bool

/-- A tensor or asset that the user's code gets: a placeholder, a placeholder with a default value, a constant
with the path of a temporary asset file, or the result of an earlier phase. -/
inductive Handle (V : Type) where
  | placeholder (name : String)
  | withDefault (name : String)
  | assetPath (name path : String)
  | evaluated (v : V)
deriving DecidableEq

/-- What `ASSET_FILEPATHS` has: the path of a temporary file, or a result of an earlier phase. -/
inductive AssetPath (V : Type) where
  | temporary (path : String)
  | evaluated (v : V)
deriving DecidableEq

/-- What tracing leaves: the collections `ALL_REPLACEMENTS`, `TENSOR_REPLACEMENTS`, `ASSET_FILEPATHS` and
`_ASSET_REPLACEMENTS`, and the temporary files. -/
structure Traced (F V : Type) where
  all : List (Sink F) := []
  pending : List (Sink F) := []
  assets : List (AssetPath V) := []
  assetTensors : List (String × String) := []
  files : List (String × Bytes) := []

/-- `_write_to_temporary_asset_file` (analyzer_nodes.py:161-182); `base` is the random file name. A record is
written as the only record of its file; the files are given by their contents. Writing `None` raises. -/
def writeTemporary (dir base : String) (info : AssetInfo) : Except Err (String × Bytes) :=
  if info.fileFormat = "text" then
    match info.value with
    | some v => .ok (dir ++ "/" ++ base, v)
    | none => .error "TypeError: Expected binary or unicode string, got None"
  else if info.fileFormat = "tfrecord_gzip" then
    match info.value with
    | some v => .ok (dir ++ "/" ++ base ++ ".tfrecord.gz", v)
    | none => .error "TypeError: a bytes-like object is required"
  else .error "ValueError: File format should be one of 'text' or 'tfrecord_gzip'."

/-- `_get_temporary_analyzer_output` (analyzer_nodes.py:185-245): the graph tensor, and the temporary file if one
is written. `name` is the name that the graph gives to the tensor. -/
def temporaryOutput {V : Type} (tempDir : Option String) (base name : String) (info : TensorInfo D S) :
    Except Err (Handle V × Option (String × Bytes)) :=
  match info.asset with
  | some a =>
    match tempDir with
    | some dir => do
      let file ← writeTemporary dir base a
      .ok (.assetPath name file.1, some file)
    | none => .ok (.placeholder name, none)
  | none => .ok (.withDefault name, none)

/-- What one call of `bind_future_as_tensor` in TensorFlow 2 depends on beside the future: the name of the graph
tensor and the random name of a temporary file. -/
structure Names where
  tensor : String
  file : String

/-- `_bind_future_as_tensor_v2` (analyzer_nodes.py:251-316). `evaluated` is
`TFGraphContext.get_evaluated_replacements()`. -/
def bindV2 {F V : Type} (tempDir : Option String) (evaluated : Option (String → Option V)) (names : Names)
    (info : TensorInfo D S) (future : F) (st : Traced F V) : Except Err (Handle V × Traced F V) := do
  let (handle, file) ← temporaryOutput tempDir names.file names.tensor info
  let isAsset := info.asset.isSome
  let sink : Sink F := ⟨names.tensor, future, isAsset⟩
  let st : Traced F V := { st with all := st.all ++ [sink], files := st.files ++ file.toList }
  match evaluated.bind (fun e => e names.tensor) with
  | some v =>
    if isAsset then .ok (.evaluated v, { st with assets := st.assets ++ [.evaluated v] })
    else .ok (.evaluated v, st)
  | none =>
    let st : Traced F V := { st with pending := st.pending ++ [sink] }
    match file with
    | some (path, _) =>
      .ok (handle, { st with
        assets := st.assets ++ [.temporary path], assetTensors := st.assetTensors ++ [(names.tensor, path)] })
    | none => .ok (handle, st)

/-- `_bind_future_as_tensor_v1` (analyzer_nodes.py:144-153). -/
def bindV1 {F V : Type} (names : Names) (info : TensorInfo D S) (future : F) (st : Traced F V) :
    Handle V × Traced F V :=
  (.placeholder names.tensor,
    { st with pending := st.pending ++ [⟨names.tensor, future, info.asset.isSome⟩] })

/-- The outputs of an analyzer, one after the other (`tuple(map(wrap_as_tensor, …))`,
experimental/analyzers.py:176), in TensorFlow 2. -/
def bindAll {F V : Type} (tempDir : Option String) (evaluated : Option (String → Option V)) :
    List (Names × TensorInfo D S × F) → Traced F V → Except Err (List (Handle V) × Traced F V)
  | [], st => .ok ([], st)
  | (names, info, future) :: rest, st => do
    let (h, st) ← bindV2 tempDir evaluated names info future st
    let (hs, st) ← bindAll tempDir evaluated rest st
    .ok (h :: hs, st)

/-- The same in TensorFlow 1. -/
def bindAllV1 {F V : Type} : List (Names × TensorInfo D S × F) → Traced F V → List (Handle V) × Traced F V
  | [], st => ([], st)
  | (names, info, future) :: rest, st =>
    let (h, st) := bindV1 names info future st
    let (hs, st) := bindAllV1 rest st
    (h :: hs, st)

end TFT.CustomAnalyzer
