import Mathlib.Data.List.Basic
import Verif.Combine.Py

/-!
# Model of the application of a transform function to some of its inputs

`TFTransformOutput.transform_raw_features`, `TransformFeaturesLayer` and `TransformDataset` apply a
saved transform function to batches that may lack some of its inputs, e.g. the label when serving.
The outputs that need a missing input are left out.  With TF2 behaviour the whole function is called
with made-up values for the missing inputs (saved/saved_transform_io_v2.py 127–475, tf2_utils.py
74–207); with TF1 behaviour the outputs are pruned from the graph.

A tensor of the function is a tree; sources are found by `retrieve_sources`, whose worklist is
modelled in C33.  Inputs may have several component tensors (sparse and ragged tensors).  What is
left out: the conversion of Python values to tensors, the restoring of shapes, and side effects of
operations.
-/

namespace TFT.Serving

/-- A tensor of the function: a component of an input, a captured tensor (tables, constants), or
the result of an operation. -/
inductive Tensor (Op : Type) where
  | feed (key : String) (component : Nat)
  | capture (n : Nat)
  | op (o : Op) (ins : List (Tensor Op))

/-- The function of a SavedModel: `structured_inputs`, as keys (in the order in which `tf.nest`
flattens them) with their numbers of components, and `structured_outputs` with the components of
every output (saved/saved_transform_io_v2.py 130–199). -/
structure Function (Op : Type) where
  inputs : List (String × Nat)
  outputs : List (String × List (Tensor Op))

/-- What operations compute, what captured tensors hold, whether a value has a shape that is
compatible with that of a component of an input, and the values made up for the components of a
missing input, given the size of the batch (`supply_missing_inputs`, see below). -/
structure Meaning (V Op : Type) where
  op : Op → List V → Except Err V
  captured : Nat → V
  compatible : String → Nat → V → Bool
  madeUp : Nat → String → Nat → V
  batchSize : List V → Nat

variable {V Op : Type}

mutual
/-- The value of a tensor when the components of inputs have the values `env`. -/
def Tensor.eval (m : Meaning V Op) (env : String × Nat → Option V) : Tensor Op → Except Err V
  | .feed key i => match env (key, i) with
    | some v => .ok v
    | none => .error "InvalidArgumentError: placeholder without a value"
  | .capture n => .ok (m.captured n)
  | .op o ins => (Tensor.evals m env ins).bind (m.op o)
def Tensor.evals (m : Meaning V Op) (env : String × Nat → Option V) :
    List (Tensor Op) → Except Err (List V)
  | [] => .ok []
  | t :: ts => (Tensor.eval m env t).bind fun v =>
      (Tensor.evals m env ts).bind fun vs => .ok (v :: vs)
end

mutual
/-- graph_tools.py 94–130 `retrieve_sources`, without the captured tensors, which `_get_fetches`
takes away (saved/saved_transform_io_v2.py 230). -/
def Tensor.sources : Tensor Op → List (String × Nat)
  | .feed key i => [(key, i)]
  | .capture _ => []
  | .op _ ins => Tensor.sourcesOf ins
def Tensor.sourcesOf : List (Tensor Op) → List (String × Nat)
  | [] => []
  | t :: ts => t.sources ++ Tensor.sourcesOf ts
end

/-- The graph inputs, in the order of `func_graph.inputs`, without captures. -/
def Function.graphInputs (f : Function Op) : List (String × Nat) :=
  f.inputs.flatMap fun s => (List.range s.2).map fun i : Nat => (s.1, i)

/-- saved/saved_transform_io_v2.py 218–219 `_get_unfed_input_keys`. -/
def Function.unfed (f : Function Op) (keys : List String) : List String :=
  (f.inputs.map Prod.fst).filter fun k => !keys.contains k

/-- saved/saved_transform_io_v2.py 208–216 `_get_feeds`. -/
def Function.feeds (f : Function Op) (unfed : List String) : List (String × Nat) :=
  f.graphInputs.filter fun c => !unfed.contains c.1

/-- saved/saved_transform_io_v2.py 221–232 `_get_fetches`. -/
def Function.fetches (f : Function Op) (feeds : List (String × Nat)) :
    List (String × List (Tensor Op)) :=
  f.outputs.filter fun o => (Tensor.sourcesOf o.2).all fun c => feeds.contains c

/-- Outputs of the function, evaluated. -/
def evalOutputs (m : Meaning V Op) (env : String × Nat → Option V)
    (outputs : List (String × List (Tensor Op))) : Except Err (List (String × List V)) :=
  seqExcept (outputs.map fun o => (Tensor.evals m env o.2).bind fun vs => .ok (o.1, vs))

/-- The call of the function with a flat list of arguments (TensorFlow). -/
def Function.bindArgs (f : Function Op) (args : List V) :
    Except Err (String × Nat → Option V) :=
  if args.length ≠ f.graphInputs.length then .error "TypeError: number of arguments"
  else .ok fun c => (f.graphInputs.zip args).lookup c

/-- tf2_utils.py 107–207 `supply_missing_inputs`, one input: what is given, or made-up components. -/
def supply (m : Meaning V Op) (batchSize : Nat) (given : List (String × List V))
    (s : String × Nat) : List V :=
  match given.lookup s.1 with
  | some vs => vs
  | none => (List.range s.2).map fun i : Nat => m.madeUp batchSize s.1 i

/-- `tf.nest.flatten` of the dictionary of inputs after the missing ones were made up: the
components of all inputs in the order of the keys (saved/saved_transform_io_v2.py 364–373). -/
def Function.flatten (f : Function Op) (m : Meaning V Op) (batchSize : Nat)
    (given : List (String × List V)) : List V :=
  f.inputs.flatMap (supply m batchSize given)

/-- saved/saved_transform_io_v2.py 356–363: the batch size that made-up inputs get. -/
def batchSizeOf (m : Meaning V Op) : List (String × List V) → Nat
  | [] => 1
  | g :: _ => m.batchSize g.2

/-- saved/saved_transform_io_v2.py 401–407, the check of `apply_transform_model`. -/
def Function.unexpected (f : Function Op) (given : List (String × List V)) : Bool :=
  given.any fun g => !(f.inputs.map Prod.fst).contains g.1

/-- saved/saved_transform_io_v2.py 332–383 `_apply_v2_transform_model`: the function is called as a
whole, so that all its outputs are computed, and those that need a missing input are dropped. -/
def applyV2 (m : Meaning V Op) (f : Function Op) (given : List (String × List V)) :
    Except Err (List (String × List V)) :=
  if f.unexpected given then .error "ValueError: unexpected inputs"
  else
    let args := f.flatten m (batchSizeOf m given) given
    if (f.graphInputs.zip args).any fun c => !m.compatible c.1.1 c.1.2 c.2 then
      .error "ValueError: shape"
    else
      (f.bindArgs args).bind fun env =>
        (evalOutputs m env f.outputs).bind fun features =>
          .ok (features.filter fun o =>
            ((f.fetches (f.feeds (f.unfed (given.map Prod.fst)))).map Prod.fst).contains o.1)

/-- What `finalize` keeps: the inputs that will be missing and the outputs to compute. -/
structure Finalized where
  unfed : List String
  outputs : List String

/-- saved/saved_transform_io_v2.py 443–472 `finalize`. (Keys are sorted there; here they keep the
order of the function's inputs and of the argument.) -/
def Function.finalize (f : Function Op) (inputKeys outputKeys : List String) :
    Except Err Finalized :=
  if outputKeys.any fun k => !((f.fetches (f.feeds (f.unfed inputKeys))).map Prod.fst).contains k then
    .error "ValueError: unexpected output keys requested"
  else .ok ⟨f.unfed inputKeys, outputKeys⟩

/-- The values of the requested keys (saved/saved_transform_io_v2.py 438 for outputs, beam/impl.py
366–373 for inputs). -/
def pick (features : List (String × List V)) (keys : List String) :
    Except Err (List (String × List V)) :=
  seqExcept (keys.map fun k => match features.lookup k with
    | some vs => .ok (k, vs)
    | none => .error "KeyError")

/-- saved/saved_transform_io_v2.py 304–330, 416–440, `_apply_v2_transform_model_finalized`: missing
inputs have the batch size 1.  The outputs that are not requested are pruned by TensorFlow unless it
calls the function as a whole (`strict`). -/
def applyFinalized (strict : Bool) (m : Meaning V Op) (f : Function Op) (fin : Finalized)
    (given : List (String × List V)) : Except Err (List (String × List V)) :=
  if f.unexpected given then .error "ValueError: unexpected inputs"
  else if f.unfed (given.map Prod.fst) ≠ fin.unfed then .error "AssertionError"
  else
    let args := f.flatten m 1 given
    if (f.graphInputs.zip args).any fun c =>
        !fin.unfed.contains c.1.1 && !m.compatible c.1.1 c.1.2 c.2 then
      .error "ValueError: shape"
    else
      (f.bindArgs args).bind fun env =>
        (evalOutputs m env (if strict then f.outputs else
          f.outputs.filter fun o => fin.outputs.contains o.1)).bind fun features =>
          pick features fin.outputs

/-- The components that are fed by name when a TF1 SavedModel is used
(saved/saved_transform_io.py 126–168 `_expand_input_map`). -/
def Function.expand (f : Function Op) (given : List (String × List V)) : List ((String × Nat) × V) :=
  given.flatMap fun g => (f.graphInputs.filter fun c => c.1 == g.1).zip g.2

/-- saved/saved_transform_io_v2.py 248–292 `_apply_v1_transform_model_in_v2`: only the outputs that
can be computed are computed, from the given inputs only. -/
def applyV1InV2 (m : Meaning V Op) (f : Function Op) (given : List (String × List V)) :
    Except Err (List (String × List V)) :=
  if f.unexpected given then .error "ValueError: unexpected inputs"
  else
    let inputMap := f.expand given
    if inputMap.any fun c => !m.compatible c.1.1 c.1.2 c.2 then .error "ValueError: shape"
    else evalOutputs m (fun c => inputMap.lookup c) (f.fetches (inputMap.map Prod.fst))

/-- beam/impl.py 194–239 and 364–378: the TF1 graph state of `TransformDataset`, and its batches;
`names` are the inputs that the data has. -/
def transformV1 (m : Meaning V Op) (f : Function Op) (names exclude : List String)
    (batch : List (String × List V)) : Except Err (List (String × List V)) :=
  if names.any fun n => !(f.inputs.map Prod.fst).contains n then
    .error "ValueError: input tensor names contained tensors not in graph"
  else if exclude.any fun n => !(f.outputs.map Prod.fst).contains n then
    .error "ValueError: excluded outputs contained keys not in graph"
  else
    let fetches := f.outputs.filter fun o => !exclude.contains o.1
    let needed := (f.inputs.map Prod.fst).filter fun k =>
      fetches.any fun o => (Tensor.sourcesOf o.2).any fun c => c.1 == k
    (pick batch needed).bind fun feed =>
      evalOutputs m (fun c => (f.expand feed).lookup c) fetches

/-- beam/impl.py 242–258 and 379–381: the TF2 graph state of `TransformDataset`, and its batches. -/
def transformV2 (strict : Bool) (m : Meaning V Op) (f : Function Op) (names exclude : List String)
    (batch : List (String × List V)) : Except Err (List (String × List V)) :=
  (f.finalize names ((f.outputs.map Prod.fst).filter fun k => !exclude.contains k)).bind fun fin =>
    applyFinalized strict m f fin batch

/-! ## Made-up inputs -/

/-- A dense tensor: its shape; all its elements are zero (or empty strings). -/
abbrev Shape := List Nat

/-- tf2_utils.py 74–104 `supply_missing_tensor`: the shape of the zero tensor. `none` is an unknown
rank, `none` in the list an unknown dimension; `or` takes the batch size for a dimension 0. -/
def missingShape (batchSize : Nat) : Option (List (Option Nat)) → Shape
  | none => []
  | some [] => []
  | some (d :: ds) =>
    (match d with
      | some 0 => batchSize
      | some (n + 1) => n + 1
      | none => batchSize) :: ds.map fun d => d.getD 1

/-- A sparse tensor of zeros: indices, number of values, dense shape. -/
structure SparseZeros where
  indices : List (List Nat)
  values : Nat
  denseShape : List Nat

/-- tf2_utils.py 147–176, the made-up sparse tensor; `n` is the number of values, which is the
first dimension of `supply_missing_tensor`. -/
def missingSparse (n denseRank : Nat) : SparseZeros :=
  { indices := (List.range n).map fun i : Nat => i :: List.replicate (denseRank - 1) 0
    values := n
    denseShape := n :: List.replicate (denseRank - 1) 1 }

/-- A ragged tensor of zeros: row splits, the outermost first, and the shape of the flat values. -/
structure RaggedZeros where
  rowSplits : List (List Nat)
  flat : Shape

/-- tf2_utils.py 177–201: one level of row splits after the other, the innermost first; `rows` is
the number of rows of what has been built so far (`bounding_shape(axis=0)` or the first
dimension). -/
def missingSplits : Nat → Nat → List (List Nat) → List (List Nat)
  | 0, _, acc => acc
  | k + 1, rows, acc =>
    let splits := List.range (rows + 1)
    missingSplits k (splits.length - 1) (splits :: acc)

/-- The made-up ragged tensor of a ragged rank. -/
def missingRagged (batchSize raggedRank : Nat) (flat : List (Option Nat)) : RaggedZeros :=
  let shape := missingShape batchSize (some flat)
  { rowSplits := missingSplits raggedRank (shape.headD 0) [], flat := shape }

end TFT.Serving
