import Mathlib.Data.List.Basic
import Verif.Combine.Py

/-!
# Model of checks in a preprocessing function

A `preprocessing_fn` may contain operations whose results nothing uses, such as
`tf.debugging.assert_*`.  Traced as a `tf.function` (TF2 behaviour) they become control dependencies
of every output, so that they are carried out whenever the function is called.

Operations have one output here, and every component of an output is an output of its own.  The parts
of TensorFlow that the code relies on are modelled as they are documented: which operations an
execution carries out, and automatic control dependencies.
-/

namespace TFT.Checks

/-- What an operation computes: the tensor fed for a column, the placeholder of an analyzer's result,
an `Identity`, or anything else. -/
inductive Kind (Op : Type) where
  | input (key : String)
  | analyzer (name : String)
  | identity
  | compute (o : Op)

/-- An operation of a `tf.Graph`: `ins` and `ctrl` are the positions of the operations in
`op.inputs` and `op.control_inputs`; `mustRun` says whether TensorFlow regards it as an operation with
an effect, as which it regards assertions. -/
structure Oper (Op : Type) where
  kind : Kind Op
  mustRun : Bool
  ins : List Nat
  ctrl : List Nat

/-- The operations of a graph in the order in which they were made. -/
abbrev Graph (Op : Type) := List (Oper Op)

/-- What is fed: the columns of a batch, and what the placeholders of analyzers hold. -/
structure Env (V : Type) where
  batch : String → Except Err V
  results : String → Except Err V

variable {V Op : Type}

/-- One operation, given the values of its inputs. -/
def apply (m : Op → List V → Except Err V) (env : Env V) (k : Kind Op) (vs : List V) : Except Err V :=
  match k with
  | .input key => env.batch key
  | .analyzer name => env.results name
  | .identity => match vs with
    | [v] => .ok v
    | _ => .error "Identity has one input"
  | .compute o => m o vs

/-- TensorFlow's execution of the operation at a position: its control inputs and inputs come first.
It fails if any of them does.  `fuel` bounds the depth. -/
def exec (m : Op → List V → Except Err V) (env : Env V) (g : Graph Op) : Nat → Nat → Except Err V
  | 0, _ => .error "the graph is too deep"
  | fuel + 1, i => match g[i]? with
    | none => .error "no such operation"
    | some o =>
      (seqExcept (o.ctrl.map (exec m env g fuel))).bind fun _ =>
        (seqExcept (o.ins.map (exec m env g fuel))).bind fun vs => apply m env o.kind vs

/-- TensorFlow's execution of a graph for some fetches: exactly what the fetches depend on is carried
out. -/
def run (m : Op → List V → Except Err V) (env : Env V) (g : Graph Op) (fetches : List Nat) :
    Except Err (List V) :=
  seqExcept (fetches.map (exec m env g g.length))

/-- A `tf.function` that has been traced: its graph and its outputs. -/
structure Function (Op : Type) where
  graph : Graph Op
  outputs : List (String × Nat)

/-- The positions of the operations with an effect. -/
def effects (g : Graph Op) : List Nat :=
  (List.range g.length).filter fun i => match g[i]? with
    | some o => o.mustRun
    | none => false

/-- `tf.function` as it is used in impl_helper.py 396–422 (`get_traced_transform_fn`) and
schema_inference.py 786–839 (`metadata_fn`): TensorFlow's automatic control dependencies make every output the
`Identity` of what the Python function returned, with all operations that have an effect as control
inputs. -/
def traced (g : Graph Op) (outs : List (String × Nat)) : Function Op where
  graph := g ++ outs.map fun o => { kind := .identity, mustRun := false, ins := [o.2], ctrl := effects g }
  outputs := (outs.map Prod.fst).zip ((List.range outs.length).map (g.length + ·))

/-- Whether a tensor is the result of an `Identity` with one input (tf2_utils.py 61–64). -/
def isIdentity (g : Graph Op) (i : Nat) : Bool :=
  match g[i]? with
  | some o => (match o.kind with | .identity => true | _ => false) && o.ins.length == 1
  | none => false

/-- tf2_utils.py 43–71 `strip_and_get_tensors_and_control_dependencies`. -/
def strip (g : Graph Op) (outs : List Nat) : List Nat × List Nat :=
  if outs.all (isIdentity g) then
    (outs.map fun i => match g[i]? with
      | some o => o.ins.headD i
      | none => i,
     outs.flatMap fun i => match g[i]? with
      | some o => o.ctrl
      | none => [])
  else (outs, [])

/-- saved/saved_transform_io_v2.py 478–503 `optimize_concrete_function`; `prune` drops what the
fetches do not depend on, which `run` does not carry out anyway. -/
def optimize (f : Function Op) (stripControl : Bool) : Function Op :=
  if stripControl then
    { f with outputs := (f.outputs.map Prod.fst).zip (strip f.graph (f.outputs.map Prod.snd)).1 }
  else f

/-- A call of the function. -/
def Function.call (m : Op → List V → Except Err V) (env : Env V) (f : Function Op) :
    Except Err (List (String × V)) :=
  (run m env f.graph (f.outputs.map Prod.snd)).bind fun vs =>
    .ok ((f.outputs.map Prod.fst).zip vs)

/-- The transform function that is written to disk with TF2 behaviour: impl_helper.py 494–524
(`_trace_and_write_transform_fn`), saved/saved_transform_io_v2.py 582–599 (`write_v2_saved_model`). -/
def written (g : Graph Op) (outs : List (String × Nat)) : Function Op := optimize (traced g outs) false

/-- saved/saved_transform_io_v2.py 332–421: the whole function is called, with values made up for the
columns that are missing, and the requested outputs are picked from its results. -/
def transformV2 (m : Op → List V → Except Err V) (env : Env V) (g : Graph Op)
    (outs : List (String × Nat)) (requested : List String) : Except Err (List (String × V)) :=
  ((written g outs).call m env).bind fun r => .ok (r.filter fun kv => requested.contains kv.1)

/-- The requested outputs with TF1 behaviour: one graph is traced (impl_helper.py 425–443) and only
what is requested is fetched (saved/saved_transform_io.py 297–459). -/
def transformV1 (m : Op → List V → Except Err V) (env : Env V) (g : Graph Op)
    (outs : List (String × Nat)) (requested : List String) : Except Err (List (String × V)) :=
  let some' := outs.filter fun o => requested.contains o.1
  (run m env g (some'.map Prod.snd)).bind fun vs => .ok ((some'.map Prod.fst).zip vs)

/-- What a phase of the analysis outputs for a batch with TF2 behaviour: impl_helper.py 412–420, where
the tensors that analyzers need are returned by the traced function in place of the outputs of the
`preprocessing_fn`. `known` are the results of the analyzers so far; the placeholder of another
analyzer holds a temporary value (analyzer_nodes.py 232–247). -/
def phaseV2 (m : Op → List V → Except Err V) (batch : String → Except Err V)
    (known : String → Option V) (temporary : String → V) (g : Graph Op)
    (tensors : List (String × Nat)) : Except Err (List (String × V)) :=
  (written g tensors).call m
    { batch := batch, results := fun n => .ok ((known n).getD (temporary n)) }

/-- The function that computes the annotations of the schema, schema_inference.py 746–853
(`get_traced_metadata_fn`): `annotations` are the tensors that it returns. -/
def metadataFn (g : Graph Op) (annotations : List (String × Nat)) : Function Op :=
  optimize (traced g annotations) true

/-- The columns that a tensor depends on, over inputs and, unless they are ignored, control inputs
(graph_tools.py 92–130 `retrieve_sources`, 260–262). -/
def columns (g : Graph Op) (ignoreControl : Bool) : Nat → Nat → List String
  | 0, _ => []
  | fuel + 1, i => match g[i]? with
    | none => []
    | some o =>
      (match o.kind with | .input key => [key] | _ => []) ++
        (o.ins ++ if ignoreControl then [] else o.ctrl).flatMap (columns g ignoreControl fuel)

/-- graph_tools.py 858–901 `get_dependent_inputs`. -/
def dependentInputs (g : Graph Op) (keys : List String) (tensors : List Nat) : List String :=
  keys.filter fun k => tensors.any fun t => (columns g false g.length t).contains k

/-- inspect_preprocessing_fn.py 31–84 `get_analyze_input_columns` with TF2 behaviour; `sources` are the
tensors that analyzers read. -/
def analyzeColumns (g : Graph Op) (outs : List (String × Nat)) (keys : List String)
    (sources : List Nat) : List String :=
  let f := traced g outs
  dependentInputs f.graph keys (sources ++ (strip f.graph (f.outputs.map Prod.snd)).2)

/-- The same with TF1 behaviour (inspect_preprocessing_fn.py 65–67). -/
def analyzeColumnsV1 (g : Graph Op) (keys : List String) (sources : List Nat) : List String :=
  dependentInputs g keys sources

/-- inspect_preprocessing_fn.py 87–121 `get_transform_input_columns` with TF2 behaviour. -/
def transformColumns (g : Graph Op) (outs : List (String × Nat)) (keys : List String) : List String :=
  let f := traced g outs
  dependentInputs f.graph keys (f.outputs.map Prod.snd)

/-- saved/saved_transform_io_v2.py 108–124, 224–236 (`_get_output_to_inputs_map`, `_get_fetches`): the
outputs that can be computed from some columns; control dependencies do not count. -/
def computable (g : Graph Op) (outs : List (String × Nat)) (given : List String) : List String :=
  let f := written g outs
  (f.outputs.filter fun o =>
    (columns f.graph true f.graph.length o.2).all fun k => given.contains k).map Prod.fst

end TFT.Checks
