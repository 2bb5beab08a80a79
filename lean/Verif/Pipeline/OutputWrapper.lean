import Verif.Pipeline.Serving

/-!
# Model of `TFTransformOutput.transform_raw_features` and `TransformFeaturesLayer`

The two ways in which a training or serving program applies a saved transform function
(`output_wrapper.py`).  Modelled: which implementation is chosen, the cached layer, the loaded function
that a layer keeps and reloads, and `drop_unused_features`.  Left out: the Keras machinery, variables
and their tracking, `load_transform_graph` (it only adds the graph).  The contents of the directory do not
change meanwhile.
-/

namespace TFT.OutputWrapper

open TFT.Serving

variable {V Op : Type}

/-- A SavedModel: its function, and whether it was exported with TF1 APIs
(`exported_as_v1`, saved/saved_transform_io.py 484–498; `load_v2_in_compat`,
saved/saved_transform_io_v2.py 141). -/
structure Export (Op : Type) where
  function : Function Op
  v1 : Bool

/-- Where a call takes place. `graph`: in a TF1 graph, without eager execution
(`executing_eagerly_outside_functions` is false). `function`: inside a `tf.function`. `eager`: outside. -/
inductive Mode where
  | graph
  | function
  | eager
deriving DecidableEq

/-- The mode, and the identity of `ops.get_default_graph()`. -/
structure Context where
  mode : Mode
  graph : Nat
deriving DecidableEq

/-- What a call returns: outputs with what is obtained when their components are computed. With eager
execution everything is computed in the call; in a graph every output can be computed alone, or not. -/
abbrev Returned (V : Type) := Except Err (List (String × Except Err (List V)))

/-- All outputs were computed in the call. -/
def computed (r : Except Err (List (String × List V))) : Returned V :=
  r.bind fun out => .ok (out.map fun e => (e.1, .ok e.2))

/-- `_transform_raw_features_compat_v1`, output_wrapper.py 352–376, with
`_partially_apply_saved_transform_impl`, saved/saved_transform_io.py 191–409: the graph is imported with the
given tensors in place of its inputs. `ready_to_run` (C32) is false for what depends on an input that
was not given. Graphs cannot be imported with eager execution (TensorFlow). -/
def compatV1 (m : Meaning V Op) (f : Function Op) (ctx : Context) (drop : Bool)
    (given : List (String × List V)) : Returned V :=
  if ctx.mode = .eager then .error "RuntimeError: importing meta graphs with eager execution"
  else if f.unexpected given then .error "ValueError: unexpected inputs"
  else
    let inputMap := f.expand given
    if inputMap.any fun c => !m.compatible c.1.1 c.1.2 c.2 then .error "ValueError: shape"
    else
      let unbound := f.unfed (given.map Prod.fst)
      let outputs := if drop then
          f.outputs.filter fun o => (Tensor.sourcesOf o.2).all fun c => !unbound.contains c.1
        else f.outputs
      .ok (outputs.map fun o => (o.1, Tensor.evals m (fun c => inputMap.lookup c) o.2))

/-- `TransformFeaturesLayer`: `_saved_model_loader_value`, by the context it was made in, and
`_loaded_saved_model_graph` (output_wrapper.py 488–489). -/
structure Layer where
  loader : Option Context
  loadedGraph : Option Nat
deriving DecidableEq

/-- `_saved_model_loader`, output_wrapper.py 508–538. -/
def Layer.getLoader (e : Export Op) (ctx : Context) (l : Layer) : Except Err (Layer × Context) :=
  let l' := match l.loader with
    | none => ⟨some ctx, some ctx.graph⟩
    | some _ => l
  if ctx.mode ≠ .graph then .ok (l', l'.loader.getD ctx)
  else if e.v1 then .error "AssertionError"
  else if l'.loadedGraph ≠ some ctx.graph then .ok (⟨some ctx, some ctx.graph⟩, ctx)
  else .ok (l', l'.loader.getD ctx)

/-- `TransformFeaturesLayer.__init__`, output_wrapper.py 477–506: with TF2 behaviour the function is
loaded. -/
def Layer.make (e : Export Op) (ctx : Context) : Except Err Layer :=
  if ctx.mode = .graph then .ok ⟨none, none⟩
  else (Layer.getLoader e ctx ⟨none, none⟩).bind fun r => .ok r.1

/-- Whether a function that was loaded in one context can be called in another (TensorFlow): in a graph
only if it was loaded into this graph, and elsewhere only if it was not loaded into a graph. -/
def usable (made now : Context) : Bool :=
  if now.mode = .graph then decide (made.mode = .graph ∧ made.graph = now.graph)
  else decide (made.mode ≠ .graph)

/-- `apply_transform_model` of a function that is not finalized, saved/saved_transform_io_v2.py 385–414. -/
def applyLoaded (m : Meaning V Op) (e : Export Op) (made now : Context)
    (given : List (String × List V)) : Returned V :=
  if usable made now then
    computed (if e.v1 then applyV1InV2 m e.function given else applyV2 m e.function given)
  else .error "ValueError: tensor from a different graph"

/-- `TransformFeaturesLayer.call`, output_wrapper.py 547–556: the layer afterwards, and what is returned. -/
def Layer.call (m : Meaning V Op) (e : Export Op) (ctx : Context) (l : Layer)
    (given : List (String × List V)) : Layer × Returned V :=
  if e.v1 ∧ ctx.mode = .graph then (l, compatV1 m e.function ctx true given)
  else match l.getLoader e ctx with
    | .error err => (l, .error err)
    | .ok (l', made) => (l', applyLoaded m e made ctx given)

/-- `TFTransformOutput`: the layer that it made, if any (output_wrapper.py 77–82). -/
structure Output where
  layer : Option Layer
deriving DecidableEq

/-- `transform_features_layer`, output_wrapper.py 283–297. -/
def Output.getLayer (e : Export Op) (ctx : Context) (o : Output) : Except Err (Output × Layer) :=
  match o.layer with
  | some l => .ok (o, l)
  | none => (Layer.make e ctx).bind fun l => .ok (⟨some l⟩, l)

/-- A call of the layer that `transform_features_layer` returns. -/
def Output.callLayer (m : Meaning V Op) (e : Export Op) (ctx : Context) (o : Output)
    (given : List (String × List V)) : Output × Returned V :=
  match o.getLayer e ctx with
  | .error err => (o, .error err)
  | .ok (_, l) =>
    let r := l.call m e ctx given
    (⟨some r.1⟩, r.2)

/-- `transform_raw_features`, output_wrapper.py 299–350. -/
def Output.transformRaw (m : Meaning V Op) (e : Export Op) (ctx : Context) (o : Output) (drop : Bool)
    (given : List (String × List V)) : Output × Returned V :=
  if e.v1 then (o, compatV1 m e.function ctx drop given)
  else o.callLayer m e ctx given

/-- A call by the user. -/
inductive Call where
  | layer
  | raw (drop : Bool)
deriving DecidableEq

/-- One call. -/
def Output.step (m : Meaning V Op) (e : Export Op) (o : Output)
    (c : Call × Context × List (String × List V)) : Output × Returned V :=
  match c.1 with
  | .layer => o.callLayer m e c.2.1 c.2.2
  | .raw drop => o.transformRaw m e c.2.1 drop c.2.2

/-- The state of a `TFTransformOutput` after calls. -/
def Output.after (m : Meaning V Op) (e : Export Op)
    (calls : List (Call × Context × List (String × List V))) : Output :=
  calls.foldl (fun o c => (o.step m e c).1) ⟨none⟩

end TFT.OutputWrapper
