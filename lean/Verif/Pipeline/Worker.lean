import Mathlib.Data.List.Sort
import Mathlib.Data.String.Basic
import Verif.Pipeline.Serving

/-!
# Model of a worker that applies saved transform functions

The steps that apply a transform function to data (`_ApplySavedModelImpl`, `TransformDataset`) run
as `_RunMetaGraphDoFn` (`beam/impl.py:167-449`).  A worker process has any number of instances of
these DoFns, on several threads.  The instances of one step share the loaded function through
`apache_beam.utils.shared.Shared`, a process-wide table of weak references that keeps the object
alive that was acquired last.

Modelled: making the graph state, `setup`, `process`, the table of shared objects, and
`_clear_shared_state_after_barrier`.  One step of the transition system is what happens under one
lock.  Making an object is one step because the lock of its table entry is held meanwhile, and other
entries are not touched.  Left out: metrics, the texts of errors, and `tf_config`.  The contents of the
directories of SavedModels do not change while the worker runs.
-/

namespace TFT.Worker

open TFT.Serving

variable {V Op C : Type}

/-- What a step is made with, `beam/impl.py:267-305`, `864-877`, `1720-1733`: the TF1 or TF2
behaviour, the names of the tensors that the data has (`_get_input_tensor_names`, 322–323), the
columns of the data (`arrow_schema`), `exclude_outputs`, the sorted `passthrough_keys`, and the key of
`shared.Shared()`. (The check that no passthrough key is an input is `Batch.checkPassthrough`, C44.) -/
structure Step where
  compatV1 : Bool
  names : List String
  columns : List String
  exclude : List String
  passthrough : List String
  handle : Nat
deriving DecidableEq

/-- A record batch: named columns. -/
abbrev Record (C : Type) := List (String × C)

/-- The surroundings: the SavedModels on disk, what operations compute, the conversion of the
columns of a batch to the components of tensors (`TensorAdapter.ToBatchTensors` of `tfx_bsl`),
whether a column has the type `list` or `large_list`, and whether TensorFlow calls functions as a
whole (`strict`, see `Serving.applyFinalized`). -/
structure Env (V Op C : Type) where
  disk : String → Option (Function Op)
  meaning : Meaning V Op
  adapt : List String → Record C → Except Err (List (String × List V))
  isList : C → Bool
  strict : Bool

/-- `callable_get_outputs`: with TF1 behaviour a function of a list of tensors, with TF2 behaviour
a function of a dict. -/
inductive Callable (V : Type) where
  | v1 (call : List (List V) → Except Err (List (List V)))
  | v2 (call : List (String × List V) → Except Err (List (String × List V)))

/-- `_GraphStateCommon`, `beam/impl.py:178-191`. -/
structure GraphState (V : Type) where
  savedModelDir : String
  inputKeys : List String
  outputKeys : List String
  call : Callable V

/-- `_GraphStateCompatV1`, `beam/impl.py:194-239`. -/
def makeV1 (m : Meaning V Op) (f : Function Op) (dir : String) (names exclude : List String) :
    Except Err (GraphState V) :=
  if names.any fun n => !(f.inputs.map Prod.fst).contains n then
    .error "ValueError: input tensor names contained tensors not in graph"
  else if exclude.any fun n => !(f.outputs.map Prod.fst).contains n then
    .error "ValueError: excluded outputs contained keys not in graph"
  else
    let outputKeys := ((f.outputs.map Prod.fst).filter fun k => !exclude.contains k).insertionSort
      (· ≤ ·)
    let fetches := outputKeys.filterMap fun k => (f.outputs.lookup k).map fun ts => (k, ts)
    let inputKeys := ((f.inputs.map Prod.fst).filter fun k =>
      fetches.any fun o => (Tensor.sourcesOf o.2).any fun c => c.1 == k).insertionSort (· ≤ ·)
    .ok ⟨dir, inputKeys, outputKeys, .v1 fun args =>
      (evalOutputs m (fun c => (f.expand (inputKeys.zip args)).lookup c) fetches).bind fun out =>
        .ok (out.map Prod.snd)⟩

/-- `_GraphStateV2`, `beam/impl.py:242-258`. -/
def makeV2 (strict : Bool) (m : Meaning V Op) (f : Function Op) (dir : String)
    (names exclude : List String) : Except Err (GraphState V) := do
  let outputKeys := (f.outputs.map Prod.fst).filter fun k => !exclude.contains k
  let fin ← f.finalize names outputKeys
  .ok ⟨dir, names, outputKeys, .v2 (applyFinalized strict m f fin)⟩

/-- `_make_graph_state`, `beam/impl.py:395-411`. -/
def makeGraphState (env : Env V Op C) (s : Step) (dir : String) : Except Err (GraphState V) :=
  match env.disk dir with
  | none => .error "OSError: SavedModel file does not exist"
  | some f =>
    if s.compatV1 then makeV1 env.meaning f dir s.names s.exclude
    else makeV2 env.strict env.meaning f dir s.names s.exclude

/-- `arrow_schema.get_field_index(k)` (Arrow): there is no index if there is no such column, or
more than one. -/
def fieldIndex (columns : List String) (k : String) : Option Nat :=
  if columns.count k = 1 then some (columns.idxOf k) else none

/-- `setup`, `beam/impl.py:413-419`: the positions of the passthrough columns. -/
def Step.columnIndices (s : Step) : List (Option Nat) :=
  s.passthrough.map (fieldIndex s.columns)

/-- `dict.update`. -/
def update {β : Type} (d : List (String × β)) (k : String) (v : β) : List (String × β) :=
  if (d.map Prod.fst).contains k then d.map fun e => if e.1 == k then (k, v) else e
  else d ++ [(k, v)]

/-- `_get_passthrough_data_from_recordbatch`, `beam/impl.py:336-352`. -/
def passthroughData (env : Env V Op C) (s : Step) (batch : Record C) :
    Except Err (List (String × C)) :=
  (s.passthrough.zip s.columnIndices).foldlM (fun result ki =>
    match ki.2 with
    | none => .ok result
    | some i => match batch[i]? with
      | none => .error "IndexError"
      | some col => if env.isList col.2 then .ok (update result ki.1 col.2)
        else .error "AssertionError") []

/-- The call of the graph in `_handle_batch`, `beam/impl.py:363-381`. -/
def callGraph (g : GraphState V) (feed : List (String × List V)) :
    Except Err (List (String × List V)) :=
  match g.call with
  | .v1 call => do
    let args ← pick feed g.inputKeys
    let outputs ← call (args.map Prod.snd)
    if g.outputKeys.length ≠ outputs.length then .error "AssertionError"
    else .ok (g.outputKeys.zip outputs)
  | .v2 call => do
    let result ← call feed
    if g.outputKeys.length ≠ result.length then .error "AssertionError" else .ok result

/-- `_handle_batch`, `beam/impl.py:354-393`. `ToBatchTensors` rejects batches with other columns
than those it was made for. A value of the result is a tensor or a passthrough column. -/
def handleBatch (env : Env V Op C) (s : Step) (g : GraphState V) (batch : Record C) :
    Except Err (List (String × (List V ⊕ C))) := do
  if batch.map Prod.fst ≠ s.columns then .error "ValueError: Expected same schema."
  else
    let feed ← env.adapt s.names batch
    let result ← callGraph g feed
    let passthrough ← passthroughData env s batch
    .ok (passthrough.foldl (fun r p => update r p.1 (.inr p.2))
      (result.map fun e => (e.1, .inl e.2)))

/-! ## Shared objects and threads -/

/-- An object that was acquired but not stored yet, and the arguments of `process` meanwhile. -/
structure Pending (C : Type) where
  obj : Nat
  batch : Record C
  dir : String

/-- An instance of the DoFn in the process: the position of its step in the pipeline, `_graph_state`
if it has one, and what it is in the middle of. -/
structure DoFn (C : Type) where
  step : Nat
  graph : Option Nat
  pending : Option (Pending C)
  alive : Bool

/-- A worker process. `heap` has all objects made so far, each with the key it was made for; the
position is the identity. `freed` are the collected ones. `refs` and `keep` are the weak references
and the object kept alive by `apache_beam.utils.shared`. -/
structure Worker (V C : Type) where
  heap : List (Nat × GraphState V)
  freed : List Nat
  refs : List (Nat × Nat)
  keep : Option Nat
  dofns : List (DoFn C)

/-- A process that has just been started. -/
def Worker.start : Worker V C := ⟨[], [], [], none, []⟩

/-- The object that the weak reference of a key refers to, if it still exists. -/
def Worker.live (w : Worker V C) (handle : Nat) : Option Nat :=
  (w.refs.lookup handle).filter fun o => !w.freed.contains o

/-- Something refers to an object. -/
def Worker.inUse (w : Worker V C) (o : Nat) : Prop :=
  w.keep = some o ∨ ∃ d ∈ w.dofns, d.alive = true ∧
    (d.graph = some o ∨ ∃ p, d.pending = some p ∧ p.obj = o)

/-- What `process` yielded or raised for a batch. -/
structure Record.Out (V C : Type) where
  step : Nat
  dir : String
  batch : Record C
  result : Except Err (List (String × (List V ⊕ C)))

/-- The rest of `process` once the DoFn has a graph state, `beam/impl.py:445-449`. -/
def runBatch (env : Env V Op C) (s : Step) (g : GraphState V) (batch : Record C) (dir : String) :
    Except Err (List (String × (List V ⊕ C))) :=
  if g.savedModelDir ≠ dir then .error "AssertionError" else handleBatch env s g batch

/-- `self._shared_graph_state_handle.acquire(…)`, `beam/impl.py:441-443`, under the lock of the table
entry: an object that exists, or a new one. -/
def Worker.acquire (env : Env V Op C) (w : Worker V C) (s : Step) (dir : String) :
    Except Err (Worker V C × Nat) :=
  match w.live s.handle with
  | some o => .ok (w, o)
  | none => do
    let g ← makeGraphState env s dir
    .ok ({ w with
      heap := w.heap ++ [(s.handle, g)]
      refs := (s.handle, w.heap.length) :: w.refs.filter fun r => r.1 != s.handle }, w.heap.length)

/-- The steps of a worker for the steps of a pipeline; the last argument is what `process` yields or
raises, if it ends in this step. `side i dir`: the side input `saved_model_dir` of step `i` can have the
value `dir`. It has one value, except in pipelines with several windows. -/
inductive Worker.Next (env : Env V Op C) (steps : List Step) (side : Nat → String → Prop) :
    Worker V C → Worker V C → Option (Record.Out V C) → Prop
  /-- The runner makes an instance and calls `setup`. -/
  | setup (w : Worker V C) (i : Nat) (hi : i < steps.length) :
      Next env steps side w { w with dofns := w.dofns ++ [⟨i, none, none, true⟩] } none
  /-- `process` of an instance without graph state, `beam/impl.py:438-443`. -/
  | acquire (w w' : Worker V C) (n : Nat) (d : DoFn C) (s : Step) (batch : Record C) (dir : String)
      (o : Nat) (hn : w.dofns[n]? = some d) (ha : d.alive = true) (hg : d.graph = none)
      (hp : d.pending = none) (hs : steps[d.step]? = some s) (hd : side d.step dir)
      (hacq : w.acquire env s dir = .ok (w', o)) :
      Next env steps side w
        { w' with dofns := w.dofns.set n { d with pending := some ⟨o, batch, dir⟩ } } none
  /-- The graph state cannot be made. -/
  | fail (w : Worker V C) (n : Nat) (d : DoFn C) (s : Step) (batch : Record C) (dir : String)
      (e : Err) (hn : w.dofns[n]? = some d) (ha : d.alive = true) (hg : d.graph = none)
      (hp : d.pending = none) (hs : steps[d.step]? = some s) (hd : side d.step dir)
      (hacq : w.acquire env s dir = .error e) :
      Next env steps side w w (some ⟨d.step, dir, batch, .error e⟩)
  /-- The object is kept alive and stored, and the batch is handled, `beam/impl.py:441-449`. -/
  | store (w : Worker V C) (n : Nat) (d : DoFn C) (s : Step) (p : Pending C)
      (g : Nat × GraphState V) (hn : w.dofns[n]? = some d) (ha : d.alive = true)
      (hp : d.pending = some p) (hs : steps[d.step]? = some s) (hh : w.heap[p.obj]? = some g) :
      Next env steps side w
        { w with keep := some p.obj,
                 dofns := w.dofns.set n { d with graph := some p.obj, pending := none } }
        (some ⟨d.step, p.dir, p.batch, runBatch env s g.2 p.batch p.dir⟩)
  /-- `process` of an instance with graph state, `beam/impl.py:445-449`. -/
  | process (w : Worker V C) (n : Nat) (d : DoFn C) (s : Step) (o : Nat) (batch : Record C)
      (dir : String) (g : Nat × GraphState V) (hn : w.dofns[n]? = some d) (ha : d.alive = true)
      (hg : d.graph = some o) (hp : d.pending = none) (hs : steps[d.step]? = some s)
      (hd : side d.step dir) (hh : w.heap[o]? = some g) :
      Next env steps side w w (some ⟨d.step, dir, batch, runBatch env s g.2 batch dir⟩)
  /-- The runner drops an instance. -/
  | teardown (w : Worker V C) (n : Nat) (d : DoFn C) (hn : w.dofns[n]? = some d)
      (hp : d.pending = none) :
      Next env steps side w { w with dofns := w.dofns.set n { d with graph := none, alive := false } }
        none
  /-- `_clear_shared_state_after_barrier`, `beam/impl.py:136-159`: `None` is acquired for a new
  key, so that no object is kept alive. -/
  | clear (w : Worker V C) : Next env steps side w { w with keep := none } none
  /-- Python collects an object that nothing refers to. -/
  | collect (w : Worker V C) (o : Nat) (ho : o < w.heap.length) (hu : ¬ w.inUse o) :
      Next env steps side w { w with freed := o :: w.freed } none

/-- Any number of steps; what was yielded or raised, in order. -/
inductive Worker.Run (env : Env V Op C) (steps : List Step) (side : Nat → String → Prop) :
    Worker V C → Worker V C → List (Record.Out V C) → Prop
  | nil (w : Worker V C) : Run env steps side w w []
  | silent (w w' w'' : Worker V C) (outs : List (Record.Out V C)) :
      Run env steps side w w' outs → Next env steps side w' w'' none → Run env steps side w w'' outs
  | yield (w w' w'' : Worker V C) (outs : List (Record.Out V C)) (r : Record.Out V C) :
      Run env steps side w w' outs → Next env steps side w' w'' (some r) → Run env steps side w w'' (outs ++ [r])

end TFT.Worker
