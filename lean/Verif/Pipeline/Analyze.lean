import Mathlib.Data.List.Basic
import Verif.Combine.Py

/-!
# Model of the phased analysis of a dataset

`AnalyzeDataset` traces the user's `preprocessing_fn` and gets a graph of tensors in which the
result of every analyzer is a placeholder.  It then evaluates the analyzers in phases: in each
phase it creates a SavedModel in which the results found so far are bound to their placeholders,
runs it on the dataset, and evaluates the analyzers whose inputs are now known.  At last it creates
the SavedModel of the transform function, with every placeholder bound.

With TF2 behaviour a SavedModel is created by tracing the `preprocessing_fn` *again*; results are
bound to placeholders, and the inputs of analyzers are fetched, by the *names* of the tensors in
the first trace (analyzer_nodes.py 251–316, impl_helper.py 361–422).  With TF1 behaviour the one
graph is used again (beam/impl.py 606–697), which is the case of equal traces.

What is left out: tensors are trees, so that the sharing of operations is lost; operations are
deterministic functions of their inputs; the inputs of an analyzer are all fetched in the phase in
which the analyzer is evaluated, whereas the code fetches a tensor in the first phase in which some
analyzer needs it; table initializers (see C32) and assets are ordinary values; the optimizations
of the graph (C60, C64) come after it and are not repeated here; and the metadata function, which
is traced after the transform function, is left out.
-/

namespace TFT.Analyze

/-- A tensor of a traced `preprocessing_fn` as a function of the inputs of the graph: an input, the
result of an operation, or the placeholder of an analyzer's result (analyzer_nodes.py 144–155,
185–248), which is known by its name. -/
inductive Tensor (Op : Type) where
  | input (key : String)
  | op (o : Op) (ins : List (Tensor Op))
  | sink (name : String)

/-- A `TensorSink` (analyzer_nodes.py 139–142): the placeholder's name, the analyzer, and the names
of the tensors of its `TensorSource`s (analyzer_nodes.py 102–133). -/
structure Sink (An : Type) where
  name : String
  analyzer : An
  ins : List String

/-- What a trace of the `preprocessing_fn` leaves: the tensors of the graph by name, the output
tensors by key, the collection `ALL_REPLACEMENTS` in the order of creation (analyzer_nodes.py 296),
and whether some output is a composite tensor (beam/impl.py 758–765). -/
structure Trace (Op An : Type) where
  tensors : List (String × Tensor Op)
  outputs : List (String × String)
  sinks : List (Sink An)
  composite : Bool

/-- What operations and analyzers compute, and what the placeholder of a result that is not yet
known holds: some temporary value with TF2 behaviour (analyzer_nodes.py 185–248), nothing with TF1
behaviour, where evaluation fails.  An analyzer gets the values of its inputs for every batch. -/
structure Meaning (V Op An : Type) where
  op : Op → List V → Except Err V
  analyze : An → List (List V) → Except Err V
  temporary : String → Except Err V

variable {V Op An : Type}

mutual
/-- The value of a tensor for one batch, given the results bound so far. -/
def Tensor.eval (m : Meaning V Op An) (bound : List (String × V)) (batch : List (String × V)) :
    Tensor Op → Except Err V
  | .input key => match batch.lookup key with
    | some v => .ok v
    | none => .error "KeyError"
  | .op o ins => (Tensor.evals m bound batch ins).bind (m.op o)
  | .sink name => match bound.lookup name with
    | some v => .ok v
    | none => m.temporary name
def Tensor.evals (m : Meaning V Op An) (bound : List (String × V)) (batch : List (String × V)) :
    List (Tensor Op) → Except Err (List V)
  | [] => .ok []
  | t :: ts => (Tensor.eval m bound batch t).bind fun v =>
      (Tensor.evals m bound batch ts).bind fun vs => .ok (v :: vs)
end

mutual
/-- Whether all results that a tensor depends on are known
(`graph_tools.InitializableGraphAnalyzer.ready_to_run`; see C32 for the details). -/
def Tensor.ready (known : List String) : Tensor Op → Bool
  | .input _ => true
  | .op _ ins => Tensor.readys known ins
  | .sink name => known.contains name
def Tensor.readys (known : List String) : List (Tensor Op) → Bool
  | [] => true
  | t :: ts => t.ready known && Tensor.readys known ts
end

mutual
/-- Whether a tensor depends on an input (graph_tools.py 991–1006; see C33 for the traversal). -/
def Tensor.reads (key : String) : Tensor Op → Bool
  | .input k => k == key
  | .op _ ins => Tensor.readsAny key ins
  | .sink _ => false
def Tensor.readsAny (key : String) : List (Tensor Op) → Bool
  | [] => false
  | t :: ts => t.reads key || Tensor.readsAny key ts
end

/-- `graph.get_tensor_by_name`. -/
def Trace.tensor (tr : Trace Op An) (name : String) : Except Err (Tensor Op) :=
  match tr.tensors.lookup name with
  | some t => .ok t
  | none => .error "KeyError: no tensor of this name"

/-- The tensors of a graph with the given names, evaluated for one batch. -/
def Trace.fetch (m : Meaning V Op An) (tr : Trace Op An) (bound : List (String × V))
    (batch : List (String × V)) (names : List String) : Except Err (List V) :=
  seqExcept (names.map fun n => (tr.tensor n).bind (Tensor.eval m bound batch))

/-- The dictionary of the outputs of a `preprocessing_fn`, for one batch. -/
def Trace.features (m : Meaning V Op An) (tr : Trace Op An) (bound : List (String × V))
    (batch : List (String × V)) : Except Err (List (String × V)) :=
  seqExcept (tr.outputs.map fun o =>
    ((tr.tensor o.2).bind (Tensor.eval m bound batch)).bind fun v => .ok (o.1, v))

/-- The collection `TENSOR_REPLACEMENTS` of a trace is empty: every analyzer of the trace has a
result (analyzer_nodes.py 297–308). -/
def Trace.complete (tr : Trace Op An) (bound : List (String × V)) : Bool :=
  tr.sinks.all fun s => (bound.map Prod.fst).contains s.name

/-- graph_tools.py 991–1006 `_retrieve_source_keys`: the inputs that the tensors of an analyzer
depend on; `keys` are the keys of the inputs. -/
def Trace.sourceKeys (tr : Trace Op An) (keys : List String) (s : Sink An) : List String :=
  keys.filter fun k => s.ins.any fun n => match tr.tensors.lookup n with
    | some t => t.reads k
    | none => false

/-- graph_tools.py 1015–1054 `get_analyzers_fingerprint`, without the hashes of paths, whose
differences are only logged (impl_helper.py 584–595). -/
def Trace.fingerprint (tr : Trace Op An) (keys : List String) : List (String × List String) :=
  tr.sinks.map fun s => (s.name, tr.sourceKeys keys s)

/-- impl_helper.py 556–595 `_validate_analyzers_fingerprint`: the loop over the analyzers of the
new trace. -/
def validate (baseline : List (String × List String)) : List (String × List String) →
    Except Err Unit
  | [] => .ok ()
  | (name, sources) :: rest => match baseline.lookup name with
    | none => .error "RuntimeError: analyzer node not found"
    | some sources' =>
      if sources' ≠ sources then .error "RuntimeError: non-deterministic order of analyzers"
      else validate baseline rest

/-- impl_helper.py 398–420 `transform_fn`, of a SavedModel that is to output the tensors with the
given names under those names (beam/analysis_graph_builder.py 99–109; the names without the
trailing ":0" that are used as keys stand for the names), for one batch: if the new trace has no
analyzer without a result, the outputs of the `preprocessing_fn` are returned instead, and
`ExtractFromDict` (beam/impl.py 887–910) looks up its keys among them. -/
def intermediate (m : Meaning V Op An) (again : Trace Op An) (bound : List (String × V))
    (batch : List (String × V)) (names : List String) : Except Err (List V) :=
  if again.complete bound then
    (again.features m bound batch).bind fun fs =>
      seqExcept (names.map fun n => match fs.lookup n with
        | some v => .ok v
        | none => .error "KeyError")
  else again.fetch m bound batch names

/-- impl_helper.py 398–420 `transform_fn` of the final SavedModel, for one batch; see
`_maybe_get_output_tensor_names_dict`, beam/impl.py 758–765, for the requested outputs. -/
def final (m : Meaning V Op An) (first again : Trace Op An) (bound : List (String × V))
    (batch : List (String × V)) : Except Err (List (String × V)) :=
  if again.complete bound then again.features m bound batch
  else if first.composite then .ok []
  else seqExcept (first.outputs.map fun o =>
    ((again.tensor o.2).bind (Tensor.eval m bound batch)).bind fun v => .ok (o.1, v))

/-- Whether all inputs of an analyzer are ready (beam/analysis_graph_builder.py 68–76). -/
def Trace.sinkReady (tr : Trace Op An) (known : List String) (s : Sink An) : Bool :=
  s.ins.all fun n => match tr.tensors.lookup n with
    | some t => t.ready known
    | none => false

/-- One analyzer of a phase: its inputs are computed for every batch by the phase's SavedModel, and
its result becomes a tensor binding (beam/analysis_graph_builder.py 734–756, beam/impl.py
563–603). -/
def bindSink (m : Meaning V Op An) (again : Trace Op An) (bound : List (String × V))
    (batches : List (List (String × V))) (s : Sink An) : Except Err (String × V) :=
  (seqExcept (batches.map fun b => intermediate m again bound b s.ins)).bind fun rows =>
    (m.analyze s.analyzer rows).bind fun v => .ok (s.name, v)

/-- The analyzers that are ready at the start of a phase (beam/analysis_graph_builder.py 734–741). -/
def Trace.ready (tr : Trace Op An) (bound : List (String × V)) (todo : List (Sink An)) :
    List (Sink An) :=
  todo.filter (tr.sinkReady (bound.map Prod.fst))

/-- The analyzers left for later phases (beam/analysis_graph_builder.py 740–741). -/
def Trace.waiting (tr : Trace Op An) (bound : List (String × V)) (todo : List (Sink An)) :
    List (Sink An) :=
  todo.filter fun s => !tr.sinkReady (bound.map Prod.fst) s

/-- The loop over phases ends if every phase makes some analyzer ready. -/
theorem waiting_lt (tr : Trace Op An) (bound : List (String × V)) (todo : List (Sink An))
    (h : ¬ (tr.ready bound todo).isEmpty = true) :
    (tr.waiting bound todo).length < todo.length := by
  unfold Trace.ready at h
  unfold Trace.waiting
  by_contra hc
  have hl : (todo.filter fun s => !tr.sinkReady (bound.map Prod.fst) s).length = todo.length :=
    Nat.le_antisymm (List.length_filter_le _ _) (Nat.le_of_not_lt hc)
  rw [List.length_filter_eq_length_iff] at hl
  refine h ?_
  rw [List.isEmpty_iff, List.filter_eq_nil_iff]
  intro a ha
  have := hl a ha
  simpa using this

/-- beam/analysis_graph_builder.py 699–759, the loop over phases, together with the evaluation of
the phases: `retrace p` is what tracing the `preprocessing_fn` for the SavedModel of phase `p`
gives, `data p` are the batches in the order in which phase `p` sees them, and `todo` are the
analyzers whose result is not known.  A phase in which no analyzer is ready would make the loop run
for ever. -/
def phases (m : Meaning V Op An) (keys : List String) (first : Trace Op An)
    (retrace : Nat → Trace Op An) (data : Nat → List (List (String × V)))
    (p : Nat) (todo : List (Sink An)) (bound : List (String × V)) :
    Except Err (Nat × List (String × V)) :=
  if todo.isEmpty then .ok (p, bound)
  else
    if h : (first.ready bound todo).isEmpty then .error "the loop does not end"
    else
      (validate (first.fingerprint keys) ((retrace p).fingerprint keys)).bind fun _ =>
        (seqExcept ((first.ready bound todo).map (bindSink m (retrace p) bound (data p)))).bind
          fun new => phases m keys first retrace data (p + 1) (first.waiting bound todo) (bound ++ new)
termination_by todo.length
decreasing_by exact waiting_lt _ _ _ h

/-- The analysis of a dataset (beam/analysis_graph_builder.py 619–777, beam/impl.py 1066–1345): the
result is the transform function, from a batch to the dictionary of its outputs. -/
def analyzeDataset (m : Meaning V Op An) (keys : List String) (first : Trace Op An)
    (retrace : Nat → Trace Op An) (data : Nat → List (List (String × V))) :
    Except Err (List (String × V) → Except Err (List (String × V))) :=
  (phases m keys first retrace data 0 first.sinks []).bind fun r =>
    (validate (first.fingerprint keys) ((retrace r.1).fingerprint keys)).bind fun _ =>
      .ok (final m first (retrace r.1) r.2)

end TFT.Analyze
