import Verif.Combine.Sched
import Mathlib.Data.Fintype.Card
import Mathlib.Data.Finset.Basic
import Mathlib.Data.List.Forall2
import Mathlib.Logic.Function.Basic
import Mathlib.Logic.Relation

/-!
# Readiness and dependency analysis of a TensorFlow graph

Model of `graph_tools._GraphAnalyzer`, of the parts of `graph_tools.InitializableGraphAnalyzer`
that use it, and of `graph_tools.retrieve_sources`. A node is a `tf.Operation` or a (hashable
reference to a) `tf.Tensor`.
-/

namespace TFT.Graph.Ready

/-- What a node of the graph is, as far as `_get_parents` looks at it, `graph_tools.py:242-271`.
A placeholder that is an input of the `FuncGraph` under analysis is an `op [] []`. -/
inductive Kind (N : Type) where
  | tensor (op : N)
  | op (inputs control : List N)
  | table
  | placeholder

/-- `_SourceInfo`, `graph_tools.py:220`. -/
structure SourceInfo where
  ready : Bool
  name : Option String

/-- `_AnalysisResult`, `graph_tools.py:216-218`. -/
structure Result (N P : Type) where
  ready : Bool
  path : P
  deps : Finset N

/-- The arguments of `_GraphAnalyzer.__init__`, `graph_tools.py:226-240`. `source` is
`source_info_dict`, `translateSource` and `translate` are the two uses of `translate_path_fn`.
`funcs` is `_compute_analysis_results_for_func_attributes`, `graph_tools.py:273-367`; see
`funcResults` for the analysis of one function graph. -/
structure Analyzer (N P : Type) where
  kind : N → Kind N
  source : N → Option SourceInfo
  translateSource : Option String → P
  translate : N → List P → P
  funcs : N → List (Result N P) → Except Err (List (Result N P))

variable {N P : Type} [DecidableEq N]

/-- `_GraphAnalyzer._get_parents`, `graph_tools.py:242-271`. -/
def Analyzer.getParents (g : Analyzer N P) (n : N) : Except Err (List N) :=
  if (g.source n).isSome then .ok []
  else match g.kind n with
    | .table => .error "_UnexpectedTableError"
    | .placeholder => .error "_UnexpectedPlaceholderError"
    | .op inputs control => .ok (inputs ++ control)
    | .tensor op => .ok [op]

/-- The union of the dependent sources of some results, `graph_tools.py:405-408`. -/
def unionDeps (rs : List (Result N P)) : Finset N :=
  rs.foldl (fun acc r => acc ∪ r.deps) ∅

/-- `_GraphAnalyzer._compute_analysis_result`, `graph_tools.py:369-409`. -/
def Analyzer.compute (g : Analyzer N P) (n : N) (parents : List (Result N P)) :
    Except Err (Result N P) :=
  match g.source n with
  | some info => .ok ⟨info.ready, g.translateSource info.name, {n}⟩
  | none => do
    let funcResults ← g.funcs n parents
    .ok ⟨(parents ++ funcResults).all (fun r => r.ready),
      g.translate n (parents.map (fun r => r.path) ++ funcResults.map (fun r => r.path)),
      unionDeps (parents ++ funcResults)⟩

/-- The dict `_memoized_analyze_tensor_result`. -/
abbrev Memo (N P : Type) := N → Option (Result N P)

/-- `[self._memoized_analyze_tensor_result[parent] for parent in parents]`, `none` unless all
parents are in the dict, `graph_tools.py:455-461`. -/
def lookupAll (memo : Memo N P) : List N → Option (List (Result N P))
  | [] => some []
  | n :: ns =>
    match memo n, lookupAll memo ns with
    | some r, some rs => some (r :: rs)
    | _, _ => none

/-- The `while stack` loop of `_GraphAnalyzer.analyze_tensor`, `graph_tools.py:445-469`. The top of
the stack is the head of the list. The first argument bounds the number of iterations: `none` is
"still running". The result is the dict after the loop, or the exception. -/
def Analyzer.loop (g : Analyzer N P) : Nat → List N → Finset N → Memo N P →
    Option (Except Err (Memo N P))
  | _, [], _, memo => some (.ok memo)
  | 0, _ :: _, _, _ => none
  | fuel + 1, current :: stack, path, memo =>
    if (memo current).isSome then g.loop fuel stack path memo
    else
      match g.getParents current with
      | .error e => some (.error e)
      | .ok all =>
        let parents := all.filter (fun p => p ∉ insert current path)
        match lookupAll memo parents with
        | some rs =>
          match g.compute current rs with
          | .error e => some (.error e)
          | .ok r => g.loop fuel stack ((insert current path).erase current)
              (Function.update memo current (some r))
        | none => g.loop fuel (parents.reverse ++ current :: stack) (insert current path) memo

/-- `analyze_tensor(n)`, `graph_tools.py:411-472`, on an analyzer with the given dict ends in
`out`: the loop stops, and `out` is what it stops with. -/
def Analyzer.Runs (g : Analyzer N P) (memo : Memo N P) (n : N)
    (out : Except Err (Memo N P)) : Prop :=
  ∃ k, ∀ fuel, k ≤ fuel → g.loop fuel [n] ∅ memo = some out

/-- The queries that were made on one analyzer, with their results, and the dict after them. -/
inductive Analyzer.History (g : Analyzer N P) : List (N × Result N P) → Memo N P → Prop where
  | nil : g.History [] (fun _ => none)
  | snoc {hs memo n memo' r} : g.History hs memo → g.Runs memo n (.ok memo') →
      memo' n = some r → g.History (hs ++ [(n, r)]) memo'

/-- The analysis of one function graph `f` of an operation, `graph_tools.py:312-366`: `results` are
the results of its outputs, `pairs` are the outer and inner tensors of `tensor_pairs`. -/
def translateDeps {N' : Type} [DecidableEq N'] (pairs : List (N × N')) (r : Result N' P) :
    Result N P :=
  ⟨r.ready, r.path, ((pairs.filter (fun p => p.2 ∈ r.deps)).map (fun p => p.1)).toFinset⟩

/-- The sources of the analyzer for a function graph, `graph_tools.py:325-341`: the `i`-th input
of the function is ready if the `i`-th parent is. (The name of the source depends on `i`.) -/
def funcSource {N' : Type} [DecidableEq N'] (parents : List (Result N P)) (i : Nat) :
    List N' → N' → Option SourceInfo
  | [], _ => none
  | t :: ts, n =>
    match parents with
    | [] => none
    | p :: ps =>
      match funcSource ps (i + 1) ts n with
      | some info => some info
      | none => if n = t then some ⟨p.ready, some s!"FuncGraphInput[{i}]"⟩ else none

/-! ### `InitializableGraphAnalyzer` -/

/-- A table initializer as `_get_table_init_op_and_inputs` and `_get_table_init_op_source_info`
see it, `graph_tools.py:656-684, 735-777`: the keys that stand for the table in the graph, the
results of the analysis of `table_init_op.inputs[1:]` in the graph without fed inputs, and the
path. (The checks of the operation's type are not modelled.) -/
structure TableInit (N P : Type) where
  keys : List N
  results : List (Result N P)
  path : Option String

/-- `_get_table_init_op_source_info`, `graph_tools.py:735-777`. -/
def TableInit.info (t : TableInit N P) : SourceInfo :=
  ⟨t.results.all (fun r => r.ready), t.path⟩

/-- `_make_source_infos_dict`, `graph_tools.py:686-733`: the sources when `replaced` tensors have
a known readiness and the tensors of the signature are fed. -/
def sourceInfos (signature : N → Option String) (replaced : N → Option Bool) (n : N) :
    Option SourceInfo :=
  match signature n with
  | some name => some ⟨true, some name⟩
  | none => (replaced n).map (fun ready => ⟨ready, none⟩)

/-- `complete_source_info_dict`, `graph_tools.py:611-651`: every table's keys are sources too. -/
def completeSource (signature : N → Option String) (replaced : N → Option Bool)
    (tables : List (TableInit N P)) : N → Option SourceInfo :=
  tables.foldl (fun dict t n => if n ∈ t.keys then some t.info else dict n)
    (sourceInfos signature replaced)

/-- `InitializableGraphAnalyzer.get_dependent_inputs`, `graph_tools.py:811-848`: `results` are the
results for the components of the argument. -/
def dependentInputs (signature : List (String × List N)) (results : List (Result N P)) :
    List String :=
  (signature.filter (fun s => s.2.any (fun c => c ∈ unionDeps results))).map (fun s => s.1)

/-! ### `retrieve_sources` -/

/-- The part of an operation that `retrieve_sources` looks at. `inputs` are the operations of
its input tensors. -/
structure SinkGraph (Op T : Type) where
  isPlaceholder : Op → Bool
  outputs : Op → Finset T
  inputs : Op → List Op
  control : Op → List Op

/-- The three sets of `retrieve_sources`, `graph_tools.py:112-115`. -/
structure WorkList (Op T : Type) where
  toVisit : Finset Op
  visited : Finset Op
  found : Finset T

variable {Op T : Type} [DecidableEq Op] [DecidableEq T]

/-- The operations that an iteration walks to, `graph_tools.py:123-125`. -/
def SinkGraph.next (g : SinkGraph Op T) (ignoreControl : Bool) (op : Op) : List Op :=
  if ignoreControl then g.inputs op else g.inputs op ++ g.control op

/-- The body of the loop of `retrieve_sources` after `op` was popped, `graph_tools.py:117-128`. -/
def SinkGraph.visit (g : SinkGraph Op T) (ignoreControl : Bool) (op : Op) (w : WorkList Op T) :
    WorkList Op T :=
  let visited := insert op w.visited
  ⟨w.toVisit.erase op ∪ ((g.next ignoreControl op).filter (fun i => i ∉ visited)).toFinset,
    visited,
    if g.isPlaceholder op then w.found ∪ g.outputs op else w.found⟩

/-- One iteration: `ops_to_visit.pop()` takes any element of the set. -/
inductive SinkGraph.Step (g : SinkGraph Op T) (ignoreControl : Bool) :
    WorkList Op T → WorkList Op T → Prop where
  | pop {w op} : op ∈ w.toVisit → g.Step ignoreControl w (g.visit ignoreControl op w)

/-- The state before the loop, `graph_tools.py:112-115`. -/
def SinkGraph.init (sinks : Finset Op) : WorkList Op T := ⟨sinks, ∅, ∅⟩

end TFT.Graph.Ready
