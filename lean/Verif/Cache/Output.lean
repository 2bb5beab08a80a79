import Verif.Cache.Run

/-!
# The output cache of an analysis

Model of `_format_output_cache` in `beam/analysis_graph_builder.py`, and of `_make_output_cache` and
the metadata of datasets in `beam/impl.py`.
-/

namespace TFT.OutputCache

variable {K E N V P M : Type} [DecidableEq K] [DecidableEq E]

/-- `d[a] = b` for a dict, which keeps the order of insertion. -/
def put {A B : Type} [DecidableEq A] (d : List (A × B)) (a : A) (b : B) : List (A × B) :=
  if a ∈ d.map Prod.fst then d.map (fun p => if p.1 = a then (a, b) else p) else d ++ [(a, b)]

/-- `cache_dict[dataset_key][cache_key] = value_node` for a `defaultdict(dict)`,
`beam/analysis_graph_builder.py:615`, `beam/impl.py:1059`. -/
def putEntry (d : List (K × List (E × N))) (k : K) (e : E) (n : N) : List (K × List (E × N)) :=
  put d k (put ((d.lookup k).getD []) e n)

/-- The dict `cache_output_nodes` after the updates `ws`, `beam/analysis_graph_builder.py:414-416`. -/
def outputNodes (ws : List ((K × E) × N)) : List ((K × E) × N) :=
  ws.foldl (fun d w => put d w.1 w.2) []

/-- `_format_output_cache`, `beam/analysis_graph_builder.py:607-616`, for the dict of what is to be
written, from pairs of a dataset key and a cache entry key. `None` is handled in `outputCache`. -/
def format (ws : List ((K × E) × N)) : List (K × List (E × N)) :=
  ws.foldl (fun d w => putEntry d w.1.1 w.1.2 w.2) []

/-- `dataset_metrics`, `beam/impl.py:1210-1232`, if the datasets are not flattened: `size` is
`SumTotalBytes` and `ConstructMetadata`. A dataset that need not be read is `None`. The labels and
the counters are left out. -/
def datasetMetrics (size : P → M) (data : List (K × Option P)) : List (K × M) :=
  data.filterMap fun p => p.2.map fun x => (p.1, size x)

/-- `dataset_metrics[dataset_key]` in the dict comprehension, `beam/impl.py:1060-1063`. -/
def withMetadata (metrics : List (K × M)) (p : K × List (E × V)) :
    Except Err (K × (List (E × V) × M)) :=
  match metrics.lookup p.1 with
  | some m => .ok (p.1, (p.2, m))
  | none => .error "KeyError"

/-- `_make_output_cache`, `beam/impl.py:1046-1063`, after `if cache_value_nodes is None`. `visit` is
`traverser.visit_value_node`. The loops first visit all nodes here and then fill the dict. -/
def makeOutput (visit : N → Except Err V) (metrics : List (K × M)) (d : List (K × List (E × N))) :
    Except Err (List (K × (List (E × V) × M))) := do
  let vs ← seqExcept ((d.flatMap fun p => p.2.map fun q => ((p.1, q.1), q.2)).map
    fun w => (visit w.2).map fun v => (w.1, v))
  seqExcept ((format vs).map (withMetadata metrics))

/-- The output cache for what is to be written, `beam/analysis_graph_builder.py:607-616` and
`beam/impl.py:1046-1063`; `none` is `None`, for an analysis without a cache. -/
def outputCache (visit : N → Except Err V) (metrics : List (K × M)) :
    Option (List ((K × E) × N)) → Except Err (Option (List (K × (List (E × V) × M))))
  | none => .ok none
  | some ws => (makeOutput visit metrics (format ws)).map some

end TFT.OutputCache
