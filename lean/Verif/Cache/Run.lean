import Verif.Combine.Py

/-!
# Analysis with a cache

Model of the cache part of `_OptimizeVisitor` for one cacheable analyzer: which datasets are
computed, which are read from the cache, what is written, and what the merge stage sees.
-/

namespace TFT

/-- `beam/analyzer_cache.py:56-84` (`DatasetKey`). The special key of the flattened dataset is
not included: it is never a key of the fine grained view (`analysis_graph_builder.py:174`). -/
structure DatasetKey where
  key : String
  isCached : Bool
  deriving DecidableEq

/-- `analyzer_nodes.py:420-432` (`CacheCoder`). -/
structure CacheCoder (El Bytes : Type) where
  encode : El → Bytes
  decode : Bytes → Except Err El

/-- The input cache restricted to one cache entry key: per dataset the encoded elements of the
cached PCollection, `none` when the dataset has no entry
(`self._cache_dict.get(dataset_key, {}).get(cache_entry_key)`,
`beam/analysis_graph_builder.py:388`). -/
abbrev CacheDict (Bytes : Type) := DatasetKey → Option (List Bytes)

/-- `beam/analyzer_impls.py:1465-1477` (`_EncodeCacheImpl`): encodes every element. -/
def encodeCache {El Bytes : Type} (coder : CacheCoder El Bytes) (els : List El) : List Bytes :=
  els.map coder.encode

/-- `beam/analyzer_impls.py:1531-1545` (`_DecodeCacheImpl`): decodes every element. -/
def decodeCache {El Bytes : Type} (coder : CacheCoder El Bytes) (bs : List Bytes) :
    Except Err (List El) :=
  seqExcept (bs.map coder.decode)

/-- One dataset of the fine grained view: its key and its elements. -/
abbrev FineGrained (El : Type) := List (DatasetKey × List El)

/-- Body of the loop at `beam/analysis_graph_builder.py:382-418`: decode a cache entry if there
is one; else run the operation on this dataset and, if the key may be cached, emit an encoded
entry. `compute k` is the result of running the operation on dataset `k` in this pipeline. -/
def fineGrainedStep {El Bytes : Type} (coder : Option (CacheCoder El Bytes))
    (cache : CacheDict Bytes) (compute : DatasetKey → Except Err (List El)) (k : DatasetKey) :
    Except Err (List El × Option (List Bytes)) :=
  match coder, cache k with
  | some cd, some bs => do
      let els ← decodeCache cd bs
      .ok (els, none)
  | some cd, none => do
      let els ← compute k
      if k.isCached then .ok (els, some (encodeCache cd els)) else .ok (els, none)
  | none, _ => do
      let els ← compute k
      .ok (els, none)

/-- `beam/analysis_graph_builder.py:358-420` (`_apply_operation_on_fine_grained_view`) for the
sorted dataset keys `ks`: the fine grained view and `cache_output_nodes`. -/
def applyFineGrained {El Bytes : Type} (coder : Option (CacheCoder El Bytes))
    (cache : CacheDict Bytes) (compute : DatasetKey → Except Err (List El)) :
    List DatasetKey → Except Err (FineGrained El × List (DatasetKey × List Bytes))
  | [] => .ok ([], [])
  | k :: ks => do
      let (els, w) ← fineGrainedStep coder cache compute k
      let (view, ws) ← applyFineGrained coder cache compute ks
      .ok ((k, els) :: view, (w.map (fun b => (k, b))).toList ++ ws)

/-- `beam/analysis_graph_builder.py:283-297`: the operation after a cacheable one is not
partitionable, so the views are flattened (`beam.Flatten`; its order is arbitrary, which the
schedule of the merge stage accounts for). -/
def flattenCache {El : Type} (view : FineGrained El) : List El :=
  (view.map Prod.snd).flatten

/-- The cache after a run that wrote `ws`: written entries replace old ones
(`WriteAnalysisCacheToFS` merges new with old, `beam/analyzer_cache.py:252-260`). -/
def updateCache {Bytes : Type} (cache : CacheDict Bytes) (ws : List (DatasetKey × List Bytes)) :
    CacheDict Bytes :=
  fun k => (ws.lookup k).or (cache k)

/-- `AnalyzeDatasetWithCache` for one analyzer with combiner `c`: the accumulate stage of a
dataset is a schedule `sched k` (`beam/analyzer_impls.py:1342-1355`) whose output is one
accumulator; the merge stage (`1359-1371`) is the schedule `s2` over the flattened accumulators.
Returns the analyzer's output and the written cache entries. -/
def cachedAnalysis {Acc In Out Bytes : Type} (c : Combiner Acc In Out)
    (coder : Option (CacheCoder Acc Bytes)) (cache : CacheDict Bytes) (ks : List DatasetKey)
    (sched : DatasetKey → Sched In) (s2 : Sched Nat) :
    Except Err (Out × List (DatasetKey × List Bytes)) := do
  let (view, ws) ← applyFineGrained coder cache
    (fun k => do let a ← (sched k).run c.accumulateStage; .ok [a]) ks
  let accs := flattenCache view
  let final ← (s2.map (fun i => accs[i]?)).run c.mergeStage
  let out ← c.extract final
  .ok (out, ws)

end TFT
