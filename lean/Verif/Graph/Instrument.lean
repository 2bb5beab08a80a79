import Verif.Graph.Optimize

/-!
# The counters of the use of the cache

Model of the instrumentation in `_OptimizeVisitor` (`beam/analysis_graph_builder.py`) and of
`_InstrumentDatasetCacheImpl` (`beam/analyzer_impls.py`).
-/

namespace TFT.Graph.Optimize

open TFT.Graph.CachePath
open TFT.Coders (Bytes)

variable {Op Coll : Type}

/-- `_dataset_has_cache_misses`, `_num_encode_cache_nodes` and `_num_decode_cache_nodes`,
`analysis_graph_builder.py:177-179`. The dict is a function, `none` where it has no key. -/
structure Tally where
  hasMisses : DatasetKey → Option Bool
  encoded : Nat
  decoded : Nat

/-- Their values at first, `analysis_graph_builder.py:177-179`. -/
def Tally.start : Tally := ⟨fun _ => none, 0, 0⟩

/-- The updates in the body of the loop of `_apply_operation_on_fine_grained_view`,
`analysis_graph_builder.py:391`, `399`, `406-407`, `416`. `d[k] |= False` on a `defaultdict(bool)`
keeps a value, or else stores `False`. -/
def Config.tallyStep (c : Config Op Coll) (o : Op) (key : Bytes) (t : Tally) (k : DatasetKey) :
    Tally :=
  if (c.info o).hasCoder && c.hasEntry k key then
    { t with
      hasMisses := fun k' => if k' = k then some ((t.hasMisses k).getD false || false)
        else t.hasMisses k'
      decoded := t.decoded + 1 }
  else if (c.info o).hasCoder && k.isCached then
    { t with
      hasMisses := fun k' => if k' = k then some true else t.hasMisses k'
      encoded := t.encoded + 1 }
  else t

/-- The `cache_entry_key` with which a call of `visit` comes to the loop of
`_apply_operation_on_fine_grained_view`, `analysis_graph_builder.py:263-276`, `320-341`,
`378-380`; `none` if it does not. -/
def Config.loopKey (c : Config Op Coll) (o : Op) (ins : List (View Op)) : Option Bytes :=
  if (c.info o).kind = .applySavedModel 0 then none
  else if c.cache.isSome && (c.info o).isPartitionable && ins.all (fun v => truthy v.fine) then
    match nextHashedPath c.sha1 (ins.map (fun v => v.path)) (c.info o).desc c.paths with
    | .ok path => (cacheEntryKey c.version (c.info o).label path).toOption
    | .error _ => none
  else none

/-- The updates in one call of `visit`: the loop over the sorted dataset keys,
`analysis_graph_builder.py:382-418`. -/
def Config.tallyCall (c : Config Op Coll) (t : Tally) (call : Call Op (View Op)) : Tally :=
  match c.loopKey call.op call.ins with
  | some key => c.keys.foldl (c.tallyStep call.op key) t
  | none => t

/-- The fields of `InstrumentDatasetCache`, `analyzer_nodes.py:1180-1194`. -/
structure Instrument where
  keys : List DatasetKey
  encoded : Nat
  decoded : Nat

/-- `get_detached_sideeffect_leafs`, `analysis_graph_builder.py:197-231`. `metadata k` is the
`metadata` of the entry of `k` in the cache dict: the elements of that PCollection, `none` if the
dataset has no entry there or no metadata. (A PCollection is true.) -/
def Config.detachedLeafs (c : Config Op Coll) (numPhases : Nat)
    (metadata : DatasetKey → Option (List (Option Nat))) (t : Tally) : Option Instrument :=
  if numPhases > 1 then none
  else
    let ks := c.keys.filter fun k => !((t.hasMisses k).getD true) && (metadata k).isSome
    if !ks.isEmpty || t.encoded != 0 || t.decoded != 0 then some ⟨ks, t.encoded, t.decoded⟩
    else none

/-- The counters `cache_entries_encoded`, `cache_entries_decoded` and
`analysis_input_bytes_from_cache` of the pipeline. -/
structure Counters where
  encoded : Nat
  decoded : Nat
  bytesFromCache : Nat
  deriving DecidableEq

/-- `_InstrumentDatasetCacheImpl.expand`, `analyzer_impls.py:1495-1525`, as run by
`impl.py:1298-1300`: what is added to the counters. The size of a dataset is in the element of its
metadata; `None` counts 0. -/
def instrument (metadata : DatasetKey → Option (List (Option Nat))) : Option Instrument → Counters
  | none => ⟨0, 0, 0⟩
  | some i =>
    ⟨if i.encoded > 0 then i.encoded else 0, if i.decoded > 0 then i.decoded else 0,
      if i.keys.isEmpty then 0
      else ((i.keys.flatMap fun k => (metadata k).getD []).map fun m => m.getD 0).sum⟩

/-- The counters of an analysis: `_perform_cache_optimization`,
`analysis_graph_builder.py:468-499`, and the instrumentation. -/
def Config.counters [DecidableEq Op] [Fintype Op] (c : Config Op Coll) (g : OpGraph Op)
    (target : Op × Nat) (numPhases : Nat) (metadata : DatasetKey → Option (List (Option Nat))) :
    Except Err Counters := do
  let (st, _) ← traverse g c.visitor [target]
  .ok (instrument metadata (c.detachedLeafs numPhases metadata
    (st.calls.foldl c.tallyCall .start)))

end TFT.Graph.Optimize
