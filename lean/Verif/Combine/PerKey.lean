import Verif.Combine.NumPy
import Mathlib.Data.List.Sort

/-!
# Per-key analyzers

Model of `CombinePerKey` analyses: split batches by key, accumulate per key and dataset, merge
per key, format the output.
-/

namespace TFT

variable {K V Acc Out : Type}

/-- A numpy array as seen by `_split_inputs_by_key`: its `ndim` and its slices along the first
axis (no slices for a scalar). -/
structure KArr (V : Type) where
  ndim : Nat
  rows : List V

/-- `_split_inputs_by_key`, `beam/analyzer_impls.py:1067-1116`. -/
def splitInputsByKey (keys : KArr K) (args : List (KArr V)) : Except Err (List (K × List V)) :=
  if keys.ndim ≠ 1 then .error "ValueError: keys for CombinePerKey should have rank 1"
  else if args.any (fun a => decide (a.ndim < 1)) then
    .error "ValueError: Argument for CombinePerKey should have rank >=1"
  else if args.any (fun a => decide (a.rows.length ≠ keys.rows.length)) then
    .error "ValueError: Argument first dimension was not equal to the size of the keys vector"
  else
    .ok (keys.rows.zipIdx.map (fun ki => (ki.1, args.filterMap (fun a => a.rows[ki.2]?))))

/-- How the runner executes one `beam.CombinePerKey`: the keys in the order in which their
results appear, and for every key a schedule over its values. -/
structure KeyRun (K V : Type) where
  keys : List K
  sched : K → Sched V

/-- `beam.CombinePerKey(_CombinerWrapper(...))`, `beam/analyzer_impls.py:1375-1405`. -/
def combinePerKey (c : Combiner Acc V Out) (r : KeyRun K V) : Except Err (List (K × Out)) :=
  seqExcept (r.keys.map (fun k => do
    let a ← (r.sched k).run c
    let o ← c.extract a
    .ok (k, o)))

/-- A per-key analysis up to formatting: `_InitialAccumulateCombinePerKeyImpl` per dataset
(`beam/analyzer_impls.py:1375-1390`), flatten, `_MergeAccumulatorsCombinePerKeyImpl`
(`1394-1405`). The schedules of the merge stage are over positions in the flattened list of
`(key, accumulator)` pairs. -/
def perKeyAnalysis (c : Combiner Acc V Out) (r1s : List (KeyRun K V)) (r2 : KeyRun K Nat) :
    Except Err (List (K × Out)) := do
  let accs ← seqExcept (r1s.map (combinePerKey c.accumulateStage))
  let flat := accs.flatten
  combinePerKey c.mergeStage
    ⟨r2.keys, fun k => (r2.sched k).map (fun i => (flat[i]?).map Prod.snd)⟩

/-- `_merge_outputs_by_key`, `beam/analyzer_impls.py:1119-1171`: sorts by key and transposes.
The result is the key vector and one column per output. dtypes are not modelled. -/
def mergeOutputsByKey [LinearOrder K] {O : Type} (numOutputs : Nat) (kos : List (K × List O)) :
    Except Err (List K × List (List O)) :=
  let sorted := kos.insertionSort (fun a b => a.1 ≤ b.1)
  let outputs := if sorted = [] then List.replicate numOutputs [] else zipStar (sorted.map Prod.snd)
  if outputs.length ≠ numOutputs then
    .error "ValueError: Analyzer has a different number of outputs"
  else .ok (sorted.map Prod.fst, outputs)

/-- `tf.unique(l).y`: distinct values in order of first occurrence. -/
def uniqFirst [DecidableEq K] : List K → List K
  | [] => []
  | a :: l => a :: (uniqFirst l).filter (fun b => decide (b ≠ a))

/-- `reduce_batch_count_per_key`, `tf_utils.py:749-771`: `tf.unique_with_counts` of the batch's
key strings (dense, or the values of a sparse or ragged tensor). -/
def reduceBatchCountPerKey [DecidableEq K] (batch : List K) : List K × List ℚ :=
  (uniqFirst batch, (uniqFirst batch).map (fun k => (batch.count k : ℚ)))

/-- The pairs that the combine stage of `count_per_key` gets from one batch: the batch counts
split by key. -/
def countBatchPairs [DecidableEq K] (batch : List K) : Except Err (List (K × List ℚ)) :=
  let (ks, cs) := reduceBatchCountPerKey batch
  splitInputsByKey ⟨1, ks⟩ [⟨1, cs⟩]

/-- The combiner of `count_per_key`, `analyzers.py:868-880`: `NumPyCombiner(np.sum)` with
default 0 and scalar outputs; an input is the list of one scalar per argument. -/
def countCombiner : Combiner (List (Nd ℚ)) (List ℚ) (List (Nd ℚ)) :=
  (npCombiner (· + ·) 0 [some []] id).onBatches (fun args => args.map Nd.scalar)

end TFT
