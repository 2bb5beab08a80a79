import Verif.Mappers.Scaling
import Verif.Combine.PerKey
import Verif.Combine.MeanVar
import Verif.Vocab.Reduce

/-!
# Scaling per key, from the values to the scaled values

Model of the whole of `scale_by_min_max_per_key` and `scale_to_z_score_per_key` without key file:
pairing values and keys, reducing a batch per key, combining per key, looking up the statistics of
every value's key, and scaling. Arithmetic is exact.
-/

namespace TFT.Scaling

open Reduce (gather raggedRows uniqueWithCounts)

variable {K α : Type}

/-- A tensor of a batch: a dense one (shape of an instance, and for each instance its flattened
values), a sparse one (dense shape, index and value of each entry), or a ragged one
(`nested_row_splits` and flat values). -/
inductive Col (α : Type) where
  | dense (shape : List Nat) (rows : List (List α))
  | sparse (shape : List Nat) (entries : List (List Nat × α))
  | ragged (splits : List (List Nat)) (values : List α)

/-- `isinstance(x, (tf.SparseTensor, tf.RaggedTensor))`. -/
def Col.isComposite : Col α → Bool
  | .dense _ _ => false
  | _ => true

/-- The shape of an instance of what is reduced: the values of a composite tensor are a vector. -/
def Col.instanceShape : Col α → List Nat
  | .dense shape _ => shape
  | _ => []

/-- `value_rowids` of row splits (TensorFlow). -/
def rowids (splits : List Nat) : List Nat :=
  (List.range (splits.length - 1)).flatMap
    (fun i : Nat => List.replicate (splits.getD (i + 1) 0 - splits.getD i 0) i)

/-- `tf.unique` (`tf_utils.py:1777`, `2074`) needs a vector of keys. -/
def keyVector (shape : List Nat) (rows : List (List K)) : Except Err (List K) :=
  if shape = [] then .ok rows.flatten
  else .error "InvalidArgumentError: unique expects a 1D vector."

/-- `_validate_and_get_dense_value_key_inputs`, `tf_utils.py:1541-1602`: the rows of values and the
key of each. The values of composite tensors are rows of one value each. Simplification: in TensorFlow
the comparison of the row splits of empty ragged tensors broadcasts. -/
def alignKeys (x : Col α) (key : Col K) : Except Err (List (List α) × List K) :=
  match x, key with
  | .dense _ rows, .dense shape keys => do
    let ks ← keyVector shape keys
    .ok (rows, ks)
  | .dense _ _, _ => .error "ValueError: A dense key is required if x is dense"
  | .sparse shape entries, .sparse kshape kentries =>
    if shape ≠ kshape then .error "InvalidArgumentError: assertion failed"
    else if entries.map Prod.fst ≠ kentries.map Prod.fst then
      .error "InvalidArgumentError: assertion failed"
    else .ok (entries.map (fun e => [e.2]), kentries.map Prod.snd)
  | .sparse shape entries, .dense kshape keys =>
    if keys.length < shape.headD 0 then .error "InvalidArgumentError: assertion failed"
    else do
      let ks ← keyVector kshape keys
      let ks ← gather ks (entries.map (fun e => e.1.headD 0))
      .ok (entries.map (fun e => [e.2]), ks)
  | .sparse _ _, .ragged _ _ => .error "ValueError: A sparse or dense key is required if x is sparse"
  | .ragged splits values, .ragged ksplits keys =>
    if splits ≠ ksplits then .error "InvalidArgumentError: assertion failed"
    else .ok (values.map (fun v => [v]), keys)
  | .ragged splits values, .dense kshape keys =>
    if keys.length < (splits.headD []).length - 1 then .error "InvalidArgumentError: assertion failed"
    else do
      let ks ← keyVector kshape keys
      let rows ← raggedRows (splits.map rowids)
      let ks ← gather ks rows
      .ok (values.map (fun v => [v]), ks)
  | .ragged _ _, .sparse _ _ => .error "ValueError: A ragged or dense key is required if x is ragged"

/-- The rows of segment `s`. -/
def segment {β : Type} (data : List β) (ids : List Nat) (s : Nat) : List β :=
  ((ids.zip data).filter (fun p => decide (p.1 = s))).map Prod.snd

/-- TensorFlow's `unsorted_segment_*` along the first axis, for rows with `cols` entries: `f` is the
reduction of the entries of one column. -/
def segmentReduce {β γ : Type} (f : List β → γ) (cols : Nat) (data : List (List β)) (ids : List Nat)
    (num : Nat) : Except Err (List (List γ)) :=
  if data.length ≠ ids.length then
    .error "InvalidArgumentError: data.shape does not start with segment_ids.shape"
  else .ok ((List.range num).map (fun s : Nat => (List.range cols).map (fun j : Nat =>
    f ((segment data ids s).filterMap (fun r => r[j]?)))))

/-- The shape of a statistic of one key. -/
def statShape (reduce : Bool) (shape : List Nat) : List Nat := if reduce then [] else shape

section minMax

variable [DecidableEq K] [LinearOrder α]

/-- `row_maxes`, `tf_utils.py:2063-2069`. -/
def rowMaxes (T : NumType α) (reduce : Bool) (shape : List Nat) (row : List α) : List α :=
  if !reduce || decide (shape.length + 1 < 2) then row else [reduceMax T row]

/-- `reduce_batch_minus_min_and_max_per_key`, `tf_utils.py:2026-2077`, followed by
`_split_inputs_by_key`: the pairs of key and `[-min, max]` that a batch gives to the combiner.
Checks of dtypes are not modelled. -/
def minMaxBatch (T : NumType α) (reduce : Bool) (x : Col α) (key : Col K) :
    Except Err (List (K × List (Nd α))) :=
  if !reduce && x.isComposite then
    .error "NotImplementedError: Elementwise reduction of composite tensors is not supported"
  else do
    let (rows, keys) ← alignKeys x key
    let shape := x.instanceShape
    let out := statShape reduce shape
    let u := uniqueWithCounts keys
    let maxes ← segmentReduce (reduceMax T) out.prod (rows.map (rowMaxes T reduce shape)) u.idx
      u.y.length
    let minusMins ← segmentReduce (reduceMax T) out.prod
      (rows.map (fun r => rowMaxes T reduce shape (r.map T.neg))) u.idx u.y.length
    splitInputsByKey ⟨1, u.y⟩
      [⟨out.length + 1, minusMins.map (fun d => (⟨out, d⟩ : Nd α))⟩,
       ⟨out.length + 1, maxes.map (fun d => (⟨out, d⟩ : Nd α))⟩]

/-- The combiner of `_min_and_max_per_key`, `analyzers.py:617-641`, `417-430`. `known`: the shape is
statically known. -/
def minMaxKeyCombiner (T : NumType α) (reduce known : Bool) (shape : List Nat) :
    Combiner (List (Nd α)) (List (Nd α)) (List (Nd α)) :=
  let sh := if reduce || known then some (statShape reduce shape) else none
  npCombiner max T.default [sh, sh] id

end minMax

/-- The keyed collections of the datasets: every batch is reduced to pairs by `batch`. -/
def keyedPairs {B V : Type} (batch : B → Except Err (List (K × V))) (datasets : List (List B)) :
    Except Err (List (List (K × V))) :=
  seqExcept (datasets.map (fun batches => do
    let parts ← seqExcept (batches.map batch)
    .ok parts.flatten))

/-- The statistics of all keys: keys, and two arrays for each key. -/
structure KeyStats (K α : Type) where
  keys : List K
  first : List (List α)
  second : List (List α)

/-- `_min_and_max_per_key` without key file, `analyzers.py:565-659`: the combiner per key,
`_merge_outputs_by_key`, and the negation and casts of line 656. -/
def minMaxPerKey [LinearOrder K] [LinearOrder α] (T : NumType α) (reduce known : Bool)
    (shape : List Nat) (r1s : List (KeyRun K (List (Nd α)))) (r2 : KeyRun K Nat) :
    Except Err (KeyStats K α) := do
  let outs ← perKeyAnalysis (minMaxKeyCombiner T reduce known shape) r1s r2
  match ← mergeOutputsByKey 2 outs with
  | (ks, [mm, mx]) =>
    .ok ⟨ks, mm.map (fun a => a.data.map (fun v => T.cast (T.neg v))),
      mx.map (fun a => a.data.map T.cast)⟩
  | _ => .error "not enough values to unpack"

/-- The column of a statistic that belongs to position `p` of an instance. -/
def statColumn {β : Type} (reduce : Bool) (p : Nat) (t : List (List β)) : List β :=
  t.filterMap (fun a => a[if reduce then 0 else p]?)

/-- One statistic per position of an instance: applies `f` to every value of every row, with the row's
key and the position. Simplification: other numbers of keys than of rows, which TensorFlow broadcasts
or rejects, are an error. -/
def mapInstances {β γ : Type} (f : K → Nat → β → Except Err γ) (rows : List (List β))
    (keys : List K) : Except Err (List (List γ)) :=
  if rows.length ≠ keys.length then .error "InvalidArgumentError: Incompatible shapes"
  else seqExcept (List.zipWith (fun k row => seqExcept (row.zipIdx.map (fun v => f k v.2 v.1)))
    keys rows)

/-- The result with the values of `rows` in the layout of `x`,
`_make_composite_tensor_wrapper_if_composite`, `mappers.py:2057-2072`. -/
def Col.withRows {β : Type} (x : Col α) (rows : List (List β)) : Col β :=
  match x with
  | .dense shape _ => .dense shape rows
  | .sparse shape entries =>
    .sparse shape (List.zipWith (fun e v => (e.1, v)) entries rows.flatten)
  | .ragged splits _ => .ragged splits rows.flatten

/-- `scale_by_min_max_per_key` without key file, `mappers.py:296-372`, `375-455`, for one batch, from
the results of the analysis. -/
noncomputable def scaleBatchPerKey [DecidableEq K] (outputMin outputMax : ℝ) (reduce : Bool)
    (stats : KeyStats K EFloat) (x : Col ℝ) (key : Col K) : Except Err (Col ℝ) :=
  if outputMin ≥ outputMax then .error "ValueError: output_min must be less than output_max"
  else if !reduce && x.isComposite then
    .error "NotImplementedError: Per-key elementwise reduction of Composite Tensors not supported"
  else do
    let (rows, keys) ← alignKeys x key
    let rows ← mapInstances (fun k p v => scaleByMinMaxPerKey outputMin outputMax stats.keys
      (statColumn reduce p stats.first) (statColumn reduce p stats.second) v k) rows keys
    .ok (x.withRows rows)

section meanVar

variable [DecidableEq K]

/-- The count, mean and variance of one column of one key,
`reduce_batch_count_mean_and_var_per_key`, `tf_utils.py:1780-1802`. -/
def keyColStats (xs : List Elem) : MVCol :=
  let count : Nat := (xs.map (fun x => if x.isSome then 1 else 0)).sum
  let sums : ℚ := (xs.map (fun x => x.getD 0)).sum
  let mean : ℚ := divNoNan sums count
  let sumSqs : ℚ := (xs.map (fun x => (x.getD 0) ^ 2)).sum
  ⟨count, some mean, some (divNoNan sumSqs count - mean ^ 2), some 0⟩

/-- The statistics of the segments, `tf_utils.py:1781-1802`. -/
def keySegments (reduce : Bool) (shape : List Nat) (rows : List (List Elem)) (ids : List Nat)
    (num : Nat) : Except Err (List MVAcc) :=
  if reduce then
    segmentReduce (fun rs : List (List Elem) => keyColStats rs.flatten) 1
      (rows.map (fun r => [r])) ids num
  else segmentReduce keyColStats shape.prod rows ids num

/-- `reduce_batch_count_mean_and_var_per_key`, `tf_utils.py:1745-1804`, followed by
`_split_inputs_by_key`. Simplification: the sums over the values of a row (`axis=1`) and then over the
rows of a key are one sum over all these values. For instances of rank two and more, `axis=1` is not
all of the instance; this case is `meanVarBatchHigh` in `Mappers/PerKeyHighRank`. -/
def meanVarBatch (reduce : Bool) (x : Col Elem) (key : Col K) : Except Err (List (K × MVAcc)) :=
  if !reduce && x.isComposite then
    .error "NotImplementedError: Mean and var per key only support reduced dims for CompositeTensors"
  else do
    let (rows, keys) ← alignKeys x key
    let shape := x.instanceShape
    if reduce && decide (2 ≤ shape.length) then throw "see meanVarBatchHigh"
    let u := uniqueWithCounts keys
    let stats ← keySegments reduce shape rows u.idx u.y.length
    let kvs ← splitInputsByKey ⟨1, u.y⟩ [⟨(statShape reduce shape).length + 1, stats⟩]
    .ok (kvs.map (fun kv => (kv.1, kv.2.flatten)))

/-- The combiner of `_mean_and_var_per_key`, `analyzers.py:1222-1232`. -/
def meanVarKeyCombiner (reduce : Bool) (shape : List Nat) : Except Err (Combiner MVAcc MVAcc MVOut) :=
  mvCombiner true false (statShape reduce shape).prod

end meanVar

/-- The two outputs of the combiner. -/
def MVOut.pair : MVOut → List (List Num)
  | .meanVar m v => [m, v]
  | .full _ => []

/-- `_mean_and_var_per_key` without key file, `analyzers.py:1170-1248`. -/
def meanVarPerKey [LinearOrder K] (reduce : Bool) (shape : List Nat)
    (r1s : List (KeyRun K MVAcc)) (r2 : KeyRun K Nat) : Except Err (KeyStats K Num) := do
  let c ← meanVarKeyCombiner reduce shape
  let outs ← perKeyAnalysis c r1s r2
  match ← mergeOutputsByKey 2 (outs.map (fun ko => (ko.1, MVOut.pair ko.2))) with
  | (ks, [m, v]) => .ok ⟨ks, m, v⟩
  | _ => .error "not enough values to unpack"

/-- A value that may be NaN: a NaN stays NaN. -/
noncomputable def zScoreValue [DecidableEq K] (reduce : Bool) (stats : KeyStats K Num) (k : K)
    (p : Nat) (v : Option ℝ) : Except Err (Option ℝ) := do
  let z ← zScorePerKey stats.keys (statColumn reduce p stats.first)
    (statColumn reduce p stats.second) (v.getD 0) k
  .ok (v.bind (fun _ => z))

/-- `scale_to_z_score_per_key` without key file, `mappers.py:597-729`, for one batch, from the results
of the analysis. `none` is NaN. -/
noncomputable def zScoreBatchPerKey [DecidableEq K] (reduce : Bool) (stats : KeyStats K Num)
    (x : Col (Option ℝ)) (key : Col K) : Except Err (Col (Option ℝ)) :=
  if !reduce && x.isComposite then
    .error "NotImplementedError: Per-key elementwise reduction of Composite Tensors not supported"
  else do
    let (rows, keys) ← alignKeys x key
    let rows ← mapInstances (zScoreValue reduce stats) rows keys
    .ok (x.withRows rows)

end TFT.Scaling
