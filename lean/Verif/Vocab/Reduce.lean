import Verif.Vocab.Model
import Verif.Combine.WeightedMean

/-!
# Reduction of a batch before the vocabulary is computed

Model of `reduce_batch_weighted_counts` and `reduce_batch_weighted_cooccurrences`
(`tf_utils.py:159-542`) and of the conversion of their results to keyed values
(`beam/analyzer_impls.py:582-671`). Weights are exact numbers; labels are 64 bit integers without
overflow.
-/

namespace TFT.Reduce

variable {T : Type} [DecidableEq T]

/-- The result of `tf.unique_with_counts`. -/
structure Unique (T : Type) where
  y : List T
  idx : List Nat
  count : List Nat

/-- `tf.unique_with_counts` (TensorFlow). -/
def uniqueWithCounts (x : List T) : Unique T :=
  { y := uniqFirst x
    idx := x.map (fun t => (uniqFirst x).idxOf t)
    count := (uniqFirst x).map (fun t => x.count t) }

/-- `tf.math.unsorted_segment_sum` (TensorFlow): negative segment ids are dropped, ids that are too
large are an error. -/
def segmentSum (data : List ℚ) (ids : List Int) (num : Int) : Except Err (List ℚ) :=
  if data.length ≠ ids.length then .error "InvalidArgumentError: data.shape does not start with segment_ids.shape"
  else if num < 0 then .error "InvalidArgumentError: Input num_segments must be non-negative"
  else if ids.any (fun i => decide (num ≤ i)) then
    .error "InvalidArgumentError: segment_ids is out of range"
  else .ok ((List.range num.toNat).map (fun s : Nat =>
    (((ids.zip data).filter (fun p => decide (p.1 = (s : Int)))).map Prod.snd).sum))

/-- The result of a reduction: the fields of `ReducedBatchWeightedCounts` (`tf_utils.py:56-64`). -/
structure Reduced (T : Type) where
  unique : List T
  weights : Option (List ℚ)
  positive : Option (List (List ℚ))
  counts : Option (List Nat)

/-- `reduce_batch_weighted_counts`, `tf_utils.py:159-202`, on the flattened tensors. `drop` are the
tokens matched by `filter_regex`. -/
def reduceBatchWeightedCounts (drop : T → Bool) (force : Bool) (x : List T)
    (weights : Option (List ℚ)) : Except Err (Reduced T) :=
  let kept := x.filter (fun t => !drop t)
  match weights with
  | none =>
    if force then
      .ok ⟨(uniqueWithCounts kept).y, none, none, some (uniqueWithCounts kept).count⟩
    else .ok ⟨kept, none, none, none⟩
  | some w =>
    if w.length ≠ x.length then .error "InvalidArgumentError: mask and tensor do not match"
    else do
      let w' := ((x.zip w).filter (fun p => !drop p.1)).map Prod.snd
      let u := uniqueWithCounts kept
      let s ← segmentSum w' (u.idx.map (fun i : Nat => (i : Int))) u.y.length
      .ok ⟨u.y, some s, none, none⟩

/-- A batch of tokens: a dense tensor (its shape and for each instance its flattened values), a sparse
one (batch size, and row and value of each entry), or a ragged one (number of rows,
`nested_value_rowids` and flat values). -/
inductive XInput (T : Type) where
  | dense (shape : List Nat) (rows : List (List T))
  | sparse (batch : Nat) (entries : List (Nat × T))
  | ragged (nrows : Nat) (rowids : List (List Nat)) (values : List T)

/-- A batch of labels: a dense vector, or a sparse matrix (rows, columns, entries). -/
inductive YInput where
  | dense (y : List Int)
  | sparse (rows cols : Nat) (entries : List ((Nat × Nat) × Int))

/-- A tensor of weights: its shape and flattened values. -/
structure Weights where
  shape : List Nat
  values : List ℚ

/-- `tf.gather` (TensorFlow). -/
def gather {α : Type} (l : List α) (idx : List Nat) : Except Err (List α) :=
  seqExcept (idx.map (fun i =>
    match l[i]? with
    | some a => .ok a
    | none => .error "InvalidArgumentError: indices are out of bounds"))

/-- The loop of `_get_ragged_batch_value_rowids`, `tf_utils.py:136-141`, over the outer row ids,
innermost first. -/
def composeRowids (outer : List (List Nat)) (result : List Nat) : Except Err (List Nat) :=
  match outer with
  | [] => .ok result
  | r :: outer => do
    let next ← gather r result
    composeRowids outer next

/-- `_get_ragged_batch_value_rowids`, `tf_utils.py:136-141`. -/
def raggedRows (rowids : List (List Nat)) : Except Err (List Nat) :=
  match rowids.reverse with
  | [] => .error "IndexError: list index out of range"
  | inner :: outer => composeRowids outer inner

/-- The flattened values and, for each, its instance, with the checks of
`_preprocess_tensors_for_cooccurences` and `_broadcast_to_x_shape` (`tf_utils.py:392-412`,
`609-617`) against the number of labels; and the shape of the tensor of values. -/
def valuesAndRows (x : XInput T) (labels : Nat) : Except Err (List Nat × List (Nat × T)) :=
  match x with
  | .dense shape rows =>
    if rows.length ≠ labels then .error "InvalidArgumentError: assertion failed"
    else .ok (shape, (rows.zipIdx.map (fun p => p.1.map (fun t => (p.2, t)))).flatten)
  | .sparse batch entries =>
    if labels ≠ batch then .error "InvalidArgumentError: assertion failed"
    else .ok ([entries.length], entries)
  | .ragged nrows rowids values =>
    if labels < nrows then .error "InvalidArgumentError: assertion failed"
    else do
      let rows ← raggedRows rowids
      .ok ([values.length], rows.zip values)

/-- The weights of the values: `tf.ones_like` or the given ones, which must have the shape of the
values (`tf_utils.py:413-417`, `620-636`). -/
def weightsFor (shape : List Nat) (n : Nat) (w : Option Weights) : Except Err (List ℚ) :=
  match w with
  | none => .ok (List.replicate n 1)
  | some w =>
    if w.shape ≠ shape then .error "InvalidArgumentError: assertion failed"
    else .ok w.values

/-- One value that is counted: token, label, weight. -/
structure Occ (T : Type) where
  token : T
  label : Int
  weight : ℚ

/-- `_preprocess_tensors_for_cooccurences`, `tf_utils.py:374-424`, for a dense vector of labels. -/
def preprocess (drop : T → Bool) (x : XInput T) (y : List Int) (w : Option Weights) :
    Except Err (List (Occ T)) := do
  let (shape, vals) ← valuesAndRows x y.length
  let labels ← gather y (vals.map Prod.fst)
  let ws ← weightsFor shape vals.length w
  .ok ((List.zipWith (fun v p => (⟨v.2, p.1, p.2⟩ : Occ T)) vals (labels.zip ws)).filter
    (fun o => !drop o.token))

/-- `flattened_index`, `tf_utils.py:349-361`. -/
def flatIndex (maxY : Int) (i : Nat) (label : Int) : Int :=
  if label = -1 then -1 else (maxY + 1) * i + label

/-- The result of `_compute_weighted_counts`. -/
structure WeightedCounts (T : Type) where
  unique : List T
  weights : List ℚ
  positive : List (List ℚ)
  counts : List Nat
deriving DecidableEq

/-- `tf.reshape` of a vector to a matrix (TensorFlow). -/
def reshape2 (l : List ℚ) (rows : Nat) (cols : Int) : Except Err (List (List ℚ)) :=
  if cols < 0 then .error "InvalidArgumentError: Size 1 must be non-negative"
  else .ok ((List.range rows).map (fun i =>
    (List.range cols.toNat).map (fun j => l.getD (i * cols.toNat + j) 0)))

/-- `_compute_weighted_counts`, `tf_utils.py:315-371`, after the preprocessing. -/
def computeWeightedCounts (occs : List (Occ T)) (maxY : Int) : Except Err (WeightedCounts T) := do
  let u := uniqueWithCounts (occs.map Occ.token)
  let ws := occs.map Occ.weight
  let sums ← segmentSum ws (u.idx.map (fun i : Nat => (i : Int))) u.y.length
  let flat := List.zipWith (fun i o => flatIndex maxY i o.label) u.idx occs
  let pos ← segmentSum ws flat ((u.y.length : Int) * (maxY + 1))
  let mat ← reshape2 pos u.y.length (maxY + 1)
  .ok ⟨u.y, sums, mat, u.count⟩

/-- `tf.reduce_max` of 64 bit integers (TensorFlow). -/
def reduceMax (l : List Int) : Int := l.foldl max (-(2 ^ 63))

/-- `tf.sparse.to_dense` (TensorFlow), by columns. -/
def columns (rows cols : Nat) (entries : List ((Nat × Nat) × Int)) (default : Int) :
    List (List Int) :=
  (List.range cols).map (fun j => (List.range rows).map (fun i =>
    ((entries.find? (fun e => decide (e.1 = (i, j)))).map Prod.snd).getD default))

/-- The sum over the first axis of matrices of the same shape. -/
def sumMatrices (ms : List (List (List ℚ))) : List (List ℚ) :=
  match ms with
  | [] => []
  | m :: ms => ms.foldl (fun a b => List.zipWith (List.zipWith (· + ·)) a b) m

/-- The number of instances that the labels are for. -/
def YInput.batch : YInput → Nat
  | .dense y => y.length
  | .sparse rows _ _ => rows

/-- `reduce_batch_weighted_cooccurrences` with `extend_with_sentinel_counts=False`,
`tf_utils.py:243-306`. -/
def cooccurrences (drop : T → Bool) (x : XInput T) (y : YInput) (w : Option Weights) :
    Except Err (WeightedCounts T) :=
  match y with
  | .dense y => do
    let occs ← preprocess drop x y w
    computeWeightedCounts occs (reduceMax y)
  | .sparse rows cols entries => do
    let maxY := reduceMax (columns rows cols entries 0).flatten
    let results ← seqExcept ((columns rows cols entries (-1)).map (fun col => do
      let occs ← preprocess drop x col w
      computeWeightedCounts occs maxY))
    match results with
    | [] => .error "InvalidArgumentError: slice index 0 of dimension 0 out of bounds"
    | r :: _ => .ok { r with positive := sumMatrices (results.map WeightedCounts.positive) }

/-- `extend_reduced_batch_with_y_counts`, `tf_utils.py:486-542`. The sentinel batch is not filtered. -/
def extendWithYCounts (sentinel : T) (r : WeightedCounts T) (y : YInput) (w : Option Weights) :
    Except Err (WeightedCounts T) := do
  let s ← cooccurrences (fun _ => false)
    (.dense [y.batch] (List.replicate y.batch [sentinel])) y w
  .ok ⟨r.unique ++ s.unique, r.weights ++ s.weights, r.positive ++ s.positive, r.counts ++ s.counts⟩

/-- `reduce_batch_weighted_cooccurrences`, `tf_utils.py:205-312`. -/
def reduceBatchWeightedCooccurrences (drop : T → Bool) (sentinel : T) (x : XInput T) (y : YInput)
    (w : Option Weights) : Except Err (WeightedCounts T) := do
  let r ← cooccurrences drop x y w
  extendWithYCounts sentinel r y w

/-- `_make_count_and_weights_means_accumulator`, `beam/analyzer_impls.py:628-644`. -/
def makeAccumulator (sumPositive : List ℚ) (total : Option ℚ) (count : Nat) : WMAcc :=
  match total with
  | none => ⟨count, sumPositive.map (fun s => Num.div (some s) (some (count : ℚ))), none⟩
  | some w => ⟨count, sumPositive.map (fun s => Num.div (some s) (some w)),
      Num.div (some w) (some (count : ℚ))⟩

/-- `_flatten_to_key_and_means_accumulator_list`, `beam/analyzer_impls.py:647-671`; `zip_longest`
with the empty list of weights gives `None`. -/
def toAccumulators (computeWeighted : Bool) (r : WeightedCounts T) : List (T × WMAcc) :=
  r.unique.zip (List.zipWith (fun p (q : Option ℚ × Nat) => makeAccumulator p q.1 q.2) r.positive
    ((if computeWeighted then r.weights.map some else List.replicate r.counts.length none).zip
      r.counts))

/-- `sum_labeled_weights`, the inner loop, `beam/analyzer_impls.py:265-270`. -/
def addLabeled (acc new : List ℚ) : List ℚ :=
  List.zipWith (· + ·) (acc ++ List.replicate (new.length - acc.length) 0)
    (new ++ List.replicate (acc.length - new.length) 0)

/-- `sum_labeled_weights`, `beam/analyzer_impls.py:247-271`. -/
def sumLabeledWeights (accs : List (ℚ × List ℚ)) : ℚ × List ℚ :=
  accs.foldl (fun s a => (s.1 + a.1, addLabeled s.2 a.2)) (0, [])

end TFT.Reduce
