import Verif.Combine.PerKey

/-!
# Sparse text mappers

Model of `segment_indices`, `word_count`, `sparse_tensor_left_align`,
`deduplicate_tensor_per_row`, `ngrams` and `bag_of_words`.
-/

namespace TFT.Sparse

/-- A two-dimensional `tf.SparseTensor`: `indices` and `values` zipped, and `dense_shape`. -/
structure Tensor (α : Type) where
  entries : List ((Nat × Nat) × α)
  rows : Nat
  cols : Nat
deriving DecidableEq

/-- `tf.math.segment_sum(tf.ones_like(ids), ids)` of TensorFlow: ids must not decrease; the
result has one entry for every id up to the last one, 0 for the ids that do not occur. -/
def segmentLengths (ids : List Nat) : Except Err (List Nat) :=
  if ids.Pairwise (· ≤ ·) then
    .ok (match ids.getLast? with
      | none => []
      | some m => (List.range (m + 1)).map (fun i => ids.count i))
  else .error "InvalidArgumentError: segment ids are not increasing"

/-- `tf.concat([[0], tf.cumsum(l)], 0)`. -/
def startsFrom (acc : Nat) : List Nat → List Nat
  | [] => [acc]
  | n :: l => acc :: startsFrom (acc + n) l

/-- One lookup of `tf.gather`. -/
def gather1 {β : Type} (params : List β) (i : Nat) : Except Err β :=
  match params[i]? with
  | some s => .ok s
  | none => .error "InvalidArgumentError: indices out of range"

/-- `segment_indices`, `mappers.py:1374-1415`. The ids are naturals (TensorFlow rejects negative
ids); a gather out of range is an error. -/
def segmentIndices (ids : List Nat) : Except Err (List Int) := do
  let lengths ← segmentLengths ids
  let starts ← seqExcept (ids.map (gather1 (startsFrom 0 lengths)))
  .ok (List.zipWith (fun (p s : Nat) => (p : Int) - (s : Int)) (List.range ids.length) starts)

/-- `word_count`, `mappers.py:1787-1837`, sparse branch: `tf.sparse.reduce_sum` of ones over all
axes but the first. Two-dimensional input only. -/
def wordCountSparse {α : Type} (x : Tensor α) : List Nat :=
  (List.range x.rows).map (fun i => ((x.entries.filter (fun e => e.1.1 = i)).map (fun _ => 1)).sum)

/-- `word_count`, `mappers.py:1787-1837`, ragged branch: `row_lengths` of the nested row
splits (`row_splits[i+1] - row_splits[i]`). -/
def wordCountRagged (rowSplits : List Nat) : List Nat :=
  List.zipWith (fun a b => b - a) rowSplits rowSplits.tail

/-- `tf.sparse.reorder`: entries in row-major order (stable). -/
def reorder {α : Type} (x : Tensor α) : Tensor α :=
  ⟨x.entries.insertionSort (fun a b => a.1.1 < b.1.1 ∨ (a.1.1 = b.1.1 ∧ a.1.2 ≤ b.1.2)),
    x.rows, x.cols⟩

/-- `tf.ragged.range(counts).flat_values`. -/
def raggedRange (counts : List Nat) : List Nat := counts.flatMap List.range

/-- `sparse_tensor_left_align`, `mappers.py:224-253`. Inputs of another rank, which the code
rejects, are not expressible. -/
def leftAlign {α : Type} (x : Tensor α) : Tensor α :=
  let r := reorder x
  let rowIds := r.entries.map (fun e => e.1.1)
  let counts := (uniqFirst rowIds).map (fun i => rowIds.count i)
  { entries := List.zipWith (fun i v => (i, v)) (List.zip rowIds (raggedRange counts))
      (r.entries.map Prod.snd)
    rows := r.rows
    cols := r.cols }

/-- The loop state of `_deduplicate_tensor_per_row`, `mappers.py:1481-1505`: the `TensorArray`s
of indices and values (one element per row written so far) and `max_unique`. -/
structure DedupState (α : Type) where
  indices : List (List (Nat × Nat))
  values : List (List α)
  maxUnique : Nat

/-- `_deduplicate_row`, `mappers.py:1540-1570`: one iteration, for the row values `row`. -/
def dedupRow {α : Type} [DecidableEq α] (st : DedupState α) (index : Nat) (row : List α) :
    DedupState α :=
  let rowValues := uniqFirst row
  { indices := st.indices ++ [(List.range rowValues.length).map (fun j => (index, j))]
    values := st.values ++ [rowValues]
    maxUnique := max rowValues.length st.maxUnique }

/-- `_deduplicate_tensor_per_row`, `mappers.py:1508-1588`: a loop over the rows, which
`rowAt` extracts (`tf.sparse.slice(...).values` or `input_tensor[index]`), then the concatenation
of the arrays. -/
def dedupLoop {α : Type} [DecidableEq α] (rowAt : Nat → List α) (batch : Nat) : Tensor α :=
  let st := (List.range batch).foldl (fun st i => dedupRow st i (rowAt i)) ⟨[], [], 0⟩
  { entries := List.zip st.indices.flatten st.values.flatten
    rows := batch
    cols := st.maxUnique }

/-- Inputs of `deduplicate_tensor_per_row`: dense of rank 1 or 2, sparse of rank 2. -/
inductive DedupInput (α : Type) where
  | dense1 (values : List α)
  | dense2 (rows : List (List α))
  | sparse (x : Tensor α)
  | higherRank

/-- `deduplicate_tensor_per_row`, `mappers.py:1419-1478`. Static or dynamic knowledge of the rank
makes no difference; rank-1 sparse inputs, returned as they are, are left out. -/
def deduplicate {α : Type} [DecidableEq α] : DedupInput α → Except Err (Tensor α)
  | .dense1 vs => .ok
      { entries := List.zip ((List.range vs.length).map (fun i => (i, 0))) vs
        rows := vs.length
        cols := 1 }
  | .dense2 rows => .ok (dedupLoop (fun i => (rows[i]?).getD []) rows.length)
  | .sparse x => .ok
      (dedupLoop (fun i => (x.entries.filter (fun e => e.1.1 = i)).map Prod.snd) x.rows)
  | .higherRank => .error "ValueError: Deduplication assumes a rank 2 tensor"

abbrev Str := List Char

/-- `_sliding_windows`, `mappers.py:1718-1726`. -/
def slidingWindows {β : Type} (values : List β) (numShifts : Nat) (fill : β) : List (List β) :=
  let buffered := values ++ List.replicate (numShifts - 1) fill
  (List.range numShifts).map (fun i => (buffered.drop i).take values.length)

/-- `tf.strings.join(tensors, separator)`: elementwise; `mappers.py:1734-1738`. -/
def stringJoin (sep : Str) : List (List Str) → List Str
  | [] => []
  | [c] => c
  | c :: cs => List.zipWith (fun a b => a ++ sep ++ b) c (stringJoin sep cs)

/-- `tf.stack(columns, 1)` for columns of length `n`. -/
def stack1 {β : Type} (n : Nat) : List (List β) → List (List β)
  | [] => List.replicate n []
  | c :: cs => List.zipWith List.cons c (stack1 n cs)

/-- `tf.equal(tf.math.cumprod(tf.cast(row == first)), 1)` for one row. -/
def cumAll : Bool → List Bool → List Bool
  | _, [] => []
  | acc, b :: bs => (acc && b) :: cumAll (acc && b) bs

/-- `tf.boolean_mask` of a matrix with a matrix mask: row-major selection. -/
def booleanMask {β : Type} (xs : List (List β)) (mask : List (List Bool)) : List β :=
  (List.zip xs.flatten mask.flatten).filterMap (fun p => if p.2 then some p.1 else none)

/-- `tf.maximum(tf.reduce_max(l), -1) + 1`. -/
def maxPlusOne (l : List Int) : Nat := (l.foldl max (-1) + 1).toNat

/-- `ngrams`, `mappers.py:1630-1783`. -/
def ngrams (tokens : Tensor Str) (lo hi : Nat) (sep : Str) : Except Err (Tensor Str) := do
  if lo < 1 ∨ hi < lo then throw "ValueError: Invalid ngram_range"
  let rowIds := tokens.entries.map (fun e => (e.1.1 : Int))
  let shiftedBatch := slidingWindows rowIds (hi + 1) (-1)
  let shiftedTokens := slidingWindows (tokens.entries.map Prod.snd) (hi + 1) []
  let n := tokens.entries.length
  let ngramsArray := (List.range' lo (hi + 1 - lo)).map (fun k => stringJoin sep (shiftedTokens.take k))
  let ngramsTensor := stack1 n ngramsArray
  let equalFirst := List.zipWith (fun row first => row.map (fun b => decide (b = first)))
    (stack1 n shiftedBatch) (shiftedBatch.headD [])
  let valid := (equalFirst.map (cumAll true)).map (fun r => (r.take hi).drop (lo - 1))
  let batchIndices := tokens.entries.map (fun e => List.replicate (hi + 1 - lo) e.1.1)
  let batchSel := booleanMask batchIndices valid
  let ngramSel := booleanMask ngramsTensor valid
  let instances ← segmentIndices batchSel
  .ok { entries := List.zip (List.zip batchSel (instances.map Int.toNat)) ngramSel
        rows := tokens.rows
        cols := maxPlusOne instances }

/-- `bag_of_words`, `mappers.py:1591-1627`. -/
def bagOfWords (tokens : Tensor Str) (lo hi : Nat) (sep : Str) : Except Err (Tensor Str) := do
  let all ← ngrams tokens lo hi sep
  deduplicate (.sparse all)

end TFT.Sparse
