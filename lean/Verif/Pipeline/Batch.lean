import Verif.Combine.Py
import Mathlib.Data.List.Dedup

/-!
# Transformed batches

Model of the code that turns the result of the transform graph into record batches
(`beam/impl.py`) and of the validation of sparse outputs (`impl_helper.py`).
-/

namespace TFT.Batch

/-- An element of an Arrow list column: null or a list. -/
abbrev Cell (V : Type) := Option (List V)

/-- A `pa.RecordBatch`: named columns of one length. -/
structure RecordBatch (K V : Type) where
  cols : List (K × List (Cell V))
  numRows : Nat

variable {K V : Type}

/-- `record_batch.slice(offset, length)` for the first rows. -/
def RecordBatch.take (b : RecordBatch K V) (n : Nat) : RecordBatch K V :=
  ⟨b.cols.map (fun c => (c.1, c.2.take n)), min n b.numRows⟩

/-- `record_batch.slice(offset)`. -/
def RecordBatch.drop (b : RecordBatch K V) (n : Nat) : RecordBatch K V :=
  ⟨b.cols.map (fun c => (c.1, c.2.drop n)), b.numRows - n⟩

/-- `_maybe_slice_large_record_batch`, `beam/impl.py:461-486`. The function `nbytes` is arbitrary,
`limit` is `_MAX_TRANSFORMED_BATCH_BYTES_SIZE`. The warning is left out. -/
def sliceLarge (nbytes : RecordBatch K V → Nat) (limit : Nat) (b : RecordBatch K V) :
    List (RecordBatch K V) :=
  if nbytes b > limit then
    if _h : b.numRows < 2 then [b]
    else
      sliceLarge nbytes limit (b.take (b.numRows / 2)) ++
        sliceLarge nbytes limit (b.drop (b.numRows / 2))
  else [b]
termination_by b.numRows
decreasing_by
  · simp only [RecordBatch.take]; omega
  · simp only [RecordBatch.drop]; omega

/-- A dict. -/
abbrev Dict (K C : Type) := List (K × C)

/-- The check of `_RunMetaGraphDoFn.__init__`, `beam/impl.py:296-304`. -/
def checkPassthrough [DecidableEq K] (passthrough schema : List K) : Except Err Unit :=
  if passthrough.filter (fun k => k ∉ schema) ≠ passthrough then
    .error "ValueError: passthrough_keys overlap with schema keys"
  else .ok ()

/-- `None if elem is None else elem[0]`, `beam/impl.py:530`. -/
def firstElem : Cell V → Except Err (Option V)
  | none => .ok none
  | some [] => .error "IndexError: list index out of range"
  | some (v :: _) => .ok (some v)

/-- `None if elem is None else [elem]`, `beam/impl.py:534`. -/
def toCell : Option V → Cell V
  | none => none
  | some v => some [v]

/-- The reduction of a column to one value, `beam/impl.py:526-540`. -/
def reduceUnary [DecidableEq V] (data : List (Cell V)) : Except Err (List (Cell V)) :=
  seqExcept (data.map firstElem) >>= fun elems =>
  match elems.dedup with
  | [elem] => .ok [toCell elem]
  | _ => .error
    "ValueError: Cannot pass-through data when input and output batch sizes are different"

/-- The treatment of one passthrough column in the loop of `_convert_to_record_batch`,
`beam/impl.py:519-545`: a column of the output, or a value for all rows. -/
def attach [DecidableEq V] (batchSize : Nat) (data : List (Cell V)) :
    Except Err (List (Cell V) ⊕ List (Cell V)) :=
  (if data.length ≠ batchSize ∧ data.length ≠ 1 then reduceUnary data else .ok data) >>=
    fun data => if data.length = batchSize then .ok (.inl data) else .ok (.inr data)

/-- The whole loop: the columns to append and the unary features. -/
def attachAll [DecidableEq V] (batchSize : Nat) : Dict K (List (Cell V)) →
    Except Err (Dict K (List (Cell V)) × Dict K (List (Cell V)))
  | [] => .ok ([], [])
  | (k, data) :: rest => do
    let a ← attach batchSize data
    let (cols, unary) ← attachAll batchSize rest
    match a with
    | .inl c => .ok ((k, c) :: cols, unary)
    | .inr u => .ok (cols, (k, u) :: unary)

/-- `pa.RecordBatch.from_arrays`. -/
def fromArrays (cols : List (K × List (Cell V))) (n : Nat) : Except Err (RecordBatch K V) :=
  if cols.all (fun c => c.2.length = n) then .ok ⟨cols, n⟩
  else .error "ArrowInvalid: columns of different lengths"

/-- `_convert_to_record_batch`, `beam/impl.py:489-547`. A value of `batch_dict` is a tensor of type
`T` or a passthrough column. `conv` is the converter, an arbitrary function that gives columns.
The validation of sparse values is `validateVarlen`. -/
def convertToRecordBatch {T : Type} [DecidableEq K] [DecidableEq V]
    (conv : Dict K (T ⊕ List (Cell V)) → Except Err (List (K × List (Cell V))))
    (nbytes : RecordBatch K V → Nat) (limit : Nat)
    (passthroughKeys : List K) (batch : Dict K (T ⊕ List (Cell V))) :
    Except Err (List (RecordBatch K V × Dict K (List (Cell V)))) := do
  let passthrough := passthroughKeys.filterMap (fun k =>
    match batch.lookup k with
    | some (.inr c) => some (k, c)
    | _ => none)
  let cols ← conv (batch.filter (fun e => e.1 ∉ passthroughKeys))
  match cols.head? with
  | none => .error "IndexError: list index out of range"
  | some first => do
    let batchSize := first.2.length
    let (extra, unary) ← attachAll batchSize passthrough
    let rb ← fromArrays (cols ++ extra) batchSize
    .ok ((sliceLarge nbytes limit rb).map (fun b => (b, unary)))

/-- The rows of a record batch: `record_batch_to_instance_dicts`, `impl_helper.py:191-233`,
without the conversion of the cells to Python values. -/
def RecordBatch.rows (b : RecordBatch K V) : List (Dict K (Option (Cell V))) :=
  (List.range b.numRows).map (fun i => b.cols.map (fun c => (c.1, c.2[i]?)))

/-- `_transformed_batch_to_instance_dicts`, `beam/impl.py:550-563`: the rows, with the first
value of every unary feature added to each. -/
def instanceDicts (b : RecordBatch K V × Dict K (List (Cell V))) :
    List (Dict K (Option (Cell V))) :=
  b.1.rows.map (fun row => row ++ b.2.map (fun u => (u.1, u.2[0]?)))

/-- `validate_varlen_sparse_value`, `impl_helper.py:236-261`. `width` is `indices.shape[1]`; the
rows of `indices` are given by their first two columns. -/
def validateVarlen (width : Nat) (indices : List (Int × Int)) : Except Err Unit :=
  if width ≠ 2 then .error "ValueError: Encountered non 2-D varlen sparse feature"
  else if indices.length = 0 then .ok ()
  else
    let diff := List.zipWith (fun a b : Int × Int => (b.1 - a.1, b.2 - a.2)) indices indices.tail
    if diff.any (fun d => d.1 < 0) then
      .error "ValueError: Encountered decreasing instance indices"
    else if diff.any (fun d => d.1 = 0 && d.2 ≠ 1) then
      .error "ValueError: Encountered non-consecutive value indices"
    else
      let boundaries := (List.range diff.length).filter
        (fun p => (diff[p]?.getD (0, 0)).1 ≠ 0)
      if (boundaries.map (· + 1) ++ [0]).any (fun p => (indices[p]?.getD (0, 0)).2 ≠ 0) then
        .error "ValueError: Encountered non-zero starting value indices"
      else .ok ()

end TFT.Batch
