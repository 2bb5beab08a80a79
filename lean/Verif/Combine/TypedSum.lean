import Verif.Combine.NumPy

/-!
# `tft.sum` and `tft.size` in the integer types of TensorFlow and numpy

`Combine/NumPy` models the sums in exact arithmetic. Here numbers are integers of a type with a
number of bits, and sums wrap around as they do in TensorFlow and numpy.
-/

namespace TFT.TypedSum

/-- An integer type. -/
structure IntType where
  signed : Bool
  bits : Nat
deriving DecidableEq

/-- What a sum in the type gives for the number `n` (TensorFlow and numpy: two's complement). -/
def wrap (t : IntType) (n : Int) : Int :=
  if t.signed then Int.bmod n (2 ^ t.bits) else n % 2 ^ t.bits

/-- How the tensor is reduced: over all values (`reduce_instance_dims=True`), or over the batch
dimension of a dense, sparse or ragged tensor. -/
inductive Layout where
  | whole
  | dense
  | sparse
  | ragged
deriving DecidableEq

/-- `_SUM_OUTPUT_DTYPE_MAP`, `analyzers.py:96-108`, for integers. -/
def outputType (t : IntType) : IntType := ⟨t.signed, 64⟩

/-- The type in which a batch is summed, `analyzers.py:703-714`: that of the tensor, except that
sparse tensors of small unsigned integers are cast. -/
def batchType (layout : Layout) (t : IntType) : Except Err IntType :=
  match layout with
  | .whole => .ok t
  | .sparse =>
    if t.signed = false ∧ (t.bits = 8 ∨ t.bits = 16) then .ok ⟨true, 64⟩
    else if t.signed = false ∧ (t.bits = 32 ∨ t.bits = 64) then
      .error "TypeError: Data type is not supported"
    else .ok t
  | .ragged => .error "NotImplementedError: Elementwise sum does not support RaggedTensors."
  | .dense => .ok t

/-- `tft.sum`, `analyzers.py:662-722`, for a column of integers: every batch is summed in
`batchType`, then `NumPyCombiner` sums in `outputType`, to which the result is cast. A list of
accumulators that has arrays of int64 (the zeros of `create_accumulator`) and of uint64 is promoted to
float64 by numpy, which is exact up to 2^53; this is not modelled. -/
def sum (layout : Layout) (t : IntType) (shape : List Nat) (known : Bool) :
    Except Err (Combiner (List (Nd Int)) (ColBatch Int) (List (Nd Int))) := do
  let t' ← batchType layout t
  .ok ((npCombiner (fun a b => wrap (outputType t') (a + b)) 0
      [if known then some shape else none] (wrap (outputType t'))).onBatches
    (fun cols => [⟨shape, cols.map (fun c => wrap t' c.sum)⟩]))

/-- `tft.size`, `analyzers.py:804-833`: the sum of ones of type int64. -/
def size (β : Type) (layout : Layout) (shape : List Nat) (known : Bool) :
    Except Err (Combiner (List (Nd Int)) (ColBatch β) (List (Nd Int))) := do
  let c ← sum layout ⟨true, 64⟩ shape known
  .ok (c.onBatches (fun cols => cols.map (fun c => c.map (fun _ => (1 : Int)))))

end TFT.TypedSum
