import Verif.Combine.NumPy
import Verif.Mappers.TensorScaling

/-!
# Densification and hashing

Model of `sparse_tensor_to_dense_with_shape` and `hash_strings` (`mappers.py:185-220`, `1839-1885`).
-/

namespace TFT.Densify

variable {α : Type}

/-- A tensor of any rank. Dense: shape and row-major data. Sparse: indices, values and dense shape.
Ragged: nested row splits and flat values. -/
inductive Tensor (α : Type) where
  | dense (shape : List Nat) (data : List α)
  | sparse (indices : List (List Nat)) (values : List α) (denseShape : List Nat)
  | ragged (rowSplits : List (List Nat)) (values : List α)
deriving DecidableEq

/-- `new_dense_shape`, `mappers.py:209-211`. `x.dense_shape[i]` fails beyond the rank of `x`. `i` is the
position of the first of the sizes. -/
def newDenseShape (denseShape : List Nat) (i : Nat) : List (Option Int) → Except Err (List Int)
  | [] => .ok []
  | size :: rest => do
    let s ← match size with
      | none => match denseShape[i]? with
        | some n => .ok (n : Int)
        | none => .error "ValueError: slice index is out of bounds"
      | some s => .ok s
    let r ← newDenseShape denseShape (i + 1) rest
    .ok (s :: r)

/-- An index is within a shape of the same rank. -/
def inBounds : List Nat → List Nat → Bool
  | [], [] => true
  | n :: shape, i :: idx => decide (i < n) && inBounds shape idx
  | _, _ => false

/-- The operation `SparseToDense` with `validate_indices` (TensorFlow, not code of the repository).
`rank` is the number of columns of `indices`. -/
def sparseToDense (rank : Nat) (indices : List (List Nat)) (outputShape : List Int) (values : List α)
    (default : α) : Except Err (Nd α) :=
  if outputShape.any (fun n => decide (n < 0)) then .error "InvalidArgumentError: negative dimension"
  else if outputShape.length ≠ rank then
    .error "InvalidArgumentError: output_shape has incorrect number of elements"
  else if values.length ≠ indices.length then
    .error "InvalidArgumentError: sparse_values has incorrect shape"
  else
    let shape := outputShape.map Int.toNat
    if !(indices.all (inBounds shape)) then .error "InvalidArgumentError: index is out of bounds"
    else if ¬ indices.Pairwise (· < ·) then
      .error "InvalidArgumentError: indices are out of order or repeated"
    else .ok ⟨shape, (indices.zip values).foldl
      (fun data e => data.set (Scaling.flatPos shape e.1) e.2) (List.replicate shape.prod default)⟩

/-- `sparse_tensor_to_dense_with_shape`, `mappers.py:186-220`. Simplification: the default has the type of
the values. `set_shape` adds nothing: the shape is the one the operation was given. -/
def sparseTensorToDenseWithShape (x : Tensor α) (shape : List (Option Int)) (default : α) :
    Except Err (Nd α) :=
  match x with
  | .sparse indices values denseShape => do
    let newShape ← newDenseShape denseShape 0 shape
    sparseToDense denseShape.length indices newShape values default
  | _ => .error "ValueError: input must be a SparseTensor"

/-- `get_values`, `tf_utils.py:94-101`. -/
def Tensor.getValues : Tensor α → List α
  | .dense _ data => data
  | .sparse _ values _ => values
  | .ragged _ values => values

/-- `_make_composite_tensor_wrapper_if_composite`, `mappers.py:2057-2072`. -/
def Tensor.wrap {β : Type} : Tensor α → List β → Tensor β
  | .dense shape _, values => .dense shape values
  | .sparse indices _ denseShape, values => .sparse indices values denseShape
  | .ragged rowSplits _, values => .ragged rowSplits values

/-- `tf.strings.to_hash_bucket_fast` and `to_hash_bucket_strong` (TensorFlow): a 64 bit hash modulo the
number of buckets, which has to be positive; a key consists of two numbers. -/
def toHashBucket {Str : Type} (fast : Str → Nat) (strong : Nat → Nat → Str → Nat) (key : Option (List Nat))
    (hashBuckets : Int) (s : List Str) : Except Err (List Nat) :=
  if hashBuckets < 1 then .error "ValueError: num_buckets must be at least 1"
  else match key with
    | none => .ok (s.map (fun x => fast x % hashBuckets.toNat))
    | some [a, b] => .ok (s.map (fun x => strong a b x % hashBuckets.toNat))
    | some _ => .error "InvalidArgumentError: Key must have 2 elements"

/-- `hash_strings`, `mappers.py:1840-1885`. `isString` says whether the dtype is `tf.string`. The dtype is
checked again for the values of a composite tensor, with the same result. -/
def hashStrings {Str : Type} (fast : Str → Nat) (strong : Nat → Nat → Str → Nat) (isString : Bool)
    (strings : Tensor Str) (hashBuckets : Int) (key : Option (List Nat)) : Except Err (Tensor Nat) :=
  if !isString then .error "TypeError: Input to hash_strings must be of dtype string"
  else match strings with
    | .dense shape data => do
      let h ← toHashBucket fast strong key hashBuckets data
      .ok (.dense shape h)
    | composite => do
      let h ← toHashBucket fast strong key hashBuckets composite.getValues
      .ok (composite.wrap h)

end TFT.Densify
