import Verif.Combine.Py
import Mathlib.Data.Rat.Defs
import Mathlib.Algebra.Order.Field.Rat
import Mathlib.Order.WithBot
import Mathlib.Algebra.BigOperators.Group.List.Basic

/-!
# `NumPyCombiner` and the analyzers `sum`, `size`, `min`, `max` built on it

Arrays are given by shape and row-major data, of any rank. Float arithmetic is exact
arithmetic in `ℚ`; for `min`/`max` the infinities (and, where the code treats it specially,
NaN) are values of their own. Integer `min`/`max` models the wrap-around of `0 - x`.
-/

namespace TFT

/-- A numpy array: shape and row-major data. A 0-dim array has shape `[]` and one entry. -/
structure Nd (α : Type) where
  shape : List Nat
  data : List α
deriving DecidableEq

namespace Nd
variable {α : Type}

/-- `np.array(v)` for a scalar `v` (`analyzers.py:264`). -/
def scalar (v : α) : Nd α := ⟨[], [v]⟩

/-- `np.full(shape, v)` (`analyzers.py:298`). -/
def full (shape : List Nat) (v : α) : Nd α := ⟨shape, List.replicate shape.prod v⟩

/-- `fn([a, b], axis=0)` for two arrays and a ufunc-style reduction `op`
(`np.sum`, `np.max`, `np.nanmax`). numpy raises `ValueError` when the shapes differ. -/
def combine2 (op : α → α → α) (a b : Nd α) : Except Err (Nd α) :=
  if a.shape = b.shape then .ok ⟨a.shape, List.zipWith op a.data b.data⟩
  else .error "ValueError: inhomogeneous shape"

/-- `fn(list_of_arrays, axis=0)` (`analyzers.py:308`, `326`). -/
def reduce0 (op : α → α → α) : List (Nd α) → Except Err (Nd α)
  | [] => .error "ValueError: zero-size array"
  | a :: as => as.foldlM (combine2 op) a

end Nd

/-- `analyzers.py:277-287`: is the array the 0-dim array holding the default? Both variants
(NaN default or not) are equality here, because NaN is an ordinary value of `α`. -/
def isDefaultSub {α : Type} [DecidableEq α] (d : α) (a : Nd α) : Bool :=
  decide (a = Nd.scalar d)

/-- `analyzers.py:305`, `321`: `accumulator[0]` is the default. The index error of an empty
accumulator is not modelled: there is at least one output. -/
def isDefaultAcc {α : Type} [DecidableEq α] (d : α) (acc : List (Nd α)) : Bool :=
  match acc with
  | [] => false
  | a :: _ => isDefaultSub d a

/-- `_create_sub_accumulator`, `analyzers.py:292-298`. -/
def createSub {α : Type} (d : α) (shape : Option (List Nat)) : Nd α :=
  match shape with
  | none => Nd.scalar d
  | some sh => Nd.full sh d

/-- `NumPyCombiner`, `analyzers.py:250-344`. `op` is the binary form of `fn`, `d` is
`default_accumulator_value`, `shapes` is `output_shapes`, and `cast` is the `astype` of
`extract_output` (332-338). The constructor's type checks are not modelled. -/
def npCombiner {α : Type} [DecidableEq α] (op : α → α → α) (d : α)
    (shapes : List (Option (List Nat))) (cast : α → α) :
    Combiner (List (Nd α)) (List (Nd α)) (List (Nd α)) where
  create := shapes.map (createSub d)
  addInput := fun acc batch =>
    if isDefaultAcc d acc then .ok batch
    else seqExcept (List.zipWith (fun a b => Nd.reduce0 op [a, b]) acc batch)
  merge := fun accs =>
    let nonDefault := accs.filter (fun acc => !isDefaultAcc d acc)
    if nonDefault.isEmpty then .ok (shapes.map (createSub d))
    else seqExcept ((zipStar nonDefault).map (Nd.reduce0 op))
  extract := fun acc => .ok (acc.map (fun a => ⟨a.shape, a.data.map cast⟩))

/-- A batch by columns: for every position of the instance shape, the values of the rows at
that position. With `reduce_instance_dims=True` there is one column with all values. -/
abbrev ColBatch (α : Type) := List (List α)

/-- `tft.sum`, `analyzers.py:673-722`: `tf.reduce_sum` of the batch (all values, or axis 0),
then `NumPyCombiner` with `np.sum` and default 0. `shape` is the shape of the reduced tensor
and `known` tells whether it is statically known (`analyzers.py:359-363`; always so for the
scalar case, 420-422). Overflow is modelled in `Combine/TypedSum`. -/
def sumAnalyzer (shape : List Nat) (known : Bool) : Combiner (List (Nd ℚ)) (ColBatch ℚ) (List (Nd ℚ)) :=
  (npCombiner (· + ·) 0 [if known then some shape else none] id).onBatches
    (fun cols => [⟨shape, cols.map List.sum⟩])

/-- `tft.size`, `analyzers.py:804-833`: `sum` of `ones_like(x)`. -/
def sizeAnalyzer (β : Type) (shape : List Nat) (known : Bool) :
    Combiner (List (Nd ℚ)) (ColBatch β) (List (Nd ℚ)) :=
  (sumAnalyzer shape known).onBatches (fun cols => cols.map (fun c => c.map (fun _ => (1 : ℚ))))

/-- What `min`/`max` need to know about a dtype. -/
structure NumType (α : Type) where
  /-- `0 - x` in the dtype in which the reduction runs -/
  neg : α → α
  /-- `default_accumulator_value` -/
  default : α
  /-- `tf.reduce_max` of no values -/
  lowest : α
  /-- `tf.cast(_, output_dtype)` -/
  cast : α → α

/-- Floats without NaN. `⊥` is `-inf`, `⊤` is `+inf`. -/
abbrev EFloat := WithBot (WithTop ℚ)

/-- Negation of floats. -/
def EFloat.neg : EFloat → EFloat
  | none => some none
  | some none => none
  | some (some q) => some (some (-q))

/-- `analyzers.py:545-549`: for floats the default is `-inf`. -/
def floatType : NumType EFloat := ⟨EFloat.neg, ⊥, ⊥, id⟩

/-- Floats for the elementwise reduction of a `SparseTensor`, `analyzers.py:532-537`:
`np.nanmax` with default NaN, and NaN for a column without finite values
(`tf_utils.py:1921-1966`). NaN is `⊥`, because `nanmax` ignores it; infinities are not
modelled here. -/
def sparseFloatType : NumType (WithBot ℚ) := ⟨fun x => x.map (fun q => -q), ⊥, ⊥, id⟩

/-- Signed machine integers of `bits` bits: `int32`, `int64` (and `int8`, where TF supports
it). The default is `-dtype.max`; `0 - x` wraps around for the smallest value. -/
def signedType (bits : Nat) : NumType Int where
  neg := fun x => if x = -(2 ^ (bits - 1)) then x else -x
  default := -(2 ^ (bits - 1) - 1)
  lowest := -(2 ^ (bits - 1))
  cast := id

/-- `uint8` and `uint16` (`bits` = 8, 16): values are cast to `int32` for the reduction
(`tf_utils.py:1992-1993`), the default is `-dtype.max` of the unsigned dtype, and the result
is cast back modulo `2 ^ bits`. -/
def unsignedType (bits : Nat) : NumType Int where
  neg := fun x => if x = -(2 ^ 31) then x else -x
  default := -(2 ^ bits - 1)
  lowest := -(2 ^ 31)
  cast := fun x => x % 2 ^ bits

/-- `int16`: values are cast to `int32` (`tf_utils.py:1992-1993`), default `-dtype.max` of
`int16`, result cast back. -/
def int16Type : NumType Int where
  neg := fun x => if x = -(2 ^ 31) then x else -x
  default := -(2 ^ 15 - 1)
  lowest := -(2 ^ 31)
  cast := fun x => (x + 2 ^ 15) % 2 ^ 16 - 2 ^ 15

variable {α : Type} [LinearOrder α]

/-- `tf.reduce_max` of a list of values. -/
def reduceMax (T : NumType α) (xs : List α) : α := xs.foldl max T.lowest

/-- `reduce_batch_minus_min_and_max`, `tf_utils.py:1971-2023`, for tensors that are dense or
reduced over all dimensions. -/
def minusMinAndMax (T : NumType α) (shape : List Nat) (cols : ColBatch α) : List (Nd α) :=
  [⟨shape, cols.map (fun c => reduceMax T (c.map T.neg))⟩,
   ⟨shape, cols.map (fun c => reduceMax T c)⟩]

/-- `_min_and_max`, `analyzers.py:504-562` (`np.max` branch, 545-549), followed by the
negation and the casts of line 562 (moved into `extract_output`).  Result `[min, max]`. -/
def minMaxAnalyzer (T : NumType α) (shape : List Nat) (known : Bool) :
    Combiner (List (Nd α)) (ColBatch α) (List (Nd α)) :=
  let sh := if known then some shape else none
  let c := (npCombiner max T.default [sh, sh] id).onBatches (minusMinAndMax T shape)
  { c with
    extract := fun acc => do
      match ← c.extract acc with
      | [mm, mx] => .ok [⟨mm.shape, mm.data.map (fun v => T.cast (T.neg v))⟩,
                         ⟨mx.shape, mx.data.map T.cast⟩]
      | _ => .error "not enough values to unpack" }

end TFT
