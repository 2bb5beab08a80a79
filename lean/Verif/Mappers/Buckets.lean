import Verif.Combine.Py
import Verif.Combine.Sched
import Mathlib.Algebra.Order.Field.Rat
import Mathlib.Order.WithBot

/-!
# Buckets

Model of `assign_buckets`, `apply_buckets`, `apply_buckets_with_interpolation` and of the per-key
bucketization. Floating point numbers are exact; `none` is NaN.
-/

namespace TFT.Buckets

/-- A float that is not NaN. -/
abbrev Ext := WithBot (WithTop ℚ)

section assign

variable {α : Type} [LinearOrder α]

/-- `tf.searchsorted(..., side="right")` (TensorFlow): position of the first boundary that is
greater than `x`; comparisons with NaN are false. -/
def searchsortedRight (bs : List α) (x : Option α) : Nat :=
  (bs.takeWhile (fun b => !(x.any (fun v => decide (v < b))))).length

/-- `tf.searchsorted(..., side="left")` (TensorFlow): position of the first boundary that is not
smaller than `x`. -/
def searchsortedLeft (bs : List α) (x : Option α) : Nat :=
  (bs.takeWhile (fun b => x.any (fun v => decide (b < v)))).length

/-- `Side`, `tf_utils.py:822-824`. -/
inductive Side where
  | right
  | left

/-- `assign_buckets`, `tf_utils.py:827-870`, for one value. The cast to a common dtype
is modelled in `Mappers/TypedBuckets`. -/
def assignBuckets (x : Option α) (boundaries : List (List α)) (side : Side) : Nat :=
  let flat := boundaries.flatten
  match side with
  | .left => searchsortedLeft flat.dropLast x
  | .right => searchsortedRight flat x

/-- The result of `apply_buckets` for one value, with the domain published for the output. -/
structure Bucketized where
  bucket : Nat
  minValue : Int
  maxValue : Int

/-- `apply_buckets`, `mappers.py:2300-2354`, for one value. `boundaries` is a rank 2 tensor with
`cols` columns. -/
def applyBuckets (x : Option α) (boundaries : List (List α)) (cols : Nat) : Bucketized where
  bucket := assignBuckets x boundaries .right
  minValue := 0
  maxValue := cols

end assign

/-- A float as a finite number. -/
def toFinite (x : Option Ext) : Option ℚ :=
  match x with
  | some (some (some q)) => some q
  | _ => none

/-- The finite boundaries, `mappers.py:2214-2221`. -/
def finiteBoundaries (bs : List (Option Ext)) : List ℚ := bs.filterMap toFinite

/-- `apply_buckets_with_interpolation`, `mappers.py:2156-2297`, for one value of float type. -/
def interpolate (boundaries : List (Option Ext)) (x : Option Ext) : Except Err ℚ :=
  let bs := finiteBoundaries boundaries
  let n := bs.length
  if n = 0 then .error "InvalidArgumentError: assert_1_or_more_finite_boundaries"
  else
    let idx := searchsortedRight (bs.map (fun q : ℚ => ((q : WithTop ℚ) : Ext))) x
    let bucketMax := (bs ++ bs.getLast?.toList).getD idx 0
    let bucketMin := (bs.head?.toList ++ bs).getD idx 0
    let width := bucketMax - bucketMin
    let interpolation : Option ℚ :=
      if idx = 0 ∨ idx = n then some 0
      else if width = 0 then some (1 / 2)
      else (toFinite x).map (fun v => (v - bucketMin) / width)
    match interpolation with
    | none => .error "InvalidArgumentError: bucket_interpolation is not finite"
    | some i =>
      let withInterpolation : ℚ := ((idx - 1 : Nat) : ℚ) + i
      let normalized : ℚ := withInterpolation / ((max (n - 1) 1 : Nat) : ℚ)
      let imputed : ℚ := if x = none then 1 / 2 else normalized
      .ok (if n = 1 then (if idx = 0 then 0 else 1) else imputed)

section perKey

/-- Running sums, `np.cumsum`, starting from `acc`. -/
def cumsumFrom (acc : ℚ) : List ℚ → List ℚ
  | [] => []
  | d :: ds => (acc + d) :: cumsumFrom (acc + d) ds

/-- `np.diff`. -/
def diffs (row : List ℚ) : List ℚ := List.zipWith (fun a b => b - a) row row.tail

/-- The smallest allowed distance of neighbours,
`beam/analyzer_impls.py:1187-1190`. -/
def rowEpsilon (row : List ℚ) : ℚ :=
  let e := (1 / 1000000 : ℚ) * (row.getLastD 0 - row.headD 0)
  if e ≤ 0 then 1 / 1000000 else e

/-- One row of `_make_strictly_increasing_boundaries_rows`,
`beam/analyzer_impls.py:1174-1202`. An empty row is an `IndexError`. -/
def strictRow (row : List ℚ) : Except Err (List ℚ) :=
  match row with
  | [] => .error "IndexError: index -1 is out of bounds"
  | first :: rest =>
    .ok (first :: (cumsumFrom 0 ((diffs (first :: rest)).map
      (fun d => max d (rowEpsilon (first :: rest))))).map (fun s => s + first))

/-- `np.min` of a row. -/
def rowMin (row : List ℚ) : ℚ := row.foldl min (row.headD 0)

/-- `np.max` of a row. -/
def rowMax (row : List ℚ) : ℚ := row.foldl max (row.headD 0)

/-- `scale`, `beam/analyzer_impls.py:1238-1244`. -/
def rowScale (row : List ℚ) : ℚ :=
  if rowMax row - rowMin row ≠ 0 then 1 / (rowMax row - rowMin row) else 1

/-- `shift`, `beam/analyzer_impls.py:1250`. -/
def rowShift (row : List ℚ) (keyId : Nat) : ℚ := keyId - rowMin row * rowScale row

/-- The outputs of `_join_boundary_rows`. -/
structure Joined where
  boundaries : List ℚ
  scale : List ℚ
  shift : List ℚ
  numBuckets : Nat

/-- The scaled boundaries of the rows whose first key id is `k`. -/
def scaledFrom (k : Nat) : List (List ℚ) → List ℚ
  | [] => []
  | r :: rs => r.tail.map (fun b => b * rowScale r + rowShift r k) ++ scaledFrom (k + 1) rs

/-- `_join_boundary_rows`, `beam/analyzer_impls.py:1205-1258`, for a matrix with `cols`
columns. -/
def joinBoundaryRows (matrix : List (List ℚ)) (cols : Nat) : Except Err Joined := do
  let rows ← seqExcept (matrix.map strictRow)
  .ok { boundaries := 0 :: scaledFrom 0 rows
        scale := rows.map rowScale
        shift := rows.zipIdx.map (fun ri => rowShift ri.1 ri.2)
        numBuckets := cols + 1 }

/-- `lookup_key`, `tf_utils.py:1605-1661`, for one key: the position in the vocabulary, or -1. -/
def lookupKey {K : Type} [DecidableEq K] (key : K) (vocab : List K) : Int :=
  (vocab.zipIdx.map (fun ki => if key = ki.1 then (ki.2 : Int) else -1)).foldl max (-1)

/-- `_apply_buckets_with_keys`, `mappers.py:2079-2152`, for one value and key. Reading from an
empty vector is an error. -/
def applyBucketsWithKeys {K : Type} [DecidableEq K] (x : ℚ) (key : K) (vocab : List K)
    (j : Joined) : Except Err Int :=
  let keyIndex := lookupKey key vocab
  let adjusted : Nat := if keyIndex < 0 then 0 else keyIndex.toNat
  match j.scale[adjusted]?, j.shift[adjusted]? with
  | some scale, some shift =>
    let transformed := x * scale + shift
    let offset : Int := assignBuckets (some transformed) [j.boundaries] .right
    let maxBucket : Int := j.numBuckets - 1
    let corrected := offset - (maxBucket - 1) * adjusted
    let clipped := min (max corrected 0) maxBucket
    .ok (if keyIndex < 0 then keyIndex else clipped)
  | _, _ => .error "InvalidArgumentError: indices are not in range"

/-- The domain that `_apply_buckets_with_keys` publishes, `mappers.py:2143-2150`. -/
def perKeyDomain (j : Joined) : Int × Int := (0, j.numBuckets - 1)

/-- `bucketize_per_key` after the quantiles of every key have been computed: the boundary matrix
has one row per key, in the order of the key vocabulary (`mappers.py:1980-2057`). -/
def bucketizePerKey {K : Type} [DecidableEq K] (vocab : List K) (matrix : List (List ℚ))
    (cols : Nat) (x : ℚ) (key : K) : Except Err Int := do
  let j ← joinBoundaryRows matrix cols
  applyBucketsWithKeys x key vocab j

end perKey

end TFT.Buckets
