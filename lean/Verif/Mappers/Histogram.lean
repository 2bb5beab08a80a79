import Verif.Combine.PerKeyProps
import Verif.Mappers.Buckets
import Std.Data.String.ToNat
import Mathlib.Data.String.Basic

/-!
# Histograms

Model of `tft.histogram` and of `reorder_histogram`. Floating point numbers are exact; `none` is NaN.
-/

namespace TFT.Histogram

open TFT.Buckets

/-- The `boundaries` argument of `histogram`: nothing, a list of boundaries or a number of them. -/
inductive Boundaries where
  | default
  | list (bs : List ℚ)
  | number (n : Int)

/-- `tf.linspace` (TensorFlow). -/
def linspace (start stop : ℚ) (num : Int) : Except Err (List ℚ) :=
  if num ≤ 0 then .error "InvalidArgumentError: Requires num > 0"
  else if num = 1 then .ok [start]
  else .ok ((List.range num.toNat).map (fun i : Nat => start + (i : ℚ) * ((stop - start) / (num - 1))))

/-- The choice of the boundaries, `analyzers.py:777-787`. `range` is the result of `_min_and_max`. -/
def resolve (b : Boundaries) (range : ℚ × ℚ) : Except Err (List ℚ) :=
  match b with
  | .default => .ok ((List.range 11).map (fun i : Nat => (i : ℚ) / 10))
  | .list bs => .ok bs
  | .number n => linspace range.1 range.2 n

/-- The shift of the boundaries, `analyzers.py:789-791`. -/
def shifted (bs : List ℚ) : List ℚ := bs.map (fun b => b - 1 / 10000)

/-- The bucket index of a value as a string, `analyzers.py:793-796`. -/
def bucketKey (bs : List ℚ) (x : Option Ext) : String :=
  Nat.repr (assignBuckets x [(shifted bs).tail.map (fun q : ℚ => ((q : WithTop ℚ) : Ext))] .left)

/-- `tf.strings.to_number(..., tf.int32)` (TensorFlow) on the strings that occur here. -/
def toNumber (s : String) : Except Err Nat :=
  match s.toNat? with
  | some n => .ok n
  | none => .error "InvalidArgumentError: StringToNumberOp could not correctly convert string"

/-- `tf.argsort` (TensorFlow). -/
def argsort (l : List Nat) : List Nat :=
  (List.range l.length).insertionSort (fun i j => l.getD i 0 ≤ l.getD j 0)

/-- `tf.gather` (TensorFlow) at one index. -/
def gatherAt {C : Type} (l : List C) (i : Nat) : Except Err C :=
  match l[i]? with
  | some c => .ok c
  | none => .error "InvalidArgumentError: indices out of range"

/-- `reorder_histogram`, `tf_utils.py:774-818`. -/
def reorderHistogram {C : Type} (zero : C) (vocab : List String) (counts : List C) (size : Int) :
    Except Err (List C) := do
  let ids ← seqExcept (vocab.map toNumber)
  if size < 0 then .error "InvalidArgumentError: Requires start <= limit"
  else
    let missing := (List.range size.toNat).filter (fun i => decide (i ∉ ids))
    let ordering := argsort (ids ++ missing)
    if size < counts.length then .error "InvalidArgumentError: Paddings must be non-negative"
    else
      let padded := counts ++ List.replicate (size.toNat - counts.length) zero
      seqExcept (ordering.map (gatherAt padded))

/-- `histogram`, `analyzers.py:731-800`, not categorical, with the flattened values of the batches of
the datasets and the runs Beam makes of `count_per_key`. -/
def histogram (bs : List ℚ) (r1s : List (KeyRun String (List ℚ))) (r2 : KeyRun String Nat) :
    Except Err (List (Nd ℚ)) := do
  let outs ← perKeyAnalysis countCombiner r1s r2
  let (vocab, cols) ← mergeOutputsByKey 1 outs
  reorderHistogram (Nd.scalar 0) vocab cols.flatten ((bs.length : Int) - 1)

/-- The inputs of `count_per_key` in `histogram`. -/
def histogramKeys (bs : List ℚ) (datasets : List (List (List (Option Ext)))) :
    List (List (List String)) :=
  datasets.map (fun batches => batches.map (fun b => b.map (bucketKey bs)))

end TFT.Histogram
