import Verif.Combine.Sched
import Mathlib.Data.Rat.Defs
import Mathlib.Algebra.Field.Rat

/-!
# `WeightedMeanAndVarCombiner` and the batch statistics in front of it

Arrays: an accumulator is a list of columns; a 0-dim array is one column.
Simplifications (all of this file):
* float arithmetic is exact arithmetic in `ℚ`; NaN is kept (`none`), infinities are
  merged with NaN (they can only come from a division by zero);
* the four numpy arrays of an accumulator are one list of 4-field columns. In the code
  the fresh accumulator has a 0-dim `count` and `weight` equal to 0
  (`analyzers.py:1319`), which numpy broadcasts to zeros; here they are those zeros;
* ranks above 1 are not modelled here (columns would be multi-indices). The program on arrays of any rank,
  with padding and broadcasting, is in `Cache/NumpyCoder`; `Cache/MeanVarArraysProps` proves that it computes
  these columns.
-/

namespace TFT

/-- A float: `none` is NaN. -/
abbrev Num := Option ℚ

namespace Num
/-- NaN-propagating addition. -/
def add (a b : Num) : Num := match a, b with | some x, some y => some (x + y) | _, _ => none
/-- NaN-propagating subtraction. -/
def sub (a b : Num) : Num := match a, b with | some x, some y => some (x - y) | _, _ => none
/-- NaN-propagating multiplication. -/
def mul (a b : Num) : Num := match a, b with | some x, some y => some (x * y) | _, _ => none
/-- Division; by zero it gives NaN (numpy: NaN or inf). -/
def div (a b : Num) : Num :=
  match a, b with
  | some x, some y => if y = 0 then none else some (x / y)
  | _, _ => none
/-- `np.nan_to_num` on one entry: NaN becomes 0. -/
def nanToNum (a : Num) : Num := match a with | some x => some x | none => some 0
end Num

/-- One column of `_WeightedMeanAndVarAccumulator`, `analyzers.py:1251-1256`. -/
structure MVCol where
  count : Nat
  mean : Num
  variance : Num
  weight : Num
deriving DecidableEq

/-- `_WeightedMeanAndVarAccumulator`, `analyzers.py:1251-1256`. -/
abbrev MVAcc := List MVCol

/-- A column of zeros: what `np.zeros` (`analyzers.py:1319-1326`) and `np.pad`
(`analyzers.py:1514-1516`) put in. -/
def MVCol.zero : MVCol := ⟨0, some 0, some 0, some 0⟩

/-- `make_nan_to_num`, `analyzers.py:1258-1277`, on one column. -/
def MVCol.nanToNum (cv cw : Bool) (c : MVCol) : MVCol where
  count := c.count
  mean := c.mean.nanToNum
  variance := if cv then c.variance.nanToNum else c.variance
  weight := if cw then c.weight.nanToNum else c.weight

/-- `np.sum(acc.count)`. -/
def countSum (a : MVAcc) : Nat := (a.map MVCol.count).sum

/-- `_pad_arrays_to_match`, `analyzers.py:1483-1517`, for one array that is to be matched
with an array of `n` columns: zeros are appended when it is shorter. -/
def padTo (n : Nat) (a : MVAcc) : MVAcc := a ++ List.replicate (n - a.length) MVCol.zero

/-- `analyzers.py:1452-1479` on one column. `cv` is `compute_variance`, `cw` is
`compute_weighted`. -/
def combineCol (cv cw : Bool) (a b : MVCol) : MVCol :=
  let aCount : Num := some (a.count : ℚ)
  let bCount : Num := some (b.count : ℚ)
  let total : Num := Num.add aCount bCount
  let weightsMean : Num :=
    if cw then Num.add a.weight (Num.mul (Num.div bCount total) (Num.sub b.weight a.weight))
    else some 1
  let mean : Num :=
    if cw then
      Num.add a.mean
        (Num.mul (Num.div (Num.mul bCount b.weight) (Num.mul total weightsMean))
          (Num.sub b.mean a.mean))
    else Num.add a.mean (Num.mul (Num.div bCount total) (Num.sub b.mean a.mean))
  let variance : Num :=
    if cv then
      Num.add a.variance
        (Num.mul (Num.div bCount total)
          (Num.add (Num.sub b.variance a.variance)
            (Num.mul (Num.sub b.mean mean) (Num.sub b.mean a.mean))))
    else some 0
  ⟨a.count + b.count, mean, variance, weightsMean⟩

/-- `_combine_mean_and_var_accumulators`, `analyzers.py:1417-1479`. -/
def combineAcc (cv cw : Bool) (a b : MVAcc) : MVAcc :=
  let a := a.map (MVCol.nanToNum cv cw)
  let b := b.map (MVCol.nanToNum cv cw)
  let (a, b) := if countSum a < countSum b then (b, a) else (a, b)
  if countSum a = 0 then b
  else List.zipWith (combineCol cv cw) (padTo b.length a) (padTo a.length b)

/-- Output of `extract_output`: a `(mean, var)` pair or a whole accumulator. -/
inductive MVOut where
  | meanVar (mean var : List Num)
  | full (acc : MVAcc)
deriving DecidableEq

/-- `WeightedMeanAndVarCombiner`, `analyzers.py:1280-1391`. `cols` is the number of columns
of `output_shape` (1 for shape `()`, 0 for an unknown dimension, lines 1320-1323).
The constructor check is lines 1308-1311. `merge_accumulators` (1348-1365) fails on an empty
list (`next` raises `StopIteration`). The casts to the output dtype in `extract_output`
(1367-1391) are not modelled. -/
def mvCombiner (cv cw : Bool) (cols : Nat) : Except Err (Combiner MVAcc MVAcc MVOut) :=
  if cv && cw then .error "WeightedMeanAndVarCombiner does not yet support weighted variance"
  else .ok
    { create := List.replicate cols MVCol.zero
      addInput := fun acc batch => .ok (combineAcc cv cw acc batch)
      merge := fun accs =>
        match accs with
        | [] => .error "StopIteration"
        | a :: as => .ok (as.foldl (combineAcc cv cw) a)
      extract := fun acc =>
        if cv && !cw then .ok (.meanVar (acc.map MVCol.mean) (acc.map MVCol.variance))
        else .ok (.full acc) }

/-- A value of a batch column: `none` stands for a NaN or infinite value. -/
abbrev Elem := Option ℚ

/-- A batch, by columns: a dense batch has one list of values per instance position
(`reduce_instance_dims=False`), or one list with all values (`reduce_instance_dims=True`). -/
abbrev Batch := List (List Elem)

/-- `tf.math.divide_no_nan`. -/
def divNoNan (a : ℚ) (b : ℚ) : ℚ := if b = 0 then 0 else a / b

/-- `_reduce_batch_count_mean_and_var_dense`, `tf_utils.py:1116-1129`, on one column.
`tf.where(is_finite, e, 0)` is `getD 0`. The count is `reduce_batch_count`, `tf_utils.py:689-693`. -/
def reduceDenseCol (xs : List Elem) : MVCol :=
  let count : Nat := (xs.map (fun x => if x.isSome then 1 else 0)).sum
  let xsum : ℚ := (xs.map (fun x => x.getD 0)).sum
  let mean : ℚ := divNoNan xsum count
  let ssq : ℚ := (xs.map (fun x => (x.map (fun v => (v - mean) ^ 2)).getD 0)).sum
  ⟨count, some mean, some (divNoNan ssq count), some 0⟩

/-- `_reduce_batch_count_mean_and_var_sparse`, `tf_utils.py:1070-1090`, on the values present
in one column. Non-finite values are replaced by 0 (1075-1079) and then the mean is
subtracted from *all* present values (1082-1085). -/
def reduceSparseCol (xs : List Elem) : MVCol :=
  let count : Nat := (xs.map (fun x => if x.isSome then 1 else 0)).sum
  let finite : List ℚ := xs.map (fun x => x.getD 0)
  let mean : ℚ := divNoNan finite.sum count
  let ssq : ℚ := (finite.map (fun v => (v - mean) ^ 2)).sum
  ⟨count, some mean, some (divNoNan ssq count), some 0⟩

/-- The tensors that `_mean_and_var` (`analyzers.py:960-999`) feeds to the combiner for a
dense batch (or any batch with `reduce_instance_dims=True`). -/
def denseStats (b : Batch) : MVAcc := b.map reduceDenseCol

/-- The same for a `SparseTensor` with `reduce_instance_dims=False`. -/
def sparseStats (b : Batch) : MVAcc := b.map reduceSparseCol

/-- The analyzer behind `tft.mean` and `tft.var`, `analyzers.py:960-999`: combiner with
`compute_variance=True, compute_weighted=False` (the defaults of 1289-1290) on batch
statistics `stats`. -/
def meanVarAnalyzer (stats : Batch → MVAcc) (cols : Nat) : Combiner MVAcc Batch MVOut :=
  match mvCombiner true false cols with
  | .ok c => c.onBatches stats
  | .error e =>
    { create := [], addInput := fun _ _ => .error e, merge := fun _ => .error e,
      extract := fun _ => .error e }

end TFT
