import Verif.Combine.MeanVar

/-!
# `WeightedMeanAndVarCombiner` as used for vocabularies with labels

The same class as in `MeanVar.lean`, but with `compute_variance=False` and with a 0-dim
`count` and `weight` and a vector `mean` indexed by label
(`beam/analyzer_impls.py:628-645`, `899-910`). A 0-dim array is not padded
(`analyzers.py:1483-1517` pads the dimensions that an array has); only `mean` is. The unused
`variance` is dropped.
-/

namespace TFT

/-- Accumulator with scalar count and weight. `weight = none` is NaN or Python's `None`. -/
structure WMAcc where
  count : Nat
  mean : List Num
  weight : Num
deriving DecidableEq

/-- `make_nan_to_num`, `analyzers.py:1258-1277`. -/
def WMAcc.nanToNum (cw : Bool) (a : WMAcc) : WMAcc :=
  ⟨a.count, a.mean.map Num.nanToNum, if cw then a.weight.nanToNum else a.weight⟩

/-- `_pad_arrays_to_match` on the mean vectors, `analyzers.py:1483-1517`. -/
def padMean (n : Nat) (m : List Num) : List Num := m ++ List.replicate (n - m.length) (some 0)

/-- `_combine_mean_and_var_accumulators`, `analyzers.py:1417-1479`. -/
def combineWM (cw : Bool) (a b : WMAcc) : WMAcc :=
  let a := a.nanToNum cw
  let b := b.nanToNum cw
  let (a, b) := if a.count < b.count then (b, a) else (a, b)
  if a.count = 0 then b
  else
    let aMean := padMean b.mean.length a.mean
    let bMean := padMean a.mean.length b.mean
    let bCount : Num := some (b.count : ℚ)
    let total : Num := some ((a.count + b.count : Nat) : ℚ)
    if cw then
      let weightsMean := Num.add a.weight (Num.mul (Num.div bCount total) (Num.sub b.weight a.weight))
      { count := a.count + b.count
        weight := weightsMean
        mean := List.zipWith (fun am bm => Num.add am
          (Num.mul (Num.div (Num.mul bCount b.weight) (Num.mul total weightsMean))
            (Num.sub bm am))) aMean bMean }
    else
      { count := a.count + b.count
        weight := some 1
        mean := List.zipWith (fun am bm => Num.add am
          (Num.mul (Num.div bCount total) (Num.sub bm am))) aMean bMean }

/-- One occurrence of a token: weight and label of its row. -/
structure WRow where
  weight : ℚ
  label : Nat

/-- The occurrences of one token in a batch; `width` is the number of label columns of the
batch (the largest label of the batch plus one). -/
structure WBatch where
  rows : List WRow
  width : Nat

/-- The entry of `summed_positive_per_x_and_y` for a label, `tf_utils.py:205-330`. -/
def sumPositive (rows : List WRow) (l : Nat) : ℚ :=
  (rows.map (fun r => if r.label = l then r.weight else 0)).sum

/-- `_make_count_and_weights_means_accumulator`, `beam/analyzer_impls.py:628-645`, for the
batch sums of `reduce_batch_weighted_cooccurrences`. `cw = false` is `weights_sum_total is None`. -/
def weightedStats (cw : Bool) (b : WBatch) : WMAcc :=
  let sp := (List.range b.width).map (sumPositive b.rows)
  let total := (b.rows.map WRow.weight).sum
  let count := b.rows.length
  if cw then
    ⟨count, sp.map (fun s => Num.div (some s) (some total)), Num.div (some total) (some (count : ℚ))⟩
  else ⟨count, sp.map (fun s => Num.div (some s) (some (count : ℚ))), none⟩

/-- `_WeightedMeanCombineFn`, `beam/analyzer_impls.py:899-958`, with `output_shape=(None,)`
and `compute_variance=False`, so `extract_output` returns the accumulator
(`analyzers.py:1385-1391`; casts not modelled). -/
def wmCombiner (cw : Bool) : Combiner WMAcc WMAcc WMAcc where
  create := ⟨0, [], some 0⟩
  addInput := fun acc b => .ok (combineWM cw acc b)
  merge := fun accs =>
    match accs with
    | [] => .error "StopIteration"
    | a :: as => .ok (as.foldl (combineWM cw) a)
  extract := fun a => .ok a

end TFT
