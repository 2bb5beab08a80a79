import Verif.Combine.Sched
import Mathlib.Data.Rat.Defs
import Mathlib.Algebra.Field.Rat
import Mathlib.Data.List.Sort

/-!
# `_LMomentsCombiner` and the batch L-moments in front of it

Simplifications (all of this file): floats are exact rationals, so the data are finite numbers
and `np.nan_to_num` (`analyzers.py:1535-1538`) is the identity; an accumulator is a list of
columns (a 0-dim array is one column); ranks above 1 are not modelled.
-/

namespace TFT

/-- One moment of one column: `count_l*` and `l*`, `analyzers.py:1520-1525`. -/
structure LM where
  count : ℚ
  l : ℚ
deriving DecidableEq

/-- One column of `_LMomentsAccumulator`, `analyzers.py:1520-1525`. -/
structure LCol where
  m1 : LM
  m2 : LM
  m3 : LM
  m4 : LM
deriving DecidableEq

/-- Zeros of `np.zeros` (`analyzers.py:1567-1568`) and `np.pad` (1514-1516). -/
def LCol.zero : LCol := ⟨⟨0, 0⟩, ⟨0, 0⟩, ⟨0, 0⟩, ⟨0, 0⟩⟩

/-- `np.sum(acc.count_l1)`. -/
def l1Count (a : List LCol) : ℚ := (a.map (fun c => c.m1.count)).sum

/-- `analyzers.py:1710-1738` for one moment of one column. -/
def combineLM (a b : LM) : LM :=
  let c := a.count + b.count
  ⟨c, a.l + (if c > 0 then b.count / c else 0) * (b.l - a.l)⟩

/-- `analyzers.py:1710-1749` for one column. -/
def combineLCol (a b : LCol) : LCol :=
  ⟨combineLM a.m1 b.m1, combineLM a.m2 b.m2, combineLM a.m3 b.m3, combineLM a.m4 b.m4⟩

/-- `_pad_arrays_to_match`, `analyzers.py:1483-1517`, for one array matched with an array of
`n` columns. -/
def padL (n : Nat) (a : List LCol) : List LCol := a ++ List.replicate (n - a.length) LCol.zero

/-- `_combine_accumulators`, `analyzers.py:1679-1749`. -/
def combineL (a b : List LCol) : List LCol :=
  let (a, b) := if l1Count a < l1Count b then (b, a) else (a, b)
  if l1Count b = 0 then a
  else List.zipWith combineLCol (padL b.length a) (padL a.length b)

/-- What `extract_output` needs from `gaussianization.py`: `compute_tukey_hh_params` (204-330) of
(L-skewness, L-kurtosis), and `tukey_hh_l_mean_and_scale` (26-60). External here. -/
structure Tukey where
  hh : ℚ → ℚ → ℚ × ℚ
  lMean : ℚ × ℚ → ℚ
  lScale : ℚ × ℚ → ℚ

/-- `(loc, scale, hl, hr)` of one column, `analyzers.py:1612-1664`. -/
def LCol.params (t : Tukey) (c : LCol) : ℚ × ℚ × ℚ × ℚ :=
  let validScale : Bool := c.m2.l > 0
  let validKurtosis : Bool := validScale && decide (c.m4.count > 0)
  let skew := if validKurtosis then c.m3.l / c.m2.l else 0
  let kurt := if validKurtosis then c.m4.l / c.m2.l else 0
  let h := t.hh skew kurt
  let scale := if validScale then c.m2.l / t.lScale h else 1
  (c.m1.l - scale * t.lMean h, scale, h.1, h.2)

/-- `_LMomentsCombiner`, `analyzers.py:1545-1677`. `cols` is the number of columns of the fresh
accumulator: that of a known `output_shape`, and 1 for shape `()` or an unknown one (1566). -/
def lmCombiner (t : Tukey) (cols : Nat) :
    Combiner (List LCol) (List LCol) (List (ℚ × ℚ × ℚ × ℚ)) where
  create := List.replicate cols LCol.zero
  addInput := fun acc batch => .ok (combineL acc batch)
  merge := fun accs =>
    match accs with
    | [] => .error "StopIteration"
    | a :: as => .ok (as.foldl combineL a)
  extract := fun acc => .ok (acc.map (LCol.params t))

/-- `current_samples, current_pairs, current_triplets, current_quadruplets`,
`tf_utils.py:1189-1198`. -/
def numTerms (n : ℚ) : ℚ × ℚ × ℚ × ℚ :=
  let pairs := n * (n - 1) / 2
  let triplets := pairs * (n - 2) / 3
  let quadruplets := triplets * (n - 3) / 4
  (n, pairs, triplets, quadruplets)

/-- The factor of the sample at position `i` (from 0, in sorted order) for each moment,
`tf_utils.py:1200-1239`. `term_up = i`, `term_down = n-1-i`, the delayed terms are one or two
less. -/
def lFactors (n i : Nat) : ℚ × ℚ × ℚ × ℚ :=
  let (samples, pairs, triplets, quadruplets) := numTerms n
  let up : ℚ := i
  let down : ℚ := (n : ℚ) - 1 - i
  let d1 : ℚ := if n > 0 then samples else 1
  let d2 : ℚ := if n > 1 then pairs * 2 else 1
  let d3 : ℚ := if n > 2 then triplets * 6 else 1
  let d4 : ℚ := if n > 3 then quadruplets * 24 else 1
  (1 / d1,
   (up - down) / d2,
   (up * (up - 1) - 4 * up * down + down * (down - 1)) / d3,
   (up * (up - 1) * (up - 2) - 9 * up * (up - 1) * down + 9 * up * down * (down - 1)
     - down * (down - 1) * (down - 2)) / d4)

/-- `tf.reduce_sum(tf.multiply(sorted_x, factors))`, `tf_utils.py:1300-1319`, `1383-1402`. -/
def dotFactors (sorted : List ℚ) (f : Nat → ℚ) : ℚ :=
  (List.zipWith (· * ·) sorted ((List.range sorted.length).map f)).sum

/-- The L-moments of the samples of one column of a batch, `tf_utils.py:1417-1538`
(`_iteration_l_moments_sparse` 1270-1345 and `_iteration_l_moments_dense` 1366-1414 do the same
to the samples of a column). -/
def batchLCol (xs : List ℚ) : LCol :=
  let sorted := xs.insertionSort (· ≤ ·)
  let n := xs.length
  let (c1, c2, c3, c4) := numTerms n
  ⟨⟨c1, dotFactors sorted (fun i => (lFactors n i).1)⟩,
   ⟨c2, dotFactors sorted (fun i => (lFactors n i).2.1)⟩,
   ⟨c3, dotFactors sorted (fun i => (lFactors n i).2.2.1)⟩,
   ⟨c4, dotFactors sorted (fun i => (lFactors n i).2.2.2)⟩⟩

/-- The tensors fed to the combiner by `_tukey_parameters`, `analyzers.py:1129-1167`: the samples of
each column (one column with all values for `reduce_instance_dims=True`). -/
def batchLMoments (b : List (List ℚ)) : List LCol := b.map batchLCol

/-- The analyzer behind `tukey_location`, `tukey_scale`, `tukey_h_params`,
`analyzers.py:1003-1167`. -/
def lMomentsAnalyzer (t : Tukey) (cols : Nat) :
    Combiner (List LCol) (List (List ℚ)) (List (ℚ × ℚ × ℚ × ℚ)) :=
  (lmCombiner t cols).onBatches batchLMoments

end TFT
