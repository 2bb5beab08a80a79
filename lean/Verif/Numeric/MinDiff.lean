import Mathlib.Data.Rat.Floor
import Mathlib.Algebra.Order.Floor.Ring

/-!
# `calculate_recommended_min_diff_from_avg`
-/

namespace TFT.Numeric

/-- Python's `int` of a number: truncation towards zero. -/
def pyInt (x : ℚ) : Int := if 0 ≤ x then ⌊x⌋ else ⌈x⌉

/-- `calculate_recommended_min_diff_from_avg` (analyzers.py:2343-2379), with exact division instead of
floating point; the size may be a total weight. -/
def recommendedMinDiff (datasetSize : ℚ) : Int :=
  let minValue : ℚ := 2
  let maxValue : ℚ := 25
  let small : ℚ := 10000
  let large : ℚ := 1000000
  pyInt (min maxValue (max minValue
    ((datasetSize - small) / (large - small) * (maxValue - minValue) + minValue)))

end TFT.Numeric
