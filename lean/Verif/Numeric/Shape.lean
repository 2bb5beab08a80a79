import Mathlib.Analysis.SpecialFunctions.Trigonometric.Arctan
import Mathlib.Analysis.Real.Sqrt

/-!
# The L-skewness and L-kurtosis of `gaussianization.py`

Over the reals.  The square root of a negative number is 0 here and NaN in numpy: for parameters below
1 there is none.
-/

namespace TFT.Numeric

/-- `skewness_num` (gaussianization.py:74-81). -/
noncomputable def skewnessNum (h1 h2 : ℝ) : ℝ :=
  12 * Real.sqrt (2 - h1) * (h2 - 2) * (h2 - 1) * Real.arctan (1 / Real.sqrt (2 - h1))

/-- `skewness_den` and `kurtosis_den_part` (gaussianization.py:83-87). -/
noncomputable def denPart (h : ℝ) : ℝ := h * Real.sqrt (2 - h) - Real.sqrt (2 - h)

/-- `_tukey_hh_l_skewness_and_kurtosis` (gaussianization.py:58-132), for one pair of parameters. -/
noncomputable def tukeyShape (hl hr : ℝ) : ℝ × ℝ :=
  let skewness :=
    (skewnessNum hl hr - Real.pi * (hl - hr) * (hl - 2) * (hr - 2) - skewnessNum hr hl)
      / (2 * Real.pi * Real.sqrt ((hl - 2) * (hr - 2)) * (denPart hl + denPart hr))
  let num1 := hr * Real.sqrt ((hl - 4) * (hl - 2) * (hl - 1) * (hr - 2))
    - 2 * Real.sqrt ((hl - 4) * (hl - 1))
  let num2 := hl * (hl - 3) * Real.sqrt ((hl - 4) * (hl - 1))
    + Real.sqrt ((hl - 4) * (hl - 2) * (hl - 1) * (hr - 2))
  let num3 := 30 * (hl - 1) * Real.sqrt ((hl - 4) * (hl - 2) * (hr - 2) / (hl - 1)) * (hr - 1)
    * Real.arctan (Real.sqrt (1 + 2 / (hl - 4)))
  let num4 := 30 * (hl - 2) * Real.sqrt ((hl - 4) * (hl - 1)) * (hl - 1)
    * Real.arctan (Real.sqrt (1 + 2 / (hr - 4)))
  let den := Real.pi * Real.sqrt ((4 - hl) * (2 - hl) * (1 - hl)) * (denPart hl + denPart hr)
  (skewness, (6 * Real.pi * (num1 - num2) + num3 + num4) / den)

end TFT.Numeric
