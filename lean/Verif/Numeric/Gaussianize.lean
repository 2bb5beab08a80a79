import Verif.Numeric.Bisect
import Mathlib.Analysis.SpecialFunctions.Log.Basic
import Mathlib.Analysis.SpecialFunctions.Sqrt

/-!
# Model of `scale_to_gaussian`

The Lambert W function, the inverse of Tukey's HH function, the location and scale of the fitted
distribution, and the mapper for one value.  Numbers are real; `exp`, `log` and `sqrt` are exact.
-/

namespace TFT.Numeric

/-- The initial value, gaussianization.py 350–363.  `tf.where` chooses elementwise, so that the
logarithms do not matter where they are not defined. -/
noncomputable def lambertInit (x : ℝ) : ℝ :=
  let s := (Real.exp 1 - 1) / (Real.exp 2 - 1)
  let c := 1 / Real.exp 1 * (1 - s)
  let logS := Real.log x
  if x < Real.exp (-1) then x
  else if x < Real.exp 1 then s * x + c
  else logS + (1 / logS - 1) * Real.log logS

/-- `newton_update`, gaussianization.py 365–368. -/
noncomputable def newtonUpdate (x w : ℝ) : ℝ :=
  let expw := Real.exp w
  let wexpw := w * expw
  w - (wexpw - x) / (expw + wexpw)

/-- `lambert_w`, gaussianization.py 333–375. -/
noncomputable def lambertW (x : ℝ) : ℝ := (newtonUpdate x)^[8] (lambertInit x)

/-- `one_side`, gaussianization.py 401–408. -/
noncomputable def oneSide (x h : ℝ) : ℝ :=
  let hxSquare := h * x ^ 2
  if hxSquare < 1.0e-7 then x else Real.sqrt (lambertW hxSquare / h)

/-- `inverse_tukey_hh`, gaussianization.py 378–410. -/
noncomputable def inverseTukeyHH (x hl hr : ℝ) : ℝ :=
  if x < 0 then -oneSide (-x) hl else oneSide x hr

/-- `tukey_hh_l_mean_and_scale`, gaussianization.py 26–55. -/
noncomputable def tukeyLMeanAndScale (hl hr : ℝ) : ℝ × ℝ :=
  let oneDivSqrt2Pi := 1 / Real.sqrt (2 * Real.pi)
  (oneDivSqrt2Pi * (1 / (hl - 1) + 1 / (1 - hr)),
   oneDivSqrt2Pi * ((Real.sqrt (2 - hl) + Real.sqrt (2 - hr) - hl * Real.sqrt (2 - hl)
      - hr * Real.sqrt (2 - hr)) / ((hl - 1) * (hr - 1) * Real.sqrt ((hl - 2) * (hr - 2)))))

/-- The outputs of `_LMomentsCombiner`. -/
structure Fit where
  loc : ℝ
  scale : ℝ
  hl : ℝ
  hr : ℝ

/-- `_LMomentsCombiner.extract_output`, analyzers.py 1612–1664, for one column with the L-moments
`l1` to `l4`, and `quadruplets` the number of quadruplets `count_l4`. -/
noncomputable def fit (shape : ℝ → ℝ → ℝ × ℝ) (l1 l2 l3 l4 quadruplets : ℝ) : Fit :=
  let skewness := if l2 > 0 ∧ quadruplets > 0 then l3 / l2 else 0
  let kurtosis := if l2 > 0 ∧ quadruplets > 0 then l4 / l2 else 0
  let h := tukeyParams shape skewness kurtosis
  let ms := tukeyLMeanAndScale h.1 h.2
  let scale := if l2 > 0 then l2 / ms.2 else 1
  { loc := l1 - scale * ms.1, scale := scale, hl := h.1, hr := h.2 }

/-- `_scale_to_gaussian_internal`, mappers.py 133–182, for one value and the variance `var`. -/
noncomputable def scaleToGaussian (f : Fit) (var x : ℝ) : ℝ :=
  let numerator := x - f.loc
  let denominator := if f.hl > 0 ∨ f.hr > 0 then f.scale else Real.sqrt var
  let scaled := if denominator ≠ 0 then numerator / denominator else numerator
  inverseTukeyHH scaled f.hl f.hr

end TFT.Numeric
