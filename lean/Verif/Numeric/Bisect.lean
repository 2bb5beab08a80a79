import Mathlib.Algebra.Order.Field.Basic
import Mathlib.Algebra.Order.AbsoluteValue.Basic
import Mathlib.Analysis.SpecialFunctions.Trigonometric.Basic

/-!
# The parameter search of `gaussianization.py`

Exact arithmetic in an ordered field instead of floating point; NaN does not occur.
-/

namespace TFT.Numeric

section
variable {K : Type} [Field K] [LinearOrder K] [IsStrictOrderedRing K]

/-- The exit tolerance `1e-6` (gaussianization.py:158-159, 222-223). -/
def tolerance : K := 1 / 1000000

/-- One pass through the body of the loop (gaussianization.py:163-168). -/
def bisectStep (errorFn : K → K) (low high : K) : K × K :=
  let current := (low + high) / 2
  if errorFn current < 0 then (current, high) else (low, current)

/-- The loop of `_binary_search` (gaussianization.py:161-176); `left` counts the passes that may still
follow this one. -/
def bisectLoop (errorFn : K → K) : Nat → K → K → K × K
  | 0, low, high => bisectStep errorFn low high
  | left + 1, low, high =>
    let error := errorFn ((low + high) / 2)
    let p := bisectStep errorFn low high
    if |error| < tolerance ∨ p.2 - p.1 < tolerance then p
    else bisectLoop errorFn left p.1 p.2

/-- `_binary_search` (gaussianization.py:135-177): the loop stops when `current_iter`, counted from 1,
exceeds 10. -/
def binarySearch (errorFn : K → K) (low high : K) : K × K := bisectLoop errorFn 10 low high

/-- The variables of the search loop of `compute_tukey_hh_params`. -/
structure Search (K : Type) where
  h : K
  delta : K
  minH : K
  minDelta : K
  maxH : K
  maxDelta : K

/-- The body of the search loop (gaussianization.py:263-313), for the errors of skewness and kurtosis
as functions of `h` and `delta_h`. -/
def searchStep (errSkewness errKurtosis : K → K → K) (s : Search K) : Search K :=
  if 0 < errSkewness s.h s.maxDelta then
    let d1 := (binarySearch (errSkewness s.h) s.minDelta s.maxDelta).2
    let h1 := (binarySearch (fun x => errKurtosis x d1) s.minH s.maxH).2
    let d2 := (binarySearch (errSkewness h1) s.minDelta d1).1
    let h2 := (binarySearch (fun x => errKurtosis x d2) s.minH h1).1
    { h := h2, delta := d2, minH := h2, minDelta := d2, maxH := h1, maxDelta := d1 }
  else
    let d1 := s.maxDelta
    let h1 := (binarySearch (fun x => errKurtosis x d1) s.minH s.maxH).1
    { h := h1, delta := d1, minH := h1, minDelta := d1, maxH := s.maxH, maxDelta := h1 }

/-- The search loop (gaussianization.py:260-324). `left` passes may be made. -/
def searchLoop (errSkewness errKurtosis : K → K → K) : Nat → K → K → Search K → Search K
  | 0, _, _, s => s
  | left + 1, prevH, prevDelta, s =>
    let s' := searchStep errSkewness errKurtosis s
    if (|errSkewness s'.h s'.delta| < tolerance ∧ |errKurtosis s'.h s'.delta| < tolerance) ∨
        (|s'.h - prevH| < tolerance ∧ |s'.delta - prevDelta| < tolerance) then s'
    else searchLoop errSkewness errKurtosis left s'.h s'.delta s'

end

/-- The initial value (gaussianization.py:252). -/
noncomputable def initialH (kurtosis : ℝ) : ℝ :=
  3 - 1 / Real.cos (Real.pi / 15 * (kurtosis - 6))

/-- `compute_tukey_hh_params` (gaussianization.py:204-330). `shape hl hr` stands for
`_tukey_hh_l_skewness_and_kurtosis` (gaussianization.py:59-132), about which nothing is assumed. -/
noncomputable def tukeyParams (shape : ℝ → ℝ → ℝ × ℝ) (skewness kurtosis : ℝ) : ℝ × ℝ :=
  if kurtosis < 0.1226017 then (0, 0)
  else
    let swap := decide (skewness < 0)
    let skewness := if skewness < 0 then -skewness else skewness
    let kurtosis := min kurtosis (1 - 1.0e-5)
    let errSkewness := fun h delta => (shape (h - delta) h).1 - skewness
    let errKurtosis := fun h delta => (shape (h - delta) h).2 - kurtosis
    let h0 := initialH kurtosis
    let s := searchLoop errSkewness errKurtosis 20 0 0
      { h := h0, delta := 0, minH := h0, minDelta := 0, maxH := 1 - 1.0e-7, maxDelta := h0 }
    if swap then (s.h, s.h - s.delta) else (s.h - s.delta, s.h)

end TFT.Numeric
