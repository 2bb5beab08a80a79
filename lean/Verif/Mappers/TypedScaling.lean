import Verif.Mappers.Scaling
import Verif.Mappers.TypedBuckets
import Verif.Combine.MeanVar
import Verif.Combine.PerKey

/-!
# Scaling of columns whose type is not that of the statistics

Model of `tft.mean`, `tft.var`, `tft.scale_to_z_score`, `tft.scale_by_min_max` and `tft.scale_to_0_1` with the types of
the column: `Combine/MeanVar` and `Mappers/Scaling` compute with exact numbers, here the column is first cast. Apart
from these casts arithmetic stays exact. Without keys; values are finite.
-/

namespace TFT.TypedScaling

open TFT.Buckets TFT.Scaling

/-- `_FLOAT_OUTPUT_DTYPE_MAP`, `analyzers.py:110-122`. -/
def floatOutput : Dtype → Option Dtype
  | .int _ bits => if bits ∈ [8, 16, 32, 64] then some .float32 else none
  | .float p e => if Dtype.float p e ∈ [Dtype.float16, .float32, .float64] then some (.float p e) else none

/-- `tf.cast` (TensorFlow) of a finite number to a type of floats; casts to integers do not occur. Overflow is not
modelled. -/
def castTo (c : Casts) (src dst : Dtype) (q : ℚ) : ℚ :=
  if src = dst then q
  else
    match dst with
    | .float p _ => c.round p q
    | .int _ _ => q

/-- The type in which mean and variance are computed, `analyzers.py:966-969`. -/
def meanVarType (outputDtype : Option Dtype) (src : Dtype) : Except Err Dtype :=
  match outputDtype with
  | some t => .ok t
  | none =>
    match floatOutput src with
    | some t => .ok t
    | none => .error "TypeError: Tensor type is not supported"

/-- `_mean_and_var`, `analyzers.py:960-999`, of dense batches given by columns: line 976 casts. -/
def meanAndVar (c : Casts) (outputDtype : Option Dtype) (src : Dtype) (cols : Nat) (s1 : List (Sched (ColBatch ℚ)))
    (s2 : Sched Nat) :=
  (meanVarType outputDtype src).bind (fun t =>
    analysis (meanVarAnalyzer denseStats cols)
      (s1.map (Sched.map (fun b : ColBatch ℚ => b.map (List.map (fun q => some (castTo c src t q)))))) s2)

/-- The value `x` after `scale_to_z_score`, `mappers.py:716-729`: `mean` and `var` are of type `t`, line 716 casts. -/
noncomputable def zScoreTyped (c : Casts) (src t : Dtype) (mean var : Option ℚ) (x : ℚ) : Option ℝ :=
  zScore mean var (castTo c src t x)

/-- The analysis of `_scale_by_min_max_internal`, `mappers.py:387-391`: line 387 casts. -/
def minAndMax (c : Casts) (src : Dtype) (sh : List Nat) (known : Bool) (s1 : List (Sched (ColBatch ℚ)))
    (s2 : Sched Nat) :=
  analysis (minMaxAnalyzer floatType sh known)
    (s1.map (Sched.map (fun b : ColBatch ℚ =>
      b.map (List.map (fun q => (((castTo c src .float32 q : ℚ) : WithTop ℚ) : EFloat)))))) s2

/-- The value `x` after `scale_by_min_max`, `mappers.py:439-454`; `x` is the column cast in line 387. -/
noncomputable def scaleTyped (c : Casts) (src : Dtype) (outputMin outputMax : ℝ) (mn mx : EFloat) (x : ℚ) :
    Except Err ℝ :=
  scaleByMinMax outputMin outputMax mn mx (castTo c src .float32 x)

end TFT.TypedScaling
