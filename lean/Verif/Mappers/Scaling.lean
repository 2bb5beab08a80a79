import Verif.Mappers.Buckets
import Verif.Mappers.Lookup
import Verif.Combine.NumPy
import Mathlib.Analysis.SpecialFunctions.Sigmoid

/-!
# Scaling

Model of `scale_by_min_max`, `scale_to_0_1`, `scale_to_z_score` and their per-key variants, for
one finite value `x` of the tensor. Arithmetic is exact.
-/

namespace TFT.Scaling

open Buckets (lookupKey)
open Lookup (Str File writeFile splitAll readLinesFrom)

/-- The end of `_scale_by_min_max_internal`, `mappers.py:439-454`, and the check of lines 384-385.
`mn` and `mx` are the results of the analysis; for an empty dataset they are +inf and -inf.
Infinite results with `mn < mx` (infinite values in the data) are not modelled. -/
noncomputable def scaleByMinMax (outputMin outputMax : ℝ) (mn mx : EFloat) (x : ℝ) :
    Except Err ℝ :=
  if outputMin ≥ outputMax then .error "ValueError: output_min must be less than output_max"
  else do
    let scaled ←
      if mn < mx then
        match mn, mx with
        | some (some a), some (some b) => .ok ((x - (a : ℝ)) / ((b : ℝ) - (a : ℝ)))
        | _, _ => .error "not modelled: infinite values in the data"
      else .ok (Real.sigmoid x)
    .ok (scaled * (outputMax - outputMin) + outputMin)

/-- The end of `_scale_to_z_score_internal`, `mappers.py:716-729`. `none` is NaN. -/
noncomputable def zScore (mean var : Option ℚ) (x : ℝ) : Option ℝ :=
  mean.bind (fun m => var.bind (fun v =>
    if v < 0 then none  -- the square root is NaN
    else
      let numerator := x - (m : ℝ)
      let denominator := Real.sqrt (v : ℝ)
      some (if denominator ≠ 0 then numerator / denominator else numerator)))

section perKey

variable {K : Type} [DecidableEq K] {α : Type}

/-- `map_per_key_reductions`, `tf_utils.py:1688-1742`, for one statistic and one key (of rank 1).
`zero` is the value appended for unseen keys. With an empty vocabulary `t[0]` (line 1726) fails. -/
def mapPerKey (zero : α) (tensor : List α) (key : K) (keyVocab : List K) : Except Err α :=
  if tensor = [] then .error "InvalidArgumentError: slice index 0 of dimension 0 out of bounds"
  else
    let index := lookupKey key keyVocab
    let adjusted := if 0 ≤ index then index.toNat else keyVocab.length
    match (tensor ++ [zero])[adjusted]? with
    | some v => .ok v
    | none => .error "InvalidArgumentError: indices out of bounds"

/-- `scale_by_min_max_per_key` without key file, `mappers.py:393-415`, from the results of the
per-key analysis. -/
noncomputable def scaleByMinMaxPerKey (outputMin outputMax : ℝ) (keyVocab : List K)
    (mins maxs : List EFloat) (x : ℝ) (key : K) : Except Err ℝ :=
  if outputMin ≥ outputMax then .error "ValueError: output_min must be less than output_max"
  else do
    let mn ← mapPerKey (((0 : ℚ) : WithTop ℚ) : EFloat) mins key keyVocab
    let mx ← mapPerKey (((0 : ℚ) : WithTop ℚ) : EFloat) maxs key keyVocab
    scaleByMinMax outputMin outputMax mn mx x

/-- `scale_to_z_score_per_key` without key file, `mappers.py:672-692`, from the results of the
per-key analysis. -/
noncomputable def zScorePerKey (keyVocab : List K) (means vars : List (Option ℚ)) (x : ℝ)
    (key : K) : Except Err (Option ℝ) := do
  let m ← mapPerKey (some 0) means key keyVocab
  let v ← mapPerKey (some 0) vars key keyVocab
  .ok (zScore m v x)

end perKey

/-! ## Key files -/

/-- The file written by `_apply_cacheable_combiner_per_key_large`, `analyzers.py:208-247`, with
`_CombinePerKeyFormatLargeImpl`, `beam/analyzer_impls.py:1432-1443`: one line
`<value>,<value> <key>` per key, in some order. `showValue` is Python's number formatting. -/
def perKeyFile {V : Type} (showValue : V → Str) (entries : List (Str × V × V)) : File :=
  writeFile .text (entries.map (fun e =>
    showValue e.2.1 ++ ',' :: showValue e.2.2 ++ ' ' :: e.1))

/-- Key and value of a line (TensorFlow, `TextFileInitializer`): fields 1 and 0. -/
def perKeyRow (line : Str) : Except Err (Str × Str) :=
  match splitAll ' ' line with
  | value :: key :: _ => .ok (key, value)
  | _ => .error "InvalidArgumentError: expected more tokens"

/-- Entries of a `StaticHashTable` over a text file with `key_index=1`, `value_index=0` and
delimiter " " (`tf_utils.py:1034-1043`). TensorFlow requires both fields, and refuses a key with two
different values. -/
def perKeyTable (file : File) : Except Err (List (Str × Str)) :=
  match file with
  | .records _ => .error "DataLossError"
  | .text contents => do
    let rows ← seqExcept ((readLinesFrom [] contents).map perKeyRow)
    if rows.all (fun r => rows.all (fun s => decide (r.1 = s.1 → r.2 = s.2))) then .ok rows
    else .error "InvalidArgumentError: HashTable has different value for same key"

/-- `apply_per_key_vocabulary`, `tf_utils.py:1001-1060`, for one key: the two numbers of the key,
or 0, 0. `parse` is `tf.strings.to_number`. More or fewer fields than two do not occur in the files
written by `perKeyFile` for numbers. -/
def applyPerKeyVocabulary {V : Type} (parse : Str → Except Err V) (file : File) (key : Str) :
    Except Err (V × V) := do
  let table ← perKeyTable file
  let found := ((table.find? (fun r => decide (r.1 = key))).map Prod.snd).getD "0,0".toList
  match splitAll ',' found with
  | [a, b] => do
    let a ← parse (if a = [] then "0".toList else a)
    let b ← parse (if b = [] then "0".toList else b)
    .ok (a, b)
  | _ => .error "not modelled: not two fields"

end TFT.Scaling
