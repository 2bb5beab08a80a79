import Verif.Vocab.Reduce
import Verif.Combine.PerKey
import Verif.Numeric.MutualInfo
import Verif.Numeric.MinDiff

/-!
# From batches with labels to the informativeness of the tokens

Model of the stages of `tft.vocabulary` with labels up to the mutual information:
`_VocabularyAccumulateImpl` and `_VocabularyMergeImpl` (`beam/analyzer_impls.py:277-402`) with
`_MutualInformationTransformAccumulate` and `_MutualInformationTransformMerge` (`816-896`).
-/

namespace TFT.Inform

open Reduce

variable {T : Type} [DecidableEq T]

/-- The tensors of a batch: tokens, labels and weights. -/
structure RawBatch (T : Type) where
  x : XInput T
  y : YInput
  w : Option Weights

/-- What one batch adds to the collection that is combined per token: the reduction of the batch
(`analyzers.py:2160-2215`) and `FlattenTokensAndMaybeWeightsLabels`
(`beam/analyzer_impls.py:293-307`, `325`). -/
def batchAccumulators (cw : Bool) (drop : T → Bool) (sentinel : T) (b : RawBatch T) :
    Except Err (List (T × WMAcc)) := do
  let r ← reduceBatchWeightedCooccurrences drop sentinel b.x b.y b.w
  .ok (toAccumulators cw r)

/-- What a dataset adds: its batches one after the other (a `FlatMap`). -/
def datasetAccumulators (cw : Bool) (drop : T → Bool) (sentinel : T) (bs : List (RawBatch T)) :
    Except Err (List (T × WMAcc)) := do
  let ls ← seqExcept (bs.map (batchAccumulators cw drop sentinel))
  .ok ls.flatten

/-- An accumulator in the real numbers. How NaN goes through the mutual information is not modelled:
it is an error here. -/
noncomputable def toLabelAcc (a : WMAcc) : Except Err Numeric.LabelAcc :=
  match a.weight with
  | none => .error "NaN weight"
  | some w =>
    if a.mean.any Option.isNone then .error "NaN mean"
    else .ok ⟨a.mean.map (fun m => ((m.getD 0 : ℚ) : ℝ)), a.count, w⟩

/-- `min_diff_from_avg`, or the recommended value for the total weight if it is not given
(`beam/analyzer_impls.py:872-878`). -/
noncomputable def minDiffFor (minDiff : Option ℝ) (totalWeight : ℚ) : ℝ :=
  match minDiff with
  | some d => d
  | none => (Numeric.recommendedMinDiff totalWeight : ℝ)

/-- `CalculateMutualInformationPerToken` for one token (`beam/analyzer_impls.py:887-896`). The side
input `AsSingleton` is an error unless there is exactly one value. -/
noncomputable def informativenessOf (rnd : ℝ → ℤ) (adjusted : Bool) (minDiff : Option ℝ)
    (globals : List WMAcc) (p : T × WMAcc) : Except Err (T × Option ℝ × ℝ) :=
  match globals with
  | [g] => do
    let glob ← toLabelAcc g
    let cur ← toLabelAcc p.2
    let info ← Numeric.mutualInformation rnd adjusted
      (minDiffFor minDiff ((g.count : ℚ) * g.weight.getD 0)) glob cur
    .ok (p.1, info.mi, info.frequency)
  | _ => .error "ValueError: PCollection is not a singleton accessed as a singleton view"

/-- `_MutualInformationTransformAccumulate` per dataset and `_MutualInformationTransformMerge`
(`beam/analyzer_impls.py:816-820`, `853-896`). Both stages are
`CombinePerKey(_WeightedMeanCombineFn)`; its `add_input` is the merge of two accumulators, so the
second one is the `mergeStage` of the first. `_extract_sentinels` (`823-847`) separates the
accumulator of the sentinel. -/
noncomputable def informativeness (cw : Bool) (rnd : ℝ → ℤ) (adjusted : Bool) (minDiff : Option ℝ)
    (sentinel : T) (r1s : List (KeyRun T WMAcc)) (r2 : KeyRun T Nat) :
    Except Err (List (T × Option ℝ × ℝ)) := do
  let accs ← perKeyAnalysis (wmCombiner cw) r1s r2
  let globals := (accs.filter (fun p => decide (p.1 = sentinel))).map Prod.snd
  seqExcept ((accs.filter (fun p => !decide (p.1 = sentinel))).map
    (informativenessOf rnd adjusted minDiff globals))

end TFT.Inform
