import Verif.Combine.PerKey
import Mathlib.Order.WithBot

/-!
# Vocabulary analysis

Model of `tft.vocabulary`: batch reduction, counting, pruning, ordering and writing.
Tokens of type `T` are what the batches contain (strings or integers), `B` are the byte strings
that are written, ordered lexicographically. Weights and counts are exact rationals.
-/

namespace TFT.Vocab

/-- `_get_top_k_and_frequency_threshold`, `analyzers.py:1826-1847`. The conversion by `int(...)`
and `float(...)` is not modelled. -/
def getTopKAndThreshold (topK : Option Int) (threshold : Option ℚ) :
    Except Err (Option Nat × Option ℚ) :=
  match topK with
  | some k =>
    if k ≤ 0 then .error "ValueError: top_k must be positive"
    else match threshold with
      | some t => if t < 0 then .error "ValueError: frequency_threshold must be non-negative"
                  else .ok (some k.toNat, some t)
      | none => .ok (some k.toNat, none)
  | none => match threshold with
      | some t => if t < 0 then .error "ValueError: frequency_threshold must be non-negative"
                  else .ok (none, some t)
      | none => .ok (none, none)

/-- The numbers that `VocabularyPrune` gets. -/
structure PruneParams (Key B : Type) where
  topK : Option Nat
  frequencyThreshold : ℚ
  informativenessThreshold : WithBot ℚ
  coverageTopK : Option Nat
  coverageFrequencyThreshold : ℚ
  coverageInformativenessThreshold : WithBot ℚ
  keyFn : Option (B → Key)

/-- Python truthiness of an optional number. -/
def truthyInt (x : Option Int) : Bool := x.any (fun k => decide (k ≠ 0))

/-- Python truthiness of an optional number. -/
def truthyRat (x : Option ℚ) : Bool := x.any (fun k => decide (k ≠ 0))

/-- A threshold that starts as `float("-inf")` and is set if one is given,
`analyzers.py:2113-2125`. -/
def orMinusInf (t : Option ℚ) : WithBot ℚ :=
  match t with
  | none => ⊥
  | some x => (x : WithBot ℚ)

/-- The checks and conversions of the parameters in `vocabulary`, `analyzers.py:2056-2148`.
`hasLabels` is `labels is not None`. dtype and file format checks are not modelled. -/
def vocabularyParams {Key B : Type} (topK : Option Int) (threshold : Option ℚ)
    (coverageTopK : Option Int) (coverageThreshold : Option ℚ) (keyFn : Option (B → Key))
    (hasLabels : Bool) : Except Err (PruneParams Key B) := do
  let (k, t) ← getTopKAndThreshold topK threshold
  if (truthyInt coverageTopK || truthyRat coverageThreshold) && keyFn.isNone then
    .error "ValueError: You must specify `key_fn` if you specify `coverage_top_k`"
  else if keyFn.isSome && !(truthyInt coverageTopK || truthyRat coverageThreshold) then
    .error "ValueError: You must specify `coverage_top_k` if you specify `key_fn`"
  else do
    let (ck, ct) ← getTopKAndThreshold coverageTopK coverageThreshold
    if hasLabels then
      .ok { topK := k, frequencyThreshold := 0, informativenessThreshold := orMinusInf t,
            coverageTopK := ck, coverageFrequencyThreshold := 0,
            coverageInformativenessThreshold := orMinusInf ct, keyFn := keyFn }
    else
      .ok { topK := k, frequencyThreshold := t.getD 0, informativenessThreshold := ⊥,
            coverageTopK := ck, coverageFrequencyThreshold := ct.getD 0,
            coverageInformativenessThreshold := ⊥, keyFn := keyFn }

section counting

variable {T : Type} [DecidableEq T]

/-- One batch: the flattened tokens, each with its weight (ignored if there are no weights). -/
abbrev TokenBatch (T : Type) := List (T × ℚ)

/-- `reduce_batch_weighted_counts`, `tf_utils.py:159-203` (with `force=False`), followed by the
flattening of `beam/analyzer_impls.py:580-610`. `drop` is the regex filter for tokens that a text
file cannot hold (`analyzers.py:2218-2224`). Without weights every remaining token counts 1
(`beam.combiners.Count.PerElement`, `beam/analyzer_impls.py:317-318`). -/
def batchPairs (weighted : Bool) (drop : T → Bool) (batch : TokenBatch T) : List (T × ℚ) :=
  let kept := batch.filter (fun p => !drop p.1)
  if weighted then
    (uniqFirst (kept.map Prod.fst)).map (fun t =>
      (t, ((kept.filter (fun p => decide (p.1 = t))).map Prod.snd).sum))
  else kept.map (fun p => (p.1, 1))

/-- `beam.CombinePerKey(sum)` and `Count.PerElement` as a combiner: a running sum.
(`beam/analyzer_impls.py:305-318`, `386-396`.) -/
def sumCombiner : Combiner ℚ ℚ ℚ where
  create := 0
  addInput := fun a x => .ok (a + x)
  merge := fun as => .ok as.sum
  extract := fun a => .ok a

end counting

/-- The first component of a `(count, token)` pair after merging: a number, or the pair of
informativeness and frequency when there are labels
(`beam/analyzer_impls.py:176-184`). NaN is not modelled. -/
inductive Indicator where
  | count (c : ℚ)
  | infoAndFreq (informativeness freq : ℚ)

/-- `_VocabularyMergeImpl` without labels, `beam/analyzer_impls.py:362-402`: sums per token over
all datasets, then swaps to `(count, token)`. -/
def mergedCounts {T : Type} (r1s : List (KeyRun T ℚ)) (r2 : KeyRun T Nat) :
    Except Err (List (Indicator × T)) := do
  let sums ← perKeyAnalysis sumCombiner r1s r2
  .ok (sums.map (fun p => (.count p.2, p.1)))

section prune

variable {T B Key : Type} [LinearOrder B] [DecidableEq Key]

/-- Python's order on `(count, token)` tuples, reversed: `a` is before or at `b` when sorting
with `reverse=True`. -/
def precedes (a b : ℚ × B) : Prop := b.1 < a.1 ∨ (b.1 = a.1 ∧ b.2 ≤ a.2)

instance : DecidableRel (precedes (B := B)) := fun a b => by
  unfold precedes; infer_instance

/-- `filter_by_thresholds`, `beam/analyzer_impls.py:173-187`. -/
def passesThresholds (freqThr : ℚ) (infoThr : WithBot ℚ) : Indicator → Bool
  | .count c => decide (freqThr ≤ c)
  | .infoAndFreq i f => decide (freqThr ≤ f) && decide (infoThr ≤ (i : WithBot ℚ))

/-- `flatten_to_single_metric`, `beam/analyzer_impls.py:195-198`. -/
def flattenMetric : Indicator → ℚ
  | .count c => c
  | .infoAndFreq i _ => i

/-- `beam.combiners.Top.Of(k)`: the `k` largest elements, largest first. Not code of the
repository. -/
def topOf (k : Nat) (l : List (ℚ × B)) : List (ℚ × B) := (l.insertionSort precedes).take k

/-- `maybe_add_empty_vocabulary_dummy`, `beam/analyzer_impls.py:90-98`. -/
def maybeAddDummy (dummy : ℚ × B) (l : List (ℚ × B)) : List (ℚ × B) :=
  if l = [] then [dummy] else l

/-- `_ApplyThresholdsAndTopK`, `beam/analyzer_impls.py:159-243`. `enc` is the encoding of
numerical terms (lines 202-205; the identity for strings), `dummy` the entry of
`get_empy_vocabulary_dummy_value` (`analyzers.py:1894-1907`). The result's order is meaningful
only for `topK = some _`, `keyFn = none`. -/
def applyThresholdsAndTopK (enc : T → B) (dummy : ℚ × B) (freqThr : ℚ) (topK : Option Nat)
    (infoThr : WithBot ℚ) (keyFn : Option (B → Key)) (counts : List (Indicator × T)) :
    List (ℚ × B) :=
  let filtered := if 0 < freqThr ∨ ⊥ < infoThr
    then counts.filter (fun p => passesThresholds freqThr infoThr p.1) else counts
  let flat := filtered.map (fun p => (flattenMetric p.1, enc p.2))
  match topK with
  | none => flat
  | some k =>
    match keyFn with
    | some f => (uniqFirst (flat.map (fun p => f p.2))).flatMap
        (fun key => topOf k (flat.filter (fun p => decide (f p.2 = key))))
    | none => maybeAddDummy dummy (topOf k flat)

/-- `_VocabularyPruneImpl.expand`, `beam/analyzer_impls.py:424-479`. The checks for negative
numbers cannot fail: `PruneParams` come from `vocabularyParams`. -/
def prune (enc : T → B) (dummy : ℚ × B) (P : PruneParams Key B)
    (counts : List (Indicator × T)) : List (ℚ × B) :=
  let result := applyThresholdsAndTopK enc dummy P.frequencyThreshold P.topK
    P.informativenessThreshold (none : Option (B → Key)) counts
  match P.keyFn with
  | none => result
  | some f =>
    let coverage := applyThresholdsAndTopK enc dummy P.coverageFrequencyThreshold P.coverageTopK
      P.coverageInformativenessThreshold (some f) counts
    uniqFirst (result ++ coverage)

end prune

section order

variable {B H Line : Type} [LinearOrder B] [LinearOrder H]

/-- `counts.sort(**sort_kwargs)`, `beam/analyzer_impls.py:539-543`: largest first, or by
fingerprint (`key=` sorts are stable). -/
def sortEntries (fingerprint : Option (B → H)) (l : List (ℚ × B)) : List (ℚ × B) :=
  match fingerprint with
  | none => l.insertionSort precedes
  | some h => l.insertionSort (fun a b => h a.2 ≤ h b.2)

/-- `_OrderElementsFn.process`, `beam/analyzer_impls.py:123-153`, up to the formatting.
`reserved = none` means that no reserved tokens were given. -/
def orderElements (fingerprint : Option (B → H)) (dummy : ℚ × B) (reserved : Option (List B))
    (batches : List (List (ℚ × B))) : List (ℚ × B) :=
  let counts := match reserved with
    | some r => batches.flatMap (fun b => b.filter (fun p => !decide (p.2 ∈ r)))
    | none => batches.flatten
  let sorted := sortEntries fingerprint counts
  let withReserved := match reserved with
    | some r => r.map (fun t => (-1, t)) ++ sorted
    | none => sorted
  maybeAddDummy dummy withReserved

/-- `_VocabularyOrderAndWriteImpl.expand`, `beam/analyzer_impls.py:498-577`: the lines of the
file. `batches` are the batches that `beam.BatchElements` made of `counts` (line 78; any division
of any reordering); they are sorted one by one (line 81). `fmt` formats an entry
(`store_frequency`: lines 101-107, 148-153). -/
def orderAndWrite (inputIsSorted : Bool) (fingerprint : Option (B → H)) (dummy : ℚ × B)
    (fmt : ℚ × B → Line) (reserved : Option (List B)) (counts : List (ℚ × B))
    (batches : List (List (ℚ × B))) : Except Err (List Line) :=
  if inputIsSorted && reserved.isNone then
    if fingerprint.isSome then .error "AssertionError"
    else .ok (counts.map fmt)
  else .ok ((orderElements fingerprint dummy reserved
    (batches.map (sortEntries fingerprint))).map fmt)

/-- `input_is_sorted`, `analyzers.py:2294-2297`. -/
def inputIsSorted {Key : Type} (P : PruneParams Key B) (shuffle : Bool) : Bool :=
  P.topK.isSome && P.keyFn.isNone && !shuffle

/-- The vocabulary file: prune, order, write (`analyzers.py:2264-2298`). -/
def vocabularyFile {T Key : Type} [DecidableEq Key] (enc : T → B) (dummy : ℚ × B)
    (P : PruneParams Key B) (fingerprint : Option (B → H)) (fmt : ℚ × B → Line)
    (reserved : Option (List B)) (counts : List (Indicator × T))
    (batches : List (List (ℚ × B))) : Except Err (List Line) :=
  orderAndWrite (inputIsSorted P fingerprint.isSome) fingerprint dummy fmt reserved
    (prune enc dummy P counts) batches

/-- `VocabularyCount` of the pruned counts plus the number of reserved tokens
(`analyzers.py:2311-2324`, `beam/analyzer_impls.py:337-356`): the reported vocabulary size. -/
def reportedSize {T Key : Type} [DecidableEq Key] (enc : T → B) (dummy : ℚ × B)
    (P : PruneParams Key B) (reserved : Option (List B)) (counts : List (Indicator × T)) : Nat :=
  max (prune enc dummy P counts).length 1 + (reserved.getD []).length

end order

end TFT.Vocab
