import Verif.Vocab.Reduce

/-!
# Approximate vocabularies

Model of `tft.experimental.approximate_vocabulary` (`experimental/analyzers.py:303-618`). The sketch
is a C++ class of tfx_bsl, which is not in the repository: it is a parameter here, and what is
assumed of it is the contract in `ApproximateProps`. Weights and counts are exact numbers (in the
code they are converted to float32, line 554).
-/

namespace TFT.ApproxVocab

open TFT.Vocab TFT.Reduce

variable {S T B Line : Type}

/-- The methods of `tfx_bsl.sketches.MisraGriesSketch` that `experimental/analyzers.py:541-571`
calls. Methods that change the sketch return the new one. `new` orders ties reverse
lexicographically (line 544). `estimate` is `Estimate()`, already validated: the tokens with
their counts. Tokens that are integers are written with decimal digits by the sketch: `T` are the
values of the tensor, `B` byte strings. -/
structure SketchApi (S T B : Type) where
  new (numBuckets : Nat) : S
  addValues : S → List T → List ℚ → Except Err S
  merge : S → S → Except Err S
  estimate : S → Except Err (List (B × ℚ))

/-- The dtype of `x` as far as it matters here. -/
inductive Dtype where
  | string | integer | other
deriving DecidableEq

/-- The checks of `approximate_vocabulary`, `experimental/analyzers.py:427-447`. `top_k` has no
default but nothing keeps the caller from passing `None`, which cannot be compared with zero. -/
def checkArguments (topK : Option Int) (fileFormat : String) (dtype : Dtype) : Except Err Nat :=
  match topK with
  | none => .error "TypeError: '<=' not supported between instances of 'NoneType' and 'int'"
  | some k =>
    if k ≤ 0 then .error "ValueError: top_k must be positive"
    else if 200000 < k then .error "ValueError: Provided top_k threshold is too large"
    else if ¬ (fileFormat = "text" ∨ fileFormat = "tfrecord_gzip") then
      .error "ValueError: not an accepted file_format"
    else if dtype = .other then .error "ValueError: expected tf.string or integer"
    else .ok k.toNat

/-- The default of `top_k` in `compute_and_apply_approximate_vocabulary`, which passes it on
(`experimental/mappers.py:42`, `106-108`). -/
def defaultTopK : Option Int := none

/-- The prefix of the default name of the file, `_get_approx_vocab_filename`,
`experimental/analyzers.py:303-328` with the constants of lines 59-60. -/
def filenamePrefix (storeFrequency : Bool) : String :=
  if storeFrequency then "approx_vocab_" else "approx_vocab_frequency_"

/-- The prefix of the default name of the file of `tft.vocabulary`, `_get_vocab_filename`,
`analyzers.py:1790-1813` with the constants of lines 82-83. -/
def exactFilenamePrefix (storeFrequency : Bool) : String :=
  if storeFrequency then "vocab_frequency_" else "vocab_"

/-- One batch: the flattened values (of a sparse or ragged tensor, those that are present) and the
flattened weights, which are not looked at if the analyzer has none. -/
structure Batch (T : Type) where
  values : List T
  weights : List ℚ

/-- `get_vocab_newline_characters_regex`, `analyzers.py:2218-2224`: the tokens to drop. -/
def dropped (unwritable : T → Bool) (dtype : Dtype) (fileFormat : String) (t : T) : Bool :=
  if dtype = .string ∧ fileFormat = "text" then unwritable t else false

/-- `_get_approximate_vocabulary_analyzer_inputs`, `experimental/analyzers.py:591-618`. -/
def analyzerInputs [DecidableEq T] (drop : T → Bool) (hasWeights : Bool) (b : Batch T) :
    Except Err (List T × List ℚ) := do
  let r ← reduceBatchWeightedCounts drop true b.values (if hasWeights then some b.weights else none)
  if r.positive.isSome then .error "AssertionError"
  else if hasWeights then
    match r.weights with
    | some w => .ok (r.unique, w)
    | none => .error "TypeError: None is not a tensor"
  else if r.weights.isSome then .error "AssertionError"
  else match r.counts with
    | some c => .ok (r.unique, c.map (fun n : Nat => (n : ℚ)))
    | none => .error "TypeError: None is not a tensor"

/-- `_VocabularyCombiner.add_input`, `experimental/analyzers.py:547-555`. -/
def addInput (api : SketchApi S T B) (acc : S) (next : List T × List ℚ) : Except Err S :=
  if next.1.isEmpty then .ok acc else api.addValues acc next.1 next.2

/-- The loop of `merge_accumulators`, `experimental/analyzers.py:564-565`. -/
def mergeInto (api : SketchApi S T B) (result : S) : List S → Except Err S
  | [] => .ok result
  | a :: rest => do
    let r ← api.merge result a
    mergeInto api r rest

/-- `_VocabularyCombiner.merge_accumulators`, `experimental/analyzers.py:557-566`. -/
def mergeAccumulators (api : SketchApi S T B) : List S → Except Err S
  | [] => .error "StopIteration"
  | a :: rest => mergeInto api a rest

/-- `_VocabularyCombiner.extract_output`, `experimental/analyzers.py:568-581`: pairs of count and
token, or the placeholder. Simplification: the outer dimension of length one, which is removed by
`_ExtractOutputImpl` and `FlattenLists` (`beam/analyzer_impls.py:1567-1600`), is left out, and so is
the difference between arrays and lists of Python objects. -/
def extractOutput (api : SketchApi S T B) (dummy : ℚ × B) (acc : S) : Except Err (List (ℚ × B)) := do
  let rows ← api.estimate acc
  let result := rows.map (fun r => (r.2, r.1))
  .ok (if result.isEmpty then [dummy] else result)

/-- `_VocabularyCombiner`, `experimental/analyzers.py:528-588`, fed with batches. `compact` is not
overridden. -/
def combiner [DecidableEq T] (api : SketchApi S T B) (k : Nat) (drop : T → Bool) (hasWeights : Bool)
    (dummy : ℚ × B) : Combiner S (Batch T) (List (ℚ × B)) where
  create := api.new k
  addInput := fun acc b => do
    let next ← analyzerInputs drop hasWeights b
    addInput api acc next
  merge := mergeAccumulators api
  extract := extractOutput api dummy

/-- What the user passes to `approximate_vocabulary` besides `x`. -/
structure Call (B : Type) where
  topK : Option Int
  fileFormat : String
  dtype : Dtype
  hasWeights : Bool
  reserved : Option (List B)

/-- `approximate_vocabulary`, `experimental/analyzers.py:332-515`: the lines of the file.
`unwritable` are the tokens that the regex of `analyzers.py:93` matches, `dummy` the entry of
`get_empy_vocabulary_dummy_value`, `fmt` the formatting of an entry (`store_frequency`), `divide` the
batches that `beam.BatchElements` makes, `s1` and `s2` the run of the combiner. -/
def approximateVocabulary [DecidableEq T] [LinearOrder B] (api : SketchApi S T B)
    (unwritable : T → Bool) (dummy : ℚ × B) (fmt : ℚ × B → Line)
    (divide : List (ℚ × B) → List (List (ℚ × B))) (c : Call B)
    (s1 : List (Sched (Batch T))) (s2 : Sched Nat) : Except Err (List Line) := do
  let k ← checkArguments c.topK c.fileFormat c.dtype
  let counts ← analysis
    (combiner api k (dropped unwritable c.dtype c.fileFormat) c.hasWeights dummy) s1 s2
  orderAndWrite true (none : Option (B → Nat)) dummy fmt c.reserved counts (divide counts)

end TFT.ApproxVocab
