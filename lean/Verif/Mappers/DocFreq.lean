import Verif.Mappers.TfIdf

/-!
# Document frequencies

Model of `tft.experimental.document_frequency` and `tft.experimental.idf`. Exact arithmetic, as in
`Mappers/TfIdf`: the true division of `_to_term_document_one_hot`, cast to an integer, is the division
of integers.
-/

namespace TFT.TfIdf
open TFT.Sparse (Tensor gather1)

/-- The flat indices of the `(document, term)` pairs, `experimental/mappers.py:357-366`. -/
def flatIndices (x : Tensor Int) (vocabSize : Nat) : List Int :=
  x.entries.map (fun e => (e.1.1 : Int) * ((vocabSize : Int) + 1) + e.2)

/-- `_to_term_document_one_hot`, `experimental/mappers.py:324-385`: the indices. All values are 1.
`UniqueV2` keeps the first occurrences. -/
def oneHot (x : Tensor Int) (vocabSize : Nat) : List (Int × Int) :=
  (uniqFirst (flatIndices x vocabSize)).map
    (fun f : Int => (f / ((vocabSize : Int) + 1), f % ((vocabSize : Int) + 1)))

/-- `tf.sparse.reduce_sum(term_doc_one_hot, axis=0, keepdims=True)`,
`experimental/mappers.py:413`. -/
def oneHotSum (x : Tensor Int) (vocabSize : Nat) : List ℚ :=
  (List.range vocabSize).map (fun (t : Nat) =>
    (((oneHot x vocabSize).filter (fun k => k.2 = (t : Int))).map (fun _ => (1 : ℚ))).sum)

/-- `_to_global_document_frequency`, `experimental/mappers.py:388-417`: an analyzer of batches of
documents. The tensor of a batch has one row, so that the result has shape `[vocab_size]`. -/
def globalDocumentFrequency (vocabSize : Nat) (known : Bool) :
    Combiner (List (Nd ℚ)) (Tensor Int) (List (Nd ℚ)) :=
  (sumAnalyzer [vocabSize] known).onBatches
    (fun x => (oneHotSum (toVocabRange x vocabSize) vocabSize).map (fun c => [c]))

/-- Replacing the values of a sparse tensor by what is gathered for them. -/
def mapValues {β : Type} (x : Tensor Int) (f : Int → Except Err β) : Except Err (Tensor β) := do
  let es ← seqExcept (x.entries.map (fun e => do let y ← f e.2; .ok (e.1, y)))
  .ok ⟨es, x.rows, x.cols⟩

/-- The transform part of `document_frequency`, `experimental/mappers.py:193-209`, for the result
`df` of the analysis. `tf.squeeze` makes a scalar of a vector of length one, which `tf.gather`
rejects. -/
def applyDocumentFrequency (x : Tensor Int) (vocabSize : Nat) (df : List ℚ) :
    Except Err (Tensor ℚ) := do
  if vocabSize = 0 ∧ x.entries ≠ [] then throw "InvalidArgumentError: Integer division by zero"
  let cleaned := toVocabRange x vocabSize
  if df.length = 1 then throw "InvalidArgumentError: params must be at least 1 dimensional"
  mapValues cleaned (fun t => gather1 df t.toNat)

/-- `tft.experimental.document_frequency`, `experimental/mappers.py:128-209`: the analysis over all
batches, then the transform of one batch. -/
def runDocumentFrequency (vocabSize : Nat) (known : Bool) (s1 : List (Sched (Tensor Int)))
    (s2 : Sched Nat) (x : Tensor Int) : Except Err (Tensor ℚ) := do
  let df ← analysis (globalDocumentFrequency vocabSize known) s1 s2
  match df with
  | [df] => applyDocumentFrequency x vocabSize df.data
  | _ => .error "wrong number of outputs"

/-- `document_frequency_to_idf`, `tf_utils.py:2239-2288`, for one term. `none` stands for a value that
is not finite. -/
noncomputable def idfOf (smooth addBaseline : Bool) (df corpus : ℚ) : Option ℝ :=
  let baseline : ℝ := if addBaseline then 1 else 0
  if smooth then some (Real.log (((corpus : ℝ) + 1) / (1 + (df : ℝ))) + baseline)
  else if df = 0 ∨ corpus = 0 then none
  else some (Real.log ((corpus : ℝ) / (df : ℝ)) + baseline)

/-- The transform part of `idf`, `experimental/mappers.py:295-321`. -/
noncomputable def applyIdf (x : Tensor Int) (vocabSize : Nat) (smooth addBaseline : Bool)
    (df : List ℚ) (corpus : ℚ) : Except Err (Tensor (Option ℝ)) := do
  if vocabSize = 0 ∧ x.entries ≠ [] then throw "InvalidArgumentError: Integer division by zero"
  let cleaned := toVocabRange x vocabSize
  mapValues cleaned (fun t => gather1 (df.map (fun d => idfOf smooth addBaseline d corpus)) t.toNat)

/-- `tft.experimental.idf`, `experimental/mappers.py:212-321`. -/
noncomputable def runIdf (vocabSize : Nat) (smooth addBaseline known : Bool)
    (s1 : List (Sched (Tensor Int))) (s2 : Sched Nat) (s1' : List (Sched (Tensor Int)))
    (s2' : Sched Nat) (x : Tensor Int) : Except Err (Tensor (Option ℝ)) := do
  let df ← analysis (globalDocumentFrequency vocabSize known) s1 s2
  let corpus ← analysis corpusSizeAnalyzer s1' s2'
  match df, corpus with
  | [df], [⟨_, [corpus]⟩] => applyIdf x vocabSize smooth addBaseline df.data corpus
  | _, _ => .error "wrong number of outputs"

end TFT.TfIdf
