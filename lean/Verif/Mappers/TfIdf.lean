import Verif.Mappers.Sparse
import Mathlib.Analysis.SpecialFunctions.Log.Basic

/-!
# tf-idf

Model of `tft.tfidf`. Exact arithmetic; the casts between integers, float64 and float32 are not
modelled. The batch of documents is a sparse tensor of integers (one row per document).
-/

namespace TFT.TfIdf
open TFT.Sparse (Tensor gather1 segmentIndices maxPlusOne)

/-- `to_vocab_range`, `tf_utils.py:2215-2236`: floor modulus. TensorFlow fails for modulus 0,
see `tfidf`. -/
def toVocabRange (x : Tensor Int) (vocabSize : Nat) : Tensor Int :=
  ⟨x.entries.map (fun e => (e.1, e.2 % (vocabSize : Int))), x.rows, x.cols⟩

/-- Lexicographic order of `(document, term)` indices. -/
abbrev lexLE (a b : Nat × Int) : Prop := a.1 < b.1 ∨ (a.1 = b.1 ∧ a.2 ≤ b.2)

/-- `tf.compat.v1.sparse_reduce_sum_sparse(next_tensor, 1)` for the tensor with index
`[doc, position, term]` and value 1 for every entry, `mappers.py:893-917`: the distinct
`(doc, term)` pairs in row-major order with their number of entries. -/
def termCountPerDoc (x : Tensor Int) : List ((Nat × Int) × Nat) :=
  let pairs := x.entries.map (fun e => (e.1.1, e.2))
  (uniqFirst (pairs.insertionSort lexLE)).map (fun k => (k, pairs.count k))

/-- `dense_doc_sizes`, `mappers.py:919-928`. -/
def docSizes (x : Tensor Int) : List Nat :=
  (List.range x.rows).map (fun i => ((x.entries.filter (fun e => e.1.1 = i)).map (fun _ => 1)).sum)

/-- `_to_term_frequency`, `mappers.py:875-940`. -/
def toTermFrequency (x : Tensor Int) : Except Err (List ((Nat × Int) × ℚ)) :=
  seqExcept ((termCountPerDoc x).map (fun kc => do
    let size ← gather1 (docSizes x) kc.1.1
    .ok (kc.1, (kc.2 : ℚ) / (size : ℚ))))

/-- `_count_docs_with_term`, `mappers.py:982-1000`, of the term frequencies of a batch: for
every term the number of `(doc, term)` entries. It reads only the indices of the term
frequencies, which are those of `termCountPerDoc`. -/
def countDocsWithTerm (x : Tensor Int) (vocabSize : Nat) : List ℚ :=
  (List.range vocabSize).map (fun (t : Nat) =>
    (((termCountPerDoc x).filter (fun kc => kc.1.2 = (t : Int))).map (fun _ => (1 : ℚ))).sum)

/-- The analyzer `analyzers.sum(count_docs_with_term_column, reduce_instance_dims=False)`,
`mappers.py:823-827`, as a function of batches of documents. -/
def documentFrequencyAnalyzer (vocabSize : Nat) (known : Bool) :
    Combiner (List (Nd ℚ)) (Tensor Int) (List (Nd ℚ)) :=
  (sumAnalyzer [vocabSize] known).onBatches
    (fun x => (countDocsWithTerm (toVocabRange x vocabSize) vocabSize).map (fun c => [c]))

/-- The analyzer `analyzers.sum(sizes)`, `mappers.py:822-828`. -/
def corpusSizeAnalyzer : Combiner (List (Nd ℚ)) (Tensor Int) (List (Nd ℚ)) :=
  (sumAnalyzer [] true).onBatches (fun x => [[(x.rows : ℚ)]])

/-- `document_frequency_to_idf`, `tf_utils.py:2239-2288`, with `add_baseline=True`, for one
term. `none` stands for a value that is not finite (division by a document frequency of 0, or the
logarithm of 0, without smoothing). -/
noncomputable def idf (smooth : Bool) (df corpus : ℚ) : Option ℝ :=
  if smooth then some (Real.log (((corpus : ℝ) + 1) / (1 + (df : ℝ))) + 1)
  else if df = 0 ∨ corpus = 0 then none
  else some (Real.log ((corpus : ℝ) / (df : ℝ)) + 1)

/-- `tf.gather(tf.squeeze(idf), term)`, `mappers.py:970`: a vector of length one is squeezed to
a scalar, which `tf.gather` rejects. -/
def gatherSqueezed {β : Type} (v : List β) (t : Int) : Except Err β :=
  if v.length = 1 then .error "InvalidArgumentError: params must be at least 1 dimensional"
  else gather1 v t.toNat

/-- `_to_tfidf`, `mappers.py:943-979`. -/
noncomputable def toTfidf (tfs : List ((Nat × Int) × ℚ)) (df : List ℚ) (corpus : ℚ)
    (smooth : Bool) : Except Err (List ((Nat × Int) × Option ℝ)) :=
  let idfs := df.map (fun d => idf smooth d corpus)
  if idfs.length = 1 then .error "InvalidArgumentError: params must be at least 1 dimensional"
  else seqExcept (tfs.map (fun e => do
    let w ← gatherSqueezed idfs e.1.2
    .ok (e.1, w.map (fun w => ((e.2 : ℚ) : ℝ) * w))))

/-- `_split_tfidfs_to_outputs`, `mappers.py:835-872`. -/
def splitOutputs {β : Type} (tfidfs : List ((Nat × Int) × β)) (rows : Nat) :
    Except Err (Tensor Int × Tensor β) := do
  let dummy ← segmentIndices (tfidfs.map (fun e => e.1.1))
  let index := List.zip (tfidfs.map (fun e => e.1.1)) (dummy.map Int.toNat)
  .ok (⟨List.zip index (tfidfs.map (fun e => e.1.2)), rows, maxPlusOne dummy⟩,
       ⟨List.zip index (tfidfs.map (fun e => e.2)), rows, maxPlusOne dummy⟩)

/-- The transform part of `tft.tfidf`, `mappers.py:811-832`, for the analysis results `df` and
`corpus`. -/
noncomputable def tfidf (x : Tensor Int) (vocabSize : Nat) (smooth : Bool) (df : List ℚ)
    (corpus : ℚ) : Except Err (Tensor Int × Tensor (Option ℝ)) := do
  if vocabSize = 0 ∧ x.entries ≠ [] then throw "InvalidArgumentError: Integer division by zero"
  let cleaned := toVocabRange x vocabSize
  let tfs ← toTermFrequency cleaned
  let w ← toTfidf tfs df corpus smooth
  splitOutputs w x.rows

/-- `tft.tfidf`, `mappers.py:732-832`: both analyses over all batches, then the transform of one
batch. Inputs that are not two-dimensional, which the code rejects, are not expressible. -/
noncomputable def runTfidf (vocabSize : Nat) (smooth known : Bool)
    (s1 : List (Sched (Tensor Int))) (s2 : Sched Nat)
    (s1' : List (Sched (Tensor Int))) (s2' : Sched Nat) (x : Tensor Int) :
    Except Err (Tensor Int × Tensor (Option ℝ)) := do
  let df ← analysis (documentFrequencyAnalyzer vocabSize known) s1 s2
  let corpus ← analysis corpusSizeAnalyzer s1' s2'
  match df, corpus with
  | [df], [⟨_, [corpus]⟩] => tfidf x vocabSize smooth df.data corpus
  | _, _ => .error "wrong number of outputs"

end TFT.TfIdf
