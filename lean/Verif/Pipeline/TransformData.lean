import Verif.Schema.FeatureSpec
import Verif.Pipeline.Serving

/-!
# The metadata of transformed data

Model of what `TransformDataset` and `EncodeTransformedDataset` (beam/impl.py) do with metadata when a
pipeline is built: `exclude_outputs`, and the choice of the encoder. `DatasetMetadata` objects can be
shared, so they live on a heap.
-/

namespace TFT.TransformData

open FeatureSpec

/-- `feature_spec[name] = spec` on a dict that keeps the order of insertion. -/
def setItem {α : Type} (k : String) (v : α) : List (String × α) → List (String × α)
  | [] => [(k, v)]
  | (k', v') :: d => if k' = k then (k, v) :: d else (k', v') :: setItem k v d

/-- The dict of a sequence of assignments, schema_utils.py:345-366. -/
def dictOf {α : Type} (entries : List (String × α)) : List (String × α) :=
  entries.foldl (fun d e => setItem e.1 e.2 d) []

/-- `_remove_columns_from_metadata`, beam/impl.py:1541-1556, and `DatasetMetadata.from_feature_spec`,
tf_metadata/dataset_metadata.py:43-50. -/
def removeColumns (s : Schema) (excluded : List String) : Except Err Schema := do
  let generated ← schemaAsFeatureSpec s
  let newSpec := (dictOf generated.1).filter (fun e => e.1 ∉ excluded)
  let newDomains := (dictOf generated.2).filter (fun e => e.1 ∉ excluded)
  schemaFromFeatureSpec newSpec (newDomains.map (fun e => (e.1, some e.2)))

/-- `DatasetMetadata`, tf_metadata/dataset_metadata.py:39-41. -/
structure Meta where
  schema : Schema
  recordBatches : Bool := true

/-- What stands for the metadata in a pipeline: a `DatasetMetadata` object, or (`beam`) a
`BeamDatasetMetadata` that holds one, beam/tft_beam_io/beam_metadata_io.py:35-48. -/
structure MetaRef where
  beam : Bool
  addr : Nat
  deriving DecidableEq

/-- The state while a pipeline is built: the `DatasetMetadata` objects; for each `TransformDataset` its
output metadata and whether its data are record batches; for each `EncodeTransformedDataset` the number
of the transformed dataset and whether record batches are encoded. -/
structure St where
  heap : List Meta
  datasets : List (MetaRef × Bool) := []
  encoders : List (Nat × Bool) := []

/-- The steps that are modelled. -/
inductive Stmt
  | transform (output : MetaRef) (exclude : Option (List String)) (recordBatches : Bool)
  | encode (dataset : Nat)

/-- `TransformDataset.expand`, beam/impl.py:1664-1691, 1777: the metadata without the excluded outputs
is a new object; then the flag is set on the object, line 1691. -/
def St.transform (s : St) (output : MetaRef) (exclude : Option (List String)) (recordBatches : Bool) :
    Except Err St :=
  match s.heap[output.addr]? with
  | none => .error "NameError"
  | some m =>
    match exclude with
    | none => .ok { s with
        heap := s.heap.set output.addr { m with recordBatches := recordBatches }
        datasets := s.datasets ++ [(output, recordBatches)] }
    | some excluded => do
      let schema ← removeColumns m.schema excluded
      .ok { s with
        heap := s.heap ++ [⟨schema, recordBatches⟩]
        datasets := s.datasets ++ [(⟨output.beam, s.heap.length⟩, recordBatches)] }

/-- `EncodeTransformedDataset.expand`, beam/impl.py:1816-1845. -/
def St.encode (s : St) (dataset : Nat) : Except Err St :=
  match s.datasets[dataset]? with
  | none => .error "NameError"
  | some d =>
    if d.1.beam then
      match s.heap[d.1.addr]? with
      | none => .error "NameError"
      | some m => .ok { s with encoders := s.encoders ++ [(dataset, m.recordBatches)] }
    else .error "AttributeError: 'DatasetMetadata' object has no attribute 'deferred_metadata'"

/-- One step. -/
def St.step (s : St) : Stmt → Except Err St
  | .transform output exclude recordBatches => s.transform output exclude recordBatches
  | .encode dataset => s.encode dataset

/-- Building a pipeline. -/
def St.run (s : St) (prog : List Stmt) : Except Err St := prog.foldlM St.step s

end TFT.TransformData
