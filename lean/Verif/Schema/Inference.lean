import Verif.Schema.FeatureSpec

/-!
# Inference of the schema of transformed data

Model of `schema_inference.py` and of `experimental/annotators.py` as far as it records annotations.
The two entry points, `infer_feature_schema` (graphs and sessions) and `infer_feature_schema_v2`
(tf.functions), are modelled separately. Conversion to a schema is that of `Verif.Schema.FeatureSpec`.

Not modelled: annotations of a `SparseTensor` by `annotate` (only those of a `Tensor` are), shape
annotations given as a tensor, and a missing `annotations_pb2` (schema_inference.py:652-653).
-/

namespace TFT.SchemaInference

open TFT.FeatureSpec

/-- A `tf.Tensor` of a graph. `tensor.ref()` identifies it, and so does its name within its graph. -/
structure Ref where
  name : String
  dtype : DType
  deriving DecidableEq

/-- A static shape: unknown rank, or the sizes with `None` for an unknown one. -/
abbrev Shape := Option (List (Option Int))

/-- An output of `preprocessing_fn`. For sparse tensors `values` is the tensor of the values; for
ragged ones `values` is `flat_values` and `shape` the shape of `tensor.values`. -/
inductive Out
  | dense (values : Ref) (shape : Shape)
  | sparse (values : Ref) (shape : Shape)
  | ragged (values : Ref) (shape : Shape) (rowSplits : SplitsType)
  | other (typeName : String)
  deriving DecidableEq

/-- `any_pb2.Any`. -/
structure Annotation where
  typeUrl : String
  value : String
  deriving DecidableEq

/-- `_TF_METADATA_EXTRA_ANNOTATION_GLOBAL` (schema_inference.py:440). -/
def globalSentinel : String := "tft_schema_override_global_sentinel"

/-! ## What is recorded while `preprocessing_fn` is traced -/

/-- The graph collections (schema_inference.py:427-443, 856-858). Tensors and what is recorded for
them are in separate collections of one length; here they are pairs. The values are those that the
recorded tensors evaluate to. -/
structure Collections where
  overrides : List (Ref × Int × Int) := []
  annotations : List (Ref × Annotation) := []
  sparseShapes : List (Ref × List Int) := []
  trulySparse : List Ref := []

/-- The calls that record something. A global annotation carries the scopes it is made in and the
number that makes its name unique. -/
inductive Call
  | override (tensor : Ref) (min max : Int)
  | annotate (tensor : Ref) (a : Annotation)
  | annotateGlobal (scopes : List String) (k : Nat) (a : Annotation)
  | sparseShape (values : Ref) (tensorShape : Shape) (shape : List Int)
  | trulySparse (values : Ref)
  deriving DecidableEq

/-- The name of the constant made for a global annotation (schema_inference.py:535-536): TensorFlow
puts the scopes in front and `_k` behind if the name is taken. -/
def markerName (scopes : List String) (k : Nat) : String :=
  (scopes.map (fun s => s ++ "/")).foldr (· ++ ·)
    (globalSentinel ++ (if k = 0 then "" else "_" ++ toString k) ++ ":0")

/-- A size of the annotated shape against that of the tensor (experimental/annotators.py:114-115). -/
def fits (p : Option Int × Int) : Bool :=
  match p.1 with
  | none => true
  | some a => a ≤ p.2

/-- One call: `set_tensor_schema_override` (schema_inference.py:446-473), `annotate`
(schema_inference.py:513-549), `annotate_sparse_output_shape` (experimental/annotators.py:95-131,
schema_inference.py:861-864) and `annotate_true_sparse_output` (annotators.py:134-136,
schema_inference.py:867-869). -/
def record (c : Collections) : Call → Except Err Collections
  | .override t lo hi =>
    if t.dtype ≠ .int64 then .error "ValueError: Range can only be set for feature of type tf.int64"
    else .ok { c with overrides := c.overrides ++ [(t, lo, hi)] }
  | .annotate t a => .ok { c with annotations := c.annotations ++ [(t, a)] }
  | .annotateGlobal scopes k a =>
    .ok { c with annotations := c.annotations ++ [(⟨markerName scopes k, .string⟩, a)] }
  | .sparseShape _ none _ => .error "TypeError: '>' not supported"
  | .sparseShape t (some ts) shape =>
    if (1 < ts.length ∧ ts.length - 1 ≠ shape.length) ∨ (ts.length = 1 ∧ shape.length ≠ 1) then
      .error "ValueError: Annotated shape was expected to have another rank"
    else if (ts.tail.zip shape).all fits then
      .ok { c with sparseShapes := c.sparseShapes ++ [(t, shape)] }
    else .error "ValueError: Shape cannot contain annotated tensor"
  | .trulySparse t => .ok { c with trulySparse := c.trulySparse ++ [t] }

/-- The calls of a trace, in order. -/
def trace (calls : List Call) : Except Err Collections := calls.foldlM record {}

/-! ## Feature specs of outputs -/

/-- The partitions (schema_inference.py:56-72): `k` numbers the row lengths, from 1. -/
def raggedPartitions (name : String) : Nat → List (Option Int) → List Partition
  | _, [] => []
  | k, some n :: dims => .uniformRowLength n :: raggedPartitions name k dims
  | k, none :: dims =>
    .rowLengths (name ++ "$row_lengths_" ++ toString k) :: raggedPartitions name (k + 1) dims

/-- `_ragged_feature_spec_from_batched_tensor` (schema_inference.py:52-79). Iterating over a shape of
unknown rank fails. -/
def raggedSpec (name : String) (values : Ref) (shape : Shape) (rowSplits : SplitsType) :
    Except Err Spec :=
  match shape with
  | none => .error "ValueError: Cannot iterate over a shape with unknown rank."
  | some s => .ok (.ragged values.dtype (some (name ++ "$ragged_values"))
      (raggedPartitions name 1 s.tail) rowSplits)

/-- The dtypes of schema_inference.py:110. -/
def validDType (d : DType) : Bool := d = .string ∨ d = .int64 ∨ d = .float32

/-- The body of the loop of `_feature_spec_from_batched_tensors` (schema_inference.py:109-156). The
sizes of a `FixedLenFeature` become those of `FixedShape.Dim`, where an unknown one is left unset and
reads as 0 (schema_utils.py:222). -/
def specOfOutput (complete : Bool) (forced : List String) (name : String) :
    Out → Except Err Spec
  | .sparse v shape =>
    if !validDType v.dtype then .error "ValueError: Feature had invalid dtype for feature spec"
    else match shape with
      | none => .error "TypeError: '>' not supported"
      | some s =>
        if 2 < s.length ∨ name ∈ forced then
          .ok (.sparse
            (.list ((List.range (s.length - 1)).map
              (fun i : Nat => name ++ "$sparse_indices_" ++ toString i)))
            (name ++ "$sparse_values") v.dtype (.list s.tail) true)
        else .ok (.varLen v.dtype)
  | .dense v shape =>
    if !validDType v.dtype then .error "ValueError: Feature had invalid dtype for feature spec"
    else match shape with
      | none => .error "ValueError: must have rank at least 1"
      | some [] => .error "ValueError: must have rank at least 1"
      | some (_ :: dims) =>
        if complete ∧ none ∈ dims then
          .error "ValueError: apart from the batch dimension, all dimensions must have known size"
        else .ok (.fixedLen (dims.map (fun d => d.getD 0)) v.dtype none)
  | .ragged v shape rowSplits =>
    if !validDType v.dtype then .error "ValueError: Feature had invalid dtype for feature spec"
    else raggedSpec name v shape rowSplits
  | .other _ => .error "TypeError: Expected a Tensor, SparseTensor, or RaggedTensor"

/-- One entry of the feature spec. -/
def specEntry (complete : Bool) (forced : List String) (o : String × Out) :
    Except Err (String × Spec) := do
  let s ← specOfOutput complete forced o.1 o.2
  return (o.1, s)

/-- `_feature_spec_from_batched_tensors` (schema_inference.py:82-158). -/
def featureSpec (outs : List (String × Out)) (complete : Bool) (forced : List String) :
    Except Err (List (String × Spec)) :=
  outs.mapM (specEntry complete forced)

/-- An annotation of a sparse output: the empty string, or a shape (schema_inference.py:887-903). -/
inductive Mark
  | only
  | shape (sizes : List Int)
  deriving DecidableEq

/-- The new value of `feature_spec[k]` (schema_inference.py:317-341). `tf.TensorShape` refuses
negative sizes. -/
def overrideSpec (mark : Mark) : Spec → Except Err Spec
  | .sparse indexKey valueKey dtype size sorted =>
    match mark with
    | .only => .ok (.sparse indexKey valueKey dtype size sorted)
    | .shape sizes =>
      if sizes.any (· < 0) then .error "ValueError: Dimension must be >= 0"
      else .ok (.sparse indexKey valueKey dtype (.list (sizes.map some)) sorted)
  | spec => .ok spec

/-- Replacing the value of a key. -/
def overrideEntry (k : String) (mark : Mark) (e : String × Spec) : Except Err (String × Spec) :=
  if e.1 = k then do
    let s ← overrideSpec mark e.2
    return (e.1, s)
  else .ok e

/-- The body of the loop of `_override_sparse_feature_annotated_shapes`. -/
def overrideOne (spec : List (String × Spec)) (a : String × Mark) : Except Err (List (String × Spec)) :=
  if a.1 ∉ spec.map Prod.fst then
    .error "ValueError: Shape annotation for feature which is not an output feature."
  else spec.mapM (overrideEntry a.1 a.2)

/-- `_override_sparse_feature_annotated_shapes` (schema_inference.py:306-341). -/
def overrideShapes (spec : List (String × Spec)) (marks : List (String × Mark)) :
    Except Err (List (String × Spec)) :=
  marks.foldlM overrideOne spec

/-! ## The common part -/

/-- A dict assignment. -/
def dictSet {α : Type} (d : List (String × α)) (k : String) (v : α) : List (String × α) :=
  match d with
  | [] => [(k, v)]
  | e :: es => if e.1 = k then (k, v) :: es else e :: dictSet es k v

/-- `dict.pop`. -/
def dictPop {α : Type} (d : List (String × α)) (k : String) : Except Err (α × List (String × α)) :=
  match d.lookup k with
  | none => .error "KeyError"
  | some v => .ok (v, d.filter (fun e => e.1 ≠ k))

/-- Popping the index features (schema_inference.py:398-399). -/
def popAll {α : Type} : List String → List (String × α) → Except Err (List (String × α))
  | [], d => .ok d
  | k :: ks, d => do
    let r ← dictPop d k
    popAll ks r.2

/-- The loop over sparse features (schema_inference.py:397-401). -/
def sparseProtos (d : List (String × Feature)) (sf : SparseFeature) :
    Except Err (List (String × Feature)) := do
  let d ← popAll sf.index d
  let r ← dictPop d sf.value
  return dictSet r.2 sf.name r.1

/-- The row lengths popped by `pop_ragged_source_columns` (schema_utils.py:500-515). -/
def popRowLengths : List String → List (String × Feature) → Except Err (List (String × Feature))
  | [], d => .ok d
  | k :: ks, d => do
    let r ← dictPop d k
    if r.1.type ≠ .int then .error "ValueError: Row length feature is not an integer feature."
    else popRowLengths ks r.2

/-- The loop over tensor representations (schema_inference.py:404-413), with
`pop_ragged_source_columns` (schema_utils.py:462-516). -/
def raggedProtos (d : List (String × Feature)) (r : String × Rep) :
    Except Err (List (String × Feature)) :=
  match sourceColumns r.2 with
  | [] => .error "AssertionError"
  | c :: cs => do
    let v ← dictPop d c
    let d ← popRowLengths cs v.2
    return dictSet d r.1 v.1

/-- `feature_protos_by_name` (schema_inference.py:393-413). -/
def protosByName (s : Schema) : Except Err (List (String × Feature)) := do
  let d ← s.sparse.foldlM sparseProtos
    (s.features.foldl (fun d f => dictSet d f.name f) [])
  s.reps.foldlM raggedProtos d

/-- The inferred schema with its annotations: those of the schema, and those of its features, by the
name of the feature (of several features of a name, the last one is meant). -/
structure Inferred where
  schema : Schema
  globals : List Annotation
  columns : String → List Annotation

/-- Adding annotations to the proto of a feature (schema_inference.py:416-419). -/
def annotateFeature (protos : List (String × Feature)) (cols : String → List Annotation)
    (e : String × List Annotation) : Except Err (String → List Annotation) :=
  match protos.lookup e.1 with
  | none => .error "KeyError"
  | some f => .ok (fun c => if c = f.name then cols c ++ e.2 else cols c)

/-- The domain made of a range (schema_inference.py:378-381). -/
def rangeDomain : Option (Int × Int) → Domain
  | none => .int none none true
  | some r => .int (some r.1) (some r.2) true

/-- The domains (schema_inference.py:374-381). -/
def domainsOf (outs : List (String × Out)) (ranges : List (String × Option (Int × Int))) : Domains :=
  outs.filterMap (fun o => (ranges.lookup o.1).map (fun r => (o.1, some (rangeDomain r))))

/-- `_infer_feature_schema_common` (schema_inference.py:344-424). -/
def inferCommon (outs : List (String × Out)) (ranges : List (String × Option (Int × Int)))
    (annotations : List (String × List Annotation)) (globals : List Annotation)
    (marks : List (String × Mark)) (complete : Bool) : Except Err Inferred := do
  let spec ← featureSpec outs complete (marks.map Prod.fst)
  let spec ← overrideShapes spec marks
  let s ← schemaFromFeatureSpec spec (domainsOf outs ranges)
  let protos ← protosByName s
  let cols ← annotations.foldlM (annotateFeature protos) (fun _ => [])
  return ⟨s, globals, cols⟩

/-! ## Graphs and sessions -/

/-- `_get_tensor_values` (schema_inference.py:161-167). Other objects are returned as they are; they
are keys of no collection. -/
def valuesOf : Out → Option Ref
  | .dense v _ => some v
  | .sparse v _ => some v
  | .ragged v _ _ => some v
  | .other _ => none

/-- Reading a dict given by its assignments. -/
def dictGet {κ α : Type} [DecidableEq κ] (d : List (κ × α)) (k : κ) : Option α :=
  (d.reverse.find? (fun e => e.1 = k)).map Prod.snd

/-- The last component of a name begins with the sentinel (schema_inference.py:583-584, 730-733). -/
def isGlobalName (name : String) : Bool :=
  globalSentinel.toList.isPrefixOf (name.toList.reverse.takeWhile (· ≠ '/')).reverse

/-- `_get_sparse_output_annotations` (schema_inference.py:887-903): marks first, then shapes. -/
def sparseMarks (c : Collections) : List (Ref × Mark) :=
  (c.trulySparse.filter (fun t => t ∉ c.sparseShapes.map Prod.fst)).map (fun t => (t, .only))
    ++ c.sparseShapes.map (fun p => (p.1, .shape p.2))

/-- The ranges found for an output (schema_inference.py:203-221, 476-485); outside the evaluated
case both ends are None. -/
def range1 (c : Collections) (session : Bool) (o : String × Out) :
    Except Err (Option (String × Option (Int × Int))) :=
  match (valuesOf o.2).bind (fun v => (dictGet c.overrides v).map (fun r => (v, r))) with
  | none => .ok none
  | some (v, r) =>
    if v.dtype ≠ .int64 then .error "AssertionError"
    else .ok (some (o.1, if session then some r else none))

/-- The annotations of a tensor, in order (schema_inference.py:571-590, 654-667). -/
def tensorAnnotations (c : Collections) (v : Ref) : List Annotation :=
  (c.annotations.filter (fun p => !isGlobalName p.1.name ∧ p.1 = v)).map Prod.snd

/-- The annotations of an output (schema_inference.py:226). -/
def annotations1 (c : Collections) (session : Bool) (o : String × Out) :
    String × List Annotation :=
  (o.1, if session then ((valuesOf o.2).map (tensorAnnotations c)).getD [] else [])

/-- The mark of an output (schema_inference.py:222-225); none without a session
(schema_inference.py:906-915). -/
def mark1 (c : Collections) (session : Bool) (o : String × Out) : Option (String × Mark) :=
  if session then ((valuesOf o.2).bind (dictGet (sparseMarks c))).map (fun m => (o.1, m)) else none

/-- The global annotations. -/
def globals1 (c : Collections) : List Annotation :=
  (c.annotations.filter (fun p => isGlobalName p.1.name)).map Prod.snd

/-- `infer_feature_schema` (schema_inference.py:170-238). -/
def inferV1 (outs : List (String × Out)) (c : Collections) (session : Bool) :
    Except Err Inferred := do
  let ranges ← outs.mapM (range1 c session)
  inferCommon outs (ranges.filterMap id) (outs.map (annotations1 c session))
    (if session then globals1 c else []) (outs.filterMap (mark1 c session)) session

/-! ## tf.functions -/

/-- `_get_tensor_value_to_key_map` (schema_inference.py:671-677): the assignments of the dict. Other
objects than tensors fail when their name is read. -/
def keyMap : List (String × Out) → Except Err (List (String × String))
  | [] => .ok []
  | o :: os =>
    match valuesOf o.2 with
    | none => .error "AttributeError: name"
    | some v => do
      let r ← keyMap os
      return (v.name, o.1) :: r

/-- The key under which an annotation is returned (schema_inference.py:724-736). -/
def annotationKey (km : List (String × String)) (t : Ref) : Option String :=
  match dictGet km t.name with
  | some k => some k
  | none => if t.dtype = .string ∧ isGlobalName t.name then some globalSentinel else none

/-- The overrides of ranges with the keys of their outputs (schema_inference.py:680-743, 806-818,
and 797-805 where nothing is evaluated). -/
def ranges2 (km : List (String × String)) (c : Collections) (evaluate : Bool) :
    List (String × Option (Int × Int)) :=
  c.overrides.filterMap (fun p => (dictGet km p.1.name).map
    (fun k => (k, if evaluate then some p.2 else none)))

/-- The annotations with their keys (schema_inference.py:819-834). -/
def keyedAnnotations (km : List (String × String)) (c : Collections) : List (String × Annotation) :=
  c.annotations.filterMap (fun p => (annotationKey km p.1).map (fun k => (k, p.2)))

/-- `tensor_annotations[key].append(annotation)` (schema_inference.py:667). -/
def dictAppend (d : List (String × List Annotation)) (e : String × Annotation) :
    List (String × List Annotation) :=
  dictSet d e.1 ((d.lookup e.1).getD [] ++ [e.2])

/-- The annotations of features (schema_inference.py:593-668). -/
def annotations2 (km : List (String × String)) (c : Collections) :
    List (String × List Annotation) :=
  ((keyedAnnotations km c).filter (fun e => e.1 ≠ globalSentinel)).foldl dictAppend []

/-- The global annotations. -/
def globals2 (km : List (String × String)) (c : Collections) : List Annotation :=
  ((keyedAnnotations km c).filter (fun e => e.1 = globalSentinel)).map Prod.snd

/-- `_get_sparse_output_annotations_v2` (schema_inference.py:918-926). -/
def marks2 (km : List (String × String)) (c : Collections) : List (String × Mark) :=
  (sparseMarks c).foldl (fun d p => match dictGet km p.1.name with
    | some k => dictSet d k p.2
    | none => d) []

/-- `infer_feature_schema_v2` (schema_inference.py:241-303) with `get_traced_metadata_fn`
(schema_inference.py:746-853). -/
def inferV2 (outs : List (String × Out)) (c : Collections) (evaluate : Bool) :
    Except Err Inferred := do
  let km ← keyMap outs
  inferCommon outs ((ranges2 km c evaluate).reverse) (if evaluate then annotations2 km c else [])
    (if evaluate then globals2 km c else []) (if evaluate then marks2 km c else []) evaluate

end TFT.SchemaInference
