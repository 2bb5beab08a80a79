import Verif.Schema.Inference
import Verif.Schema.Sequence
import Mathlib.Data.List.Dedup

/-!
# The types of tensors that specs stand for

Model of the functions of `impl_helper.py` that make types of tensors out of specs: the placeholders
for the inputs of `preprocessing_fn` in TensorFlow 1, and the types given to the converter of
transformed data. The converter (`tfx_bsl.tfxio.tensor_to_arrow`) is another library; what is
modelled is what it is given.
-/

namespace TFT.TypeSpecs

open TFT.FeatureSpec

/-- `tf.TensorSpec`, `tf.SparseTensorSpec` and `tf.RaggedTensorSpec`, of known rank; `none` is an
unknown size. `other` is any other `tf.TypeSpec`. -/
inductive TypeSpec
  | dense (shape : List (Option Int)) (dtype : DType)
  | sparse (shape : List (Option Int)) (dtype : DType)
  | ragged (shape : List (Option Int)) (dtype : DType) (raggedRank : Nat) (rowSplits : SplitsType)
  | other (typeName : String) (dtype : DType)
  deriving DecidableEq

/-- `None if dim == -1 else dim` (impl_helper.py:297). -/
def unknown (d : Option Int) : Option Int := if d = some (-1) then none else d

/-- The body of the loop over partitions (impl_helper.py:307-314), on shape and ragged rank. -/
def addPartition (s : List (Option Int) × Nat) : Partition → List (Option Int) × Nat
  | .uniformRowLength n => (s.1 ++ [some n], s.2)
  | _ => (s.1 ++ [none], s.2 + 1)

/-- The shape and the ragged rank before the loop (impl_helper.py:301-306). -/
def raggedStart (sequence : Bool) : List (Option Int) × Nat :=
  if sequence then ([none, none] ++ [none], 1 + 1) else ([none, none], 1)

/-- The constructor of `tf.RaggedTensorSpec` (external): the ragged rank must be less than the
rank. -/
def raggedTensorSpec (shape : List (Option Int)) (dtype : DType) (raggedRank : Nat)
    (rowSplits : SplitsType) : Except Err TypeSpec :=
  if shape.length ≤ raggedRank then .error "ValueError: Argument `ragged_rank` must be less than rank"
  else .ok (.ragged shape dtype raggedRank rowSplits)

/-- The body of the loop of `get_type_specs_from_feature_specs` (impl_helper.py:289-322). `sequence`
is `name in ragged_sequence_features`. -/
def typeSpec (sequence : Bool) : Spec → Except Err TypeSpec
  | .fixedLen shape dtype _ => .ok (.dense ([none] ++ shape.map some) dtype)
  | .varLen dtype => .ok (.sparse [none, none] dtype)
  | .sparse _ _ dtype size _ =>
    match size with
    | .one _ => .error "TypeError: 'int' object is not iterable"
    | .list ns => .ok (.sparse ([none] ++ ns.map unknown) dtype)
  | .ragged dtype _ partitions rowSplits =>
    let s := partitions.foldl addPartition (raggedStart sequence)
    raggedTensorSpec s.1 dtype s.2 rowSplits
  | .other _ => .error "ValueError: Invalid feature spec"

/-- The items of the dict that a list of assignments makes. Their order does not matter here. -/
def items {α : Type} (entries : List (String × α)) : List (String × α) :=
  (entries.map Prod.fst).dedup.filterMap (fun k => (get entries k).map (fun v => (k, v)))

/-- `get_type_specs_from_feature_specs` (impl_helper.py:264-323). -/
def typeSpecs (specs : List (String × Spec)) (sequences : List String) :
    Except Err (List (String × TypeSpec)) :=
  (items specs).mapM (fun e => do
    let t ← typeSpec (decide (e.1 ∈ sequences)) e.2
    return (e.1, t))

/-- The name of a feature of a schema. -/
def nodeName : Node → String
  | .leaf f _ => f.name
  | .struct name _ _ => name

/-- The loop over the features of the schema (impl_helper.py:335-338), for one feature. -/
def sequenceNamesOf : Node → List String
  | .struct _ true children => children.map nodeName
  | _ => []

/-- What the converter is given: the types of the tensors, and the names of those to be treated as
generic sparse tensors. The templates of the column names are those of `schema_inference.py:48-49`. -/
structure Converter where
  types : List (String × TypeSpec)
  genericSparse : List String

/-- `isinstance(spec, tf.io.SparseFeature)` (impl_helper.py:348). -/
def isSparseFeature : Spec → Bool
  | .sparse .. => true
  | _ => false

/-- `make_tensor_to_arrow_converter` (impl_helper.py:326-355) up to the constructor of the converter.
`parser` is that of `nestedSchemaAsFeatureSpec`. -/
def arrowConverter
    (parser : NestedSchema → Except Err (List (String × Spec) × List (String × Spec)))
    (s : NestedSchema) : Except Err Converter := do
  let r ← nestedSchemaAsFeatureSpec parser s
  let types ← typeSpecs r.1 (s.nodes.flatMap sequenceNamesOf)
  return { types := types,
           genericSparse := ((items r.1).filter (fun e => isSparseFeature e.2)).map Prod.fst }

/-- A schema without struct features. -/
def plainSchema (s : Schema) : NestedSchema :=
  { nodes := s.features.map (fun f => .leaf f false), sparse := s.sparse, reps := s.reps,
    stringDomains := s.stringDomains, representRagged := s.representRagged }

/-! ## Placeholders -/

/-- The characters of `_INVALID_SCOPE_CHAR` (impl_helper.py:50), those that are allowed. -/
def scopeChar (c : Char) : Bool :=
  (('A' ≤ c && c ≤ 'Z') || ('a' ≤ c && c ≤ 'z') || ('0' ≤ c && c ≤ '9')) ||
    c = '_' || c = '.' || c = '-' || c = '/' || c = '>'

/-- The characters of `_VALID_SCOPE_REGEX` (impl_helper.py:49). -/
def alphanumeric (c : Char) : Bool :=
  ('A' ≤ c && c ≤ 'Z') || ('a' ≤ c && c ≤ 'z') || ('0' ≤ c && c ≤ '9')

/-- `_sanitize_scope_name` (impl_helper.py:117-121). `$` of a regular expression also matches before
a final newline; there is none left after the substitution. -/
def sanitizeScopeName (name : List Char) : List Char :=
  let scope := name.map (fun c => if scopeChar c then c else '_')
  if scope.all alphanumeric then scope else ['F', '_'] ++ scope

/-- What `preprocessing_fn` may be traced with: specs of either kind, or something else. -/
inductive Given
  | type (t : TypeSpec)
  | feature (f : Spec)
  | other (typeName : String)
  deriving DecidableEq

/-- `_is_feature_spec` (impl_helper.py:105-114). -/
def Given.isFeature : Given → Bool
  | .feature (.other _) => false
  | .feature _ => true
  | _ => false

/-- `isinstance(s, tf.TypeSpec)`. -/
def Given.isType : Given → Bool
  | .type _ => true
  | _ => false

/-- The dtype of a spec (impl_helper.py:88-92). -/
def Given.dtype : Given → DType
  | .type (.dense _ d) => d
  | .type (.sparse _ d) => d
  | .type (.ragged _ d _ _) => d
  | .type (.other _ d) => d
  | .feature (.fixedLen _ d _) => d
  | .feature (.varLen d) => d
  | .feature (.sparse _ _ d _ _) => d
  | .feature (.ragged d _ _ _) => d
  | .feature (.other t) => .other t
  | .other t => .other t

/-- A placeholder, as the type of the tensors that can be fed; the name is that of the scope. -/
structure Placeholder where
  type : TypeSpec
  name : List Char
  deriving DecidableEq

/-- `_batched_placeholder_from_typespec` (impl_helper.py:124-141): placeholders for the components of
the type, packed as the type says. -/
def placeholderOfType (name : String) : TypeSpec → Except Err Placeholder
  | .other _ _ => .error "ValueError: Unsupported typespec"
  | t => .ok ⟨t, sanitizeScopeName name.toList⟩

/-- `_batched_placeholder_from_feature_spec` (impl_helper.py:144-169). `sparse_placeholder` (external)
takes a size of -1 as unknown. -/
def placeholderOfFeature (name : String) : Spec → Except Err Placeholder
  | .fixedLen shape dtype _ =>
    .ok ⟨.dense ([none] ++ shape.map some) dtype, sanitizeScopeName name.toList⟩
  | .varLen dtype => .ok ⟨.sparse [none, none] dtype, sanitizeScopeName name.toList⟩
  | .sparse _ _ dtype (.list ns) _ =>
    .ok ⟨.sparse ([none] ++ ns.map unknown) dtype, sanitizeScopeName name.toList⟩
  | .sparse _ _ dtype (.one n) _ =>
    .ok ⟨.sparse [none, unknown (some n)] dtype, sanitizeScopeName name.toList⟩
  | _ => .error "ValueError: Unsupported feature spec"

/-- The body of the loop (impl_helper.py:87-100). -/
def placeholderOf (e : String × Given) : Except Err (String × Placeholder) :=
  if e.2.dtype ∈ [DType.int64, DType.float32, DType.string] then
    match e.2 with
    | .type t => (placeholderOfType e.1 t).map (fun p => (e.1, p))
    | .feature f => (placeholderOfFeature e.1 f).map (fun p => (e.1, p))
    | .other _ => .error "unreachable"
  else .error "ValueError: Feature had invalid dtype"

/-- `batched_placeholders_from_specs` (impl_helper.py:61-102). -/
def placeholders (specs : List (String × Given)) : Except Err (List (String × Placeholder)) :=
  if specs.all (fun e => e.2.isFeature) || specs.all (fun e => e.2.isType) then
    specs.mapM placeholderOf
  else .error "TypeError: Specs must be all tf.TypeSpecs or feature specs."

end TFT.TypeSpecs
