import Verif.Combine.Sched
import Mathlib.Data.List.Sort
import Mathlib.Data.Rat.Defs

/-!
# Feature specs and schemas

Model of `tf_metadata/schema_utils.py`. The inference of tensor representations from a schema belongs
to another library (`tfx_bsl.tfxio.tensor_representation_util`); it is modelled from its
documentation, from the docstring of `schema_as_feature_spec` (schema_utils.py:309-333) and from the
cases of `schema_utils_test_cases.py`.
-/

namespace TFT.FeatureSpec

/-- Types of tensors: those that a schema can express, and all others. -/
inductive DType
  | int64
  | float32
  | string
  | other (name : String)
  deriving DecidableEq

/-- `schema_pb2.FeatureType`, the members used here. -/
inductive FType
  | unknown
  | bytes
  | int
  | float
  deriving DecidableEq

/-- The domains that may be given: `IntDomain`, `StringDomain`, `FloatDomain`. -/
inductive Domain
  | int (min max : Option Int) (isCategorical : Bool)
  | string (name : String) (value : List String)
  | float (min max : Option ℚ)
  deriving DecidableEq

/-- The oneof `domain_info`: an own domain, or the name of a schema-level string domain. -/
inductive DomainInfo
  | own (d : Domain)
  | named (name : String)
  deriving DecidableEq

/-- `schema_pb2.Feature`. -/
structure Feature where
  name : String
  type : FType := .unknown
  minFraction : Option ℚ := none
  shape : Option (List Int) := none
  domainInfo : Option DomainInfo := none
  deprecated : Bool := false
  deriving DecidableEq

/-- A partition of a ragged tensor. -/
inductive Partition
  | uniformRowLength (length : Int)
  | rowLengths (key : String)
  | other (kind : String)
  deriving DecidableEq

/-- The partitions that `TensorRepresentation.RaggedTensor` has. -/
inductive RepPartition
  | uniformRowLength (length : Int)
  | rowLength (key : String)
  deriving DecidableEq

/-- The integer types of row splits. -/
inductive SplitsType
  | int32
  | int64
  deriving DecidableEq

/-- `SparseFeature.index_key`: one key or a list. -/
inductive IndexKey
  | one (k : String)
  | list (ks : List String)
  deriving DecidableEq

/-- `SparseFeature.size`: one size or a list of sizes, of which `None` and -1 are unknown. -/
inductive Size
  | one (n : Int)
  | list (ns : List (Option Int))
  deriving DecidableEq

/-- The members of a feature spec. -/
inductive Spec
  | fixedLen (shape : List Int) (dtype : DType) (default : Option String)
  | varLen (dtype : DType)
  | sparse (indexKey : IndexKey) (valueKey : String) (dtype : DType) (size : Size)
      (alreadySorted : Bool)
  | ragged (dtype : DType) (valueKey : Option String) (partitions : List Partition)
      (rowSplits : SplitsType)
  | other (typeName : String)
  deriving DecidableEq

/-- `schema_pb2.SparseFeature`. -/
structure SparseFeature where
  name : String
  isSorted : Bool
  index : List String
  value : String
  deriving DecidableEq

/-- `TensorRepresentation`. -/
inductive Rep
  | dense (column : String) (shape : List Int)
  | varLen (column : String)
  | sparse (shape : List Int) (index : List String) (value : String) (alreadySorted : Bool)
  | ragged (path : String) (partitions : List RepPartition)
  deriving DecidableEq

/-- `schema_pb2.Schema`, with the representations of the group `""`. -/
structure Schema where
  features : List Feature := []
  sparse : List SparseFeature := []
  reps : List (String × Rep) := []
  stringDomains : List (String × Domain) := []
  representRagged : Bool := false
  deriving DecidableEq

/-- A domain given by the user; `none` is an object of another type. -/
abbrev Domains := List (String × Option Domain)

/-- `_set_type` (schema_utils.py:243-252). -/
def setType (f : Feature) : DType → Except Err Feature
  | .int64 => .ok { f with type := .int }
  | .float32 => .ok { f with type := .float }
  | .string => .ok { f with type := .bytes }
  | .other _ => .error "ValueError: feature has invalid dtype"

/-- `_set_domain` (schema_utils.py:255-267). -/
def setDomain (f : Feature) : Option (Option Domain) → Except Err Feature
  | none => .ok f
  | some (some d) => .ok { f with domainInfo := some (.own d) }
  | some none => .error "ValueError: feature has invalid domain"

/-- Type and domain of a value feature. -/
def setTypeAndDomain (f : Feature) (dtype : DType) (name : String) (domains : Domains) :
    Except Err Feature := do
  let f ← setType f dtype
  setDomain f (domains.lookup name)

/-- `_feature_from_feature_spec` (schema_utils.py:214-240). -/
def featureFromSpec (spec : Spec) (name : String) (domains : Domains) : Except Err Feature :=
  match spec with
  | .fixedLen shape dtype default =>
    if default ≠ none then .error "ValueError: FixedLenFeature must have default_value=None"
    else setTypeAndDomain { name := name, minFraction := some 1, shape := some shape } dtype name
      domains
  | .varLen dtype => setTypeAndDomain { name := name } dtype name domains
  | _ => .error "TypeError: expected a FixedLenFeature, VarLenFeature or SparseFeature"

/-- The `int_domain` of an index feature (schema_utils.py:174-178). -/
def indexDomain : Option Int → Option DomainInfo
  | none => none
  | some s => if s = -1 then none else some (.own (.int (some 0) (some (s - 1)) false))

/-- An index feature (schema_utils.py:179-182). -/
def indexFeature (p : String × Option Int) : Feature :=
  { name := p.1, type := .int, domainInfo := indexDomain p.2 }

/-- The index features (schema_utils.py:168-195). A `size` that is a list with an `index_key` that is
not fails at `spec.size - 1`. An `index_key` that is a tuple is not modelled. -/
def indexFeatures : IndexKey → Size → Except Err (List Feature × List String)
  | .list ks, .list ns =>
    if ks.length = ns.length then .ok ((ks.zip ns).map indexFeature, ks)
    else .error "AssertionError"
  | .list _, .one _ => .error "AssertionError"
  | .one k, .one n =>
    .ok ([{ name := k, type := .int, domainInfo := some (.own (.int (some 0) (some (n - 1)) false)) }],
      [k])
  | .one _, .list _ => .error "TypeError: unsupported operand"

/-- `_sparse_feature_from_feature_spec` (schema_utils.py:166-211). -/
def sparseFromSpec (indexKey : IndexKey) (valueKey : String) (dtype : DType) (size : Size)
    (alreadySorted : Bool) (name : String) (domains : Domains) :
    Except Err (List Feature × Feature × SparseFeature) := do
  let idx ← indexFeatures indexKey size
  let value ← setTypeAndDomain { name := valueKey } dtype name domains
  return (idx.1, value, ⟨name, alreadySorted, idx.2, valueKey⟩)

/-- The loop over the partitions (schema_utils.py:132-157). -/
def partitionsFromSpec : List Partition → Except Err (List Feature × List RepPartition)
  | [] => .ok ([], [])
  | .uniformRowLength n :: ps => do
    let r ← partitionsFromSpec ps
    return (r.1, .uniformRowLength n :: r.2)
  | .rowLengths k :: ps => do
    let r ← partitionsFromSpec ps
    return ({ name := k, type := .int } :: r.1, .rowLength k :: r.2)
  | .other _ :: _ => .error "ValueError: RaggedFeature can only be created with \
UniformRowLength and RowLengths partitions"

/-- `spec.value_key or name`: an empty key counts as none. -/
def valueKeyOr (valueKey : Option String) (name : String) : String :=
  match valueKey with
  | none => name
  | some k => if k = "" then name else k

/-- `_ragged_tensor_representation_from_feature_spec` (schema_utils.py:98-163). -/
def raggedFromSpec (dtype : DType) (valueKey : Option String) (partitions : List Partition)
    (name : String) (domains : Domains) : Except Err (Feature × List Feature × Rep) := do
  let value ← setTypeAndDomain { name := valueKeyOr valueKey name } dtype name domains
  let ps ← partitionsFromSpec partitions
  return (value, ps.1, .ragged (valueKeyOr valueKey name) ps.2)

/-- The body of the loop of `schema_from_feature_spec` (schema_utils.py:69-94). -/
def addSpec (domains : Domains) (s : Schema) (item : String × Spec) : Except Err Schema :=
  match item.2 with
  | .sparse indexKey valueKey dtype size sorted => do
    let r ← sparseFromSpec indexKey valueKey dtype size sorted item.1 domains
    return { s with features := s.features ++ r.1 ++ [r.2.1], sparse := s.sparse ++ [r.2.2] }
  | .ragged dtype valueKey partitions _ => do
    let r ← raggedFromSpec dtype valueKey partitions item.1 domains
    return { s with features := s.features ++ [r.1] ++ r.2.1, reps := s.reps ++ [(item.1, r.2.2)] }
  | spec => do
    let f ← featureFromSpec spec item.1 domains
    return { s with features := s.features ++ [f] }

/-- `schema_from_feature_spec` (schema_utils.py:32-95). The legacy branch (schema_utils.py:63-64) is
never taken: `should_set_generate_legacy_feature_spec` returns False
(schema_utils_legacy.py:17-19). -/
def schemaFromFeatureSpec (spec : List (String × Spec)) (domains : Domains) : Except Err Schema :=
  (spec.insertionSort (fun a b => a.1 ≤ b.1)).foldlM (addSpec domains) {}

/-! ## Reading a schema -/

/-- The columns that a representation reads
(`tensor_representation_util.GetSourceColumnsFromTensorRepresentation`, external). -/
def partitionColumns : List RepPartition → List String
  | [] => []
  | .uniformRowLength _ :: ps => partitionColumns ps
  | .rowLength k :: ps => k :: partitionColumns ps

/-- See `partitionColumns`. -/
def sourceColumns : Rep → List String
  | .dense c _ => [c]
  | .varLen c => [c]
  | .sparse _ index value _ => index ++ [value]
  | .ragged path ps => path :: partitionColumns ps

/-- `GetSourceValueColumnFromTensorRepresentation` (external). -/
def valueColumn : Rep → String
  | .dense c _ => c
  | .varLen c => c
  | .sparse _ _ value _ => value
  | .ragged path _ => path

/-- A dict from names to features: a later feature of a name takes the place of an earlier one
(schema_utils.py:351). -/
def insertFeature (f : Feature) : List Feature → List Feature
  | [] => [f]
  | g :: gs => if g.name = f.name then f :: gs else g :: insertFeature f gs

/-- See `insertFeature`. -/
def byName (fs : List Feature) : List Feature := fs.foldl (fun d f => insertFeature f d) []

/-- `columns_remaining.pop(name)` (external). -/
def pop (d : List Feature) (name : String) : Except Err (Feature × List Feature) :=
  match d.find? (fun f => f.name = name) with
  | none => .error "ValueError: sparse_feature referred to a feature which did not exist in the schema"
  | some f => .ok (f, d.filter (fun f => f.name ≠ name))

/-- The size of a dimension from its index feature (external; the errors are those of
schema_utils_test_cases.py, INVALID_SCHEMA_PROTOS). -/
def dimension (f : Feature) : Except Err Int :=
  match f.domainInfo with
  | some (.own (.int (some m) (some n) _)) =>
    if m = 0 then .ok (n + 1) else .error "ValueError: only 0-based index features are supported"
  | some (.own (.int none _ _)) => .error "ValueError: the minimum domain value is not set"
  | some (.own (.int _ none _)) => .error "ValueError: the maximum domain value is not set"
  | _ => .ok (-1)

/-- The index features of a sparse feature are taken from the remaining columns (external). -/
def popIndex : List String → List Feature → Except Err (List Int × List Feature)
  | [], d => .ok ([], d)
  | k :: ks, d => do
    let p ← pop d k
    let n ← dimension p.1
    let r ← popIndex ks p.2
    return (n :: r.1, r.2)

/-- The representation of one sparse feature (external). -/
def inferSparse (sf : SparseFeature) (d : List Feature) : Except Err (Rep × List Feature) :=
  if d.any (fun f => f.name = sf.name) then
    .error "ValueError: sparse_feature conflicts with another feature"
  else do
    let r ← popIndex sf.index d
    let v ← pop r.2 sf.value
    return (.sparse r.1 sf.index sf.value sf.isSorted, v.2)

/-- All sparse features in turn (external). -/
def inferSparseAll : List SparseFeature → List Feature →
    Except Err (List (String × Rep) × List Feature)
  | [], d => .ok ([], d)
  | sf :: sfs, d => do
    let r ← inferSparse sf d
    let rest ← inferSparseAll sfs r.2
    return ((sf.name, r.1) :: rest.1, rest.2)

/-- The representation of a feature that nothing else uses (external): with a shape, a dense tensor,
else a variable-length one. -/
def inferFeature (representRagged : Bool) (f : Feature) : Except Err (String × Rep) :=
  match f.shape with
  | some shape =>
    if f.minFraction = some 1 then .ok (f.name, .dense f.name shape)
    else .error "ValueError: feature had shape set but min_fraction != 1"
  | none => .ok (f.name, if representRagged then .ragged f.name [] else .varLen f.name)

/-- `InferTensorRepresentationsFromMixedSchema` (external): explicit representations use up their
columns, then the sparse features theirs; the rest is inferred feature by feature. -/
def inferMixed (s : Schema) : Except Err (List (String × Rep)) := do
  let consumed := s.reps.flatMap (fun r => sourceColumns r.2)
  let remaining := (byName s.features).filter (fun f => f.name ∉ consumed)
  let sp ← inferSparseAll s.sparse remaining
  let rest ← (sp.2.filter (fun f => !f.deprecated)).mapM (inferFeature s.representRagged)
  return sp.1 ++ rest ++ s.reps

/-- The dtype of a feature type (external). -/
def dtypeOf : FType → Except Err DType
  | .int => .ok .int64
  | .float => .ok .float32
  | .bytes => .ok .string
  | .unknown => .error "ValueError: the feature_type 0 is not supported"

/-- The partitions of the resulting `RaggedFeature` (external). -/
def partitionOf : RepPartition → Partition
  | .uniformRowLength n => .uniformRowLength n
  | .rowLength k => .rowLengths k

/-- `CreateTfExampleParserConfig` (external). The representations made here have no default value, so
`_standardize_default_value` (schema_utils.py:281-284) returns the spec as it is. -/
def parserConfig (r : Rep) (t : FType) : Except Err Spec := do
  let dtype ← dtypeOf t
  match r with
  | .dense _ shape => return .fixedLen shape dtype none
  | .varLen _ => return .varLen dtype
  | .sparse shape index value sorted =>
    return .sparse (.list index) value dtype (.list (shape.map some)) sorted
  | .ragged path ps => return .ragged dtype (some path) (ps.map partitionOf) .int64

/-- `_get_domain` (schema_utils.py:444-459); the dict of string domains is built with later ones
winning (schema_utils.py:438-441). -/
def getDomain (f : Feature) (stringDomains : List (String × Domain)) : Option Domain :=
  match f.domainInfo with
  | none => none
  | some (.own d) => some d
  | some (.named n) => stringDomains.reverse.lookup n

/-- The body of the loop of `schema_as_feature_spec` (schema_utils.py:352-366). -/
def readRep (s : Schema) (r : String × Rep) : Except Err (String × Spec × Option Domain) :=
  match (byName s.features).find? (fun f => f.name = valueColumn r.2) with
  | none => .error "KeyError"
  | some f => do
    let spec ← parserConfig r.2 f.type
    return (r.1, spec, getDomain f s.stringDomains)

/-- The entries of the dict of domains (schema_utils.py:364-366). -/
def domainEntry (r : String × Spec × Option Domain) : Option (String × Domain) :=
  r.2.2.map (fun d => (r.1, d))

/-- `schema_as_feature_spec` (schema_utils.py:306-367) for schemas without struct features. The
result is the two dicts, as lists of entries in the order of assignment. -/
def schemaAsFeatureSpec (s : Schema) :
    Except Err (List (String × Spec) × List (String × Domain)) := do
  let reps ← inferMixed s
  let r ← reps.mapM (readRep s)
  return (r.map (fun e => (e.1, e.2.1)), r.filterMap domainEntry)

/-- Reading a dict given by its assignments: the last one for a key counts. -/
def get {α : Type} (entries : List (String × α)) (k : String) : Option α := entries.reverse.lookup k

end TFT.FeatureSpec
