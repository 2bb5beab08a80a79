import Verif.Schema.FeatureSpec

/-!
# Schemas of sequence examples

Model of the part of `tf_metadata/schema_utils.py` that reads a schema with struct features. Which
tensors the schema describes is decided by another library
(`tensor_representation_util.CreateTfSequenceExampleParserConfig`); its two results are parameters.
-/

namespace TFT.FeatureSpec

/-- `schema_pb2.Feature` as a tree. A `leaf` has a `domain_info` that is not `struct_domain`, or none;
`struct` has a `struct_domain` with the features given. `isStruct` says whether the field `type` is
`STRUCT`: the two are independent fields of the proto. The fields other than the name and the type of a
feature with a `struct_domain` are not read and left out. -/
inductive Node
  | leaf (f : Feature) (isStruct : Bool)
  | struct (name : String) (isStruct : Bool) (children : List Node)

/-- `schema_pb2.Schema` with features that may be structs. The other fields are those of `Schema`;
they are read for schemas without struct features, and by the other library. -/
structure NestedSchema where
  nodes : List Node
  sparse : List SparseFeature := []
  reps : List (String × Rep) := []
  stringDomains : List (String × Domain) := []
  representRagged : Bool := false

/-- `feature.type == schema_pb2.STRUCT` (schema_utils.py:336). -/
def Node.typeIsStruct : Node → Bool
  | .leaf _ b => b
  | .struct _ b _ => b

mutual

/-- The body of the loop of `_get_source_feature_domains` (schema_utils.py:424-434): the assignments
to the dict `result`, in order. -/
def sourceDomainsOf (stringDomains : List (String × Domain)) : Node → List (String × Domain)
  | .struct _ _ children => sourceDomains stringDomains children
  | .leaf f _ =>
    match getDomain f stringDomains with
    | none => []
    | some d => [(f.name, d)]

/-- `_get_source_feature_domains` (schema_utils.py:419-435): `result.update` makes the assignments of
the struct's dict, in order. Read the result with `get`. -/
def sourceDomains (stringDomains : List (String × Domain)) : List Node → List (String × Domain)
  | [] => []
  | n :: ns => sourceDomainsOf stringDomains n ++ sourceDomains stringDomains ns

end

/-- `source_feature_name` (schema_utils.py:407-413). A key that is `None` is in no dict. -/
def sourceName (name : String) : Spec → Except Err (Option String)
  | .fixedLen _ _ _ => .ok (some name)
  | .varLen _ => .ok (some name)
  | .sparse _ valueKey _ _ _ => .ok (some valueKey)
  | .ragged _ valueKey _ _ => .ok valueKey
  | .other _ => .error "ValueError: spec is not recognized"

/-- `{**context, **sequence}` (schema_utils.py:402): the keys of the context first, with the values of
the sequence where both have the key. -/
def mergeSpecs (context sequence : List (String × Spec)) : List (String × Spec) :=
  context.map (fun p => (p.1, (sequence.lookup p.1).getD p.2)) ++
    sequence.filter (fun p => (context.lookup p.1).isNone)

/-- The body of the loop over the feature spec (schema_utils.py:406-415). -/
def sequenceDomain (domains : List (String × Domain)) (item : String × Spec) :
    Except Err (Option (String × Domain)) := do
  let source ← sourceName item.1 item.2
  match source with
  | none => return none
  | some s => return (get domains s).map (fun d => (item.1, d))

/-- `_sequence_schema_as_feature_spec` (schema_utils.py:370-416). `parser` is the result of
`CreateTfSequenceExampleParserConfig(schema)`: the specs of context and sequence features. -/
def sequenceSchemaAsFeatureSpec
    (parser : NestedSchema → Except Err (List (String × Spec) × List (String × Spec)))
    (s : NestedSchema) : Except Err (List (String × Spec) × List (String × Domain)) := do
  let specs ← parser s
  let merged := mergeSpecs specs.1 specs.2
  let domains ← merged.mapM (sequenceDomain (sourceDomains s.stringDomains s.nodes))
  return (merged, domains.filterMap id)

/-- The features of a schema without struct types, as the schema of `FeatureSpec.lean`. A feature with
a `struct_domain` and another type is a feature without domain here: `getattr(feature, domain_info)`
would return the `StructDomain` as the domain (schema_utils.py:459); this is left out. -/
def Node.plain : Node → Feature
  | .leaf f _ => f
  | .struct name _ _ => { name := name }

/-- `schema_as_feature_spec` (schema_utils.py:306-367). -/
def nestedSchemaAsFeatureSpec
    (parser : NestedSchema → Except Err (List (String × Spec) × List (String × Spec)))
    (s : NestedSchema) : Except Err (List (String × Spec) × List (String × Domain)) :=
  if s.nodes.any Node.typeIsStruct then sequenceSchemaAsFeatureSpec parser s
  else schemaAsFeatureSpec
    { features := s.nodes.map Node.plain, sparse := s.sparse, reps := s.reps,
      stringDomains := s.stringDomains, representRagged := s.representRagged }

end TFT.FeatureSpec
