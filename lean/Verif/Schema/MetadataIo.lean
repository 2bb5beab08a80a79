import Verif.Schema.FeatureSpec
import Verif.Pipeline.TransformData
import Mathlib.Logic.Relation

/-!
# Metadata on disk

Model of `tf_metadata/metadata_io.py` and of `WriteMetadata` (beam/tft_beam_io/beam_metadata_io.py).
The text formats belong to other libraries: printing and parsing of protos (`text_format`) and of JSON
(`json`) are parameters.
-/

namespace TFT.MetadataIo

open FeatureSpec

/-! ## Legacy JSON schemas -/

/-- What `json.loads` returns. -/
inductive Json
  | null
  | bool (b : Bool)
  | int (n : Int)
  | float (q : ℚ)
  | str (s : String)
  | arr (l : List Json)
  | obj (entries : List (String × Json))

/-- Exceptions; `KeyError` is the one that the code catches. -/
inductive Exc
  | keyError
  | other (message : String)

/-- `d[k]`. -/
def item (k : String) : Json → Except Exc Json
  | .obj entries =>
    match FeatureSpec.get entries k with
    | some v => .ok v
    | none => .error .keyError
  | _ => .error (.other "TypeError")

/-- `d.get(k)`, or `d.get(k, default)`. -/
def dotGet (k : String) (default : Json) : Json → Except Exc Json
  | .obj entries => .ok ((FeatureSpec.get entries k).getD default)
  | _ => .error (.other "AttributeError: no attribute 'get'")

/-- `x is not None`. -/
def isGiven : Json → Bool
  | .null => false
  | _ => true

/-- Iteration over a value. -/
def elements : Json → Except Exc (List Json)
  | .arr l => .ok l
  | .obj entries => .ok (entries.map fun e => .str e.1)
  | .str s => .ok (s.toList.map fun c => .str c.toString)
  | _ => .error (.other "TypeError: not iterable")

/-- `int(x)`; `parse` reads a string, external. -/
def toInt (parse : String → Option Int) : Json → Except Exc Int
  | .int n => .ok n
  | .bool b => .ok (if b then 1 else 0)
  | .float q => .ok (if 0 ≤ q then q.floor else q.ceil)
  | .str s =>
    match parse s with
    | some n => .ok n
    | none => .error (.other "ValueError: invalid literal for int()")
  | _ => .error (.other "TypeError: int() argument")

/-- `_convert_scalar_or_list(int, x)`, metadata_io.py:131-135. -/
def scalarOrList (parse : String → Option Int) : Json → Except Exc Json
  | .arr l => (l.mapM (toInt parse)).map fun ns => .arr (ns.map .int)
  | j => (toInt parse j).map .int

/-- `try: ... except KeyError: ...` -/
def orElseKeyError {α : Type} (a b : Except Exc α) : Except Exc α :=
  match a with
  | .error .keyError => b
  | r => r

/-- The default value, metadata_io.py:69-83. -/
def defaultValue (parse : String → Option Int) (tfOptions : Json) : Except Exc Json :=
  orElseKeyError
    ((item "fixedLenFeature" tfOptions).bind fun f =>
      (item "intDefaultValue" f).bind (scalarOrList parse))
    (orElseKeyError
      ((item "fixedLenFeature" tfOptions).bind (item "stringDefaultValue"))
      (orElseKeyError
        ((item "fixedLenFeature" tfOptions).bind (item "floatDefaultValue"))
        (.ok .null)))

/-- `_dtype_from_json`, metadata_io.py:107-115. -/
def dtypeFromJson (domain : Json) : Except Exc DType := do
  let ints ← dotGet "ints" .null domain
  if isGiven ints then return .int64
  let floats ← dotGet "floats" .null domain
  if isGiven floats then return .float32
  let strings ← dotGet "strings" .null domain
  if isGiven strings then return .string
  throw (.other "ValueError: Unknown domain")

/-- `int(axis["size"])`, metadata_io.py:85. -/
def axisSize (parse : String → Option Int) (axis : Json) : Except Exc Int :=
  (item "size" axis).bind (toInt parse)

/-- A default value as it is kept in the feature spec; only its presence matters later. -/
def keptDefault : Json → Option String
  | .null => none
  | _ => some "default"

/-- `_column_schema_from_json`, metadata_io.py:63-90. -/
def columnSchemaFromJson (parse : String → Option Int) (feature : Json) : Except Exc Spec := do
  let domain ← item "domain" feature
  let dtype ← dtypeFromJson domain
  let parsing ← item "parsingOptions" feature
  let tfOptions ← item "tfOptions" parsing
  let fixedLen ← dotGet "fixedLenFeature" .null tfOptions
  if isGiven fixedLen then
    let default ← defaultValue parse tfOptions
    let fixedShape ← item "fixedShape" feature
    let axes ← dotGet "axis" (.arr []) fixedShape
    let axisList ← elements axes
    let shape ← axisList.mapM (axisSize parse)
    return .fixedLen shape dtype (keptDefault default)
  let varLen ← dotGet "varLenFeature" .null tfOptions
  if isGiven varLen then return .varLen dtype
  throw (.other "ValueError: Could not interpret tfOptions")

/-- `maybe_to_int`, metadata_io.py:97-98. -/
def maybeToInt (parse : String → Option Int) (s : Json) : Except Exc (Option Int) :=
  if isGiven s then (toInt parse s).map some else .ok none

/-- The field `is_categorical` of a proto; `None` leaves it unset. -/
def toCategorical : Json → Except Exc Bool
  | .null => .ok false
  | .bool b => .ok b
  | .int n => .ok (n ≠ 0)
  | _ => .error (.other "TypeError: bad argument type")

/-- `_domain_from_json`, metadata_io.py:93-104. Integers outside the range of int64 are not modelled. -/
def domainFromJson (parse : String → Option Int) (domain : Json) : Except Exc (Option Domain) := do
  let ints ← dotGet "ints" .null domain
  if isGiven ints then
    let lo ← dotGet "min" .null ints
    let lo ← maybeToInt parse lo
    let hi ← dotGet "max" .null ints
    let hi ← maybeToInt parse hi
    let cat ← dotGet "isCategorical" .null ints
    let cat ← toCategorical cat
    return some (.int lo hi cat)
  return none

/-- The name of a feature, metadata_io.py:53, 57. Names that are not strings fail later, when the proto
is made; here they fail at once. -/
def featureName (feature : Json) : Except Exc String := do
  let name ← item "name" feature
  match name with
  | .str s => return s
  | _ => throw (.other "TypeError: bad argument type")

/-- An entry of the feature spec, metadata_io.py:53. -/
def specEntry (parse : String → Option Int) (feature : Json) : Except Exc (String × Spec) := do
  let name ← featureName feature
  let spec ← columnSchemaFromJson parse feature
  return (name, spec)

/-- An entry of the domains, metadata_io.py:57. -/
def domainOf (parse : String → Option Int) (feature : Json) : Except Exc (String × Option Domain) := do
  let name ← featureName feature
  let domain ← item "domain" feature
  let d ← domainFromJson parse domain
  return (name, d)

/-- A domain in the form that `schemaFromFeatureSpec` takes; `None` is as good as no entry,
schema_utils.py:257-258. -/
def givenEntry (e : String × Option Domain) : Option (String × Option Domain) :=
  e.2.map fun d => (e.1, some d)

/-- `_parse_schema_json`, metadata_io.py:49-60, after `json.loads`. -/
def parseSchemaJson (parse : String → Option Int) (schemaDict : Json) : Except Exc Schema := do
  let features ← dotGet "feature" (.arr []) schemaDict
  let featureList ← elements features
  let spec ← featureList.mapM (specEntry parse)
  let domains ← featureList.mapM (domainOf parse)
  match schemaFromFeatureSpec (TransformData.dictOf spec)
      ((TransformData.dictOf domains).filterMap givenEntry) with
  | .ok s => return s
  | .error e => throw (.other e)

/-! ## Files -/

/-- `os.path.join(path, name)` for a relative name. -/
def join (path name : String) : String :=
  if path = "" then name else if path.endsWith "/" then path ++ name else path ++ "/" ++ name

/-- The files: the content of each, by path. Directories are made as needed
(metadata_io.py:126-127) and not represented. -/
abbrev Fs := String → Option String

/-- Metadata_io.py:32. -/
def schemaFile (path : String) : String := join path "schema.pbtxt"

/-- Metadata_io.py:33; `os.path.join` with three parts. -/
def legacyFile (path : String) : String := join (join path "v1-json") "schema.json"

/-- The text formats: `text_format.MessageToString`, `text_format.Parse`, `json.loads`, `int`. -/
structure Formats where
  print : Schema → String
  parse : String → Except Exc Schema
  loads : String → Except Exc Json
  int : String → Option Int

/-- `read_metadata`, metadata_io.py:30-46. -/
def readMetadata (F : Formats) (fs : Fs) (path : String) : Except Exc Schema :=
  match fs (schemaFile path) with
  | some text => F.parse text
  | none =>
    match fs (legacyFile path) with
    | some text => (F.loads text).bind (parseSchemaJson F.int)
    | none => .error (.other "OSError: Schema file does not exist and neither did legacy format file")

/-! ## Writing -/

/-- `file[f] := x`. -/
def setFile (fs : Fs) (f : String) (x : Option String) : Fs := fun g => if g = f then x else fs g

/-- A call of `write_metadata`: where, what (the printed schema), and the suffix of its temporary file
(`uuid4`, external). -/
structure Call where
  path : String
  text : String
  uid : String

/-- The temporary file of `atomic_write_string_to_file` (`tensorflow/python/lib/io/file_io.py`,
external). -/
def Call.temp (c : Call) : String := schemaFile c.path ++ ".tmp" ++ c.uid

/-- Where a call is. -/
inductive Pc
  | start
  | writing (rest : String)
  | done
  | failed
  deriving DecidableEq

/-- One step of a call of `write_metadata`, metadata_io.py:118-130: the temporary file is created, then
written piece by piece, then renamed. A rename that fails deletes the temporary file and raises. With
`atomic = false`, for file systems without an atomic move, the schema file itself is written. -/
inductive CallStep (atomic : Bool) (c : Call) : Fs × Pc → Fs × Pc → Prop
  | create (fs : Fs) (h : atomic = true) :
      CallStep atomic c (fs, .start) (setFile fs c.temp (some ""), .writing c.text)
  | append (fs : Fs) (h : atomic = true) (piece rest old : String) (ho : fs c.temp = some old) :
      CallStep atomic c (fs, .writing (piece ++ rest)) (setFile fs c.temp (some (old ++ piece)), .writing rest)
  | rename (fs : Fs) (h : atomic = true) (x : String) (hx : fs c.temp = some x) :
      CallStep atomic c (fs, .writing "")
        (setFile (setFile fs (schemaFile c.path) (some x)) c.temp none, .done)
  | renameFails (fs : Fs) (h : atomic = true) :
      CallStep atomic c (fs, .writing "") (setFile fs c.temp none, .failed)
  | createDirect (fs : Fs) (h : atomic = false) :
      CallStep atomic c (fs, .start) (setFile fs (schemaFile c.path) (some ""), .writing c.text)
  | appendDirect (fs : Fs) (h : atomic = false) (piece rest old : String)
      (ho : fs (schemaFile c.path) = some old) :
      CallStep atomic c (fs, .writing (piece ++ rest))
        (setFile fs (schemaFile c.path) (some (old ++ piece)), .writing rest)
  | finishDirect (fs : Fs) (h : atomic = false) : CallStep atomic c (fs, .writing "") (fs, .done)

/-- Any number of calls, in the same or in different processes, and the place where each one is. -/
structure State where
  fs : Fs
  calls : List (Call × Pc)

/-- One of the calls makes a step. A call that is never chosen again has crashed. -/
inductive Step (atomic : Bool) : State → State → Prop
  | call (pre post : List (Call × Pc)) (c : Call) (p p' : Pc) (fs fs' : Fs)
      (h : CallStep atomic c (fs, p) (fs', p')) :
      Step atomic ⟨fs, pre ++ (c, p) :: post⟩ ⟨fs', pre ++ (c, p') :: post⟩

/-- The executions. -/
def Runs (atomic : Bool) : State → State → Prop := Relation.ReflTransGen (Step atomic)

/-- The calls before they begin. -/
def start (fs : Fs) (calls : List Call) : State := ⟨fs, calls.map fun c => (c, .start)⟩

/-- The end of `WriteMetadata`, beam_metadata_io.py:91-106, after `write_metadata`: the asset map, as
`json.dumps` prints it, if it is not empty. -/
def writeAssetMap (fs : Fs) (path : String) (assetMap : List (String × String))
    (dumps : List (String × String) → String) : Fs :=
  if assetMap = [] then fs else setFile fs (join path "asset_map") (some (dumps assetMap))

end TFT.MetadataIo
