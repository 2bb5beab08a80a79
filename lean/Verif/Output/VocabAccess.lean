import Verif.Context.Graph
import Verif.Schema.FeatureSpec

/-!
# Vocabularies by name

Model of the way from `tft.vocabulary(vocab_filename=...)` in `preprocessing_fn` to
`TFTransformOutput.vocabulary_by_name` and its relatives. Bytes and characters are both `Char`.
-/

namespace TFT.VocabAccess

open TFT.GraphContext

/-- A text. -/
abbrev Text := List Char

/-- The character classes `\w` and `\s` of Python's `re` (and `str.strip`), as parameters. -/
structure Classes where
  isWord : Char → Bool
  isSpace : Char → Bool

/-- What is used of them. -/
structure Classes.Python (K : Classes) : Prop where
  underscore : K.isWord '_' = true
  disjoint : ∀ c, K.isWord c = true → K.isSpace c = false
  hyphen : K.isWord '-' = false ∧ K.isSpace '-' = false
  slash : K.isWord '/' = false ∧ K.isSpace '/' = false
  dot : K.isWord '.' = false ∧ K.isSpace '.' = false

/-- `re.sub(r"[^\w\s-]", "_", ...)` on a character (analyzers.py:1785). -/
def replaced (K : Classes) (c : Char) : Char :=
  if K.isWord c || K.isSpace c || c == '-' then c else '_'

/-- `str.strip` (analyzers.py:1785). -/
def strip (K : Classes) (s : Text) : Text :=
  ((s.dropWhile K.isSpace).reverse.dropWhile K.isSpace).reverse

/-- `re.sub(r"[-\s]+", "-", ...)` (analyzers.py:1787); `inside` tells that the last character read is
part of a run. -/
def collapse (K : Classes) (inside : Bool) : Text → Text
  | [] => []
  | c :: cs =>
    if c == '-' || K.isSpace c then
      if inside then collapse K true cs else '-' :: collapse K true cs
    else c :: collapse K false cs

/-- `sanitized_vocab_filename` of a file name (analyzers.py:1752-1787). -/
def sanitize (K : Classes) (s : Text) : Text := collapse K false (strip K (s.map (replaced K)))

/-- `file_format`. -/
inductive Format
  | text
  | tfrecordGzip
  deriving DecidableEq

/-- A call of `tft.vocabulary` or `tft.experimental.approximate_vocabulary`: the argument
`vocab_filename`, the name scope, the lines that end up in the file, in order, and the size that is
bound to the annotation (see C04-C13 for both). -/
structure Request where
  name : Option Text
  scope : Text
  approximate : Bool
  storeFrequency : Bool
  format : Format
  entries : List Text
  size : Nat
  deriving DecidableEq

/-- `_get_vocab_filename` (analyzers.py:1790-1813) and `_get_approx_vocab_filename`
(experimental/analyzers.py:303-328, where the prefixes are swapped). -/
def stem (K : Classes) (r : Request) : Text :=
  match r.name with
  | some n => sanitize K n
  | none =>
    sanitize K ((match r.approximate, r.storeFrequency with
      | false, true => "vocab_frequency_".toList
      | false, false => "vocab_".toList
      | true, true => "approx_vocab_".toList
      | true, false => "approx_vocab_frequency_".toList) ++ r.scope)

/-- The suffix of compressed vocabularies. -/
def suffix : Text := ".tfrecord.gz".toList

/-- The name of the file (analyzers.py:1884-1888, beam/analyzer_impls.py:505, 527-536). -/
def fileName (K : Classes) (r : Request) : Text :=
  match r.format with
  | .text => stem K r
  | .tfrecordGzip => stem K r ++ suffix

/-- `vocabulary_key` of `register_vocab` (analyzers.py:1882-1883). -/
def key (K : Classes) (r : Request) : Text := r.name.getD (stem K r)

/-- What happens in `preprocessing_fn`: vocabularies and calls of `tft.annotate_asset`. -/
inductive Event
  | vocabulary (r : Request)
  | annotateAsset (key filename : Text)
  deriving DecidableEq

/-- The annotation made by an event (analyzers.py:1889, annotators.py:230-246). -/
def annotationOf (K : Classes) : Event → Text × Text
  | .vocabulary r => (key K r, fileName K r)
  | .annotateAsset k f => (k, f)

/-- The asset collections of the graph. -/
def collections (K : Classes) (es : List Event) : Annotations :=
  es.foldl (fun a e => annotate (annotationOf K e).1 (annotationOf K e).2 a) {}

/-- A file: its bytes, and the records if it is a compressed TFRecord file. -/
structure File where
  bytes : Text
  records : Option (List Text)
  deriving DecidableEq

/-- The file written for a vocabulary: `WriteToText` ends each line with a line feed,
`WriteToTFRecord` keeps the entries apart (beam/analyzer_impls.py:523-536). `gz` are the bytes of a
compressed file. -/
def fileOf (gz : List Text → Text) (r : Request) : File :=
  match r.format with
  | .text => ⟨r.entries.flatMap (fun e => e ++ ['\n']), none⟩
  | .tfrecordGzip => ⟨gz r.entries, some r.entries⟩

/-- The assets directory of the SavedModel: the files of the vocabularies. Other assets are not
modelled. -/
def assets (K : Classes) (gz : List Text → Text) (es : List Event) : List (Text × File) :=
  es.filterMap (fun e => match e with
    | .vocabulary r => some (fileName K r, fileOf gz r)
    | .annotateAsset _ _ => none)

/-- The `VocabularyMetadata` among the global annotations of the schema (analyzers.py:2330-2332,
2946-2990): file name and filtered size. Approximate vocabularies have none. -/
def metadata (K : Classes) (es : List Event) : List (Option (Text × Nat)) :=
  es.filterMap (fun e => match e with
    | .vocabulary r => if r.approximate then none else some (some (stem K r, r.size))
    | .annotateAsset _ _ => none)

/-- The directory written by `WriteTransformFn`. `schema` are the global annotations: `none` is one of
another type. `none` for `schema` itself: reading the metadata fails with `OSError`. `dirMatches`
tells whether `glob` finds the directory itself if no name is appended. -/
structure Output where
  assetMap : List (Text × Text)
  files : List (Text × File)
  schema : Option (List (Option (Text × Nat)))
  dirMatches : Bool

/-- `tf.io.gfile.exists` below the assets directory; without a name it is the directory. -/
def fileExists (o : Output) (f : Text) : Bool := f = [] ∨ f ∈ o.files.map Prod.fst

/-- `tf.io.gfile.glob` below the assets directory, for names without special characters. -/
def glob (o : Output) (f : Text) : List Text :=
  if f = [] then (if o.dirMatches then [[]] else [])
  else if f ∈ o.files.map Prod.fst then [f] else []

/-- `TFTransformOutput.vocabulary_file_by_name` (output_wrapper.py:139-188). Paths are relative to
the assets directory. A missing asset map is an empty one (beam_metadata_io.py:98). -/
def fileByName (K : Classes) (o : Output) (name : Text) : Except Err (Option Text) :=
  match (o.assetMap.lookup name).filter (fileExists o) with
  | some f => .ok (some f)
  | none =>
    match glob o (sanitize K name) ++ glob o (sanitize K name ++ suffix) with
    | [] => .ok none
    | [f] => .ok (some f)
    | _ => .error "ValueError: Found too many vocabulary files"

/-- `_vocabulary_size_from_annotations` (output_wrapper.py:190-215). An annotation of another type
unpacks to an empty message, with size 0. -/
def sizeFromAnnotations (o : Output) (name : Text) : Option Nat :=
  match o.schema with
  | none => none
  | some as => (as.find? (fun a => match a with
      | none => false
      | some (f, n) => f = name ∧ n ≠ 0)).bind (fun a => a.map Prod.snd)

/-- Iterating over the lines of a file; `cur` is the part of the line read so far. -/
def lines (cur : Text) : Text → List Text
  | [] => if cur = [] then [] else [cur]
  | c :: cs => if c = '\n' then (cur ++ ['\n']) :: lines [] cs else lines (cur ++ [c]) cs

/-- `bytes.rstrip(b"\n")`. -/
def rstrip (s : Text) : Text := (s.reverse.dropWhile (· = '\n')).reverse

/-- `vocab_path.endswith("tfrecord.gz")` (the path before the name ends with a slash). -/
def isRecords (f : Text) : Bool := "tfrecord.gz".toList.isSuffixOf f

/-- Opening a file. -/
def openFile (o : Output) (f : Text) : Except Err File :=
  match o.files.lookup f with
  | none => .error "FailedPreconditionError: is a directory"
  | some x => .ok x

/-- The entries of a file (output_wrapper.py:252-262). -/
def entriesOf (o : Output) (f : Text) : Except Err (List Text) := do
  let x ← openFile o f
  if isRecords f then
    match x.records with
    | none => .error "DataLossError"
    | some rs => return rs
  else return (lines [] x.bytes).map rstrip

/-- `TFTransformOutput.vocabulary_by_name` (output_wrapper.py:245-262). -/
def vocabularyByName (K : Classes) (o : Output) (name : Text) : Except Err (List Text) := do
  match ← fileByName K o name with
  | none => .error "ValueError: Could not read vocabulary: does not exist"
  | some f => entriesOf o f

/-- `TFTransformOutput.vocabulary_size_by_name` (output_wrapper.py:217-243). -/
def sizeByName (K : Classes) (o : Output) (name : Text) : Except Err Nat :=
  match sizeFromAnnotations o name with
  | some n => .ok n
  | none => do
    match ← fileByName K o name with
    | none => .error "ValueError: Could not compute vocabulary size, does not exist"
    | some f =>
      let x ← openFile o f
      if isRecords f then
        match x.records with
        | none => .error "DataLossError"
        | some rs => return rs.length
      else return (lines [] x.bytes).length

/-- The published output. -/
def publish (K : Classes) (gz : List Text → Text) (dirMatches : Bool)
    (others : List (Option (Text × Nat))) (es : List Event) : Except Err Output := do
  let m ← getAnnotations (collections K es)
  return ⟨m, assets K gz es, some (others ++ metadata K es), dirMatches⟩

/-- The annotation of a size (annotators.py:249-253, analyzers.py:1890-1891). -/
def sizeEntry (K : Classes) : Event → Option (Text × Nat)
  | .vocabulary r => if r.approximate then none else some (key K r, r.size)
  | .annotateAsset _ _ => none

/-- The collection of sizes and
`tft.experimental.get_vocabulary_size_by_name` (experimental/annotators.py:32-92). -/
def sizeInside (K : Classes) (es : List Event) (name : Text) : Except Err Nat :=
  match (es.filterMap (sizeEntry K)).reverse.lookup name with
  | none => .error "ValueError: Vocabulary size not found"
  | some n => .ok n

/-- `TFTransformOutput.num_buckets_for_transformed_feature` (output_wrapper.py:265-281). Unset ends
read as 0. -/
def numBuckets (domains : List (String × FeatureSpec.Domain)) (name : String) : Except Err Int :=
  match domains.lookup name with
  | none => .error "ValueError: Column did not have a domain provided."
  | some (.int lo hi _) =>
    if lo.getD 0 ≠ 0 then .error "ValueError: Column has min value, should be 0"
    else .ok (hi.getD 0 + 1)
  | some _ => .error "ValueError: Column has domain, expected an IntDomain"

end TFT.VocabAccess
