import Verif.Vocab.Model

/-!
# Applying a vocabulary

Model of vocabulary files and of `apply_vocabulary` and `compute_and_apply_vocabulary` for string
tensors. A string is a list of characters (bytes).
-/

namespace TFT.Lookup

abbrev Str := List Char

/-- `_EMPTY_STRING_OR_NEWLINE_CHARS_REGEX`, `analyzers.py:93`: the strings it matches. These
tokens are dropped when the file format is text (`analyzers.py:2218-2224`,
`tf_utils.py:144-156`). -/
def unwritable (t : Str) : Bool := t.isEmpty || t.contains '\n' || t.contains '\r'

/-- `maybe_format_vocabulary_input`, `tf_utils.py:717-740`. -/
def formatInput (t : Str) : Str :=
  t.flatMap (fun c => if c = ' ' then "__SPACE__".toList else [c])

/-- The two file formats. -/
inductive Format where
  | text
  | tfrecordGzip
deriving DecidableEq

/-- The contents of a vocabulary file. -/
inductive File where
  | text (contents : Str)
  | records (records : List Str)

/-- `WriteToText` and `WriteToTFRecord` with one shard (Beam), `beam/analyzer_impls.py:527-538`. -/
def writeFile (format : Format) (lines : List Str) : File :=
  match format with
  | .text => .text (lines.flatMap (fun l => l ++ ['\n']))
  | .tfrecordGzip => .records lines

/-- `_count_and_token_to_bytes`, `beam/analyzer_impls.py:101-107`, and the choice between lines
with and without frequency (lines 148-153). `showCount` is Python's number formatting. -/
def formatEntry (showCount : ℚ → Str) (storeFrequency : Bool) (entry : ℚ × Str) : Str :=
  if storeFrequency then showCount entry.1 ++ ' ' :: entry.2 else entry.2

/-- Reading the lines of a text file (TensorFlow, `InputBuffer::ReadLine`): carriage returns are
dropped, a last line without newline counts if it is not empty. -/
def readLinesFrom (current : Str) : Str → List Str
  | [] => if current = [] then [] else [current]
  | c :: rest =>
    if c = '\n' then current :: readLinesFrom [] rest
    else if c = '\r' then readLinesFrom current rest
    else readLinesFrom (current ++ [c]) rest

/-- Splitting at every separator (TensorFlow, `str_util::Split`). -/
def splitAll (sep : Char) : Str → List Str
  | [] => [[]]
  | c :: rest =>
    if c = sep then [] :: splitAll sep rest
    else (c :: (splitAll sep rest).headD []) :: (splitAll sep rest).tail

/-- What follows the first space: `_split_vocabulary_entries`, `tf_utils.py:977-998`
(`tf.strings.split(..., maxsplit=1)[1]`; an error without space). -/
def afterFirstSpace : Str → Except Err Str
  | [] => .error "slice index 1 of dimension 0 out of bounds"
  | c :: rest => if c = ' ' then .ok rest else afterFirstSpace rest

/-- The keys of the lookup table, in the order of their values 0, 1, ...:
`_make_construct_vocabulary_table_function`, `mappers.py:1211-1240`, and
`_make_tfrecord_vocabulary_dataset`, `tf_utils.py:907-948`. -/
def tableKeys (storeFrequency : Bool) : File → Except Err (List Str)
  | .text contents =>
    let lines := readLinesFrom [] contents
    if storeFrequency then
      seqExcept (lines.map (fun line =>
        match (splitAll ' ' line)[1]? with
        | some key => .ok key
        | none => .error "InvalidArgumentError: expected more tokens"))
    else .ok lines
  | .records records =>
    if storeFrequency then seqExcept (records.map afterFirstSpace)
    else .ok records

/-- An id with the domain published for the output. -/
structure Applied where
  id : Int
  minValue : Int
  maxValue : Int
deriving DecidableEq

/-- `_apply_vocabulary_internal`, `mappers.py:1253-1306`, for one string, without `lookup_fn`.
`hash` is the hash function of `StaticVocabularyTable`. TensorFlow refuses a table with a repeated
key. -/
def applyVocabulary (hash : Str → Nat) (storeFrequency : Bool) (defaultValue numOovBuckets : Int)
    (file : File) (x : Str) : Except Err Applied := do
  let keys ← tableKeys storeFrequency file
  if ¬ keys.Nodup then
    .error "InvalidArgumentError: HashTable has different value for same key"
  else
    let n : Int := keys.length
    if 0 < numOovBuckets then
      .ok { id := if x ∈ keys then (keys.idxOf x : Int) else n + (hash x : Int) % numOovBuckets
            minValue := 0
            maxValue := n + numOovBuckets - 1 }
    else
      .ok { id := if x ∈ keys then (keys.idxOf x : Int) else defaultValue
            minValue := min 0 defaultValue
            maxValue := max (n - 1) defaultValue }

/-- The formatting of the input in `compute_and_apply_vocabulary`, `mappers.py:1120-1121`. -/
def prepare (format : Format) (storeFrequency : Bool) (x : Str) : Str :=
  if storeFrequency && decide (format = .text) then formatInput x else x

/-- The tokens that are not counted. -/
def dropped (format : Format) (x : Str) : Bool := decide (format = .text) && unwritable x

/-- `get_empy_vocabulary_dummy_value`, `analyzers.py:1894-1907`, for strings. -/
def dummyEntry : ℚ × Str := (1, "49d0cd50-04bb-48c0-bc6f-5b575dce351a".toList)

section

variable [LinearOrder Str]

/-- `compute_and_apply_vocabulary`, `mappers.py:1119-1149`, for one string `x`, after the counts
have been computed: without labels, coverage, reserved tokens and shuffling. -/
def computeAndApply (showCount : ℚ → Str) (hash : Str → Nat) (format : Format)
    (storeFrequency : Bool) (defaultValue numOovBuckets : Int) (P : Vocab.PruneParams Unit Str)
    (counts : List (Vocab.Indicator × Str)) (batches : List (List (ℚ × Str))) (x : Str) :
    Except Err Applied := do
  let lines ← Vocab.vocabularyFile id dummyEntry P (none : Option (Str → Nat))
    (formatEntry showCount storeFrequency) none counts batches
  applyVocabulary hash storeFrequency defaultValue numOovBuckets (writeFile format lines)
    (prepare format storeFrequency x)

end

end TFT.Lookup
