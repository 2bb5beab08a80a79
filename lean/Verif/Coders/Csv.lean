/-!
# The CSV coder

Model of `coders/csv_coder.py`. Text is a list of Unicode code points, so that it can also hold the lone
surrogates that a Python string may hold. Not modelled: the encoding of the finished line as UTF-8
bytes beyond the fact that it fails for lone surrogates (UTF-8 is injective on all other texts, and
`_to_string` decodes the bytes of the inner encoder back to the same text), and the conversion to the
feature's dtype by `np.asarray`.

`csv.writer` and `io.StringIO` belong to Python's standard library; they are modelled from their
documentation, for the options that `_WriterWrapper` passes (`lineterminator=""`, and the defaults
`quotechar='"'`, `doublequote=True`, `QUOTE_MINIMAL`).
-/

namespace TFT.Csv

/-- A Python string: its code points. -/
abbrev Text := List Nat

/-- The exceptions that may be raised. -/
inductive Exc
  | typeError (feature : Option String)
  | valueError (msg : String)
  | indexError
  | keyError (name : String)
  | unicodeError
  | other (msg : String)
  deriving DecidableEq

/-- The quote character. -/
def quote : Nat := 34
/-- Line feed. -/
def lf : Nat := 10
/-- Carriage return. -/
def cr : Nat := 13

/-! ## The standard library -/

/-- A field is quoted when it has the delimiter, a quote or a line break in it
(`csv.writer` with `QUOTE_MINIMAL`). -/
def needsQuotes (d : Nat) (f : Text) : Bool :=
  f.any (fun c => c == d || c == quote || c == lf || c == cr)

/-- Quotes inside a field are doubled (`doublequote=True`). -/
def double : Text → Text
  | [] => []
  | c :: f => if c == quote then quote :: quote :: double f else c :: double f

/-- One field as `csv.writer` writes it. -/
def writeField (d : Nat) (f : Text) : Text :=
  if needsQuotes d f then quote :: (double f ++ [quote]) else f

/-- The fields of a row, separated by the delimiter. -/
def joinFields (d : Nat) : List Text → Text
  | [] => []
  | [f] => writeField d f
  | f :: g :: fs => writeField d f ++ d :: joinFields d (g :: fs)

/-- `csv.writer(..., lineterminator="").writerow`: a row of one empty field is written as an empty
quoted field, to tell it from a row without fields. -/
def writeRow (d : Nat) (fs : List Text) : Text :=
  let r := joinFields d fs
  if !fs.isEmpty && r.isEmpty then [quote, quote] else r

/-- `io.StringIO`: its contents and the position of the next write. -/
structure Buffer where
  data : Text
  pos : Nat
  deriving DecidableEq

/-- A new `io.StringIO()`. -/
def Buffer.empty : Buffer := ⟨[], 0⟩

/-- `StringIO.write`: overwrites from the position on, padding a gap with zeros. -/
def Buffer.write (b : Buffer) (t : Text) : Buffer :=
  ⟨b.data.take b.pos ++ List.replicate (b.pos - b.data.length) 0 ++ t ++ b.data.drop (b.pos + t.length),
    b.pos + t.length⟩

/-- `StringIO.seek(n)`. -/
def Buffer.seek (b : Buffer) (n : Nat) : Buffer := ⟨b.data, n⟩

/-- `StringIO.truncate(n)`; the position stays. -/
def Buffer.truncate (b : Buffer) (n : Nat) : Buffer := ⟨b.data.take n, b.pos⟩

/-- `str.encode("utf-8")` fails for lone surrogates. -/
def isSurrogate (c : Nat) : Bool := 0xD800 ≤ c && c ≤ 0xDFFF

/-- A list comprehension whose body may raise. -/
def sequence {β : Type} : List (Except Exc β) → Except Exc (List β)
  | [] => .ok []
  | .error e :: _ => .error e
  | .ok y :: xs =>
    match sequence xs with
    | .error e => .error e
    | .ok ys => .ok (y :: ys)

/-- The operations on Python objects that the coder uses. `toStr` is `tf.compat.as_str_any`
(csv_coder.py:25-40), `items` what indexing, `len` and iteration see, `truthy` is `bool(x)`, `flatten`
is `np.asarray(x, dtype).reshape(-1)`. Each may raise. -/
structure Py (α : Type) where
  toStr : α → Except Exc Text
  items : α → Except Exc (List α)
  truthy : α → Except Exc Bool
  flatten : α → Except Exc (List α)

/-! ## The coder -/

/-- `_WriterWrapper.encode_record` (csv_coder.py:137-157): the new buffer and the line. The fields are
converted to text before anything is written. The buffer is reset after the conversion of the line to
bytes, which may raise. -/
def encodeRecord (d : Nat) (b : Buffer) (record : List (Except Exc Text)) : Buffer × Except Exc Text :=
  match sequence record with
  | .error e => (b, .error e)
  | .ok fs =>
    let b1 := b.write (writeRow d fs)
    let result := b1.data
    if result.any isSurrogate then (b1, .error .unicodeError)
    else ((b1.seek 0).truncate 0, .ok result)

/-- What the schema says of a feature (`schema_utils.schema_as_feature_spec`). -/
inductive Feature
  | fixed (name : String) (shape : List Nat)
  | varLen (name : String)
  | sparse (name : String) (indexKeys : List String) (valueKey : String)
  | other (name : String)
  deriving DecidableEq

/-- The kind of a handler: `_FixedLenFeatureHandler` with `_rank` and `_size`, or
`_VarLenFeatureHandler`. -/
inductive Kind
  | fixed (rank size : Nat)
  | varLen
  deriving DecidableEq

/-- A feature handler (csv_coder.py:43-112). `multi` tells whether it was given the secondary encoder. -/
structure Handler where
  name : String
  kind : Kind
  index : Nat
  multi : Bool
  deriving DecidableEq

/-- The arguments of `CsvCoder.__init__` (csv_coder.py:165-172). -/
structure Config where
  columns : List String
  spec : List Feature
  delimiter : Nat
  secondary : Option Nat
  multivalent : List String

/-- A `CsvCoder` without its buffers. -/
structure Coder where
  config : Config
  handlers : List Handler

/-- `indices_by_name` (csv_coder.py:210): of equal names the last one counts. -/
def indexOf : List String → String → Option Nat
  | [], _ => none
  | c :: cs, name =>
    match indexOf cs name with
    | some i => some (i + 1)
    | none => if c = name then some 0 else none

/-- The inner function `index` of `__init__` (csv_coder.py:212-217). -/
def index (columns : List String) (name : String) : Except Exc Nat :=
  match indexOf columns name with
  | none => .error (.valueError ("Column not found: " ++ name))
  | some i => .ok i

/-- `_size` (csv_coder.py:59-61). -/
def sizeOfShape (shape : List Nat) : Nat := shape.foldl (fun size dim => size * dim) 1

/-- The handlers of one feature (csv_coder.py:219-270). -/
def handlersOf (cfg : Config) : Feature → Except Exc (List Handler)
  | .fixed name shape => do
    let i ← index cfg.columns name
    .ok [⟨name, .fixed shape.length (sizeOfShape shape), i, cfg.multivalent.contains name⟩]
  | .varLen name => do
    let i ← index cfg.columns name
    .ok [⟨name, .varLen, i, cfg.multivalent.contains name⟩]
  | .sparse name indexKeys valueKey => do
    let hs ← sequence (indexKeys.map (fun key => do
      let i ← index cfg.columns key
      .ok (⟨key, .varLen, i, cfg.multivalent.contains name⟩ : Handler)))
    let i ← index cfg.columns valueKey
    .ok (hs ++ [⟨valueKey, .varLen, i, cfg.multivalent.contains name⟩])
  | .other name => .error (.valueError ("feature_spec should be one of ...: " ++ name))

/-- `CsvCoder.__init__` (csv_coder.py:165-270). -/
def make (cfg : Config) : Except Exc Coder :=
  if cfg.secondary = none ∧ cfg.multivalent ≠ [] then
    .error (.valueError "secondary_delimiter unspecified for multivalent columns")
  else
    match sequence (cfg.spec.map (handlersOf cfg)) with
    | .error e => .error e
    | .ok hss => .ok ⟨cfg, hss.flatten⟩

/-- The buffers of the two `_WriterWrapper`s: the one for the line and the one shared by all
multivalent columns. -/
structure State where
  line : Buffer
  inner : Buffer
  deriving DecidableEq

/-- The buffers of a new coder. -/
def State.fresh : State := ⟨.empty, .empty⟩

/-- The first element of a list, `l[0]`. -/
def first {β : Type} : List β → Except Exc β
  | [] => .error .indexError
  | x :: _ => .ok x

/-- `flattened_values` of `_FixedLenFeatureHandler.encode_value` (csv_coder.py:69-75). -/
def flattened {α : Type} (py : Py α) (rank : Nat) (values : α) : Except Exc (List α) :=
  if rank = 0 then .ok [values]
  else if rank = 1 then py.items values
  else py.flatten values

/-- The text that a handler puts into its column, and the new buffer of the secondary encoder:
`_FixedLenFeatureHandler.encode_value` (csv_coder.py:67-86) and `_VarLenFeatureHandler.encode_value`
(csv_coder.py:107-112). -/
def encodeValue {α : Type} (py : Py α) (secondary : Option Nat) (h : Handler) (inner : Buffer)
    (values : α) : Buffer × Except Exc Text :=
  match h.kind with
  | .fixed rank size =>
    match flattened py rank values with
    | .error e => (inner, .error e)
    | .ok vs =>
      if vs.length ≠ size then
        (inner, .error (.valueError "FixedLenFeature got wrong number of values"))
      else
        match h.multi, secondary with
        | true, some s => encodeRecord s inner (vs.map py.toStr)
        | _, _ => (inner, first vs >>= py.toStr)
  | .varLen =>
    match h.multi, secondary with
    | true, some s =>
      match py.items values with
      | .error e => (inner, .error e)
      | .ok vs => encodeRecord s inner (vs.map py.toStr)
    | _, _ =>
      match py.truthy values with
      | .error e => (inner, .error e)
      | .ok false => (inner, .ok [])
      | .ok true =>
        match py.items values with
        | .error e => (inner, .error e)
        | .ok vs => (inner, first vs >>= py.toStr)

/-- A `TypeError` is raised again with the name of the feature (csv_coder.py:299-302). -/
def withName (name : String) : Exc → Exc
  | .typeError _ => .typeError (some name)
  | e => e

/-- The loop over the handlers (csv_coder.py:293-302). `row` is `string_list`. -/
def encodeLoop {α : Type} (py : Py α) (secondary : Option Nat) (instance_ : List (String × α)) :
    List Handler → Buffer → List (Option Text) → Buffer × Except Exc (List (Option Text))
  | [], inner, row => (inner, .ok row)
  | h :: hs, inner, row =>
    match instance_.lookup h.name with
    | none => (inner, .error (.keyError h.name))
    | some values =>
      match encodeValue py secondary h inner values with
      | (inner', .error e) => (inner', .error (withName h.name e))
      | (inner', .ok t) => encodeLoop py secondary instance_ hs inner' (row.set h.index (some t))

/-- `str(None)`. -/
def noneText : Text := [78, 111, 110, 101]

/-- `CsvCoder.encode` (csv_coder.py:281-303): the new buffers and the line. An entry of `string_list`
that no handler set is `None`, which `_to_string` turns into the text `None`. -/
def encode {α : Type} (py : Py α) (c : Coder) (s : State) (instance_ : List (String × α)) :
    State × Except Exc Text :=
  match encodeLoop py c.config.secondary instance_ c.handlers s.inner
      (List.replicate c.config.columns.length none) with
  | (inner, .error e) => (⟨s.line, inner⟩, .error e)
  | (inner, .ok row) =>
    let r := encodeRecord c.config.delimiter s.line (row.map (fun t => .ok (t.getD noneText)))
    (⟨r.1, inner⟩, r.2)

/-- Encoding several instances with one coder: the buffers afterwards and every result. -/
def encodeAll {α : Type} (py : Py α) (c : Coder) :
    State → List (List (String × α)) → State × List (Except Exc Text)
  | s, [] => (s, [])
  | s, x :: xs =>
    let r := encode py c s x
    let rs := encodeAll py c r.1 xs
    (rs.1, r.2 :: rs.2)

end TFT.Csv
