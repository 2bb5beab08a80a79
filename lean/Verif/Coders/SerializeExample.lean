import Verif.Combine.Py
import Mathlib.Data.List.Sort

/-!
# Serialization of batches as Example protos

Model of `serialize_example` and its helpers, tf_utils.py:1807-1918, down to the bytes that the
`EncodeProto` operation of TensorFlow writes. Strings are their UTF-8 bytes, floats their 32 bits and
integers their 64 bits. The limit of 2 GiB for the size of a message is not modelled.
-/

namespace TFT.SerializeExample

abbrev Bytes := List UInt8

/-- A value of a tensor. -/
inductive Datum where
  | bytes (b : Bytes)
  | float (bits : BitVec 32)
  | int (bits : BitVec 64)
deriving DecidableEq

inductive DType where
  | string
  | float32
  | int64
  | other
deriving DecidableEq

/-- A `Tensor` with the values in row-major order, or a `SparseTensor` of rank 2. -/
inductive Body where
  | dense (shape : List Nat) (values : List Datum)
  | sparse (indices : List (Nat × Nat)) (values : List Datum) (rows cols : Nat)
deriving DecidableEq

structure Tensor where
  dtype : DType
  body : Body
deriving DecidableEq

/-- The base 128 varints of the protobuf wire format. -/
def varint (n : Nat) : Bytes :=
  if h : n < 128 then [UInt8.ofNat n]
  else UInt8.ofNat (n % 128 + 128) :: varint (n / 128)
termination_by n
decreasing_by omega

/-- A field with wire type 2 (protobuf): the tag, the length and the bytes. -/
def lenDelim (field : Nat) (payload : Bytes) : Bytes :=
  varint (field * 8 + 2) ++ varint payload.length ++ payload

/-- The four bytes of a float, the lowest first. -/
def floatBytes (x : BitVec 32) : Bytes :=
  [UInt8.ofNat x.toNat, UInt8.ofNat (x.toNat / 256), UInt8.ofNat (x.toNat / 65536),
   UInt8.ofNat (x.toNat / 16777216)]

/-- A value without tag and length. -/
def raw : Datum → Bytes
  | .bytes b => b
  | .float x => floatBytes x
  | .int x => varint x.toNat

/-- The fields of the messages in tensorflow/core/example: number, and whether the values are
packed into one field. -/
def fieldOf (messageType fieldName : String) : Option (Nat × Bool) :=
  if messageType = "tensorflow.BytesList" ∧ fieldName = "value" then some (1, false)
  else if messageType = "tensorflow.FloatList" ∧ fieldName = "value" then some (1, true)
  else if messageType = "tensorflow.Int64List" ∧ fieldName = "value" then some (1, true)
  else if messageType = "tensorflow.Feature" ∧ fieldName = "bytes_list" then some (1, false)
  else if messageType = "tensorflow.Feature" ∧ fieldName = "float_list" then some (2, false)
  else if messageType = "tensorflow.Feature" ∧ fieldName = "int64_list" then some (3, false)
  else if messageType = "tensorflow.Features" ∧ fieldName = "feature" then some (1, false)
  else if messageType = "tensorflow.Features.FeatureEntry" ∧ fieldName = "key" then some (1, false)
  else if messageType = "tensorflow.Features.FeatureEntry" ∧ fieldName = "value" then
    some (2, false)
  else if messageType = "tensorflow.Example" ∧ fieldName = "features" then some (1, false)
  else none

/-- The values of one field of a message; nothing is written if there are none. -/
def encodeField (number : Nat) (packed : Bool) (values : List Datum) : Bytes :=
  if values = [] then []
  else if packed then lenDelim number (values.flatMap raw)
  else values.flatMap (fun v => lenDelim number (raw v))

/-- `_DEFAULT_VALUE_BY_DTYPE`, tf_utils.py:1810. -/
def defaultValue : DType → Option Datum
  | .string => some (.bytes [])
  | .float32 => some (.float 0)
  | .int64 => some (.int 0)
  | .other => none

/-- Strictly increasing indices, by rows. -/
def increasing : List (Nat × Nat) → Bool
  | [] => true
  | [_] => true
  | a :: b :: rest => (a.1 < b.1 || (a.1 == b.1 && a.2 < b.2)) && increasing (b :: rest)

/-- The value of a cell in `tf.sparse.to_dense`. -/
def cell (indices : List (Nat × Nat)) (values : List Datum) (default : Datum) (r c : Nat) : Datum :=
  (((indices.zip values).find? (fun e => e.1 = (r, c))).map Prod.snd).getD default

/-- One iteration of the loop in `_encode_proto`, tf_utils.py:1818-1834: for every message of the
batch, the values of the field, of which only the first `size` are written. `tf.reshape` cannot
infer a size if another one is 0. -/
def fieldRows (t : Tensor) : Except Err (List (List Datum)) :=
  match t.body with
  | .sparse indices values rows cols =>
    match defaultValue t.dtype with
    | none => .error "KeyError"
    | some default =>
      if increasing indices && indices.all (fun e => e.1 < rows && e.2 < cols)
          && indices.length == values.length then
        .ok ((List.range rows).map (fun r : Nat =>
          ((List.range cols).map (fun c : Nat => cell indices values default r c)).take
            (indices.countP (fun e => e.1 == r))))
      else .error "InvalidArgumentError: indices are out of order or out of bounds"
  | .dense [] _ => .error "ValueError: slice index 0 of dimension 0 out of bounds"
  | .dense (n :: rest) values =>
    if n = 0 then .error "InvalidArgumentError: reshape cannot infer the missing input size"
    else .ok ((List.range n).map (fun i : Nat => (values.drop (i * rest.prod)).take rest.prod))

/-- `EncodeProto` (TensorFlow) for the values of the fields in each message; `tf.stack` needs fields
with the same number of messages. In the messages used here the order of the names of the fields is
that of their numbers. -/
def encodeMessages (messageType : String) (fields : List (String × List (List Datum))) :
    Except Err (List Bytes) :=
  match fields with
  | [] => .error "ValueError: Must provide at least one tensor to stack"
  | first :: rest =>
    if rest.all (fun f => f.2.length == first.2.length) then do
      let numbers ← fields.mapM (fun f =>
        match fieldOf messageType f.1 with
        | some number => (Except.ok number : Except Err (Nat × Bool))
        | none => .error "InvalidArgumentError: unknown field")
      .ok ((List.range first.2.length).map (fun i : Nat =>
        (numbers.zip fields).flatMap (fun f => encodeField f.1.1 f.1.2 (f.2.2.getD i []))))
    else .error "ValueError: Shapes must be equal"

/-- The fields in the order of their names. -/
def sortFields {α : Type} (fields : List (String × α)) : List (String × α) :=
  fields.insertionSort (fun a b => a.1 ≤ b.1)

/-- `_encode_proto`, tf_utils.py:1813-1843. -/
def encodeProto (fields : List (String × Tensor)) (messageType : String) :
    Except Err (List Bytes) := do
  let rows ← (sortFields fields).mapM (fun f => (fieldRows f.2).map (fun r => (f.1, r)))
  encodeMessages messageType rows

/-- A tensor of strings of rank 1. -/
def stringTensor (bs : List Bytes) : Tensor :=
  { dtype := .string, body := .dense [bs.length] (bs.map .bytes) }

/-- `_serialize_feature`, tf_utils.py:1846-1885. -/
def serializeFeature (t : Tensor) : Except Err (List Bytes) :=
  match t.dtype with
  | .string => do
    let lists ← encodeProto [("value", t)] "tensorflow.BytesList"
    encodeProto [("bytes_list", stringTensor lists)] "tensorflow.Feature"
  | .float32 => do
    let lists ← encodeProto [("value", t)] "tensorflow.FloatList"
    encodeProto [("float_list", stringTensor lists)] "tensorflow.Feature"
  | .int64 => do
    let lists ← encodeProto [("value", t)] "tensorflow.Int64List"
    encodeProto [("int64_list", stringTensor lists)] "tensorflow.Feature"
  | .other => .error "ValueError: Cannot encode values of dtype"

/-- `tf.stack(…, axis=1)` of tensors of strings of rank 1. -/
def stackColumns (columns : List (List Bytes)) : Except Err Tensor :=
  match columns with
  | [] => .error "ValueError: Must provide at least one tensor to stack"
  | first :: rest =>
    if rest.all (fun c => c.length == first.length) then
      .ok { dtype := .string
            body := .dense [first.length, columns.length]
              ((List.range first.length).flatMap (fun i : Nat =>
                columns.map (fun c => .bytes (c.getD i [])))) }
    else .error "ValueError: Shapes must be equal"

/-- The order of keys: Python compares strings by code points, which is the order of the UTF-8
bytes. -/
def keyLe (a b : Bytes) : Bool := decide (a.map UInt8.toNat ≤ b.map UInt8.toNat)

/-- The entry of one feature, tf_utils.py:1905-1915. -/
def serializeEntry (f : Bytes × Tensor) : Except Err (List Bytes) := do
  let value ← serializeFeature f.2
  encodeProto [("key", stringTensor (List.replicate value.length f.1)),
    ("value", stringTensor value)] "tensorflow.Features.FeatureEntry"

/-- `serialize_example`, tf_utils.py:1888-1918. -/
def serializeExample (features : List (Bytes × Tensor)) : Except Err (List Bytes) := do
  let entries ← (features.insertionSort (fun a b => keyLe a.1 b.1)).mapM serializeEntry
  let stacked ← stackColumns entries
  let serialized ← encodeProto [("feature", stacked)] "tensorflow.Features"
  encodeProto [("features", stringTensor serialized)] "tensorflow.Example"

end TFT.SerializeExample
