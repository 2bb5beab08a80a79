import Verif.Coders.SerializeExample

/-!
# C88: a reader of Example protos

A reader of the protobuf wire format, written independently of the model: every field that an
`Example` of TensorFlow has is delimited by its length (wire type 2); floats and integers are packed.
-/

namespace TFT.SerializeExample.Spec

open TFT.SerializeExample (Bytes Datum DType)

/-- A base 128 varint and the bytes after it. -/
def readVarint : Bytes → Option (Nat × Bytes)
  | [] => none
  | b :: rest =>
    if b.toNat < 128 then some (b.toNat, rest)
    else (readVarint rest).map (fun r => (b.toNat - 128 + 128 * r.1, r.2))

/-- The fields of a message with their numbers; `fuel` bounds their number. -/
def readFields : Nat → Bytes → Option (List (Nat × Bytes))
  | _, [] => some []
  | 0, _ :: _ => none
  | fuel + 1, bytes =>
    match readVarint bytes with
    | none => none
    | some (tag, rest) =>
      if tag % 8 = 2 then
        match readVarint rest with
        | none => none
        | some (length, rest) =>
          if length ≤ rest.length then
            (readFields fuel (rest.drop length)).map (fun fs => (tag / 8, rest.take length) :: fs)
          else none
      else none

def fields (bytes : Bytes) : Option (List (Nat × Bytes)) := readFields bytes.length bytes

/-- Packed integers. -/
def readInts : Nat → Bytes → Option (List Datum)
  | _, [] => some []
  | 0, _ :: _ => none
  | fuel + 1, bytes =>
    match readVarint bytes with
    | none => none
    | some (n, rest) => (readInts fuel rest).map (fun ds => .int (BitVec.ofNat 64 n) :: ds)

/-- Packed floats. -/
def readFloats : Bytes → Option (List Datum)
  | [] => some []
  | a :: b :: c :: d :: rest =>
    (readFloats rest).map (fun ds => .float (BitVec.ofNat 32
      (a.toNat + 256 * b.toNat + 65536 * c.toNat + 16777216 * d.toNat)) :: ds)
  | _ => none

/-- The only field of a message, which must have number 1; empty if there is none. -/
def onlyField (bytes : Bytes) : Option Bytes :=
  match fields bytes with
  | some [] => some []
  | some [(1, payload)] => some payload
  | _ => none

/-- A `Feature`: a list of strings, floats or integers. -/
def readFeature (bytes : Bytes) : Option (DType × List Datum) :=
  match fields bytes with
  | some [(1, list)] =>
    match fields list with
    | some fs =>
      if fs.all (fun f => f.1 == 1) then some (.string, fs.map (fun f => .bytes f.2)) else none
    | none => none
  | some [(2, list)] =>
    match onlyField list with
    | some payload => (readFloats payload).map (fun ds => (.float32, ds))
    | none => none
  | some [(3, list)] =>
    match onlyField list with
    | some payload => (readInts payload.length payload).map (fun ds => (.int64, ds))
    | none => none
  | _ => none

/-- An entry of the map of features. -/
def readEntry (bytes : Bytes) : Option (Bytes × DType × List Datum) :=
  match fields bytes with
  | some [(1, key), (2, value)] => (readFeature value).map (fun v => (key, v))
  | _ => none

/-- An `Example`: the features with their names. -/
def readExample (bytes : Bytes) : Option (List (Bytes × DType × List Datum)) :=
  match fields bytes with
  | some [(1, features)] =>
    match fields features with
    | some fs => if fs.all (fun f => f.1 == 1) then (fs.map Prod.snd).mapM readEntry else none
    | none => none
  | _ => none

/-- Values of the type of a tensor. -/
def HasType : DType → Datum → Prop
  | .string, .bytes _ => True
  | .float32, .float _ => True
  | .int64, .int _ => True
  | _, _ => False

/-- A tensor whose instances have the given values: dense of any shape, or sparse with the values of
every instance at its beginning. -/
def HasRows (t : Tensor) (rows : List (List Datum)) : Prop :=
  (∀ row ∈ rows, ∀ v ∈ row, HasType t.dtype v) ∧
  match t.body with
  | .dense shape values =>
    ∃ rest, shape = rows.length :: rest ∧ (∀ row ∈ rows, row.length = rest.prod) ∧
      values = rows.flatten
  | .sparse indices values n cols =>
    n = rows.length ∧ (∀ row ∈ rows, row.length ≤ cols) ∧ values = rows.flatten ∧
      indices = rows.zipIdx.flatMap (fun r => (List.range r.1.length).map (fun c : Nat => (r.2, c)))

end TFT.SerializeExample.Spec
