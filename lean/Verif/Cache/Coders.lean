import Verif.Combine.Sched

/-!
# Cache coders

Model of `_BaseKVCoder`, `_CombinerPerKeyAccumulatorCoder` and `_VocabularyAccumulatorCoder` of
`analyzer_nodes.py`. Byte strings are lists of bytes. `struct`'s native format is taken to be that
of a little endian machine. Python's `json` is a parameter: a pair of functions of which the
theorems assume that `loads` undoes `dumps` (`JsonCodec.law`).
-/

namespace TFT.Coders

abbrev Bytes := List (Fin 256)

/-- The `k` low bytes of `n`, least significant first. -/
def toLE : Nat → Nat → Bytes
  | 0, _ => []
  | k + 1, n => ⟨n % 256, Nat.mod_lt _ (by decide)⟩ :: toLE k (n / 256)

def fromLE : Bytes → Nat
  | [] => 0
  | b :: bs => b.val + 256 * fromLE bs

/-- `struct.pack("q", n)` for a length `n`. -/
def packQ (n : Nat) : Except Err Bytes :=
  if n < 2 ^ 63 then .ok (toLE 8 n) else .error "struct.error: int too large to convert"

/-- `struct.unpack("q", bs)` of 8 bytes: a signed number. -/
def unpackQ (bs : Bytes) : Int :=
  let n := fromLE bs
  if n < 2 ^ 63 then n else (n : Int) - 2 ^ 64

/-- `_BaseKVCoder.encode_cache`, `analyzer_nodes.py:852-861`. -/
def encodeKV (acc : Bytes × Bytes) : Except Err Bytes := do
  let a ← packQ acc.1.length
  let b ← packQ acc.2.length
  .ok (a ++ b ++ acc.1 ++ acc.2)

/-- `_BaseKVCoder.decode_cache`, `analyzer_nodes.py:863-872`. -/
def decodeKV (bs : Bytes) : Except Err (Bytes × Bytes) :=
  let pre := bs.take 16
  if pre.length < 16 then .error "struct.error: unpack_from requires a buffer of at least 16 bytes"
  else
    let lt := unpackQ (pre.take 8)
    let lv := unpackQ (pre.drop 8)
    if lt < 0 ∨ lv < 0 then .error "struct.error: bad char in struct format"
    else
      let rest := bs.drop 16
      if rest.length < lt.toNat + lv.toNat then
        .error "struct.error: unpack_from requires a larger buffer"
      else .ok (rest.take lt.toNat, (rest.drop lt.toNat).take lv.toNat)

/-- A `CacheCoder`, `analyzer_nodes.py:420-432`. -/
structure Coder (A : Type) where
  encode : A → Except Err Bytes
  decode : Bytes → Except Err A

/-- `_CombinerPerKeyAccumulatorCoder`, `analyzer_nodes.py:618-642`. -/
def perKeyCoder {A : Type} (c : Coder A) : Coder (Bytes × A) where
  encode acc := do
    let v ← c.encode acc.2
    encodeKV (acc.1, v)
  decode bs := do
    let (k, v) ← decodeKV bs
    let a ← c.decode v
    .ok (k, a)

/-- The JSON values that occur, with numbers of type `R`. -/
inductive Json (R : Type) where
  | num (x : R)
  | list (xs : List (Json R))

/-- Python's `json.dumps` and `json.loads`, as bytes. -/
structure JsonCodec (R : Type) where
  dumps : Json R → Bytes
  loads : Bytes → Except Err (Json R)
  law : ∀ j, loads (dumps j) = .ok j

/-- A token: bytes for a string vocabulary, otherwise a number. -/
inductive Token (R : Type) where
  | bytes (b : Bytes)
  | number (x : R)

/-- The value of a vocabulary accumulator: a count or a weight, or a
`_WeightedMeanAndVarAccumulator`, whose fields are arrays, given by their `tolist`. -/
inductive Value (R : Type) where
  | scalar (x : R)
  | accumulator (count mean variance weight : Json R)

/-- The value as JSON, `analyzer_nodes.py:886-893`. -/
def Value.toJson {R : Type} : Value R → Json R
  | .scalar x => .num x
  | .accumulator c m v w => .list [c, m, v, w]

/-- The value from JSON, `analyzer_nodes.py:902-912`. -/
def Value.ofJson {R : Type} : Json R → Except Err (Value R)
  | .num x => .ok (.scalar x)
  | .list [c, m, v, w] => .ok (.accumulator c m v w)
  | .list _ => .error "ValueError: not enough values to unpack"

/-- `_VocabularyAccumulatorCoder`, `analyzer_nodes.py:875-913`. `isString` is
`self._input_dtype is tf.string`. -/
def vocabularyCoder {R : Type} (json : JsonCodec R) (isString : Bool) :
    Coder (Token R × Value R) where
  encode acc := do
    let token ← match acc.1 with
      | .bytes b => if isString then .ok b else .error "TypeError: bytes is not JSON serializable"
      | .number x =>
        if isString then .error "struct.error: argument for 's' must be a bytes object"
        else .ok (json.dumps (.num x))
    encodeKV (token, json.dumps acc.2.toJson)
  decode bs := do
    let (t, v) ← decodeKV bs
    let token ← if isString then .ok (.bytes t) else do
      match ← json.loads t with
      | .num x => .ok (.number x)
      | _ => .error "not a token"
    let value ← Value.ofJson (← json.loads v)
    .ok (token, value)

end TFT.Coders
