import Verif.Mappers.Buckets
import Mathlib.Data.Rat.Floor

/-!
# Buckets of values whose type is not that of the boundaries

Model of `assign_buckets` and `apply_buckets` with the types of `x` and of the boundaries: `Mappers/Buckets` compares
exact numbers, here one of the two is first cast to the type of the other.
-/

namespace TFT.Buckets

/-- A finite number. -/
def finite (q : ℚ) : Ext := ((q : WithTop ℚ) : Ext)

/-- The numeric types of TensorFlow: integers, and floats with this number of binary digits and this largest
exponent. -/
inductive Dtype where
  | int (signed : Bool) (bits : Nat)
  | float (precision exponent : Nat)
deriving DecidableEq

namespace Dtype

def int32 : Dtype := .int true 32
def int64 : Dtype := .int true 64
def uint64 : Dtype := .int false 64
def float16 : Dtype := .float 11 15
def float32 : Dtype := .float 24 127
def float64 : Dtype := .float 53 1023

/-- `tf.DType.max` (TensorFlow). -/
def max : Dtype → ℚ
  | .int true bits => 2 ^ (bits - 1) - 1
  | .int false bits => 2 ^ bits - 1
  | .float p e => (2 ^ p - 1) * 2 ^ ((e : ℤ) + 1 - p)

end Dtype

/-- What TensorFlow's casts do where the model leaves it open: rounding to floats of some precision, and casts of floats
that an integer type cannot hold, which are undefined. -/
structure Casts where
  round : Nat → ℚ → ℚ
  undefined : Dtype → Option Ext → ℤ

/-- Integers wrap. -/
def wrap (signed : Bool) (bits : Nat) (n : ℤ) : ℤ :=
  if signed then (n + 2 ^ (bits - 1)) % 2 ^ bits - 2 ^ (bits - 1) else n % 2 ^ bits

/-- Rounding towards zero. -/
def truncate (q : ℚ) : ℤ := if 0 ≤ q then ⌊q⌋ else ⌈q⌉

/-- The smallest integer of a type. -/
def minInt (signed : Bool) (bits : Nat) : ℤ := if signed then -2 ^ (bits - 1) else 0

/-- `tf.cast` (TensorFlow) of a value that is not NaN. -/
def castExt (c : Casts) (src dst : Dtype) (v : Ext) : Ext :=
  if src = dst then v
  else
    match dst, v with
    | .float p _, some (some q) => finite (c.round p q)
    | .float _ _, v => v
    | .int signed bits, some (some q) =>
      match src with
      | .int _ _ => finite (wrap signed bits ⌊q⌋)
      | .float _ _ =>
        if minInt signed bits ≤ truncate q ∧ (truncate q : ℚ) ≤ (Dtype.int signed bits).max then finite (truncate q)
        else finite (c.undefined (.int signed bits) (some (finite q)))
    | .int signed bits, v => finite (c.undefined (.int signed bits) (some v))

/-- `tf.cast` (TensorFlow). -/
def cast (c : Casts) (src dst : Dtype) (x : Option Ext) : Option Ext :=
  match x with
  | some v => some (castExt c src dst v)
  | none =>
    match dst with
    | .float _ _ => none
    | .int _ _ => if src = dst then none else some (finite (c.undefined dst none))

/-- `assign_buckets`, `tf_utils.py:827-870`, for one value; lines 857-860 are the casts. -/
def assignBucketsTyped (c : Casts) (xType bType : Dtype) (x : Option Ext) (boundaries : List (List Ext)) (side : Side) :
    Nat :=
  if xType.max > bType.max then
    assignBuckets x (boundaries.map (fun row => row.map (castExt c bType xType))) side
  else assignBuckets (cast c xType bType x) boundaries side

/-- `apply_buckets`, `mappers.py:2300-2354`, for one value; see `applyBuckets`. -/
def applyBucketsTyped (c : Casts) (xType bType : Dtype) (x : Option Ext) (boundaries : List (List Ext)) (cols : Nat) :
    Bucketized where
  bucket := assignBucketsTyped c xType bType x boundaries .right
  minValue := 0
  maxValue := cols

end TFT.Buckets
