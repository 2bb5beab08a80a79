import Verif.Mappers.Histogram

/-!
# Estimated probability densities

Model of `tft.estimated_probability_density`, on top of that of `tft.histogram`.  Floating point
numbers are exact, except that a quotient may be NaN or infinite: both are `none`.  A categorical
feature is one of strings or of `int64` numbers; conversions between numbers and their decimal strings
are left out.
-/

namespace TFT.Histogram

open TFT.Buckets

/-- Division of floats; `none` stands for NaN and the infinities. -/
def fdiv (a b : Option ℚ) : Option ℚ :=
  match a, b with
  | some a, some b => if b = 0 then none else some (a / b)
  | _, _ => none

/-- `counts / tf.reduce_sum(counts)`, `mappers.py:2467-2468`. -/
def probabilities (counts : List ℚ) : List (Option ℚ) :=
  counts.map fun c => fdiv (some c) (some counts.sum)

/-- The last lines, `mappers.py:2488-2500`, for one value: an index of -1 gives 0.  `tf.gather` reads
the first density in that case, and fails if there is none. -/
def pickDensity (densities : List (Option ℚ)) (index : Int) : Except Err (Option ℚ) := do
  let adjusted := if index < 0 then 0 else index.toNat
  let d ← gatherAt densities adjusted
  .ok (if index < 0 then some 0 else d)

/-- `estimated_probability_density`, `mappers.py:2398-2500`, not categorical, for one value. -/
def densityAt (bs counts : List ℚ) (x : Option Ext) : Except Err (Option ℚ) :=
  let boundaries := shifted bs
  match boundaries.head?, boundaries.getLast? with
  | some lo, some hi =>
    let probs := probabilities counts
    let binWidth := fdiv (some (hi - lo)) (some probs.length)
    let densities := probs.map fun p => fdiv p binWidth
    pickDensity densities
      (assignBuckets x [boundaries.tail.map (fun q : ℚ => ((q : WithTop ℚ) : Ext))] .left)
  | _, _ => .error "InvalidArgumentError: slice index -1 of dimension 1 out of bounds"

/-- The analysis and the result for one value, not categorical. -/
def estimatedDensity (bs : List ℚ) (r1s : List (KeyRun String (List ℚ))) (r2 : KeyRun String Nat)
    (x : Option Ext) : Except Err (Option ℚ) := do
  let counts ← histogram bs r1s r2
  densityAt bs (counts.flatMap Nd.data) x

/-- The analysis and the result for one value, categorical: `histogram` is `count_per_key`
(`analyzers.py:768-774`). -/
def estimatedMass {K : Type} [LinearOrder K] (r1s : List (KeyRun K (List ℚ))) (r2 : KeyRun K Nat)
    (x : K) : Except Err (Option ℚ) := do
  let outs ← perKeyAnalysis countCombiner r1s r2
  let (vocab, cols) ← mergeOutputsByKey 1 outs
  pickDensity (probabilities (cols.flatten.flatMap Nd.data)) (lookupKey x vocab)

/-- The shape of the result, `mappers.py:2456-2459`, `2466`, `2470`, `2487` and `_align_dims`
(`tf_utils.py:1664-1681`): the values are flattened, and then dimensions of size one are added. -/
def densityShape (shape : List Nat) : Except Err (List Nat) :=
  if shape.length > 1 ∧ shape.getLastD 0 > 1 then
    .error "NotImplementedError: estimated probability density does not support multiple dimensions"
  else .ok (shape.prod :: List.replicate (shape.length - 1) 1)

end TFT.Histogram
