import Verif.Combine.Quantiles
import Verif.Combine.PerKey

/-!
# Bucketizing per key, from the values to the buckets

Model of `_quantiles_per_key` and of the whole of `bucketize_per_key`. Values are exact numbers,
`none` is NaN.
-/

namespace TFT.Quantiles

open TFT.Buckets

variable {S K : Type}

/-- The combiner of `_quantiles_per_key`, `analyzers.py:2606-2612`. -/
def perKeyParams (numBuckets : Nat) (epsilon : ℚ) (hasWeights : Bool) : Params :=
  mkParams numBuckets epsilon hasWeights (some [numBuckets - 1]) false none

/-- `_split_inputs_by_key` applied to the batch of `(key, x)` or `(key, x, weights)`,
`analyzers.py:2614-2622`: vectors of the same length. -/
def splitBatch (hasWeights : Bool) (keys : List K) (xs ws : List (Option ℚ)) :
    Except Err (List (K × List (Option ℚ))) :=
  splitInputsByKey ⟨1, keys⟩ (if hasWeights then [⟨1, xs⟩, ⟨1, ws⟩] else [⟨1, xs⟩])

/-- What `add_input` reads from the arguments of one row: `np.ravel(next_input[0])` and
`np.ravel(next_input[1])` of scalars, `analyzers.py:2432-2434`. -/
def rowInput (args : List (Option ℚ)) : Input ℚ := ⟨(args.take 1), ((args.drop 1).take 1)⟩

/-- `_quantiles_per_key` up to the matrix of boundaries, `analyzers.py:2555-2634`: the combiner
per key, then `_merge_outputs_by_key` (one output). -/
def quantilesPerKey [LinearOrder K] (api : SketchApi S ℚ) (numBuckets : Nat) (epsilon : ℚ)
    (hasWeights : Bool) (r1s : List (KeyRun K (List (Option ℚ)))) (r2 : KeyRun K Nat) :
    Except Err (List K × List (List ℚ)) := do
  let outs ← perKeyAnalysis
    ((combiner api (perKeyParams numBuckets epsilon hasWeights)).onBatches rowInput) r1s r2
  let kc ← mergeOutputsByKey 1 (outs.map (fun ko => (ko.1, [ko.2])))
  .ok (kc.1, kc.2.flatten.map Nd.data)

/-- `bucketize_per_key`, `mappers.py:1980-2057`, for one value and key. -/
def bucketizePerKeyOf [LinearOrder K] (api : SketchApi S ℚ) (numBuckets : Int)
    (epsilon : Option ℚ) (hasWeights : Bool) (r1s : List (KeyRun K (List (Option ℚ))))
    (r2 : KeyRun K Nat) (x : ℚ) (key : K) : Except Err Int :=
  if numBuckets < 1 then .error "Invalid num_buckets"
  else do
    let n := numBuckets.toNat
    let vm ← quantilesPerKey api n (epsilon.getD (defaultEpsilon n)) hasWeights r1s r2
    bucketizePerKey vm.1 vm.2 (n - 1) x key

end TFT.Quantiles
