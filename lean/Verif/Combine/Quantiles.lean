import Verif.Combine.NumPy
import Verif.Mappers.Buckets

/-!
# Quantiles and bucketize

Model of `QuantilesCombiner`, `quantiles` and `bucketize`. The sketch itself is a C++ class of
tfx_bsl, which is not in the repository: it is a parameter here, and what is assumed of it is the
contract `Spec.Contract` in `QuantilesSpec`. Values are in any linear order (floats without NaN);
`none` is NaN. Weights are finite.
-/

namespace TFT.Quantiles

open TFT.Buckets

variable {S α : Type}

/-- The methods of `tfx_bsl.sketches.QuantilesSketch` that `analyzers.py:2424-2459` calls. Methods
that change the sketch return the new one. `getQuantiles` is `GetQuantiles(n).to_pylist()`: a list
with one list per feature. -/
structure SketchApi (S α : Type) where
  new (epsilon : ℚ) (maxNumValues numFeatures : Nat) : S
  addValues : S → List (Option α) → Except Err S
  addWeighted : S → List (Option α) → List (Option ℚ) → Except Err S
  merge : S → S → Except Err S
  compact : S → Except Err S
  getQuantiles : S → Nat → List (List α)

/-- The attributes that `QuantilesCombiner.__init__` sets, `analyzers.py:2401-2422`.
Simplification: the dtype is left out. -/
structure Params where
  numQuantiles : Nat
  epsilon : ℚ
  maxNumValues : Nat
  hasWeights : Bool
  includeMaxAndMin : Bool
  outputShape : List Nat
  numFeatures : Nat

/-- `QuantilesCombiner.__init__`, `analyzers.py:2392-2422`. `feature_shape` is a list or `None`.
Simplification: an `int` as `feature_shape` (lines 2415-2416) is not used by the library. The
number of quantiles is at least one (`bucketize` rejects others, `mappers.py:1944-1945`). -/
def mkParams (numQuantiles : Nat) (epsilon : ℚ) (hasWeights : Bool)
    (outputShape : Option (List Nat)) (includeMaxAndMin : Bool)
    (featureShape : Option (List Nat)) : Params :=
  let numOutputs := if includeMaxAndMin then numQuantiles + 1 else numQuantiles - 1
  let featureShape := featureShape.getD []
  { numQuantiles := numQuantiles
    epsilon := epsilon
    maxNumValues := 2 ^ 32
    hasWeights := hasWeights
    includeMaxAndMin := includeMaxAndMin
    outputShape := outputShape.getD (featureShape ++ [numOutputs])
    numFeatures := featureShape.prod }

/-- What the graph hands to `add_input` for one batch: the values and the weights, both flattened
in row-major order (`np.ravel`, `analyzers.py:2432-2434`). The weights are only read if the
combiner has weights. -/
structure Input (α : Type) where
  values : List (Option α)
  weights : List (Option ℚ)

/-- `QuantilesCombiner.add_input`, `analyzers.py:2429-2438`. -/
def addInput (api : SketchApi S α) (p : Params) (acc : S) (inp : Input α) : Except Err S :=
  if p.hasWeights then api.addWeighted acc inp.values inp.weights
  else api.addValues acc inp.values

/-- The loop of `merge_accumulators`, `analyzers.py:2443-2444`. -/
def mergeInto (api : SketchApi S α) (result : S) : List S → Except Err S
  | [] => .ok result
  | a :: rest => do
    let r ← api.merge result a
    mergeInto api r rest

/-- `QuantilesCombiner.merge_accumulators`, `analyzers.py:2440-2445`. -/
def mergeAccumulators (api : SketchApi S α) : List S → Except Err S
  | [] => .error "StopIteration"
  | a :: rest => mergeInto api a rest

/-- `np.reshape` of row-major data, `analyzers.py:2459`. -/
def reshape (data : List α) (shape : List Nat) : Except Err (Nd α) :=
  if data.length = shape.prod then .ok ⟨shape, data⟩ else .error "cannot reshape array"

/-- `row[1:-1]`, `analyzers.py:2457`. -/
def trim (row : List α) : List α := (row.drop 1).dropLast

/-- `QuantilesCombiner.extract_output`, `analyzers.py:2451-2459`. Simplification: the conversion of
the boundaries to float32 is the identity. -/
def extractOutput [Zero α] (api : SketchApi S α) (p : Params) (acc : S) : Except Err (Nd α) :=
  let result := api.getQuantiles acc p.numQuantiles
  if result.isEmpty then .ok ⟨p.outputShape, List.replicate p.outputShape.prod 0⟩
  else
    let result := if p.includeMaxAndMin then result else result.map trim
    reshape result.flatten p.outputShape

/-- `QuantilesCombiner`, `analyzers.py:2384-2459`. -/
def combiner [Zero α] (api : SketchApi S α) (p : Params) : Combiner S (Input α) (Nd α) where
  create := api.new p.epsilon p.maxNumValues p.numFeatures
  addInput := addInput api p
  merge := mergeAccumulators api
  compact := api.compact
  extract := extractOutput api p

/-- The combiner that `quantiles` builds, `analyzers.py:2532-2550`. `instanceShape` is the static
shape of `x` without the batch dimension. -/
def quantilesParams (numBuckets : Nat) (epsilon : ℚ) (hasWeights reduceInstanceDims : Bool)
    (instanceShape : List Nat) : Params :=
  let featureShape := if reduceInstanceDims then [] else instanceShape
  let outputShape := (if featureShape = [] then [1] else featureShape) ++ [numBuckets - 1]
  mkParams numBuckets epsilon hasWeights (some outputShape) false (some featureShape)

/-- `quantiles`, `analyzers.py:2484-2552`: the boundaries over the whole dataset. -/
def quantiles [Zero α] (api : SketchApi S α) (numBuckets : Nat) (epsilon : ℚ)
    (hasWeights reduceInstanceDims : Bool) (instanceShape : List Nat)
    (s1 : List (Sched (Input α))) (s2 : Sched Nat) : Except Err (Nd α) :=
  analysis (combiner api (quantilesParams numBuckets epsilon hasWeights reduceInstanceDims
    instanceShape)) s1 s2

/-- The default of `epsilon`, `mappers.py:1950-1952`. -/
def defaultEpsilon (numBuckets : Nat) : ℚ := min (1 / numBuckets) (1 / 100)

/-- `tf.reshape(boundaries, [num_features, -1])` as rows, `mappers.py:1967`. -/
def splitRows (cols : Nat) : Nat → List α → List (List α)
  | 0, _ => []
  | k + 1, data => data.take cols :: splitRows cols k (data.drop cols)

/-- `bucketize`, `mappers.py:1889-1975`, up to `apply_buckets`: the checks and the rows of
boundaries. `composite` says that `x` is sparse or ragged. -/
def bucketizeRows [Zero α] (api : SketchApi S α) (composite : Bool) (numBuckets : Int)
    (epsilon : Option ℚ) (hasWeights elementwise : Bool) (instanceShape : List Nat)
    (s1 : List (Sched (Input α))) (s2 : Sched Nat) : Except Err (List (List α)) :=
  if numBuckets < 1 then .error "Invalid num_buckets"
  else if composite && elementwise then
    .error "bucketize requires `x` to be dense if `elementwise=True`"
  else do
    let n := numBuckets.toNat
    let eps := epsilon.getD (defaultEpsilon n)
    let b ← quantiles api n eps hasWeights (!elementwise) instanceShape s1 s2
    if elementwise then .ok (splitRows (n - 1) instanceShape.prod b.data)
    else .ok (splitRows (n - 1) 1 b.data)

/-- `bucketize`, `mappers.py:1962-1975`, for one instance, its values flattened: without
`elementwise` every value is compared with the one row of boundaries (line 1963); with it, value
`idx` is compared with row `idx` (lines 1966-1975; the stack of the columns has the instances as
rows). The second component is the domain published for the output (`mappers.py:2345-2351`): the
domain of a column is attached to the column and not to the stack of the columns. -/
def bucketizeInstance [LinearOrder α] (elementwise : Bool) (rows : List (List α)) (cols : Nat)
    (x : List (Option α)) : List Nat × Option (Int × Int) :=
  if elementwise then (List.zipWith (fun b v => (applyBuckets v [b] cols).bucket) rows x, none)
  else (x.map (fun v => (applyBuckets v rows cols).bucket),
    some ((applyBuckets none rows cols).minValue, (applyBuckets none rows cols).maxValue))

/-- `bucketize`, `mappers.py:1889-1975`: the bucket indices of one instance, and the domain
published for the output. -/
def bucketize [LinearOrder α] [Zero α] (api : SketchApi S α) (composite : Bool) (numBuckets : Int)
    (epsilon : Option ℚ) (hasWeights elementwise : Bool) (instanceShape : List Nat)
    (s1 : List (Sched (Input α))) (s2 : Sched Nat) (x : List (Option α)) :
    Except Err (List Nat × Option (Int × Int)) := do
  let rows ← bucketizeRows api composite numBuckets epsilon hasWeights elementwise instanceShape
    s1 s2
  .ok (bucketizeInstance elementwise rows (numBuckets.toNat - 1) x)

end TFT.Quantiles
