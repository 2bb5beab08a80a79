import Verif.Cache.Coders
import Verif.Combine.NumPy
import Verif.Combine.MeanVar
import Verif.Combine.Covariance

/-!
# The accumulators of combiners in the analyzer cache

Model of `JsonNumpyCacheCoder` and of the way the combiners read what it returns. An accumulator that
was just computed is a list of arrays. One that was read from the cache is whatever `np.array` makes of
nested lists of numbers: an array of numbers, or an array of Python objects. The part of numpy that
matters here is modelled too; it is not code of the repository. Numbers are of a type `R`: the JSON text
of a number is read as the same number (`JsonCodec.law`), and all dtypes hold the same numbers.
-/

namespace TFT.Coders

open TFT

variable {R : Type}

/-- The parts of `data` that belong to the indices `0, …, n - 1` of the first axis of an array, when
every one has `k` entries. -/
def chunks {α : Type} (n k : Nat) (data : List α) : List (List α) :=
  (List.range n).map (fun i : Nat => (data.drop (i * k)).take k)

/-- `ndarray.tolist()`: nested lists, or a number for an array of rank 0, which has one entry. -/
def tolist : List Nat → List R → Json R
  | [], x :: _ => .num x
  | [], [] => .list []
  | n :: sh, data => .list ((chunks n sh.prod data).map (tolist sh))

/-- The shape that numpy gives to a list with elements of the shapes `shapes`. -/
def listShape : List (List Nat) → Except Err (List Nat)
  | [] => .ok [0]
  | s :: ss =>
    if ss.all (fun t => t == s) then .ok ((ss.length + 1) :: s)
    else .error "ValueError: setting an array element with a sequence: inhomogeneous shape"

mutual

/-- The shape of `np.array(value)` for nested lists of numbers. -/
def npShape : Json R → Except Err (List Nat)
  | .num _ => .ok []
  | .list xs => do
    let shapes ← npShapes xs
    listShape shapes

/-- `npShape` of every element. -/
def npShapes : List (Json R) → Except Err (List (List Nat))
  | [] => .ok []
  | x :: xs => do
    let s ← npShape x
    let ss ← npShapes xs
    .ok (s :: ss)

end

mutual

/-- The numbers of nested lists, in order. -/
def numbers : Json R → List R
  | .num x => [x]
  | .list xs => numbersList xs

/-- `numbers` of every element. -/
def numbersList : List (Json R) → List R
  | [] => []
  | x :: xs => numbers x ++ numbersList xs

end

/-- `np.array(value)`, without dtype or with a dtype of numbers. -/
def npArray (j : Json R) : Except Err (Nd R) := do
  let shape ← npShape j
  .ok ⟨shape, numbers j⟩

/-- The dimensions that two arrays have in common, from the first on. -/
def commonPrefix : List Nat → List Nat → List Nat
  | a :: as, b :: bs => if a = b then a :: commonPrefix as bs else []
  | _, _ => []

/-- The dimensions that all elements of a list have in common. -/
def commonShape : List (List Nat) → List Nat
  | [] => []
  | [s] => s
  | s :: ss => commonPrefix s (commonShape ss)

mutual

/-- The shape of `np.array(value, dtype=object)`: as deep as the nested lists are regular. -/
def objectShape : Json R → List Nat
  | .num _ => []
  | .list xs => xs.length :: commonShape (objectShapes xs)

/-- `objectShape` of every element. -/
def objectShapes : List (Json R) → List (List Nat)
  | [] => []
  | x :: xs => objectShape x :: objectShapes xs

end

/-- The Python objects at depth `n` of nested lists. -/
def objectsAt : Nat → Json R → List (Json R)
  | 0, j => [j]
  | n + 1, .list xs => xs.flatMap (objectsAt n)
  | _ + 1, .num x => [.num x]

/-- `np.array(value, dtype=object)`. -/
def npObjectArray (j : Json R) : Nd (Json R) :=
  ⟨objectShape j, objectsAt (objectShape j).length j⟩

/-- What `JsonNumpyCacheCoder.decode_cache` returns. -/
inductive Decoded (R : Type) where
  | array (a : Nd R)
  | objects (a : Nd (Json R))

/-- `JsonNumpyCacheCoder.encode_cache` (analyzer_nodes.py:441-452) for an accumulator that is a list or
a named tuple of arrays. -/
def encodeNumpy (json : JsonCodec R) (acc : List (Nd R)) : Bytes :=
  json.dumps (.list (acc.map (fun a => tolist a.shape a.data)))

/-- `JsonNumpyCacheCoder.decode_cache` (analyzer_nodes.py:454-465). `object` says that the coder was made
with `np_dtype=object`; otherwise it was made without dtype. -/
def decodeNumpy (json : JsonCodec R) (object : Bool) (bs : Bytes) : Except Err (Decoded R) := do
  let j ← json.loads bs
  if object then .ok (.objects (npObjectArray j))
  else
    match npArray j with
    | .ok a => .ok (.array a)
    | .error _ => .ok (.objects (npObjectArray j))

/-- An element of an accumulator, as the combiners get it when they iterate, index or unpack: an array
or a numpy scalar, a Python object, or an array of Python objects. -/
inductive Item (R : Type) where
  | array (a : Nd R)
  | object (j : Json R)
  | objects (a : Nd (Json R))

/-- Iteration over what was decoded. -/
def Decoded.items : Decoded R → Except Err (List (Item R))
  | .array ⟨[], _⟩ => .error "TypeError: iteration over a 0-d array"
  | .array ⟨n :: sh, data⟩ => .ok ((chunks n sh.prod data).map (fun d => .array ⟨sh, d⟩))
  | .objects ⟨[], _⟩ => .error "TypeError: iteration over a 0-d array"
  | .objects ⟨[_], data⟩ => .ok (data.map .object)
  | .objects ⟨n :: m :: sh, data⟩ =>
    .ok ((chunks n (m :: sh).prod data).map (fun d => .objects ⟨m :: sh, d⟩))

/-- A number, if the Python object is one. -/
def Json.number? : Json R → Option R
  | .num x => some x
  | .list _ => none

/-- What numpy's functions compute with when they get an element of an accumulator: arrays as they are,
lists as `np.array` converts them, arrays of objects if the objects are numbers. With other objects numpy
may raise or compute with lists; here this is an error. -/
def Item.asArray : Item R → Except Err (Nd R)
  | .array a => .ok a
  | .object j => npArray j
  | .objects a =>
    match a.data.mapM Json.number? with
    | some xs => .ok ⟨a.shape, xs⟩
    | none => .error "TypeError: an array of lists"

/-- An accumulator as a combiner meets it: just computed, or read from the cache. -/
inductive Accumulator (R : Type) where
  | computed (arrays : List (Nd R))
  | cached (d : Decoded R)

/-- The elements of an accumulator. -/
def Accumulator.items : Accumulator R → Except Err (List (Item R))
  | .computed arrays => .ok (arrays.map .array)
  | .cached d => d.items

/-! ## `NumPyCombiner` -/

/-- `_is_default_sub_accumulator` (analyzers.py:277-287). `nan` says that the default value is NaN: then
the element must have a `shape`. `np.array_equal` is false of what it cannot convert. -/
def isDefaultItem [DecidableEq R] (nan : Bool) (d : R) : Item R → Except Err Bool
  | .array a => .ok (isDefaultSub d a)
  | .object j =>
    if nan then .error "AttributeError: 'list' object has no attribute 'shape'"
    else match npArray j with
      | .ok a => .ok (isDefaultSub d a)
      | .error _ => .ok false
  | .objects a => .ok (decide (a.shape = []) && decide (a.data.mapM Json.number? = some [d]))

/-- `accumulator[0]` is the default (analyzers.py:316-320). -/
def isDefaultItems [DecidableEq R] (nan : Bool) (d : R) : List (Item R) → Except Err Bool
  | [] => .error "IndexError: index 0 is out of bounds"
  | x :: _ => isDefaultItem nan d x

/-- The comprehension at analyzers.py:316-320. -/
def nonDefaults [DecidableEq R] (nan : Bool) (d : R) :
    List (List (Item R)) → Except Err (List (List (Item R)))
  | [] => .ok []
  | acc :: accs => do
    let b ← isDefaultItems nan d acc
    let rest ← nonDefaults nan d accs
    .ok (if b then rest else acc :: rest)

/-- `self._fn(list(sub_accumulators), axis=0)` (analyzers.py:326). -/
def reduceItems (op : R → R → R) (xs : List (Item R)) : Except Err (Nd R) := do
  let arrays ← seqExcept (xs.map Item.asArray)
  Nd.reduce0 op arrays

/-- `NumPyCombiner.merge_accumulators` (analyzers.py:313-330). -/
def npMerge [DecidableEq R] (op : R → R → R) (nan : Bool) (d : R) (shapes : List (Option (List Nat)))
    (accs : List (Accumulator R)) : Except Err (List (Nd R)) := do
  let items ← seqExcept (accs.map Accumulator.items)
  let nonDefault ← nonDefaults nan d items
  if nonDefault.isEmpty then .ok (shapes.map (createSub d))
  else seqExcept ((zipStar nonDefault).map (reduceItems op))

/-- `sub_accumulator.astype(output_dtype)` (analyzers.py:336): lists have no `astype`. -/
def Item.astype (cast : R → R) : Item R → Except Err (Nd R)
  | .array a => .ok ⟨a.shape, a.data.map cast⟩
  | .object _ => .error "AttributeError: 'list' object has no attribute 'astype'"
  | .objects a =>
    match a.data.mapM Json.number? with
    | some xs => .ok ⟨a.shape, xs.map cast⟩
    | none => .error "TypeError: an array of lists"

/-- `NumPyCombiner` in the merge stage (`_CombinerWrapper` with `is_combining_accumulators`,
beam/analyzer_impls.py:961-1002): `add_input` merges. `None` is left out as in
`Combiner.mergeStage`. -/
def npStage [DecidableEq R] (op : R → R → R) (nan : Bool) (d : R) (shapes : List (Option (List Nat)))
    (cast : R → R) : Combiner (Accumulator R) (Option (Accumulator R)) (List (Nd R)) where
  create := .computed (shapes.map (createSub d))
  addInput := fun acc next => do
    let r ← npMerge op nan d shapes (acc :: next.toList)
    .ok (.computed r)
  merge := fun accs => do
    let r ← npMerge op nan d shapes accs
    .ok (.computed r)
  extract := fun acc => do
    let items ← acc.items
    seqExcept (items.map (Item.astype cast))

/-! ## `CovarianceCombiner` -/

/-- The arrays of a covariance accumulator (analyzers.py:2660-2666). -/
def covArrays {d : Nat} (acc : CovAcc d) : List (Nd ℚ) :=
  [⟨[d, d], (List.finRange d).flatMap (fun i => (List.finRange d).map (acc.sumProduct i))⟩,
   ⟨[d], (List.finRange d).map acc.sumVectors⟩, ⟨[], [acc.count]⟩]

/-- `CovarianceCombiner.merge_accumulators` (analyzers.py:2709-2716). -/
def covMergeItems (accs : List (Accumulator ℚ)) : Except Err (List (Nd ℚ)) := do
  let items ← seqExcept (accs.map Accumulator.items)
  match zipStar items with
  | [products, vectors, counts] => do
    let p ← reduceItems (· + ·) products
    let v ← reduceItems (· + ·) vectors
    let c ← reduceItems (· + ·) counts
    .ok [p, v, c]
  | _ => .error "ValueError: not enough values to unpack"

/-- `CovarianceCombiner` in the merge stage. `extract_output` (analyzers.py:2718-2746) unpacks the
accumulator; the arithmetic on its arrays is that of `covExtract`, for the dimension `d` that the
combiner was made for. -/
def covStage (d : Nat) :
    Combiner (Accumulator ℚ) (Option (Accumulator ℚ)) (Fin d → Fin d → ℚ) where
  create := .computed (covArrays (covCreate d))
  addInput := fun acc next => do
    let r ← covMergeItems (acc :: next.toList)
    .ok (.computed r)
  merge := fun accs => do
    let r ← covMergeItems accs
    .ok (.computed r)
  extract := fun acc => do
    let items ← acc.items
    let arrays ← seqExcept (items.map Item.asArray)
    match arrays with
    | [p, v, c] =>
      .ok (covExtract
        { sumProduct := fun i j => p.data.getD (i.val * d + j.val) 0
          sumVectors := fun i => v.data.getD i.val 0
          count := c.data.headD 0 })
    | _ => .error "ValueError: not enough values to unpack"

/-! ## `WeightedMeanAndVarCombiner` -/

/-- `np.pad(a, widths, mode="constant")`, where `widths` are the numbers of zeros after the entries of
every axis. -/
def padData (zero : R) : List Nat → List Nat → List R → List R
  | [], _, data => data
  | _ :: _, [], data => data
  | n :: sh, p :: ps, data =>
    ((chunks n sh.prod data).map (padData zero sh ps)).flatten ++
      List.replicate (p * (List.zipWith (· + ·) sh ps).prod) zero

/-- `np.pad`: the list of widths has one element for every axis, or one for all axes. -/
def npPad (zero : R) (a : Nd R) (widths : List Nat) : Except Err (Nd R) :=
  let ws := if widths.length = 1 then List.replicate a.shape.length (widths.headD 0) else widths
  if ws.length = a.shape.length then
    .ok ⟨List.zipWith (· + ·) a.shape ws, padData zero a.shape ws a.data⟩
  else .error "ValueError: operands could not be broadcast together"

/-- `_pad_arrays_to_match` (analyzers.py:1483-1517). `zip` stops at the smaller rank. -/
def padToMatch (zero : R) (a b : Nd R) : Except Err (Nd R × Nd R) :=
  if a.shape = b.shape then .ok (a, b)
  else
    let deltas := List.zip a.shape b.shape
    let a' := if deltas.isEmpty then .ok a else npPad zero a (deltas.map (fun p => p.2 - p.1))
    let b' := if deltas.isEmpty then .ok b else npPad zero b (deltas.map (fun p => p.1 - p.2))
    do
      let x ← a'
      let y ← b'
      .ok (x, y)

/-- numpy's rule for an axis of `n` and an axis of `m` entries. -/
def broadcastAxis (n m : Nat) : Except Err Nat :=
  if n = m then .ok n else if n = 1 then .ok m else if m = 1 then .ok n
  else .error "ValueError: operands could not be broadcast together"

/-- numpy's broadcasting of two arrays of the same rank, for an operation `op` on entries. -/
def broadcastData (op : R → R → R) : List Nat → List Nat → List R → List R → Except Err (List Nat × List R)
  | [], [], x, y => .ok ([], List.zipWith op x y)
  | n :: s, m :: t, x, y => do
    let k ← broadcastAxis n m
    let xs := if n = 1 then List.replicate k x else chunks n s.prod x
    let ys := if m = 1 then List.replicate k y else chunks m t.prod y
    let shape ← broadcastShape s t
    let parts ← seqExcept (List.zipWith (fun u v => broadcastData op s t u v) xs ys)
    .ok (k :: shape, (parts.map Prod.snd).flatten)
  | _, _, _, _ => .error "not of the same rank"
where
  /-- The shape of the result. -/
  broadcastShape : List Nat → List Nat → Except Err (List Nat)
    | [], [] => .ok []
    | n :: s, m :: t => do
      let rest ← broadcastShape s t
      let k ← broadcastAxis n m
      .ok (k :: rest)
    | _, _ => .error "not of the same rank"

/-- An operation on two arrays. The smaller rank is filled up with dimensions 1. -/
def broadcast (op : R → R → R) (a b : Nd R) : Except Err (Nd R) := do
  let s := List.replicate (b.shape.length - a.shape.length) 1 ++ a.shape
  let t := List.replicate (a.shape.length - b.shape.length) 1 ++ b.shape
  let (shape, data) ← broadcastData op s t a.data b.data
  .ok ⟨shape, data⟩

/-- `_WeightedMeanAndVarAccumulator` (analyzers.py:1251-1256) after `make_nan_to_num`: arrays, except
for the fields that it leaves alone. -/
structure MeanVarTuple where
  count : Nd Num
  mean : Nd Num
  variance : Item Num
  weight : Item Num

/-- The fields in order. -/
def MeanVarTuple.items (t : MeanVarTuple) : List (Item Num) :=
  [.array t.count, .array t.mean, t.variance, t.weight]

/-- `np.nan_to_num(x, copy=True)`. -/
def Item.nanToNum (x : Item Num) : Except Err (Nd Num) := do
  let a ← x.asArray
  .ok ⟨a.shape, a.data.map Num.nanToNum⟩

/-- `np.nan_to_num` of a field that is used, the field itself otherwise (analyzers.py:1269-1273). -/
def Item.nanToNumIf (used : Bool) (x : Item Num) : Except Err (Item Num) :=
  if used then x.nanToNum.map Item.array else .ok x

/-- `make_nan_to_num(*accumulator)` (analyzers.py:1258-1277). -/
def makeNanToNum (cv cw : Bool) : List (Item Num) → Except Err MeanVarTuple
  | [c, m, v, w] => do
    let v' ← v.nanToNumIf cv
    let w' ← w.nanToNumIf cw
    let count ← c.asArray
    let mean ← m.nanToNum
    .ok ⟨count, mean, v', w'⟩
  | _ => .error "TypeError: make_nan_to_num() takes 5 positional arguments"

/-- `np.sum(a.count)`. -/
def total (a : Nd Num) : Num := a.data.foldl Num.add (some 0)

/-- Comparison of floats: false when one is NaN. -/
def numLt : Num → Num → Bool
  | some x, some y => decide (x < y)
  | _, _ => false

/-- `_combine_mean_and_var_accumulators` from analyzers.py:1450 on, for `a.count >= b.count`: the four
fields of the result. -/
def combineTuples (cv cw : Bool) (a b : MeanVarTuple) : Except Err (List (Nd Num)) := do
  let (aCount, bCount) ← padToMatch (some 0) a.count b.count
  let (aMean, bMean) ← padToMatch (some 0) a.mean b.mean
  let combined ← broadcast Num.add aCount bCount
  let share ← broadcast Num.div bCount combined
  let diff ← broadcast Num.sub bMean aMean
  let (weights, mean) ←
    if cw then do
      let aw ← a.weight.asArray
      let bw ← b.weight.asArray
      let (aWeight, bWeight) ← padToMatch (some 0) aw bw
      let dw ← broadcast Num.sub bWeight aWeight
      let sdw ← broadcast Num.mul share dw
      let weights ← broadcast Num.add aWeight sdw
      let num ← broadcast Num.mul bCount bWeight
      let den ← broadcast Num.mul combined weights
      let q ← broadcast Num.div num den
      let step ← broadcast Num.mul q diff
      let mean ← broadcast Num.add aMean step
      pure (weights, mean)
    else do
      let step ← broadcast Num.mul share diff
      let mean ← broadcast Num.add aMean step
      pure (Nd.full combined.shape (some 1), mean)
  let variance ←
    if cv then do
      let av ← a.variance.asArray
      let bv ← b.variance.asArray
      let (aVar, bVar) ← padToMatch (some 0) av bv
      let dv ← broadcast Num.sub bVar aVar
      let dm ← broadcast Num.sub bMean mean
      let dd ← broadcast Num.mul dm diff
      let inner ← broadcast Num.add dv dd
      let step ← broadcast Num.mul share inner
      broadcast Num.add aVar step
    else pure (Nd.full mean.shape (some 0))
  pure [combined, mean, variance, weights]

/-- `_combine_mean_and_var_accumulators` (analyzers.py:1417-1479). -/
def combineItems (cv cw : Bool) (a b : List (Item Num)) : Except Err (List (Item Num)) := do
  let a ← makeNanToNum cv cw a
  let b ← makeNanToNum cv cw b
  let (a, b) := if numLt (total a.count) (total b.count) then (b, a) else (a, b)
  if total a.count = some 0 then .ok b.items
  else do
    let r ← combineTuples cv cw a b
    .ok (r.map .array)

/-- An accumulator of `WeightedMeanAndVarCombiner`: a named tuple, or what the coder returned. -/
inductive MeanVarAccumulator where
  | tuple (items : List (Item Num))
  | cached (d : Decoded Num)

/-- Unpacking an accumulator (`*a`). -/
def MeanVarAccumulator.items : MeanVarAccumulator → Except Err (List (Item Num))
  | .tuple items => .ok items
  | .cached d => d.items

/-- `_combine_mean_and_var_accumulators` of two accumulators. -/
def combineAccumulators (cv cw : Bool) (a b : MeanVarAccumulator) :
    Except Err MeanVarAccumulator := do
  let x ← a.items
  let y ← b.items
  let r ← combineItems cv cw x y
  .ok (.tuple r)

/-- `merge_accumulators` (analyzers.py:1348-1365): a single accumulator is returned as it is. -/
def mergeMeanVar (cv cw : Bool) : List MeanVarAccumulator → Except Err MeanVarAccumulator
  | [] => .error "StopIteration"
  | a :: rest => rest.foldlM (combineAccumulators cv cw) a

/-- `create_accumulator` (analyzers.py:1315-1327) for `output_shape`, where `None` is an unknown
dimension. -/
def createMeanVar (outputShape : List (Option Nat)) : List (Item Num) :=
  let shape := outputShape.map (fun dim => dim.getD 0)
  [.array ⟨[], [some 0]⟩, .array (Nd.full shape (some 0)), .array (Nd.full shape (some 0)),
   .array ⟨[], [some 0]⟩]

/-- `extract_output` (analyzers.py:1367-1391): the mean and the variance, or all fields. An `ndarray` has
no fields: its `mean` is a method. -/
def extractMeanVar (cv cw : Bool) : MeanVarAccumulator → Except Err (List (Nd Num))
  | .cached _ => .error "TypeError: float() argument must be a number, not a method"
  | .tuple items =>
    match items with
    | [c, m, v, w] =>
      if cv && !cw then seqExcept ([m, v].map Item.asArray)
      else seqExcept ([c, m, v, w].map Item.asArray)
    | _ => .error "TypeError: _WeightedMeanAndVarAccumulator has four fields"

/-- `WeightedMeanAndVarCombiner` (analyzers.py:1280-1391). An input is a
`_WeightedMeanAndVarAccumulator` of the arrays of a batch. -/
def meanVarArrays (cv cw : Bool) (outputShape : List (Option Nat)) :
    Combiner MeanVarAccumulator (List (Nd Num)) (List (Nd Num)) where
  create := .tuple (createMeanVar outputShape)
  addInput := fun acc batch => combineAccumulators cv cw acc (.tuple (batch.map .array))
  merge := mergeMeanVar cv cw
  extract := extractMeanVar cv cw

/-- `WeightedMeanAndVarCombiner` in the merge stage. -/
def meanVarStage (cv cw : Bool) (outputShape : List (Option Nat)) :
    Combiner MeanVarAccumulator (Option MeanVarAccumulator) (List (Nd Num)) :=
  (meanVarArrays cv cw outputShape).mergeStage

end TFT.Coders
