import Verif.Mappers.PerKeyScaling

/-!
# Per-key z-scores of instances of rank two and more

Model of `scale_to_z_score_per_key` without key file for a dense `x` whose instances have rank two or more and that is
not scaled elementwise, the case that `Mappers/PerKeyScaling` leaves out.  The shape of `x` is `n :: d :: rest` with
`rest` not empty.  `reduce_batch_count_mean_and_var_per_key` sums over axis 1 only, so that the statistics of a key are
a tensor of the shape `rest`.
-/

namespace TFT.Scaling

open Buckets (lookupKey)
open Reduce (uniqueWithCounts)

/-- A dense tensor: its shape, and the value at an index. -/
structure Dense (α : Type) where
  shape : List Nat
  at_ : List Nat → α

/-- An index of a tensor of this shape. -/
def InBounds : List Nat → List Nat → Prop
  | [], [] => True
  | d :: ds, i :: is => i < d ∧ InBounds ds is
  | _, _ => False

/-- The position of an index in the flattened tensor. -/
def flatIndex : List Nat → List Nat → Nat
  | _ :: ds, i :: is => i * ds.prod + flatIndex ds is
  | _, _ => 0

/-- The dimension of a result of broadcasting (TensorFlow). -/
def broadcastDim (a b : Nat) : Except Err Nat :=
  if a = b then .ok a
  else if a = 1 then .ok b
  else if b = 1 then .ok a
  else .error "InvalidArgumentError: Incompatible shapes"

/-- The shape of a result of broadcasting, for shapes of one rank. -/
def broadcastDims : List Nat → List Nat → Except Err (List Nat)
  | a :: as, b :: bs => do
    let d ← broadcastDim a b
    let ds ← broadcastDims as bs
    .ok (d :: ds)
  | _, _ => .ok []

/-- Leading dimensions of size one up to rank `r`. -/
def padShape (r : Nat) (shape : List Nat) : List Nat := List.replicate (r - shape.length) 1 ++ shape

/-- The index of a tensor that an index of the result of broadcasting reads: the last dimensions, and the only one in
dimensions of size one. -/
def readIndex (shape idx : List Nat) : List Nat :=
  List.zipWith (fun d i => if d = 1 then 0 else i) shape (idx.drop (idx.length - shape.length))

/-- A function of the values of two tensors, with broadcasting (TensorFlow). -/
def Dense.zip {α β γ : Type} (f : α → β → γ) (a : Dense α) (b : Dense β) : Except Err (Dense γ) := do
  let r := max a.shape.length b.shape.length
  let shape ← broadcastDims (padShape r a.shape) (padShape r b.shape)
  .ok ⟨shape, fun idx => f (a.at_ (readIndex a.shape idx)) (b.at_ (readIndex b.shape idx))⟩

/-- `tf.gather(t, indices, axis=-1)` (TensorFlow). -/
def Dense.gatherLast {α : Type} (t : Dense α) (indices : List Nat) : Except Err (Dense α) :=
  if indices.all (fun i => decide (i < t.shape.getLastD 0)) then
    .ok ⟨t.shape.dropLast ++ [indices.length], fun idx =>
      t.at_ (idx.dropLast ++ [indices.getD (idx.getLastD 0) 0])⟩
  else .error "InvalidArgumentError: indices out of bounds"

/-- `tf.expand_dims(t, -1)`, `count` times. -/
def Dense.expandLast {α : Type} (count : Nat) (t : Dense α) : Dense α :=
  ⟨t.shape ++ List.replicate count 1, fun idx => t.at_ (idx.take t.shape.length)⟩

section perKey

variable {K : Type} [DecidableEq K]

/-- `reduce_batch_count_mean_and_var_per_key`, `tf_utils.py:1745-1804`, followed by `_split_inputs_by_key`, for dense
instances of the shape `d :: rest`, each flattened: the sums over axis 1 leave one number for each index of `rest`. -/
def meanVarBatchHigh (rest : List Nat) (rows : List (List Elem)) (keys : List K) :
    Except Err (List (K × MVAcc)) := do
  let u := uniqueWithCounts keys
  let column := fun (row : List Elem) (j : Nat) =>
    (row.zipIdx.filter (fun v => decide (v.2 % rest.prod = j))).map Prod.fst
  let stats ← segmentReduce (fun vs : List (List Elem) => keyColStats vs.flatten) rest.prod
    (rows.map (fun row => (List.range rest.prod).map (column row))) u.idx u.y.length
  let kvs ← splitInputsByKey ⟨1, u.y⟩ [⟨rest.length + 1, stats⟩]
  .ok (kvs.map (fun kv => (kv.1, kv.2.flatten)))

/-- The statistics of all keys and, for unseen keys, zeros, `tf_utils.py:1724-1728`. -/
def statTensor (rest : List Nat) (stat : List (List Num)) : Dense Num :=
  ⟨(stat.length + 1) :: rest, fun idx =>
    match idx with
    | k :: is => if k < stat.length then (stat.getD k []).getD (flatIndex rest is) none else some 0
    | [] => none⟩

/-- The adjusted indices, `tf_utils.py:1715`, `1730-1735`. -/
def keyIndices (vocab keys : List K) : List Nat :=
  keys.map (fun k => if 0 ≤ lookupKey k vocab then (lookupKey k vocab).toNat else vocab.length)

/-- The number of dimensions that `_align_dims` adds, `tf_utils.py:1664-1685`. It counts the static dimensions of the
gathered statistics: with TF1 behaviour these were traced as vectors (`analyzers.py:1222`), with TF2 behaviour the
results of the analysis are constants. -/
def missingDims (tf1 : Bool) (rest : List Nat) : Nat :=
  if tf1 then rest.length + 2 - 1 else rest.length + 2 - (rest.length + 1)

/-- `map_per_key_reductions`, `tf_utils.py:1688-1742`, for one statistic; the axis is the last one. -/
def mapStatHigh (tf1 : Bool) (rest : List Nat) (vocab : List K) (stat : List (List Num)) (keys : List K) :
    Except Err (Dense Num) :=
  if stat = [] then .error "InvalidArgumentError: slice index 0 of dimension 0 out of bounds"
  else do
    let gathered ← (statTensor rest stat).gatherLast (keyIndices vocab keys)
    .ok (gathered.expandLast (missingDims tf1 rest))

/-- `scale_to_z_score_per_key`, `mappers.py:597-729`, for one batch, from the results of the analysis. -/
noncomputable def zScoreBatchHigh (tf1 : Bool) (rest : List Nat) (stats : KeyStats K Num) (x : Dense (Option ℝ))
    (keys : List K) : Except Err (Dense (Option ℝ)) := do
  let mean ← mapStatHigh tf1 rest stats.keys stats.first keys
  let var ← mapStatHigh tf1 rest stats.keys stats.second keys
  let both ← mean.zip (fun m v => (m, v)) var
  x.zip (fun v s => v.bind (zScore s.1 s.2)) both

end perKey

end TFT.Scaling
