import Verif.Mappers.PerKeyScaling

/-!
# Scaling without keys, from the tensors to the scaled tensors

Model of the whole of `scale_by_min_max`, `scale_to_0_1` and `scale_to_z_score` (without key) on
dense, sparse and ragged tensors, elementwise or not. Arithmetic is exact.
-/

namespace TFT.Scaling

variable {α β γ : Type}

/-- The kind of a tensor, known when the preprocessing function is traced. -/
inductive Layout
  | dense
  | sparse
  | ragged
deriving DecidableEq

/-- The kind of a tensor. -/
def Col.layout : Col α → Layout
  | .dense _ _ => .dense
  | .sparse _ _ => .sparse
  | .ragged _ _ => .ragged

/-- The number of an index in row-major order (TensorFlow). -/
def flatPos : List Nat → List Nat → Nat
  | _ :: shape, i :: idx => i * shape.prod + flatPos shape idx
  | _, _ => 0

/-- `get_values`, `tf_utils.py:94-101`: a dense tensor itself, given by its instances, or the values
of a composite one. -/
def Col.valueRows : Col α → List (List α)
  | .dense _ rows => rows
  | .sparse _ entries => [entries.map Prod.snd]
  | .ragged _ values => [values]

/-- The shape of the statistics of one batch: a scalar, or without the batch dimension. -/
def Col.batchShape (reduce : Bool) : Col α → List Nat
  | .dense shape _ => statShape reduce shape
  | .sparse shape _ => statShape reduce shape.tail
  | .ragged _ _ => []

/-- The values that each statistic of a batch is about: with `reduce_instance_dims` all values
(`tf_utils.py:1999-2007`, `1153-1166`), otherwise those at each position of an instance (`axis=0`;
`tf.sparse.reduce_*` uses those that are there). Elementwise statistics of ragged tensors are
refused before they are reached. -/
def Col.columns (reduce : Bool) (x : Col α) : ColBatch α :=
  if reduce then [x.valueRows.flatten]
  else match x with
    | .dense shape rows => (List.range shape.prod).map (fun j : Nat => rows.filterMap (fun r => r[j]?))
    | .sparse shape entries => (List.range shape.tail.prod).map (fun j : Nat =>
        (entries.filter (fun e => decide (flatPos shape.tail e.1.tail = j))).map Prod.snd)
    | .ragged _ _ => []

/-- `_min_and_max`, `analyzers.py:504-562`, on the tensors of the batches. `emb` puts a finite value
into the type of the reduction. `known`: the shape of an instance, if it is statically known
(`analyzers.py:350-360`, `417-430`). -/
def minMaxOn [LinearOrder α] (T : NumType α) (emb : ℚ → α) (reduce : Bool)
    (known : Option (List Nat)) : Combiner (List (Nd α)) (Col ℚ) (List (Nd α)) :=
  let sh := if reduce then some [] else known
  let c := (npCombiner max T.default [sh, sh] id).onBatches (fun x : Col ℚ =>
    minusMinAndMax T (x.batchShape reduce) ((x.columns reduce).map (List.map emb)))
  { c with
    extract := fun acc => do
      match ← c.extract acc with
      | [mm, mx] => .ok [⟨mm.shape, mm.data.map (fun v => T.cast (T.neg v))⟩,
                         ⟨mx.shape, mx.data.map T.cast⟩]
      | _ => .error "not enough values to unpack" }

/-- A finite value as a float. -/
def finiteFloat (q : ℚ) : EFloat := ((q : WithTop ℚ) : WithBot (WithTop ℚ))

/-- The two statistics of every position in one array. -/
def pairStats (conv : α → β) : List (Nd α) → Except Err (Nd (β × β))
  | [a, b] => .ok ⟨a.shape, (a.data.map conv).zip (b.data.map conv)⟩
  | _ => .error "not enough values to unpack"

/-- `_min_and_max` in `_scale_by_min_max_internal`, `mappers.py:387-391`, with the choice of the
combiner (`analyzers.py:532-549`). The statistics are NaN (`none`) where `np.nanmax` found nothing. -/
def minMaxOfTensors (layout : Layout) (reduce : Bool) (known : Option (List Nat))
    (s1 : List (Sched (Col ℚ))) (s2 : Sched Nat) :
    Except Err (Nd (Option EFloat × Option EFloat)) :=
  if !reduce && decide (layout = .sparse) then do
    pairStats (fun v : WithBot ℚ => v.map finiteFloat)
      (← analysis (minMaxOn sparseFloatType (fun q => (q : WithBot ℚ)) reduce known) s1 s2)
  else if !reduce && decide (layout = .ragged) then
    .error "NotImplementedError: Elementwise min_and_max does not support RaggedTensors."
  else do
    pairStats some (← analysis (minMaxOn floatType finiteFloat reduce known) s1 s2)

/-- `tf.broadcast_to(s, target)` (TensorFlow): whether the shapes fit. -/
def canBroadcast (shape target : List Nat) : Bool :=
  decide (shape.length ≤ target.length) &&
    (shape.zip (target.drop (target.length - shape.length))).all
      (fun d => decide (d.1 = d.2) || decide (d.1 = 1))

/-- `tf.gather_nd(tf.broadcast_to(s, target), [idx])` (TensorFlow), for shapes that fit. -/
def gatherBroadcast (s : Nd α) (target idx : List Nat) : Except Err α :=
  if ¬ (idx.length = target.length ∧ (idx.zip target).all (fun d => decide (d.1 < d.2))) then
    .error "InvalidArgumentError: indices do not index into param shape"
  else
    match s.data[flatPos s.shape (List.zipWith (fun d i => if d = 1 then 0 else i) s.shape
        (idx.drop (target.length - s.shape.length)))]? with
    | some v => .ok v
    | none => .error "InvalidArgumentError: indices do not index into param shape"

/-- A scalar statistic. -/
def scalarOf (s : Nd α) : Except Err α :=
  match s.data with
  | [v] => .ok v
  | _ => .error "InvalidArgumentError: Incompatible shapes"

/-- The statistic of every value of `x`, `mappers.py:421-435`, `705-714`, and the broadcasting of the
arithmetic with dense tensors. Simplification: other shapes that TensorFlow broadcasts in the arithmetic
with a dense tensor are an error. -/
def statFor (reduce : Bool) (s : Nd α) (x : Col β) : Except Err (List (List α)) :=
  match x with
  | .dense shape rows =>
    if s.shape = [] then do
      let v ← scalarOf s
      .ok (rows.map (fun r => r.map (fun _ => v)))
    else if s.shape = shape then .ok (rows.map (fun _ => s.data))
    else .error "InvalidArgumentError: Incompatible shapes"
  | .sparse shape entries =>
    if reduce then do
      let v ← scalarOf s
      .ok [entries.map (fun _ => v)]
    else if canBroadcast s.shape shape then do
      let vs ← seqExcept (entries.map (fun e => gatherBroadcast s shape e.1))
      .ok [vs]
    else .error "InvalidArgumentError: Incompatible shapes"
  | .ragged _ values =>
    if reduce then do
      let v ← scalarOf s
      .ok [values.map (fun _ => v)]
    else .error "NotImplementedError: does not support RaggedTensors."

/-- Applies `f` to every value and its statistic, and puts the results into the layout of `x`. -/
def withStats (reduce : Bool) (f : α → β → Except Err γ) (s : Nd α) (x : Col β) :
    Except Err (Col γ) := do
  let stats ← statFor reduce s x
  let rows ← seqExcept (List.zipWith (fun row st =>
    seqExcept (List.zipWith (fun v p => f p v) row st)) x.valueRows stats)
  .ok (x.withRows rows)

/-- The scaling of one value, `mappers.py:445-454`. A comparison with NaN is false, like that of
`+inf < -inf`. -/
noncomputable def scaleValue (outputMin outputMax : ℝ) (p : Option EFloat × Option EFloat) (x : ℝ) :
    Except Err ℝ :=
  match p with
  | (some mn, some mx) => scaleByMinMax outputMin outputMax mn mx x
  | _ => scaleByMinMax outputMin outputMax ⊤ ⊥ x

/-- `scale_by_min_max`, `mappers.py:257-292`, `375-455`, for one batch, from the results of the
analysis. -/
noncomputable def scaleTensor (outputMin outputMax : ℝ) (reduce : Bool)
    (s : Nd (Option EFloat × Option EFloat)) (x : Col ℝ) : Except Err (Col ℝ) :=
  if outputMin ≥ outputMax then .error "ValueError: output_min must be less than output_max"
  else withStats reduce (scaleValue outputMin outputMax) s x

/-- `scale_to_0_1`, `mappers.py:458-486`. -/
noncomputable def scaleTensor01 (reduce : Bool) (s : Nd (Option EFloat × Option EFloat))
    (x : Col ℝ) : Except Err (Col ℝ) := scaleTensor 0 1 reduce s x

/-- `_mean_and_var`, `analyzers.py:960-999`, on the tensors of the batches: the shape of the
results is that of an instance if it is known, and a vector otherwise (unknown dimensions of tensors
with more dimensions are not modelled). `none` is NaN. -/
def meanVarOfTensors (layout : Layout) (reduce : Bool) (known : Option (List Nat))
    (s1 : List (Sched (Col Elem))) (s2 : Sched Nat) : Except Err (Nd (Num × Num)) :=
  if !reduce && decide (layout = .ragged) then
    .error "NotImplementedError: Elementwise mean_and_var does not support RaggedTensors."
  else do
    let stats := if !reduce && decide (layout = .sparse) then sparseStats else denseStats
    let sh := if reduce then some [] else known
    let cols := match sh with
      | some shape => shape.prod
      | none => 0
    match ← analysis ((meanVarAnalyzer stats cols).onBatches (Col.columns reduce)) s1 s2 with
    | .meanVar m v => .ok ⟨sh.getD [m.length], m.zip v⟩
    | .full _ => .error "not enough values to unpack"

/-- The z-score of one value, `mappers.py:716-728`; a NaN stays NaN. -/
noncomputable def zScoreOf (p : Num × Num) (v : Option ℝ) : Except Err (Option ℝ) :=
  .ok (v.bind (zScore p.1 p.2))

/-- `scale_to_z_score`, `mappers.py:553-593`, `663-729`, for one batch, from the results of the
analysis. -/
noncomputable def zScoreTensor (reduce : Bool) (s : Nd (Num × Num)) (x : Col (Option ℝ)) :
    Except Err (Col (Option ℝ)) := withStats reduce zScoreOf s x

end TFT.Scaling
