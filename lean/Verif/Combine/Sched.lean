/-!
# Combiners and the schedules a Beam runner may use

Model of `analyzer_nodes.Combiner` and of `_CombinerWrapper`, and the set of all
ways in which a runner may drive them.
-/

namespace TFT

/-- A Python exception, by its message. -/
abbrev Err := String

/-- `analyzer_nodes.py:342-402` (`class Combiner`).
The five methods as pure functions; an exception is `Except.error`.
`compact` defaults to the identity as in lines 383-392.  In-place mutation of
accumulators is modelled by returning the new value. -/
structure Combiner (Acc In Out : Type) where
  create : Acc
  addInput : Acc → In → Except Err Acc
  merge : List Acc → Except Err Acc
  compact : Acc → Except Err Acc := fun a => .ok a
  extract : Acc → Except Err Out

/-- One run of a `beam.CombineFn` up to (not including) `extract_output`: a tree of
the calls `create_accumulator`, `add_input`, `merge_accumulators`, `compact`.
Not code of the repository: this is Beam's contract (any tree is allowed, each
accumulator is used once). -/
inductive Sched (In : Type) where
  | create : Sched In
  | add (s : Sched In) (b : In) : Sched In
  | merge (ss : List (Sched In)) : Sched In
  | compact (s : Sched In) : Sched In

namespace Sched

variable {In Acc Out : Type}

/-- Induction over schedules, with a hypothesis for every merged sub-schedule. -/
theorem ind {P : Sched In → Prop} (h0 : P .create)
    (h1 : ∀ s b, P s → P (.add s b))
    (h2 : ∀ ss, (∀ s ∈ ss, P s) → P (.merge ss))
    (h3 : ∀ s, P s → P (.compact s)) : ∀ s, P s :=
  fun s => Sched.rec (motive_1 := P) (motive_2 := fun ss => ∀ s ∈ ss, P s)
    h0 h1 h2 h3 (by simp) (by
      intro s ss hs hss t ht
      rcases List.mem_cons.1 ht with rfl | ht
      · exact hs
      · exact hss t ht) s

mutual
/-- The inputs that the schedule feeds in, in the order of the tree. -/
def inputs : Sched In → List In
  | .create => []
  | .add s b => inputs s ++ [b]
  | .merge ss => inputsList ss
  | .compact s => inputs s
/-- The inputs of a list of schedules. -/
def inputsList : List (Sched In) → List In
  | [] => []
  | s :: ss => inputs s ++ inputsList ss
end

theorem inputsList_eq (ss : List (Sched In)) :
    inputsList ss = (ss.map inputs).flatten := by
  induction ss with
  | nil => simp [inputsList]
  | cons s ss ih => simp [inputsList, ih]

mutual
/-- Runs the calls of a schedule on a combiner. The first exception wins. -/
def run (c : Combiner Acc In Out) : Sched In → Except Err Acc
  | .create => .ok c.create
  | .add s b => do
      let a ← run c s
      c.addInput a b
  | .merge ss => do
      let as ← runList c ss
      c.merge as
  | .compact s => do
      let a ← run c s
      c.compact a
/-- Runs a list of schedules. -/
def runList (c : Combiner Acc In Out) : List (Sched In) → Except Err (List Acc)
  | [] => .ok []
  | s :: ss => do
      let a ← run c s
      let as ← runList c ss
      .ok (a :: as)
end

/-- A schedule that never calls `merge_accumulators` on an empty list. Beam only
merges accumulators that exist. -/
inductive MergesSome : Sched In → Prop where
  | create : MergesSome .create
  | add {s b} : MergesSome s → MergesSome (.add s b)
  | merge {ss} : ss ≠ [] → (∀ s ∈ ss, MergesSome s) → MergesSome (.merge ss)
  | compact {s} : MergesSome s → MergesSome (.compact s)

end Sched

/-- `beam/analyzer_impls.py:961-1002` with `is_combining_accumulators=False`: the
accumulate stage. Its output is the accumulator. -/
def Combiner.accumulateStage {Acc In Out : Type} (c : Combiner Acc In Out) :
    Combiner Acc In Acc where
  create := c.create
  addInput := c.addInput
  merge := c.merge
  compact := c.compact
  extract := fun a => .ok a

/-- `beam/analyzer_impls.py:961-1002` with `is_combining_accumulators=True`: the merge
stage. Inputs are accumulators (`none` is Python's `None`, lines 984-990).
Simplification: the running accumulator itself is never `None` here, because
`create_accumulator` of the modelled combiners does not return `None`. -/
def Combiner.mergeStage {Acc In Out : Type} (c : Combiner Acc In Out) :
    Combiner Acc (Option Acc) Out where
  create := c.create
  addInput := fun acc next =>
    match next with
    | none => c.merge [acc]
    | some x => c.merge [acc, x]
  merge := c.merge
  compact := c.compact
  extract := c.extract

/-- A combiner fed with batches: the TensorFlow graph computes `f batch` for every batch
before the combiner's `add_input` sees it (`analyzers.py:125-160`,
`apply_cacheable_combine_operation` is applied to the tensors of the batch reduction). -/
def Combiner.onBatches {Acc In Out B : Type} (c : Combiner Acc In Out) (f : B → In) :
    Combiner Acc B Out where
  create := c.create
  addInput := fun a b => c.addInput a (f b)
  merge := c.merge
  compact := c.compact
  extract := c.extract

namespace Sched
mutual
/-- Renames the inputs of a schedule (same tree of calls). -/
def map {In In' : Type} (f : In → In') : Sched In → Sched In'
  | .create => .create
  | .add s b => .add (map f s) (f b)
  | .merge ss => .merge (mapList f ss)
  | .compact s => .compact (map f s)
/-- `map` for lists of schedules. -/
def mapList {In In' : Type} (f : In → In') : List (Sched In) → List (Sched In')
  | [] => []
  | s :: ss => map f s :: mapList f ss
end
end Sched

/-- A whole analysis of one analyzer, `beam/analyzer_impls.py:1342-1371`
(`_InitialAccumulateCombineImpl` per dataset, then `_MergeAccumulatorsCombineImpl`).
`stage1` has one schedule per dataset; `stage2` is a schedule over dataset numbers: it
says in which order and by which tree the datasets' accumulators are combined. -/
def analysis {Acc In Out : Type} (c : Combiner Acc In Out)
    (stage1 : List (Sched In)) (stage2 : Sched Nat) : Except Err Out := do
  let accs ← Sched.runList c.accumulateStage stage1
  let final ← (stage2.map (fun i => accs[i]?)).run c.mergeStage
  c.extract final

/-- The runs that Beam may make: every dataset's accumulator is used exactly once in
the merge stage, and nobody merges an empty list of accumulators. The merge stage may also get any
number of `None`s (numbers that are not those of a dataset). -/
structure ValidRun {In : Type} (stage1 : List (Sched In)) (stage2 : Sched Nat) : Prop where
  merges1 : ∀ s ∈ stage1, s.MergesSome
  merges2 : stage2.MergesSome
  once : (stage2.inputs.filter (fun i => decide (i < stage1.length))).Perm (List.range stage1.length)

/-- All inputs fed in the first stage. -/
def allInputs {In : Type} (stage1 : List (Sched In)) : List In :=
  (stage1.map Sched.inputs).flatten

end TFT
