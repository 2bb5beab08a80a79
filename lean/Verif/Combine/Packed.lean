import Verif.Combine.Py

/-!
# Packed combines

`_PackedCombinerWrapper` runs several combiners side by side. The Python values that flow through
different combiners have different types; here they share one type of accumulators `Acc`, one of
input components `Val` and one of outputs `Out` (any types, for example sums of the real ones).
-/

namespace TFT

/-- A Python dict built by a comprehension or by insertions in this order (for a repeated key the
last entry counts). -/
abbrev Dict (β : Type) := List (String × β)

/-- `d[key]`; a missing key is a `KeyError`. -/
def dictGet {β : Type} (d : Dict β) (key : String) : Except Err β :=
  match d.reverse.lookup key with
  | some v => .ok v
  | none => .error "KeyError"

/-- `_CombinerOpWrapper`, `beam/combiner_packing_util.py:46-50`. -/
structure PackedOp (Acc Val Out : Type) where
  combiner : Combiner Acc (List Val) Out
  keys : List String
  label : String

/-- `beam.combiners.TupleCombineFn` without `add_input` and `extract_output`: its
`merge_accumulators` is `[c.merge_accumulators(a) for c, a in zip(cs, zip(*accumulators))]`, its
`compact` is componentwise (Beam, not code of the repository). -/
def tupleMerge {Acc : Type} (merges : List (List Acc → Except Err Acc)) (accs : List (List Acc)) :
    Except Err (List Acc) :=
  seqExcept (List.zipWith (fun f col => f col) merges (zipStar accs))

/-- Componentwise `compact` of `TupleCombineFn`. -/
def tupleCompact {Acc : Type} (compacts : List (Acc → Except Err Acc)) (acc : List Acc) :
    Except Err (List Acc) :=
  seqExcept (List.zipWith (fun f a => f a) compacts acc)

/-- `tuple(element[key] for key in keys)`, `beam/analyzer_impls.py:1056` (packed) and
`beam/impl.py:897-902` (`ExtractFromDict`, not packed). -/
def extractKeys {Val : Type} (keys : List String) (element : Dict Val) : Except Err (List Val) :=
  seqExcept (keys.map (dictGet element))

/-- An analyzer on its own: `ExtractFromDict` (`beam/impl.py:887-910`) in front of its combiner. -/
def PackedOp.alone {Acc Val Out : Type} (o : PackedOp Acc Val Out) :
    Combiner Acc (Dict Val) Out where
  create := o.combiner.create
  addInput := fun a element => do
    let input ← extractKeys o.keys element
    o.combiner.addInput a input
  merge := o.combiner.merge
  compact := o.combiner.compact
  extract := o.combiner.extract

/-- `_PackedCombinerWrapper` with `is_combining_accumulators=False`,
`beam/analyzer_impls.py:1007-1064`: `add_input` 1053-1057, `extract_output` 1059-1064. -/
def packedAccumulate {Acc Val Out : Type} (ops : List (PackedOp Acc Val Out)) :
    Combiner (List Acc) (Dict Val) (Dict Acc) where
  create := ops.map (fun o => o.combiner.accumulateStage.create)
  addInput := fun acc element => do
    let inputs ← seqExcept (ops.map (fun o => extractKeys o.keys element))
    seqExcept (List.zipWith (fun f i => f i)
      (List.zipWith (fun o a => o.combiner.accumulateStage.addInput a) ops acc) inputs)
  merge := tupleMerge (ops.map (fun o => o.combiner.accumulateStage.merge))
  compact := tupleCompact (ops.map (fun o => o.combiner.accumulateStage.compact))
  extract := fun acc => do
    let outs ← seqExcept (List.zipWith (fun o a => o.combiner.accumulateStage.extract a) ops acc)
    .ok ((ops.map PackedOp.label).zip outs)

/-- `_combiner_label_to_index`, `beam/analyzer_impls.py:1038-1040`. Lines 1036-1037 assert that every
operation has one key; `beam/combiner_packing_util.py:238-242` makes that key its label. -/
def labelToIndex {Acc Val Out : Type} (ops : List (PackedOp Acc Val Out)) : Dict Nat :=
  (ops.map PackedOp.label).zip (List.range ops.length)

/-- `_PackedCombinerWrapper` with `is_combining_accumulators=True`,
`beam/analyzer_impls.py:1007-1064`: `add_input` 1046-1052. -/
def packedMerge {Acc Val Out : Type} (ops : List (PackedOp Acc Val Out)) :
    Combiner (List Acc) (String × Option Acc) (Dict Out) where
  create := ops.map (fun o => o.combiner.mergeStage.create)
  addInput := fun acc (key, value) => do
    let index ← dictGet (labelToIndex ops) key
    match ops[index]?, acc[index]? with
    | some o, some a => do
        let a' ← o.combiner.mergeStage.addInput a value
        .ok (acc.set index a')
    | _, _ => .error "IndexError"
  merge := tupleMerge (ops.map (fun o => o.combiner.mergeStage.merge))
  compact := tupleCompact (ops.map (fun o => o.combiner.mergeStage.compact))
  extract := fun acc => do
    let outs ← seqExcept (List.zipWith (fun o a => o.combiner.mergeStage.extract a) ops acc)
    .ok ((ops.map PackedOp.label).zip outs)

/-- The packed analysis, `beam/combiner_packing_util.py:120-348`: per dataset one packed accumulate
combine whose output dict is taken apart by `ExtractFromDict` (193-199); each accumulator gets its
label as key (`AddKey` 323-328); all keyed accumulators of all datasets are flattened (335-337) into
one packed merge combine (341-346). `stage2` is a schedule over pairs (dataset number, label). -/
def packedAnalysis {Acc Val Out : Type} (ops : List (PackedOp Acc Val Out))
    (stage1 : List (Sched (Dict Val))) (stage2 : Sched (Nat × String)) : Except Err (Dict Out) := do
  let accs ← Sched.runList (packedAccumulate ops) stage1
  let dicts ← seqExcept (accs.map (packedAccumulate ops).extract)
  let final ← (stage2.map (fun (d, l) =>
    (l, (dicts[d]?).bind (fun dict => (dictGet dict l).toOption)))).run (packedMerge ops)
  (packedMerge ops).extract final

namespace Sched
mutual
/-- The same tree of calls with some inputs left out. -/
def filterMap {In In' : Type} (f : In → Option In') : Sched In → Sched In'
  | .create => .create
  | .add s b =>
    match f b with
    | some y => .add (filterMap f s) y
    | none => filterMap f s
  | .merge ss => .merge (filterMapList f ss)
  | .compact s => .compact (filterMap f s)
/-- `filterMap` for lists of schedules. -/
def filterMapList {In In' : Type} (f : In → Option In') : List (Sched In) → List (Sched In')
  | [] => []
  | s :: ss => filterMap f s :: filterMapList f ss
end
end Sched

end TFT
