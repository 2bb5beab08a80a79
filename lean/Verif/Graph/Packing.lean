import Verif.Combine.Sched

/-!
# Combiner packing

Model of `beam/combiner_packing_util.py`. It works on the graph of operations made by the cache
optimization (`Graph/Optimize`). The nodes of such graphs are immutable and their inputs exist
before them, so a value node is a tree here. Nodes that are shared in the code are repeated; two
operations with the same definition and the same inputs are one operation. (The code would fail on
two such operations, because their labels are equal.)
-/

namespace TFT.Graph.Packing

/-- `ExtractFromDict.keys`, `beam/beam_nodes.py:183-204`: a tuple of keys or one key. -/
inductive Keys where
  | tuple (ks : List String)
  | single (k : String)
  deriving DecidableEq

/-- `_CombinerOpWrapper`, `beam/combiner_packing_util.py:46-50`. -/
structure Wrapper (C : Type) where
  combiner : C
  keys : Keys
  label : String
  deriving DecidableEq

/-- The classes of operations that the visitors tell apart. `extractOutputs` is
`ExtractCombineMergeOutputs` and `extractPackedOutputs` is `ExtractPackedCombineMergeOutputs`, both
with the number of tensor infos. `other` is any other class, with its number of outputs. -/
inductive Kind (C : Type) where
  | applySavedModel
  | extractFromDict (keys : Keys)
  | accumulate (c : C)
  | merge (c : C)
  | extractOutputs (n : Nat)
  | flatten
  | decodeCache
  | createTensorBinding
  | createSavedModel
  | packedAccumulate (ws : List (Wrapper C))
  | packedMerge (ws : List (Wrapper C))
  | addKey (key : String)
  | extractPackedOutputs (n : Nat)
  | other (n : Nat)
  deriving DecidableEq

/-- An `OperationDef`. -/
structure Def (C : Type) where
  label : String
  kind : Kind C
  deriving DecidableEq

/-- `num_outputs`. -/
def Def.numOutputs {C : Type} (d : Def C) : Nat :=
  match d.kind with
  | .extractOutputs n => n
  | .extractPackedOutputs n => n
  | .other n => n
  | _ => 1

/-- A `ValueNode`: output `index` of `OperationNode(operation_def, ins)`, `nodes.py:89-161`. -/
inductive Node (C : Type) where
  | mk (d : Def C) (ins : List (Node C)) (index : Nat)

/-- An `OperationNode`. -/
abbrev Oper (C : Type) := Def C × List (Node C)

variable {C : Type}

/-- `value.parent_operation.operation_def`. -/
def Node.d : Node C → Def C
  | .mk d _ _ => d

/-- `value.parent_operation.inputs`. -/
def Node.ins : Node C → List (Node C)
  | .mk _ ins _ => ins

/-- `value.value_index`. -/
def Node.index : Node C → Nat
  | .mk _ _ i => i

/-- `value.parent_operation`. -/
def Node.oper (n : Node C) : Oper C := (n.d, n.ins)

mutual
/-- Equality of nodes. -/
def Node.decEq [DecidableEq C] : (a b : Node C) → Decidable (a = b)
  | .mk d1 i1 n1, .mk d2 i2 n2 =>
    if h1 : d1 = d2 then
      if h3 : n1 = n2 then
        match decEqList i1 i2 with
        | .isTrue h2 => .isTrue (by rw [h1, h2, h3])
        | .isFalse h2 => .isFalse (fun h => h2 (by cases h; rfl))
      else .isFalse (fun h => h3 (by cases h; rfl))
    else .isFalse (fun h => h1 (by cases h; rfl))

@[inherit_doc Node.decEq]
def decEqList [DecidableEq C] : (a b : List (Node C)) → Decidable (a = b)
  | [], [] => .isTrue rfl
  | [], _ :: _ => .isFalse (fun h => by cases h)
  | _ :: _, [] => .isFalse (fun h => by cases h)
  | a :: as, b :: bs =>
    match a.decEq b with
    | .isTrue h1 =>
      match decEqList as bs with
      | .isTrue h2 => .isTrue (by rw [h1, h2])
      | .isFalse h2 => .isFalse (fun h => h2 (by cases h; rfl))
    | .isFalse h1 => .isFalse (fun h => h1 (by cases h; rfl))
end

instance [DecidableEq C] : DecidableEq (Node C) := Node.decEq

/-- `OperationNode(operation_def, ins).outputs`, `nodes.py:155-161`. -/
def outputs (d : Def C) (ins : List (Node C)) : List (Node C) :=
  (List.range d.numOutputs).map (fun i : Nat => Node.mk d ins i)

/-- `nodes.apply_operation`, `nodes.py:164-181`, for an operation with one output. -/
def apply (d : Def C) (ins : List (Node C)) : Node C := .mk d ins 0

/-! ### Traversal -/

/-- A visitor with a state, as `visit` of the classes below. -/
abbrev Step (C σ : Type) := σ → Def C → List (Node C) → Except Err (σ × List (Node C))

/-- The state of a `Traverser` and its visitor: `_cached_value_nodes_values` (`nodes.py:237-246`),
`_visited_operation_def_labels` (`beam/combiner_packing_util.py:53-64`) and the visitor's own. -/
structure Trav (C σ : Type) where
  cache : List (Oper C × List (Node C))
  labels : List String
  state : σ

/-- Output `i` of an operation with the given outputs. -/
def pick {α : Type} (outs : List α) (i : Nat) : Except Err α :=
  match outs[i]? with
  | some x => .ok x
  | none => .error "ValueError: value_index out of range"

/-- `visitor.visit` with `validate_operation_def` first (`beam/combiner_packing_util.py:59-61`), the
check of the number of outputs, and storing them (`nodes.py:299-328`). -/
def visitOper [DecidableEq C] {σ : Type} (step : Step C σ) (d : Def C) (ins vs : List (Node C))
    (t : Trav C σ) : Except Err (Trav C σ × List (Node C)) :=
  if d.label ∈ t.labels then .error "AssertionError"
  else do
    let (s, outs) ← step t.state d vs
    if outs.length ≠ d.numOutputs then
      .error "ValueError: Operation has a different number of outputs"
    else .ok (⟨((d, ins), outs) :: t.cache, d.label :: t.labels, s⟩, outs)

mutual
/-- `Traverser.visit_value_node`, `nodes.py:248-328` (see `Graph/Traverse` for the general form, with
cycles). -/
def visitNode [DecidableEq C] {σ : Type} (step : Step C σ) : Node C → Trav C σ →
    Except Err (Trav C σ × Node C)
  | .mk d ins i, t =>
    match t.cache.lookup (d, ins) with
    | some outs => do
      let x ← pick outs i
      .ok (t, x)
    | none => do
      let (t, vs) ← visitNodes step ins t
      let (t, outs) ← visitOper step d ins vs t
      let x ← pick outs i
      .ok (t, x)

@[inherit_doc visitNode]
def visitNodes [DecidableEq C] {σ : Type} (step : Step C σ) : List (Node C) → Trav C σ →
    Except Err (Trav C σ × List (Node C))
  | [], t => .ok (t, [])
  | n :: ns, t => do
    let (t, x) ← visitNode step n t
    let (t, xs) ← visitNodes step ns t
    .ok (t, x :: xs)
end

/-- A new traverser that visits `target`, and then the cache nodes
(`_update_cache_value_node_references`, `beam/combiner_packing_util.py:552-559`). -/
def traverse [DecidableEq C] {σ : Type} (step : Step C σ) (s : σ) (target : Node C)
    (cache : List (Node C)) : Except Err (σ × Node C × List (Node C)) := do
  let (t, target') ← visitNode step target ⟨[], [], s⟩
  let (t', cache') ← visitNodes step cache t
  .ok (t'.state, target', cache')

/-! ### Accumulate -/

/-- A dict from labels to lists, `collections.defaultdict(list)`: `d[label].append(x)`. -/
def appendTo {α : Type} (key : String) (x : α) : List (String × List α) → List (String × List α)
  | [] => [(key, [x])]
  | (k, xs) :: rest => if k = key then (k, xs ++ [x]) :: rest else (k, xs) :: appendTo key x rest

/-- `_InspectAccumulateCombineVisitor`, `beam/combiner_packing_util.py:86-117`. The state is
`packable_combines`. -/
def inspectAccumulate : Step C (List (String × List (Wrapper C))) := fun s d vs =>
  match d.kind with
  | .accumulate c =>
    match vs with
    | [.mk pd pins _] =>
      match pd.kind with
      | .extractFromDict keys =>
        match pins with
        | [.mk gd _ _] =>
          match gd.kind with
          | .applySavedModel => .ok (appendTo gd.label ⟨c, keys, d.label⟩ s, outputs d vs)
          | _ => .error "AssertionError"
        | _ => .error "AssertionError"
      | _ => .ok (s, outputs d vs)
    | _ => .error "AssertionError"
  | _ => .ok (s, outputs d vs)

/-- `_combine_to_grand_parent`, `beam/combiner_packing_util.py:147-150`. -/
def combineToGrandParent (groups : List (String × List (Wrapper C))) : List (String × String) :=
  groups.flatMap (fun g => g.2.map (fun w => (w.label, g.1)))

/-- `PackedCombineAccumulate[...]`, `beam/combiner_packing_util.py:188`. -/
def packedAccumulateLabel (grandParent : String) : String :=
  "PackedCombineAccumulate[" ++ grandParent ++ "]"

/-- The result of `_get_packed_combine`, `beam/combiner_packing_util.py:190-199`. -/
def extractAccumulator (d : Def C) (packed : Node C) : Node C :=
  apply ⟨d.label, .extractFromDict (.single d.label)⟩ [packed]

/-- `_PackAccumulateCombineVisitor`, `beam/combiner_packing_util.py:120-199`. The state is
`_packed_combine_cache`. -/
def packAccumulate (groups : List (String × List (Wrapper C))) : Step C (List (String × Node C)) :=
  fun s d vs =>
  match (combineToGrandParent groups).lookup d.label with
  | some grandParent =>
    match s.lookup grandParent with
    | some packed => .ok (s, [extractAccumulator d packed])
    | none =>
      match vs with
      | [.mk pd pins _] =>
        match pd.kind with
        | .extractFromDict _ =>
          match pins with
          | [g] =>
            if g.d.label ≠ grandParent then .error "AssertionError"
            else
              let packed := apply ⟨packedAccumulateLabel grandParent,
                .packedAccumulate ((groups.lookup grandParent).getD [])⟩ [g]
              .ok ((grandParent, packed) :: s, [extractAccumulator d packed])
          | _ => .error "AssertionError"
        | _ => .error "AssertionError"
      | _ => .error "AssertionError"
  | none => .ok (s, outputs d vs)

/-! ### Merge -/

/-- `isinstance(..., _COMBINE_PARENT_NODE_TYPES)`, `beam/combiner_packing_util.py:202-206`. -/
def Kind.isCombineParent : Kind C → Bool
  | .extractFromDict _ => true
  | .flatten => true
  | .decodeCache => true
  | _ => false

/-- `_InspectMergeCombineVisitor`, `beam/combiner_packing_util.py:209-243`. The state is
`packable_combine_extract_outputs` (labels are unique, so an assignment appends). -/
def inspectMerge : Step C (List (String × Wrapper C)) := fun s d vs =>
  match d.kind with
  | .extractOutputs _ =>
    match vs with
    | [] => .error "IndexError"
    | .mk pd pins _ :: _ =>
      match pd.kind with
      | .merge c =>
        match pins with
        | [g] =>
          if g.d.kind.isCombineParent then
            .ok (s ++ [(d.label, ⟨c, .tuple [pd.label], pd.label⟩)], outputs d vs)
          else .ok (s, outputs d vs)
        | _ => .error "AssertionError"
      | _ => .ok (s, outputs d vs)
  | _ => .ok (s, outputs d vs)

/-- The state of `_PackMergeCombineVisitor`: `_flatten_inputs` and
`final_packed_merge_combine_label`. -/
structure MergeState (C : Type) where
  flattenInputs : List (Node C)
  finalLabel : Option String

/-- `PackedCombineMerge[...]`, `beam/combiner_packing_util.py:338-340`. -/
def packedMergeLabel (n : Nat) : String := "PackedCombineMerge[" ++ toString n ++ "]"

/-- `FlattenInputForPackedCombineMerge[...]`, `beam/combiner_packing_util.py:332-334`. -/
def flattenLabel (n : Nat) : String := "FlattenInputForPackedCombineMerge[" ++ toString n ++ "]"

/-- `AddKey` of one input, `beam/combiner_packing_util.py:322-328`. -/
def keyed (merge : Def C) (v : Node C) : Node C :=
  apply ⟨"AddKey[" ++ merge.label ++ "]", .addKey merge.label⟩ [v]

/-- The packed merge of some inputs, `beam/combiner_packing_util.py:330-346`. -/
def packedMergeOf (ws : List (Wrapper C)) (inputs : List (Node C)) : Node C :=
  apply ⟨packedMergeLabel inputs.length, .packedMerge ws⟩
    [apply ⟨flattenLabel inputs.length, .flatten⟩ inputs]

/-- The operations behind a packed merge, `beam/combiner_packing_util.py:302-319`. -/
def extractMerged (merge : Def C) (n : Nat) (packed : Node C) : List (Node C) :=
  outputs ⟨"ExtractPackedCombineMergeOutputs[" ++ merge.label ++ "]", .extractPackedOutputs n⟩
    [apply ⟨"ExtractFromDict[" ++ merge.label ++ "]", .extractFromDict (.single merge.label)⟩ [packed]]

/-- `_PackMergeCombineVisitor`, `beam/combiner_packing_util.py:246-348`. -/
def packMerge (packable : List (String × Wrapper C)) : Step C (MergeState C) := fun s d vs =>
  if (packable.lookup d.label).isSome then
    match d.kind with
    | .extractOutputs n =>
      match vs with
      | [] => .error "IndexError"
      | .mk pd pins _ :: _ =>
        match pd.kind with
        | .merge _ =>
          let inputs := s.flattenInputs ++ pins.map (keyed pd)
          let packed := packedMergeOf (packable.map Prod.snd) inputs
          .ok (⟨inputs, some packed.d.label⟩, extractMerged pd n packed)
        | _ => .error "AssertionError"
    | _ => .error "AssertionError"
  else .ok (s, outputs d vs)

/-! ### Removing redundant merges -/

mutual
/-- A node, its first input, the first input of that, and so on. -/
def Node.chain : Node C → List (Node C)
  | .mk d ins i => .mk d ins i :: chainList ins

@[inherit_doc Node.chain]
def chainList : List (Node C) → List (Node C)
  | [] => []
  | n :: _ => n.chain
end

/-- `isinstance(..., PackedCombineMerge)`. -/
def Node.isPackedMerge (n : Node C) : Bool :=
  match n.d.kind with
  | .packedMerge _ => true
  | _ => false

/-- `isinstance(..., CreateTensorBinding)`. -/
def Node.isBinding (n : Node C) : Bool :=
  match n.d.kind with
  | .createTensorBinding => true
  | _ => false

/-- `_MAX_PACKED_POST_PROCESSING_DEPTH`, `beam/combiner_packing_util.py:358`. -/
def maxDepth : Nat := 5

/-- `_is_packed_post_processing_node`, `beam/combiner_packing_util.py:419-445`, without its cache
(which makes a difference only for longer chains than those that are searched). -/
def Node.isPostProcessing (n : Node C) : Bool :=
  ((chainList n.ins).take maxDepth).any Node.isPackedMerge

/-- Following first inputs as long as they are post-processing nodes; the end of the loops in
`beam/combiner_packing_util.py:467-469, 489-497`. -/
def endOf (chain : List (Node C)) : Option (Node C) := chain.find? (fun n => !n.isPostProcessing)

/-- `_get_final_packed_combine_and_tensor_bindings`, `beam/combiner_packing_util.py:460-481`. -/
def finalBindings (final : Option String) :
    List (Node C) → Option (Node C) × List (Node C) → Except Err (Option (Node C) × List (Node C))
  | [], acc => .ok acc
  | v :: vs, acc =>
    match endOf (chainList v.ins) with
    | none => .error "IndexError"
    | some p =>
      if p.isPackedMerge ∧ some p.d.label = final then finalBindings final vs (some p, acc.2 ++ [v])
      else finalBindings final vs acc

/-- `_TensorBindingInfo`, `beam/combiner_packing_util.py:351-354`. -/
structure BindingInfo (C : Type) where
  defs : List (Def C)
  outputIndex : Option Nat

/-- The part of a chain that is rebuilt, `beam/combiner_packing_util.py:486-497`: its definitions,
nearest to `CreateTensorBinding` first, and the output index of
`ExtractPackedCombineMergeOutputs`. -/
def infoOf : List (Node C) → BindingInfo C → Except Err (BindingInfo C)
  | [], acc => .ok acc
  | n :: ns, acc =>
    if n.isPostProcessing then
      match n.d.kind with
      | .extractPackedOutputs _ =>
        if acc.outputIndex.isSome then .error "AssertionError"
        else infoOf ns ⟨acc.defs ++ [n.d], some n.index⟩
      | _ => infoOf ns ⟨acc.defs ++ [n.d], acc.outputIndex⟩
    else .ok acc

/-- `_get_to_be_created_tensor_bindings_info`, `beam/combiner_packing_util.py:483-512`. -/
def toBeCreated (final : Option String) : List (Node C) → Except Err (List (BindingInfo C))
  | [] => .ok []
  | v :: vs => do
    let info ← infoOf v.chain ⟨[], none⟩
    match endOf v.chain with
    | none => .error "IndexError"
    | some p => do
      let rest ← toBeCreated final vs
      .ok (if some p.d.label ≠ final then info :: rest else rest)

/-- `_maybe_create_node`, `beam/combiner_packing_util.py:519-524`, with `labels_to_new_nodes`. -/
def maybeCreate (d : Def C) (ins : List (Node C)) (made : List (String × List (Node C))) :
    List (String × List (Node C)) × List (Node C) :=
  match made.lookup d.label with
  | some outs => (made, outs)
  | none => ((d.label, outputs d ins) :: made, outputs d ins)

/-- The inner loop of `_create_tensor_bindings`, `beam/combiner_packing_util.py:531-541`. -/
def rebuild (outputIndex : Option Nat) : List (Def C) → List (Node C) →
    List (String × List (Node C)) → Except Err (List (String × List (Node C)) × List (Node C))
  | [], ns, made => .ok (made, ns)
  | d :: ds, ns, made =>
    match d.kind with
    | .extractPackedOutputs _ =>
      match outputIndex with
      | none => .error "TypeError: indices must be integers"
      | some i => do
        let x ← pick (maybeCreate d ns made).2 i
        rebuild outputIndex ds [x] (maybeCreate d ns made).1
    | _ => rebuild outputIndex ds (maybeCreate d ns made).2 (maybeCreate d ns made).1

/-- The outer loop of `_create_tensor_bindings`, `beam/combiner_packing_util.py:530-548`. -/
def createLoop (final : Node C) : List (BindingInfo C) → List (String × List (Node C)) →
    Except Err (List (Node C))
  | [], _ => .ok []
  | info :: infos, made => do
    let (made, ns) ← rebuild info.outputIndex info.defs.reverse [final] made
    match ns with
    | [n] =>
      if n.isBinding then do
        let rest ← createLoop final infos made
        .ok (n :: rest)
      else .error "AssertionError"
    | _ => .error "AssertionError"

/-- `_create_tensor_bindings`, `beam/combiner_packing_util.py:514-549`. -/
def createBindings (final : Option (Node C)) (infos : List (BindingInfo C)) :
    Except Err (List (Node C)) :=
  match infos with
  | [] => .ok []
  | _ :: _ =>
    match final with
    | none => .error "AssertionError"
    | some f => createLoop f infos []

/-- `_remove_redundant_nodes`, `beam/combiner_packing_util.py:382-417`, with
`_get_redundant_and_non_redundant_input_values` 447-458. -/
def removeFrom (final : Option String) (d : Def C) (vs : List (Node C)) :
    Except Err (List (Node C)) :=
  if vs.any (fun v => !v.isBinding) then .error "AssertionError"
  else do
    let redundant := vs.filter Node.isPostProcessing
    let nonRedundant := vs.filter (fun v => !v.isPostProcessing)
    let (packed, bindings) ← finalBindings final redundant (none, [])
    let infos ← toBeCreated final redundant
    let created ← createBindings packed infos
    let inputs := bindings ++ nonRedundant ++ created
    if vs.length ≠ inputs.length then .error "AssertionError"
    else .ok (outputs d inputs)

/-- `_RemoveRedundantPackedMergeCombineVisitor.visit`, `beam/combiner_packing_util.py:374-380`. -/
def removeRedundant (final : Option String) : Step C Unit := fun s d vs =>
  match d.kind with
  | .createSavedModel =>
    if vs ≠ [] then do
      let outs ← removeFrom final d vs
      .ok (s, outs)
    else .ok (s, outputs d vs)
  | _ => .ok (s, outputs d vs)

/-- `perform_combiner_packing_optimization`, `beam/combiner_packing_util.py:562-624`. The dict
`cache_value_nodes` is the list of its values. -/
def pack [DecidableEq C] (target : Node C) (cache : List (Node C)) (numPhases : Nat) :
    Except Err (Node C × List (Node C)) := do
  let (groups, _, _) ← traverse inspectAccumulate [] target []
  let groups := groups.filter (fun g => 1 < g.2.length)
  let (_, target, cache) ← traverse (packAccumulate groups) [] target cache
  if 1 < numPhases then .ok (target, cache)
  else do
    let (packable, _, _) ← traverse inspectMerge [] target []
    if packable.length ≤ 1 then .ok (target, cache)
    else do
      let (s, target, cache) ← traverse (packMerge packable) ⟨[], none⟩ target cache
      let (_, target, cache) ← traverse (removeRedundant s.finalLabel) () target cache
      .ok (target, cache)

/-! ### What the nodes compute -/

/-- What the operations compute. All are functions: the results of an operation do not depend on the
order and the bundling of its input. `other` is for all classes without a field of their own. -/
structure Meaning (C Coll : Type) where
  extract : Keys → Coll → Except Err Coll
  accumulate : C → Coll → Except Err Coll
  merge : C → Coll → Except Err Coll
  outputs : Nat → Coll → Except Err (List Coll)
  flatten : List Coll → Coll
  packedAccumulate : List (Wrapper C) → Coll → Except Err Coll
  packedMerge : List (Wrapper C) → Coll → Except Err Coll
  addKey : String → Coll → Except Err Coll
  other : Def C → List Coll → Except Err (List Coll)

/-- `(pcoll,) = inputs` in the implementations (`beam/analyzer_impls.py`, `beam/impl.py:887-910`). -/
def one {α : Type} : List α → Except Err α
  | [x] => .ok x
  | _ => .error "ValueError: unpack"

/-- The implementation of an operation, `beam/common.py:156-230`. -/
def Meaning.run {Coll : Type} (m : Meaning C Coll) (d : Def C) (xs : List Coll) :
    Except Err (List Coll) :=
  match d.kind with
  | .extractFromDict keys => do let x ← one xs; let y ← m.extract keys x; .ok [y]
  | .accumulate c => do let x ← one xs; let y ← m.accumulate c x; .ok [y]
  | .merge c => do let x ← one xs; let y ← m.merge c x; .ok [y]
  | .extractOutputs n => do let x ← one xs; m.outputs n x
  | .extractPackedOutputs n => do let x ← one xs; m.outputs n x
  | .flatten => .ok [m.flatten xs]
  | .packedAccumulate ws => do let x ← one xs; let y ← m.packedAccumulate ws x; .ok [y]
  | .packedMerge ws => do let x ← one xs; let y ← m.packedMerge ws x; .ok [y]
  | .addKey key => do let x ← one xs; let y ← m.addKey key x; .ok [y]
  | _ => m.other d xs

mutual
/-- What a node computes. -/
def Node.eval {Coll : Type} (m : Meaning C Coll) : Node C → Except Err Coll
  | .mk d ins i => do
    let xs ← evalList m ins
    let outs ← m.run d xs
    pick outs i

@[inherit_doc Node.eval]
def evalList {Coll : Type} (m : Meaning C Coll) : List (Node C) → Except Err (List Coll)
  | [] => .ok []
  | n :: ns => do
    let x ← n.eval m
    let xs ← evalList m ns
    .ok (x :: xs)
end

end TFT.Graph.Packing
