import Verif.Graph.Packing
import Mathlib.Data.List.Perm.Basic

/-!
# Combiner packing: specification

Which graphs are packed (the graphs that `analysis_graph_builder.build` makes), and what is assumed of
the operations.
-/

namespace TFT.Graph.Packing

variable {C : Type}

mutual
/-- The operations that a node depends on. -/
def Node.opers : Node C → List (Oper C)
  | .mk d ins _ => (d, ins) :: opersList ins

@[inherit_doc Node.opers]
def opersList : List (Node C) → List (Oper C)
  | [] => []
  | n :: ns => n.opers ++ opersList ns
end

/-- Every label belongs to one operation. -/
def UniqueLabels (U : List (Oper C)) : Prop := ∀ o ∈ U, ∀ o' ∈ U, o.1.label = o'.1.label → o = o'

/-- The indices of the values are in range (`ValueNode.__post_init__`, `nodes.py:102-109`). -/
def Indexed (U : List (Oper C)) : Prop := ∀ o ∈ U, ∀ x ∈ o.2, x.index < x.d.numOutputs

/-- An accumulate has one input; if this is taken out of a dict,
the dict is the output of a saved model. -/
def AccShape (U : List (Oper C)) : Prop :=
  ∀ o ∈ U, ∀ c, o.1.kind = .accumulate c → ∃ x, o.2 = [x] ∧
    (∀ keys, x.d.kind = .extractFromDict keys → ∃ g, x.ins = [g] ∧ g.d.kind = .applySavedModel)


/-- The labels and classes of operations that packing of merges adds are not there before. -/
structure FreshMerges (U : List (Oper C)) : Prop where
  addKey : ∀ o ∈ U, ∀ l, o.1.label ≠ "AddKey[" ++ l ++ "]"
  flatten : ∀ o ∈ U, ∀ l, o.1.label ≠ "FlattenInputForPackedCombineMerge[" ++ l ++ "]"
  merge : ∀ o ∈ U, ∀ l, o.1.label ≠ "PackedCombineMerge[" ++ l ++ "]"
  extract : ∀ o ∈ U, ∀ l, o.1.label ≠ "ExtractFromDict[" ++ l ++ "]"
  outputs : ∀ o ∈ U, ∀ l, o.1.label ≠ "ExtractPackedCombineMergeOutputs[" ++ l ++ "]"
  packedMerge : ∀ o ∈ U, ∀ ws, o.1.kind ≠ .packedMerge ws

/-- The same with the labels that packing of accumulators adds. -/
structure Fresh (U : List (Oper C)) : Prop where
  accumulate : ∀ o ∈ U, ∀ l, o.1.label ≠ "PackedCombineAccumulate[" ++ l ++ "]"
  merges : FreshMerges U

/-- A graph of an analysis: the `CreateSavedModel` and the cache nodes. -/
structure Built (target : Node C) (cache : List (Node C)) : Prop where
  labels : UniqueLabels (opersList (target :: cache))
  indices : Indexed (opersList (target :: cache))
  indexed : ∀ n ∈ target :: cache, n.index < n.d.numOutputs
  accumulates : AccShape (opersList (target :: cache))
  fresh : Fresh (opersList (target :: cache))

/-- A node that does not depend on the outputs of a global combine. -/
def NoOutputs (n : Node C) : Prop := ∀ o ∈ n.opers, ∀ k, o.1.kind ≠ .extractOutputs k

/-- `k` operations in a row behind the outputs of a global combine, each with one input and one
output. -/
inductive Post : Nat → Node C → Prop
  | outputs (d : Def C) (x : Node C) (i n : Nat) (hd : d.kind = .extractOutputs n)
      (hx : NoOutputs x) : Post 0 (.mk d [x] i)
  | step (k : Nat) (d : Def C) (x : Node C)
      (hd : d.kind = .createTensorBinding ∨ d.kind = .other 1) (hx : Post k x) :
      Post (k + 1) (.mk d [x] 0)

/-- The shape of a graph with one phase. Each input of the `CreateSavedModel` is a
`CreateTensorBinding`, either of something that does not depend on a global combine, or of one of the
outputs of one, with up to two operations in between (`approximate_vocabulary` has `FlattenLists` and
`VocabularyOrderAndWrite`, here without reserved tokens). -/
structure OnePhase (target : Node C) (cache : List (Node C)) : Prop where
  merges : ∀ o ∈ opersList (target :: cache), ∀ n, o.1.kind = .extractOutputs n → ∃ x, o.2 = [x] ∧
    ∀ c, x.d.kind = .merge c → ∃ y, x.ins = [y]
  single : ∀ o ∈ opersList (target :: cache), ∀ o' ∈ opersList (target :: cache), ∀ n n',
    o.1.kind = .extractOutputs n → o'.1.kind = .extractOutputs n' →
    ∀ x ∈ o.2, ∀ x' ∈ o'.2, x.oper = x'.oper → o = o'
  savedModel : target.d.kind = .createSavedModel
  others : ∀ o ∈ opersList (target :: cache), o.1.kind = .createSavedModel → o ≠ target.oper → o.2 = []
  bindings : ∀ b ∈ target.ins, b.d.kind = .createTensorBinding ∧
    (NoOutputs b ∨ ∃ k, k ≤ 3 ∧ Post k b)
  cached : ∀ n ∈ cache, NoOutputs n

/-- The combiner `w` on its own: its keys are taken out of the dict and accumulated. -/
def Meaning.alone {Coll : Type} (m : Meaning C Coll) (w : Wrapper C) (x : Coll) : Except Err Coll := do
  let y ← m.extract w.keys x
  m.accumulate w.combiner y

/-- What is assumed of the operations: the packed combines do what the combiners do on their own
(`packed_equals_separate` shows this for any schedules of calls), and the order in which tensors are bound to
the placeholders of a saved model does not matter. -/
structure Meaning.Lawful {Coll : Type} (m : Meaning C Coll) : Prop where
  accumulate : ∀ ws x, ws ≠ [] → (ws.map Wrapper.label).Nodup → (∀ w ∈ ws, ∃ y, m.alone w x = .ok y) →
    ∃ p, m.packedAccumulate ws x = .ok p ∧
      ∀ w ∈ ws, m.extract (.single w.label) p = m.alone w x
  merge : ∀ (ws : List (Wrapper C)) (xs : List Coll), ws.length = xs.length →
    (ws.map Wrapper.label).Nodup → (∀ w ∈ ws, w.keys = .tuple [w.label]) →
    (∀ e ∈ ws.zip xs, ∃ z, m.merge e.1.combiner e.2 = .ok z) →
    ∃ ks p, List.Forall₂ (fun (e : Wrapper C × Coll) k => m.addKey e.1.label e.2 = .ok k) (ws.zip xs) ks ∧
      m.packedMerge ws (m.flatten ks) = .ok p ∧
      ∀ e ∈ ws.zip xs, m.extract (.single e.1.label) p = m.merge e.1.combiner e.2
  bindings : ∀ d xs ys, d.kind = .createSavedModel → List.Perm xs ys → m.other d xs = m.other d ys

end TFT.Graph.Packing
