import Verif.Combine.Sched
import Mathlib.Data.Fintype.Card
import Mathlib.Data.List.Forall2
import Mathlib.Logic.Relation

/-!
# Graph traversal

Model of `nodes.ValueNode`, `nodes.OperationNode` and `nodes.Traverser`.
-/

namespace TFT.Graph

/-- A graph of operations, `nodes.py:89-157`: the inputs of every `OperationNode` and the number
of outputs of its `OperationDef`. A `ValueNode` is a pair of an operation and an output index.
Operations are compared by identity. `inputs` may contain cycles. -/
structure OpGraph (Op : Type) where
  inputs : Op → List (Op × Nat)
  numOutputs : Op → Nat

/-- `ValueNode.__post_init__`, `nodes.py:102-109`: the check made when a `ValueNode` is
constructed. -/
def OpGraph.valueNode {Op : Type} (g : OpGraph Op) (op : Op) (index : Int) : Except Err (Op × Nat) :=
  if index ≥ 0 ∧ index < (g.numOutputs op : Int) then .ok (op, index.toNat)
  else .error "ValueError: value_index out of range"

/-- One call of `Visitor.visit`: the operation, the input values, the output values. -/
structure Call (Op V : Type) where
  op : Op
  ins : List V
  outs : List V

/-- A `Visitor`, `nodes.py:196-231`. Visitors may keep state: the result of a call may depend on
all earlier calls. `validate` is `validate_value`. -/
structure Visitor (Op V : Type) where
  visit : List (Call Op V) → Op → List V → Except Err (List V)
  validate : V → Except Err Unit

/-- The state of a `Traverser`, `nodes.py:237-246`: the dict `_cached_value_nodes_values`; and
the list of the calls of `visit` so far (an observation, not a field). The `_stack` is passed as
an argument. -/
structure St (Op V : Type) where
  cache : Op × Nat → Option V
  calls : List (Call Op V)

set_option linter.unusedVariables false

variable {Op V : Type} [DecidableEq Op]

/-- The loop `for output, value in zip(outputs, output_values)`, `nodes.py:326-328`. -/
def storeOutputs (v : Visitor Op V) (op : Op) : Nat → List V → (Op × Nat → Option V) →
    Except Err (Op × Nat → Option V)
  | _, [], cache => .ok cache
  | i, x :: xs, cache => do
    v.validate x
    storeOutputs v op (i + 1) xs (fun n => if n = (op, i) then some x else cache n)

theorem notIn_card_lt [Fintype Op] (stack : List Op) (op : Op) (h : op ∉ stack) :
    (Finset.univ.filter (fun o => o ∉ stack ++ [op])).card
      < (Finset.univ.filter (fun o => o ∉ stack)).card := by
  apply Finset.card_lt_card
  rw [Finset.ssubset_iff_of_subset]
  · exact ⟨op, by simp [h], by simp⟩
  · intro o
    simp
    intro h1 _
    exact h1

mutual
/-- `Traverser._visit_operation`, `nodes.py:278-328`. The type checks of the visitor's result are
not modelled (it is a list), the check of its length is. That the recursion stops is what the
termination proof shows: the stack never holds an operation twice. -/
def visitOperation [Fintype Op] (g : OpGraph Op) (v : Visitor Op V) (stack : List Op) (op : Op)
    (st : St Op V) : Except Err (St Op V) :=
  if h : op ∈ stack then .error "AssertionError: Cycle detected"
  else do
    let (st, ins) ← visitValueNodes g v (stack ++ [op]) (g.inputs op) st
    let outs ← v.visit st.calls op ins
    let calls := st.calls ++ [⟨op, ins, outs⟩]
    if outs.length ≠ g.numOutputs op then
      .error "ValueError: Operation has a different number of outputs"
    else
      let cache ← storeOutputs v op 0 outs st.cache
      .ok ⟨cache, calls⟩
termination_by ((Finset.univ.filter (fun o => o ∉ stack)).card, 0)
decreasing_by
  exact Prod.Lex.left _ _ (notIn_card_lt stack op h)

/-- `tuple(map(self._maybe_visit_value_node, operation.inputs))`, `nodes.py:285`, with
`_maybe_visit_value_node`, `nodes.py:262-276`, for every element. -/
def visitValueNodes [Fintype Op] (g : OpGraph Op) (v : Visitor Op V) (stack : List Op)
    (ns : List (Op × Nat)) (st : St Op V) : Except Err (St Op V × List V) :=
  match ns with
  | [] => .ok (st, [])
  | n :: ns =>
    (if (st.cache n).isSome then .ok st else visitOperation g v stack n.1 st) >>= fun st =>
    match st.cache n with
    | none => .error "KeyError"
    | some x => do
      let (st, xs) ← visitValueNodes g v stack ns st
      .ok (st, x :: xs)
termination_by ((Finset.univ.filter (fun o => o ∉ stack)).card, ns.length + 1)
decreasing_by
  · exact Prod.Lex.right _ (by simp)
  · exact Prod.Lex.right _ (by simp)
end

/-- A `Traverser` that gets a list of requests, each by `visit_value_node`, `nodes.py:248-260`. -/
def traverse [Fintype Op] (g : OpGraph Op) (v : Visitor Op V) (requests : List (Op × Nat)) :
    Except Err (St Op V × List V) :=
  visitValueNodes g v [] requests ⟨fun _ => none, []⟩

end TFT.Graph
