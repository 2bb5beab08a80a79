import Verif.Graph.Traverse

/-!
# The phases of an analysis

Model of `_ReadyVisitor` and of the phase loop of `build` in `beam/analysis_graph_builder.py`.
-/

namespace TFT.Graph.Phases

/-- `_ReadyVisitor`, `analysis_graph_builder.py:52-79`. `label` is the label of the operation,
`tensors` its tensors if it is a `TensorSource`, `numOutputs` its number of outputs;
`readyToRun` is `graph_analyzer.ready_to_run`. The set of visited labels is read off the earlier
calls. -/
def readyVisitor {Op T : Type} (label : Op → String) (tensors : Op → Option (List T))
    (numOutputs : Op → Nat) (readyToRun : T → Bool) : Visitor Op Bool where
  visit calls op ins :=
    if label op ∈ calls.map (fun c => label c.op) then
      .error "AssertionError: An operation with this label already exists"
    else
      let isReady := match tensors op with
        | some ts => ts.all readyToRun
        | none => ins.all (fun b => b)
      .ok (List.replicate (numOutputs op) isReady)
  validate _ := .ok ()

variable {S : Type} [DecidableEq S]

/-- What the phase loop keeps: `sink_tensors_ready` and, for every computed replacement, the phase
in which it was computed (an observation: the phase of the `ApplySavedModel` node its translation
reads from). -/
structure State (S : Type) where
  ready : S → Bool
  log : List (S × Nat)

/-- The loop `for tensor, value_node, is_asset_filepath in tensor_sinks` of one phase,
`analysis_graph_builder.py:726-751`. `isReady` is `ready_traverser.visit_value_node` for the
sink's value node: it was made from a copy of `sink_tensors_ready` at the start of the phase, so
it does not see the updates of the loop. -/
def runPhase (isReady : S → Bool) (phase : Nat) : List S → State S → State S
  | [], st => st
  | s :: sinks, st =>
    if st.ready s then runPhase isReady phase sinks st
    else if !isReady s then runPhase isReady phase sinks st
    else runPhase isReady phase sinks
      ⟨fun t => if t = s then true else st.ready t, st.log ++ [(s, phase)]⟩

/-- The loop `while not all(sink_tensors_ready.values())`, `analysis_graph_builder.py:696-754`.
`isReady` gives the readiness of a sink's value node from the readiness of the replaced tensors.
The first argument bounds the number of phases: `none` is "still running". -/
def phaseLoop (isReady : (S → Bool) → S → Bool) (sinks : List S) :
    Nat → Nat → State S → Option (State S)
  | fuel, phase, st =>
    if sinks.all st.ready then some st
    else match fuel with
      | 0 => none
      | fuel + 1 =>
        phaseLoop isReady sinks fuel (phase + 1) (runPhase (isReady st.ready) phase sinks st)

/-- The state before the loop, `analysis_graph_builder.py:677-684`. -/
def initial : State S := ⟨fun _ => false, []⟩

end TFT.Graph.Phases
