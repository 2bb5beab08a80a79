import Verif.Pipeline.Analyze

/-!
# Model of the functions that list the required input columns

inspect_preprocessing_fn.py: which columns of a dataset are needed to analyze it, and which to
transform it.  Users read only these from storage.  The traced graph is that of
`Verif.Pipeline.Analyze`; the traversal that finds the inputs a tensor depends on is modelled in
C32.  An input has one component here.
-/

namespace TFT.Analyze

variable {Op An : Type}

/-- graph_tools.py 858–901 `get_dependent_inputs`: the inputs that some of the tensors with the given
names depend on.  The placeholders of analyzers are sources, so that what analyzers depend on does
not count. -/
def Trace.dependentInputs (tr : Trace Op An) (keys names : List String) : List String :=
  keys.filter fun k => names.any fun n => match tr.tensors.lookup n with
    | some t => t.reads k
    | none => false

/-- inspect_preprocessing_fn.py 31–84 `get_analyze_input_columns`: `SourcedTensorsVisitor`
(graph_tools.py 975–988) finds the tensors that analyzers read; `controls` are the control
dependencies of the outputs, which count with TF2 behaviour. -/
def Trace.analyzeColumns (tr : Trace Op An) (keys controls : List String) : List String :=
  tr.dependentInputs keys (tr.sinks.flatMap Sink.ins ++ controls)

/-- inspect_preprocessing_fn.py 87–121 `get_transform_input_columns`. -/
def Trace.transformColumns (tr : Trace Op An) (keys : List String) : List String :=
  tr.dependentInputs keys (tr.outputs.map Prod.snd)

end TFT.Analyze
