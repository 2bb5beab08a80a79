import Verif.Pipeline.Analyze

/-!
# Model of `analyze_in_place`

`impl_helper.analyze_in_place` (impl_helper.py 686–759) writes the output of an analysis, a SavedModel and the metadata
of the transformed data, for a `preprocessing_fn` without analyzers and without looking at data.  Traces of
`preprocessing_fn`s and their values are those of `Pipeline/Analyze`.

A SavedModel appears in the model when it is complete.  What variables, tables and assets a SavedModel has is left out
(C32, C60, C64).
-/

namespace TFT.InPlace

open TFT.Analyze

/-- A transform function: the outputs for a batch. -/
abbrev Fn (V : Type) := List (String × V) → Except Err (List (String × V))

/-- The directory of the output of an analysis: `transform_fn` and `transformed_metadata`
(output_wrapper.py 64–65). -/
structure Dir (V M : Type) where
  transformFn : Option (Fn V)
  metadata : Option M

/-- What tracing a `preprocessing_fn` gives.  `again` is the trace of the metadata function with TF2 behaviour. -/
structure Traced (Op An : Type) where
  trace : Trace Op An
  again : Trace Op An

/-- How a call ends, and the contents that the output directory had after every write. -/
structure Run (V M : Type) where
  states : List (Dir V M)
  result : Except Err Unit

variable {V Op An M : Type}

/-- impl_helper.py 677–683 `_assert_no_analyzers_in_graph`. -/
def assertNoAnalyzers (tr : Trace Op An) : Except Err Unit :=
  if tr.complete ([] : List (String × V)) then .ok ()
  else .error "RuntimeError: TFT analyzers found when tracing the given `preprocessing_fn`"

/-- The function that a trace computes: impl_helper.py 398–415 without requested outputs, and the signature of TF1
(impl_helper.py 726–728). -/
def written (m : Meaning V Op An) (tr : Trace Op An) : Fn V := tr.features m []

/-- impl_helper.py 740–759 after the transform function was written: the inference of the metadata, then the write. -/
def finish (dir : Dir V M) (metadata : Except Err M) : Run V M :=
  match metadata with
  | .error e => ⟨[], .error e⟩
  | .ok md => ⟨[{ dir with metadata := some md }], .ok ()⟩

/-- A write, followed by the rest of a call. -/
def Run.after (dir : Dir V M) (rest : Run V M) : Run V M := ⟨dir :: rest.states, rest.result⟩

/-- impl_helper.py 718–737: TF1 behaviour.  `init` is the initialization of variables and tables;
`SavedModelBuilder` refuses a directory that exists and is not empty. -/
def inPlaceV1 (m : Meaning V Op An) (infer : Trace Op An → Except Err M) (init : Except Err Unit)
    (t : Traced Op An) (dir : Dir V M) : Run V M :=
  match assertNoAnalyzers (V := V) t.trace with
  | .error e => ⟨[], .error e⟩
  | .ok _ =>
    match init with
    | .error e => ⟨[], .error e⟩
    | .ok _ =>
      if dir.transformFn.isSome then ⟨[], .error "AssertionError: Export directory already exists, and isn't empty"⟩
      else
        let dir := { dir with transformFn := some (written m t.trace) }
        (finish dir (infer t.trace)).after dir

/-- impl_helper.py 738–755: TF2 behaviour.  The SavedModel is written before the analyzers are looked for, over one
that exists. -/
def inPlaceV2 (m : Meaning V Op An) (infer : Trace Op An → Except Err M) (t : Traced Op An) (dir : Dir V M) :
    Run V M :=
  let dir := { dir with transformFn := some (written m t.trace) }
  match assertNoAnalyzers (V := V) t.trace with
  | .error e => ⟨[dir], .error e⟩
  | .ok _ => (finish dir (infer t.again)).after dir

/-- impl_helper.py 686–759 `analyze_in_place`. -/
def analyzeInPlace (m : Meaning V Op An) (infer : Trace Op An → Except Err M) (init : Except Err Unit)
    (tf1 : Bool) (t : Traced Op An) (dir : Dir V M) : Run V M :=
  if tf1 then inPlaceV1 m infer init t dir else inPlaceV2 m infer t dir

/-- The contents of the directory at the end. -/
def Run.final (dir : Dir V M) (r : Run V M) : Dir V M := r.states.getLastD dir

end TFT.InPlace
