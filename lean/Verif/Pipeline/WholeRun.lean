import Verif.Pipeline.Analyze

/-!
# Model of `AnalyzeAndTransformDataset` on rows

The analysis of a dataset is modelled in `Analyze.lean` for values of any kind. Here a value is either
a column, with one element per row of the batch, or a value without a batch dimension, such as the result
of an analyzer. The dataset is cut into batches; nothing is assumed about where it is cut, so that every
pass over the data may see other batches.

What is left out: operations that mix the rows of a batch, for which nothing of what is proved here is
true; excluded outputs and columns that are passed through (C77); the details of the conversion to
Arrow (C36) and of the schemas (C45, C62).
-/

namespace TFT.WholeRun

open TFT.Analyze

variable {R Op An : Type}

/-- The value of a tensor for a batch: one element per row, or a value that has no batch dimension
(the results of analyzers and constants; see analyzer_nodes.py 185–248 for the former). -/
inductive Val (R : Type) where
  | rows (l : List R)
  | fixed (r : R)

/-- The part of a value that belongs to row `i`. -/
def Val.at (i : Nat) : Val R → Except Err R
  | .rows l => match l[i]? with
    | some r => .ok r
    | none => .error "InvalidArgumentError: incompatible shapes"
  | .fixed r => .ok r

/-- The batch size of the first column among some values. -/
def batchSize : List (Val R) → Option Nat
  | [] => none
  | .rows l :: _ => some l.length
  | .fixed _ :: vs => batchSize vs

/-- All columns have the given length. -/
def sameSize (n : Nat) (vs : List (Val R)) : Bool :=
  vs.all fun v => match v with
    | .rows l => l.length == n
    | .fixed _ => true

/-- What an operation or an analyzer sees of a batch: for every row the values that belong to it.
Values without a batch dimension only are seen once per batch. -/
def tuples (vs : List (Val R)) : Except Err (List (List R)) :=
  match batchSize vs with
  | none => (seqExcept (vs.map (Val.at 0))).bind fun t => .ok [t]
  | some n =>
    if sameSize n vs then
      seqExcept ((List.range n).map fun i : Nat => seqExcept (vs.map (Val.at i)))
    else .error "InvalidArgumentError: incompatible shapes"

/-- What the operations of a `preprocessing_fn` do to a row, and what its analyzers compute from the
rows of a dataset: a function of the list of rows (`Analyzer`s are given the rows of all batches, one
after the other: analyzer_nodes.py 342–419 `Combiner`, of which C01–C07 and C09–C16 are about the
instances). -/
structure Program (R Op An : Type) where
  op : Op → List R → Except Err R
  analyze : An → List (List R) → Except Err R

/-- An operation that treats each row by itself, on a batch. -/
def onBatch (f : List R → Except Err R) (vs : List (Val R)) : Except Err (Val R) :=
  (tuples vs).bind fun ts => (seqExcept (ts.map f)).bind fun rs =>
    match batchSize vs, rs with
    | some _, rs => .ok (.rows rs)
    | none, [r] => .ok (.fixed r)
    | none, _ => .error "unreachable"

/-- An analyzer on a list of batches; its result has no batch dimension
(beam/impl.py 563–603 makes it a constant of the graph). -/
def onBatches (f : List (List R) → Except Err R) (batches : List (List (Val R))) :
    Except Err (Val R) :=
  (seqExcept (batches.map tuples)).bind fun ts => (f ts.flatten).bind fun r => .ok (.fixed r)

/-- The meaning of operations and analyzers on batches. `temporary` is what the placeholder of a result
that is not known holds. -/
def Program.meaning (prog : Program R Op An) (temporary : String → Except Err (Val R)) :
    Meaning (Val R) Op An where
  op o vs := onBatch (prog.op o) vs
  analyze a batches := onBatches (prog.analyze a) batches
  temporary := temporary

/-- The batch made of some rows (`_InstanceDictInputToTFXIOInput`, beam/impl.py 1019–1043, and the
adapter from record batches to tensors). -/
def batchOf (keys : List String) (rows : List (String → R)) : List (String × Val R) :=
  keys.map fun k => (k, .rows (rows.map fun row => row k))

/-- A column of transformed data; a value without a batch dimension is refused by the converter. -/
def column : String × Val R → Except Err (String × List R)
  | (k, .rows l) => .ok (k, l)
  | (_, .fixed _) => .error "ValueError: the batch dimension is missing"

/-- beam/impl.py 487–560, `_convert_to_record_batch` and `_transformed_batch_to_instance_dicts`: a
transformed batch becomes one dictionary per row. Without columns `arrow_columns[0]` is an IndexError,
and columns of different lengths are refused by `RecordBatch.from_arrays`. -/
def toInstances (outputs : List (String × Val R)) : Except Err (List (List (String × R))) :=
  (seqExcept (outputs.map column)).bind fun cols =>
    match cols with
    | [] => .error "IndexError"
    | c :: cs =>
      if (c :: cs).all (fun d => d.2.length == c.2.length) then
        .ok ((List.range c.2.length).map fun i : Nat =>
          (c :: cs).filterMap fun d => d.2[i]?.map fun r => (d.1, r))
      else .error "ArrowInvalid: columns have different lengths"

/-- beam/impl.py 1505–1538 `AnalyzeAndTransformDataset.expand`: the dataset is analyzed, and the
transform function is applied to all batches of the dataset, or of a copy of the part of the pipeline
that produces it (C50). `data p` are the batches in phase `p` of the analysis, `last` those that are
transformed. -/
def analyzeAndTransform (m : Meaning (Val R) Op An) (keys : List String) (first : Trace Op An)
    (retrace : Nat → Trace Op An) (data : Nat → List (List (String × Val R)))
    (last : List (List (String × Val R))) : Except Err (List (List (String × R))) :=
  (analyzeDataset m keys first retrace data).bind fun f =>
    (seqExcept (last.map fun b => (f b).bind toInstances)).bind fun l => .ok l.flatten

end TFT.WholeRun
