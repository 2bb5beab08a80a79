import Verif.Graph.Traverse

/-!
# The implementations of operations and the construction of the Beam pipeline

Model of `beam/common.py`: the registry of implementations (`register_ptransform`) and
`ConstructBeamPipelineVisitor`, on top of the traversal of `Graph/Traverse`.
-/

namespace TFT.Construct

open TFT TFT.Graph

/-- `EnvironmentTags` (beam/common.py:36-38). -/
inductive Env where
  | tfCompatV1
  | tfV2Only
deriving DecidableEq

/-- `tag.value`. -/
def Env.value : Env → String
  | .tfCompatV1 => "tf_compat_v1"
  | .tfV2Only => "tf_v2_only"

/-- A key of `_ptransform_by_tag`: the object `_GENERAL_ENVIRONMENT_TAG`, a member of the enumeration, or a
string. `EnvironmentTags` is not a `str` enumeration, so a member is not equal to its value. -/
inductive Tag where
  | general
  | env (e : Env)
  | string (s : String)
deriving DecidableEq

/-- A value that is registered: whether it is a class, whether it is a subclass of `beam.PTransform`, and
what it does. -/
structure Candidate (I : Type) where
  isClass : Bool
  isPTransform : Bool
  impl : I

/-- `_PTRANSFORM_BY_OPERATION_DEF_SUBCLASS` (beam/common.py:100), with the dict of every
`_PtransformWrapper` (beam/common.py:61-67). Missing wrappers are empty (`defaultdict`). -/
abbrev Registry (C I : Type) := C → Tag → Option I

variable {C I : Type} [DecidableEq C]

/-- `_PtransformWrapper.add_ptransform` (beam/common.py:69-76). The assertion at line 74 is about a
generator object, which is always true. -/
def addPtransform (d : Tag → Option I) (impl : I) (tags : Option (List Tag)) : Tag → Option I :=
  let tags := tags.getD [.general]
  fun tag => if tag ∈ tags then some impl else d tag

/-- `register_ptransform(cls, tags)(candidate)` (beam/common.py:103-153). The assertion at line 147 is
about a generator object, which is always true. -/
def register (reg : Registry C I) (cls : C) (tags : Option (List Tag)) (c : Candidate I) :
    Except Err (Registry C I) :=
  if !c.isClass then .error "AssertionError"
  else if !c.isPTransform then .error "AssertionError"
  else .ok (fun k => if k = cls then addPtransform (reg k) c.impl tags else reg k)

/-- One use of the decorator. -/
structure Registration (C I : Type) where
  cls : C
  tags : Option (List Tag)
  candidate : Candidate I

/-- All uses of the decorator, in the order in which the modules are executed. -/
def registerAll (reg : Registry C I) : List (Registration C I) → Except Err (Registry C I)
  | [] => .ok reg
  | r :: rs => do
    let reg ← register reg r.cls r.tags r.candidate
    registerAll reg rs

/-- `_PtransformWrapper.get_ptransform` (beam/common.py:78-97), for a tag that is not `None`. -/
def getPtransform (d : Tag → Option I) (tag : Env) : Except Err (I × Option String) :=
  match d (.env tag) with
  | none =>
    match d .general with
    | none => .error "KeyError"
    | some impl => .ok (impl, none)
  | some impl => .ok (impl, some tag.value)

/-- What an implementation is applied to: a tuple of inputs, or the beginning of the pipeline. -/
inductive Source (V : Type) where
  | begin
  | inputs (xs : List V)

/-- `inputs or beam.pvalue.PBegin(pipeline)` (beam/common.py:206-208). -/
def sourceOf {V : Type} (ins : List V) : Source V := if ins.isEmpty then .begin else .inputs ins

/-- What an implementation returns: one `PCollection`, a tuple or another iterable, or something else. -/
inductive Result (V : Type) where
  | single (x : V)
  | tuple (xs : List V)
  | other

/-- The operations of a graph: their classes and labels. -/
structure OpDefs (Op C : Type) where
  cls : Op → C
  label : Op → String

/-- An implementation: what `inputs | label >> ptransform(operation, extra_args)` gives. -/
abbrev Impl (Op V : Type) := Op → Source V → Except Err (Result V)

variable {Op V : Type}

/-- The lookup in `visit` (beam/common.py:184-197). -/
def implementation (defs : OpDefs Op C) (reg : Registry C I) (env : Env) (op : Op) :
    Except Err (I × Option String) :=
  match getPtransform (reg (defs.cls op)) env with
  | .error _ => .error "ValueError: No implementation for the operation was registered"
  | .ok p => .ok p

/-- `tagged_label` (beam/common.py:201-204). -/
def taggedLabel (label : String) : Option String → String
  | none => label
  | some tag => label ++ "[" ++ tag ++ "]"

/-- `ConstructBeamPipelineVisitor.visit` (beam/common.py:183-215). `earlier` are the operations that
were applied before. Beam refuses a label that is already in the pipeline. The last error is raised by the
traverser (nodes.py:294-306). -/
def visitOp (defs : OpDefs Op C) (reg : Registry C (Impl Op V)) (env : Env) (earlier : List Op) (op : Op)
    (ins : List V) : Except Err (List V) := do
  let (impl, tag) ← implementation defs reg env op
  let used : List String := earlier.filterMap (fun o =>
    match implementation defs reg env o with
    | .error _ => none
    | .ok (_, tag) => some (taggedLabel (defs.label o) tag))
  if taggedLabel (defs.label op) tag ∈ used then .error "RuntimeError: Failed to apply"
  else
    match impl op (sourceOf ins) with
    | .error _ => .error "RuntimeError: Failed to apply"
    | .ok (.single x) => .ok [x]
    | .ok (.tuple xs) => .ok xs
    | .ok .other => .error "ValueError: expected visitor to return a tuple"

/-- `ConstructBeamPipelineVisitor` (beam/common.py:156-221) for the traverser. `isPCollection` is the
test of `validate_value`. -/
def beamVisitor (defs : OpDefs Op C) (reg : Registry C (Impl Op V)) (isPCollection : V → Bool) (env : Env) :
    Visitor Op V where
  visit := fun calls op ins => visitOp defs reg env (calls.map Call.op) op ins
  validate := fun x => if isPCollection x then .ok () else .error "TypeError: Expected a PCollection"

/-- Building the pipeline for the requested value nodes, with `use_tf_compat_v1`
(beam/common.py:188-192). -/
def buildPipeline [DecidableEq Op] [Fintype Op] (g : OpGraph Op) (defs : OpDefs Op C)
    (reg : Registry C (Impl Op V)) (isPCollection : V → Bool) (useTfCompatV1 : Bool)
    (requests : List (Op × Nat)) : Except Err (St Op V × List V) :=
  traverse g (beamVisitor defs reg isPCollection (if useTfCompatV1 then .tfCompatV1 else .tfV2Only)) requests

end TFT.Construct
