import Verif.Combine.Sched
import Mathlib.Logic.Function.Basic

/-!
# `TFGraphContext` and the objects and assets of a traced graph

Model of `graph_context.py` and `annotators.py`.
-/

namespace TFT.GraphContext

/-- A Python object: `None`, or an object with an identity. -/
abbrev Obj := Option Nat

/-- `TFGraphContext._State` (graph_context.py:49-64). Modules and dictionaries of evaluated
replacements are numbered. -/
structure St where
  module : Option Nat := none
  tempDir : Option String := none
  evaluated : Option Nat := none
  deriving DecidableEq, Repr

/-- `_thread_local.current_state`: absent, `None`, or a state. -/
inductive TS
  | absent
  | value (s : Option St)
  deriving DecidableEq

/-- `getattr(_thread_local, "current_state", None)`. -/
def TS.get : TS → Option St
  | .absent => none
  | .value s => s

/-- `__enter__` (graph_context.py:80-86). -/
def enter (st : St) (ts : TS) : Except Err TS :=
  if ts.get = none then .ok (.value (some st)) else .error "AssertionError"

/-- `__exit__` (graph_context.py:88-89). -/
def exit (_ : TS) : TS := .value none

/-- `_get_current_state` (graph_context.py:95-99): the attribute if there is one, even if it is
`None`. -/
def currentState : TS → Option St
  | .absent => some {}
  | .value s => s

/-- The error of reading an attribute of `None`. -/
def attributeError : Err := "AttributeError: 'NoneType' object has no attribute"

/-- `get_module_to_export` (graph_context.py:131-142). -/
def getModule (ts : TS) : Except Err (Option Nat) :=
  match currentState ts with
  | none => .error attributeError
  | some s => .ok s.module

/-- `get_evaluated_replacements` (graph_context.py:116-129). -/
def getEvaluated (ts : TS) : Except Err (Option Nat) :=
  match currentState ts with
  | none => .error attributeError
  | some s => .ok s.evaluated

/-- `get_or_create_temp_dir` (graph_context.py:101-114), without the creation of the directory; the
path is given as its two parts. -/
def getTempDir (ts : TS) : Except Err (Option (String × String)) :=
  match currentState ts with
  | none => .error attributeError
  | some s =>
    match s.tempDir with
    | none => .ok none
    | some d =>
      if d = "" then .error "ValueError: A temp dir was requested, but empty temp_dir was set."
      else .ok (some (d, "analyzer_temporary_assets"))

/-- The attributes of every module (`tf.Module`), those that the class defines included. -/
abbrev Modules := Nat → String → Option Obj

/-- The state of the process (one thread): the graph context, the module attributes, the active
object tracker with its objects (annotators.py:37), the number of objects made so far. -/
structure World where
  ts : TS := .absent
  modules : Modules
  tracker : Option (List Obj) := none
  calls : Nat := 0

/-- `_get_object` (annotators.py:103-114). -/
def getObject (w : World) (name : String) : Except Err Obj :=
  match getModule w.ts with
  | .error e => .error e
  | .ok none => .error "RuntimeError: No module found to track"
  | .ok (some m) => .ok ((w.modules m name).getD none)

/-- `ObjectTracker.add_trackable_object` (annotators.py:53-74) on the active tracker (`track_object`,
annotators.py:118-124). -/
def trackObject (w : World) (obj : Obj) (name : Option String) : Except Err World :=
  match w.tracker with
  | none => .error "AssertionError"
  | some objs =>
    match name with
    | none => .ok { w with tracker := some (objs ++ [obj]) }
    | some n =>
      match getModule w.ts with
      | .error e => .error e
      | .ok none => .error "RuntimeError: No module found to track"
      | .ok (some m) =>
        if (w.modules m n).isSome then
          .error "ValueError: An object with this name is already being tracked."
        else
          .ok { w with
            modules := Function.update w.modules m (Function.update (w.modules m) n (some obj)) }

/-- A factory: given the number of objects made before, what the call returns (or raises) and
whether it is a Keras layer. -/
structure Factory where
  make : Nat → Except Err Obj
  keras : Bool

/-- `make_and_track_object` (annotators.py:128-191). A call of the factory is counted even if it
raises. Returns the result and the new state. -/
def makeAndTrack (inside : Bool) (f : Factory) (name : Option String) (w : World) :
    Except Err Obj × World :=
  if ¬ inside then (.error "ValueError: This API should only be invoked inside the preprocessing_fn", w)
  else
    match (match name with | some n => getObject w n | none => .ok none) with
    | .error e => (.error e, w)
    | .ok (some o) => (.ok (some o), w)
    | .ok none =>
      let w' := { w with calls := w.calls + 1 }
      match f.make w.calls with
      | .error e => (.error e, w')
      | .ok obj =>
        if name = none ∧ f.keras then
          (.error "ValueError: Please pass a unique `name` to this API", w')
        else
          match trackObject w' obj name with
          | .error e => (.error e, w')
          | .ok w'' => (.ok obj, w'')

/-- What a process does: opening and closing graph contexts and tracker scopes
(`object_tracker_scope`, annotators.py:78-100; nested ones fail), making objects. -/
inductive Op
  | enter (st : St)
  | exit
  | openTracker
  | closeTracker
  | make (inside : Bool) (f : Factory) (name : Option String)

/-- The effect of an operation; one that raises leaves the scopes as they are. -/
def exec (w : World) : Op → World
  | .enter st => match enter st w.ts with
    | .ok ts => { w with ts := ts }
    | .error _ => w
  | .exit => { w with ts := exit w.ts }
  | .openTracker => if w.tracker = none then { w with tracker := some [] } else w
  | .closeTracker => { w with tracker := none }
  | .make inside f name => (makeAndTrack inside f name w).2

/-- `os.path.basename`: what follows the last slash. -/
def basename (p : List Char) : List Char := (p.reverse.takeWhile (· ≠ '/')).reverse

/-- The two graph collections (annotators.py:34-35). -/
structure Annotations where
  keys : List (List Char) := []
  filenames : List (List Char) := []

/-- `annotate_asset` (annotators.py:230-246). -/
def annotate (key filename : List Char) (a : Annotations) : Annotations :=
  { keys := a.keys ++ [key], filenames := a.filenames ++ [filename] }

/-- `clear_asset_annotations` (annotators.py:219-227). -/
def clear (_ : Annotations) : Annotations := {}

/-- Assignment to a key of a Python dictionary. -/
def dictSet {K V : Type} [DecidableEq K] (k : K) (v : V) : List (K × V) → List (K × V)
  | [] => [(k, v)]
  | (k', v') :: d => if k' = k then (k, v) :: d else (k', v') :: dictSet k v d

/-- `get_asset_annotations` (annotators.py:194-216). -/
def getAnnotations (a : Annotations) : Except Err (List (List Char × List Char)) :=
  if a.keys.length ≠ a.filenames.length then
    .error "AssertionError: Length of asset key and filename collections must match."
  else .ok ((a.keys.zip a.filenames).foldl
    (fun d kf => dictSet (basename kf.1) (basename kf.2) d) [])

end TFT.GraphContext
