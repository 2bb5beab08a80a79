import Verif.Combine.Sched
import Mathlib.Logic.Function.Basic

/-!
# `tft_beam.Context`

Model of the context manager of `beam/context.py`, with Python's `with`, `raise` and `try` around it.
-/

namespace TFT.BeamContext

/-- `Context._State` (beam/context.py:56-65); also the arguments of a `Context`
(beam/context.py:83-104). `SaveOptions` objects are numbered; they are always truthy, so the `or` of
line 126 is the same choice as the conditional expressions of lines 111-125. -/
structure Opts where
  tempDir : Option String := none
  batchSize : Option Int := none
  passthrough : Option (List String) := none
  deepCopy : Option Bool := none
  compatV1 : Option Bool := none
  save : Option Nat := none
  deriving DecidableEq, Repr

/-- `self._thread_local.state`: absent, or a `_StateStack` whose last frame is the head here
(beam/context.py:71-75, 81). -/
abbrev TS := Option (List Opts)

/-- `Context.__init__` (beam/context.py:92-97): the thread gets a stack with an empty frame unless it
has one. -/
def construct : TS → TS
  | none => some [{}]
  | some fs => some fs

/-- `_get_topmost_state_frame` (beam/context.py:133-137). -/
def topmost : TS → Opts
  | some (f :: _) => f
  | _ => {}

/-- `Context.__enter__` (beam/context.py:106-128). -/
def enter (o : Opts) (ts : TS) : Except Err TS :=
  let last := topmost ts
  match ts with
  | none => .error "AttributeError: '_thread._local' object has no attribute 'state'"
  | some fs => .ok (some
      ({ tempDir := if o.tempDir ≠ none then o.tempDir else last.tempDir
         batchSize := if o.batchSize ≠ none then o.batchSize else last.batchSize
         passthrough := if o.passthrough ≠ none then o.passthrough else last.passthrough
         deepCopy := if o.deepCopy ≠ none then o.deepCopy else last.deepCopy
         compatV1 := if o.compatV1 ≠ none then o.compatV1 else last.compatV1
         save := if o.save.isSome then o.save else last.save } :: fs))

/-- `Context.__exit__` (beam/context.py:130-131). -/
def exit : TS → Except Err TS
  | none => .error "AttributeError: '_thread._local' object has no attribute 'state'"
  | some [] => .error "IndexError: pop from empty list"
  | some (_ :: fs) => .ok (some fs)

/-- `os.path.join` for a non-empty first part and a relative second one. -/
def joinPath (a b : String) : String := if a.endsWith "/" then a ++ b else a ++ "/" ++ b

/-- What the class methods return (beam/context.py:139-204). The directory that
`create_base_temp_dir` makes is not modelled, nor is what TensorFlow's version adds to
`force_tf_compat_v1`. -/
structure Obs where
  tempDir : Except Err String
  batchSize : Option Int
  passthrough : List String
  deepCopy : Bool
  compatV1 : Bool
  save : Option Nat

/-- The getters (beam/context.py:139-204). -/
def observe (ts : TS) : Obs :=
  let state := topmost ts
  { tempDir := match state.tempDir with
      | none => .error "ValueError: no temp dir was set"
      | some d => if d = "" then .error "ValueError: no temp dir was set"
                  else .ok (joinPath d "tftransform_tmp")
    batchSize := state.batchSize
    passthrough := state.passthrough.getD []
    deepCopy := state.deepCopy.getD false
    compatV1 := state.compatV1.getD false
    save := state.save }

/-- Python programs that use contexts: constructing one, asking for the options, raising an exception,
catching it, and `with` blocks. -/
inductive Prog
  | skip
  | query
  | raise
  | seq (p q : Prog)
  | try_ (p handler : Prog)
  | new
  | block (o : Opts) (body : Prog)

/-- What running a program does: the answers to its queries, whether an exception leaves it, the
state of the thread. -/
structure Result where
  obs : List Obs
  raised : Bool
  ts : TS

/-- Running a program. A `with` block whose `__enter__` raises does not run its body and does not
call `__exit__`; otherwise `__exit__` is called however the body ends, and the exception of the
body propagates, since `__exit__` returns `None`. -/
def run : Prog → TS → Result
  | .skip, ts => ⟨[], false, ts⟩
  | .query, ts => ⟨[observe ts], false, ts⟩
  | .raise, ts => ⟨[], true, ts⟩
  | .new, ts => ⟨[], false, construct ts⟩
  | .seq p q, ts =>
    let r := run p ts
    if r.raised then r
    else
      let r' := run q r.ts
      ⟨r.obs ++ r'.obs, r'.raised, r'.ts⟩
  | .try_ p handler, ts =>
    let r := run p ts
    if r.raised then
      let r' := run handler r.ts
      ⟨r.obs ++ r'.obs, r'.raised, r'.ts⟩
    else r
  | .block o body, ts =>
    match enter o ts with
    | .error _ => ⟨[], true, ts⟩
    | .ok ts' =>
      let r := run body ts'
      match exit r.ts with
      | .error _ => ⟨r.obs, true, r.ts⟩
      | .ok ts'' => ⟨r.obs, r.raised, ts''⟩

/-- What one thread does to the contexts, one call at a time. -/
inductive Event
  | construct
  | enter (o : Opts)
  | exit
  | query

/-- The state of all threads (`threading.local`). -/
abbrev Threads (T : Type) := T → TS

/-- One call on thread `t` (a call that raises leaves the state as it is). -/
def step {T : Type} [DecidableEq T] (σ : Threads T) (te : T × Event) : Threads T × List (T × Obs) :=
  match te.2 with
  | .construct => (Function.update σ te.1 (construct (σ te.1)), [])
  | .enter o => match enter o (σ te.1) with
    | .ok ts => (Function.update σ te.1 ts, [])
    | .error _ => (σ, [])
  | .exit => match exit (σ te.1) with
    | .ok ts => (Function.update σ te.1 ts, [])
    | .error _ => (σ, [])
  | .query => (σ, [(te.1, observe (σ te.1))])

/-- A history of calls on all threads. -/
def history {T : Type} [DecidableEq T] (σ : Threads T) :
    List (T × Event) → Threads T × List (T × Obs)
  | [] => (σ, [])
  | te :: tes =>
    let r := step σ te
    let r' := history r.1 tes
    (r'.1, r.2 ++ r'.2)

end TFT.BeamContext
