import Verif.Cache.Output

/-!
# Counters of the use of the API

Model of `logging_context` and `log_api_use` in `common.py` and of `_InstrumentAPI` in `beam/impl.py`.
-/

namespace TFT.ApiUse

/-- `ANALYZER_COLLECTION` and `MAPPER_COLLECTION`, `common.py:26-27`. -/
inductive Collection where
  | analyzer
  | mapper
  deriving DecidableEq

/-- What a function does, as far as the counters are concerned: calls of functions decorated with
`log_api_use(c)` (`common.py:54-88`) with what these do, exceptions, and `try: body except: handler`.
Calls of other functions are replaced by what these do. -/
inductive Stmt where
  | call (c : Collection) (name : String) (body : List Stmt)
  | raise
  | attempt (body handler : List Stmt)

/-- The global `_in_logging_context`, `common.py:41`, and the collections of the default graph, each
with one `Counter`. There is one graph here: functions traced in a graph of their own are not
included. -/
structure State where
  inContext : Bool
  counters : Collection → List (String × Nat)

/-- `collection[0][fn.__name__] += 1` with a new `Counter` if there is none, `common.py:74-77`. -/
def State.count (s : State) (c : Collection) (name : String) : State :=
  { s with counters := fun c' => if c' = c then
      OutputCache.put (s.counters c) name (((s.counters c).lookup name).getD 0 + 1)
    else s.counters c' }

mutual
/-- The state after a statement, and whether it raises. `wrapped_fn`, `common.py:62-81`, and
`logging_context`, `common.py:44-51`. -/
def Stmt.run (s : State) : Stmt → State × Bool
  | .call c name body =>
    if s.inContext then runAll s body
    else
      let r := runAll ({ s with inContext := true }.count c name) body
      ({ r.1 with inContext := false }, r.2)
  | .raise => (s, true)
  | .attempt body handler =>
    let r := runAll s body
    if r.2 then runAll r.1 handler else r

@[inherit_doc Stmt.run]
def runAll (s : State) : List Stmt → State × Bool
  | [] => (s, false)
  | x :: xs =>
    let r := x.run s
    if r.2 then r else runAll r.1 xs
end

/-- `counter_prefix`, `beam/impl.py:997-998`. -/
def Collection.prefix : Collection → List Char
  | .analyzer => ['t', 'f', 't', '_', 'a', 'n', 'a', 'l', 'y', 'z', 'e', 'r', '_']
  | .mapper => ['t', 'f', 't', '_', 'm', 'a', 'p', 'p', 'e', 'r', '_']

/-- The increments of `_make_and_increment_counters`, `beam/impl.py:996-1003`, without those of
`requested_tf_compat_v1` and `running_tf_compat_v1`. -/
def increments (s : State) : List (List Char × Nat) :=
  [Collection.analyzer, .mapper].flatMap fun c =>
    (s.counters c).map fun p => (c.prefix ++ p.1.toList, p.2)

/-- The value of the metric `name` after the increments. -/
def metric (incs : List (List Char × Nat)) (name : List Char) : Nat :=
  ((incs.filter fun p => p.1 = name).map Prod.snd).sum

/-- The state in which a function is traced: a new graph. -/
def newGraph (inContext : Bool) : State := ⟨inContext, fun _ => []⟩

end TFT.ApiUse
