import Mathlib.Data.List.Basic
import Verif.Combine.Sched

/-!
# py_func tokens

Model of `py_func/pyfunc_helper.py` and of its callers in `saved/`. TensorFlow keeps the Python function
of a `py_func` node in a table of the process, under a token; a node stores the token only. Tokens are
`pyfunc_0`, `pyfunc_1`, …: a token is modelled by its number. Pickling is taken to be faithful: a function
is the same value after it was pickled and unpickled. Names, types and inputs of nodes are not modelled.
-/

namespace TFT.PyFunc

variable {F : Type}

/-- A token, `pyfunc_<n>`. -/
abbrev Token := Nat

/-- The table of a process: the functions in the order in which they were registered (TensorFlow's
`FuncRegistry`: the number in the token is a counter). -/
abbrev Proc (F : Type) := List F

/-- The function that a node with this token calls; none: running the node fails. -/
def calls (p : Proc F) (t : Token) : Option F := p[t]?

/-- A node of a graph: is its op `PyFunc` or `PyFuncStateless`, and its token (otherwise irrelevant). -/
structure Node where
  isPy : Bool
  token : Token
deriving DecidableEq

/-- A graph (or a `MetaGraphDef`): its nodes, the nodes of the functions in its library (bodies of
`tf.function`s, of loops, of dataset transformations), and the collection `pyfuncs`. TensorFlow writes a
collection to a `MetaGraphDef` iff it is not empty. -/
structure Graph (F : Type) where
  nodes : List Node
  library : List Node
  coll : List (Token × F)

/-- The empty graph. -/
def Graph.empty : Graph F := ⟨[], [], []⟩

/-- `insert_pyfunc`, `pyfunc_helper.py:81-96`: `tf.py_func` registers the function and adds a node;
`outputs` is the number of tensors it returns. -/
def insertPyfunc (p : Proc F) (g : Graph F) (f : F) (outputs : Nat) : Proc F × Except Err (Graph F) :=
  (p ++ [f],
    if outputs = 0 then .error "ValueError: func must return a tensor or list of tensors"
    else .ok { g with nodes := g.nodes ++ [⟨true, p.length⟩], coll := g.coll ++ [(p.length, f)] })

/-- The loop that re-inserts the saved functions, `pyfunc_helper.py:136-153`: the process, the graph, and
the assignments to `new_tokens_by_old_token` in order. -/
def reinsert (p : Proc F) (g : Graph F) : List (Token × F) → Proc F × Graph F × List (Token × Token)
  | [] => (p, g, [])
  | (old, f) :: rest =>
    let r := reinsert (p ++ [f])
      { g with nodes := g.nodes ++ [⟨true, p.length⟩], coll := g.coll ++ [(p.length, f)] } rest
    (r.1, r.2.1, (old, p.length) :: r.2.2)

/-- `new_tokens_by_old_token.get(token)`: the last assignment to a key counts. -/
def newToken (m : List (Token × Token)) (t : Token) : Option Token :=
  (m.reverse.find? (fun e => decide (e.1 = t))).map Prod.snd

/-- The body of the loop over the nodes, `pyfunc_helper.py:168-176`. -/
def remapNode (m : List (Token × Token)) (expected : List Token) (n : Node) : Except Err Node :=
  if n.isPy then
    match newToken m n.token with
    | some t => .ok { n with token := t }
    | none => if n.token ∈ expected then .ok n else .error "ValueError: Function was not registered"
  else .ok n

/-- `register_pyfuncs_from_saved_transform`, `pyfunc_helper.py:99-177`: the process, the graph with the
re-inserted functions, and the nodes of the returned `graph_def` (none: `None` is returned). -/
def register (p : Proc F) (g : Graph F) (meta_ : Graph F) (tf2 : Bool) :
    Proc F × Graph F × Except Err (Option (List Node)) :=
  if meta_.coll = [] then (p, g, .ok none)
  else
    let r := reinsert p g meta_.coll
    let m := r.2.2
    let nodes := if tf2 then r.2.1.nodes else meta_.nodes
    let expected := if tf2 then m.map Prod.fst ++ m.map Prod.snd else m.map Prod.fst
    (r.1, r.2.1,
      if m = [] then .ok (some nodes)
      else match nodes.mapM (remapNode m expected) with
        | .error e => .error e
        | .ok ns => .ok (some ns))

/-- Loading a saved transform into a graph in TF1, `saved_transform_io.py:240-301`. The tokens of
`meta_graph.graph_def` are changed in place; `import_meta_graph` then adds the nodes, the library and the
collections of the `MetaGraphDef` to the graph. -/
def loadV1 (p : Proc F) (g saved : Graph F) : Proc F × Except Err (Graph F) :=
  let r := register p g saved false
  (r.1, match r.2.2 with
    | .error e => .error e
    | .ok none => .ok ⟨r.2.1.nodes ++ saved.nodes, r.2.1.library ++ saved.library, r.2.1.coll⟩
    | .ok (some ns) => .ok ⟨r.2.1.nodes ++ ns, r.2.1.library ++ saved.library, r.2.1.coll ++ saved.coll⟩)

/-- Loading a transform saved by TF1 in TF2, `saved_transform_io_v2.py:46-72`: `tf.saved_model.load` makes
a graph with the saved nodes; the nodes of the returned function are those of the changed `graph_def`. -/
def loadV2 (p : Proc F) (saved : Graph F) : Proc F × Except Err (List Node) :=
  let r := register p { saved with coll := [] } saved true
  (r.1, match r.2.2 with
    | .error e => .error e
    | .ok none => .ok saved.nodes
    | .ok (some ns) => .ok ns)

end TFT.PyFunc
