import Verif.Combine.Sched
import Mathlib.Logic.Function.Basic

/-!
# `ExampleProtoCoder`

Model of `coders/example_proto_coder.py`. The coder reuses one `tf.train.Example`; its handlers
keep references to the repeated fields of it, which a `Clear()` of the feature detaches (this is how
protobuf messages behave; it is modelled here, not taken from the repository).
-/

namespace TFT.ExampleCoder

/-- The three lists of the `kind` oneof of `tf.train.Feature`. -/
inductive Kind
  | int64
  | float
  | bytes
  deriving DecidableEq

/-- A Python value given for a feature: `None`, a scalar, a list of scalars, or an `ndarray` with its
shape and its elements in row-major order. -/
inductive PyVal (S : Type)
  | none
  | scalar (s : S)
  | list (l : List S)
  | array (shape : List Nat) (flat : List S)

/-- The feature in the Example: the list that is set, if any, and a counter of the `Clear()` calls:
a reference obtained before the last one no longer belongs to the feature. -/
structure Feature (S : Type) where
  content : Option (Kind × List S) := none
  generation : Nat := 0

/-- A handler: `_FixedLenFeatureHandler` (example_proto_coder.py:90-104; rank and size) or
`_VarLenFeatureHandler` (example_proto_coder.py:139-148). -/
structure Handler where
  name : String
  kind : Kind
  fixed : Option (Nat × Nat)
  deriving DecidableEq

/-- The state of a coder: the features of `_encode_example_cache`, and for each handler (by position)
the generation of its feature when its reference `_value` was taken. -/
structure State (S : Type) where
  features : String → Feature S
  refs : Nat → Nat

/-- The state made by `__init__` (example_proto_coder.py:203, 261-262). -/
def init (S : Type) : State S := ⟨fun _ => {}, fun _ => 0⟩

section
variable {S : Type}

/-- What `append` and the iteration of `extend` accept: `_cast_fn` (example_proto_coder.py:27-64)
followed by the type check of the repeated field. -/
abbrev Accept (S : Type) := Kind → S → Except Err S

/-- `np.asarray(values, dtype).reshape(-1)`. -/
abbrev Flatten (S : Type) := Kind → PyVal S → Except Err (List S)

/-- The values of the list of the given kind: empty unless it is the list that is set. -/
def current (k : Kind) : Option (Kind × List S) → List S
  | some (k', l) => if k' = k then l else []
  | none => []

/-- Mutating the list through the reference of handler `i`. Writing through a live reference sets the
list of that kind; a detached one changes nothing in the Example. -/
def write (h : Handler) (i : Nat) (f : List S → List S) (st : State S) : State S :=
  let feature := st.features h.name
  if st.refs i = feature.generation then
    { st with
      features := Function.update st.features h.name
        { feature with content := some (h.kind, f (current h.kind feature.content)) } }
  else st

/-- `_feature.Clear()` and taking the reference again (example_proto_coder.py:164-167). -/
def clear (h : Handler) (i : Nat) (st : State S) : State S :=
  let g := (st.features h.name).generation + 1
  { features := Function.update st.features h.name ⟨none, g⟩
    refs := Function.update st.refs i g }

/-- `self._value.extend(...)`: elements are converted and added one by one, so that an error leaves
those before it in the list. -/
def extend (accept : Accept S) (h : Handler) (i : Nat) :
    List S → State S → Except Err Unit × State S
  | [], st => (.ok (), st)
  | x :: xs, st =>
    match accept h.kind x with
    | .error e => (.error e, st)
    | .ok y => extend accept h i xs (write h i (· ++ [y]) st)

/-- The elements that iterating over a value gives; arrays of other ranks give rows, which no
repeated field takes, or cannot be iterated. -/
def elements : PyVal S → Except Err (List S)
  | .list l => .ok l
  | .array [_] flat => .ok flat
  | .none => .error "TypeError: object of type 'NoneType' has no len()"
  | .scalar _ => .error "TypeError: object has no len()"
  | .array _ _ => .error "TypeError: iteration over a 0-d array or rows of an array"

/-- The scalar that a handler of rank 0 appends (example_proto_coder.py:119-123); a list is not a
scalar, so the append fails. -/
def scalarOf : PyVal S → Except Err S
  | .scalar s => .ok s
  | .array _ [s] => .ok s
  | .array _ _ => .error "ValueError: can only convert an array of size 1 to a Python scalar"
  | .none => .error "TypeError: None has type NoneType"
  | .list _ => .error "TypeError: list"

/-- `_FixedLenFeatureHandler.encode_value` (example_proto_coder.py:116-136). -/
def encodeFixed (accept : Accept S) (flatten : Flatten S) (h : Handler) (i rank size : Nat)
    (values : PyVal S) (st : State S) : Except Err Unit × State S :=
  let st := write h i (fun _ => []) st
  if rank = 0 then
    match scalarOf values with
    | .error e => (.error e, st)
    | .ok s => extend accept h i [s] st
  else
    match (if rank = 1 then elements values else flatten h.kind values) with
    | .error e => (.error e, st)
    | .ok flat =>
      if flat.length ≠ size then (.error "ValueError: FixedLenFeature got wrong number of values", st)
      else extend accept h i flat st

/-- `_VarLenFeatureHandler.encode_value` (example_proto_coder.py:161-174). -/
def encodeVarLen (accept : Accept S) (h : Handler) (i : Nat) (values : PyVal S) (st : State S) :
    Except Err Unit × State S :=
  match values with
  | .none => (.ok (), clear h i st)
  | values =>
    let st := write h i (fun _ => []) st
    match (match values with | .scalar s => Except.ok [s] | v => elements v) with
    | .error e => (.error e, st)
    | .ok flat => extend accept h i flat st

/-- `encode_value` of either handler. -/
def encodeValue (accept : Accept S) (flatten : Flatten S) (h : Handler) (i : Nat)
    (values : PyVal S) (st : State S) : Except Err Unit × State S :=
  match h.fixed with
  | some (rank, size) => encodeFixed accept flatten h i rank size values st
  | none => encodeVarLen accept h i values st

/-- The loop of `encode` (example_proto_coder.py:270-277) from handler number `i` on. -/
def encodeLoop (accept : Accept S) (flatten : Flatten S) (inst : List (String × PyVal S)) :
    List Handler → Nat → State S → Except Err Unit × State S
  | [], _, st => (.ok (), st)
  | h :: hs, i, st =>
    match inst.lookup h.name with
    | none => (.error "KeyError", st)
    | some v =>
      match encodeValue accept flatten h i v st with
      | (.error e, st) => (.error e, st)
      | (.ok (), st) => encodeLoop accept flatten inst hs (i + 1) st

/-- `encode` (example_proto_coder.py:267-284): the features of the returned Example, in the order of
the handlers. Serialization of the message is not modelled. -/
def encode (accept : Accept S) (flatten : Flatten S) (handlers : List Handler)
    (inst : List (String × PyVal S)) (st : State S) :
    Except Err (List (String × Option (Kind × List S))) × State S :=
  match encodeLoop accept flatten inst handlers 0 st with
  | (.error e, st) => (.error e, st)
  | (.ok (), st) => (.ok (handlers.map (fun h => (h.name, (st.features h.name).content))), st)

end

end TFT.ExampleCoder
