import Verif.Vocab.Model
import Verif.Output.VocabAccess
import Mathlib.Data.List.Lex

/-!
# Reserved tokens of several vocabularies

Model of the way from the argument `reserved_tokens` of `tft.vocabulary`,
`tft.compute_and_apply_vocabulary` and their approximate relatives to the files, in a
`preprocessing_fn` with any number of vocabularies. The tokens go through a collection of the graph
that is searched by name.
-/

namespace TFT.Reserved

open TFT.Vocab TFT.VocabAccess

/-- Python's `bytes`, a list of numbers below 256. They are compared like lists. -/
abbrev Bytes := List Nat

/-- The value of a tensor of strings, by its number of axes. Of matrices and tensors with more axes
only the number of their elements is kept. -/
inductive Value
  | scalar (s : Bytes)
  | vector (tokens : List Bytes)
  | more (size : Nat)
  deriving DecidableEq

/-- `tf.size` (tf_utils.py:2298). -/
def Value.size : Value → Nat
  | .scalar _ => 1
  | .vector l => l.length
  | .more n => n

/-- A tensor of the graph. `known` tells if a session can compute it before the analysis: the value
of a tensor that depends on features or on other analyzers is that of a placeholder. -/
structure Tensor where
  value : Value
  known : Bool
  deriving DecidableEq

/-- The argument `reserved_tokens`: a list, a text or a tensor (analyzers.py:1923). Texts are taken
as encoded. -/
inductive Arg
  | tokens (l : List Bytes)
  | text (s : Bytes)
  | tensor (t : Tensor)
  deriving DecidableEq

/-- `tf.constant(reserved_tokens, dtype=tf.string)` unless it is a tensor (tf_utils.py:2294-2295). -/
def Arg.toTensor : Arg → Tensor
  | .tokens l => ⟨.vector l, true⟩
  | .text s => ⟨.scalar s, true⟩
  | .tensor t => t

/-- The two collections of the graph (tf_utils.py:2296-2297). -/
structure Registry where
  names : List Text := []
  tensors : List Tensor := []

/-- `register_vocabulary_reserved_tokens` (tf_utils.py:2290-2298) without its result. -/
def register (g : Registry) (name : Text) (a : Arg) : Registry :=
  ⟨g.names ++ [name], g.tensors ++ [a.toTensor]⟩

/-- `session.run` (tf_utils.py:2307-2308). -/
def run (t : Tensor) : Except String Value :=
  if t.known then .ok t.value else .error "InvalidArgumentError"

/-- `fetch_vocabulary_reserved_tokens` (tf_utils.py:2301-2308). -/
def fetch (g : Registry) (name : Text) : Except String Value :=
  if g.names.length ≠ g.tensors.length then .error "AssertionError"
  else match g.tensors[g.names.idxOf name]? with
    | none => .error "ValueError"
    | some t => run t

/-- A call of an analyzer of vocabularies: its arguments, and its entries after pruning (see
C09-C13 and C92) with the batches they are ordered in. `sorted` is `input_is_sorted`
(analyzers.py:2300-2302, experimental/analyzers.py:512). -/
structure Call where
  name : Option Text
  scope : Text
  approximate : Bool := false
  storeFrequency : Bool := false
  format : Format := .text
  reserved : Option Arg
  sorted : Bool
  fingerprint : Option (Bytes → Nat) := none
  dummy : ℚ × Bytes
  counts : List (ℚ × Bytes)
  batches : List (List (ℚ × Bytes))

/-- The call as a request of `Output/VocabAccess`. -/
def Call.request (c : Call) : Request :=
  { name := c.name, scope := c.scope, approximate := c.approximate,
    storeFrequency := c.storeFrequency, format := c.format, entries := [], size := 0 }

/-- The name under which reserved tokens are registered: the name of the file without the suffix of
compressed files (analyzers.py:2281-2287, experimental/analyzers.py:496-500). -/
def Call.registered (K : Classes) (c : Call) : Text := stem K c.request

/-- The collections after all calls (analyzers.py:2280-2283, experimental/analyzers.py:495-496). -/
def registry (K : Classes) (cs : List Call) : Registry :=
  cs.foldl (fun g c => match c.reserved with
    | none => g
    | some a => register g (c.registered K) a) {}

/-- `str(n).encode()`, which Beam writes for a number (beam `ToBytesCoder`), and which
`_count_and_token_to_bytes` puts after the count (beam/analyzer_impls.py:101-107). -/
def decimal (n : Nat) : Bytes := (Nat.toDigits 10 n).map Char.toNat

/-- The line of an entry (beam/analyzer_impls.py:101-107, 149-153). -/
def line (withCount : ℚ × Bytes → Bytes) (c : Call) (e : ℚ × Bytes) : Bytes :=
  if c.storeFrequency then withCount e else e.2

/-- `_VocabularyOrderAndWriteImpl` with its second input (beam/analyzer_impls.py:123-153, 498-577).
`set` and iteration of a Python `bytes` give its numbers, which are no tokens of the data; the rows
of a matrix cannot be put into a set. -/
def write (withCount : ℚ × Bytes → Bytes) (c : Call) : Option Value → Except String (List Bytes)
  | none => orderAndWrite c.sorted c.fingerprint c.dummy (line withCount c) none c.counts c.batches
  | some (.vector r) =>
    orderAndWrite c.sorted c.fingerprint c.dummy (line withCount c) (some r) c.counts c.batches
  | some (.scalar s) =>
    .ok ((maybeAddDummy c.dummy (s.map (fun b => ((-1 : ℚ), decimal b)) ++
      sortEntries c.fingerprint ((c.batches.map (sortEntries c.fingerprint)).flatten))).map
        (line withCount c))
  | some (.more _) => .error "TypeError"

/-- The input with the reserved tokens, `_ExtractVocabularyReservedTokensImpl`
(beam/analyzer_impls.py:1606-1622): there is one if the call has reserved tokens. -/
def extracted (K : Classes) (g : Registry) (c : Call) : Except String (Option Value) :=
  match c.reserved with
  | none => .ok none
  | some _ => (fetch g (c.registered K)).map some

/-- One vocabulary. -/
def vocabulary (K : Classes) (withCount : ℚ × Bytes → Bytes) (g : Registry) (c : Call) :
    Except String (List Bytes) :=
  (extracted K g c).bind (write withCount c)

/-- All vocabularies of a `preprocessing_fn`, in the order of the calls: the lines that are written
for each, or the first error. -/
def all (f : Call → Except String (List Bytes)) : List Call → Except String (List (List Bytes))
  | [] => .ok []
  | c :: cs => (f c).bind (fun l => (all f cs).map (l :: ·))

/-- The analysis (analyzers.py:2278-2304, experimental/analyzers.py:494-515). -/
def analyze (K : Classes) (withCount : ℚ × Bytes → Bytes) (cs : List Call) :
    Except String (List (List Bytes)) :=
  all (vocabulary K withCount (registry K cs)) cs

/-- What is added to both sizes of the vocabulary (analyzers.py:2278-2283, 2328-2329). -/
def reservedSize (c : Call) : Nat :=
  match c.reserved with
  | none => 0
  | some a => a.toTensor.value.size

end TFT.Reserved
