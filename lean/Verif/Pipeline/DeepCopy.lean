import Mathlib.Data.List.Basic
import Std.Data.String.ToNat
import Verif.Combine.Sched

/-!
# Deep copies of PCollections

Model of `beam/deep_copy.py`. PCollections and applied transforms are numbered. Resource hints,
windowing, element types and the composite hierarchy above the copied transforms are not modelled.
-/

namespace TFT.DeepCopy

/-- A tag of an output. -/
abbrev Tag := Nat

/-- A Beam pipeline graph, as far as deep copies look at it. -/
structure Graph where
  /-- PCollections have numbers below `size`. -/
  size : Nat
  /-- The value is a `PBegin`. -/
  isBegin : Nat → Bool
  /-- From the producer of a PCollection up its composite parents: is the class of the transform one of
  `_MATERIALIZATION_BARRIER_TRANSFORMS` (`deep_copy.py:36-42`), and is the PCollection an output of the
  parent? -/
  ancestry : Nat → List (Bool × Bool)
  /-- The transform that produces a PCollection. -/
  producer : Nat → Option Nat
  /-- The inputs of a transform. -/
  inputs : Nat → List Nat
  /-- The tagged outputs of a transform. -/
  outputs : Nat → List (Tag × Nat)
  /-- The transform is a composite one. -/
  hasParts : Nat → Bool
  /-- The full label of a transform. -/
  label : Nat → String

/-- The loop of `_is_at_materialization_boundary`, `deep_copy.py:45-62`. -/
def climb : List (Bool × Bool) → Bool
  | [] => false
  | (isBarrier, inParent) :: up => if isBarrier then true else if inParent then climb up else false

/-- `_is_at_materialization_boundary`, `deep_copy.py:45-62`. -/
def Graph.atBoundary (g : Graph) (pc : Nat) : Bool := climb (g.ancestry pc)

/-- An item to clone. -/
inductive Item where
  | pc (n : Nat)
  | pt (n : Nat)
deriving DecidableEq

/-- The local variables of `_get_items_to_clone`. The set `seen` is split by kind. -/
structure Search where
  queue : List Nat
  seenPc : List Nat
  seenPt : List Nat
  rev : List Item

/-- The loop over the inputs, `deep_copy.py:124-127`. -/
def pushInputs (inputs : List Nat) (queue seen : List Nat) : List Nat × List Nat :=
  inputs.foldl (fun s i => if i ∈ s.2 then s else (s.1 ++ [i], s.2 ++ [i])) (queue, seen)

/-- The body of the loop, `deep_copy.py:98-127`, for a PCollection taken from the queue. -/
def visit (g : Graph) (pc : Nat) (s : Search) : Except Err Search :=
  if g.isBegin pc || g.atBoundary pc then .ok s
  else match g.producer pc with
    | none => .error "ValueError: PCollection node has invalid producer"
    | some t =>
      if t ∈ s.seenPt then .ok { s with rev := s.rev ++ [.pc pc] }
      else
        let others := ((g.outputs t).map Prod.snd).filter (fun o => decide (o ∉ s.seenPc))
        let pushed := pushInputs (g.inputs t) s.queue s.seenPc
        .ok { queue := pushed.1
              seenPc := pushed.2
              seenPt := s.seenPt ++ [t]
              rev := s.rev ++ [.pc pc] ++ others.map Item.pc ++ [.pt t] }

/-- The loop of `_get_items_to_clone`, `deep_copy.py:97-127`. Every PCollection enters the queue once, so
`g.size + 1` rounds are enough (`itemsToClone_ok`). -/
def search (g : Graph) : Nat → Search → Except Err Search
  | 0, _ => .error "not finished"
  | n + 1, s =>
    match s.queue with
    | [] => .ok s
    | pc :: rest =>
      match visit g pc { s with queue := rest } with
      | .error e => .error e
      | .ok s' => search g n s'

/-- `_get_items_to_clone`, `deep_copy.py:65-129`. -/
def itemsToClone (g : Graph) (pc : Nat) : Except Err (List Item) :=
  match search g (g.size + 1) ⟨[pc], [pc], [], []⟩ with
  | .error e => .error e
  | .ok s => .ok s.rev.reverse

/-- A PCollection or transform of the pipeline after copying: an original, or the copy of one (nothing
is cloned twice). -/
inductive Ref where
  | orig (n : Nat)
  | copy (n : Nat)
deriving DecidableEq

/-- The copy of a transform. -/
structure CopiedPt where
  label : String
  inputs : List Ref
  outputs : List (Tag × Nat)

/-- The variables of `_clone_items`: copied PCollections with their producers, copied transforms, and the
labels of the pipeline. -/
structure Clones where
  pcs : List (Nat × Ref)
  pts : List (Nat × CopiedPt)
  labels : List String

/-- `pcollection_replacements.get(old_input, old_input)`, `deep_copy.py:216-219`. -/
def resolve (pcs : List (Nat × Ref)) (i : Nat) : Ref :=
  if i ∈ pcs.map Prod.fst then .copy i else .orig i

/-- The label with a number. -/
def copyLabel (full : String) (count : Nat) : String := full ++ ".Copy" ++ Nat.repr count

/-- The loop for a new label, `deep_copy.py:206-213`: the first one that is free. One of the first
`labels.length + 1` is (`freshLabel_some`). -/
def freshLabel (labels : List String) (full : String) : Option String :=
  ((List.range (labels.length + 1)).map (copyLabel full)).find? (fun l => decide (l ∉ labels))

/-- The update of the outputs of the copied producer, `deep_copy.py:163-169`. -/
def addOutputs (outs : List (Tag × Nat)) (pc : Nat) (c : CopiedPt) : CopiedPt :=
  { c with outputs := c.outputs ++ outs.filter (fun o => decide (o.2 = pc)) }

/-- The body of the loop of `_clone_items`, `deep_copy.py:152-257`. -/
def cloneItem (g : Graph) (s : Clones) (item : Item) : Except Err Clones :=
  match item with
  | .pc n =>
    if n ∈ s.pcs.map Prod.fst then .error "AssertionError: item not in pcollection_replacements"
    else match g.producer n with
      | none => .error "AttributeError: 'NoneType' object has no attribute 'transform'"
      | some t =>
        if t ∈ s.pts.map Prod.fst then
          .ok { s with
            pcs := s.pcs ++ [(n, .copy t)]
            pts := s.pts.map (fun e => if e.1 = t then (e.1, addOutputs (g.outputs t) n e.2) else e) }
        else .ok { s with pcs := s.pcs ++ [(n, .orig t)] }
  | .pt t =>
    if t ∈ s.pts.map Prod.fst then .error "AssertionError: item not in ptransform_replacements"
    else if g.hasParts t then .error "AssertionError: Reached invalid composite AppliedPTransform"
    else match freshLabel s.labels (g.label t) with
      | none => .error "not finished"
      | some l =>
        .ok { s with
          pts := s.pts ++ [(t, ⟨l, (g.inputs t).map (resolve s.pcs), []⟩)]
          labels := s.labels ++ [l] }

/-- `_clone_items`, `deep_copy.py:132-259`. -/
def cloneItems (g : Graph) (labels : List String) (items : List Item) : Except Err Clones :=
  items.foldlM (cloneItem g) ⟨[], [], labels⟩

/-- `deep_copy`, `deep_copy.py:266-284`: the copied PCollections and transforms, and the copy of the
PCollection itself. -/
def deepCopy (g : Graph) (labels : List String) (pc : Nat) : Except Err (Clones × Ref) := do
  let items ← itemsToClone g pc
  let s ← cloneItems g labels items
  if pc ∈ s.pcs.map Prod.fst then .ok (s, .copy pc) else .error "KeyError"

end TFT.DeepCopy
