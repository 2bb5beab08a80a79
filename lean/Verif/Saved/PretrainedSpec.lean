import Verif.Saved.Pretrained

/-!
# C89: what a model computes on its own
-/

namespace TFT.Pretrained

open TFT.SavedLoad

variable {V : Type}

/-- A node of a model whose variables have the given values; a variable without value cannot be
computed. -/
def asNode (vars : Str → Option V) : PNode V → Node V
  | .placeholder o => { out := o, op := .placeholder, ins := [] }
  | .compute o f is => { out := o, op := .compute f, ins := is }
  | .readVar o x =>
    { out := o
      op := match vars x with
        | some v => .compute (fun _ => v)
        | none => .placeholder
      ins := [] }

/-- The tensors that have to be computed for some tensors. -/
inductive Needs (nodes : List (PNode V)) (outs : List Str) : Str → Prop
  | out {t : Str} : t ∈ outs → Needs nodes outs t
  | step {n : PNode V} {t : Str} : n ∈ nodes → Needs nodes outs n.out → t ∈ n.ins →
      Needs nodes outs t

/-- The tensor that is given for a tensor of a model with the given inputs (names in the signature and
tensors). -/
def givenFor (signature : List (Str × Str)) (inputs : Inputs) (n : Str) : Option Str :=
  match signature.find? (fun e => e.2 = n), inputs with
  | none, _ => none
  | some e, .dict d => d.lookup e.1
  | some _, .single t => some t

/-- The values of a run of a model on its own: its inputs have the values of the given tensors, its
asset paths are those of the files in the SavedModel, and everything else can be fed under its name
in the scope. -/
def runModel (constant : Str → V) (nodes : List (PNode V)) (vars : Str → Option V)
    (assets : List (Str × Str)) (given : Str → Option Str) (value feeds : Str → Option V)
    (scope : Str) : Str → Option V :=
  run (nodes.map (asNode vars)) (fun n =>
    match assets.lookup n with
    | some path => some (constant path)
    | none =>
      match given n with
      | some t => value t
      | none => feeds (scope ++ "/".toList ++ n))

/-- The tensors that are given are for the inputs of the signature: for each of them one, under its
name, or a single tensor for the only input. -/
def GivesAll (signature : List (Str × Str)) : Inputs → Prop
  | .dict d => (d.map Prod.fst).Nodup ∧ ∀ k, k ∈ d.map Prod.fst ↔ k ∈ signature.map Prod.fst
  | .single _ => signature.length = 1

def Inputs.tensors : Inputs → List Str
  | .dict d => d.map Prod.snd
  | .single t => [t]

/-- The signature that is meant: the one of the name, or the only one. -/
def Meant (signatures : List (Str × Signature)) (name : Option Str) (s : Signature) : Prop :=
  match name with
  | some n => n ≠ [] ∧ (signatures.map Prod.fst).Nodup ∧ (n, s) ∈ signatures
  | none => ∃ n, signatures = [(n, s)]

/-- The names of the tensors of the outputs that are asked for; without keys, of the only output. -/
def asked (signature : List (Str × Str)) (keys : List Str) : List Str :=
  if keys = [] then signature.map Prod.snd else keys.filterMap (fun k => signature.lookup k)

end TFT.Pretrained
