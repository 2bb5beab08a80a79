import Verif.Mappers.Sparse

/-!
# Specification vocabulary for sparse text mappers
-/

namespace TFT.Sparse.Spec
open TFT.Sparse

variable {α : Type}

/-- The values of row `i` of a sparse tensor, in the order of its entries. -/
def rowOf (x : Tensor α) (i : Nat) : List α :=
  (x.entries.filter (fun e => e.1.1 = i)).map Prod.snd

/-- The values of row `i` of a sparse tensor, by increasing column. -/
def rowByColumn (x : Tensor α) (i : Nat) : List α :=
  ((x.entries.filter (fun e => e.1.1 = i)).insertionSort (fun a b => a.1.2 ≤ b.1.2)).map Prod.snd

/-- A well-formed sparse tensor whose entries come row by row. -/
structure RowOrdered (x : Tensor α) : Prop where
  sorted : x.entries.Pairwise (fun a b => a.1.1 ≤ b.1.1)
  bound : ∀ e ∈ x.entries, e.1.1 < x.rows

/-- The entries of the left-aligned sparse tensor with the given rows. -/
def ofRows (f : Nat → List α) (rows : Nat) : List ((Nat × Nat) × α) :=
  (List.range rows).flatMap (fun i => (f i).mapIdx (fun j v => ((i, j), v)))

/-- The length of the longest row. -/
def width (f : Nat → List α) (rows : Nat) : Nat :=
  ((List.range rows).map (fun i => (f i).length)).foldr max 0

/-- The distinct values of a list in the order of their first occurrences. -/
def firstOccurrences [DecidableEq α] (l : List α) : List α :=
  (l.zipIdx.filter (fun p => p.1 ∉ l.take p.2)).map Prod.fst

/-- All n-grams of one row: for every start position and every length from `lo` to `hi` that
fits, the tokens joined with the separator. -/
def gramsOf (lo hi : Nat) (sep : Str) (ts : List Str) : List Str :=
  (List.range ts.length).flatMap (fun j =>
    (List.range' lo (hi + 1 - lo)).filterMap (fun k =>
      if j + k ≤ ts.length then some (sep.intercalate ((ts.drop j).take k)) else none))

end TFT.Sparse.Spec
