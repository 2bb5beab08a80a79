import Verif.Combine.Sched

/-! Python built-ins used by several models (not code of the repository). -/

namespace TFT

/-- The number of tuples that Python's `zip(*ls)` yields: the length of the shortest list
(none for no lists). -/
def zipLen {β : Type} : List (List β) → Nat
  | [] => 0
  | [l] => l.length
  | l :: ls => min l.length (zipLen ls)

/-- Python's `zip(*ls)`. -/
def zipStar {β : Type} (ls : List (List β)) : List (List β) :=
  (List.range (zipLen ls)).map (fun j => ls.filterMap (fun l => l[j]?))

/-- Sequencing of a list comprehension whose body may raise. -/
def seqExcept {β : Type} : List (Except Err β) → Except Err (List β)
  | [] => .ok []
  | x :: xs => do
      let y ← x
      let ys ← seqExcept xs
      .ok (y :: ys)

end TFT
