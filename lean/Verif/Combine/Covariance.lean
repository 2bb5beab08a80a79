import Verif.Combine.Sched
import Mathlib.Data.Rat.Defs
import Mathlib.Algebra.Field.Rat
import Mathlib.Algebra.BigOperators.Group.List.Basic

/-!
# `CovarianceCombiner`

Simplifications: exact arithmetic; vectors of the statically known dimension `d` are
functions on `Fin d` (a batch of another dimension is excluded by `tft.covariance`, which
takes the dimension from the static shape, `analyzers.py:2793-2794`).
-/

namespace TFT

/-- One row of the input. -/
abbrev Vec (d : Nat) := Fin d → ℚ

/-- The accumulator `[sum_product, sum_vectors, count]`, `analyzers.py:2660-2666`. -/
structure CovAcc (d : Nat) where
  sumProduct : Fin d → Fin d → ℚ
  sumVectors : Fin d → ℚ
  count : ℚ

/-- `create_accumulator`, `analyzers.py:2660-2666`. -/
def covCreate (d : Nat) : CovAcc d := ⟨fun _ _ => 0, fun _ => 0, 0⟩

/-- `add_input`, `analyzers.py:2668-2707`. `matmul(transpose(b), b)` has the entries
`Σ_row row_i * row_j`. -/
def covAdd {d : Nat} (acc : CovAcc d) (batch : List (Vec d)) : CovAcc d where
  sumProduct := fun i j => acc.sumProduct i j + (batch.map (fun r => r i * r j)).sum
  sumVectors := fun i => acc.sumVectors i + (batch.map (fun r => r i)).sum
  count := acc.count + batch.length

/-- `merge_accumulators`, `analyzers.py:2709-2716`. `zip(*[])` cannot be unpacked. -/
def covMerge {d : Nat} (accs : List (CovAcc d)) : Except Err (CovAcc d) :=
  if accs.isEmpty then .error "ValueError: not enough values to unpack"
  else .ok
    { sumProduct := fun i j => (accs.map (fun a => a.sumProduct i j)).sum
      sumVectors := fun i => (accs.map (fun a => a.sumVectors i)).sum
      count := (accs.map (fun a => a.count)).sum }

/-- `extract_output`, `analyzers.py:2718-2746`. -/
def covExtract {d : Nat} (acc : CovAcc d) : Fin d → Fin d → ℚ :=
  if acc.count = 0 then fun _ _ => 0
  else
    let expectedCrossTerms := fun i j => acc.sumProduct i j / acc.count
    let expectedTerms := fun i => acc.sumVectors i / acc.count
    fun i j => expectedCrossTerms i j - expectedTerms i * expectedTerms j

/-- `CovarianceCombiner`, `analyzers.py:2652-2759`. -/
def covCombiner (d : Nat) : Combiner (CovAcc d) (List (Vec d)) (Fin d → Fin d → ℚ) where
  create := covCreate d
  addInput := fun acc b => .ok (covAdd acc b)
  merge := covMerge
  extract := fun acc => .ok (covExtract acc)

end TFT
