import Mathlib.Data.Rat.Defs
import Mathlib.Algebra.Field.Rat
import Mathlib.Algebra.BigOperators.Group.List.Basic

/-! Specification: population statistics of a list of numbers. Independent of the model. -/

namespace TFT.Spec

/-- Population mean. Only meant for non-empty lists. -/
def mean (l : List ℚ) : ℚ := l.sum / l.length

/-- Population variance. Only meant for non-empty lists. -/
def variance (l : List ℚ) : ℚ := (l.map (fun x => (x - mean l) ^ 2)).sum / l.length

/-- The finite values of a list in which non-finite values are `none`. -/
def finite (l : List (Option ℚ)) : List ℚ := l.filterMap id

/-- All finite values in column `j` of a list of batches given by columns. -/
def columnData (batches : List (List (List (Option ℚ)))) (j : Nat) : List ℚ :=
  batches.flatMap (fun b => finite (b.getD j []))

/-- All values of column `p` in a list of batches given by columns. -/
def colData {β : Type} (batches : List (List (List β))) (p : Nat) : List β :=
  batches.flatMap (fun b => b.getD p [])

/-- `v` is the smallest value of `l`. -/
def IsMinOf {α : Type} [LE α] (v : α) (l : List α) : Prop := v ∈ l ∧ ∀ x ∈ l, v ≤ x

/-- `v` is the largest value of `l`. -/
def IsMaxOf {α : Type} [LE α] (v : α) (l : List α) : Prop := v ∈ l ∧ ∀ x ∈ l, x ≤ v

end TFT.Spec
