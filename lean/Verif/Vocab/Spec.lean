import Mathlib.Algebra.Order.Field.Rat
import Mathlib.Data.Finset.Card
import Mathlib.Data.List.Perm.Basic

/-!
# What a vocabulary should be

`data` are all the tokens of the analysis with their weights, `B` byte strings in lexicographic
order.
-/

namespace TFT.Spec

variable {B : Type} [LinearOrder B]

/-- Total frequency of token `t`: its number of occurrences, or the sum of its weights. -/
def frequency (weighted : Bool) (data : List (B × ℚ)) (t : B) : ℚ :=
  ((data.filter (fun p => decide (p.1 = t))).map (fun p => if weighted then p.2 else 1)).sum

/-- `t` is more frequent than `u`, or as frequent and later in lexicographic order. -/
def Outranks (freq : B → ℚ) (t u : B) : Prop := freq u < freq t ∨ (freq u = freq t ∧ u < t)

instance (freq : B → ℚ) : DecidableRel (Outranks freq) := fun a b => by
  unfold Outranks; infer_instance

/-- The tokens that occur and reach the threshold (0 means no threshold). -/
def eligible (freq : B → ℚ) (thr : ℚ) (data : List (B × ℚ)) : Finset B :=
  (data.map Prod.fst).toFinset.filter (fun t => thr = 0 ∨ thr ≤ freq t)

/-- `t` is eligible and among the `k` best of the tokens of `group` that are eligible. -/
def Selected (freq : B → ℚ) (thr : ℚ) (topK : Option Nat) (data : List (B × ℚ))
    (group : B → B → Prop) [DecidableRel group] (t : B) : Prop :=
  t ∈ eligible freq thr data ∧
  ∀ k, topK = some k →
    ((eligible freq thr data).filter (fun u => group u t ∧ Outranks freq u t)).card < k

/-- `tokens` is exactly the set `sel`, every token once, best first. -/
structure IsRanking (freq : B → ℚ) (sel : B → Prop) (tokens : List B) : Prop where
  mem : ∀ t, t ∈ tokens ↔ sel t
  sorted : tokens.Pairwise (Outranks freq)

end TFT.Spec
