import Verif.Combine.LMoments
import Verif.Combine.SchedLemmas
import Mathlib.Data.List.Sublists
import Mathlib.Data.List.GetD
import Mathlib.Data.Nat.Choose.Basic
import Mathlib.Tactic.FieldSimp
import Mathlib.Tactic.Ring
import Mathlib.Tactic.Linarith
import Mathlib.Tactic.Positivity
import Mathlib.Tactic.NormNum
import Mathlib.Tactic.IntervalCases
import Mathlib.Algebra.Order.Field.Rat
import Mathlib.Algebra.Order.BigOperators.Group.List
import Mathlib.Algebra.BigOperators.Ring.List

namespace TFT

namespace Spec

/-- The linear combination of the order statistics of a sample of size `k` whose expectation is
the `k`-th L-moment (Hosking 1990): `x₁`, `(x₂-x₁)/2`, `(x₃-2x₂+x₁)/3`, `(x₄-3x₃+3x₂-x₁)/4` for
`x₁ ≤ x₂ ≤ x₃ ≤ x₄`. -/
def contrast : List ℚ → ℚ
  | [a] => a
  | [a, b] => (b - a) / 2
  | [a, b, c] => (c - 2 * b + a) / 3
  | [a, b, c, d] => (d - 3 * c + 3 * b - a) / 4
  | _ => 0

/-- All `k`-element selections from the sample, each in increasing order. -/
def selections (k : Nat) (xs : List ℚ) : List (List ℚ) :=
  List.sublistsLen k (xs.insertionSort (· ≤ ·))

/-- The sum of the contrasts of all `k`-element selections. -/
def contrastSum (k : Nat) (xs : List ℚ) : ℚ := ((selections k xs).map contrast).sum

/-- Column `j` of a batch; a batch without such a column has no samples there. -/
def lcol (j : Nat) (b : List (List ℚ)) : List ℚ := b.getD j []

/-- The `k`-th L-moment of column `j` estimated from `batches`: the average contrast over all
`k`-element selections that lie inside one batch (0 if there is none). -/
def batchedLMoment (k j : Nat) (batches : List (List (List ℚ))) : ℚ :=
  (batches.map (fun b => contrastSum k (lcol j b))).sum /
    (batches.map (fun b => ((selections k (lcol j b)).length : ℚ))).sum

end Spec

open Spec

/-! ## Sums over selections -/

/-- `Σ xᵢ f(i)`. -/
def idxSum (f : Nat → ℚ) : List ℚ → ℚ
  | [] => 0
  | a :: l => a * f 0 + idxSum (fun i => f (i + 1)) l

theorem dotFactors_eq (xs : List ℚ) (f : Nat → ℚ) : dotFactors xs f = idxSum f xs := by
  unfold dotFactors
  induction xs generalizing f with
  | nil => rfl
  | cons a l ih =>
    simp only [List.length_cons, List.range_succ_eq_map, List.map_cons, List.map_map,
      List.zipWith_cons_cons, List.sum_cons, idxSum]
    congr 1
    rw [← ih]; rfl

theorem idxSum_add (f g : Nat → ℚ) (xs : List ℚ) :
    idxSum (fun i => f i + g i) xs = idxSum f xs + idxSum g xs := by
  induction xs generalizing f g with
  | nil => simp [idxSum]
  | cons a l ih => simp only [idxSum, ih (fun i => f (i + 1)) (fun i => g (i + 1))]; ring

theorem idxSum_smul (c : ℚ) (f : Nat → ℚ) (xs : List ℚ) :
    idxSum (fun i => c * f i) xs = c * idxSum f xs := by
  induction xs generalizing f with
  | nil => simp [idxSum]
  | cons a l ih => simp only [idxSum, ih (fun i => f (i + 1))]; ring

theorem idxSum_congr {f g : Nat → ℚ} {xs : List ℚ} (h : ∀ i < xs.length, f i = g i) :
    idxSum f xs = idxSum g xs := by
  induction xs generalizing f g with
  | nil => rfl
  | cons a l ih =>
    simp only [idxSum]
    rw [h 0 (by simp), ih (fun i hi => h (i + 1) (by simpa using hi))]

/-- Sum of the `r`-th order statistic over all selections of `r+m+1` from a list. -/
theorem sum_order_stat (r m : Nat) (xs : List ℚ) :
    ((List.sublistsLen (r + m + 1) xs).map (fun s => s.getD r 0)).sum
      = idxSum (fun i => (i.choose r : ℚ) * ((xs.length - 1 - i).choose m : ℚ)) xs := by
  induction xs generalizing r with
  | nil => simp [idxSum]
  | cons a l ih =>
    rw [List.sublistsLen_succ_cons, List.map_append, List.sum_append, List.map_map, ih]
    simp only [idxSum, List.length_cons, Nat.add_sub_cancel]
    cases r with
    | zero =>
      have h1 : ((fun s : List ℚ => s.getD 0 0) ∘ List.cons a) = fun _ => a := by
        funext s; rfl
      rw [h1, List.map_const', List.sum_replicate, List.length_sublistsLen]
      simp only [Nat.choose_zero_right, Nat.cast_one, one_mul, nsmul_eq_mul, Nat.sub_zero,
        Nat.zero_add]
      have h2 : idxSum (fun i => ((l.length - 1 - i).choose m : ℚ)) l
          = idxSum (fun i => ((l.length - (i + 1)).choose m : ℚ)) l := by
        apply idxSum_congr
        intro i _
        rw [show l.length - 1 - i = l.length - (i + 1) by omega]
      rw [h2]; ring
    | succ r =>
      have h1 : ((fun s : List ℚ => s.getD (r + 1) 0) ∘ List.cons a) = fun s => s.getD r 0 := by
        funext s; rfl
      rw [h1, show r + 1 + m = r + m + 1 by omega, ih r, ← idxSum_add]
      simp only [Nat.choose_zero_succ, Nat.cast_zero, zero_mul, mul_zero, zero_add]
      apply idxSum_congr
      intro i _
      rw [show l.length - 1 - i = l.length - (i + 1) by omega, Nat.choose_succ_succ, Nat.cast_add]
      ring

theorem choose_two (n : Nat) : (n.choose 2 : ℚ) = n * (n - 1) / 2 := by
  induction n with
  | zero => simp
  | succ n ih =>
    rw [Nat.choose_succ_succ, Nat.cast_add, ih, Nat.choose_one_right]
    push_cast; ring

theorem choose_three (n : Nat) : (n.choose 3 : ℚ) = n * (n - 1) * (n - 2) / 6 := by
  induction n with
  | zero => simp
  | succ n ih =>
    rw [Nat.choose_succ_succ, Nat.cast_add, ih, choose_two]
    push_cast; ring

theorem choose_four (n : Nat) : (n.choose 4 : ℚ) = n * (n - 1) * (n - 2) * (n - 3) / 24 := by
  induction n with
  | zero => simp
  | succ n ih =>
    rw [Nat.choose_succ_succ, Nat.cast_add, ih, choose_three]
    push_cast; ring

theorem len_cases {k : Nat} {xs : List ℚ} {s : List ℚ} (h : s ∈ List.sublistsLen k xs) :
    s.length = k := (List.mem_sublistsLen.1 h).2

theorem sorted_length (xs : List ℚ) :
    (xs.insertionSort (· ≤ ·)).length = xs.length := List.length_insertionSort _ xs

theorem selections_length (k : Nat) (xs : List ℚ) :
    (selections k xs).length = xs.length.choose k := by
  simp [selections, List.length_sublistsLen]

theorem contrastSum_one (xs : List ℚ) :
    contrastSum 1 xs = idxSum (fun _ => 1) (xs.insertionSort (· ≤ ·)) := by
  unfold contrastSum selections
  generalize xs.insertionSort (· ≤ ·) = ys
  have h := sum_order_stat 0 0 ys
  simp only [Nat.choose_zero_right, Nat.cast_one, mul_one] at h
  rw [← h]
  congr 1
  apply List.map_congr_left
  intro s hs
  have := len_cases hs
  match s, this with
  | [a], _ => rfl

theorem contrastSum_two (xs : List ℚ) :
    contrastSum 2 xs = idxSum (fun i => ((i : ℚ) - ((xs.length : ℚ) - 1 - i)) / 2)
      (xs.insertionSort (· ≤ ·)) := by
  unfold contrastSum selections
  rw [← sorted_length xs]
  generalize xs.insertionSort (· ≤ ·) = ys
  have h0 := sum_order_stat 0 1 ys
  have h1 := sum_order_stat 1 0 ys
  have e : (List.sublistsLen 2 ys).map contrast
      = (List.sublistsLen 2 ys).map (fun s => (1 / 2 : ℚ) * s.getD 1 0 + (-1 / 2 : ℚ) * s.getD 0 0) := by
    apply List.map_congr_left
    intro s hs
    have := len_cases hs
    match s, this with
    | [a, b], _ => simp [contrast]; ring
  rw [e, List.sum_map_add, List.sum_map_mul_left, List.sum_map_mul_left, h0, h1, ← idxSum_smul,
    ← idxSum_smul, ← idxSum_add]
  apply idxSum_congr
  intro i hi
  simp only [Nat.choose_zero_right, Nat.choose_one_right]
  rw [Nat.cast_sub (by omega), Nat.cast_sub (by omega)]
  push_cast; ring

theorem contrastSum_three (xs : List ℚ) :
    contrastSum 3 xs = idxSum (fun i => let u : ℚ := i; let d : ℚ := (xs.length : ℚ) - 1 - i
        (u * (u - 1) - 4 * u * d + d * (d - 1)) / 6)
      (xs.insertionSort (· ≤ ·)) := by
  unfold contrastSum selections
  rw [← sorted_length xs]
  generalize xs.insertionSort (· ≤ ·) = ys
  have h0 := sum_order_stat 0 2 ys
  have h1 := sum_order_stat 1 1 ys
  have h2 := sum_order_stat 2 0 ys
  have e : (List.sublistsLen 3 ys).map contrast
      = (List.sublistsLen 3 ys).map (fun s => (1 / 3 : ℚ) * s.getD 2 0 + (-2 / 3 : ℚ) * s.getD 1 0
          + (1 / 3 : ℚ) * s.getD 0 0) := by
    apply List.map_congr_left
    intro s hs
    have := len_cases hs
    match s, this with
    | [a, b, c], _ => simp [contrast]; ring
  rw [e, List.sum_map_add, List.sum_map_add, List.sum_map_mul_left, List.sum_map_mul_left,
    List.sum_map_mul_left, h0, h1, h2, ← idxSum_smul, ← idxSum_smul, ← idxSum_smul, ← idxSum_add,
    ← idxSum_add]
  apply idxSum_congr
  intro i hi
  simp only [Nat.choose_zero_right, Nat.choose_one_right, choose_two]
  rw [Nat.cast_sub (by omega), Nat.cast_sub (by omega)]
  push_cast; ring

theorem contrastSum_four (xs : List ℚ) :
    contrastSum 4 xs = idxSum (fun i => let u : ℚ := i; let d : ℚ := (xs.length : ℚ) - 1 - i
        (u * (u - 1) * (u - 2) - 9 * u * (u - 1) * d + 9 * u * d * (d - 1)
          - d * (d - 1) * (d - 2)) / 24)
      (xs.insertionSort (· ≤ ·)) := by
  unfold contrastSum selections
  rw [← sorted_length xs]
  generalize xs.insertionSort (· ≤ ·) = ys
  have h0 := sum_order_stat 0 3 ys
  have h1 := sum_order_stat 1 2 ys
  have h2 := sum_order_stat 2 1 ys
  have h3 := sum_order_stat 3 0 ys
  have e : (List.sublistsLen 4 ys).map contrast
      = (List.sublistsLen 4 ys).map (fun s => (1 / 4 : ℚ) * s.getD 3 0 + (-3 / 4 : ℚ) * s.getD 2 0
          + (3 / 4 : ℚ) * s.getD 1 0 + (-1 / 4 : ℚ) * s.getD 0 0) := by
    apply List.map_congr_left
    intro s hs
    have := len_cases hs
    match s, this with
    | [a, b, c, d], _ => simp [contrast]; ring
  rw [e, List.sum_map_add, List.sum_map_add, List.sum_map_add, List.sum_map_mul_left,
    List.sum_map_mul_left, List.sum_map_mul_left, List.sum_map_mul_left, h0, h1, h2, h3,
    ← idxSum_smul, ← idxSum_smul, ← idxSum_smul, ← idxSum_smul, ← idxSum_add, ← idxSum_add,
    ← idxSum_add]
  apply idxSum_congr
  intro i hi
  simp only [Nat.choose_zero_right, Nat.choose_one_right, choose_two, choose_three]
  rw [Nat.cast_sub (by omega), Nat.cast_sub (by omega)]
  push_cast; ring

/-- The moment number `k` of a column. -/
def LCol.mom (c : LCol) : Nat → LM
  | 1 => c.m1
  | 2 => c.m2
  | 3 => c.m3
  | 4 => c.m4
  | _ => ⟨0, 0⟩

theorem idxSum_div (f : Nat → ℚ) (c : ℚ) (xs : List ℚ) :
    idxSum (fun i => f i / c) xs = idxSum f xs / c := by
  have := idxSum_smul (1 / c) f xs
  rw [show (fun i => f i / c) = fun i => 1 / c * f i by funext i; ring, this]; ring

theorem contrastSum_small {k : Nat} {xs : List ℚ} (h : xs.length < k) : contrastSum k xs = 0 := by
  have : selections k xs = [] := by
    apply List.length_eq_zero_iff.1
    rw [selections_length, Nat.choose_eq_zero_of_lt h]
  simp [contrastSum, this]

theorem batchLCol_count {k : Nat} (hk : 1 ≤ k ∧ k ≤ 4) (xs : List ℚ) :
    ((batchLCol xs).mom k).count = (selections k xs).length := by
  rw [selections_length]
  obtain ⟨h1, h2⟩ := hk
  interval_cases k
  · simp [batchLCol, LCol.mom, numTerms]
  · simp only [batchLCol, LCol.mom, numTerms, choose_two]
  · simp only [batchLCol, LCol.mom, numTerms, choose_three]; ring
  · simp only [batchLCol, LCol.mom, numTerms, choose_four]; ring

theorem batchLCol_l {k : Nat} (hk : 1 ≤ k ∧ k ≤ 4) (xs : List ℚ) :
    ((batchLCol xs).mom k).l = contrastSum k xs / (selections k xs).length := by
  rw [selections_length]
  obtain ⟨h1, h2⟩ := hk
  rcases lt_or_ge xs.length k with hlt | hge
  · -- too few samples: the sum of the factors' products is a contrast sum up to a constant
    rw [contrastSum_small hlt, zero_div]
    interval_cases k
    · have : xs = [] := by apply List.length_eq_zero_iff.1; omega
      subst this; simp [batchLCol, LCol.mom, dotFactors]
    · have h := contrastSum_two xs
      rw [contrastSum_small hlt] at h
      simp only [batchLCol, LCol.mom, lFactors, dotFactors_eq, numTerms]
      rw [if_neg (by omega)]
      rw [idxSum_div] at h ⊢
      linarith
    · have h := contrastSum_three xs
      rw [contrastSum_small hlt] at h
      simp only [batchLCol, LCol.mom, lFactors, dotFactors_eq, numTerms]
      rw [if_neg (by omega)]
      simp only at h
      rw [idxSum_div] at h ⊢
      linarith
    · have h := contrastSum_four xs
      rw [contrastSum_small hlt] at h
      simp only [batchLCol, LCol.mom, lFactors, dotFactors_eq, numTerms]
      rw [if_neg (by omega)]
      simp only at h
      rw [idxSum_div] at h ⊢
      linarith
  · have hq : (k : ℚ) ≤ xs.length := by exact_mod_cast hge
    interval_cases k
    · rw [contrastSum_one]
      simp only [batchLCol, LCol.mom, lFactors, dotFactors_eq, numTerms]
      rw [if_pos (by omega), idxSum_div]
      simp
    · rw [contrastSum_two, choose_two]
      simp only [batchLCol, LCol.mom, lFactors, dotFactors_eq, numTerms]
      rw [if_pos (by omega), idxSum_div, idxSum_div, div_div]
      congr 1; ring
    · rw [contrastSum_three, choose_three]
      simp only [batchLCol, LCol.mom, lFactors, dotFactors_eq, numTerms]
      rw [if_pos (by omega), idxSum_div, idxSum_div, div_div]
      congr 1; ring
    · rw [contrastSum_four, choose_four]
      simp only [batchLCol, LCol.mom, lFactors, dotFactors_eq, numTerms]
      rw [if_pos (by omega), idxSum_div, idxSum_div, div_div]
      congr 1; ring

end TFT
