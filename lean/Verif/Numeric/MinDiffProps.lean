import Verif.Numeric.MinDiff
import Mathlib.Tactic.Linarith
import Mathlib.Tactic.NormNum
import Mathlib.Tactic.Positivity
import Mathlib.Tactic.FieldSimp
import Mathlib.Tactic.Ring

/-!
# Properties of the recommended `min_diff_from_avg` (C41)
-/

namespace TFT.Numeric

theorem clamp_pos (x : ℚ) : 0 ≤ min (25 : ℚ) (max 2 x) :=
  le_min (by norm_num) (le_trans (by norm_num) (le_max_left 2 x))

theorem recommended_eq_floor (n : ℚ) : recommendedMinDiff n
    = ⌊min (25 : ℚ) (max 2 ((n - 10000) / 990000 * 23 + 2))⌋ := by
  unfold recommendedMinDiff pyInt
  rw [if_pos]
  · congr 4
    norm_num
  · exact clamp_pos _

/-- **C41, bounds** The recommended value is between 2 and 25. -/
theorem min_diff_bounds (n : ℚ) : 2 ≤ recommendedMinDiff n ∧ recommendedMinDiff n ≤ 25 := by
  rw [recommended_eq_floor]
  constructor
  · rw [Int.le_floor]
    exact le_min (by norm_num) (by exact_mod_cast le_max_left _ _)
  · have h : ⌊min (25 : ℚ) (max 2 (((n : ℚ) - 10000) / 990000 * 23 + 2))⌋ ≤ ⌊(25 : ℚ)⌋ :=
      Int.floor_le_floor (min_le_left _ _)
    simpa using h

/-- **C41, monotone** A larger dataset never gets a smaller value. -/
theorem min_diff_monotone (m n : ℚ) (h : m ≤ n) : recommendedMinDiff m ≤ recommendedMinDiff n := by
  rw [recommended_eq_floor, recommended_eq_floor]
  apply Int.floor_le_floor
  apply min_le_min_left
  apply max_le_max_left
  have : (m : ℚ) ≤ n := by exact_mod_cast h
  have h2 : ((m : ℚ) - 10000) / 990000 ≤ (n - 10000) / 990000 := by
    apply div_le_div_of_nonneg_right _ (by norm_num); linarith
  linarith

/-- **C41, ends** 2 for small datasets, 25 for a million rows and more. -/
theorem min_diff_ends (n : ℚ) :
    (n ≤ 10000 → recommendedMinDiff n = 2) ∧ (1000000 ≤ n → recommendedMinDiff n = 25) := by
  constructor
  · intro h
    rw [recommended_eq_floor]
    have hq : (n : ℚ) ≤ 10000 := by exact_mod_cast h
    have h1 : ((n : ℚ) - 10000) / 990000 * 23 + 2 ≤ 2 := by
      have : ((n : ℚ) - 10000) / 990000 ≤ 0 := div_nonpos_of_nonpos_of_nonneg (by linarith) (by norm_num)
      linarith
    rw [max_eq_left h1]
    norm_num
  · intro h
    rw [recommended_eq_floor]
    have hq : (1000000 : ℚ) ≤ n := by exact_mod_cast h
    have h1 : 25 ≤ ((n : ℚ) - 10000) / 990000 * 23 + 2 := by
      have : 1 ≤ ((n : ℚ) - 10000) / 990000 := by rw [le_div_iff₀ (by norm_num)]; linarith
      linarith
    rw [max_eq_right (by linarith), min_eq_left h1]
    norm_num

/-- **C41, in between** the value is the whole part of the line from 2 at 10000 rows to 25 at 1000000
rows: it is at least `k` exactly from the size where the line reaches `k`. -/
theorem min_diff_line (n : ℚ) (h1 : 10000 ≤ n) (h2 : n ≤ 1000000) (k : Int) :
    k ≤ recommendedMinDiff n ↔ ((k : ℚ) - 2) * 990000 ≤ (n - 10000) * 23 := by
  rw [recommended_eq_floor, Int.le_floor]
  have hq1 : (10000 : ℚ) ≤ n := by exact_mod_cast h1
  have hq2 : (n : ℚ) ≤ 1000000 := by exact_mod_cast h2
  have h3 : (2 : ℚ) ≤ (n - 10000) / 990000 * 23 + 2 := by
    have : 0 ≤ ((n : ℚ) - 10000) / 990000 := div_nonneg (by linarith) (by norm_num)
    linarith
  have h4 : ((n : ℚ) - 10000) / 990000 * 23 + 2 ≤ 25 := by
    have : ((n : ℚ) - 10000) / 990000 ≤ 1 := by rw [div_le_iff₀ (by norm_num)]; linarith
    linarith
  rw [max_eq_right h3, min_eq_right h4]
  constructor
  · intro h
    have : ((k : ℚ) - 2) * 990000 ≤ (n - 10000) * 23 := by
      have e : ((n : ℚ) - 10000) / 990000 * 23 = (n - 10000) * 23 / 990000 := by ring
      rw [e] at h
      have : (k : ℚ) - 2 ≤ (n - 10000) * 23 / 990000 := by linarith
      rwa [le_div_iff₀ (by norm_num)] at this
    exact_mod_cast this
  · intro h
    have hq : ((k : ℚ) - 2) * 990000 ≤ (n - 10000) * 23 := by exact_mod_cast h
    have e : ((n : ℚ) - 10000) / 990000 * 23 = (n - 10000) * 23 / 990000 := by ring
    rw [e]
    have : (k : ℚ) - 2 ≤ (n - 10000) * 23 / 990000 := by rwa [le_div_iff₀ (by norm_num)]
    linarith

/-- A dataset of half a million rows. -/
example : recommendedMinDiff 500000 = 13 ∧ recommendedMinDiff (-3 / 2) = 2 := by decide +kernel

end TFT.Numeric
