import Verif.Numeric.MutualInfoProps
import Mathlib.Analysis.Complex.ExponentialBounds

/-!
# Rare labels (C56)
-/

namespace TFT.Numeric

/-- Rows in which the token is independent of the label, and the second label has half a millionth of
the weight. -/
noncomputable def rareRows : List Row :=
  [⟨0, 1 - 5e-7, true⟩, ⟨1, 5e-7, true⟩, ⟨0, 1 - 5e-7, false⟩, ⟨1, 5e-7, false⟩]

/-- **C56 needs label shares within the clip**: if a label has less than a millionth of the rows, the
value for a token that is independent of the label is positive. -/
theorem rare_label_mi_positive (rnd : ℝ → ℤ) (hrnd : rnd 1 < rnd 2) :
    Valid 2 rareRows ∧ (∀ i < 2, share (withToken rareRows) i = share rareRows i) ∧
    ∃ m, mutualInformation rnd false 0 (accOf 2 rareRows) (accOf 2 (withToken rareRows))
      = .ok ⟨some m, none, total (withToken rareRows)⟩ ∧ 0 < m := by
  have hv : Valid 2 rareRows := ⟨by simp [rareRows]; norm_num, by simp [rareRows],
    by simp [rareRows, withToken]⟩
  have t1 : total (withToken rareRows) = 1 := by norm_num [rareRows, withToken, total]
  have t2 : total rareRows = 2 := by norm_num [rareRows, total]
  have a0 : share (withToken rareRows) 0 = 1 - 5e-7 := by
    norm_num [share, labelWeight, rareRows, withToken, total]
  have a1 : share (withToken rareRows) 1 = 5e-7 := by
    norm_num [share, labelWeight, rareRows, withToken, total]
  have b0 : share rareRows 0 = 1 - 5e-7 := by
    norm_num [share, labelWeight, rareRows, total]
  have b1 : share rareRows 1 = 5e-7 := by
    norm_num [share, labelWeight, rareRows, total]
  refine ⟨hv, ?_, _, mutual_information_value rnd 2 rareRows hv (by rw [t1, t2]; exact hrnd), ?_⟩
  · intro i hi
    interval_cases i
    · rw [a0, b0]
    · rw [a1, b1]
  · rw [Finset.sum_range_succ, Finset.sum_range_one, a0, a1, b0, b1, t1,
      if_neg (by norm_num), if_neg (by norm_num)]
    have c0 : clipProbability (1 - 5e-7) = 1 - 1e-6 := by
      unfold clipProbability
      rw [max_eq_left (by norm_num), min_eq_right (by norm_num)]
    have c1 : clipProbability 5e-7 = 1e-6 := by
      unfold clipProbability
      rw [max_eq_right (by norm_num), min_eq_left (by norm_num)]
    rw [c0, c1]
    have l2 := Real.log_two_gt_d9
    have l1 : Real.logb 2 (1e-6 / 5e-7) = 1 := by
      rw [show (1e-6 / 5e-7 : ℝ) = 2 by norm_num]
      exact Real.logb_self_eq_one (by norm_num)
    have l0 := Real.one_sub_inv_le_log_of_pos (show (0 : ℝ) < (1 - 1e-6) / (1 - 5e-7) by norm_num)
    rw [l1]
    unfold Real.logb
    have hd : (1 - ((1 - 1e-6) / (1 - 5e-7) : ℝ)⁻¹) / Real.log 2
        ≤ Real.log ((1 - 1e-6) / (1 - 5e-7)) / Real.log 2 :=
      div_le_div_of_nonneg_right l0 (by linarith)
    have he : -(5e-7 / (1 - 1e-6)) * 1.5 ≤ (1 - ((1 - 1e-6) / (1 - 5e-7) : ℝ)⁻¹) / Real.log 2 := by
      rw [le_div_iff₀ (by linarith)]
      norm_num at *
      linarith
    norm_num at *
    linarith

end TFT.Numeric
