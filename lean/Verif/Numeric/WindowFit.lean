import Verif.Numeric.Window
import Verif.Numeric.GaussFitProps

/-!
# The fitted distribution for every L-kurtosis (C71)

What `scale_to_gaussian` does for all data, also for those whose L-kurtosis is in the window in which the
parameters can be slightly negative.
-/

namespace TFT.Numeric

open MeasureTheory ProbabilityTheory Set

theorem fit_params_all (shape : ℝ → ℝ → ℝ × ℝ) (l1 l2 l3 l4 quadruplets : ℝ) (h2 : 0 < l2)
    (f : Fit) (hf : f = fit shape l1 l2 l3 l4 quadruplets) :
    -1.0e-7 < f.hl ∧ f.hl < 1 ∧ -1.0e-7 < f.hr ∧ f.hr < 1 ∧
    f.scale = l2 / (tukeyLMeanAndScale f.hl f.hr).2 ∧
    f.loc = l1 - f.scale * (tukeyLMeanAndScale f.hl f.hr).1 := by
  subst hf
  unfold fit
  simp only [if_pos h2, and_true, gt_iff_lt]
  obtain ⟨p1, p2, p3, p4, -⟩ := tukey_params_nearly_valid shape
    (if 0 < l2 ∧ 0 < quadruplets then l3 / l2 else 0) (if 0 < l2 ∧ 0 < quadruplets then l4 / l2 else 0)
  exact ⟨p1, p2, p3, p4⟩

/-- **C71**: the distribution that the analysis fits to any dataset which is not constant has the mean
of the data and a positive scale. -/
theorem fit_has_the_mean_of_the_data (shape : ℝ → ℝ → ℝ × ℝ) (l1 l2 l3 l4 quadruplets : ℝ)
    (h2 : 0 < l2) (f : Fit) (hf : f = fit shape l1 l2 l3 l4 quadruplets) :
    0 < f.scale ∧ lMean (fun u => f.loc + f.scale * tukeyHH f.hl f.hr u) = l1 := by
  obtain ⟨-, p2, -, p4, hs, hloc⟩ := fit_params_all shape l1 l2 l3 l4 quadruplets h2 f hf
  have hp := l_scale_pos _ _ p2 p4
  refine ⟨by rw [hs]; exact div_pos h2 hp, ?_⟩
  rw [lMean_affine _ _ _ (tukey_integrable_gauss _ _ p2 p4), tukey_l_mean _ _ p2 p4, hloc]
  ring

theorem oneSide_nonpos (z h : ℝ) (hh : h ≤ 0) : oneSide z h = z := by
  unfold oneSide
  simp only
  rw [if_pos]
  have : h * z ^ 2 ≤ 0 := mul_nonpos_of_nonpos_of_nonneg hh (sq_nonneg z)
  norm_num
  linarith

/-- One side of the inversion, for a parameter that may be slightly negative. -/
theorem oneSide_near (h u : ℝ) (hh : -1.0e-7 < h) (hu : 0 ≤ u) :
    |oneSide (u * Real.exp (h * u ^ 2 / 2)) h - u| ≤ u * (6 / 10 ^ 8 + 5 / 10 ^ 8 * u ^ 2) := by
  have hu2 : 0 ≤ u ^ 2 := sq_nonneg u
  rcases le_total 0 h with h0 | h0
  · obtain ⟨a, -⟩ := inverse_tukey_accurate h h u _ h0 h0 rfl
    obtain ⟨a1, a2, -⟩ := a hu
    have hn : ¬ tukeyHH h h u < 0 := by
      unfold tukeyHH
      rw [if_neg (not_lt.2 hu)]
      exact not_lt.2 (mul_nonneg hu (Real.exp_pos _).le)
    have e : inverseTukeyHH (tukeyHH h h u) h h = oneSide (u * Real.exp (h * u ^ 2 / 2)) h := by
      unfold inverseTukeyHH
      rw [if_neg hn]
      unfold tukeyHH
      rw [if_neg (not_lt.2 hu)]
    rw [e] at a1 a2
    rw [abs_of_nonneg (by linarith)]
    have : 0 ≤ u * (5 / 10 ^ 8 * u ^ 2) := by positivity
    nlinarith
  · rw [oneSide_nonpos _ _ h0]
    have e1 : Real.exp (h * u ^ 2 / 2) ≤ 1 := Real.exp_le_one_iff.2 (by nlinarith)
    have e2 := Real.add_one_le_exp (h * u ^ 2 / 2)
    have e3 : u * Real.exp (h * u ^ 2 / 2) ≤ u := by nlinarith
    rw [abs_of_nonpos (by linarith)]
    have e4 : u * (1 + h * u ^ 2 / 2) ≤ u * Real.exp (h * u ^ 2 / 2) :=
      mul_le_mul_of_nonneg_left (by linarith) hu
    have e5 : -h * (u * u ^ 2) ≤ 1.0e-7 * (u * u ^ 2) :=
      mul_le_mul_of_nonneg_right (by linarith) (by positivity)
    norm_num at e5 ⊢
    nlinarith

/-- **C71**: for every dataset that is not constant and has a long tail, values of a distribution with
the fitted parameters are transformed to those of the standard Gaussian from which they come, up to an
error that is small for all values that a Gaussian takes in practice. -/
theorem scale_to_gaussian_inverts_every_fit (shape : ℝ → ℝ → ℝ × ℝ)
    (l1 l2 l3 l4 quadruplets var u : ℝ) (h2 : 0 < l2) (f : Fit)
    (hf : f = fit shape l1 l2 l3 l4 quadruplets) (hlong : 0 < f.hl ∨ 0 < f.hr) :
    |scaleToGaussian f var (f.loc + f.scale * tukeyHH f.hl f.hr u) - u|
      ≤ |u| * (6 / 10 ^ 8 + 5 / 10 ^ 8 * u ^ 2) := by
  obtain ⟨p1, p2, p3, p4, -, -⟩ := fit_params_all shape l1 l2 l3 l4 quadruplets h2 f hf
  have hpos := (fit_has_the_mean_of_the_data shape l1 l2 l3 l4 quadruplets h2 f hf).1
  have he : scaleToGaussian f var (f.loc + f.scale * tukeyHH f.hl f.hr u)
      = inverseTukeyHH (tukeyHH f.hl f.hr u) f.hl f.hr := by
    unfold scaleToGaussian
    simp only
    rw [if_pos hlong, if_pos hpos.ne']
    congr 1
    have := hpos.ne'
    field_simp
    ring
  rw [he]
  rcases lt_or_ge u 0 with hu | hu
  · have hn : u * Real.exp (f.hl * u ^ 2 / 2) < 0 := mul_neg_of_neg_of_pos hu (Real.exp_pos _)
    have := oneSide_near f.hl (-u) p1 (by linarith)
    unfold inverseTukeyHH tukeyHH
    rw [if_pos hu, if_pos hn, abs_of_neg hu]
    rw [neg_sq, neg_mul] at this
    rw [← abs_neg, show -(-oneSide (-(u * Real.exp (f.hl * u ^ 2 / 2))) f.hl - u)
      = oneSide (-(u * Real.exp (f.hl * u ^ 2 / 2))) f.hl - -u by ring]
    linarith
  · have hn : ¬ u * Real.exp (f.hr * u ^ 2 / 2) < 0 :=
      not_lt.2 (mul_nonneg hu (Real.exp_pos _).le)
    unfold inverseTukeyHH tukeyHH
    rw [if_neg (not_lt.2 hu), if_neg hn, abs_of_nonneg hu]
    exact oneSide_near f.hr u p3 hu

/-- **C71**: where no tail is long, also if a parameter is negative as in
`tukey_params_negative_in_window`, values are scaled by the standard deviation, as z-scores are. -/
theorem no_long_tail_is_rescaled (f : Fit) (var x : ℝ) (h1 : f.hl ≤ 0) (h2 : f.hr ≤ 0) :
    scaleToGaussian f var x = if Real.sqrt var = 0 then x - f.loc else (x - f.loc) / Real.sqrt var := by
  unfold scaleToGaussian inverseTukeyHH
  simp only [oneSide_nonpos _ _ h1, oneSide_nonpos _ _ h2, neg_neg, ite_self, gt_iff_lt, not_lt.2 h1,
    not_lt.2 h2, or_self, if_false, ne_eq, ite_not]

/-! ## Non-vacuity: L-moments in the window, with and without a long tail -/

theorem searchStep_minH (e1 e2 : ℝ → ℝ → ℝ) (s : Search ℝ) (h : s.minH ≤ s.maxH) :
    s.minH ≤ (searchStep e1 e2 s).minH ∧ (searchStep e1 e2 s).h = (searchStep e1 e2 s).minH ∧
      (searchStep e1 e2 s).minH ≤ (searchStep e1 e2 s).maxH := by
  unfold searchStep
  split
  · simp only
    set d1 := (binarySearch (e1 s.h) s.minDelta s.maxDelta).2
    obtain ⟨b1, b2, b3⟩ := search_inside (fun x => e2 x d1) s.minH s.maxH h
    set h1 := (binarySearch (fun x => e2 x d1) s.minH s.maxH).2
    set d2 := (binarySearch (e1 h1) s.minDelta d1).1
    obtain ⟨f1, f2, f3⟩ := search_inside (fun x => e2 x d2) s.minH h1 (b1.trans b2)
    exact ⟨f1, trivial, f2.trans f3⟩
  · simp only
    obtain ⟨b1, b2, b3⟩ := search_inside (fun x => e2 x s.maxDelta) s.minH s.maxH h
    exact ⟨b1, trivial, b2.trans b3⟩

theorem searchLoop_minH (e1 e2 : ℝ → ℝ → ℝ) (left : Nat) (p q c : ℝ) (s : Search ℝ)
    (h : s.minH ≤ s.maxH) (hh : c ≤ s.h) (hm : c ≤ s.minH) : c ≤ (searchLoop e1 e2 left p q s).h := by
  induction left generalizing p q s with
  | zero => exact hh
  | succ left ih =>
    obtain ⟨a1, a2, a3⟩ := searchStep_minH e1 e2 s h
    simp only [searchLoop]
    split
    · rw [a2]; exact hm.trans a1
    · exact ih _ _ _ a3 (by rw [a2]; exact hm.trans a1) (hm.trans a1)

/-- If no parameters have enough kurtosis, the search goes to long tails, also in the window. -/
theorem long_tail_in_window : 0 < (tukeyParams (fun _ _ => (0, 0)) 0 0.1226017).2 := by
  obtain ⟨b1, b2⟩ := initialH_window 0.1226017 le_rfl gaussian_bounds.1
  have hkm : min (0.1226017 : ℝ) (1 - 1.0e-5) = 0.1226017 := by norm_num
  unfold tukeyParams
  simp only [lt_irrefl, if_false, decide_false, Bool.false_eq_true, hkm, sub_self, zero_sub]
  set x := initialH 0.1226017
  have hb : (x + (1 - 1.0e-7)) / 2 ≤
      (binarySearch (fun _ : ℝ => -(0.1226017 : ℝ)) x (1 - 1.0e-7)).1 := by
    have hst : ∀ l h : ℝ, bisectStep (fun _ : ℝ => -(0.1226017 : ℝ)) l h = ((l + h) / 2, h) := by
      intro l h
      unfold bisectStep
      simp only
      rw [if_pos (by norm_num)]
    unfold binarySearch
    rw [bisectLoop]
    simp only [hst]
    split
    · exact le_rfl
    · have := loop_keeps (fun _ : ℝ => -(0.1226017 : ℝ))
        (fun l h => (x + (1 - 1.0e-7)) / 2 ≤ l ∧ l ≤ h) (fun l h hlh => by
          rw [hst]; exact ⟨by linarith [hlh.1, hlh.2], by linarith [hlh.2]⟩) 9
        ((x + (1 - 1.0e-7)) / 2) (1 - 1.0e-7) ⟨le_rfl, by norm_num at b2 ⊢; linarith⟩
      exact this.1
  have hpos : 0 < (x + (1 - 1.0e-7)) / 2 := by norm_num at b1 ⊢; linarith
  refine lt_of_lt_of_le hpos ?_
  set e1 := fun _ _ : ℝ => (0 : ℝ)
  set e2 := fun _ _ : ℝ => -(0.1226017 : ℝ)
  set s : Search ℝ := ⟨x, 0, x, 0, 1 - 1.0e-7, x⟩ with hs
  have hstep : (searchStep e1 e2 s).minH = (binarySearch (fun _ : ℝ => -(0.1226017 : ℝ)) x
      (1 - 1.0e-7)).1 := by
    unfold searchStep
    rw [if_neg (lt_irrefl _)]
  obtain ⟨a1, a2, a3⟩ := searchStep_minH e1 e2 s (by rw [hs]; norm_num at b2 ⊢; linarith)
  rw [searchLoop]
  split
  · rw [a2, hstep]; exact hb
  · exact searchLoop_minH _ _ _ _ _ _ _ a3 (by rw [a2, hstep]; exact hb) (by rw [hstep]; exact hb)

example : ∃ (shape : ℝ → ℝ → ℝ × ℝ) (l1 l2 l3 l4 quadruplets : ℝ), 0 < l2 ∧
    0 < (fit shape l1 l2 l3 l4 quadruplets).hr ∧ l4 / l2 ∈ Ico 0.1226017 gaussianLKurtosis := by
  refine ⟨fun _ _ => (0, 0), 0, 1, 0, 0.1226017, 1, one_pos, ?_, ?_⟩
  · have := long_tail_in_window
    unfold fit
    simpa using this
  · exact ⟨by norm_num, by simpa using gaussian_bounds.1⟩

example : ∃ (shape : ℝ → ℝ → ℝ × ℝ) (l1 l2 l3 l4 quadruplets : ℝ), 0 < l2 ∧
    (fit shape l1 l2 l3 l4 quadruplets).hl ≤ 0 ∧ (fit shape l1 l2 l3 l4 quadruplets).hr < 0 := by
  obtain ⟨h, hneg⟩ := tukey_params_negative_in_window (fun _ _ => (0, 1 / 2)) 0 0.1226017 le_rfl le_rfl
    gaussian_bounds.1 le_rfl (fun _ _ _ _ => by norm_num)
  refine ⟨fun _ _ => (0, 1 / 2), 0, 1, 0, 0.1226017, 1, one_pos, ?_, ?_⟩
  · unfold fit
    simp only [one_pos, gt_iff_lt, and_self, if_true, div_one, h, le_refl]
  · unfold fit
    simp only [one_pos, gt_iff_lt, and_self, if_true, div_one, h]
    exact hneg

end TFT.Numeric
