import Verif.Numeric.BisectProps
import Mathlib.Analysis.SpecialFunctions.Complex.Arctan
import Mathlib.Analysis.SpecificLimits.Normed
import Mathlib.Analysis.Real.Pi.Bounds

/-!
# The window below the L-kurtosis of a Gaussian (C55)

`compute_tukey_hh_params` compares the L-kurtosis with 0.1226017, which is the L-kurtosis of a Gaussian
cut to seven digits. For an L-kurtosis between the two the search starts with a negative parameter.
-/

namespace TFT.Numeric

open Filter Topology

/-! ## The L-kurtosis of a Gaussian, to nine digits -/

/-- The terms of the series of the arctangent of the root of one half, divided by that root. -/
noncomputable def atanTerm (n : Nat) : ℝ := (1 / 2) ^ n / (2 * n + 1)

theorem atanTerm_anti : Antitone atanTerm := by
  refine antitone_nat_of_succ_le fun n => ?_
  unfold atanTerm
  push_cast
  have h1 : (0 : ℝ) ≤ (1 / 2) ^ n := by positivity
  have h2 : ((1 : ℝ) / 2) ^ (n + 1) ≤ (1 / 2) ^ n := by rw [pow_succ]; linarith
  exact div_le_div₀ h1 h2 (by positivity) (by linarith)

theorem atan_series : Tendsto (fun n => ∑ i ∈ Finset.range n, (-1) ^ i * atanTerm i) atTop
    (𝓝 (Real.sqrt 2 * Real.arctan (Real.sqrt 2)⁻¹)) := by
  have hs : (0 : ℝ) < Real.sqrt 2 := Real.sqrt_pos.2 (by norm_num)
  have hlt : ‖(Real.sqrt 2)⁻¹‖ < 1 := by
    rw [norm_inv, Real.norm_of_nonneg hs.le]
    refine inv_lt_one_of_one_lt₀ ?_
    rw [show (1 : ℝ) = Real.sqrt 1 by simp]
    exact Real.sqrt_lt_sqrt (by norm_num) (by norm_num)
  have h := ((Real.hasSum_arctan hlt).mul_left (Real.sqrt 2)).tendsto_sum_nat
  refine h.congr fun n => Finset.sum_congr rfl fun i _ => ?_
  unfold atanTerm
  have e : (Real.sqrt 2)⁻¹ ^ (2 * i + 1) = (1 / 2) ^ i * (Real.sqrt 2)⁻¹ := by
    rw [pow_succ, pow_mul, inv_pow, Real.sq_sqrt (by norm_num)]
    norm_num
  rw [e]
  push_cast
  field_simp

theorem gaussian_eq : gaussianLKurtosis
    = 6 - 30 / (Real.pi * Real.sqrt 2) * (Real.sqrt 2 * Real.arctan (Real.sqrt 2)⁻¹) := by
  have hs : (0 : ℝ) < Real.sqrt 2 := Real.sqrt_pos.2 (by norm_num)
  have hpi := Real.pi_pos
  rw [Real.arctan_inv_of_pos hs]
  unfold gaussianLKurtosis
  field_simp
  ring

theorem sqrt2_bounds : (1.41421356237 : ℝ) < Real.sqrt 2 ∧ Real.sqrt 2 < 1.41421356238 := by
  constructor
  · exact Real.lt_sqrt_of_sq_lt (by norm_num)
  · rw [Real.sqrt_lt' (by norm_num)]; norm_num

theorem gaussian_bounds : (0.1226017 : ℝ) < gaussianLKurtosis ∧ gaussianLKurtosis < 0.12260173 := by
  have hs := sqrt2_bounds
  have p1 := Real.pi_gt_d20
  have p2 := Real.pi_lt_d20
  have hup := atanTerm_anti.tendsto_le_alternating_series atan_series 16
  have hlo := atanTerm_anti.alternating_series_le_tendsto atan_series 16
  set S := Real.sqrt 2 * Real.arctan (Real.sqrt 2)⁻¹
  have hup' : S ≤ 0.8704197514 := by
    refine hup.trans ?_
    norm_num [Finset.sum_range_succ, atanTerm]
  have hlo' : 0.8704197513 ≤ S := by
    refine le_trans ?_ hlo
    norm_num [Finset.sum_range_succ, atanTerm]
  rw [gaussian_eq]
  have hd : 0 < Real.pi * Real.sqrt 2 := by
    have : 0 < Real.sqrt 2 := by linarith [hs.1]
    positivity
  have e1 : (3.1415926535897 : ℝ) * 1.41421356237 ≤ Real.pi * Real.sqrt 2 :=
    mul_le_mul (by linarith) hs.1.le (by norm_num) (by linarith)
  have e2 : Real.pi * Real.sqrt 2 ≤ (3.1415926535898 : ℝ) * 1.41421356238 :=
    mul_le_mul (by linarith) hs.2.le (by linarith [hs.1]) (by norm_num)
  constructor
  · have : 30 / (Real.pi * Real.sqrt 2) * S < 5.8773983 := by
      rw [div_mul_eq_mul_div, div_lt_iff₀ hd]
      norm_num at e1 ⊢
      linarith
    norm_num at this ⊢
    linarith
  · have : 5.87739827 < 30 / (Real.pi * Real.sqrt 2) * S := by
      rw [div_mul_eq_mul_div, lt_div_iff₀ hd]
      norm_num at e2 ⊢
      linarith
    norm_num at this ⊢
    linarith

/-! ## The start of the search in the window -/

theorem initialH_window (k : ℝ) (h1 : 0.1226017 ≤ k) (h2 : k < gaussianLKurtosis) :
    -1.0e-7 < initialH k ∧ initialH k < 0 := by
  have hg := gaussian_bounds
  have p1 := Real.pi_gt_d4
  have p2 := Real.pi_lt_d4
  have e : Real.cos (Real.pi / 15 * (6 - gaussianLKurtosis)) = 1 / 3 := by
    rw [← cos_at_gaussian, ← Real.cos_neg]; congr 1; ring
  have ek : Real.cos (Real.pi / 15 * (k - 6)) = Real.cos (Real.pi / 15 * (6 - k)) := by
    rw [← Real.cos_neg]; congr 1; ring
  have hlt : Real.cos (Real.pi / 15 * (6 - k)) < 1 / 3 := by
    rw [← e]
    norm_num at hg h1
    refine Real.strictAntiOn_cos ⟨by nlinarith, by nlinarith⟩ ⟨by nlinarith, by nlinarith⟩ ?_
    nlinarith
  have hgt : 1 / 3 - 8.0e-9 ≤ Real.cos (Real.pi / 15 * (6 - k)) := by
    have := Real.abs_cos_sub_cos_le (Real.pi / 15 * (6 - k)) (Real.pi / 15 * (6 - gaussianLKurtosis))
    rw [e, show Real.pi / 15 * (6 - k) - Real.pi / 15 * (6 - gaussianLKurtosis)
      = Real.pi / 15 * (gaussianLKurtosis - k) by ring,
      abs_of_nonneg (a := Real.pi / 15 * _) (mul_nonneg (by linarith) (by linarith))] at this
    have hb : Real.pi / 15 * (gaussianLKurtosis - k) ≤ (3.1416 / 15) * 3.0e-8 :=
      mul_le_mul (by linarith) (by norm_num at hg h1 ⊢; linarith) (by linarith) (by norm_num)
    have := (abs_le.1 this).1
    norm_num at hb this ⊢
    linarith
  unfold initialH
  rw [ek]
  set c := Real.cos (Real.pi / 15 * (6 - k))
  have hc : 0 < c := by norm_num at hgt ⊢; linarith
  constructor
  · have : 1 / c < 3 + 1.0e-7 := by
      rw [div_lt_iff₀ hc]
      norm_num at hgt ⊢
      linarith
    linarith
  · have : 3 < 1 / c := by
      rw [lt_div_iff₀ hc]
      linarith
    linarith

/-! ## The search in the window -/

section
variable {K : Type} [Field K] [LinearOrder K] [IsStrictOrderedRing K]

/-- The bracket stays in every interval that has both ends in it, whichever is the larger one. -/
theorem search_between (f : K → K) (low high a b : K) (h1 : a ≤ low) (h2 : low ≤ b) (h3 : a ≤ high)
    (h4 : high ≤ b) : (a ≤ (binarySearch f low high).1 ∧ (binarySearch f low high).1 ≤ b) ∧
      a ≤ (binarySearch f low high).2 ∧ (binarySearch f low high).2 ≤ b := by
  refine loop_keeps f (fun x y => (a ≤ x ∧ x ≤ b) ∧ a ≤ y ∧ y ≤ b) ?_ 10 low high ⟨⟨h1, h2⟩, h3, h4⟩
  rintro x y ⟨⟨x1, x2⟩, y1, y2⟩
  have m1 : a ≤ (x + y) / 2 := by linarith
  have m2 : (x + y) / 2 ≤ b := by linarith
  unfold bisectStep
  simp only
  split
  · exact ⟨⟨m1, m2⟩, y1, y2⟩
  · exact ⟨⟨x1, x2⟩, m1, m2⟩

/-- The invariant of a search that starts below zero. -/
def Search.Loose (s : Search K) (lower bound : K) : Prop :=
  lower ≤ s.minH ∧ s.minH ≤ s.h ∧ s.h ≤ s.maxH ∧ s.maxH ≤ bound ∧
  (lower ≤ s.minDelta ∧ s.minDelta ≤ max 0 s.minH) ∧ (lower ≤ s.delta ∧ s.delta ≤ max 0 s.minH) ∧
  lower ≤ s.maxDelta ∧ s.maxDelta ≤ max 0 s.minH

theorem searchStep_loose (e1 e2 : K → K → K) (s : Search K) (lower bound : K)
    (h : s.Loose lower bound) : (searchStep e1 e2 s).Loose lower bound := by
  obtain ⟨v1, v2, v3, v4, ⟨v5, v6⟩, ⟨v7, v8⟩, v9, v10⟩ := h
  unfold searchStep
  split
  · obtain ⟨-, a1, a2⟩ := search_between (e1 s.h) s.minDelta s.maxDelta _ _ v5 v6 v9 v10
    simp only
    set d1 := (binarySearch (e1 s.h) s.minDelta s.maxDelta).2
    obtain ⟨b1, b2, b3⟩ := search_inside (fun x => e2 x d1) s.minH s.maxH (v2.trans v3)
    set h1 := (binarySearch (fun x => e2 x d1) s.minH s.maxH).2
    obtain ⟨⟨c1, c2⟩, -⟩ := search_between (e1 h1) s.minDelta d1 _ _ v5 v6 a1 a2
    set d2 := (binarySearch (e1 h1) s.minDelta d1).1
    obtain ⟨f1, f2, f3⟩ := search_inside (fun x => e2 x d2) s.minH h1 (b1.trans b2)
    set h2 := (binarySearch (fun x => e2 x d2) s.minH h1).1
    have hm : max 0 s.minH ≤ max 0 h2 := max_le_max le_rfl f1
    exact ⟨v1.trans f1, le_rfl, f2.trans f3, b3.trans v4, ⟨c1, c2.trans hm⟩, ⟨c1, c2.trans hm⟩, a1,
      a2.trans hm⟩
  · simp only
    obtain ⟨b1, b2, b3⟩ := search_inside (fun x => e2 x s.maxDelta) s.minH s.maxH (v2.trans v3)
    set h1 := (binarySearch (fun x => e2 x s.maxDelta) s.minH s.maxH).1
    have hm : max 0 s.minH ≤ max 0 h1 := max_le_max le_rfl b1
    exact ⟨v1.trans b1, le_rfl, b2.trans b3, v4, ⟨v9, v10.trans hm⟩, ⟨v9, v10.trans hm⟩, v1.trans b1,
      le_max_right _ _⟩

theorem searchLoop_loose (e1 e2 : K → K → K) (lower bound : K) (left : Nat) (p q : K) (s : Search K)
    (h : s.Loose lower bound) : (searchLoop e1 e2 left p q s).Loose lower bound := by
  induction left generalizing p q s with
  | zero => exact h
  | succ left ih =>
    simp only [searchLoop]
    split
    · exact searchStep_loose e1 e2 s lower bound h
    · exact ih _ _ _ (searchStep_loose e1 e2 s lower bound h)

/-- A search whose error is never negative does not move its lower end. -/
theorem loop_low (f : K → K) (left : Nat) (low high : K)
    (h : ∀ j : Nat, 1 ≤ j → j ≤ left + 1 → 0 ≤ f (low + (high - low) / 2 ^ j)) :
    (bisectLoop f left low high).1 = low := by
  induction left generalizing high with
  | zero =>
    have := h 1 le_rfl le_rfl
    have e : low + (high - low) / 2 ^ 1 = (low + high) / 2 := by ring
    rw [e] at this
    simp [bisectLoop, bisectStep, not_lt.2 this]
  | succ left ih =>
    have := h 1 le_rfl (by omega)
    have e : low + (high - low) / 2 ^ 1 = (low + high) / 2 := by ring
    rw [e] at this
    have hst : bisectStep f low high = (low, (low + high) / 2) := by
      simp [bisectStep, not_lt.2 this]
    simp only [bisectLoop, hst]
    split
    · rfl
    · refine ih _ fun j j1 j2 => ?_
      have := h (j + 1) (by omega) (by omega)
      have e2 : low + ((low + high) / 2 - low) / 2 ^ j = low + (high - low) / 2 ^ (j + 1) := by
        rw [pow_succ]; field_simp; ring
      rw [e2]
      exact this

end

/-! ## Properties -/

/-- **C55** For every skewness and kurtosis, and whatever the error functions are, the parameters are
less than 1 and more than -1e-7, and the one on the side of the skewness is the larger one up to 1e-7. -/
theorem tukey_params_nearly_valid (shape : ℝ → ℝ → ℝ × ℝ) (skewness kurtosis : ℝ) :
    -1.0e-7 < (tukeyParams shape skewness kurtosis).1 ∧ (tukeyParams shape skewness kurtosis).1 < 1 ∧
    -1.0e-7 < (tukeyParams shape skewness kurtosis).2 ∧ (tukeyParams shape skewness kurtosis).2 < 1 ∧
    (0 ≤ skewness → (tukeyParams shape skewness kurtosis).1 <
      (tukeyParams shape skewness kurtosis).2 + 1.0e-7) ∧
    (skewness < 0 → (tukeyParams shape skewness kurtosis).2 <
      (tukeyParams shape skewness kurtosis).1 + 1.0e-7) := by
  by_cases hg : gaussianLKurtosis ≤ kurtosis
  · obtain ⟨a, b, c, d, e, f⟩ := tukey_params_valid_partial shape skewness kurtosis hg
    norm_num
    exact ⟨by linarith, b, by linarith, d, fun h => by linarith [e h], fun h => by linarith [f h]⟩
  · unfold tukeyParams
    by_cases hk : kurtosis < 0.1226017
    · simp only [if_pos hk]
      norm_num
    · simp only [if_neg hk]
      have hkm : min kurtosis (1 - 1.0e-5) = kurtosis := by
        apply min_eq_left
        have := gaussian_bounds.2
        norm_num at this ⊢
        linarith [not_le.1 hg]
      rw [hkm]
      obtain ⟨b1, b2⟩ := initialH_window kurtosis (not_lt.1 hk) (not_le.1 hg)
      have hv := searchLoop_loose
        (fun h delta => (shape (h - delta) h).1 - if skewness < 0 then -skewness else skewness)
        (fun h delta => (shape (h - delta) h).2 - kurtosis)
        (initialH kurtosis) (1 - 1.0e-7) 20 0 0
        { h := initialH kurtosis, delta := 0, minH := initialH kurtosis, minDelta := 0
          maxH := 1 - 1.0e-7, maxDelta := initialH kurtosis }
        ⟨le_rfl, le_rfl, by norm_num; linarith, le_rfl, ⟨b2.le, le_max_left _ _⟩,
          ⟨b2.le, le_max_left _ _⟩, le_rfl, le_max_right _ _⟩
      set s := searchLoop
        (fun h delta => (shape (h - delta) h).1 - if skewness < 0 then -skewness else skewness)
        (fun h delta => (shape (h - delta) h).2 - kurtosis) 20 0 0
        { h := initialH kurtosis, delta := 0, minH := initialH kurtosis, minDelta := 0
          maxH := 1 - 1.0e-7, maxDelta := initialH kurtosis }
      obtain ⟨v1, v2, v3, v4, -, ⟨v7, v8⟩, -⟩ := hv
      have hlow : initialH kurtosis ≤ s.h - s.delta := by
        rcases le_total 0 s.minH with h0 | h0
        · rw [max_eq_right h0] at v8; linarith
        · rw [max_eq_left h0] at v8; linarith
      have hh : s.h < 1 := by norm_num at v4; linarith
      have hh' : s.h - s.delta < 1 := by norm_num at v4 b1; linarith
      have hd : s.h - s.delta < s.h + 1.0e-7 := by norm_num at b1 ⊢; linarith
      by_cases hsw : skewness < 0
      · simp only [hsw, decide_true, if_true]
        exact ⟨by linarith, hh, by linarith, hh', fun h => absurd hsw (not_lt.2 h), fun _ => hd⟩
      · simp only [hsw, decide_false, if_false, Bool.false_eq_true]
        exact ⟨by linarith, hh', by linarith, hh, fun _ => hd, fun h => h.elim⟩

/-- **C55, the window** For an L-kurtosis from 0.1226017 up to that of a Gaussian the parameter of the
right tail is negative, if no parameters from 1/4096 on have a smaller L-kurtosis and the starting point
is not skewed to the right. So the claim "between 0 and 1" is false of the code. -/
theorem tukey_params_negative_in_window (shape : ℝ → ℝ → ℝ × ℝ) (skewness kurtosis : ℝ)
    (h0 : 0 ≤ skewness) (h1 : 0.1226017 ≤ kurtosis) (h2 : kurtosis < gaussianLKurtosis)
    (hs : (shape 0 (initialH kurtosis)).1 ≤ skewness)
    (hk : ∀ hl hr : ℝ, 1 / 4096 ≤ hl → 1 / 4096 ≤ hr → kurtosis ≤ (shape hl hr).2) :
    tukeyParams shape skewness kurtosis = (0, initialH kurtosis) ∧ initialH kurtosis < 0 := by
  obtain ⟨b1, b2⟩ := initialH_window kurtosis h1 h2
  refine ⟨?_, b2⟩
  have hkm : min kurtosis (1 - 1.0e-5) = kurtosis := by
    apply min_eq_left
    have := gaussian_bounds.2
    norm_num at this ⊢
    linarith
  unfold tukeyParams
  simp only [if_neg (not_lt.2 h1), not_lt.2 h0, decide_false, if_false, Bool.false_eq_true, hkm]
  set e1 := fun h delta : ℝ => (shape (h - delta) h).1 - skewness with he1
  set e2 := fun h delta : ℝ => (shape (h - delta) h).2 - kurtosis with he2
  set x := initialH kurtosis
  have hlow : (binarySearch (fun y => e2 y x) x (1 - 1.0e-7)).1 = x := by
    refine loop_low _ _ _ _ fun j j1 j2 => ?_
    have hp : (1 : ℝ) / 2 ^ 11 ≤ 1 / 2 ^ j :=
      one_div_le_one_div_of_le (by positivity) (pow_le_pow_right₀ (by norm_num) j2)
    have hw : (0.99 : ℝ) ≤ 1 - 1.0e-7 - x := by norm_num; linarith
    have hq : (0.99 : ℝ) * (1 / 2 ^ 11) ≤ (1 - 1.0e-7 - x) * (1 / 2 ^ j) :=
      mul_le_mul hw hp (by positivity) (by linarith)
    have hq' : (1 - 1.0e-7 - x) / 2 ^ j = (1 - 1.0e-7 - x) * (1 / 2 ^ j) := by ring
    rw [he2]
    beta_reduce
    rw [hq']
    set w := (1 - 1.0e-7 - x) * (1 / 2 ^ j)
    have := hk (x + w - x) (x + w) (by norm_num at hq ⊢; linarith) (by norm_num at hq b1 ⊢; linarith)
    linarith
  have hstep : searchStep e1 e2 ⟨x, 0, x, 0, 1 - 1.0e-7, x⟩ = ⟨x, x, x, x, 1 - 1.0e-7, x⟩ := by
    unfold searchStep
    have hn : ¬ 0 < e1 x x := by
      simp only [he1, sub_self]
      linarith
    simp only [hn, if_false, hlow]
  have hsmall : |x| < tolerance := by
    unfold tolerance
    rw [abs_lt]
    norm_num at b1 ⊢
    exact ⟨by linarith, by linarith⟩
  have hloop : searchLoop e1 e2 20 0 0 ⟨x, 0, x, 0, 1 - 1.0e-7, x⟩ = ⟨x, x, x, x, 1 - 1.0e-7, x⟩ := by
    simp only [searchLoop, hstep, sub_zero, hsmall, and_self, or_true, if_true]
  rw [hloop]
  simp

/-- The window is not empty, and a distribution of constant L-kurtosis meets the hypotheses. -/
example : ∃ (shape : ℝ → ℝ → ℝ × ℝ) (kurtosis : ℝ), (tukeyParams shape 0 kurtosis).2 < 0 := by
  refine ⟨fun _ _ => (0, 1 / 2), 0.1226017, ?_⟩
  obtain ⟨h, hneg⟩ := tukey_params_negative_in_window (fun _ _ => (0, 1 / 2)) 0 0.1226017 le_rfl le_rfl
    gaussian_bounds.1 le_rfl (fun _ _ _ _ => by norm_num)
  rw [h]
  exact hneg

end TFT.Numeric
