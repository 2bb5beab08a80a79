import Verif.Numeric.HigherMoments
import Verif.Numeric.WindowFit

/-!
# What the search of `scale_to_gaussian` finds (C94)

With the formulas of the code for the L-skewness and L-kurtosis.
-/

namespace TFT.Numeric

open MeasureTheory ProbabilityTheory Set

/-! ## The formulas as functions of the parameters -/

theorem sqrt_two_sub_lt (h h' : ℝ) (hlt : h < h') (h1 : h' < 1) :
    0 < Real.sqrt (2 - h') ∧ Real.sqrt (2 - h') < Real.sqrt (2 - h) :=
  ⟨Real.sqrt_pos.2 (by linarith), Real.sqrt_lt_sqrt (by linarith) (by linarith)⟩

theorem sideScale_pos (h : ℝ) (h1 : h < 1) : 0 < sideScale h := by
  have := Real.sqrt_pos.2 (show 0 < 2 - h by linarith)
  have : 0 < 1 - h := by linarith
  unfold sideScale; positivity

theorem sideScale_lt (h h' : ℝ) (hlt : h < h') (h1 : h' < 1) : sideScale h < sideScale h' := by
  obtain ⟨a, b⟩ := sqrt_two_sub_lt h h' hlt h1
  unfold sideScale
  refine one_div_lt_one_div_of_lt (mul_pos (by linarith) a) ?_
  exact mul_lt_mul'' (by linarith) b (by linarith) a.le

theorem sideThird_lt (h h' : ℝ) (hlt : h < h') (h1 : h' < 1) : sideThird h < sideThird h' := by
  obtain ⟨a, b⟩ := sqrt_two_sub_lt h h' hlt h1
  have := Real.arctan_strictMono (one_div_lt_one_div_of_lt a b)
  have := mul_lt_mul_of_pos_left this (show 0 < 12 / Real.pi by have := Real.pi_pos; positivity)
  unfold sideThird
  linarith

theorem sideThird_pos (h : ℝ) (h0 : 0 ≤ h) (h1 : h < 1) : 0 < sideThird h := by
  have hpi := Real.pi_pos
  have r0 : 0 < Real.sqrt (2 - h) := Real.sqrt_pos.2 (by linarith)
  have r1 : Real.sqrt (2 - h) ≤ Real.sqrt 2 := Real.sqrt_le_sqrt (by linarith)
  have r2 : Real.sqrt 2 < 2 := by rw [Real.sqrt_lt' (by norm_num)]; norm_num
  have r3 : Real.sqrt (2 - h) ≤ Real.sqrt 3 := Real.sqrt_le_sqrt (by linarith)
  have : Real.pi / 6 ≤ Real.arctan (1 / Real.sqrt (2 - h)) := by
    rw [← Real.arctan_inv_sqrt_three, ← one_div]
    exact Real.arctan_strictMono.monotone (one_div_le_one_div_of_le r0 r3)
  have := mul_le_mul_of_nonneg_left this (show 0 ≤ 12 / Real.pi by positivity)
  have e : 12 / Real.pi * (Real.pi / 6) = 2 := by field_simp; norm_num
  unfold sideThird
  linarith

theorem sideFourth_lt (h h' : ℝ) (hlt : h < h') (h1 : h' ≤ 1) : sideFourth h < sideFourth h' := by
  have hpi := Real.pi_pos
  have q : (2 - h') / (4 - h') < (2 - h) / (4 - h) := by
    rw [div_lt_div_iff₀ (by linarith) (by linarith)]; nlinarith
  have := Real.arctan_strictMono
    (Real.sqrt_lt_sqrt (div_nonneg (by linarith) (by linarith) : 0 ≤ (2 - h') / (4 - h')) q)
  have := mul_lt_mul_of_pos_left this (show 0 < 30 / Real.pi by positivity)
  unfold sideFourth
  linarith

theorem sideFourth_zero : sideFourth 0 = gaussianLKurtosis := by
  unfold sideFourth gaussianLKurtosis
  have e : Real.sqrt ((2 - 0) / (4 - 0)) = (Real.sqrt 2)⁻¹ := by
    rw [← Real.sqrt_inv]; congr 1; norm_num
  rw [e, Real.arctan_inv_of_pos (Real.sqrt_pos.2 (by norm_num))]
  have := Real.pi_ne_zero
  field_simp
  ring

theorem sideFourth_one : sideFourth 1 = 1 := by
  unfold sideFourth
  have e : Real.sqrt ((2 - 1) / (4 - 1)) = (Real.sqrt 3)⁻¹ := by
    rw [← Real.sqrt_inv]; congr 1; norm_num
  rw [e, Real.arctan_inv_sqrt_three]
  have := Real.pi_ne_zero
  field_simp
  norm_num

theorem initialH_sideFourth (h : ℝ) (h1 : h ≤ 1) : initialH (sideFourth h) = h := by
  unfold initialH sideFourth
  have hpi := Real.pi_ne_zero
  have e : Real.pi / 15 * (6 - 30 / Real.pi * Real.arctan (Real.sqrt ((2 - h) / (4 - h))) - 6)
      = -(2 * Real.arctan (Real.sqrt ((2 - h) / (4 - h)))) := by field_simp; ring
  have a : 3 - h ≠ 0 := by linarith
  have b : 4 - h ≠ 0 := by linarith
  have c : 0 ≤ (2 - h) / (4 - h) := div_nonneg (by linarith) (by linarith)
  rw [e, Real.cos_neg, Real.cos_two_mul, Real.cos_arctan, div_pow, Real.sq_sqrt (by positivity),
    Real.sq_sqrt c]
  have d : 1 + (2 - h) / (4 - h) = 2 * (3 - h) / (4 - h) := by field_simp; ring
  rw [d]
  field_simp
  ring

theorem sideFourth_initialH (k : ℝ) (h1 : gaussianLKurtosis ≤ k) (h2 : k < 1) :
    0 ≤ initialH k ∧ initialH k < 1 ∧ sideFourth (initialH k) = k := by
  have c : ContinuousOn sideFourth (Icc 0 1) := by
    unfold sideFourth
    refine continuousOn_const.sub (continuousOn_const.mul ?_)
    refine Real.continuous_arctan.comp_continuousOn (Real.continuous_sqrt.comp_continuousOn ?_)
    exact ContinuousOn.div (by fun_prop) (by fun_prop) fun x hx => by
      have := hx.2; linarith
  have := intermediate_value_Icc zero_le_one c
  rw [sideFourth_zero, sideFourth_one] at this
  obtain ⟨h, hh, he⟩ := this ⟨h1, h2.le⟩
  have e := initialH_sideFourth h hh.2
  rw [he] at e
  rw [e]
  refine ⟨hh.1, lt_of_le_of_ne hh.2 fun e1 => ?_, he⟩
  rw [e1, sideFourth_one] at he
  linarith

/-- More weight on the right gives more skewness. -/
theorem shape_skewness_lt_right (hl h h' : ℝ) (h0 : 0 ≤ hl) (h1 : hl < 1) (hn : 0 ≤ h) (hh : h < h')
    (h2 : h' < 1) : (tukeyShape hl h).1 < (tukeyShape hl h').1 := by
  rw [(shape_sides hl h h1 (hh.trans h2)).1, (shape_sides hl h' h1 h2).1]
  have a := sideScale_pos hl h1
  have b := sideScale_pos h (hh.trans h2)
  have c := sideScale_lt h h' hh h2
  have d := sideThird_lt h h' hh h2
  have e := sideThird_pos hl h0 h1
  have f := sideThird_pos h hn (hh.trans h2)
  rw [div_lt_div_iff₀ (by linarith) (by linarith)]
  generalize sideScale hl = S at *
  generalize sideThird hl = G at *
  generalize sideScale h = x at *
  generalize sideScale h' = y at *
  generalize sideThird h = u at *
  generalize sideThird h' = v at *
  have p1 : 0 < S * (y * (v - u)) := by
    have : 0 < v - u := by linarith
    have : 0 < y := by linarith
    positivity
  have p2 : 0 < S * (u * (y - x)) := by
    have : 0 < y - x := by linarith
    positivity
  have p3 : 0 < x * y * (v - u) := by
    have : 0 < v - u := by linarith
    have : 0 < y := by linarith
    positivity
  have p4 : 0 < S * G * (y - x) := by
    have : 0 < y - x := by linarith
    positivity
  linarith

/-- Exchanging the sides mirrors the distribution. -/
theorem shape_mirror (hl hr : ℝ) (h1 : hl < 1) (h2 : hr < 1) :
    tukeyShape hr hl = (-(tukeyShape hl hr).1, (tukeyShape hl hr).2) := by
  obtain ⟨a1, a2⟩ := shape_sides hl hr h1 h2
  obtain ⟨b1, b2⟩ := shape_sides hr hl h2 h1
  rw [Prod.ext_iff]
  constructor
  · rw [b1, a1, add_comm (sideScale hr)]
    ring
  · rw [b2, a2, add_comm (sideScale hr), add_comm (sideScale hl * _)]

/-- Equal parameters: no skewness. -/
theorem shape_equal (h : ℝ) (h1 : h < 1) : tukeyShape h h = (0, sideFourth h) := by
  obtain ⟨a1, a2⟩ := shape_sides h h h1 h1
  have := sideScale_pos h h1
  rw [Prod.ext_iff, a1, a2]
  constructor
  · simp
  · simp only; field_simp; try ring

theorem shape_skewness_nonneg (hl hr : ℝ) (h0 : 0 ≤ hl) (h : hl ≤ hr) (h1 : hr < 1) :
    0 ≤ (tukeyShape hl hr).1 := by
  rcases h.eq_or_lt with e | e
  · subst e; rw [shape_equal _ h1]
  · have := shape_skewness_lt_right hl hl hr h0 (e.trans h1) h0 e h1
    rw [shape_equal _ (e.trans h1)] at this
    exact this.le

/-! ## Symmetric data -/

theorem search_low (f : ℝ → ℝ) (low high : ℝ) (h : low ≤ high)
    (hf : ∀ x, low ≤ x → x ≤ high → 0 ≤ f x) : (binarySearch f low high).1 = low := by
  refine loop_low f 10 low high fun j _ _ => hf _ ?_ ?_
  · have : 0 ≤ (high - low) / 2 ^ j := by
      have : 0 ≤ high - low := by linarith
      positivity
    linarith
  · have : (high - low) / 2 ^ j ≤ high - low :=
      div_le_self (by linarith) (one_le_pow₀ (by norm_num))
    linarith

theorem loop_stops (e1 e2 : ℝ → ℝ → ℝ) (left : Nat) (p q : ℝ) (s : Search ℝ)
    (h : |e1 (searchStep e1 e2 s).h (searchStep e1 e2 s).delta| < tolerance ∧
      |e2 (searchStep e1 e2 s).h (searchStep e1 e2 s).delta| < tolerance) :
    searchLoop e1 e2 (left + 1) p q s = searchStep e1 e2 s := by
  rw [searchLoop]
  exact if_pos (Or.inl h)

/-- **C94**: for data without skewness, with at least the L-kurtosis of a Gaussian, the search finds
the parameters exactly: equal parameters whose distribution has L-skewness 0 and the L-kurtosis of the
data. -/
theorem symmetric_data_are_fitted_exactly (k : ℝ) (h1 : gaussianLKurtosis ≤ k) (h2 : k ≤ 1 - 1.0e-5) :
    ∃ h : ℝ, 0 ≤ h ∧ h < 1 ∧ tukeyParams tukeyShape 0 k = (h, h) ∧
      lThird (tukeyHH h h) = 0 ∧ lFourth (tukeyHH h h) / lScale (tukeyHH h h) = k := by
  obtain ⟨a, b, e⟩ := sideFourth_initialH k h1 (by norm_num at h2 ⊢; linarith)
  obtain ⟨-, b'⟩ := initialH_bounds k h1 h2
  refine ⟨initialH k, a, b, ?_, ?_, ?_⟩
  · have hk : ¬ k < 0.1226017 := by
      have := gaussian_bounds.1; push_neg; linarith
    unfold tukeyParams
    rw [if_neg hk]
    simp only [lt_self_iff_false, decide_false, if_false, min_eq_left h2, sub_zero]
    generalize initialH k = h0 at *
    have eS : ∀ h d : ℝ, 0 ≤ d → d ≤ h → h < 1 → 0 ≤ (tukeyShape (h - d) h).1 := fun h d d0 d1 hh =>
      shape_skewness_nonneg _ _ (by linarith) (by linarith) hh
    have eK : ∀ x : ℝ, h0 ≤ x → x ≤ 1 - 1.0e-7 → 0 ≤ (tukeyShape (x - 0) x).2 - k := by
      intro x x1 x2
      have hx : x < 1 := lt_of_le_of_lt x2 (by norm_num)
      rw [sub_zero, shape_equal x hx]
      simp only
      rcases x1.eq_or_lt with q | q
      · rw [← q, e]; simp
      · have := sideFourth_lt h0 x q hx.le; linarith
    have step : ∀ s', s' = searchStep (fun h delta => (tukeyShape (h - delta) h).1)
        (fun h delta => (tukeyShape (h - delta) h).2 - k)
        { h := h0, delta := 0, minH := h0, minDelta := 0, maxH := 1 - 1.0e-7, maxDelta := h0 } →
        s'.h = h0 ∧ s'.delta = 0 := by
      intro s' hs'
      subst hs'
      unfold searchStep
      split
      · simp only
        obtain ⟨p1, p2, p3⟩ := search_inside (fun d => (tukeyShape (h0 - d) h0).1) 0 h0 a
        set d1 := (binarySearch (fun d => (tukeyShape (h0 - d) h0).1) 0 h0).2
        obtain ⟨q1, q2, q3⟩ := search_inside (fun x => (tukeyShape (x - d1) x).2 - k) h0
          (1 - 1.0e-7) b'
        set hh1 := (binarySearch (fun x => (tukeyShape (x - d1) x).2 - k) h0 (1 - 1.0e-7)).2
        have hh1lt : hh1 < 1 := lt_of_le_of_lt q3 (by norm_num)
        have z : (binarySearch (fun delta => (tukeyShape (hh1 - delta) hh1).1) 0 d1).1 = 0 :=
          search_low _ _ _ (p1.trans p2) fun x x0 x1 => eS hh1 x x0 (by linarith) hh1lt
        rw [z]
        refine ⟨search_low _ _ _ (q1.trans q2) fun x x0 x1 => eK x x0 (x1.trans q3), rfl⟩
      · rename_i hneg
        have h00 : h0 = 0 := by
          by_contra hne
          have hp : 0 < h0 := lt_of_le_of_ne a (Ne.symm hne)
          apply hneg
          have := shape_skewness_lt_right 0 0 h0 le_rfl (by norm_num) le_rfl hp b
          rw [shape_equal 0 (by norm_num)] at this
          simpa using this
        subst h00
        exact ⟨search_low _ _ _ b' fun x x0 x1 => eK x x0 x1, rfl⟩
    obtain ⟨s1, s2⟩ := step _ rfl
    have cond : |(tukeyShape (h0 - 0) h0).1| < tolerance ∧
        |(tukeyShape (h0 - 0) h0).2 - k| < tolerance := by
      rw [sub_zero, shape_equal h0 b, e]
      simp [tolerance]
    rw [loop_stops _ _ 19 _ _ _ (by rw [s1, s2]; exact cond)]
    simp [s1, s2]
  · have := shape_is_the_l_skewness_and_l_kurtosis _ _ a b a b
    rw [shape_equal _ b, Prod.ext_iff] at this
    have t := this.1.symm
    have p : 0 < lScale (tukeyHH (initialH k) (initialH k)) := by
      rw [tukey_l_scale _ _ a b a b]; exact l_scale_pos _ _ b b
    simp only at t
    rcases div_eq_zero_iff.1 t with t | t
    · exact t
    · linarith
  · have := shape_is_the_l_skewness_and_l_kurtosis _ _ a b a b
    rw [shape_equal _ b, Prod.ext_iff] at this
    exact this.2.symm.trans e

/-- An L-kurtosis of a half. -/
example : gaussianLKurtosis ≤ 1 / 2 ∧ (1 / 2 : ℝ) ≤ 1 - 1.0e-5 := by
  have := gaussian_bounds.2
  constructor <;> norm_num at * <;> linarith

/-! ## Skewed data -/

theorem searchStep_minDelta (e1 e2 : ℝ → ℝ → ℝ) (s : Search ℝ) (bound : ℝ) (h : s.Valid bound) :
    s.minDelta ≤ (searchStep e1 e2 s).minDelta := by
  obtain ⟨v1, v2, v3, v4, v5, v6, v7, v8, v9⟩ := h
  unfold searchStep
  split
  · obtain ⟨a1, a2, a3⟩ := search_inside (e1 s.h) s.minDelta s.maxDelta v2
    simp only
    exact (search_inside _ s.minDelta _ (a1.trans a2)).1
  · exact v2

theorem searchLoop_minDelta (e1 e2 : ℝ → ℝ → ℝ) (bound : ℝ) (left : Nat) (p q : ℝ) (s : Search ℝ)
    (h : s.Valid bound) : s.minDelta ≤ (searchLoop e1 e2 left p q s).minDelta := by
  induction left generalizing p q s with
  | zero => exact le_rfl
  | succ left ih =>
    simp only [searchLoop]
    have a := searchStep_minDelta e1 e2 s bound h
    split
    · exact a
    · exact a.trans (ih _ _ _ (searchStep_valid e1 e2 s bound h))

/-- If the widest difference of the parameters does not give enough skewness at first, then the
difference of the parameters found is at least that. -/
theorem difference_is_kept (e1 e2 : ℝ → ℝ → ℝ) (bound : ℝ) (left : Nat) (p q : ℝ) (s : Search ℝ)
    (h : s.Valid bound) (h0 : e1 s.h s.maxDelta ≤ 0) :
    s.maxDelta ≤ (searchLoop e1 e2 (left + 1) p q s).delta := by
  have v := searchLoop_valid e1 e2 bound (left + 1) p q s h
  refine le_trans ?_ v.2.2.2.2.2.1
  have st : (searchStep e1 e2 s).minDelta = s.maxDelta := by
    unfold searchStep
    rw [if_neg (not_lt.2 h0)]
  rw [searchLoop]
  split
  · exact st.ge
  · exact st.ge.trans (searchLoop_minDelta e1 e2 bound left _ _ _ (searchStep_valid e1 e2 s bound h))

/-! ## Numeric bounds -/

theorem arctan_lower (z : ℝ) (hz : 0 ≤ z) : z - z ^ 3 / 3 ≤ Real.arctan z := by
  have hd : ∀ x : ℝ, HasDerivAt (fun x => Real.arctan x - (x - x ^ 3 / 3))
      (x ^ 4 / (1 + x ^ 2)) x := by
    intro x
    have := (Real.hasDerivAt_arctan x).sub ((hasDerivAt_id x).sub ((hasDerivAt_pow 3 x).div_const 3))
    refine this.congr_deriv ?_
    have : 1 + x ^ 2 ≠ 0 := by positivity
    push_cast
    field_simp
    ring
  have m : Monotone fun x => Real.arctan x - (x - x ^ 3 / 3) :=
    monotone_of_hasDerivAt_nonneg hd fun x => by positivity
  have := m hz
  simp only [Real.arctan_zero] at this
  linarith

theorem arctan_upper (z : ℝ) (hz : 0 ≤ z) : Real.arctan z ≤ z - z ^ 3 / 3 + z ^ 5 / 5 := by
  have hd : ∀ x : ℝ, HasDerivAt (fun x => (x - x ^ 3 / 3 + x ^ 5 / 5) - Real.arctan x)
      (x ^ 6 / (1 + x ^ 2)) x := by
    intro x
    have := (((hasDerivAt_id x).sub ((hasDerivAt_pow 3 x).div_const 3)).add
      ((hasDerivAt_pow 5 x).div_const 5)).sub (Real.hasDerivAt_arctan x)
    refine this.congr_deriv ?_
    have : 1 + x ^ 2 ≠ 0 := by positivity
    push_cast
    field_simp
    ring
  have m : Monotone fun x => (x - x ^ 3 / 3 + x ^ 5 / 5) - Real.arctan x :=
    monotone_of_hasDerivAt_nonneg hd fun x => by positivity
  have := m hz
  simp only [Real.arctan_zero] at this
  linarith

theorem arctan_complement (q : ℝ) (hq : 0 < q) :
    Real.arctan q = Real.pi / 4 - Real.arctan ((1 - q) / (1 + q)) := by
  have h : q * ((1 - q) / (1 + q)) < 1 := by
    rw [← mul_div_assoc, div_lt_one (by linarith)]; nlinarith [sq_nonneg (q - 1)]
  have := Real.arctan_add h
  have e : (q + (1 - q) / (1 + q)) / (1 - q * ((1 - q) / (1 + q))) = 1 := by
    have a : 1 + q ≠ 0 := by linarith
    have b : 1 - q * ((1 - q) / (1 + q)) ≠ 0 := by linarith
    rw [div_eq_one_iff_eq b]
    field_simp
    ring
  rw [e, Real.arctan_one] at this
  linarith

theorem inv_pi_bounds : (1 / 3.1416 : ℝ) ≤ 1 / Real.pi ∧ 1 / Real.pi ≤ 1 / 3.1415 :=
  ⟨one_div_le_one_div_of_le Real.pi_pos Real.pi_lt_d4.le,
   one_div_le_one_div_of_le (by norm_num) Real.pi_gt_d4.le⟩

theorem sideFourth_lower (h q z : ℝ) (h1 : h < 1) (hq : Real.sqrt ((2 - h) / (4 - h)) ≤ q) (hq1 : q ≤ 1)
    (hz : z = (1 - q) / (1 + q)) : -3 / 2 + 30 * (z - z ^ 3 / 3) * (1 / 3.1416) ≤ sideFourth h := by
  have hq0 : 0 < q := lt_of_lt_of_le (Real.sqrt_pos.2 (div_pos (by linarith) (by linarith))) hq
  have z0 : 0 ≤ z := by rw [hz]; exact div_nonneg (by linarith) (by linarith)
  have z1 : z ≤ 1 := by rw [hz, div_le_one (by linarith)]; linarith
  have a := Real.arctan_strictMono.monotone hq
  rw [arctan_complement q hq0, ← hz] at a
  have b := arctan_lower z z0
  have c : 0 ≤ z - z ^ 3 / 3 := by nlinarith [pow_le_one₀ z0 z1 (n := 2)]
  have hpi := Real.pi_pos
  unfold sideFourth
  have d : 30 / Real.pi * Real.arctan (Real.sqrt ((2 - h) / (4 - h)))
      ≤ 30 / Real.pi * (Real.pi / 4 - (z - z ^ 3 / 3)) :=
    mul_le_mul_of_nonneg_left (by linarith) (by positivity)
  have e : 30 / Real.pi * (Real.pi / 4 - (z - z ^ 3 / 3))
      = 15 / 2 - 30 * (z - z ^ 3 / 3) * (1 / Real.pi) := by field_simp; ring
  have f := mul_le_mul_of_nonneg_left inv_pi_bounds.1 (show 0 ≤ 30 * (z - z ^ 3 / 3) by linarith)
  linarith

theorem sideFourth_upper (h q z : ℝ) (h1 : h < 1) (hq : q ≤ Real.sqrt ((2 - h) / (4 - h))) (hq0 : 0 < q)
    (hz : z = (1 - q) / (1 + q)) :
    sideFourth h ≤ -3 / 2 + 30 * (z - z ^ 3 / 3 + z ^ 5 / 5) * (1 / 3.1415) := by
  have hq1 : q ≤ 1 := by
    refine hq.trans ?_
    rw [Real.sqrt_le_iff, one_pow, div_le_one (by linarith)]; exact ⟨zero_le_one, by linarith⟩
  have z0 : 0 ≤ z := by rw [hz]; exact div_nonneg (by linarith) (by linarith)
  have z1 : z ≤ 1 := by rw [hz, div_le_one (by linarith)]; linarith
  have a := Real.arctan_strictMono.monotone hq
  rw [arctan_complement q hq0, ← hz] at a
  have b := arctan_upper z z0
  have c : 0 ≤ z - z ^ 3 / 3 + z ^ 5 / 5 := by
    nlinarith [pow_le_one₀ z0 z1 (n := 2), pow_nonneg z0 5]
  have hpi := Real.pi_pos
  unfold sideFourth
  have d : 30 / Real.pi * (Real.pi / 4 - (z - z ^ 3 / 3 + z ^ 5 / 5))
      ≤ 30 / Real.pi * Real.arctan (Real.sqrt ((2 - h) / (4 - h))) :=
    mul_le_mul_of_nonneg_left (by linarith) (by positivity)
  have e : 30 / Real.pi * (Real.pi / 4 - (z - z ^ 3 / 3 + z ^ 5 / 5))
      = 15 / 2 - 30 * (z - z ^ 3 / 3 + z ^ 5 / 5) * (1 / Real.pi) := by field_simp; ring
  have f := mul_le_mul_of_nonneg_left inv_pi_bounds.2
    (show 0 ≤ 30 * (z - z ^ 3 / 3 + z ^ 5 / 5) by linarith)
  linarith

theorem complement_inv (r : ℝ) (hr : 0 < r) : (1 - 1 / r) / (1 + 1 / r) = (r - 1) / (r + 1) := by
  have : r + 1 ≠ 0 := by linarith
  have : 1 + 1 / r ≠ 0 := by positivity
  field_simp

theorem sideThird_lower (h r z : ℝ) (h1 : h < 1) (hr : Real.sqrt (2 - h) ≤ r)
    (hz : z = (r - 1) / (r + 1)) :
    3 - 12 * (z - z ^ 3 / 3 + z ^ 5 / 5) * (1 / 3.1415) - r ≤ sideThird h := by
  have r0 : 1 ≤ Real.sqrt (2 - h) := by rw [Real.one_le_sqrt]; linarith
  have z0 : 0 ≤ z := by rw [hz]; exact div_nonneg (by linarith) (by linarith)
  have z1 : z ≤ 1 := by rw [hz, div_le_one (by linarith)]; linarith
  have a := Real.arctan_strictMono.monotone (one_div_le_one_div_of_le (by linarith) hr)
  rw [arctan_complement (1 / r) (one_div_pos.2 (by linarith)), complement_inv r (by linarith), ← hz] at a
  have b := arctan_upper z z0
  have c : 0 ≤ z - z ^ 3 / 3 + z ^ 5 / 5 := by
    nlinarith [pow_le_one₀ z0 z1 (n := 2), pow_nonneg z0 5]
  have hpi := Real.pi_pos
  unfold sideThird
  have d : 12 / Real.pi * (Real.pi / 4 - (z - z ^ 3 / 3 + z ^ 5 / 5))
      ≤ 12 / Real.pi * Real.arctan (1 / Real.sqrt (2 - h)) :=
    mul_le_mul_of_nonneg_left (by linarith) (by positivity)
  have e : 12 / Real.pi * (Real.pi / 4 - (z - z ^ 3 / 3 + z ^ 5 / 5))
      = 3 - 12 * (z - z ^ 3 / 3 + z ^ 5 / 5) * (1 / Real.pi) := by field_simp; ring
  have f := mul_le_mul_of_nonneg_left inv_pi_bounds.2
    (show 0 ≤ 12 * (z - z ^ 3 / 3 + z ^ 5 / 5) by linarith)
  linarith

theorem sideThird_upper (h r z : ℝ) (hr : r ≤ Real.sqrt (2 - h)) (hr1 : 1 ≤ r)
    (hz : z = (r - 1) / (r + 1)) :
    sideThird h ≤ 3 - 12 * (z - z ^ 3 / 3) * (1 / 3.1416) - r := by
  have z0 : 0 ≤ z := by rw [hz]; exact div_nonneg (by linarith) (by linarith)
  have z1 : z ≤ 1 := by rw [hz, div_le_one (by linarith)]; linarith
  have a := Real.arctan_strictMono.monotone (one_div_le_one_div_of_le (by linarith) hr)
  rw [arctan_complement (1 / r) (one_div_pos.2 (by linarith)), complement_inv r (by linarith), ← hz] at a
  have b := arctan_lower z z0
  have c : 0 ≤ z - z ^ 3 / 3 := by nlinarith [pow_le_one₀ z0 z1 (n := 2)]
  have hpi := Real.pi_pos
  unfold sideThird
  have d : 12 / Real.pi * Real.arctan (1 / Real.sqrt (2 - h))
      ≤ 12 / Real.pi * (Real.pi / 4 - (z - z ^ 3 / 3)) :=
    mul_le_mul_of_nonneg_left (by linarith) (by positivity)
  have e : 12 / Real.pi * (Real.pi / 4 - (z - z ^ 3 / 3))
      = 3 - 12 * (z - z ^ 3 / 3) * (1 / Real.pi) := by field_simp; ring
  have f := mul_le_mul_of_nonneg_left inv_pi_bounds.1 (show 0 ≤ 12 * (z - z ^ 3 / 3) by linarith)
  linarith

theorem sideScale_bounds (h r r' : ℝ) (h1 : h < 1) (hr : 0 < r) (hr1 : r ≤ Real.sqrt (2 - h))
    (hr2 : Real.sqrt (2 - h) ≤ r') :
    1 / ((1 - h) * r') ≤ sideScale h ∧ sideScale h ≤ 1 / ((1 - h) * r) := by
  have : 0 < 1 - h := by linarith
  have : 0 < Real.sqrt (2 - h) := by linarith
  unfold sideScale
  exact ⟨one_div_le_one_div_of_le (by positivity) (by gcongr),
    one_div_le_one_div_of_le (by positivity) (by gcongr)⟩

theorem sqrt_between (x a b : ℝ) (ha : 0 ≤ a) (hb : 0 ≤ b) (h1 : a ^ 2 ≤ x) (h2 : x ≤ b ^ 2) :
    a ≤ Real.sqrt x ∧ Real.sqrt x ≤ b :=
  ⟨Real.le_sqrt_of_sq_le h1, Real.sqrt_le_iff.2 ⟨hb, h2⟩⟩

/-- The L-skewness and L-kurtosis of the distribution with parameters 1/4 and 7/8, up to a few
thousandths. -/
theorem shape_example : (0.737 : ℝ) ≤ (tukeyShape (1 / 4) (7 / 8)).1 ∧
    (0.77 : ℝ) ≤ (tukeyShape (1 / 4) (7 / 8)).2 ∧ (tukeyShape (1 / 4) (7 / 8)).2 ≤ 0.7745 := by
  obtain ⟨e1, e2⟩ := shape_sides (1 / 4) (7 / 8) (by norm_num) (by norm_num)
  obtain ⟨p1, p2⟩ := sqrt_between (2 - 1 / 4) 1.3228 1.3229 (by norm_num) (by norm_num) (by norm_num) (by norm_num)
  obtain ⟨q1, q2⟩ := sqrt_between (2 - 7 / 8) 1.0606 1.0607 (by norm_num) (by norm_num) (by norm_num) (by norm_num)
  obtain ⟨s1, s2⟩ := sideScale_bounds (1 / 4) _ _ (by norm_num) (by norm_num) p1 p2
  obtain ⟨t1, t2⟩ := sideScale_bounds (7 / 8) _ _ (by norm_num) (by norm_num) q1 q2
  have g1 := sideThird_upper (1 / 4) _ _ p1 (by norm_num) rfl
  have g2 := sideThird_lower (7 / 8) _ _ (by norm_num) q2 rfl
  have k1 := sideFourth_lower (1 / 4) 0.6832 _ (by norm_num)
    (sqrt_between _ 0 _ (by norm_num) (by norm_num) (by norm_num) (by norm_num)).2 (by norm_num) rfl
  have k2 := sideFourth_upper (1 / 4) 0.6831 _ (by norm_num)
    (sqrt_between _ _ 1 (by norm_num) (by norm_num) (by norm_num) (by norm_num)).1 (by norm_num) rfl
  have l1 := sideFourth_lower (7 / 8) 0.6 _ (by norm_num)
    (sqrt_between _ 0 _ (by norm_num) (by norm_num) (by norm_num) (by norm_num)).2 (by norm_num) rfl
  have l2 := sideFourth_upper (7 / 8) 0.6 _ (by norm_num)
    (sqrt_between _ _ 1 (by norm_num) (by norm_num) (by norm_num) (by norm_num)).1 (by norm_num) rfl
  rw [e1, e2]
  norm_num at s1 s2 t1 t2 g1 g2 k1 k2 l1 l2
  generalize sideScale (1 / 4) = S at *
  generalize sideScale (7 / 8) = T at *
  generalize sideThird (1 / 4) = G at *
  generalize sideThird (7 / 8) = H at *
  generalize sideFourth (1 / 4) = A at *
  generalize sideFourth (7 / 8) = B at *
  have hS : 1.0078 ≤ S := by norm_num; linarith
  have hS' : S ≤ 1.0080 := by norm_num; linarith
  have hT : 7.542 ≤ T := by norm_num; linarith
  have hT' : T ≤ 7.543 := by norm_num; linarith
  have hG : G ≤ 1.150 := by norm_num; linarith
  have hH : 1.8267 ≤ H := by norm_num; linarith
  have hA : 0.274 ≤ A := by norm_num; linarith
  have hA' : A ≤ 0.278 := by norm_num; linarith
  have hB : 0.837 ≤ B := by norm_num; linarith
  have hB' : B ≤ 0.8396 := by norm_num; linarith
  have hp : 0 < S + T := by linarith
  refine ⟨?_, ?_, ?_⟩
  · rw [le_div_iff₀ hp]
    nlinarith [mul_nonneg (sub_nonneg.2 hH) (show 0 ≤ T by linarith),
      mul_nonneg (sub_nonneg.2 hG) (show 0 ≤ S by linarith)]
  · rw [le_div_iff₀ hp]
    nlinarith [mul_nonneg (sub_nonneg.2 hB) (show 0 ≤ T by linarith),
      mul_nonneg (sub_nonneg.2 hA) (show 0 ≤ S by linarith)]
  · rw [div_le_iff₀ hp]
    nlinarith [mul_nonneg (sub_nonneg.2 hB') (show 0 ≤ T by linarith),
      mul_nonneg (sub_nonneg.2 hA') (show 0 ≤ S by linarith)]

theorem shape_bound : (tukeyShape 0 0.83).1 ≤ 0.73 ∧ sideFourth 0.8 ≤ 0.754 ∧ 0.784 ≤ sideFourth 0.83 := by
  obtain ⟨e1, -⟩ := shape_sides 0 0.83 (by norm_num) (by norm_num)
  obtain ⟨p1, p2⟩ := sqrt_between (2 - 0) 1.4142 1.4143 (by norm_num) (by norm_num) (by norm_num) (by norm_num)
  obtain ⟨q1, q2⟩ := sqrt_between (2 - 0.83) 1.0816 1.0817 (by norm_num) (by norm_num) (by norm_num) (by norm_num)
  obtain ⟨s1, s2⟩ := sideScale_bounds 0 _ _ (by norm_num) (by norm_num) p1 p2
  obtain ⟨t1, t2⟩ := sideScale_bounds 0.83 _ _ (by norm_num) (by norm_num) q1 q2
  have g1 := sideThird_lower 0 _ _ (by norm_num) p2 rfl
  have g2 := sideThird_upper 0.83 _ _ q1 (by norm_num) rfl
  have k2 := sideFourth_upper 0.8 0.6123 _ (by norm_num)
    (sqrt_between _ _ 1 (by norm_num) (by norm_num) (by norm_num) (by norm_num)).1 (by norm_num) rfl
  have l1 := sideFourth_lower 0.83 0.6076 _ (by norm_num)
    (sqrt_between _ 0 _ (by norm_num) (by norm_num) (by norm_num) (by norm_num)).2 (by norm_num) rfl
  refine ⟨?_, k2.trans (by norm_num), le_trans (by norm_num) l1⟩
  rw [e1]
  generalize sideScale 0 = S at *
  generalize sideScale 0.83 = T at *
  generalize sideThird 0 = G at *
  generalize sideThird 0.83 = H at *
  have hS : 0.707 ≤ S := le_trans (by norm_num) s1
  have hS' : S ≤ 0.7072 := s2.trans (by norm_num)
  have hT : 5.438 ≤ T := le_trans (by norm_num) t1
  have hT' : T ≤ 5.439 := t2.trans (by norm_num)
  have hG : 0.93 ≤ G := le_trans (by norm_num) g1
  have hH : H ≤ 1.769 := g2.trans (by norm_num)
  have hp : 0 < S + T := by linarith
  rw [div_le_iff₀ hp]
  nlinarith [mul_nonneg (sub_nonneg.2 hH) (show 0 ≤ T by linarith),
    mul_nonneg (sub_nonneg.2 hG) (show 0 ≤ S by linarith)]

/-- **C94** Not true of the code: the search does not find the parameters of every distribution.  For
the L-skewness and L-kurtosis of the distribution with the parameters 1/4 and 7/8 it finds parameters
whose difference is more than 0.8 instead of 0.625: the difference with which it starts is too small
for the skewness at first, and is kept as a lower bound when the right parameter has grown, where a
smaller difference is enough. -/
theorem search_misses_the_parameters :
    0.8 ≤ (tukeyParams tukeyShape (tukeyShape (1 / 4) (7 / 8)).1 (tukeyShape (1 / 4) (7 / 8)).2).2
      - (tukeyParams tukeyShape (tukeyShape (1 / 4) (7 / 8)).1 (tukeyShape (1 / 4) (7 / 8)).2).1 := by
  obtain ⟨a, b, c⟩ := shape_example
  obtain ⟨d, e, f⟩ := shape_bound
  generalize (tukeyShape (1 / 4) (7 / 8)).1 = sk at *
  generalize (tukeyShape (1 / 4) (7 / 8)).2 = k at *
  have g := gaussian_bounds
  have hk1 : gaussianLKurtosis ≤ k := by norm_num at *; linarith
  have hk2 : k ≤ 1 - 1.0e-5 := by norm_num at *; linarith
  obtain ⟨i1, i2, i3⟩ := sideFourth_initialH k hk1 (by norm_num at *; linarith)
  have j := (initialH_bounds k hk1 hk2).2
  have lo : 0.8 ≤ initialH k := by
    by_contra hc
    have := sideFourth_lt _ _ (not_le.1 hc) (by norm_num)
    norm_num at *; linarith
  have hi : initialH k < 0.83 := by
    by_contra hc
    rcases (not_lt.1 hc).eq_or_lt with q | q
    · rw [← q] at i3; norm_num at *; linarith
    · have := sideFourth_lt _ _ q i2.le
      norm_num at *; linarith
  have hsk : (tukeyShape 0 (initialH k)).1 ≤ sk := by
    have := shape_skewness_lt_right 0 _ _ le_rfl (by norm_num) i1 hi (by norm_num)
    norm_num at *; linarith
  have hs0 : ¬ sk < 0 := by norm_num at *; linarith
  have hk0 : ¬ k < 0.1226017 := by norm_num at *; linarith
  unfold tukeyParams
  rw [if_neg hk0]
  simp only [hs0, decide_false, if_false, min_eq_left hk2, Bool.false_eq_true]
  generalize initialH k = h0 at *
  rw [sub_sub_cancel]
  refine lo.trans ?_
  exact difference_is_kept _ _ (1 - 1.0e-7) 19 0 0
    { h := h0, delta := 0, minH := h0, minDelta := 0, maxH := 1 - 1.0e-7, maxDelta := h0 }
    ⟨le_rfl, i1, le_rfl, j, le_rfl, le_rfl, i1, le_rfl, j⟩ (by simpa using hsk)

/-- **C94** The same for the analysis: data with the L-moments of the distribution with the parameters
1/4 and 7/8 are not fitted with that distribution, nor with one near it. -/
theorem fit_misses_the_distribution (quadruplets : ℝ) (hq : 0 < quadruplets) (f : Fit)
    (hf : f = fit tukeyShape (lMean (tukeyHH (1 / 4) (7 / 8))) (lScale (tukeyHH (1 / 4) (7 / 8)))
      (lThird (tukeyHH (1 / 4) (7 / 8))) (lFourth (tukeyHH (1 / 4) (7 / 8))) quadruplets) :
    0.08 ≤ |f.hl - 1 / 4| ∨ 0.08 ≤ |f.hr - 7 / 8| := by
  have hs : 0 < lScale (tukeyHH (1 / 4) (7 / 8)) := by
    rw [tukey_l_scale _ _ (by norm_num) (by norm_num) (by norm_num) (by norm_num)]
    exact l_scale_pos _ _ (by norm_num) (by norm_num)
  have e := shape_is_the_l_skewness_and_l_kurtosis (1 / 4) (7 / 8) (by norm_num) (by norm_num)
    (by norm_num) (by norm_num)
  have m := search_misses_the_parameters
  rw [Prod.ext_iff] at e
  simp only at e
  rw [e.1, e.2] at m
  have a : f.hl = (tukeyParams tukeyShape
      (lThird (tukeyHH (1 / 4) (7 / 8)) / lScale (tukeyHH (1 / 4) (7 / 8)))
      (lFourth (tukeyHH (1 / 4) (7 / 8)) / lScale (tukeyHH (1 / 4) (7 / 8)))).1 := by
    rw [hf]; unfold fit; simp only [gt_iff_lt, hs, hq, and_self, if_true]
  have b : f.hr = (tukeyParams tukeyShape
      (lThird (tukeyHH (1 / 4) (7 / 8)) / lScale (tukeyHH (1 / 4) (7 / 8)))
      (lFourth (tukeyHH (1 / 4) (7 / 8)) / lScale (tukeyHH (1 / 4) (7 / 8)))).2 := by
    rw [hf]; unfold fit; simp only [gt_iff_lt, hs, hq, and_self, if_true]
  rw [← a, ← b] at m
  by_contra hc
  push Not at hc
  obtain ⟨c1, c2⟩ := hc
  rw [abs_lt] at c1 c2
  norm_num at *
  linarith

/-- **C94**: mirrored data get mirrored parameters. -/
theorem mirrored_data_get_mirrored_parameters (shape : ℝ → ℝ → ℝ × ℝ) (skewness kurtosis : ℝ)
    (h : 0 < skewness) :
    tukeyParams shape (-skewness) kurtosis = (tukeyParams shape skewness kurtosis).swap := by
  unfold tukeyParams
  split
  · rfl
  · simp [h, not_lt.2 h.le]

/-- A skewness that is mirrored. -/
example : (0 : ℝ) < 0.3 := by norm_num

end TFT.Numeric
