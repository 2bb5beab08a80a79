import Verif.Numeric.GaussianizeProps
import Mathlib.Probability.Distributions.Gaussian.Real
import Mathlib.Analysis.Real.Pi.Bounds
import Mathlib.MeasureTheory.Integral.IntegralEqImproper

/-!
# Properties of the fit of `scale_to_gaussian` (C71)

The fitted distribution, `loc + scale * tukeyHH u` for a standard Gaussian `u`, has the mean and the
L-scale of the data, which are its first two L-moments.
-/

namespace TFT.Numeric

open MeasureTheory ProbabilityTheory Set

/-! ## Specification -/

/-- The mean of `g` of a standard Gaussian variable, the first L-moment. -/
noncomputable def lMean (g : ℝ → ℝ) : ℝ := ∫ u, g u ∂gaussianReal 0 1

/-- The second L-moment: half the mean distance of two independent variables. -/
noncomputable def lScale (g : ℝ → ℝ) : ℝ :=
  (∫ p : ℝ × ℝ, |g p.1 - g p.2| ∂(gaussianReal 0 1).prod (gaussianReal 0 1)) / 2

/-! ## Lemmas -/

/-- The density. -/
noncomputable def phi (u : ℝ) : ℝ := (Real.sqrt (2 * Real.pi))⁻¹ * Real.exp (-u ^ 2 / 2)

theorem phi_eq (u : ℝ) : gaussianPDFReal 0 1 u = phi u := by
  simp [gaussianPDFReal_def, phi]

theorem integral_gauss (f : ℝ → ℝ) : ∫ u, f u ∂gaussianReal 0 1 = ∫ u, phi u * f u := by
  rw [integral_gaussianReal_eq_integral_smul one_ne_zero]
  simp [phi_eq]

theorem integrable_phi : Integrable phi := by
  have := integrable_gaussianPDFReal 0 1
  rwa [show gaussianPDFReal 0 1 = phi from funext phi_eq] at this

theorem phi_neg (u : ℝ) : phi (-u) = phi u := by simp [phi]

theorem phi_nonneg (u : ℝ) : 0 ≤ phi u := by unfold phi; positivity

theorem phi_cont : Continuous phi := by unfold phi; fun_prop

/-- `2 Φ - 1`. -/
noncomputable def erfHalf (u : ℝ) : ℝ := 2 * ∫ v in (0 : ℝ)..u, phi v

theorem erfHalf_deriv (u : ℝ) : HasDerivAt erfHalf (2 * phi u) u := by
  unfold erfHalf
  exact (intervalIntegral.integral_hasDerivAt_right
    (phi_cont.intervalIntegrable _ _) (phi_cont.stronglyMeasurableAtFilter _ _)
    phi_cont.continuousAt).const_mul 2

theorem erfHalf_cont : Continuous erfHalf :=
  continuous_iff_continuousAt.2 fun u => (erfHalf_deriv u).continuousAt

theorem erfHalf_zero : erfHalf 0 = 0 := by simp [erfHalf]

theorem erfHalf_neg (u : ℝ) : erfHalf (-u) = -erfHalf u := by
  unfold erfHalf
  have := intervalIntegral.integral_comp_neg (a := 0) (b := u) phi
  simp only [phi_neg, neg_zero] at this
  rw [this, intervalIntegral.integral_symm (-u) 0]
  ring

theorem integral_phi : ∫ u, phi u = 1 := by
  have := integral_gaussianPDFReal_eq_one 0 (v := 1) one_ne_zero
  rwa [show gaussianPDFReal 0 1 = phi from funext phi_eq] at this

theorem phi_half : ∫ u in Ioi (0 : ℝ), phi u = ∫ u in Iic (0 : ℝ), phi u := by
  have := integral_comp_neg_Iic (0 : ℝ) phi
  simp only [phi_neg, neg_zero] at this
  exact this.symm

/-- The mean of the sign of `u - v`. -/
theorem sign_integral (u : ℝ) : ∫ v, (if v < u then (1 : ℝ) else -1) ∂gaussianReal 0 1 = erfHalf u := by
  rw [integral_gauss]
  have hint : Integrable fun v => phi v * (if v < u then (1 : ℝ) else -1) := by
    refine integrable_phi.mul_bdd (c := 1) ?_ ?_
    · exact (Measurable.ite measurableSet_Iio measurable_const measurable_const).aestronglyMeasurable
    · exact .of_forall fun v => by split <;> simp
  rw [← intervalIntegral.integral_Iio_add_Ici hint.integrableOn hint.integrableOn (b := u)]
  have e1 : ∫ v in Iio u, phi v * (if v < u then (1 : ℝ) else -1) = ∫ v in Iic u, phi v := by
    rw [integral_Iic_eq_integral_Iio]
    refine setIntegral_congr_fun measurableSet_Iio fun v hv => ?_
    simp only [mem_Iio] at hv
    simp [hv]
  have e2 : ∫ v in Ici u, phi v * (if v < u then (1 : ℝ) else -1) = -∫ v in Ioi u, phi v := by
    rw [← integral_Ici_eq_integral_Ioi, ← integral_neg]
    refine setIntegral_congr_fun measurableSet_Ici fun v hv => ?_
    simp only [mem_Ici] at hv
    simp [not_lt.2 hv]
  have e3 := intervalIntegral.integral_Iic_add_Ioi (b := u) integrable_phi.integrableOn
    integrable_phi.integrableOn
  have e4 := intervalIntegral.integral_Iic_add_Ioi (b := (0 : ℝ)) integrable_phi.integrableOn
    integrable_phi.integrableOn
  have e5 := intervalIntegral.integral_Iic_sub_Iic (a := (0 : ℝ)) (b := u)
    integrable_phi.integrableOn integrable_phi.integrableOn
  rw [integral_phi] at e3 e4
  have e6 := phi_half
  rw [e1, e2]
  unfold erfHalf
  linarith

theorem erfHalf_abs (u : ℝ) : |erfHalf u| ≤ 1 := by
  rw [← sign_integral]
  refine (abs_integral_le_integral_abs).trans ?_
  have : (fun v : ℝ => |if v < u then (1 : ℝ) else -1|) = fun _ => 1 := by
    funext v; split <;> simp
  rw [this]; simp

theorem half_mean (b : ℝ) (hb : 0 < b) :
    ∫ x in Ioi (0 : ℝ), x * Real.exp (-b * x ^ 2) = 1 / (2 * b) := by
  have hd : ∀ x : ℝ, HasDerivAt (fun x => -(1 / (2 * b)) * Real.exp (-b * x ^ 2))
      (x * Real.exp (-b * x ^ 2)) x := by
    intro x
    have := (((hasDerivAt_pow 2 x).const_mul (-b)).exp).const_mul (-(1 / (2 * b)))
    refine this.congr_deriv ?_
    have : b ≠ 0 := hb.ne'
    push_cast
    field_simp
    try ring_nf
  have ht : Filter.Tendsto (fun x : ℝ => -(1 / (2 * b)) * Real.exp (-b * x ^ 2)) Filter.atTop (nhds 0) := by
    have := (Real.tendsto_exp_atBot.comp ((Filter.tendsto_pow_atTop (α := ℝ) two_ne_zero).const_mul_atTop_of_neg (by linarith : -b < 0))).const_mul (-(1 / (2 * b)))
    simpa using this
  have := integral_Ioi_of_hasDerivAt_of_tendsto (a := 0)
    (f := fun x : ℝ => -(1 / (2 * b)) * Real.exp (-b * x ^ 2)) (m := 0)
    (hd 0).continuousAt.continuousWithinAt (fun x _ => hd x)
    (integrable_mul_exp_neg_mul_sq hb).integrableOn ht
  rw [this]; simp

theorem half_scale (b : ℝ) (hb : 0 < b) :
    IntegrableOn (fun x => x * Real.exp (-b * x ^ 2) * erfHalf x) (Ioi 0) ∧
    ∫ x in Ioi (0 : ℝ), x * Real.exp (-b * x ^ 2) * erfHalf x
      = 1 / b * (Real.sqrt (2 * Real.pi))⁻¹ * (Real.sqrt (Real.pi / (b + 1 / 2)) / 2) := by
  have hb0 : b ≠ 0 := hb.ne'
  have hi : Integrable fun x => x * Real.exp (-b * x ^ 2) * erfHalf x :=
    (integrable_mul_exp_neg_mul_sq hb).mul_bdd (c := 1) erfHalf_cont.aestronglyMeasurable
      (.of_forall erfHalf_abs)
  refine ⟨hi.integrableOn, ?_⟩
  have hg : Integrable fun x : ℝ => 1 / b * (Real.sqrt (2 * Real.pi))⁻¹
      * Real.exp (-(b + 1 / 2) * x ^ 2) :=
    (integrable_exp_neg_mul_sq (by linarith)).const_mul _
  have hd : ∀ x : ℝ, HasDerivAt (fun x => -(1 / (2 * b)) * Real.exp (-b * x ^ 2) * erfHalf x)
      (x * Real.exp (-b * x ^ 2) * erfHalf x
        - 1 / b * (Real.sqrt (2 * Real.pi))⁻¹ * Real.exp (-(b + 1 / 2) * x ^ 2)) x := by
    intro x
    have := ((((hasDerivAt_pow 2 x).const_mul (-b)).exp).const_mul (-(1 / (2 * b)))).mul
      (erfHalf_deriv x)
    refine this.congr_deriv ?_
    have e : Real.exp (-(b + 1 / 2) * x ^ 2) = Real.exp (-b * x ^ 2) * Real.exp (-x ^ 2 / 2) := by
      rw [← Real.exp_add]; congr 1; ring
    rw [e]
    unfold phi
    push_cast
    field_simp
    ring
  have ht : Filter.Tendsto (fun x : ℝ => -(1 / (2 * b)) * Real.exp (-b * x ^ 2) * erfHalf x)
      Filter.atTop (nhds 0) := by
    have h1 := (Real.tendsto_exp_atBot.comp ((Filter.tendsto_pow_atTop (α := ℝ)
      two_ne_zero).const_mul_atTop_of_neg (by linarith : -b < 0))).const_mul (-(1 / (2 * b)))
    rw [mul_zero] at h1
    exact h1.zero_mul_isBoundedUnder_le
      (Filter.isBoundedUnder_of ⟨1, fun x => erfHalf_abs x⟩)
  have h := integral_Ioi_of_hasDerivAt_of_tendsto (a := 0)
    (f := fun x : ℝ => -(1 / (2 * b)) * Real.exp (-b * x ^ 2) * erfHalf x) (m := 0)
    (hd 0).continuousAt.continuousWithinAt (fun x _ => hd x)
    (hi.sub hg).integrableOn ht
  rw [integral_sub hi.integrableOn hg.integrableOn, integral_const_mul, integral_gaussian_Ioi] at h
  simp only [erfHalf_zero, mul_zero, sub_zero] at h
  linarith

theorem tukey_pos (hl hr x : ℝ) (hx : 0 < x) :
    phi x * tukeyHH hl hr x
      = (Real.sqrt (2 * Real.pi))⁻¹ * (x * Real.exp (-((1 - hr) / 2) * x ^ 2)) := by
  unfold phi tukeyHH
  rw [if_neg (by linarith)]
  have : Real.exp (-((1 - hr) / 2) * x ^ 2) = Real.exp (-x ^ 2 / 2) * Real.exp (hr * x ^ 2 / 2) := by
    rw [← Real.exp_add]; congr 1; ring
  rw [this]; ring

theorem tukey_neg (hl hr x : ℝ) (hx : 0 < x) :
    phi (-x) * tukeyHH hl hr (-x)
      = -((Real.sqrt (2 * Real.pi))⁻¹ * (x * Real.exp (-((1 - hl) / 2) * x ^ 2))) := by
  unfold phi tukeyHH
  rw [if_pos (by linarith)]
  have : Real.exp (-((1 - hl) / 2) * x ^ 2) = Real.exp (-x ^ 2 / 2) * Real.exp (hl * x ^ 2 / 2) := by
    rw [← Real.exp_add]; congr 1; ring
  rw [this, neg_sq]; ring

theorem tukey_measurable (hl hr : ℝ) : Measurable (tukeyHH hl hr) := by
  unfold tukeyHH
  exact Measurable.ite measurableSet_Iio (by fun_prop) (by fun_prop)

theorem tukey_integrable (hl hr : ℝ) (h1 : hl < 1) (h2 : hr < 1) :
    Integrable fun u => phi u * tukeyHH hl hr u := by
  have i1 := ((integrable_mul_exp_neg_mul_sq (b := (1 - hl) / 2) (by linarith)).const_mul
    (Real.sqrt (2 * Real.pi))⁻¹).norm
  have i2 := ((integrable_mul_exp_neg_mul_sq (b := (1 - hr) / 2) (by linarith)).const_mul
    (Real.sqrt (2 * Real.pi))⁻¹).norm
  refine (i1.add i2).mono' (phi_cont.measurable.mul (tukey_measurable hl hr)).aestronglyMeasurable
    (.of_forall fun u => ?_)
  rcases lt_trichotomy u 0 with h | h | h
  · have := tukey_neg hl hr (-u) (by linarith)
    rw [neg_neg] at this
    rw [this, norm_neg]
    simp only [Pi.add_apply, neg_sq, neg_mul, mul_neg, norm_neg]
    exact le_add_of_nonneg_right (norm_nonneg _)
  · subst h
    simp [tukeyHH]
  · rw [tukey_pos hl hr u h]
    exact le_add_of_nonneg_left (norm_nonneg _)

theorem split_integral (f : ℝ → ℝ) (hf : Integrable f) :
    ∫ u, f u = (∫ u in Ioi (0 : ℝ), f (-u)) + ∫ u in Ioi (0 : ℝ), f u := by
  rw [← intervalIntegral.integral_Iic_add_Ioi (b := (0 : ℝ)) hf.integrableOn hf.integrableOn]
  congr 1
  have := integral_comp_neg_Iic (0 : ℝ) (fun u => f (-u))
  simp only [neg_neg, neg_zero] at this
  exact this

/-! ## The first two L-moments -/

theorem tukey_l_mean (hl hr : ℝ) (h1 : hl < 1) (h2 : hr < 1) :
    lMean (tukeyHH hl hr) = (tukeyLMeanAndScale hl hr).1 := by
  unfold lMean
  rw [integral_gauss, split_integral _ (tukey_integrable hl hr h1 h2),
    setIntegral_congr_fun measurableSet_Ioi (fun x hx => tukey_neg hl hr x hx),
    setIntegral_congr_fun measurableSet_Ioi (fun x hx => tukey_pos hl hr x hx),
    integral_neg, integral_const_mul, integral_const_mul, half_mean _ (by linarith),
    half_mean _ (by linarith)]
  unfold tukeyLMeanAndScale
  have a1 : 1 - hl ≠ 0 := by linarith
  have a2 : 1 - hr ≠ 0 := by linarith
  have a3 : hl - 1 ≠ 0 := by linarith
  have a4 : hl - 1 = -(1 - hl) := by ring
  simp only [a4]
  field_simp

theorem tukey_integrable_gauss (hl hr : ℝ) (h1 : hl < 1) (h2 : hr < 1) :
    Integrable (tukeyHH hl hr) (gaussianReal 0 1) := by
  rw [gaussianReal_of_var_ne_zero 0 one_ne_zero, gaussianPDF_def,
    integrable_withDensity_iff_integrable_smul' (by fun_prop) (.of_forall fun _ => by simp)]
  simp only [smul_eq_mul, phi_eq, ENNReal.toReal_ofReal (phi_nonneg _)]
  exact tukey_integrable hl hr h1 h2

theorem tukey_mono (hl hr : ℝ) (h1 : 0 ≤ hl) (h2 : 0 ≤ hr) (u v : ℝ) (h : u ≤ v) :
    tukeyHH hl hr u ≤ tukeyHH hl hr v := (tukeyHH_strictMono hl hr h1 h2).monotone h

theorem sign_integral' (v : ℝ) :
    ∫ u, (if v < u then (1 : ℝ) else -1) ∂gaussianReal 0 1 = -erfHalf v := by
  rw [← sign_integral, ← integral_neg]
  have := nullSingletonClass_gaussianReal (μ := 0) (v := 1) one_ne_zero
  have : ∀ᵐ u ∂gaussianReal 0 1, u ≠ v := by
    rw [ae_iff]; simp
  refine integral_congr_ae (this.mono fun u hu => ?_)
  simp only
  rcases lt_or_gt_of_ne hu with h | h
  · rw [if_neg (by linarith), if_pos h]
  · rw [if_pos h, if_neg (by linarith)]; simp

theorem tukey_l_scale (hl hr : ℝ) (h0 : 0 ≤ hl) (h1 : hl < 1) (h0' : 0 ≤ hr) (h2 : hr < 1) :
    lScale (tukeyHH hl hr) = (tukeyLMeanAndScale hl hr).2 := by
  set γ := gaussianReal 0 1 with hγ
  have ti := tukey_integrable_gauss hl hr h1 h2
  have ms : Measurable fun p : ℝ × ℝ => if p.2 < p.1 then (1 : ℝ) else -1 :=
    Measurable.ite (measurableSet_lt measurable_snd measurable_fst) measurable_const measurable_const
  have bs : ∀ p : ℝ × ℝ, ‖if p.2 < p.1 then (1 : ℝ) else -1‖ ≤ 1 := by
    intro p; split <;> simp
  have i1 : Integrable (fun p : ℝ × ℝ => tukeyHH hl hr p.1 * if p.2 < p.1 then (1 : ℝ) else -1)
      (γ.prod γ) := (ti.comp_fst γ).mul_bdd (c := 1) ms.aestronglyMeasurable (.of_forall bs)
  have i2 : Integrable (fun p : ℝ × ℝ => tukeyHH hl hr p.2 * if p.2 < p.1 then (1 : ℝ) else -1)
      (γ.prod γ) := (ti.comp_snd γ).mul_bdd (c := 1) ms.aestronglyMeasurable (.of_forall bs)
  have e : ∀ p : ℝ × ℝ, |tukeyHH hl hr p.1 - tukeyHH hl hr p.2|
      = tukeyHH hl hr p.1 * (if p.2 < p.1 then (1 : ℝ) else -1)
        - tukeyHH hl hr p.2 * if p.2 < p.1 then (1 : ℝ) else -1 := by
    intro p
    by_cases h : p.2 < p.1
    · rw [if_pos h, abs_of_nonneg (by linarith [tukey_mono hl hr h0 h0' _ _ h.le])]; ring
    · rw [if_neg h, abs_of_nonpos (by linarith [tukey_mono hl hr h0 h0' _ _ (not_lt.1 h)])]; ring
  have s1 : ∫ p : ℝ × ℝ, tukeyHH hl hr p.1 * (if p.2 < p.1 then (1 : ℝ) else -1) ∂γ.prod γ
      = ∫ u, tukeyHH hl hr u * erfHalf u ∂γ := by
    rw [integral_prod _ i1]
    refine integral_congr_ae (.of_forall fun u => ?_)
    simp only
    rw [integral_const_mul, sign_integral]
  have s2 : ∫ p : ℝ × ℝ, tukeyHH hl hr p.2 * (if p.2 < p.1 then (1 : ℝ) else -1) ∂γ.prod γ
      = -∫ u, tukeyHH hl hr u * erfHalf u ∂γ := by
    rw [integral_prod_symm _ i2, ← integral_neg]
    refine integral_congr_ae (.of_forall fun u => ?_)
    simp only
    rw [integral_const_mul, sign_integral']
    ring
  unfold lScale
  rw [integral_congr_ae (.of_forall e), integral_sub i1 i2, s1, s2]
  have s3 : ∫ u, tukeyHH hl hr u * erfHalf u ∂γ
      = ∫ u, phi u * tukeyHH hl hr u * erfHalf u := by
    rw [hγ, integral_gauss]
    simp only [mul_assoc]
  have i3 : Integrable fun u => phi u * tukeyHH hl hr u * erfHalf u :=
    (tukey_integrable hl hr h1 h2).mul_bdd (c := 1) erfHalf_cont.aestronglyMeasurable
      (.of_forall erfHalf_abs)
  have n1 : ∫ x in Ioi (0 : ℝ), phi (-x) * tukeyHH hl hr (-x) * erfHalf (-x)
      = ∫ x in Ioi (0 : ℝ), (Real.sqrt (2 * Real.pi))⁻¹
          * (x * Real.exp (-((1 - hl) / 2) * x ^ 2) * erfHalf x) := by
    refine setIntegral_congr_fun measurableSet_Ioi fun x hx => ?_
    rw [tukey_neg hl hr x hx, erfHalf_neg]; ring
  have n2 : ∫ x in Ioi (0 : ℝ), phi x * tukeyHH hl hr x * erfHalf x
      = ∫ x in Ioi (0 : ℝ), (Real.sqrt (2 * Real.pi))⁻¹
          * (x * Real.exp (-((1 - hr) / 2) * x ^ 2) * erfHalf x) := by
    refine setIntegral_congr_fun measurableSet_Ioi fun x hx => ?_
    rw [tukey_pos hl hr x hx]; ring
  rw [s3, split_integral _ i3, n1, n2, integral_const_mul, integral_const_mul,
    (half_scale _ (by linarith)).2, (half_scale _ (by linarith)).2]
  have q : ∀ h : ℝ, h < 1 → Real.sqrt (Real.pi / ((1 - h) / 2 + 1 / 2))
      = Real.sqrt (2 * Real.pi) / Real.sqrt (2 - h) := by
    intro h hh
    rw [← Real.sqrt_div' _ (by linarith)]
    congr 1
    rw [show (1 - h) / 2 + 1 / 2 = (2 - h) / 2 by ring, div_div_eq_mul_div, mul_comm]
  rw [q hl h1, q hr h2]
  unfold tukeyLMeanAndScale
  simp only
  have a1 : 0 < Real.sqrt (2 - hl) := Real.sqrt_pos.2 (by linarith)
  have a2 : 0 < Real.sqrt (2 - hr) := Real.sqrt_pos.2 (by linarith)
  have a5 : 0 < Real.sqrt (2 * Real.pi) := Real.sqrt_pos.2 (by linarith [Real.pi_pos])
  have a3 : Real.sqrt ((hl - 2) * (hr - 2)) = Real.sqrt (2 - hl) * Real.sqrt (2 - hr) := by
    rw [← Real.sqrt_mul (by linarith)]; congr 1; ring
  rw [a3]
  have a6 : (hl - 1) * (hr - 1) = (1 - hl) * (1 - hr) := by ring
  rw [a6]
  have a7 : 1 - hl ≠ 0 := by linarith
  have a8 : 1 - hr ≠ 0 := by linarith
  field_simp
  ring

theorem lMean_affine (a b : ℝ) (g : ℝ → ℝ) (hg : Integrable g (gaussianReal 0 1)) :
    lMean (fun u => a + b * g u) = a + b * lMean g := by
  unfold lMean
  rw [integral_add (integrable_const _) (hg.const_mul _), integral_const_mul]
  simp

theorem lScale_affine (a b : ℝ) (hb : 0 < b) (g : ℝ → ℝ) :
    lScale (fun u => a + b * g u) = b * lScale g := by
  unfold lScale
  rw [← mul_div_assoc, ← integral_const_mul]
  congr 1
  refine integral_congr_ae (.of_forall fun p => ?_)
  simp only
  rw [show a + b * g p.1 - (a + b * g p.2) = b * (g p.1 - g p.2) by ring, abs_mul, abs_of_pos hb]

theorem fit_params (shape : ℝ → ℝ → ℝ × ℝ) (l1 l2 l3 l4 quadruplets : ℝ) (h2 : 0 < l2)
    (hk : l4 / l2 ∉ Ico 0.1226017 gaussianLKurtosis)
    (f : Fit) (hf : f = fit shape l1 l2 l3 l4 quadruplets) :
    0 ≤ f.hl ∧ f.hl < 1 ∧ 0 ≤ f.hr ∧ f.hr < 1 ∧
    f.scale = l2 / (tukeyLMeanAndScale f.hl f.hr).2 ∧
    f.loc = l1 - f.scale * (tukeyLMeanAndScale f.hl f.hr).1 := by
  subst hf
  unfold fit
  simp only [if_pos h2, and_true, gt_iff_lt]
  by_cases h4 : 0 < quadruplets
  · simp only [h2, h4, and_self, if_true]
    by_cases hl : l4 / l2 < 0.1226017
    · rw [tukey_params_light _ _ _ hl]; norm_num
    · have hk' : gaussianLKurtosis ≤ l4 / l2 := by
        by_contra hc
        exact hk ⟨not_lt.1 hl, not_le.1 hc⟩
      obtain ⟨p1, p2, p3, p4, -⟩ := tukey_params_valid_partial shape (l3 / l2) (l4 / l2) hk'
      exact ⟨p1, p2, p3, p4⟩
  · simp only [h4, and_false, if_false]
    rw [tukey_params_light _ _ _ (by norm_num)]
    norm_num

/-- **C71**: the distribution that the analysis fits to a dataset which is not constant has the first
two L-moments of the data, `l1` and `l2`, whatever the search for `hl` and `hr` does.  The L-kurtosis
is not in the window in which C55 fails; for all data see `fit_has_the_mean_of_the_data`. -/
theorem fit_has_the_moments_of_the_data_partial (shape : ℝ → ℝ → ℝ × ℝ)
    (l1 l2 l3 l4 quadruplets : ℝ) (h2 : 0 < l2) (hk : l4 / l2 ∉ Ico 0.1226017 gaussianLKurtosis)
    (f : Fit) (hf : f = fit shape l1 l2 l3 l4 quadruplets) :
    0 < f.scale ∧
    lMean (fun u => f.loc + f.scale * tukeyHH f.hl f.hr u) = l1 ∧
    lScale (fun u => f.loc + f.scale * tukeyHH f.hl f.hr u) = l2 := by
  obtain ⟨p1, p2, p3, p4, hs, hloc⟩ := fit_params shape l1 l2 l3 l4 quadruplets h2 hk f hf
  have hp := l_scale_pos _ _ p2 p4
  have hpos : 0 < f.scale := by rw [hs]; exact div_pos h2 hp
  refine ⟨hpos, ?_, ?_⟩
  · rw [lMean_affine _ _ _ (tukey_integrable_gauss _ _ p2 p4), tukey_l_mean _ _ p2 p4, hloc]
    ring
  · rw [lScale_affine _ _ hpos, tukey_l_scale _ _ p1 p2 p3 p4, hs]
    field_simp

/-- **C71**: values of a distribution with the fitted parameters, of which one tail at least is long,
are transformed to those of the standard Gaussian from which they come, up to the error. -/
theorem scale_to_gaussian_inverts_the_fit_partial (shape : ℝ → ℝ → ℝ × ℝ)
    (l1 l2 l3 l4 quadruplets var u : ℝ) (h2 : 0 < l2)
    (hk : l4 / l2 ∉ Ico 0.1226017 gaussianLKurtosis)
    (f : Fit) (hf : f = fit shape l1 l2 l3 l4 quadruplets) (hlong : 0 < f.hl ∨ 0 < f.hr) :
    (0 ≤ u → u ≤ scaleToGaussian f var (f.loc + f.scale * tukeyHH f.hl f.hr u) ∧
      scaleToGaussian f var (f.loc + f.scale * tukeyHH f.hl f.hr u) ≤ u * (1 + 6 / 10 ^ 8)) ∧
    (u < 0 → scaleToGaussian f var (f.loc + f.scale * tukeyHH f.hl f.hr u) ≤ u ∧
      u * (1 + 6 / 10 ^ 8) ≤ scaleToGaussian f var (f.loc + f.scale * tukeyHH f.hl f.hr u)) := by
  obtain ⟨p1, p2, p3, p4, hs, -⟩ := fit_params shape l1 l2 l3 l4 quadruplets h2 hk f hf
  have hpos : 0 < f.scale := by rw [hs]; exact div_pos h2 (l_scale_pos _ _ p2 p4)
  exact scale_to_gaussian_inverts f var u _ p1 p3 hlong hpos.ne' rfl

/-- L-moments outside the window: those of an exponential distribution, whose L-kurtosis of a sixth is
more than that of a Gaussian. -/
example : (0 : ℝ) < 1 ∧ (1 / 6 : ℝ) / 1 ∉ Ico (0.1226017 : ℝ) gaussianLKurtosis := by
  refine ⟨one_pos, fun h => ?_⟩
  have h1 := h.2
  have hpi := Real.pi_gt_d4
  have hpi' := Real.pi_lt_d4
  have hg : gaussianLKurtosis ≤ 6 := by
    unfold gaussianLKurtosis
    have : 30 / Real.pi * Real.arctan (Real.sqrt 2) ≤ 30 / Real.pi * (Real.pi / 2) :=
      mul_le_mul_of_nonneg_left (Real.arctan_lt_pi_div_two _).le (by positivity)
    have : 30 / Real.pi * (Real.pi / 2) = 15 := by field_simp; norm_num
    linarith
  have e : Real.cos (Real.pi / 15 * (6 - gaussianLKurtosis)) = 1 / 3 := by
    rw [← cos_at_gaussian, ← Real.cos_neg]; congr 1; ring
  have c : Real.cos (Real.pi / 2 - Real.pi / 9) ≤ Real.cos (Real.pi / 15 * (6 - gaussianLKurtosis)) := by
    refine Real.strictAntiOn_cos.antitoneOn ⟨by nlinarith, by nlinarith⟩ ⟨by linarith, by linarith⟩ ?_
    nlinarith
  rw [e, Real.cos_pi_div_two_sub] at c
  have s := Real.sin_gt_sub_cube (x := Real.pi / 9) (by linarith)
  have b : (Real.pi / 9) ^ 3 ≤ (35 / 100) ^ 3 :=
    pow_le_pow_left₀ (by linarith) (by linarith) 3
  norm_num at b
  linarith

/-- **C71** Constant data (no spread): the location is the mean, the scale is 1, both tails are
those of a normal distribution. -/
theorem constant_data_fit (shape : ℝ → ℝ → ℝ × ℝ) (l1 l2 l3 l4 quadruplets : ℝ) (h : l2 ≤ 0) :
    fit shape l1 l2 l3 l4 quadruplets = { loc := l1, scale := 1, hl := 0, hr := 0 } := by
  have hm : (tukeyLMeanAndScale 0 0).1 = 0 := by
    unfold tukeyLMeanAndScale
    norm_num
  have hp : tukeyParams shape 0 0 = (0, 0) := tukey_params_light shape 0 0 (by norm_num)
  unfold fit
  simp only [gt_iff_lt, not_lt.2 h, false_and, if_false, hp, hm]
  simp

end TFT.Numeric
