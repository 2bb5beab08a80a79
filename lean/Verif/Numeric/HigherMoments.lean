import Verif.Numeric.GaussFitProps
import Verif.Numeric.Shape
import Mathlib.Analysis.SpecialFunctions.Trigonometric.ArctanDeriv
import Mathlib.Analysis.SpecialFunctions.Sqrt
import Mathlib.Analysis.SpecialFunctions.Integrals.Basic

/-!
# The L-skewness and L-kurtosis of the fitted distributions (C94)

The search of `scale_to_gaussian` compares the data with the values of two closed formulas.  They are
the L-skewness and L-kurtosis of the distribution, that is, its third and fourth L-moments over the
second.
-/

namespace TFT.Numeric

open MeasureTheory ProbabilityTheory Set

/-! ## Specification -/

/-- The probability that a standard Gaussian variable is at most `u`. -/
noncomputable def upTo (u : ℝ) : ℝ := (gaussianReal 0 1).real (Iic u)

/-- The third L-moment of `g` of a standard Gaussian variable, for an increasing `g`: the mean of the
quantile function times the shifted Legendre polynomial `6 F² - 6 F + 1`. -/
noncomputable def lThird (g : ℝ → ℝ) : ℝ :=
  ∫ u, g u * (6 * upTo u ^ 2 - 6 * upTo u + 1) ∂gaussianReal 0 1

/-- The fourth L-moment, with the polynomial `20 F³ - 30 F² + 12 F - 1`. -/
noncomputable def lFourth (g : ℝ → ℝ) : ℝ :=
  ∫ u, g u * (20 * upTo u ^ 3 - 30 * upTo u ^ 2 + 12 * upTo u - 1) ∂gaussianReal 0 1

/-! ## Integrals -/

theorem swap_integrals (f : ℝ → ℝ → ℝ) (hf : Continuous (Function.uncurry f)) (b C : ℝ) (hb : 0 < b)
    (hbd : ∀ s ∈ Ioc (0 : ℝ) 1, ∀ x > 0, |f s x| ≤ C * (x * Real.exp (-b * x ^ 2))) :
    ∫ x in Ioi (0 : ℝ), ∫ s in (0 : ℝ)..1, f s x = ∫ s in (0 : ℝ)..1, ∫ x in Ioi (0 : ℝ), f s x := by
  simp only [intervalIntegral.integral_of_le (zero_le_one (α := ℝ))]
  refine (integral_integral_swap ?_).symm
  have hg : Integrable (fun x : ℝ => C * (x * Real.exp (-b * x ^ 2))) (volume.restrict (Ioi 0)) :=
    ((integrable_mul_exp_neg_mul_sq hb).const_mul C).integrableOn
  refine (hg.comp_snd (volume.restrict (Ioc (0 : ℝ) 1))).mono' hf.aestronglyMeasurable ?_
  rw [Measure.prod_restrict, ae_restrict_iff' (measurableSet_Ioc.prod measurableSet_Ioi)]
  exact .of_forall fun z hz => hbd z.1 hz.1 z.2 hz.2

theorem erfHalf_comp (x s : ℝ) :
    HasDerivAt (fun s => erfHalf (s * x)) (2 * phi (s * x) * x) s := by
  have := (erfHalf_deriv (s * x)).comp s ((hasDerivAt_id s).mul_const x)
  rw [one_mul] at this
  exact this

theorem erfHalf_as_integral (x : ℝ) : erfHalf x = ∫ s in (0 : ℝ)..1, 2 * phi (s * x) * x := by
  rw [intervalIntegral.integral_eq_sub_of_hasDerivAt (fun s _ => erfHalf_comp x s)]
  · simp [erfHalf_zero]
  · exact Continuous.intervalIntegrable (by have := phi_cont; fun_prop) _ _

theorem erfHalf_sq_as_integral (x : ℝ) :
    erfHalf x ^ 2 = ∫ s in (0 : ℝ)..1, 2 * erfHalf (s * x) * (2 * phi (s * x) * x) := by
  have hd : ∀ s ∈ uIcc (0 : ℝ) 1, HasDerivAt (fun s => erfHalf (s * x) ^ 2)
      (2 * erfHalf (s * x) * (2 * phi (s * x) * x)) s := by
    intro s _
    have := (erfHalf_comp x s).pow 2
    refine this.congr_deriv ?_
    simp
  rw [intervalIntegral.integral_eq_sub_of_hasDerivAt hd]
  · simp [erfHalf_zero]
  · exact Continuous.intervalIntegrable (by have := phi_cont; have := erfHalf_cont; fun_prop) _ _

theorem phi_le (u : ℝ) : phi u ≤ (Real.sqrt (2 * Real.pi))⁻¹ := by
  unfold phi
  refine mul_le_of_le_one_right (by positivity) ?_
  rw [Real.exp_le_one_iff]
  nlinarith [sq_nonneg u]

theorem integral_inv_sq (r : ℝ) (hr : 0 < r) :
    ∫ s in (0 : ℝ)..1, 1 / (r ^ 2 + s ^ 2) = Real.arctan (1 / r) / r := by
  have hd : ∀ s ∈ uIcc (0 : ℝ) 1, HasDerivAt (fun s => Real.arctan (s / r) / r)
      (1 / (r ^ 2 + s ^ 2)) s := by
    intro s _
    have := (((hasDerivAt_id s).div_const r).arctan).div_const r
    refine this.congr_deriv ?_
    simp only [id]
    field_simp
  rw [intervalIntegral.integral_eq_sub_of_hasDerivAt hd]
  · simp
  · refine Continuous.intervalIntegrable ?_ _ _
    refine continuous_const.div (by fun_prop) fun s => ?_
    positivity

theorem gauss_erf (c : ℝ) (hc : 0 < c) :
    ∫ x in Ioi (0 : ℝ), Real.exp (-c * x ^ 2) * erfHalf x
      = 2 * (Real.sqrt (2 * Real.pi))⁻¹ * (Real.arctan (1 / Real.sqrt (2 * c)) / Real.sqrt (2 * c)) := by
  have e1 : ∀ x : ℝ, Real.exp (-c * x ^ 2) * erfHalf x
      = ∫ s in (0 : ℝ)..1, Real.exp (-c * x ^ 2) * (2 * phi (s * x) * x) := by
    intro x
    rw [intervalIntegral.integral_const_mul, ← erfHalf_as_integral]
  simp only [e1]
  rw [swap_integrals (fun s x => Real.exp (-c * x ^ 2) * (2 * phi (s * x) * x))
    (by have := phi_cont; simp only [Function.uncurry_def]; fun_prop) c
      (2 * (Real.sqrt (2 * Real.pi))⁻¹) hc ?_]
  · have e2 : ∀ s : ℝ, ∫ x in Ioi (0 : ℝ), Real.exp (-c * x ^ 2) * (2 * phi (s * x) * x)
        = 2 * (Real.sqrt (2 * Real.pi))⁻¹ * (1 / (Real.sqrt (2 * c) ^ 2 + s ^ 2)) := by
      intro s
      have e3 : ∀ x : ℝ, Real.exp (-c * x ^ 2) * (2 * phi (s * x) * x)
          = 2 * (Real.sqrt (2 * Real.pi))⁻¹ * (x * Real.exp (-(c + s ^ 2 / 2) * x ^ 2)) := by
        intro x
        have : Real.exp (-(c + s ^ 2 / 2) * x ^ 2)
            = Real.exp (-c * x ^ 2) * Real.exp (-(s * x) ^ 2 / 2) := by
          rw [← Real.exp_add]; congr 1; ring
        rw [this]; unfold phi; ring
      simp only [e3]
      rw [integral_const_mul, half_mean _ (by positivity), Real.sq_sqrt (by linarith)]
      congr 2; ring
    simp only [e2]
    rw [intervalIntegral.integral_const_mul, integral_inv_sq _ (Real.sqrt_pos.2 (by linarith))]
  · intro s _ x hx
    have h1 := phi_le (s * x)
    have h0 := phi_nonneg (s * x)
    rw [abs_of_nonneg (by positivity)]
    have := mul_le_mul_of_nonneg_right h1 (show 0 ≤ 2 * (x * Real.exp (-c * x ^ 2)) by positivity)
    linarith

theorem half_scale_comp (b s : ℝ) (hb : 0 < b) (hs : 0 < s) :
    ∫ x in Ioi (0 : ℝ), x * Real.exp (-b * x ^ 2) * erfHalf (s * x)
      = 1 / b * (Real.sqrt (2 * Real.pi))⁻¹ * (s * Real.sqrt (Real.pi / (b + s ^ 2 / 2)) / 2) := by
  have h := integral_comp_mul_left_Ioi
    (fun y => y / s * Real.exp (-(b / s ^ 2) * y ^ 2) * erfHalf y) 0 hs
  have e : ∀ x : ℝ, s * x / s * Real.exp (-(b / s ^ 2) * (s * x) ^ 2) * erfHalf (s * x)
      = x * Real.exp (-b * x ^ 2) * erfHalf (s * x) := by
    intro x
    congr 2
    · field_simp
    · congr 1; field_simp
  simp only [e, mul_zero, smul_eq_mul] at h
  rw [h]
  have e' : ∀ y : ℝ, y / s * Real.exp (-(b / s ^ 2) * y ^ 2) * erfHalf y
      = s⁻¹ * (y * Real.exp (-(b / s ^ 2) * y ^ 2) * erfHalf y) := by
    intro y; ring
  simp only [e']
  rw [integral_const_mul, (half_scale _ (by positivity)).2]
  have q : Real.sqrt (Real.pi / (b / s ^ 2 + 1 / 2)) = s * Real.sqrt (Real.pi / (b + s ^ 2 / 2)) := by
    rw [show Real.pi / (b / s ^ 2 + 1 / 2) = s ^ 2 * (Real.pi / (b + s ^ 2 / 2)) by field_simp,
      Real.sqrt_mul (by positivity), Real.sqrt_sq hs.le]
  rw [q]
  field_simp

theorem integral_for_square (c : ℝ) (hc : 0 < c) :
    ∫ s in (0 : ℝ)..1, s / (c + s ^ 2 / 2) / Real.sqrt (c + s ^ 2)
      = 2 / Real.sqrt c * (Real.arctan (Real.sqrt ((c + 1) / c)) - Real.pi / 4) := by
  have hd : ∀ s ∈ uIcc (0 : ℝ) 1, HasDerivAt
      (fun s => 2 / Real.sqrt c * Real.arctan (Real.sqrt ((c + s ^ 2) / c)))
      (s / (c + s ^ 2 / 2) / Real.sqrt (c + s ^ 2)) s := by
    intro s _
    have hp : 0 < (c + s ^ 2) / c := by positivity
    have := ((((((hasDerivAt_pow 2 s).const_add c).div_const c).sqrt hp.ne').arctan).const_mul
      (2 / Real.sqrt c))
    refine this.congr_deriv ?_
    rw [Real.sq_sqrt hp.le, Real.sqrt_div' _ hc.le]
    have h1 : 0 < Real.sqrt c := Real.sqrt_pos.2 hc
    have h2 : 0 < Real.sqrt (c + s ^ 2) := Real.sqrt_pos.2 (by positivity)
    have h3 : Real.sqrt c ^ 2 = c := Real.sq_sqrt hc.le
    have h4 : c + s ^ 2 / 2 ≠ 0 := by positivity
    have h5 : 1 + (c + s ^ 2) / c ≠ 0 := by positivity
    have h6 : c + (c + s ^ 2) ≠ 0 := by positivity
    push_cast
    field_simp
    ring
  rw [intervalIntegral.integral_eq_sub_of_hasDerivAt hd]
  · have : (c + 0 ^ 2) / c = 1 := by field_simp; ring
    rw [this]
    simp only [one_pow, Real.sqrt_one, Real.arctan_one]
    ring
  · refine Continuous.intervalIntegrable ?_ _ _
    refine (continuous_id.div (by fun_prop) fun s => ?_).div (by fun_prop) fun s => ?_
    · positivity
    · exact (Real.sqrt_pos.2 (by positivity)).ne'

theorem gauss_erf_sq (c : ℝ) (hc : 0 < c) :
    ∫ x in Ioi (0 : ℝ), Real.exp (-c * x ^ 2) * erfHalf x ^ 2
      = 2 / (Real.sqrt Real.pi * Real.sqrt c)
        * (Real.arctan (Real.sqrt ((c + 1) / c)) - Real.pi / 4) := by
  have e1 : ∀ x : ℝ, Real.exp (-c * x ^ 2) * erfHalf x ^ 2
      = ∫ s in (0 : ℝ)..1, Real.exp (-c * x ^ 2) * (2 * erfHalf (s * x) * (2 * phi (s * x) * x)) := by
    intro x
    rw [intervalIntegral.integral_const_mul, ← erfHalf_sq_as_integral]
  simp only [e1]
  have hpi := Real.pi_pos
  have hsp : 0 < Real.sqrt Real.pi := Real.sqrt_pos.2 hpi
  have hs2p : 0 < Real.sqrt (2 * Real.pi) := Real.sqrt_pos.2 (by linarith)
  have hs2q : Real.sqrt (2 * Real.pi) ^ 2 = 2 * Real.pi := Real.sq_sqrt (by linarith)
  have hsq : Real.sqrt Real.pi ^ 2 = Real.pi := Real.sq_sqrt hpi.le
  rw [swap_integrals (fun s x => Real.exp (-c * x ^ 2) * (2 * erfHalf (s * x) * (2 * phi (s * x) * x)))
    (by have := phi_cont; have := erfHalf_cont; simp only [Function.uncurry_def]; fun_prop) c
      (4 * (Real.sqrt (2 * Real.pi))⁻¹) hc ?_]
  · have e2 : ∀ s ∈ Ioc (0 : ℝ) 1,
        ∫ x in Ioi (0 : ℝ), Real.exp (-c * x ^ 2) * (2 * erfHalf (s * x) * (2 * phi (s * x) * x))
        = (Real.sqrt Real.pi)⁻¹ * (s / (c + s ^ 2 / 2) / Real.sqrt (c + s ^ 2)) := by
      intro s hs
      have e3 : ∀ x : ℝ, Real.exp (-c * x ^ 2) * (2 * erfHalf (s * x) * (2 * phi (s * x) * x))
          = 4 * (Real.sqrt (2 * Real.pi))⁻¹
            * (x * Real.exp (-(c + s ^ 2 / 2) * x ^ 2) * erfHalf (s * x)) := by
        intro x
        have : Real.exp (-(c + s ^ 2 / 2) * x ^ 2)
            = Real.exp (-c * x ^ 2) * Real.exp (-(s * x) ^ 2 / 2) := by
          rw [← Real.exp_add]; congr 1; ring
        rw [this]; unfold phi; ring
      simp only [e3]
      rw [integral_const_mul, half_scale_comp _ _ (by positivity) hs.1,
        show c + s ^ 2 / 2 + s ^ 2 / 2 = c + s ^ 2 by ring, Real.sqrt_div' _ (by positivity)]
      have h2 : 0 < Real.sqrt (c + s ^ 2) := Real.sqrt_pos.2 (by positivity)
      have h4 : c + s ^ 2 / 2 ≠ 0 := by positivity
      field_simp
      rw [hs2q, hsq]; ring
    rw [intervalIntegral.integral_congr_ae (g := fun s =>
      (Real.sqrt Real.pi)⁻¹ * (s / (c + s ^ 2 / 2) / Real.sqrt (c + s ^ 2)))
      (.of_forall fun s hs => by rw [uIoc_of_le zero_le_one] at hs; exact e2 s hs),
      intervalIntegral.integral_const_mul, integral_for_square c hc]
    field_simp
  · intro s _ x hx
    have h1 := phi_le (s * x)
    have h0 := phi_nonneg (s * x)
    have h2 := erfHalf_abs (s * x)
    rw [show Real.exp (-c * x ^ 2) * (2 * erfHalf (s * x) * (2 * phi (s * x) * x))
      = 4 * (x * Real.exp (-c * x ^ 2)) * phi (s * x) * erfHalf (s * x) by ring, abs_mul,
      abs_of_nonneg (by positivity)]
    have h3 := mul_le_mul_of_nonneg_left h1 (show 0 ≤ 4 * (x * Real.exp (-c * x ^ 2)) by positivity)
    have h4 : 4 * (x * Real.exp (-c * x ^ 2)) * phi (s * x) * |erfHalf (s * x)|
        ≤ 4 * (x * Real.exp (-c * x ^ 2)) * phi (s * x) * 1 :=
      mul_le_mul_of_nonneg_left h2 (by positivity)
    linarith

/-- Integration by parts. -/
theorem half_pow (b : ℝ) (hb : 0 < b) (k : ℕ) :
    IntegrableOn (fun x => x * Real.exp (-b * x ^ 2) * erfHalf x ^ (k + 1)) (Ioi 0) ∧
    ∫ x in Ioi (0 : ℝ), x * Real.exp (-b * x ^ 2) * erfHalf x ^ (k + 1)
      = (k + 1) / b * (Real.sqrt (2 * Real.pi))⁻¹
        * ∫ x in Ioi (0 : ℝ), Real.exp (-(b + 1 / 2) * x ^ 2) * erfHalf x ^ k := by
  have hb0 : b ≠ 0 := hb.ne'
  have hpow : ∀ n x, |erfHalf x ^ n| ≤ 1 := fun n x => by
    rw [abs_pow]; exact pow_le_one₀ (abs_nonneg _) (erfHalf_abs x)
  have hi : Integrable fun x => x * Real.exp (-b * x ^ 2) * erfHalf x ^ (k + 1) :=
    (integrable_mul_exp_neg_mul_sq hb).mul_bdd (c := 1)
      (erfHalf_cont.pow _).aestronglyMeasurable (.of_forall (hpow _))
  refine ⟨hi.integrableOn, ?_⟩
  have hg : Integrable fun x : ℝ => (k + 1) / b * (Real.sqrt (2 * Real.pi))⁻¹
      * (Real.exp (-(b + 1 / 2) * x ^ 2) * erfHalf x ^ k) :=
    ((integrable_exp_neg_mul_sq (by linarith)).mul_bdd (c := 1)
      (erfHalf_cont.pow _).aestronglyMeasurable (.of_forall (hpow _))).const_mul _
  have hd : ∀ x : ℝ, HasDerivAt (fun x => -(1 / (2 * b)) * Real.exp (-b * x ^ 2) * erfHalf x ^ (k + 1))
      (x * Real.exp (-b * x ^ 2) * erfHalf x ^ (k + 1)
        - (k + 1) / b * (Real.sqrt (2 * Real.pi))⁻¹
          * (Real.exp (-(b + 1 / 2) * x ^ 2) * erfHalf x ^ k)) x := by
    intro x
    have := ((((hasDerivAt_pow 2 x).const_mul (-b)).exp).const_mul (-(1 / (2 * b)))).mul
      ((erfHalf_deriv x).pow (k + 1))
    refine this.congr_deriv ?_
    have e : Real.exp (-(b + 1 / 2) * x ^ 2) = Real.exp (-b * x ^ 2) * Real.exp (-x ^ 2 / 2) := by
      rw [← Real.exp_add]; congr 1; ring
    rw [e]
    unfold phi
    push_cast
    simp only [Pi.pow_apply, add_tsub_cancel_right]
    field_simp
    ring
  have ht : Filter.Tendsto (fun x : ℝ => -(1 / (2 * b)) * Real.exp (-b * x ^ 2) * erfHalf x ^ (k + 1))
      Filter.atTop (nhds 0) := by
    have h1 := (Real.tendsto_exp_atBot.comp ((Filter.tendsto_pow_atTop (α := ℝ)
      two_ne_zero).const_mul_atTop_of_neg (by linarith : -b < 0))).const_mul (-(1 / (2 * b)))
    rw [mul_zero] at h1
    exact h1.zero_mul_isBoundedUnder_le
      (Filter.isBoundedUnder_of ⟨1, fun x => hpow (k + 1) x⟩)
  have h := integral_Ioi_of_hasDerivAt_of_tendsto (a := 0)
    (f := fun x : ℝ => -(1 / (2 * b)) * Real.exp (-b * x ^ 2) * erfHalf x ^ (k + 1)) (m := 0)
    (hd 0).continuousAt.continuousWithinAt (fun x _ => hd x)
    (hi.sub hg).integrableOn ht
  rw [integral_sub hi.integrableOn hg.integrableOn, integral_const_mul] at h
  simp only [erfHalf_zero, ne_eq, Nat.add_eq_zero_iff, one_ne_zero, and_false, not_false_eq_true,
    zero_pow, mul_zero, sub_zero] at h
  linarith

/-- The half-line integrals of the third and fourth L-moments. -/
theorem half_third (h : ℝ) (hh : h < 1) :
    ∫ x in Ioi (0 : ℝ), x * Real.exp (-((1 - h) / 2) * x ^ 2) * (3 * erfHalf x ^ 2 - 1)
      = (12 / Real.pi * (Real.arctan (1 / Real.sqrt (2 - h)) / Real.sqrt (2 - h)) - 1) / (1 - h) := by
  have hb : 0 < (1 - h) / 2 := by linarith
  have hh' : 1 - h ≠ 0 := by linarith
  have hp := half_pow _ hb 1
  have e : ∀ x : ℝ, x * Real.exp (-((1 - h) / 2) * x ^ 2) * (3 * erfHalf x ^ 2 - 1)
      = 3 * (x * Real.exp (-((1 - h) / 2) * x ^ 2) * erfHalf x ^ (1 + 1))
        - x * Real.exp (-((1 - h) / 2) * x ^ 2) := by intro x; ring
  simp only [e]
  rw [integral_sub (hp.1.const_mul 3) (integrable_mul_exp_neg_mul_sq hb).integrableOn,
    integral_const_mul, hp.2, half_mean _ hb]
  simp only [pow_one]
  rw [gauss_erf _ (by linarith), show 2 * ((1 - h) / 2 + 1 / 2) = 2 - h by ring]
  have hpi := Real.pi_pos
  have hs2p : 0 < Real.sqrt (2 * Real.pi) := Real.sqrt_pos.2 (by linarith)
  have hs2q : Real.sqrt (2 * Real.pi) ^ 2 = 2 * Real.pi := Real.sq_sqrt (by linarith)
  have hr : 0 < Real.sqrt (2 - h) := Real.sqrt_pos.2 (by linarith)
  push_cast
  field_simp
  rw [hs2q]
  ring

theorem half_fourth (h : ℝ) (hh : h < 1) :
    ∫ x in Ioi (0 : ℝ), x * Real.exp (-((1 - h) / 2) * x ^ 2) * (5 * erfHalf x ^ 3 - 3 * erfHalf x)
      = (12 - 60 / Real.pi * Real.arctan (Real.sqrt ((2 - h) / (4 - h))))
        / ((1 - h) * Real.sqrt (2 - h)) := by
  have hb : 0 < (1 - h) / 2 := by linarith
  have hh' : 1 - h ≠ 0 := by linarith
  have hp := half_pow _ hb 2
  have hq := half_scale _ hb
  have e : ∀ x : ℝ, x * Real.exp (-((1 - h) / 2) * x ^ 2) * (5 * erfHalf x ^ 3 - 3 * erfHalf x)
      = 5 * (x * Real.exp (-((1 - h) / 2) * x ^ 2) * erfHalf x ^ (2 + 1))
        - 3 * (x * Real.exp (-((1 - h) / 2) * x ^ 2) * erfHalf x) := by intro x; ring
  simp only [e]
  rw [integral_sub (hp.1.const_mul 5) (hq.1.const_mul 3), integral_const_mul, integral_const_mul,
    hp.2, hq.2, gauss_erf_sq _ (by linarith)]
  have hpi := Real.pi_pos
  have hc : (1 - h) / 2 + 1 / 2 = (2 - h) / 2 := by ring
  have q1 : Real.sqrt (Real.pi / ((2 - h) / 2)) = Real.sqrt (2 * Real.pi) / Real.sqrt (2 - h) := by
    rw [← Real.sqrt_div' _ (by linarith)]
    congr 1
    rw [div_div_eq_mul_div, mul_comm]
  have q2 : Real.arctan (Real.sqrt (((2 - h) / 2 + 1) / ((2 - h) / 2)))
      = Real.pi / 2 - Real.arctan (Real.sqrt ((2 - h) / (4 - h))) := by
    rw [← Real.arctan_inv_of_pos (Real.sqrt_pos.2 (div_pos (by linarith) (by linarith))), ← Real.sqrt_inv]
    congr 2
    have : 2 - h ≠ 0 := by linarith
    have : 4 - h ≠ 0 := by linarith
    field_simp; ring
  have q3 : Real.sqrt (2 * Real.pi) * (Real.sqrt Real.pi * Real.sqrt ((2 - h) / 2))
      = Real.pi * Real.sqrt (2 - h) := by
    rw [← Real.sqrt_mul hpi.le, ← Real.sqrt_mul (by linarith)]
    rw [show 2 * Real.pi * (Real.pi * ((2 - h) / 2)) = Real.pi ^ 2 * (2 - h) by ring,
      Real.sqrt_mul (by positivity), Real.sqrt_sq hpi.le]
  rw [hc, q1, q2]
  have hs2p : 0 < Real.sqrt (2 * Real.pi) := Real.sqrt_pos.2 (by linarith)
  have hr : 0 < Real.sqrt (2 - h) := Real.sqrt_pos.2 (by linarith)
  have hx : (Real.sqrt (2 * Real.pi))⁻¹ * (2 / (Real.sqrt Real.pi * Real.sqrt ((2 - h) / 2)))
      = 2 / (Real.pi * Real.sqrt (2 - h)) := by
    rw [← q3]
    have : 0 < Real.sqrt Real.pi := Real.sqrt_pos.2 hpi
    have : 0 < Real.sqrt ((2 - h) / 2) := Real.sqrt_pos.2 (by linarith)
    field_simp
  rw [mul_assoc, ← mul_assoc (Real.sqrt (2 * Real.pi))⁻¹, hx]
  push_cast
  field_simp
  ring

/-! ## The third and fourth L-moments -/

theorem upTo_eq (u : ℝ) : upTo u = (1 + erfHalf u) / 2 := by
  have := nullSingletonClass_gaussianReal (μ := 0) (v := 1) one_ne_zero
  have e : upTo u = (gaussianReal 0 1).real (Iio u) := measureReal_congr Iio_ae_eq_Iic.symm
  rw [e, ← sign_integral]
  have h : ∀ v : ℝ, (if v < u then (1 : ℝ) else -1) = 2 * (Iio u).indicator (fun _ => 1) v - 1 := by
    intro v
    by_cases h : v < u
    · simp [h]; norm_num
    · simp [h]
  simp only [h]
  rw [integral_sub ((integrable_indicator_iff measurableSet_Iio).2 (integrable_const _).integrableOn |>.const_mul 2)
    (integrable_const _), integral_const_mul, integral_indicator_const _ measurableSet_Iio]
  simp

theorem split_tukey (hl hr : ℝ) (h1 : hl < 1) (h2 : hr < 1) (p : ℝ → ℝ) (hp : Continuous p) (c : ℝ)
    (hc : ∀ u, |p u| ≤ c) :
    ∫ u, tukeyHH hl hr u * p u ∂gaussianReal 0 1
      = (Real.sqrt (2 * Real.pi))⁻¹
        * ((∫ x in Ioi (0 : ℝ), x * Real.exp (-((1 - hr) / 2) * x ^ 2) * p x)
          - ∫ x in Ioi (0 : ℝ), x * Real.exp (-((1 - hl) / 2) * x ^ 2) * p (-x)) := by
  rw [integral_gauss]
  have i3 : Integrable fun u => phi u * (tukeyHH hl hr u * p u) := by
    have := (tukey_integrable hl hr h1 h2).mul_bdd (c := c) hp.aestronglyMeasurable (.of_forall hc)
    refine this.congr (.of_forall fun u => ?_)
    simp only; ring
  rw [split_integral _ i3]
  have n1 : ∫ x in Ioi (0 : ℝ), phi (-x) * (tukeyHH hl hr (-x) * p (-x))
      = ∫ x in Ioi (0 : ℝ), -(Real.sqrt (2 * Real.pi))⁻¹
          * (x * Real.exp (-((1 - hl) / 2) * x ^ 2) * p (-x)) := by
    refine setIntegral_congr_fun measurableSet_Ioi fun x hx => ?_
    rw [← mul_assoc, tukey_neg hl hr x hx]; ring
  have n2 : ∫ x in Ioi (0 : ℝ), phi x * (tukeyHH hl hr x * p x)
      = ∫ x in Ioi (0 : ℝ), (Real.sqrt (2 * Real.pi))⁻¹
          * (x * Real.exp (-((1 - hr) / 2) * x ^ 2) * p x) := by
    refine setIntegral_congr_fun measurableSet_Ioi fun x hx => ?_
    rw [← mul_assoc, tukey_pos hl hr x hx]; ring
  rw [n1, n2, integral_const_mul, integral_const_mul]
  ring

/-- What a side adds to the L-moments, up to a factor. -/
noncomputable def sideScale (h : ℝ) : ℝ := 1 / ((1 - h) * Real.sqrt (2 - h))
noncomputable def sideThird (h : ℝ) : ℝ :=
  12 / Real.pi * Real.arctan (1 / Real.sqrt (2 - h)) - Real.sqrt (2 - h)
noncomputable def sideFourth (h : ℝ) : ℝ :=
  6 - 30 / Real.pi * Real.arctan (Real.sqrt ((2 - h) / (4 - h)))

theorem l_scale_sides (hl hr : ℝ) (h1 : hl < 1) (h2 : hr < 1) :
    (tukeyLMeanAndScale hl hr).2
      = (Real.sqrt (2 * Real.pi))⁻¹ * (sideScale hl + sideScale hr) := by
  have a1 : 0 < Real.sqrt (2 - hl) := Real.sqrt_pos.2 (by linarith)
  have a2 : 0 < Real.sqrt (2 - hr) := Real.sqrt_pos.2 (by linarith)
  have a3 : Real.sqrt ((hl - 2) * (hr - 2)) = Real.sqrt (2 - hl) * Real.sqrt (2 - hr) := by
    rw [← Real.sqrt_mul (by linarith)]; congr 1; ring
  have a5 : 0 < Real.sqrt (2 * Real.pi) := Real.sqrt_pos.2 (by linarith [Real.pi_pos])
  have a7 : 1 - hl ≠ 0 := by linarith
  have a8 : 1 - hr ≠ 0 := by linarith
  unfold tukeyLMeanAndScale sideScale
  simp only
  rw [a3, show (hl - 1) * (hr - 1) = (1 - hl) * (1 - hr) by ring]
  field_simp
  ring

theorem third_sides (hl hr : ℝ) (h1 : hl < 1) (h2 : hr < 1) :
    lThird (tukeyHH hl hr) = (Real.sqrt (2 * Real.pi))⁻¹
      * ((sideScale hr * sideThird hr - sideScale hl * sideThird hl) / 2) := by
  have e : ∀ u, tukeyHH hl hr u * (6 * upTo u ^ 2 - 6 * upTo u + 1)
      = 1 / 2 * (tukeyHH hl hr u * (3 * erfHalf u ^ 2 - 1)) := by
    intro u; rw [upTo_eq]; ring
  unfold lThird
  simp only [e]
  have c : Continuous fun u => 3 * erfHalf u ^ 2 - 1 := by have := erfHalf_cont; fun_prop
  rw [integral_const_mul, split_tukey hl hr h1 h2 (fun u => 3 * erfHalf u ^ 2 - 1) c 4 ?_]
  · simp only [erfHalf_neg, neg_sq]
    rw [half_third _ h1, half_third _ h2]
    have a1 : 0 < Real.sqrt (2 - hl) := Real.sqrt_pos.2 (by linarith)
    have a2 : 0 < Real.sqrt (2 - hr) := Real.sqrt_pos.2 (by linarith)
    have a7 : 1 - hl ≠ 0 := by linarith
    have a8 : 1 - hr ≠ 0 := by linarith
    have hpi := Real.pi_pos
    unfold sideScale sideThird
    field_simp
  · intro u
    have := erfHalf_abs u
    rw [abs_le] at this ⊢
    constructor <;> nlinarith

theorem fourth_sides (hl hr : ℝ) (h1 : hl < 1) (h2 : hr < 1) :
    lFourth (tukeyHH hl hr) = (Real.sqrt (2 * Real.pi))⁻¹
      * (sideScale hr * sideFourth hr + sideScale hl * sideFourth hl) := by
  have e : ∀ u, tukeyHH hl hr u * (20 * upTo u ^ 3 - 30 * upTo u ^ 2 + 12 * upTo u - 1)
      = 1 / 2 * (tukeyHH hl hr u * (5 * erfHalf u ^ 3 - 3 * erfHalf u)) := by
    intro u; rw [upTo_eq]; ring
  unfold lFourth
  simp only [e]
  have c : Continuous fun u => 5 * erfHalf u ^ 3 - 3 * erfHalf u := by have := erfHalf_cont; fun_prop
  rw [integral_const_mul, split_tukey hl hr h1 h2 (fun u => 5 * erfHalf u ^ 3 - 3 * erfHalf u) c 8 ?_]
  · have o : ∀ x : ℝ, x * Real.exp (-((1 - hl) / 2) * x ^ 2)
        * (5 * erfHalf (-x) ^ 3 - 3 * erfHalf (-x))
        = -(x * Real.exp (-((1 - hl) / 2) * x ^ 2) * (5 * erfHalf x ^ 3 - 3 * erfHalf x)) := by
      intro x; rw [erfHalf_neg]; ring
    simp only [o]
    rw [integral_neg, half_fourth _ h1, half_fourth _ h2]
    have a1 : 0 < Real.sqrt (2 - hl) := Real.sqrt_pos.2 (by linarith)
    have a2 : 0 < Real.sqrt (2 - hr) := Real.sqrt_pos.2 (by linarith)
    have a7 : 1 - hl ≠ 0 := by linarith
    have a8 : 1 - hr ≠ 0 := by linarith
    have hpi := Real.pi_pos
    unfold sideScale sideFourth
    field_simp
    ring
  · intro u
    have := erfHalf_abs u
    have h3 : |erfHalf u ^ 3| ≤ 1 := by rw [abs_pow]; exact pow_le_one₀ (abs_nonneg _) this
    rw [abs_le] at this h3 ⊢
    constructor <;> linarith

/-! ## The formulas of the code -/

theorem shape_sides (hl hr : ℝ) (h1 : hl < 1) (h2 : hr < 1) :
    (tukeyShape hl hr).1 = (sideScale hr * sideThird hr - sideScale hl * sideThird hl) / 2
        / (sideScale hl + sideScale hr) ∧
    (tukeyShape hl hr).2 = (sideScale hr * sideFourth hr + sideScale hl * sideFourth hl)
        / (sideScale hl + sideScale hr) := by
  have a1 : 0 < Real.sqrt (2 - hl) := Real.sqrt_pos.2 (by linarith)
  have a2 : 0 < Real.sqrt (2 - hr) := Real.sqrt_pos.2 (by linarith)
  have b1 : Real.sqrt (2 - hl) ^ 2 = 2 - hl := Real.sq_sqrt (by linarith)
  have b2 : Real.sqrt (2 - hr) ^ 2 = 2 - hr := Real.sq_sqrt (by linarith)
  have a3 : Real.sqrt ((hl - 2) * (hr - 2)) = Real.sqrt (2 - hl) * Real.sqrt (2 - hr) := by
    rw [← Real.sqrt_mul (by linarith)]; congr 1; ring
  have c1 : 0 < Real.sqrt (4 - hl) := Real.sqrt_pos.2 (by linarith)
  have c2 : 0 < Real.sqrt (1 - hl) := Real.sqrt_pos.2 (by linarith)
  have d2 : Real.sqrt (1 - hl) ^ 2 = 1 - hl := Real.sq_sqrt (by linarith)
  have s1 : Real.sqrt ((hl - 4) * (hl - 1)) = Real.sqrt (4 - hl) * Real.sqrt (1 - hl) := by
    rw [← Real.sqrt_mul (by linarith)]; congr 1; ring
  have s2 : Real.sqrt ((hl - 4) * (hl - 2) * (hl - 1) * (hr - 2))
      = Real.sqrt (4 - hl) * Real.sqrt (1 - hl) * (Real.sqrt (2 - hl) * Real.sqrt (2 - hr)) := by
    rw [← s1, ← a3, ← Real.sqrt_mul (by nlinarith)]; congr 1; ring
  have s3 : Real.sqrt ((hl - 4) * (hl - 2) * (hr - 2) / (hl - 1))
      = Real.sqrt (4 - hl) * (Real.sqrt (2 - hl) * Real.sqrt (2 - hr)) / Real.sqrt (1 - hl) := by
    rw [← a3, ← Real.sqrt_mul (by linarith), ← Real.sqrt_div' _ (by linarith)]; congr 1
    rw [show hl - 1 = -(1 - hl) by ring, div_neg, ← neg_div]; congr 1; ring
  have s4 : Real.sqrt ((4 - hl) * (2 - hl) * (1 - hl))
      = Real.sqrt (4 - hl) * Real.sqrt (2 - hl) * Real.sqrt (1 - hl) := by
    rw [← Real.sqrt_mul (by linarith), ← Real.sqrt_mul (by nlinarith)]
  have s5 : ∀ h : ℝ, h < 1 → 1 + 2 / (h - 4) = (2 - h) / (4 - h) := by
    intro h hh
    have : h - 4 ≠ 0 := by linarith
    have : 4 - h ≠ 0 := by linarith
    rw [show h - 4 = -(4 - h) by ring]
    field_simp; ring
  have hpi := Real.pi_pos
  have e1 : 0 < 1 - hl := by linarith
  have e2 : 0 < 1 - hr := by linarith
  have f1 : denPart hl + denPart hr
      = -((1 - hl) * Real.sqrt (2 - hl) + (1 - hr) * Real.sqrt (2 - hr)) := by unfold denPart; ring
  have f2 : 0 < (1 - hl) * Real.sqrt (2 - hl) + (1 - hr) * Real.sqrt (2 - hr) := by positivity
  have f3 : sideScale hl + sideScale hr
      = ((1 - hl) * Real.sqrt (2 - hl) + (1 - hr) * Real.sqrt (2 - hr))
        / ((1 - hl) * Real.sqrt (2 - hl) * ((1 - hr) * Real.sqrt (2 - hr))) := by
    unfold sideScale; field_simp; ring
  constructor
  · unfold tukeyShape
    simp only
    rw [a3, f1, f3]
    unfold sideScale sideThird skewnessNum
    generalize Real.arctan (1 / Real.sqrt (2 - hl)) = A
    generalize Real.arctan (1 / Real.sqrt (2 - hr)) = B
    have g1 : hl = 2 - Real.sqrt (2 - hl) ^ 2 := by linarith
    have g2 : hr = 2 - Real.sqrt (2 - hr) ^ 2 := by linarith
    generalize Real.sqrt (2 - hl) = p at *
    generalize Real.sqrt (2 - hr) = q at *
    field_simp
    rw [g1, g2]
    ring
  · unfold tukeyShape
    simp only
    rw [s1, s2, s3, s4, s5 hl h1, s5 hr h2, f1, f3]
    unfold sideScale sideFourth
    generalize Real.arctan (Real.sqrt ((2 - hl) / (4 - hl))) = A
    generalize Real.arctan (Real.sqrt ((2 - hr) / (4 - hr))) = B
    have g1 : hl = 2 - Real.sqrt (2 - hl) ^ 2 := by linarith
    have g2 : hr = 2 - Real.sqrt (2 - hr) ^ 2 := by linarith
    have g3 : Real.sqrt (1 - hl) ^ 2 = Real.sqrt (2 - hl) ^ 2 - 1 := by linarith
    generalize Real.sqrt (2 - hl) = p at *
    generalize Real.sqrt (2 - hr) = q at *
    generalize Real.sqrt (1 - hl) = w at *
    generalize Real.sqrt (4 - hl) = t at *
    field_simp
    rw [g3, g1, g2]
    ring

/-- **C94**: the formulas of the code are the L-skewness and the L-kurtosis of the distribution, for
all valid parameters. -/
theorem shape_is_the_l_skewness_and_l_kurtosis (hl hr : ℝ) (h0 : 0 ≤ hl) (h1 : hl < 1)
    (h0' : 0 ≤ hr) (h2 : hr < 1) :
    tukeyShape hl hr = (lThird (tukeyHH hl hr) / lScale (tukeyHH hl hr),
      lFourth (tukeyHH hl hr) / lScale (tukeyHH hl hr)) := by
  obtain ⟨e1, e2⟩ := shape_sides hl hr h1 h2
  have a5 : 0 < Real.sqrt (2 * Real.pi) := Real.sqrt_pos.2 (by linarith [Real.pi_pos])
  rw [tukey_l_scale hl hr h0 h1 h0' h2, l_scale_sides hl hr h1 h2, third_sides hl hr h1 h2,
    fourth_sides hl hr h1 h2, mul_div_mul_left _ _ (by positivity),
    mul_div_mul_left _ _ (by positivity), ← e1, ← e2]

/-- Parameters with a skewness: the right tail is longer. -/
example : (0 : ℝ) ≤ 1 / 4 ∧ (1 / 4 : ℝ) < 1 ∧ (0 : ℝ) ≤ 7 / 8 ∧ (7 / 8 : ℝ) < 1 := by norm_num

end TFT.Numeric
