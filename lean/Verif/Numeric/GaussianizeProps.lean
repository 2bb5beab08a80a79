import Verif.Numeric.Gaussianize
import Verif.Numeric.BisectProps
import Mathlib.Analysis.Complex.ExponentialBounds
import Mathlib.Analysis.Convex.SpecificFunctions.Basic
import Mathlib.Topology.Order.IntermediateValue

/-!
# `scale_to_gaussian` inverts the fitted distribution (C71)
-/

namespace TFT.Numeric

/-! ## Specification -/

/-- Tukey's HH function: it transforms a Gaussian variable into one with longer tails. -/
noncomputable def tukeyHH (hl hr u : ℝ) : ℝ :=
  if u < 0 then u * Real.exp (hl * u ^ 2 / 2) else u * Real.exp (hr * u ^ 2 / 2)

/-! ## Lemmas on the exponential function -/

theorem exp_neg_le (e : ℝ) (h : 0 ≤ e) : Real.exp (-e) ≤ 1 - e + e ^ 2 / 2 := by
  have h1 := Real.quadratic_le_exp_of_nonneg h
  have hp : 0 < 1 + e + e ^ 2 / 2 := by positivity
  rw [Real.exp_neg]
  refine (inv_anti₀ hp h1).trans ?_
  rw [inv_le_iff_one_le_mul₀ hp]
  nlinarith [sq_nonneg (e ^ 2)]

theorem exp_le_inv (d : ℝ) (h : d < 1) : Real.exp d ≤ 1 / (1 - d) := by
  have h1 := Real.add_one_le_exp (-d)
  rw [Real.exp_neg] at h1
  rw [le_div_iff₀ (by linarith)]
  have hp := Real.exp_pos d
  have : (-d + 1) * Real.exp d ≤ (Real.exp d)⁻¹ * Real.exp d :=
    mul_le_mul_of_nonneg_right h1 hp.le
  rw [inv_mul_cancel₀ hp.ne'] at this
  linarith

theorem e_bounds : 2.718 < Real.exp 1 ∧ Real.exp 1 < 2.7183 :=
  ⟨by linarith [Real.exp_one_gt_d9], by linarith [Real.exp_one_lt_d9]⟩

/-! ## Newton's method -/

variable {W x w : ℝ}

theorem newton_form (hx : W * Real.exp W = x) (hw : 0 ≤ w) :
    newtonUpdate x w - W = ((w - W) * (1 + w) - w + W * Real.exp (W - w)) / (1 + w) := by
  unfold newtonUpdate
  have hp := Real.exp_pos w
  have hW : Real.exp W = Real.exp (W - w) * Real.exp w := by rw [← Real.exp_add]; congr 1; ring
  rw [← hx, hW]
  have : (1 + w) ≠ 0 := by positivity
  have h2 : Real.exp w + w * Real.exp w = (1 + w) * Real.exp w := by ring
  simp only
  rw [h2]
  field_simp
  ring

/-- A step never ends below the solution. -/
theorem newton_ge (hW : 0 ≤ W) (hx : W * Real.exp W = x) (hw : 0 ≤ w) : W ≤ newtonUpdate x w := by
  have h := newton_form hx hw
  have h1 := Real.add_one_le_exp (W - w)
  have : 0 ≤ ((w - W) * (1 + w) - w + W * Real.exp (W - w)) / (1 + w) := by
    refine div_nonneg ?_ (by linarith)
    nlinarith [mul_le_mul_of_nonneg_left h1 hW, sq_nonneg (w - W)]
  linarith

/-- From above, a step squares the error. -/
theorem newton_le_over (hW : 0 ≤ W) (hx : W * Real.exp W = x) (hw : W ≤ w) :
    newtonUpdate x w ≤ W + (w - W) ^ 2 := by
  have h := newton_form hx (hW.trans hw)
  have h1 := exp_neg_le (w - W) (by linarith)
  rw [show -(w - W) = W - w by ring] at h1
  have : ((w - W) * (1 + w) - w + W * Real.exp (W - w)) / (1 + w) ≤ (w - W) ^ 2 := by
    rw [div_le_iff₀ (by linarith)]
    nlinarith [mul_le_mul_of_nonneg_left h1 hW, sq_nonneg (w - W), mul_nonneg hW (sq_nonneg (w - W)),
      mul_nonneg (sub_nonneg.2 hw) (sq_nonneg (w - W))]
  linarith

/-- From a little below, a step ends close to the solution. -/
theorem newton_le_under (hW : 0 ≤ W) (hx : W * Real.exp W = x) (hw : 0 ≤ w) (h1 : w ≤ W)
    (h2 : W ≤ w + 1 / 5) : newtonUpdate x w ≤ W + 1 / 2 := by
  have h := newton_form hx hw
  have h3 := exp_le_inv (W - w) (by linarith)
  have h4 : 1 / (1 - (W - w)) ≤ 1 + (W - w) + 5 / 4 * (W - w) ^ 2 := by
    rw [div_le_iff₀ (by linarith)]
    have hd : 0 ≤ W - w := by linarith
    have hd2 : W - w ≤ 1 / 5 := by linarith
    nlinarith [mul_nonneg (sq_nonneg (W - w)) (sub_nonneg.2 hd2)]
  have : ((w - W) * (1 + w) - w + W * Real.exp (W - w)) / (1 + w) ≤ 1 / 2 := by
    rw [div_le_iff₀ (by linarith)]
    have h5 := mul_le_mul_of_nonneg_left (h3.trans h4) hW
    have hd : 0 ≤ W - w := by linarith
    have hd2 : W - w ≤ 1 / 5 := by linarith
    have hd3 : (W - w) ^ 2 ≤ 1 / 25 := by nlinarith
    nlinarith [mul_le_mul_of_nonneg_left hd3 hw, mul_le_mul_of_nonneg_left hd3 hd]
  linarith

/-- How far the solution is above a point. -/
theorem under_bound (hW : 0 ≤ W) (hx : W * Real.exp W = x) (hw : 0 ≤ w) (d : ℝ)
    (h : x ≤ Real.exp w * (w + d * (1 + w))) : W ≤ w + d := by
  have h1 := newton_ge hW hx hw
  unfold newtonUpdate at h1
  simp only at h1
  have hp := Real.exp_pos w
  have h2 : 0 < Real.exp w + w * Real.exp w := by positivity
  have : -((w * Real.exp w - x) / (Real.exp w + w * Real.exp w)) ≤ d := by
    rw [← neg_div, div_le_iff₀ h2]
    nlinarith
  linarith

/-- How far a point is above the solution. -/
theorem over_bound (hW : 0 ≤ W) (hx : W * Real.exp W = x) (hw : W ≤ w) :
    (w - W) * ((1 + W) * Real.exp W) ≤ w * Real.exp w - x := by
  have h1 := Real.add_one_le_exp (w - W)
  have hp := Real.exp_pos W
  have h2 : Real.exp w = Real.exp (w - W) * Real.exp W := by rw [← Real.exp_add]; congr 1; ring
  have h3 : (w - W + 1) * Real.exp W ≤ Real.exp w := by
    rw [h2]; exact mul_le_mul_of_nonneg_right h1 hp.le
  have hw0 : 0 ≤ w := hW.trans hw
  have h4 := mul_le_mul_of_nonneg_left h3 hw0
  have : (w - W) * ((1 + W) * Real.exp W) ≤ w * ((w - W + 1) * Real.exp W) - W * Real.exp W := by
    nlinarith [mul_nonneg (sq_nonneg (w - W)) hp.le]
  linarith

set_option maxHeartbeats 1000000 in
/-- The initial value is above the solution and at most 7/10 too large, or below it and at most 1/5
too small. -/
theorem init_close (hW : 0 ≤ W) (hx : W * Real.exp W = x) :
    (W ≤ lambertInit x ∧ lambertInit x ≤ W + 7 / 10) ∨
    (0 ≤ lambertInit x ∧ lambertInit x ≤ W ∧ W ≤ lambertInit x + 1 / 5) := by
  obtain ⟨e1, e2⟩ := e_bounds
  have hWp := Real.exp_pos W
  have hW1 : 1 ≤ Real.exp W := Real.one_le_exp hW
  have hx0 : 0 ≤ x := by rw [← hx]; positivity
  have hWx : W ≤ x := by rw [← hx]; nlinarith
  have hem : Real.exp (-1) < 0.368 := by
    rw [Real.exp_neg, inv_lt_comm₀ (Real.exp_pos 1) (by norm_num)]
    linarith [show (0.368 : ℝ)⁻¹ < 2.718 by norm_num]
  have hem' : Real.exp (-1) = 1 / Real.exp 1 := by rw [Real.exp_neg, one_div]
  have hover : ∀ w, W ≤ w → w * Real.exp w - x ≤ 7 / 10 → w ≤ W + 7 / 10 := by
    intro w hw h
    have := over_bound hW hx hw
    have h1 : 1 ≤ (1 + W) * Real.exp W := by nlinarith
    nlinarith [mul_le_mul_of_nonneg_left h1 (sub_nonneg.2 hw)]
  unfold lambertInit
  simp only
  split
  · rename_i h
    left
    exact ⟨hWx, by linarith⟩
  · rename_i hlow
    push Not at hlow
    split
    · rename_i hhigh
      have hs : (Real.exp 1 - 1) / (Real.exp 2 - 1) = 1 / (Real.exp 1 + 1) := by
        have : Real.exp 2 = Real.exp 1 * Real.exp 1 := by rw [← Real.exp_add]; norm_num
        rw [this]
        have h1 : Real.exp 1 * Real.exp 1 - 1 ≠ 0 := by nlinarith
        have h2 : Real.exp 1 + 1 ≠ 0 := by linarith
        rw [div_eq_div_iff h1 h2]
        ring
      rw [hs]
      have h0 : Real.exp 1 + 1 ≠ 0 := by linarith
      have h00 : Real.exp 1 ≠ 0 := by linarith
      set w := 1 / (Real.exp 1 + 1) * x + 1 / Real.exp 1 * (1 - 1 / (Real.exp 1 + 1)) with hwdef
      have hxw : x = (Real.exp 1 + 1) * w - 1 := by
        rw [hwdef]
        field_simp
        ring
      have hw1 : w < 1 := by
        by_contra hc
        push Not at hc
        nlinarith
      have hw2 : 0.36 ≤ w := by
        by_contra hc
        push Not at hc
        rw [hem'] at hlow
        have h3 : 1 / Real.exp 1 ≤ (Real.exp 1 + 1) * w - 1 := hxw ▸ hlow
        have h4 : 0.367 < 1 / Real.exp 1 := by
          rw [lt_div_iff₀ (by linarith)]
          linarith
        have : (Real.exp 1 + 1) * w ≤ 3.7183 * 0.36 := by nlinarith
        nlinarith
      have hw0 : 0 ≤ w := by linarith
      rcases le_total W w with h | h
      · left
        refine ⟨h, hover w h ?_⟩
        have hconv : Real.exp w ≤ 1 - w + w * Real.exp 1 := by
          have := convexOn_exp.2 (Set.mem_univ 0) (Set.mem_univ 1) (by linarith : 0 ≤ 1 - w) hw0
            (by ring)
          simpa using this
        rw [hxw]
        have := mul_le_mul_of_nonneg_left hconv hw0
        nlinarith [mul_nonneg hw0 (sub_nonneg.2 hw1.le)]
      · right
        refine ⟨hw0, h, under_bound hW hx hw0 _ ?_⟩
        have h1 := Real.add_one_le_exp w
        have h2 := mul_le_mul_of_nonneg_right h1 (by linarith : 0 ≤ w + 1 / 5 * (1 + w))
        refine le_trans ?_ h2
        rw [hxw]
        nlinarith [sq_nonneg (w - 1)]
    · rename_i hhigh
      push Not at hhigh
      have hxp : 0 < x := by linarith
      set L := Real.log x with hL
      have hL1 : 1 ≤ L := by
        rw [hL, Real.le_log_iff_exp_le hxp]
        exact hhigh
      set l := Real.log L with hl
      have hl0 : 0 ≤ l := Real.log_nonneg hL1
      have hLp : 0 < L := by linarith
      have hlL : l ≤ L / Real.exp 1 := by
        have h1 := Real.log_le_sub_one_of_pos (div_pos hLp (Real.exp_pos 1))
        rw [Real.log_div hLp.ne' (Real.exp_pos 1).ne', Real.log_exp] at h1
        linarith
      set t := l / L with ht
      have ht0 : 0 ≤ t := div_nonneg hl0 hLp.le
      have ht1 : t ≤ 0.37 := by
        rw [ht, div_le_iff₀ hLp]
        refine hlL.trans ?_
        rw [div_le_iff₀ (Real.exp_pos 1)]
        nlinarith
      have hlt : l = t * L := by rw [ht]; field_simp
      have hw : L + (1 / L - 1) * l = L - l + t := by rw [ht]; field_simp; ring
      rw [hw]
      set w := L - l + t with hwd
      have hw0 : 0 ≤ w := by
        rw [hwd, hlt]
        nlinarith
      have hew : Real.exp w = x / L * Real.exp t := by
        rw [hwd, Real.exp_add, Real.exp_sub, Real.exp_log hxp, Real.exp_log hLp]
      have htp := Real.exp_pos t
      rcases le_total W w with h | h
      · left
        refine ⟨h, ?_⟩
        have h1 := over_bound hW hx h
        have h2 : x ≤ (1 + W) * Real.exp W := by rw [← hx]; nlinarith
        have h3 : (w - W) * x ≤ w * Real.exp w - x :=
          (mul_le_mul_of_nonneg_left h2 (sub_nonneg.2 h)).trans h1
        have h4 : w ≤ L := by
          rw [hwd, hlt]
          nlinarith
        have h5 : w * Real.exp w ≤ x * Real.exp t := by
          rw [hew]
          have : w / L ≤ 1 := (div_le_one hLp).2 h4
          calc w * (x / L * Real.exp t) = w / L * (x * Real.exp t) := by ring
            _ ≤ 1 * (x * Real.exp t) := mul_le_mul_of_nonneg_right this (by positivity)
            _ = x * Real.exp t := one_mul _
        have h6 := exp_le_inv t (by linarith)
        have h7 : 1 / (1 - t) ≤ 1.6 := by
          rw [div_le_iff₀ (by linarith)]
          linarith
        have h9 := mul_le_mul_of_nonneg_left (h6.trans h7) hxp.le
        have h8 : (w - W) * x ≤ 0.7 * x := by linarith
        have := le_of_mul_le_mul_right h8 hxp
        linarith
      · right
        refine ⟨hw0, h, under_bound hW hx hw0 _ ?_⟩
        have h1 := exp_neg_le t ht0
        have h2 : L * Real.exp (-t) ≤ w + 1 / 5 * (1 + w) := by
          have := mul_le_mul_of_nonneg_left h1 hLp.le
          rw [hwd, hlt]
          nlinarith [mul_nonneg hLp.le ht0]
        have h3 : x = x / L * Real.exp t * (L * Real.exp (-t)) := by
          rw [Real.exp_neg]
          field_simp
        rw [hew]
        calc x = x / L * Real.exp t * (L * Real.exp (-t)) := h3
          _ ≤ _ := mul_le_mul_of_nonneg_left h2 (by positivity)

/-! ## The Lambert W function -/

/-- **C71**, `lambert_w`: the result is the solution of `w * exp w = x`, too large by at most `2⁻¹²⁸`. -/
theorem lambert_w_accurate (hW : 0 ≤ W) (hx : W * Real.exp W = x) :
    W ≤ lambertW x ∧ lambertW x ≤ W + (1 / 2) ^ 128 := by
  have h1 : W ≤ newtonUpdate x (lambertInit x) ∧ newtonUpdate x (lambertInit x) ≤ W + 1 / 2 := by
    rcases init_close hW hx with ⟨h1, h2⟩ | ⟨h1, h2, h3⟩
    · refine ⟨newton_ge hW hx (hW.trans h1), (newton_le_over hW hx h1).trans ?_⟩
      nlinarith
    · exact ⟨newton_ge hW hx h1, newton_le_under hW hx h1 h2 h3⟩
  have hstep : ∀ n v, W ≤ v → v ≤ W + (1 / 2) ^ (2 ^ n) → ∀ k,
      W ≤ (newtonUpdate x)^[k] v ∧ (newtonUpdate x)^[k] v ≤ W + (1 / 2) ^ (2 ^ (n + k)) := by
    intro n v hv1 hv2 k
    induction k with
    | zero => exact ⟨hv1, hv2⟩
    | succ k ih =>
      rw [Function.iterate_succ_apply']
      obtain ⟨i1, i2⟩ := ih
      refine ⟨newton_ge hW hx (hW.trans i1), (newton_le_over hW hx i1).trans ?_⟩
      have : ((newtonUpdate x)^[k] v - W) ^ 2 ≤ ((1 / 2) ^ (2 ^ (n + k))) ^ 2 :=
        pow_le_pow_left₀ (by linarith) (by linarith) 2
      rw [← pow_mul, ← pow_succ] at this
      rw [← add_assoc]
      linarith
  have := hstep 0 _ h1.1 (by simpa using h1.2) 7
  unfold lambertW
  rw [show (8 : Nat) = 7 + 1 from rfl, Function.iterate_succ_apply]
  simpa using this

/-- There is exactly one solution. -/
theorem lambert_exists (x : ℝ) (h : 0 ≤ x) : ∃ W, 0 ≤ W ∧ W * Real.exp W = x := by
  have hc : ContinuousOn (fun w : ℝ => w * Real.exp w) (Set.Icc 0 x) := by fun_prop
  have := intermediate_value_Icc h hc
  obtain ⟨w, hw, he⟩ := this (⟨by simpa using h, by
    have := Real.one_le_exp h
    nlinarith⟩ : x ∈ Set.Icc (0 * Real.exp 0) (x * Real.exp x))
  exact ⟨w, hw.1, he⟩

/-! ## Tukey's function -/

theorem half_strictMono (h : ℝ) (hh : 0 ≤ h) (u v : ℝ) (hu : 0 ≤ u) (huv : u < v) :
    u * Real.exp (h * u ^ 2 / 2) < v * Real.exp (h * v ^ 2 / 2) := by
  have h1 : Real.exp (h * u ^ 2 / 2) ≤ Real.exp (h * v ^ 2 / 2) := by
    apply Real.exp_le_exp.2
    have : u ^ 2 ≤ v ^ 2 := pow_le_pow_left₀ hu huv.le 2
    nlinarith [mul_le_mul_of_nonneg_left this hh]
  exact mul_lt_mul huv h1 (Real.exp_pos _) (by linarith)

theorem tukeyHH_neg (hl hr u : ℝ) : tukeyHH hl hr (-u) = -tukeyHH hr hl u := by
  unfold tukeyHH
  rcases lt_trichotomy u 0 with h | h | h
  · rw [if_neg (by linarith), if_pos h]
    simp
  · subst h
    simp
  · rw [if_pos (by linarith), if_neg (by linarith)]
    simp

theorem tukeyHH_strictMono (hl hr : ℝ) (h1 : 0 ≤ hl) (h2 : 0 ≤ hr) : StrictMono (tukeyHH hl hr) := by
  intro u v huv
  unfold tukeyHH
  have hpu := Real.exp_pos (hl * u ^ 2 / 2)
  have hpv := Real.exp_pos (hr * v ^ 2 / 2)
  split <;> split
  · have := half_strictMono hl h1 (-v) (-u) (by linarith) (by linarith)
    rw [neg_sq, neg_sq] at this
    linarith
  · rename_i hu hv
    nlinarith
  · linarith
  · exact half_strictMono hr h2 u v (by linarith) huv

/-- Tukey's function can be inverted. -/
theorem tukey_inverse_exists (hl hr : ℝ) (h1 : 0 ≤ hl) (h2 : 0 ≤ hr) (x : ℝ) :
    ∃ u, tukeyHH hl hr u = x ∧ ∀ v, tukeyHH hl hr v = x → v = u := by
  have hpos : ∀ hl hr : ℝ, 0 ≤ hr → ∀ x, 0 ≤ x → ∃ u, 0 ≤ u ∧ tukeyHH hl hr u = x := by
    intro hl hr h2 x hx
    have hc : ContinuousOn (fun u : ℝ => u * Real.exp (hr * u ^ 2 / 2)) (Set.Icc 0 x) := by fun_prop
    obtain ⟨u, hu, he⟩ := intermediate_value_Icc hx hc (⟨by simpa using hx, by
      have := Real.one_le_exp (by positivity : 0 ≤ hr * x ^ 2 / 2)
      nlinarith⟩ : x ∈ Set.Icc (0 * Real.exp (hr * 0 ^ 2 / 2)) (x * Real.exp (hr * x ^ 2 / 2)))
    refine ⟨u, hu.1, ?_⟩
    unfold tukeyHH
    rw [if_neg (not_lt.2 hu.1)]
    exact he
  have hex : ∃ u, tukeyHH hl hr u = x := by
    rcases le_total 0 x with h | h
    · obtain ⟨u, -, hu⟩ := hpos hl hr h2 x h
      exact ⟨u, hu⟩
    · obtain ⟨u, -, hu⟩ := hpos hr hl h1 (-x) (by linarith)
      refine ⟨-u, ?_⟩
      rw [tukeyHH_neg, hu, neg_neg]
  obtain ⟨u, hu⟩ := hex
  exact ⟨u, hu, fun v hv => (tukeyHH_strictMono hl hr h1 h2).injective (hv.trans hu.symm)⟩

theorem oneSide_accurate (h u x : ℝ) (hh : 0 ≤ h) (hu : 0 ≤ u)
    (hx : u * Real.exp (h * u ^ 2 / 2) = x) :
    u ≤ oneSide x h ∧ oneSide x h ≤ u * (1 + 6 / 10 ^ 8) ∧
    (1 / 10 ^ 7 ≤ h * x ^ 2 → oneSide x h ≤ u * (1 + 1 / 10 ^ 30)) := by
  have hx0 : 0 ≤ x := by rw [← hx]; positivity
  have hux : u ≤ x := by
    rw [← hx]
    nlinarith [Real.one_le_exp (by positivity : 0 ≤ h * u ^ 2 / 2)]
  unfold oneSide
  simp only
  split
  · rename_i hc
    refine ⟨hux, ?_, fun h => by norm_num at hc h; linarith⟩
    have ht : h * u ^ 2 / 2 ≤ 5 / 10 ^ 8 := by
      have : u ^ 2 ≤ x ^ 2 := pow_le_pow_left₀ hu hux 2
      have := mul_le_mul_of_nonneg_left this hh
      norm_num at hc
      linarith
    have h1 := exp_le_inv (h * u ^ 2 / 2) (by linarith)
    have h2 : 1 / (1 - h * u ^ 2 / 2) ≤ 1 + 6 / 10 ^ 8 := by
      rw [div_le_iff₀ (by linarith)]
      linarith
    rw [← hx]
    exact mul_le_mul_of_nonneg_left (h1.trans h2) hu
  · rename_i hc
    have hc : 1 / 10 ^ 7 ≤ h * x ^ 2 := by norm_num at hc ⊢; linarith
    have hhp : 0 < h := by
      rcases hh.lt_or_eq with h' | h'
      · exact h'
      · rw [← h'] at hc
        norm_num at hc
    have hWx : (h * u ^ 2) * Real.exp (h * u ^ 2) = h * x ^ 2 := by
      rw [← hx, mul_pow, ← Real.exp_nat_mul]
      have : ((2 : ℕ) : ℝ) * (h * u ^ 2 / 2) = h * u ^ 2 := by push_cast; ring
      rw [this]
      ring
    obtain ⟨w1, w2⟩ := lambert_w_accurate (by positivity : 0 ≤ h * u ^ 2) hWx
    have hlow : u ≤ Real.sqrt (lambertW (h * x ^ 2) / h) := by
      apply Real.le_sqrt_of_sq_le
      rw [le_div_iff₀ hhp]
      linarith
    have hW : 1 / 10 ^ 8 ≤ h * u ^ 2 := by
      by_contra hlt
      push Not at hlt
      have h0 : 0 ≤ h * u ^ 2 := by positivity
      have h1 := exp_le_inv (h * u ^ 2) (by linarith)
      have h2 : 1 / (1 - h * u ^ 2) ≤ 2 := by
        rw [div_le_iff₀ (by linarith)]
        linarith
      have h3 := mul_le_mul_of_nonneg_left (h1.trans h2) h0
      rw [hWx] at h3
      linarith
    have hhigh : Real.sqrt (lambertW (h * x ^ 2) / h) ≤ u * (1 + 1 / 10 ^ 30) := by
      rw [Real.sqrt_le_left (by positivity), div_le_iff₀ hhp]
      have hd : ((1 : ℝ) / 2) ^ 128 ≤ 1 / 10 ^ 38 := by norm_num
      have : (1 : ℝ) / 10 ^ 38 ≤ h * u ^ 2 * (1 / 10 ^ 30) := by
        have := mul_le_mul_of_nonneg_right hW (by norm_num : (0 : ℝ) ≤ 1 / 10 ^ 30)
        refine le_trans (le_of_eq ?_) this
        norm_num
      have h0 : 0 ≤ h * u ^ 2 * (1 / 10 ^ 30) := by positivity
      calc lambertW (h * x ^ 2) ≤ h * u ^ 2 + h * u ^ 2 * (1 / 10 ^ 30) := by linarith
        _ ≤ (u * (1 + 1 / 10 ^ 30)) ^ 2 * h := by nlinarith
    refine ⟨hlow, hhigh.trans ?_, fun _ => hhigh⟩
    exact mul_le_mul_of_nonneg_left (by norm_num) hu

/-! ## Theorems -/

/-- **C71**, `inverse_tukey_hh`: the result has the sign of the exact inverse, and its absolute value is
too large by at most `6 * 10⁻⁸` of it; by at most `10⁻³⁰` of it if `h * x²` is at least `10⁻⁷`. -/
theorem inverse_tukey_accurate (hl hr u x : ℝ) (h1 : 0 ≤ hl) (h2 : 0 ≤ hr)
    (hx : tukeyHH hl hr u = x) :
    (0 ≤ u → u ≤ inverseTukeyHH x hl hr ∧ inverseTukeyHH x hl hr ≤ u * (1 + 6 / 10 ^ 8) ∧
      (1 / 10 ^ 7 ≤ hr * x ^ 2 → inverseTukeyHH x hl hr ≤ u * (1 + 1 / 10 ^ 30))) ∧
    (u < 0 → inverseTukeyHH x hl hr ≤ u ∧ u * (1 + 6 / 10 ^ 8) ≤ inverseTukeyHH x hl hr ∧
      (1 / 10 ^ 7 ≤ hl * x ^ 2 → u * (1 + 1 / 10 ^ 30) ≤ inverseTukeyHH x hl hr)) := by
  constructor
  · intro hu
    unfold tukeyHH at hx
    rw [if_neg (not_lt.2 hu)] at hx
    have hx0 : 0 ≤ x := by rw [← hx]; positivity
    unfold inverseTukeyHH
    rw [if_neg (not_lt.2 hx0)]
    exact oneSide_accurate hr u x h2 hu hx
  · intro hu
    unfold tukeyHH at hx
    rw [if_pos hu] at hx
    have hx0 : x < 0 := by rw [← hx]; exact mul_neg_of_neg_of_pos hu (Real.exp_pos _)
    unfold inverseTukeyHH
    rw [if_pos hx0]
    obtain ⟨a, b, c⟩ := oneSide_accurate hl (-u) (-x) h1 (by linarith) (by rw [neg_sq, ← hx]; ring)
    rw [neg_sq] at c
    refine ⟨by linarith, by linarith, fun h => ?_⟩
    have := c h
    linarith

/-- Values keep their order up to that error. -/
theorem inverse_tukey_order (hl hr x y : ℝ) (h1 : 0 ≤ hl) (h2 : 0 ≤ hr) (hxy : x ≤ y) :
    inverseTukeyHH x hl hr ≤ inverseTukeyHH y hl hr + 6 / 10 ^ 8 * (|x| + |y|) := by
  obtain ⟨u, hu, -⟩ := tukey_inverse_exists hl hr h1 h2 x
  obtain ⟨v, hv, -⟩ := tukey_inverse_exists hl hr h1 h2 y
  have huv : u ≤ v := (tukeyHH_strictMono hl hr h1 h2).le_iff_le.1 (by rw [hu, hv]; exact hxy)
  have habs : ∀ u x, tukeyHH hl hr u = x → |u| ≤ |x| := by
    intro u x hx
    rw [← hx]
    unfold tukeyHH
    split
    · rw [abs_mul, abs_of_pos (Real.exp_pos _)]
      nlinarith [abs_nonneg u, Real.one_le_exp (by positivity : 0 ≤ hl * u ^ 2 / 2)]
    · rw [abs_mul, abs_of_pos (Real.exp_pos _)]
      nlinarith [abs_nonneg u, Real.one_le_exp (by positivity : 0 ≤ hr * u ^ 2 / 2)]
  have hux := habs u x hu
  have hvy := habs v y hv
  obtain ⟨a1, a2⟩ := inverse_tukey_accurate hl hr u x h1 h2 hu
  obtain ⟨b1, b2⟩ := inverse_tukey_accurate hl hr v y h1 h2 hv
  have hup : inverseTukeyHH x hl hr ≤ u + 6 / 10 ^ 8 * |x| := by
    rcases lt_or_ge u 0 with h | h
    · have := (a2 h).1
      have := abs_nonneg x
      linarith
    · have := (a1 h).2.1
      rw [abs_of_nonneg h] at hux
      linarith
  have hlo : v ≤ inverseTukeyHH y hl hr + 6 / 10 ^ 8 * |y| := by
    rcases lt_or_ge v 0 with h | h
    · have := (b2 h).2.1
      rw [abs_of_neg h] at hvy
      linarith
    · have := (b1 h).1
      have := abs_nonneg y
      linarith
  linarith

/-- The order is not kept exactly: where the exact formula takes over, the result drops. -/
theorem inverse_tukey_not_monotone :
    ∃ h x y : ℝ, 0 ≤ h ∧ h < 1 ∧ x < y ∧ inverseTukeyHH y h h < inverseTukeyHH x h h := by
  refine ⟨1 / 10, 1 / 1000 * (1 - 1 / 10 ^ 8), 1 / 1000, by norm_num, by norm_num, by norm_num, ?_⟩
  obtain ⟨u, hu, -⟩ := tukey_inverse_exists (1 / 10) (1 / 10) (by norm_num) (by norm_num) (1 / 1000)
  have hu0 : 0 ≤ u := by
    by_contra hc
    push Not at hc
    unfold tukeyHH at hu
    rw [if_pos hc] at hu
    have := mul_neg_of_neg_of_pos hc (Real.exp_pos (1 / 10 * u ^ 2 / 2))
    linarith
  obtain ⟨-, -, h3⟩ := (inverse_tukey_accurate _ _ u _ (by norm_num) (by norm_num) hu).1 hu0
  have h3 := h3 (by norm_num)
  have hx : inverseTukeyHH (1 / 1000 * (1 - 1 / 10 ^ 8)) (1 / 10) (1 / 10)
      = 1 / 1000 * (1 - 1 / 10 ^ 8) := by
    unfold inverseTukeyHH oneSide
    rw [if_neg (by norm_num)]
    simp only
    rw [if_pos (by norm_num)]
  rw [hx]
  refine lt_of_le_of_lt h3 ?_
  unfold tukeyHH at hu
  rw [if_neg (not_lt.2 hu0)] at hu
  have hule : u ≤ 1 / 1000 := by
    rw [← hu]
    nlinarith [Real.one_le_exp (by positivity : 0 ≤ 1 / 10 * u ^ 2 / 2)]
  have hlow : 9 / 10000 ≤ u := by
    by_contra hc
    push Not at hc
    have h1 := exp_le_inv (1 / 10 * u ^ 2 / 2) (by nlinarith)
    have h2 : 1 / (1 - 1 / 10 * u ^ 2 / 2) ≤ 1.1 := by
      rw [div_le_iff₀ (by nlinarith)]
      nlinarith
    have := mul_le_mul_of_nonneg_left (h1.trans h2) hu0
    linarith
  have h1 := Real.add_one_le_exp (1 / 10 * u ^ 2 / 2)
  have h2 := mul_le_mul_of_nonneg_left h1 hu0
  rw [hu] at h2
  have h4 : (81 : ℝ) / 10 ^ 8 ≤ u ^ 2 := by nlinarith
  have h5 : u * (1 + 4 / 10 ^ 8) ≤ 1 / 1000 := by
    refine le_trans (mul_le_mul_of_nonneg_left ?_ hu0) h2
    linarith
  nlinarith

/-- The comment in the code says that the error is below `10⁻¹⁴` where the value is returned as it is;
it is not. -/
theorem small_value_error :
    ∃ h x u : ℝ, 0 ≤ h ∧ h < 1 ∧ h * x ^ 2 < 1.0e-7 ∧ tukeyHH h h u = x ∧
      1 / 10 ^ 12 < |inverseTukeyHH x h h - u| := by
  obtain ⟨u, hu, -⟩ := tukey_inverse_exists (1 / 10) (1 / 10) (by norm_num) (by norm_num) (9 / 10000)
  refine ⟨1 / 10, 9 / 10000, u, by norm_num, by norm_num, by norm_num, hu, ?_⟩
  have hx : inverseTukeyHH (9 / 10000) (1 / 10) (1 / 10) = 9 / 10000 := by
    unfold inverseTukeyHH oneSide
    rw [if_neg (by norm_num)]
    simp only
    rw [if_pos (by norm_num)]
  rw [hx]
  have hu0 : 0 ≤ u := by
    by_contra hc
    push Not at hc
    unfold tukeyHH at hu
    rw [if_pos hc] at hu
    have := mul_neg_of_neg_of_pos hc (Real.exp_pos (1 / 10 * u ^ 2 / 2))
    linarith
  unfold tukeyHH at hu
  rw [if_neg (not_lt.2 hu0)] at hu
  have hlow : 8 / 10000 ≤ u := by
    by_contra hc
    push Not at hc
    have h1 := exp_le_inv (1 / 10 * u ^ 2 / 2) (by nlinarith)
    have h2 : 1 / (1 - 1 / 10 * u ^ 2 / 2) ≤ 1.1 := by
      rw [div_le_iff₀ (by nlinarith)]
      nlinarith
    have := mul_le_mul_of_nonneg_left (h1.trans h2) hu0
    linarith
  have h1 := Real.add_one_le_exp (1 / 10 * u ^ 2 / 2)
  have h2 := mul_le_mul_of_nonneg_left h1 hu0
  rw [hu] at h2
  have h4 : (64 : ℝ) / 10 ^ 8 ≤ u ^ 2 := by nlinarith
  have h5 : u * (1 + 3 / 10 ^ 8) ≤ 9 / 10000 := by
    refine le_trans (mul_le_mul_of_nonneg_left ?_ hu0) h2
    linarith
  refine lt_of_lt_of_le ?_ (le_abs_self _)
  linarith

/-- The docstring of `inverse_tukey_hh` gives the function to be inverted without the factor 1/2; the
result is far from its inverse. -/
theorem documented_function_is_not_inverted :
    ∃ h u x : ℝ, 0 ≤ h ∧ h ≤ 1 ∧ 0 ≤ u ∧ u * Real.exp (h * u ^ 2) = x ∧
      u + 1 / 10 < inverseTukeyHH x h h := by
  refine ⟨1, 1, Real.exp 1, by norm_num, le_rfl, by norm_num, by norm_num, ?_⟩
  obtain ⟨v, hv, -⟩ := tukey_inverse_exists 1 1 (by norm_num) (by norm_num) (Real.exp 1)
  have hv0 : 0 ≤ v := by
    by_contra hc
    push Not at hc
    unfold tukeyHH at hv
    rw [if_pos hc] at hv
    have := mul_neg_of_neg_of_pos hc (Real.exp_pos (1 * v ^ 2 / 2))
    have := Real.exp_pos 1
    linarith
  refine lt_of_lt_of_le ?_ ((inverse_tukey_accurate 1 1 v _ (by norm_num) (by norm_num) hv).1 hv0).1
  by_contra hc
  push Not at hc
  unfold tukeyHH at hv
  rw [if_neg (not_lt.2 hv0)] at hv
  have h1 := exp_le_inv (1 * v ^ 2 / 4) (by nlinarith)
  have h2 : 1 / (1 - 1 * v ^ 2 / 4) ≤ 1.45 := by
    rw [div_le_iff₀ (by nlinarith)]
    nlinarith
  have h3 : Real.exp (1 * v ^ 2 / 2) = Real.exp (1 * v ^ 2 / 4) ^ 2 := by
    rw [← Real.exp_nat_mul]
    congr 1
    push_cast
    ring
  have h4 : Real.exp (1 * v ^ 2 / 2) ≤ 1.45 ^ 2 := by
    rw [h3]
    exact pow_le_pow_left₀ (Real.exp_pos _).le (h1.trans h2) 2
  have h5 := mul_le_mul_of_nonneg_left h4 hv0
  have := e_bounds.1
  rw [hv] at h5
  linarith

/-- **C71**, long tails: the result is the value of the Gaussian variable that the fitted
distribution transforms into `x`, up to the same error. -/
theorem scale_to_gaussian_inverts (f : Fit) (var u x : ℝ) (h1 : 0 ≤ f.hl) (h2 : 0 ≤ f.hr)
    (hlong : 0 < f.hl ∨ 0 < f.hr) (hs : f.scale ≠ 0) (hx : f.loc + f.scale * tukeyHH f.hl f.hr u = x) :
    (0 ≤ u → u ≤ scaleToGaussian f var x ∧ scaleToGaussian f var x ≤ u * (1 + 6 / 10 ^ 8)) ∧
    (u < 0 → scaleToGaussian f var x ≤ u ∧ u * (1 + 6 / 10 ^ 8) ≤ scaleToGaussian f var x) := by
  have he : scaleToGaussian f var x = inverseTukeyHH (tukeyHH f.hl f.hr u) f.hl f.hr := by
    unfold scaleToGaussian
    simp only
    rw [if_pos hlong, if_pos hs, ← hx]
    congr 1
    field_simp
    ring
  rw [he]
  obtain ⟨a, b⟩ := inverse_tukey_accurate f.hl f.hr u _ h1 h2 rfl
  exact ⟨fun h => ⟨(a h).1, (a h).2.1⟩, fun h => ⟨(b h).1, (b h).2.1⟩⟩

/-- A tail that is not long is only rescaled. -/
theorem light_side_is_rescaled (f : Fit) (var x : ℝ) (hlong : 0 < f.hl ∨ 0 < f.hr)
    (hs : 0 < f.scale) :
    (x < f.loc → f.hl ≤ 0 → scaleToGaussian f var x = (x - f.loc) / f.scale) ∧
    (f.loc ≤ x → f.hr ≤ 0 → scaleToGaussian f var x = (x - f.loc) / f.scale) := by
  have hone : ∀ z h : ℝ, h ≤ 0 → oneSide z h = z := by
    intro z h hh
    unfold oneSide
    simp only
    rw [if_pos]
    have : h * z ^ 2 ≤ 0 := mul_nonpos_of_nonpos_of_nonneg hh (sq_nonneg z)
    norm_num
    linarith
  unfold scaleToGaussian inverseTukeyHH
  simp only
  rw [if_pos hlong, if_pos hs.ne']
  constructor
  · intro hx hh
    rw [if_pos (div_neg_of_neg_of_pos (by linarith) hs), hone _ _ hh, neg_neg]
  · intro hx hh
    rw [if_neg (not_lt.2 (div_nonneg (by linarith) hs.le)), hone _ _ hh]

/-- **C71**, no long tails: the values are scaled to z-scores. -/
theorem light_tails_give_z_scores (shape : ℝ → ℝ → ℝ × ℝ) (l1 l2 l3 l4 quadruplets var x : ℝ)
    (hk : l2 ≤ 0 ∨ quadruplets ≤ 0 ∨ l4 / l2 < 0.1226017) :
    scaleToGaussian (fit shape l1 l2 l3 l4 quadruplets) var x
      = if Real.sqrt var = 0 then x - l1 else (x - l1) / Real.sqrt var := by
  have hp : ∀ s k, k < 0.1226017 → tukeyParams shape s k = (0, 0) :=
    fun s k h => tukey_params_light shape s k h
  have hk' : (if l2 > 0 ∧ quadruplets > 0 then l4 / l2 else 0) < 0.1226017 := by
    split
    · rename_i h
      rcases hk with h' | h' | h'
      · exact absurd h.1 (not_lt.2 h')
      · exact absurd h.2 (not_lt.2 h')
      · exact h'
    · norm_num
  have hm : (tukeyLMeanAndScale 0 0).1 = 0 := by
    unfold tukeyLMeanAndScale
    norm_num
  have hf : (fit shape l1 l2 l3 l4 quadruplets).hl = 0 ∧ (fit shape l1 l2 l3 l4 quadruplets).hr = 0 ∧
      (fit shape l1 l2 l3 l4 quadruplets).loc = l1 := by
    unfold fit
    simp only [hp _ _ hk', hm]
    simp
  obtain ⟨f1, f2, f3⟩ := hf
  unfold scaleToGaussian
  simp only [f1, f2, f3, gt_iff_lt, lt_irrefl, or_self, if_false]
  have hone : ∀ z : ℝ, inverseTukeyHH z 0 0 = z := by
    intro z
    unfold inverseTukeyHH oneSide
    norm_num
  rw [hone]
  by_cases h : Real.sqrt var = 0
  · rw [if_neg (not_not.2 h), if_pos h]
  · rw [if_pos h, if_neg h]

/-- An empty dataset leaves the values unchanged. -/
theorem nothing_leaves_values (shape : ℝ → ℝ → ℝ × ℝ) (x : ℝ) :
    scaleToGaussian (fit shape 0 0 0 0 0) 0 x = x := by
  rw [light_tails_give_z_scores _ _ _ _ _ _ _ _ (.inl le_rfl)]
  simp

theorem l_scale_pos (hl hr : ℝ) (h1 : hl < 1) (h2 : hr < 1) : 0 < (tukeyLMeanAndScale hl hr).2 := by
  unfold tukeyLMeanAndScale
  simp only
  have hpi := Real.pi_pos
  have a1 : 0 < Real.sqrt (2 - hl) := Real.sqrt_pos.2 (by linarith)
  have a2 : 0 < Real.sqrt (2 - hr) := Real.sqrt_pos.2 (by linarith)
  have a3 : 0 < Real.sqrt ((hl - 2) * (hr - 2)) := Real.sqrt_pos.2 (by nlinarith)
  have a4 : 0 < (hl - 1) * (hr - 1) := by nlinarith
  have a5 : 0 < Real.sqrt (2 * Real.pi) := Real.sqrt_pos.2 (by linarith)
  refine mul_pos (by positivity) (div_pos ?_ (by positivity))
  have b1 : 0 < (1 - hl) * Real.sqrt (2 - hl) := mul_pos (by linarith) a1
  have b2 : 0 < (1 - hr) * Real.sqrt (2 - hr) := mul_pos (by linarith) a2
  linarith

/-- The premises of `scale_to_gaussian_inverts` are met by a distribution with a long left tail, and
those of `lambert_w_accurate` and `inverse_tukey_accurate` for every number, by `lambert_exists` and
`tukey_inverse_exists`. -/
example : ∃ (f : Fit) (u x : ℝ), 0 ≤ f.hl ∧ 0 ≤ f.hr ∧ (0 < f.hl ∨ 0 < f.hr) ∧ f.scale ≠ 0 ∧
    f.loc + f.scale * tukeyHH f.hl f.hr u = x ∧ u < 0 ∧ 1 / 10 ^ 7 ≤ f.hl * x ^ 2 := by
  refine ⟨⟨0, 2, 1 / 10, 0⟩, -1, _, by norm_num, by norm_num, .inl (by norm_num), by norm_num, rfl,
    by norm_num, ?_⟩
  unfold tukeyHH
  rw [if_pos (by norm_num)]
  have := Real.one_le_exp (by norm_num : (0 : ℝ) ≤ 1 / 10 * (-1) ^ 2 / 2)
  nlinarith

end TFT.Numeric
