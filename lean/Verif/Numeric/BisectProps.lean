import Verif.Numeric.Bisect
import Mathlib.Tactic.Linarith
import Mathlib.Tactic.NormNum
import Mathlib.Tactic.Ring
import Mathlib.Tactic.FieldSimp
import Mathlib.Tactic.Positivity
import Mathlib.Analysis.SpecialFunctions.Trigonometric.Arctan
import Mathlib.Analysis.SpecialFunctions.Trigonometric.Bounds
import Mathlib.Data.Rat.Floor

/-!
# Properties of the parameter search (C43, C55)
-/

namespace TFT.Numeric

section
variable {K : Type} [Field K] [LinearOrder K] [IsStrictOrderedRing K]

theorem step_inside (f : K → K) (low high : K) (h : low ≤ high) :
    low ≤ (bisectStep f low high).1 ∧ (bisectStep f low high).1 ≤ (bisectStep f low high).2 ∧
    (bisectStep f low high).2 ≤ high ∧
    (bisectStep f low high).2 - (bisectStep f low high).1 = (high - low) / 2 := by
  unfold bisectStep
  simp only
  have h1 : low ≤ (low + high) / 2 := by linarith
  have h2 : (low + high) / 2 ≤ high := by linarith
  split
  · exact ⟨h1, h2, le_refl _, by simp only; ring⟩
  · exact ⟨le_refl _, h1, h2, by simp only; ring⟩

/-- Every property of intervals that a bisection step keeps is kept by the search. -/
theorem loop_keeps (f : K → K) (P : K → K → Prop)
    (hstep : ∀ low high, P low high → P (bisectStep f low high).1 (bisectStep f low high).2)
    (left : Nat) (low high : K) (h : P low high) :
    P (bisectLoop f left low high).1 (bisectLoop f left low high).2 := by
  induction left generalizing low high with
  | zero => exact hstep low high h
  | succ left ih =>
    simp only [bisectLoop]
    split
    · exact hstep low high h
    · exact ih _ _ (hstep low high h)

/-- **C43, inside** The resulting bracket is inside the given interval. -/
theorem search_inside (f : K → K) (low high : K) (h : low ≤ high) :
    low ≤ (binarySearch f low high).1 ∧
    (binarySearch f low high).1 ≤ (binarySearch f low high).2 ∧
    (binarySearch f low high).2 ≤ high := by
  have := loop_keeps f (fun a b => low ≤ a ∧ a ≤ b ∧ b ≤ high)
    (fun a b hab => by
      obtain ⟨h1, h2, h3, _⟩ := step_inside f a b hab.2.1
      exact ⟨hab.1.trans h1, h2, h3.trans hab.2.2⟩) 10 low high ⟨le_refl _, h, le_refl _⟩
  exact this

theorem loop_width (f : K → K) (left : Nat) (low high : K) (h : low ≤ high) :
    ∃ k, 1 ≤ k ∧ k ≤ left + 1 ∧
      (bisectLoop f left low high).2 - (bisectLoop f left low high).1 = (high - low) / 2 ^ k ∧
      (k = left + 1 ∨
       (bisectLoop f left low high).2 - (bisectLoop f left low high).1 < tolerance ∨
       |f (bisectLoop f left low high).1| < tolerance ∨
       |f (bisectLoop f left low high).2| < tolerance) := by
  induction left generalizing low high with
  | zero =>
    exact ⟨1, le_refl _, le_refl _, by simpa [bisectLoop] using (step_inside f low high h).2.2.2,
      Or.inl rfl⟩
  | succ left ih =>
    obtain ⟨h1, h2, h3, h4⟩ := step_inside f low high h
    simp only [bisectLoop]
    split
    · rename_i hstop
      refine ⟨1, le_refl _, by omega, by simpa using h4, Or.inr ?_⟩
      rcases hstop with he | hw
      · right
        unfold bisectStep
        simp only
        split
        · exact Or.inl he
        · exact Or.inr he
      · exact Or.inl hw
    · obtain ⟨k, k1, k2, k3, k4⟩ := ih _ _ h2
      refine ⟨k + 1, by omega, by omega, ?_, ?_⟩
      · rw [k3, h4, pow_succ]
        field_simp
      · rcases k4 with rfl | k4
        · exact Or.inl rfl
        · exact Or.inr k4

/-- **C43, halving** The interval is halved between one and eleven times; fewer than eleven only if
it became shorter than the tolerance or the error at an end is within the tolerance. -/
theorem search_width (f : K → K) (low high : K) (h : low ≤ high) :
    ∃ k, 1 ≤ k ∧ k ≤ 11 ∧
      (binarySearch f low high).2 - (binarySearch f low high).1 = (high - low) / 2 ^ k ∧
      (k = 11 ∨
       (binarySearch f low high).2 - (binarySearch f low high).1 < 1 / 1000000 ∨
       |f (binarySearch f low high).1| < 1 / 1000000 ∨
       |f (binarySearch f low high).2| < 1 / 1000000) :=
  loop_width f 10 low high h

/-- **C43, signs** If the error is negative at the low end and not negative at the high end, the same
is true of the result, for any error function. -/
theorem search_signs (f : K → K) (low high : K) (h1 : f low < 0) (h2 : 0 ≤ f high) :
    f (binarySearch f low high).1 < 0 ∧ 0 ≤ f (binarySearch f low high).2 := by
  refine loop_keeps f (fun a b => f a < 0 ∧ 0 ≤ f b) ?_ 10 low high ⟨h1, h2⟩
  rintro a b ⟨ha, hb⟩
  unfold bisectStep
  simp only
  split
  · exact ⟨by assumption, hb⟩
  · exact ⟨ha, by simpa using (not_lt.1 (by assumption))⟩

/-- **C43, roots** If the error function is monotone and has a root in the interval, the resulting
bracket has a root in it. -/
theorem search_root (f : K → K) (hf : Monotone f) (low high r : K) (hlow : low ≤ r) (hhigh : r ≤ high)
    (hr : f r = 0) :
    ∃ r', f r' = 0 ∧ (binarySearch f low high).1 ≤ r' ∧ r' ≤ (binarySearch f low high).2 := by
  refine loop_keeps f (fun a b => ∃ r', f r' = 0 ∧ a ≤ r' ∧ r' ≤ b) ?_ 10 low high
    ⟨r, hr, hlow, hhigh⟩
  rintro a b ⟨r', h1, h2, h3⟩
  unfold bisectStep
  simp only
  split
  · rename_i hneg
    refine ⟨r', h1, ?_, h3⟩
    by_contra hlt
    have := hf (le_of_lt (not_le.1 hlt))
    rw [h1] at this
    exact absurd hneg (not_lt.2 this)
  · rename_i hpos
    by_cases hle : r' ≤ (a + b) / 2
    · exact ⟨r', h1, h2, hle⟩
    · refine ⟨(a + b) / 2, ?_, by linarith, le_refl _⟩
      have := hf (le_of_lt (not_le.1 hle))
      rw [h1] at this
      exact le_antisymm this (not_lt.1 hpos)

/-- **C43, the root** If the error function is strictly increasing its root stays in the bracket. -/
theorem search_strict_root (f : K → K) (hf : StrictMono f) (low high r : K) (hlow : low ≤ r)
    (hhigh : r ≤ high) (hr : f r = 0) :
    (binarySearch f low high).1 ≤ r ∧ r ≤ (binarySearch f low high).2 := by
  obtain ⟨r', h1, h2, h3⟩ := search_root f hf.monotone low high r hlow hhigh hr
  have : r' = r := hf.injective (h1.trans hr.symm)
  exact this ▸ ⟨h2, h3⟩

/-- **C43, documentation** The documented result "still satisfying the starting condition"
`error_fn(high_value) > 0` is not always so: the error can be zero at the high end. -/
theorem high_error_may_be_zero : binarySearch (fun x : ℚ => x - 1) 0 2 = (0, 1) := by
  decide +kernel

/-- A search for a third between 0 and 1. -/
example : binarySearch (fun x : ℚ => 3 * x - 1) 0 1 = (341/1024, 683/2048) := by decide +kernel

/-! ## The search for the parameters -/

/-- The invariant of the search: the differences lie below all values of `h`. -/
def Search.Valid (s : Search K) (bound : K) : Prop :=
  0 ≤ s.minDelta ∧ s.minDelta ≤ s.maxDelta ∧ s.maxDelta ≤ s.minH ∧ s.minH ≤ s.maxH ∧
  s.maxH ≤ bound ∧ s.minDelta ≤ s.delta ∧ s.delta ≤ s.maxDelta ∧ s.minH ≤ s.h ∧ s.h ≤ s.maxH

theorem searchStep_valid (e1 e2 : K → K → K) (s : Search K) (bound : K) (h : s.Valid bound) :
    (searchStep e1 e2 s).Valid bound := by
  obtain ⟨v1, v2, v3, v4, v5, v6, v7, v8, v9⟩ := h
  unfold searchStep
  split
  · obtain ⟨a1, a2, a3⟩ := search_inside (e1 s.h) s.minDelta s.maxDelta v2
    simp only
    set d1 := (binarySearch (e1 s.h) s.minDelta s.maxDelta).2
    obtain ⟨b1, b2, b3⟩ := search_inside (fun x => e2 x d1) s.minH s.maxH v4
    set h1 := (binarySearch (fun x => e2 x d1) s.minH s.maxH).2
    obtain ⟨c1, c2, c3⟩ := search_inside (e1 h1) s.minDelta d1 (a1.trans a2)
    set d2 := (binarySearch (e1 h1) s.minDelta d1).1
    obtain ⟨f1, f2, f3⟩ := search_inside (fun x => e2 x d2) s.minH h1 (b1.trans b2)
    set h2 := (binarySearch (fun x => e2 x d2) s.minH h1).1
    exact ⟨v1.trans c1, c2.trans c3, (a3.trans v3).trans f1, f2.trans f3, b3.trans v5, le_refl _,
      c2.trans c3, le_refl _, f2.trans f3⟩
  · simp only
    obtain ⟨b1, b2, b3⟩ := search_inside (fun x => e2 x s.maxDelta) s.minH s.maxH v4
    set h1 := (binarySearch (fun x => e2 x s.maxDelta) s.minH s.maxH).1
    exact ⟨v1.trans v2, v3.trans b1, le_refl _, b2.trans b3, v5, le_refl _, v3.trans b1, le_refl _,
      b2.trans b3⟩

theorem searchLoop_valid (e1 e2 : K → K → K) (bound : K) (left : Nat) (p q : K) (s : Search K)
    (h : s.Valid bound) : (searchLoop e1 e2 left p q s).Valid bound := by
  induction left generalizing p q s with
  | zero => exact h
  | succ left ih =>
    simp only [searchLoop]
    split
    · exact searchStep_valid e1 e2 s bound h
    · exact ih _ _ _ (searchStep_valid e1 e2 s bound h)

/-- **C55** The search stops exactly after the first pass whose parameters have both errors within
the tolerance, or after which neither parameter moved by more than the tolerance; at the latest
when no passes are left. `pass k` is the state after `k` passes. -/
theorem search_stops (e1 e2 : K → K → K) (left : Nat) (s : Search K) (pass : Nat → Search K)
    (h0 : pass 0 = s) (hpass : ∀ k, pass (k + 1) = searchStep e1 e2 (pass k))
    (tol : K) (htol : tol = 1 / 1000000)
    (done : Nat → Prop) (hdone : ∀ k, done k ↔
      (|e1 (pass k).h (pass k).delta| < tol ∧ |e2 (pass k).h (pass k).delta| < tol) ∨
      (|(pass k).h - if k = 1 then 0 else (pass (k - 1)).h| < tol ∧
       |(pass k).delta - if k = 1 then 0 else (pass (k - 1)).delta| < tol)) :
    ∃ k, searchLoop e1 e2 left 0 0 s = pass k ∧ k ≤ left ∧ (k = left ∨ done k) ∧
      ∀ j, 1 ≤ j → j < k → ¬ done j := by
  subst htol
  have key : ∀ (left m : Nat) (p q : K), (p = if m = 0 then 0 else (pass m).h) →
      (q = if m = 0 then 0 else (pass m).delta) →
      ∃ k, searchLoop e1 e2 left p q (pass m) = pass k ∧ m ≤ k ∧ k ≤ m + left ∧
        (k = m + left ∨ done k) ∧ ∀ j, m < j → j < k → ¬ done j := by
    intro left
    induction left with
    | zero =>
      intro m p q _ _
      exact ⟨m, rfl, le_refl _, by omega, .inl rfl, fun j h1 h2 => absurd h2 (by omega)⟩
    | succ left ih =>
      intro m p q hp hq
      have hd : done (m + 1) ↔
          (|e1 (searchStep e1 e2 (pass m)).h (searchStep e1 e2 (pass m)).delta| < tolerance ∧
            |e2 (searchStep e1 e2 (pass m)).h (searchStep e1 e2 (pass m)).delta| < tolerance) ∨
          (|(searchStep e1 e2 (pass m)).h - p| < tolerance ∧
            |(searchStep e1 e2 (pass m)).delta - q| < tolerance) := by
        rw [hdone, hpass, hp, hq]
        simp [tolerance]
      simp only [searchLoop]
      split
      · rename_i hc
        exact ⟨m + 1, (hpass m).symm, by omega, by omega, .inr (hd.2 hc),
          fun j h1 h2 => absurd h2 (by omega)⟩
      · rename_i hc
        obtain ⟨k, k1, k2, k3, k4, k5⟩ := ih (m + 1) (pass (m + 1)).h (pass (m + 1)).delta
          (by simp) (by simp)
        refine ⟨k, ?_, by omega, by omega, ?_, ?_⟩
        · rw [← k1, hpass m]
        · rcases k4 with k4 | k4
          · exact .inl (by omega)
          · exact .inr k4
        · intro j h1 h2
          by_cases hj : j = m + 1
          · subst hj; exact fun hn => hc (hd.1 hn)
          · exact k5 j (by omega) h2
  obtain ⟨k, k1, _, k3, k4, k5⟩ := key left 0 0 0 (by simp) (by simp)
  rw [h0] at k1
  exact ⟨k, k1, by omega, by simpa using k4, fun j h1 h2 => k5 j (by omega) h2⟩

/-- The states after each pass that `search_stops` speaks of exist. -/
example : ∃ pass : Nat → Search ℚ, pass 0 = ⟨0, 0, 0, 0, 1, 1⟩ ∧
    (∀ k, pass (k + 1) = searchStep (fun h d => h - 2 * d) (fun h _ => h - 1 / 3) (pass k)) ∧
    pass 1 ≠ pass 0 :=
  ⟨fun k => (searchStep (fun h d => h - 2 * d) (fun h _ => h - 1 / 3))^[k] ⟨0, 0, 0, 0, 1, 1⟩, rfl,
    fun k => Function.iterate_succ_apply' _ k _, by
      intro h
      have := congrArg Search.h h
      revert this
      decide +kernel⟩

end

/-- The L-kurtosis of a Gaussian. -/
noncomputable def gaussianLKurtosis : ℝ := 30 / Real.pi * Real.arctan (Real.sqrt 2) - 9

theorem cos_at_gaussian : Real.cos (Real.pi / 15 * (gaussianLKurtosis - 6)) = 1 / 3 := by
  have hpi : Real.pi ≠ 0 := Real.pi_ne_zero
  have e : Real.pi / 15 * (gaussianLKurtosis - 6) = 2 * Real.arctan (Real.sqrt 2) - Real.pi := by
    unfold gaussianLKurtosis
    field_simp
    ring
  rw [e, Real.cos_sub_pi, Real.cos_two_mul, Real.cos_arctan]
  rw [div_pow, Real.sq_sqrt (by positivity), Real.sq_sqrt (by positivity)]
  norm_num

/-- The L-kurtosis of a Gaussian gives `h = 0`. -/
theorem initialH_gaussian : initialH gaussianLKurtosis = 0 := by
  unfold initialH
  rw [cos_at_gaussian]; norm_num

theorem initialH_bounds (k : ℝ) (h1 : gaussianLKurtosis ≤ k) (h2 : k ≤ 1 - 1.0e-5) :
    0 ≤ initialH k ∧ initialH k ≤ 1 - 1.0e-7 := by
  have hpi := Real.pi_pos
  have hanti := Real.strictAntiOn_cos.antitoneOn
  have hg0 : 0 ≤ gaussianLKurtosis + 9 := by
    unfold gaussianLKurtosis
    have : 0 ≤ Real.arctan (Real.sqrt 2) := Real.arctan_nonneg.2 (Real.sqrt_nonneg 2)
    have : 0 ≤ 30 / Real.pi * Real.arctan (Real.sqrt 2) := by positivity
    linarith
  -- the angle, made positive
  have hcos : Real.cos (Real.pi / 15 * (k - 6)) = Real.cos (Real.pi / 15 * (6 - k)) := by
    rw [← Real.cos_neg]; congr 1; ring
  have hmem : ∀ x : ℝ, -9 ≤ x → x ≤ 6 → Real.pi / 15 * (6 - x) ∈ Set.Icc 0 Real.pi := by
    intro x hx1 hx2
    constructor
    · have : 0 ≤ 6 - x := by linarith
      positivity
    · have : 6 - x ≤ 15 := by linarith
      calc Real.pi / 15 * (6 - x) ≤ Real.pi / 15 * 15 := by
            apply mul_le_mul_of_nonneg_left this; positivity
        _ = Real.pi := by ring
  have hk6 : k ≤ 6 := by norm_num at h2; linarith
  have hlow : (1 : ℝ) / 3 ≤ Real.cos (Real.pi / 15 * (k - 6)) := by
    rw [hcos]
    have e : Real.cos (Real.pi / 15 * (6 - gaussianLKurtosis)) = 1 / 3 := by
      rw [← cos_at_gaussian, ← Real.cos_neg]; congr 1; ring
    rw [← e]
    apply hanti (hmem k (by linarith) hk6) (hmem _ (by linarith) (by linarith))
    apply mul_le_mul_of_nonneg_left _ (by positivity)
    linarith
  have hup : Real.cos (Real.pi / 15 * (k - 6)) ≤ 1 / (2 + 1.0e-7) := by
    rw [hcos]
    have hstep : Real.cos (Real.pi / 15 * (6 - k)) ≤
        Real.cos (Real.pi / 15 * (6 - (1 - 1.0e-5))) := by
      apply hanti (hmem _ (by norm_num) (by norm_num)) (hmem k (by linarith) hk6)
      apply mul_le_mul_of_nonneg_left _ (by positivity)
      linarith
    refine hstep.trans ?_
    have e : Real.pi / 15 * (6 - (1 - 1.0e-5)) = Real.pi / 3 + Real.pi / 1500000 := by
      norm_num; ring
    rw [e, Real.cos_add, Real.cos_pi_div_three, Real.sin_pi_div_three]
    have hsin : (2 : ℝ) / Real.pi * (Real.pi / 1500000) ≤ Real.sin (Real.pi / 1500000) :=
      Real.mul_le_sin (by positivity) (by
        apply div_le_div_of_nonneg_left hpi.le (by norm_num) (by norm_num))
    have e2 : (2 : ℝ) / Real.pi * (Real.pi / 1500000) = 1 / 750000 := by field_simp; norm_num
    rw [e2] at hsin
    have hc : Real.cos (Real.pi / 1500000) ≤ 1 := Real.cos_le_one _
    have hs3 : (1 : ℝ) ≤ Real.sqrt 3 := by
      rw [show (1 : ℝ) = Real.sqrt 1 by simp]
      exact Real.sqrt_le_sqrt (by norm_num)
    have hprod : (1 : ℝ) / 2 * (1 / 750000) ≤ Real.sqrt 3 / 2 * Real.sin (Real.pi / 1500000) := by
      apply mul_le_mul _ hsin (by norm_num) (by positivity)
      linarith
    have : (1 : ℝ) / 2 - 1 / 1500000 ≤ 1 / (2 + 1.0e-7) := by norm_num
    linarith
  have hpos : 0 < Real.cos (Real.pi / 15 * (k - 6)) := lt_of_lt_of_le (by norm_num) hlow
  unfold initialH
  constructor
  · have : 1 / Real.cos (Real.pi / 15 * (k - 6)) ≤ 3 := by
      rw [div_le_iff₀ hpos]; linarith
    linarith
  · have : 2 + 1.0e-7 ≤ 1 / Real.cos (Real.pi / 15 * (k - 6)) := by
      rw [le_div_iff₀ hpos]
      rw [le_div_iff₀ (by norm_num)] at hup
      linarith
    linarith

/-- **C55** Whatever the error functions are, the parameters found for an L-kurtosis of at least that
of a Gaussian are in the range `0 ≤ h < 1` that a Tukey HH distribution needs; the tail on the side of
the skewness has the larger one. -/
theorem tukey_params_valid_partial (shape : ℝ → ℝ → ℝ × ℝ) (skewness kurtosis : ℝ)
    (h : gaussianLKurtosis ≤ kurtosis) :
    0 ≤ (tukeyParams shape skewness kurtosis).1 ∧ (tukeyParams shape skewness kurtosis).1 < 1 ∧
    0 ≤ (tukeyParams shape skewness kurtosis).2 ∧ (tukeyParams shape skewness kurtosis).2 < 1 ∧
    (0 ≤ skewness →
      (tukeyParams shape skewness kurtosis).1 ≤ (tukeyParams shape skewness kurtosis).2) ∧
    (skewness < 0 →
      (tukeyParams shape skewness kurtosis).2 ≤ (tukeyParams shape skewness kurtosis).1) := by
  unfold tukeyParams
  by_cases hk : kurtosis < 0.1226017
  · simp only [if_pos hk]
    norm_num
  · simp only [if_neg hk]
    have hg : gaussianLKurtosis ≤ 1 - 1.0e-5 := by
      have hpi := Real.pi_pos
      have hat : Real.arctan (Real.sqrt 2) ≤ Real.pi / 3 := by
        rw [← Real.arctan_tan (x := Real.pi / 3) (by linarith) (by linarith)]
        apply Real.arctan_strictMono.monotone
        rw [Real.tan_pi_div_three]
        exact Real.sqrt_le_sqrt (by norm_num)
      by_contra hcon
      -- then the cosine at the bound would be at least 1/3 while it is close to 1/2
      have hcos := cos_at_gaussian
      have e : Real.pi / 15 * (gaussianLKurtosis - 6) = -(Real.pi / 15 * (6 - gaussianLKurtosis)) := by
        ring
      rw [e, Real.cos_neg] at hcos
      have hanti := Real.strictAntiOn_cos.antitoneOn
      have h7 : gaussianLKurtosis ≤ 1 := by
        unfold gaussianLKurtosis
        have : 30 / Real.pi * Real.arctan (Real.sqrt 2) ≤ 30 / Real.pi * (Real.pi / 3) :=
          mul_le_mul_of_nonneg_left hat (by positivity)
        have e3 : 30 / Real.pi * (Real.pi / 3) = 10 := by field_simp; norm_num
        linarith
      have h8 : 1 - 1.0e-5 < gaussianLKurtosis := not_le.1 hcon
      have hm1 : Real.pi / 15 * (6 - gaussianLKurtosis) ∈ Set.Icc 0 Real.pi := by
        constructor
        · have : 0 ≤ 6 - gaussianLKurtosis := by linarith
          positivity
        · have : 6 - gaussianLKurtosis ≤ 15 := by norm_num at h8; linarith
          calc Real.pi / 15 * (6 - gaussianLKurtosis) ≤ Real.pi / 15 * 15 := by
                apply mul_le_mul_of_nonneg_left this; positivity
            _ = Real.pi := by ring
      have hm2 : Real.pi / 15 * 5.1 ∈ Set.Icc 0 Real.pi := by
        constructor
        · positivity
        · nlinarith
      have h9 : Real.cos (Real.pi / 15 * 5.1) ≤ Real.cos (Real.pi / 15 * (6 - gaussianLKurtosis)) := by
        apply hanti hm1 hm2
        apply mul_le_mul_of_nonneg_left _ (by positivity)
        norm_num at h8 ⊢
        linarith
      rw [hcos] at h9
      have h10 : (1 : ℝ) / 2 - 0.1 < Real.cos (Real.pi / 15 * 5.1) := by
        have e5 : Real.pi / 15 * 5.1 = Real.pi / 3 + Real.pi / 150 := by norm_num; ring
        rw [e5, Real.cos_add, Real.cos_pi_div_three, Real.sin_pi_div_three]
        have hpi4 : Real.pi ≤ 4 := Real.pi_le_four
        have hs : Real.sin (Real.pi / 150) ≤ Real.pi / 150 := Real.sin_le (by positivity)
        have hs0 : 0 ≤ Real.sin (Real.pi / 150) :=
          Real.sin_nonneg_of_nonneg_of_le_pi (by positivity) (by linarith)
        have hc : 1 - (Real.pi / 150) ^ 2 / 2 ≤ Real.cos (Real.pi / 150) := Real.one_sub_sq_div_two_le_cos
        have hs3 : Real.sqrt 3 ≤ 2 := by
          rw [show (2 : ℝ) = Real.sqrt 4 by
            rw [show (4 : ℝ) = 2 ^ 2 by norm_num, Real.sqrt_sq (by norm_num)]]
          exact Real.sqrt_le_sqrt (by norm_num)
        have hp1 : Real.sqrt 3 / 2 * Real.sin (Real.pi / 150) ≤ 1 * (4 / 150) := by
          apply mul_le_mul (by linarith) (by linarith) hs0 (by norm_num)
        have hp2 : (Real.pi / 150) ^ 2 ≤ (4 / 150) ^ 2 := by
          apply pow_le_pow_left₀ (by positivity); linarith
        norm_num at hp2 ⊢
        linarith
      norm_num at h10
      linarith
    obtain ⟨b1, b2⟩ := initialH_bounds (min kurtosis (1 - 1.0e-5)) (le_min h hg) (min_le_right _ _)
    have hv := searchLoop_valid
      (fun h delta => (shape (h - delta) h).1 - if skewness < 0 then -skewness else skewness)
      (fun h delta => (shape (h - delta) h).2 - min kurtosis (1 - 1.0e-5))
      (1 - 1.0e-7) 20 0 0
      { h := initialH (min kurtosis (1 - 1.0e-5)), delta := 0
        minH := initialH (min kurtosis (1 - 1.0e-5)), minDelta := 0, maxH := 1 - 1.0e-7
        maxDelta := initialH (min kurtosis (1 - 1.0e-5)) }
      ⟨le_refl _, b1, le_refl _, b2, le_refl _, le_refl _, b1, le_refl _, b2⟩
    set s := searchLoop
      (fun h delta => (shape (h - delta) h).1 - if skewness < 0 then -skewness else skewness)
      (fun h delta => (shape (h - delta) h).2 - min kurtosis (1 - 1.0e-5)) 20 0 0
      { h := initialH (min kurtosis (1 - 1.0e-5)), delta := 0
        minH := initialH (min kurtosis (1 - 1.0e-5)), minDelta := 0, maxH := 1 - 1.0e-7
        maxDelta := initialH (min kurtosis (1 - 1.0e-5)) }
    obtain ⟨v1, v2, v3, v4, v5, v6, v7, v8, v9⟩ := hv
    have hd0 : 0 ≤ s.delta := v1.trans v6
    have hle : 0 ≤ s.h - s.delta := by linarith
    have hlt : s.h < 1 := by norm_num at v5; linarith
    by_cases hsw : skewness < 0
    · simp only [hsw, decide_true, if_true] 
      exact ⟨by linarith, hlt, hle, by linarith, fun h => absurd hsw (not_lt.2 h),
        fun _ => by linarith⟩
    · simp only [hsw, decide_false, if_false, Bool.false_eq_true] 
      exact ⟨hle, by linarith, by linarith, hlt, fun _ => by linarith,
        fun h => h.elim⟩

/-- **C55, light tails** Below the L-kurtosis of a Gaussian (to seven digits) both parameters are
zero. -/
theorem tukey_params_light (shape : ℝ → ℝ → ℝ × ℝ) (skewness kurtosis : ℝ)
    (h : kurtosis < 0.1226017) : tukeyParams shape skewness kurtosis = (0, 0) := by
  unfold tukeyParams
  rw [if_pos h]

/-- A kurtosis that meets the hypothesis of `tukey_params_valid_partial`: the maximum. -/
example : gaussianLKurtosis ≤ 2 := by
  unfold gaussianLKurtosis
  have hpi := Real.pi_pos
  have : 30 / Real.pi * Real.arctan (Real.sqrt 2) ≤ 30 / Real.pi * (Real.pi / 3) := by
    apply mul_le_mul_of_nonneg_left _ (by positivity)
    rw [← Real.arctan_tan (x := Real.pi / 3) (by linarith) (by linarith)]
    apply Real.arctan_strictMono.monotone
    rw [Real.tan_pi_div_three]
    exact Real.sqrt_le_sqrt (by norm_num)
  have e3 : 30 / Real.pi * (Real.pi / 3) = 10 := by field_simp; norm_num
  linarith

end TFT.Numeric
