import Verif.Numeric.MutualInfo
import Mathlib.Data.Nat.Choose.Vandermonde
import Mathlib.Data.Nat.Choose.Basic
import Mathlib.Algebra.BigOperators.NatAntidiagonal
import Mathlib.Tactic.Linarith
import Mathlib.Tactic.FieldSimp
import Mathlib.Tactic.Ring
import Mathlib.Tactic.Positivity
import Mathlib.Data.List.Range

/-!
# The hypergeometric probabilities (C42)
-/

namespace TFT.Numeric

open Finset (antidiagonal)

/-- Specification: the hypergeometric probability of `k` common rows, for sets of `x` and `y` of `n`
rows. -/
noncomputable def hypergeometric (n x y k : ℕ) : ℝ :=
  (x.choose k * (n - x).choose (y - k) : ℕ) / (n.choose y : ℕ)

theorem logfactorial_nat (m : ℕ) : logfactorial m = .ok (Real.log (m.factorial)) := by
  unfold logfactorial
  rw [if_neg]
  · rw [Real.Gamma_nat_eq_factorial, abs_of_nonneg (by positivity)]
  · rintro ⟨k, hk⟩
    have h1 : (0 : ℝ) ≤ m := Nat.cast_nonneg m
    have h2 : (0 : ℝ) ≤ k := Nat.cast_nonneg k
    linarith

theorem pyLog_nat (m : ℕ) (h : 0 < m) : pyLog m = .ok (Real.log m) := by
  unfold pyLog
  rw [if_neg (not_le.2 (by exact_mod_cast h))]

/-- The changing part of the denominator. -/
def den (n x y k : ℕ) : ℕ :=
  k.factorial * (x - k).factorial * (y - k).factorial * (n + k - x - y).factorial

theorem den_pos (n x y k : ℕ) : 0 < den n x y k := by unfold den; positivity

/-- The numerator. -/
def num (n x y : ℕ) : ℕ :=
  x.factorial * y.factorial * (n - x).factorial * (n - y).factorial

theorem num_pos (n x y : ℕ) : 0 < num n x y := by unfold num; positivity

theorem hypergeometric_eq (n x y k : ℕ) (hx : x ≤ n) (hy : y ≤ n) (h1 : x + y ≤ n + k) (h2 : k ≤ x)
    (h3 : k ≤ y) : (num n x y : ℝ) / (n.factorial * den n x y k : ℕ) = hypergeometric n x y k := by
  unfold hypergeometric num den
  have c1 := Nat.choose_mul_factorial_mul_factorial h2
  have c2 := Nat.choose_mul_factorial_mul_factorial (show y - k ≤ n - x by omega)
  have c3 := Nat.choose_mul_factorial_mul_factorial hy
  have e : n - x - (y - k) = n + k - x - y := by omega
  rw [e] at c2
  have hc3 : (n.choose y : ℝ) ≠ 0 := by
    have := Nat.choose_pos hy
    positivity
  have hne : ∀ m : ℕ, (m.factorial : ℝ) ≠ 0 := fun m => by positivity
  have d1 : (x.choose k : ℝ) * k.factorial * (x - k).factorial = x.factorial := by exact_mod_cast c1
  have d2 : ((n - x).choose (y - k) : ℝ) * (y - k).factorial * (n + k - x - y).factorial
      = (n - x).factorial := by exact_mod_cast c2
  have d3 : (n.choose y : ℝ) * y.factorial * (n - y).factorial = n.factorial := by exact_mod_cast c3
  push_cast
  rw [div_eq_div_iff (by
    apply mul_ne_zero (hne _)
    exact mul_ne_zero (mul_ne_zero (mul_ne_zero (hne _) (hne _)) (hne _)) (hne _)) hc3,
    ← d1, ← d2, ← d3]
  ring

theorem den_succ (n x y k : ℕ) (h1 : x + y ≤ n + k) (h2 : k < x) (h3 : k < y) :
    Real.log (n.factorial * den n x y k : ℕ)
      + (Real.log (k + 1 : ℕ) - Real.log (x - k : ℕ) - Real.log (y - k : ℕ)
        + Real.log (n + k + 1 - x - y : ℕ))
      = Real.log (n.factorial * den n x y (k + 1) : ℕ) := by
  have hpos : ∀ m : ℕ, 0 < m → (m : ℝ) ≠ 0 := fun m h => by positivity
  have e1 : n.factorial * den n x y k * ((k + 1) * (n + k + 1 - x - y))
      = n.factorial * den n x y (k + 1) * ((x - k) * (y - k)) := by
    unfold den
    have f1 : (k + 1).factorial = (k + 1) * k.factorial := Nat.factorial_succ k
    have f2 : (x - k).factorial = (x - k) * (x - (k + 1)).factorial := by
      rw [show x - k = (x - (k + 1)) + 1 by omega, Nat.factorial_succ]
    have f3 : (y - k).factorial = (y - k) * (y - (k + 1)).factorial := by
      rw [show y - k = (y - (k + 1)) + 1 by omega, Nat.factorial_succ]
    have f4 : (n + (k + 1) - x - y).factorial = (n + k + 1 - x - y) * (n + k - x - y).factorial := by
      rw [show n + (k + 1) - x - y = (n + k - x - y) + 1 by omega, Nat.factorial_succ,
        show n + k + 1 - x - y = (n + k - x - y) + 1 by omega]
    rw [f1, f2, f3, f4]
    ring
  have e2 : ((n.factorial * den n x y k : ℕ) : ℝ) * (((k + 1 : ℕ) : ℝ) * ((n + k + 1 - x - y : ℕ) : ℝ))
      = ((n.factorial * den n x y (k + 1) : ℕ) : ℝ) * (((x - k : ℕ) : ℝ) * ((y - k : ℕ) : ℝ)) := by
    exact_mod_cast e1
  have p1 := hpos _ (Nat.mul_pos n.factorial_pos (den_pos n x y k))
  have p2 := hpos _ (Nat.mul_pos n.factorial_pos (den_pos n x y (k + 1)))
  have p3 := hpos (k + 1) (by omega)
  have p4 := hpos (n + k + 1 - x - y) (by omega)
  have p5 := hpos (x - k) (by omega)
  have p6 := hpos (y - k) (by omega)
  have := congrArg Real.log e2
  rw [Real.log_mul p1 (mul_ne_zero p3 p4), Real.log_mul p3 p4, Real.log_mul p2 (mul_ne_zero p5 p6),
    Real.log_mul p5 p6] at this
  linarith

theorem pmfLoop_eq (n x y : ℕ) (hx : x ≤ n) (hy : y ≤ n) (steps k : ℕ)
    (hk : steps = 0 ∨ k + steps = min x y + 1) (h1 : x + y ≤ n + k) :
    pmfLoop n x y (Real.log (num n x y)) (min x y : ℕ) steps k
        (Real.log (n.factorial * den n x y k : ℕ))
      = .ok ((List.range' k steps).map (fun j : ℕ => ((j : ℤ), hypergeometric n x y j))) := by
  induction steps generalizing k with
  | zero => rfl
  | succ steps ih =>
    have hk' : k + (steps + 1) = min x y + 1 := by omega
    have hkx : k ≤ x := by have := min_le_left x y; omega
    have hky : k ≤ y := by have := min_le_right x y; omega
    have hexp : Real.exp (Real.log (num n x y) - Real.log (n.factorial * den n x y k : ℕ))
        = hypergeometric n x y k := by
      have hd : (0 : ℝ) < (n.factorial * den n x y k : ℕ) := by
        have := Nat.mul_pos n.factorial_pos (den_pos n x y k)
        exact_mod_cast this
      have hn : (0 : ℝ) < (num n x y : ℝ) := by exact_mod_cast num_pos n x y
      rw [Real.exp_sub, Real.exp_log hn, Real.exp_log hd]
      exact hypergeometric_eq n x y k hx hy h1 hkx hky
    rw [List.range'_succ, List.map_cons]
    have hcast : ((k : ℤ) : ℝ) = (k : ℝ) := by simp
    simp only [pmfLoop]
    by_cases hlast : k = min x y
    · have hs : steps = 0 := by omega
      subst hs
      have hnd : nextDenominator n x y (k : ℤ) ((min x y : ℕ) : ℤ)
          (Real.log (n.factorial * den n x y k : ℕ))
          = .ok (Real.log (n.factorial * den n x y k : ℕ)) := by
        unfold nextDenominator
        rw [if_neg (by simp [hlast])]
      rw [hnd]
      simp only [pmfLoop, bind, Except.bind, pure, Except.pure, hexp]
      simp
    · have hkx' : k < x := by have := min_le_left x y; omega
      have hky' : k < y := by have := min_le_right x y; omega
      have hnd : nextDenominator n x y (k : ℤ) ((min x y : ℕ) : ℤ)
          (Real.log (n.factorial * den n x y k : ℕ))
          = .ok (Real.log (n.factorial * den n x y (k + 1) : ℕ)) := by
        unfold nextDenominator
        rw [if_pos (by exact_mod_cast hlast)]
        have a1 : ((k : ℤ) : ℝ) + 1 = ((k + 1 : ℕ) : ℝ) := by push_cast; ring
        have a2 : (x : ℝ) - ((k : ℤ) : ℝ) = ((x - k : ℕ) : ℝ) := by
          rw [Nat.cast_sub hkx]; simp
        have a3 : (y : ℝ) - ((k : ℤ) : ℝ) = ((y - k : ℕ) : ℝ) := by
          rw [Nat.cast_sub hky]; simp
        have a4 : (n : ℝ) - x - y + ((k : ℤ) : ℝ) + 1 = ((n + k + 1 - x - y : ℕ) : ℝ) := by
          rw [Nat.cast_sub (by omega), Nat.cast_sub (by omega)]
          push_cast; ring
        rw [a1, a2, a3, a4, pyLog_nat _ (by omega), pyLog_nat _ (by omega), pyLog_nat _ (by omega),
          pyLog_nat _ (by omega)]
        simp only [bind, Except.bind, pure, Except.pure, Except.ok.injEq]
        exact den_succ n x y k h1 hkx' hky'
      rw [hnd]
      have ih := ih (k + 1) (by right; omega) (by omega)
      have hk1 : (k : ℤ) + 1 = ((k + 1 : ℕ) : ℤ) := by push_cast; ring
      rw [hk1]
      simp only [bind, Except.bind]
      rw [ih]
      simp only [pure, Except.pure, hexp]

/-- **C42, formula** For whole numbers the probabilities are, in order, those of the textbook formula
for every number of common rows that is possible, and no error is raised. `round` must fix whole
numbers. -/
theorem pmf_is_hypergeometric (rnd : ℝ → ℤ) (hr : ∀ k : ℤ, rnd k = k) (n x y : ℕ) (hx : x ≤ n)
    (hy : y ≤ n) :
    hypergeometricPmf rnd n x y
      = .ok ((List.range' (x + y - n) (min x y + 1 - (x + y - n))).map
          (fun j : ℕ => ((j : ℤ), hypergeometric n x y j))) := by
  have hstart : rnd (max 0 ((x : ℝ) + y - n)) = ((x + y - n : ℕ) : ℤ) := by
    have : max 0 ((x : ℝ) + y - n) = (((x + y - n : ℕ) : ℤ) : ℝ) := by
      by_cases h : n ≤ x + y
      · rw [max_eq_right (by
          have : (n : ℝ) ≤ x + y := by exact_mod_cast h
          linarith)]
        simp [Nat.cast_sub h]
      · rw [max_eq_left (by
          have : (x : ℝ) + y ≤ n := by exact_mod_cast (not_le.1 h).le
          linarith)]
        rw [show x + y - n = 0 by omega]; simp
    rw [this, hr]
  have hlast : rnd (min (x : ℝ) y) = ((min x y : ℕ) : ℤ) := by
    have : min (x : ℝ) y = (((min x y : ℕ) : ℤ) : ℝ) := by simp
    rw [this, hr]
  unfold hypergeometricPmf
  simp only [hstart, hlast]
  set s := x + y - n with hs
  have hsx : s ≤ x := by omega
  have hsy : s ≤ y := by omega
  have a0 : (((s : ℕ) : ℤ) : ℝ) = (s : ℝ) := by simp
  have a1 : (n : ℝ) - x = ((n - x : ℕ) : ℝ) := by rw [Nat.cast_sub hx]
  have a2 : (n : ℝ) - y = ((n - y : ℕ) : ℝ) := by rw [Nat.cast_sub hy]
  have a3 : (x : ℝ) - s = ((x - s : ℕ) : ℝ) := by rw [Nat.cast_sub hsx]
  have a4 : (y : ℝ) - s = ((y - s : ℕ) : ℝ) := by rw [Nat.cast_sub hsy]
  have a5 : ((n - x : ℕ) : ℝ) - y + s = ((n + s - x - y : ℕ) : ℝ) := by
    rw [Nat.cast_sub (show y ≤ n + s - x by omega), Nat.cast_sub (show x ≤ n + s by omega), ← a1]
    push_cast; ring
  rw [a0, a1, a2, a3, a4, a5]
  simp only [logfactorial_nat, bind, Except.bind]
  have hnum : Real.log x.factorial + Real.log y.factorial + Real.log (n - x).factorial
      + Real.log (n - y).factorial = Real.log (num n x y) := by
    have hne : ∀ m : ℕ, (m.factorial : ℝ) ≠ 0 := fun m => by positivity
    unfold num
    push_cast
    rw [Real.log_mul (mul_ne_zero (mul_ne_zero (hne _) (hne _)) (hne _)) (hne _),
      Real.log_mul (mul_ne_zero (hne _) (hne _)) (hne _), Real.log_mul (hne _) (hne _)]
  have hden : Real.log n.factorial + Real.log s.factorial + Real.log (x - s).factorial
      + Real.log (y - s).factorial + Real.log (n + s - x - y).factorial
      = Real.log (n.factorial * den n x y s : ℕ) := by
    have hne : ∀ m : ℕ, (m.factorial : ℝ) ≠ 0 := fun m => by positivity
    unfold den
    push_cast
    rw [Real.log_mul (hne _) (mul_ne_zero (mul_ne_zero (mul_ne_zero (hne _) (hne _)) (hne _)) (hne _)),
      Real.log_mul (mul_ne_zero (mul_ne_zero (hne _) (hne _)) (hne _)) (hne _),
      Real.log_mul (mul_ne_zero (hne _) (hne _)) (hne _), Real.log_mul (hne _) (hne _)]
    ring
  rw [hnum, hden]
  have hsteps : ((((min x y : ℕ) : ℤ) + 1 - ((s : ℕ) : ℤ))).toNat = min x y + 1 - s := by omega
  rw [hsteps]
  refine pmfLoop_eq n x y hx hy _ s ?_ (by omega)
  right
  have := min_le_left x y
  have hmin : s ≤ min x y := le_min hsx hsy
  omega

/-- **C42, distribution** The probabilities are not negative and add up to 1. -/
theorem pmf_is_distribution (n x y : ℕ) (hx : x ≤ n) (hy : y ≤ n) :
    (∀ k, 0 ≤ hypergeometric n x y k) ∧
    ((List.range' (x + y - n) (min x y + 1 - (x + y - n))).map (hypergeometric n x y)).sum = 1 := by
  constructor
  · intro k
    unfold hypergeometric
    positivity
  · have hsum : ((List.range' (x + y - n) (min x y + 1 - (x + y - n))).map
        (fun k => x.choose k * (n - x).choose (y - k))).sum = n.choose y := by
      have hv := Nat.add_choose_eq x (n - x) y
      rw [show x + (n - x) = n by omega] at hv
      rw [hv, Finset.Nat.sum_antidiagonal_eq_sum_range_succ (fun i j => x.choose i * (n - x).choose j)]
      have hfin : ((List.range' (x + y - n) (min x y + 1 - (x + y - n))).map
          (fun k => x.choose k * (n - x).choose (y - k))).sum
          = ∑ k ∈ Finset.Ico (x + y - n) (min x y + 1), x.choose k * (n - x).choose (y - k) := by
        rfl
      rw [hfin]
      apply Finset.sum_subset
      · intro k hk
        rw [Finset.mem_Ico] at hk
        rw [Finset.mem_range]
        have := min_le_right x y
        omega
      · intro k hk1 hk2
        rw [Finset.mem_range] at hk1
        rw [Finset.mem_Ico] at hk2
        rcases Nat.lt_or_ge k (x + y - n) with h | h
        · rw [Nat.choose_eq_zero_of_lt (show n - x < y - k by omega), mul_zero]
        · have : x < k := by
            by_contra hcon
            exact hk2 ⟨h, by have : k ≤ min x y := le_min (by omega) (by omega); omega⟩
          rw [Nat.choose_eq_zero_of_lt this, zero_mul]
    have hmap : ((List.range' (x + y - n) (min x y + 1 - (x + y - n))).map
        (hypergeometric n x y)).sum
        = (((List.range' (x + y - n) (min x y + 1 - (x + y - n))).map
            (fun k => x.choose k * (n - x).choose (y - k))).sum : ℕ) / (n.choose y : ℝ) := by
      induction (List.range' (x + y - n) (min x y + 1 - (x + y - n))) with
      | nil => simp
      | cons k ks ih =>
        simp only [List.map_cons, List.sum_cons, ih, hypergeometric]
        push_cast
        ring
    rw [hmap, hsum, div_self]
    have := Nat.choose_pos hy
    positivity

/-- Specification: the expected mutual information of two sets of `x` and `y` of `n` rows. -/
noncomputable def expectedMi (n x y : ℕ) : ℝ :=
  ((List.range' (x + y - n) (min x y + 1 - (x + y - n))).map
    (fun k : ℕ => k * Real.logb 2 (n * k / (x * y)) * hypergeometric n x y k)).sum

theorem mapM_ok_map {α β : Type} (f : α → Except Err β) (g : α → β) (l : List α)
    (h : ∀ a ∈ l, f a = .ok (g a)) : l.mapM f = .ok (l.map g) := by
  induction l with
  | nil => rfl
  | cons a as ih =>
    rw [List.mapM_cons, h a (by simp), ih (fun b hb => h b (by simp [hb]))]
    rfl

/-- **C42, expectation** The partial expected mutual information of whole numbers is the expectation
of `k * log2 (n k / (x y))` under the hypergeometric distribution. -/
theorem partial_emi_exact (rnd : ℝ → ℤ) (hr : ∀ k : ℤ, rnd k = k) (n x y : ℕ) (hx : x ≤ n)
    (hy : y ≤ n) : partialEmi rnd n x y = .ok (expectedMi n x y) := by
  by_cases h0 : x = 0 ∨ y = 0
  · have hz : expectedMi n x y = 0 := by
      unfold expectedMi
      have : min x y = 0 := by omega
      rw [this, show x + y - n = 0 by omega]
      simp
    unfold partialEmi
    rw [if_pos (by simpa using h0), hz]
  · push Not at h0
    have hxp : (0 : ℝ) < x := by have := Nat.pos_of_ne_zero h0.1; exact_mod_cast this
    have hyp : (0 : ℝ) < y := by have := Nat.pos_of_ne_zero h0.2; exact_mod_cast this
    have hnp : (0 : ℝ) < n := by
      have : 0 < n := by have := Nat.pos_of_ne_zero h0.1; omega
      exact_mod_cast this
    unfold partialEmi
    rw [if_neg (by simpa using h0)]
    have l2 : ∀ z : ℝ, 0 < z → pyLog2 z = .ok (Real.logb 2 z) := fun z hz => by
      unfold pyLog2; rw [if_neg (not_le.2 hz)]
    rw [l2 _ hxp, l2 _ hyp, l2 _ hnp, pmf_is_hypergeometric rnd hr n x y hx hy]
    simp only [bind, Except.bind]
    rw [List.mapM_map, mapM_ok_map _
      (fun k : ℕ => k * Real.logb 2 (n * k / (x * y)) * hypergeometric n x y k)]
    · simp only [pure, Except.pure, Except.ok.injEq, List.map_map]
      have := (pmf_is_distribution n x y hx hy).2
      have hc : (Prod.snd ∘ fun j : ℕ => ((j : ℤ), hypergeometric n x y j)) = hypergeometric n x y :=
        rfl
      rw [hc, this, div_one]
      rfl
    · intro k _
      unfold emiTerm
      by_cases hk : k = 0
      · subst hk; simp
      · have hkp : (0 : ℝ) < k := by have := Nat.pos_of_ne_zero hk; exact_mod_cast this
        simp only [Function.comp]
        rw [if_pos (by simpa using hk)]
        have : pyLog2 (((k : ℕ) : ℤ) : ℝ) = .ok (Real.logb 2 k) := by
          have := l2 (k : ℝ) hkp
          simpa using this
        rw [this]
        simp only [bind, Except.bind, pure, Except.pure, Except.ok.injEq]
        rw [Real.logb_div (by positivity) (by positivity), Real.logb_mul (by positivity) (by positivity),
          Real.logb_mul (by positivity) (by positivity)]
        simp only [Int.cast_natCast]
        ring

/-- Ten rows, sets of 4 and 5. -/
example : (4 : ℕ) ≤ 10 ∧ (5 : ℕ) ≤ 10 ∧
    ((List.range' (4 + 5 - 10) (min 4 5 + 1 - (4 + 5 - 10))) = [0, 1, 2, 3, 4]) ∧
    hypergeometric 10 4 5 2 = 10 / 21 := by
  refine ⟨by norm_num, by norm_num, rfl, ?_⟩
  unfold hypergeometric
  norm_num [Nat.choose]

end TFT.Numeric
