import Verif.Combine.Covariance
import Verif.Combine.SchedLemmas
import Mathlib.Tactic.FieldSimp
import Mathlib.Tactic.Ring
import Mathlib.Algebra.Order.Field.Rat
import Mathlib.Data.Fin.VecNotation

/-! # C04: the covariance does not depend on the schedule -/

namespace TFT

namespace Spec

/-- Average of `f` over the rows. -/
def avg {d : Nat} (rows : List (Fin d → ℚ)) (f : (Fin d → ℚ) → ℚ) : ℚ :=
  (rows.map f).sum / rows.length

/-- The covariance matrix of `tft.covariance`'s documentation:
`M[i,j] = E[(x_i - u_i)(x_j - u_j)]` with `u` the mean. -/
def cov {d : Nat} (rows : List (Fin d → ℚ)) (i j : Fin d) : ℚ :=
  avg rows (fun x => (x i - avg rows (fun y => y i)) * (x j - avg rows (fun y => y j)))

end Spec

open Spec

variable {d : Nat}

/-- The accumulator holds the sums over `batches`. -/
def CovInv (a : CovAcc d) (batches : List (List (Vec d))) : Prop :=
  (∀ i j, a.sumProduct i j = (batches.flatten.map (fun r => r i * r j)).sum) ∧
  (∀ i, a.sumVectors i = (batches.flatten.map (fun r => r i)).sum) ∧
  a.count = batches.flatten.length

theorem cov_total : Sched.Total (covCombiner d) (fun _ => True) CovInv where
  create := by simp [CovInv, covCombiner, covCreate]
  add := by
    intro a l b ⟨h1, h2, h3⟩ _
    exact ⟨_, rfl, by simp [covAdd, h1], by simp [covAdd, h2], by simp [covAdd, h3]⟩
  merge := by
    intro as ls hne h
    refine ⟨_, by simp only [covCombiner, covMerge]; rw [if_neg (by simpa using hne)], ?_⟩
    clear hne
    induction h with
    | nil => simp [CovInv]
    | cons h1 _ ih =>
      obtain ⟨a1, a2, a3⟩ := h1
      obtain ⟨b1, b2, b3⟩ := ih
      refine ⟨?_, ?_, ?_⟩
      · intro i j
        have := b1 i j
        simp only at this
        simp only [List.map_cons, List.sum_cons, a1, this, List.flatten_cons,
          List.flatten_append, List.map_append, List.sum_append]
      · intro i
        have := b2 i
        simp only at this
        simp only [List.map_cons, List.sum_cons, a2, this, List.flatten_cons,
          List.flatten_append, List.map_append, List.sum_append]
      · simp only at b3
        simp only [List.map_cons, List.sum_cons, a3, b3, List.flatten_cons,
          List.flatten_append, List.length_append, Nat.cast_add]
  compact := fun a _ h => ⟨a, rfl, h⟩

theorem sum_cross (rows : List (Vec d)) (i j : Fin d) (u v : ℚ) :
    (rows.map (fun x => (x i - u) * (x j - v))).sum
      = (rows.map (fun x => x i * x j)).sum - v * (rows.map (fun x => x i)).sum
        - u * (rows.map (fun x => x j)).sum + rows.length * u * v := by
  induction rows with
  | nil => simp
  | cons x rows ih =>
    simp only [List.map_cons, List.sum_cons, ih, List.length_cons]; push_cast; ring

/-- **C04**. Every allowed run returns the covariance matrix of all rows of all batches; for
an empty dataset it is zero. -/
theorem covariance_schedule_independent (s1 : List (Sched (List (Vec d)))) (s2 : Sched Nat)
    (hv : ValidRun s1 s2) :
    ∃ m, analysis (covCombiner d) s1 s2 = .ok m ∧
      ((allInputs s1).flatten = [] → ∀ i j, m i j = 0) ∧
      ((allInputs s1).flatten ≠ [] → ∀ i j, m i j = cov (allInputs s1).flatten i j) := by
  obtain ⟨final, hfin, h1, h2, h3⟩ := analysis_total cov_total (by
    rintro a l l' h ⟨h1, h2, h3⟩
    have hp := h.flatten
    refine ⟨fun i j => ?_, fun i => ?_, ?_⟩
    · rw [h1, (hp.map _).sum_eq]
    · rw [h2, (hp.map _).sum_eq]
    · rw [h3, hp.length_eq]) s1 s2 hv (by simp)
  refine ⟨covExtract final, hfin, ?_, ?_⟩
  · intro he i j
    have : final.count = 0 := by rw [h3, he]; simp
    simp [covExtract, this]
  · intro hne i j
    have hc : ((allInputs s1).flatten.length : ℚ) ≠ 0 := by
      have := List.length_pos_iff.2 hne
      exact_mod_cast (by omega : (allInputs s1).flatten.length ≠ 0)
    have hc' : final.count ≠ 0 := by rw [h3]; exact hc
    unfold covExtract
    rw [if_neg hc']
    simp only [h1, h2, h3, cov, avg, sum_cross]
    field_simp
    ring

/-- The premises are met by two datasets, with an empty batch, merged in the other order. -/
example : ValidRun (In := List (Vec 2))
    [.add (.add .create [![1, 2], ![3, 4]]) [], .merge [.add .create [![0, 5]]]]
    (.add (.add .create 1) 0) where
  merges1 := by
    intro s hs
    simp only [List.mem_cons, List.not_mem_nil, or_false] at hs
    rcases hs with rfl | rfl
    · exact .add (.add .create)
    · refine .merge (by simp) ?_
      intro s hs
      simp only [List.mem_cons, List.not_mem_nil, or_false] at hs
      subst hs; exact .add .create
  merges2 := .add (.add .create)
  once := by decide

end TFT
