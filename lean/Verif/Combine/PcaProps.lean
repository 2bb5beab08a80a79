import Verif.Combine.Pca
import Verif.Combine.CovarianceProps
import Mathlib.Data.Matrix.Mul
import Mathlib.LinearAlgebra.Matrix.NonsingularInverse
import Mathlib.Analysis.Matrix.Spectrum
import Mathlib.Data.Fintype.Sort

/-! # C69: `tft.pca` returns orthonormal directions of maximal variance -/

namespace TFT

namespace Spec

variable {d : Nat}

/-- The inner product. -/
def inner (u v : Fin d → ℝ) : ℝ := ∑ i, u i * v i

/-- The coordinate of a row in the direction `u`. -/
def coord (u : Fin d → ℝ) (x : Fin d → ℚ) : ℝ := ∑ i, (x i : ℝ) * u i

/-- Average of a function of the rows. -/
noncomputable def meanOf (rows : List (Fin d → ℚ)) (f : (Fin d → ℚ) → ℝ) : ℝ :=
  (rows.map f).sum / rows.length

/-- Covariance of the coordinates of the rows in two directions. -/
noncomputable def covarianceAlong (rows : List (Fin d → ℚ)) (u v : Fin d → ℝ) : ℝ :=
  meanOf rows fun x => (coord u x - meanOf rows (coord u)) * (coord v x - meanOf rows (coord v))

/-- Variance of the rows in a direction. -/
noncomputable def varianceAlong (rows : List (Fin d → ℚ)) (u : Fin d → ℝ) : ℝ :=
  covarianceAlong rows u u

/-- Vectors of length one that are orthogonal to each other. -/
def Orthonormal {k : Nat} (us : Fin k → Fin d → ℝ) : Prop :=
  ∀ a b, inner (us a) (us b) = if a = b then 1 else 0

/-- What `np.linalg.eigh` promises for symmetric matrices. -/
def IsEigh (eigh : (Fin d → Fin d → ℝ) → Eigh d) : Prop :=
  ∀ A, (∀ i j, A i j = A j i) → Orthonormal (eigh A).vecs ∧
    ∀ c i, ∑ j, A i j * (eigh A).vecs c j = (eigh A).vals c * (eigh A).vecs c i

/-- What `np.argsort` promises: positions of the elements in ascending order. -/
def IsArgsort (argsort : (Fin d → ℝ) → Equiv.Perm (Fin d)) : Prop :=
  ∀ vals : Fin d → ℝ, ∀ i j, i ≤ j → vals (argsort vals i) ≤ vals (argsort vals j)

end Spec

open Spec

variable {d : Nat}

/-! ## Linear algebra -/

/-- Columns of an orthonormal square matrix are a basis: Parseval. -/
theorem parseval (v : Fin d → Fin d → ℝ) (hv : Orthonormal v) (x y : Fin d → ℝ) :
    ∑ c, Spec.inner (v c) x * Spec.inner (v c) y = Spec.inner x y := by
  let M : Matrix (Fin d) (Fin d) ℝ := fun i c => v c i
  have h1 : M.transpose * M = 1 := by
    ext a b
    rw [Matrix.mul_apply, Matrix.one_apply]
    exact hv a b
  have h2 : M * M.transpose = 1 := mul_eq_one_comm.1 h1
  have h3 : ∀ i j, ∑ c, v c i * v c j = if i = j then 1 else 0 := by
    intro i j
    have := congrFun (congrFun h2 i) j
    rw [Matrix.mul_apply, Matrix.one_apply] at this
    exact this
  unfold Spec.inner
  have : ∀ c, (∑ i, v c i * x i) * (∑ j, v c j * y j) = ∑ i, ∑ j, (v c i * v c j) * (x i * y j) := by
    intro c
    rw [Finset.sum_mul_sum]
    exact Finset.sum_congr rfl fun i _ => Finset.sum_congr rfl fun j _ => by ring
  simp_rw [this]
  rw [Finset.sum_comm]
  have h4 : ∀ i, ∑ c, ∑ j, (v c i * v c j) * (x i * y j) = x i * y i := by
    intro i
    rw [Finset.sum_comm]
    simp_rw [← Finset.sum_mul, h3]
    simp
  calc _ = ∑ i, ∑ c, ∑ j, (v c i * v c j) * (x i * y j) := rfl
    _ = _ := Finset.sum_congr rfl fun i _ => h4 i

theorem inner_comm (u v : Fin d → ℝ) : Spec.inner u v = Spec.inner v u := by
  unfold Spec.inner
  exact Finset.sum_congr rfl fun i _ => mul_comm _ _

/-- Bessel. -/
theorem bessel {k : Nat} (us : Fin k → Fin d → ℝ) (hu : Orthonormal us) (x : Fin d → ℝ) :
    ∑ a, Spec.inner (us a) x ^ 2 ≤ Spec.inner x x := by
  have h0 : 0 ≤ ∑ i, (x i - ∑ a, Spec.inner (us a) x * us a i) ^ 2 :=
    Finset.sum_nonneg fun i _ => sq_nonneg _
  have h1 : ∑ i, (x i - ∑ a, Spec.inner (us a) x * us a i) ^ 2
      = Spec.inner x x - ∑ a, Spec.inner (us a) x ^ 2 := by
    have e1 : ∀ i, (x i - ∑ a, Spec.inner (us a) x * us a i) ^ 2
        = x i * x i - 2 * (∑ a, Spec.inner (us a) x * (us a i * x i))
          + ∑ a, ∑ b, (Spec.inner (us a) x * Spec.inner (us b) x) * (us a i * us b i) := by
      intro i
      have : (∑ a, Spec.inner (us a) x * us a i) * (∑ b, Spec.inner (us b) x * us b i)
          = ∑ a, ∑ b, (Spec.inner (us a) x * Spec.inner (us b) x) * (us a i * us b i) := by
        rw [Finset.sum_mul_sum]
        exact Finset.sum_congr rfl fun a _ => Finset.sum_congr rfl fun b _ => by ring
      rw [← this]
      have : ∑ a, Spec.inner (us a) x * (us a i * x i)
          = (∑ a, Spec.inner (us a) x * us a i) * x i := by
        rw [Finset.sum_mul]
        exact Finset.sum_congr rfl fun a _ => by ring
      rw [this]
      ring
    simp_rw [e1]
    rw [Finset.sum_add_distrib, Finset.sum_sub_distrib, ← Finset.mul_sum]
    have e2 : ∑ i, ∑ a, Spec.inner (us a) x * (us a i * x i) = ∑ a, Spec.inner (us a) x ^ 2 := by
      rw [Finset.sum_comm]
      refine Finset.sum_congr rfl fun a _ => ?_
      rw [← Finset.mul_sum, sq]
      rfl
    have e3 : ∑ i, ∑ a, ∑ b, (Spec.inner (us a) x * Spec.inner (us b) x) * (us a i * us b i)
        = ∑ a, Spec.inner (us a) x ^ 2 := by
      rw [Finset.sum_comm]
      refine Finset.sum_congr rfl fun a _ => ?_
      rw [Finset.sum_comm]
      have : ∀ b, ∑ i, (Spec.inner (us a) x * Spec.inner (us b) x) * (us a i * us b i)
          = if a = b then Spec.inner (us a) x * Spec.inner (us b) x else 0 := by
        intro b
        rw [← Finset.mul_sum]
        have := hu a b
        unfold Spec.inner at this ⊢
        rw [this]
        simp
      simp_rw [this]
      simp [sq]
    rw [e2, e3]
    unfold Spec.inner
    ring
  linarith

/-- Weights between 0 and 1 with sum `k` on a decreasing sequence: at most the sum of the first
`k`. -/
theorem weighted_le (ν c : Fin d → ℝ) (hν : ∀ i j, i ≤ j → ν j ≤ ν i) (k : Nat) (hk : k ≤ d)
    (h0 : ∀ i, 0 ≤ c i) (h1 : ∀ i, c i ≤ 1) (hs : ∑ i, c i = k) :
    ∑ i, ν i * c i ≤ ∑ i, if i.val < k then ν i else 0 := by
  rcases Nat.eq_zero_or_pos k with rfl | hpos
  · have hz : ∀ i, c i = 0 := by
      intro i
      have := (Finset.sum_eq_zero_iff_of_nonneg (fun i _ => h0 i)).1 (by simpa using hs)
      exact this i (Finset.mem_univ i)
    simp [hz]
  · let t : Fin d := ⟨k - 1, by omega⟩
    have hcard : ∑ i : Fin d, (if i.val < k then (1 : ℝ) else 0) = k := by
      rw [Finset.sum_boole]
      congr 1
      have : (Finset.univ.filter fun i : Fin d => i.val < k).card = k := by
        rw [Fin.card_filter_val_lt]
        omega
      exact this
    have hmain : ∑ i, (ν i - ν t) * c i ≤ ∑ i, (ν i - ν t) * (if i.val < k then 1 else 0) := by
      refine Finset.sum_le_sum fun i _ => ?_
      by_cases hi : i.val < k
      · rw [if_pos hi]
        have : ν t ≤ ν i := hν i t (by rw [Fin.le_def]; simp only [t]; omega)
        exact mul_le_mul_of_nonneg_left (h1 i) (by linarith)
      · rw [if_neg hi, mul_zero]
        have : ν i ≤ ν t := hν t i (by rw [Fin.le_def]; simp only [t]; omega)
        exact mul_nonpos_of_nonpos_of_nonneg (by linarith) (h0 i)
    simp_rw [sub_mul, Finset.sum_sub_distrib, ← Finset.mul_sum, hs, hcard] at hmain
    have : ∑ i : Fin d, ν i * (if i.val < k then (1 : ℝ) else 0)
        = ∑ i, if i.val < k then ν i else 0 :=
      Finset.sum_congr rfl fun i _ => by split <;> simp
    rw [this] at hmain
    linarith

/-! ## Covariance in directions -/

theorem sum_coord (rows : List (Fin d → ℚ)) (u : Fin d → ℝ) :
    (rows.map (coord u)).sum = ∑ i, (((rows.map fun x => x i).sum : ℚ) : ℝ) * u i := by
  induction rows with
  | nil => simp
  | cons x rows ih =>
    simp only [List.map_cons, List.sum_cons, ih, coord, Rat.cast_add, add_mul,
      Finset.sum_add_distrib]

theorem mean_coord (rows : List (Fin d → ℚ)) (u : Fin d → ℝ) :
    meanOf rows (coord u) = ∑ i, ((avg rows fun x => x i : ℚ) : ℝ) * u i := by
  unfold meanOf avg
  rw [sum_coord, Finset.sum_div]
  refine Finset.sum_congr rfl fun i _ => ?_
  push_cast
  ring

theorem sum_products (rows : List (Fin d → ℚ)) (m : Fin d → ℚ) (u v : Fin d → ℝ) :
    (rows.map fun x => (∑ i, ((x i : ℝ) - m i) * u i) * (∑ j, ((x j : ℝ) - m j) * v j)).sum
      = ∑ i, ∑ j, u i * (((rows.map fun x => (x i - m i) * (x j - m j)).sum : ℚ) : ℝ) * v j := by
  induction rows with
  | nil => simp
  | cons x rows ih =>
    simp only [List.map_cons, List.sum_cons, ih]
    rw [Finset.sum_mul_sum, ← Finset.sum_add_distrib]
    refine Finset.sum_congr rfl fun i _ => ?_
    rw [← Finset.sum_add_distrib]
    refine Finset.sum_congr rfl fun j _ => ?_
    push_cast
    ring

/-- The covariance in two directions is given by the covariance matrix. -/
theorem covariance_eq (rows : List (Fin d → ℚ)) (u v : Fin d → ℝ) :
    covarianceAlong rows u v = ∑ i, ∑ j, u i * ((cov rows i j : ℚ) : ℝ) * v j := by
  have hc : ∀ (u : Fin d → ℝ) (x : Fin d → ℚ), coord u x - meanOf rows (coord u)
      = ∑ i, ((x i : ℝ) - ((avg rows fun y => y i : ℚ) : ℝ)) * u i := by
    intro u x
    rw [mean_coord]
    unfold coord
    rw [← Finset.sum_sub_distrib]
    exact Finset.sum_congr rfl fun i _ => by ring
  unfold covarianceAlong
  simp_rw [hc]
  unfold meanOf
  rw [sum_products rows (fun i => avg rows fun y => y i) u v, Finset.sum_div]
  refine Finset.sum_congr rfl fun i _ => ?_
  rw [Finset.sum_div]
  refine Finset.sum_congr rfl fun j _ => ?_
  unfold cov
  conv_rhs => rw [avg]
  push_cast
  ring

theorem cov_symm (rows : List (Fin d → ℚ)) (i j : Fin d) : cov rows i j = cov rows j i := by
  unfold cov
  congr 1
  funext x
  ring

/-- Directions `w`, orthonormal, that are eigenvectors of the covariance matrix. -/
theorem covariance_eigen (rows : List (Fin d → ℚ)) (u w : Fin d → ℝ) (ν : ℝ)
    (hw : ∀ i, ∑ j, ((cov rows i j : ℚ) : ℝ) * w j = ν * w i) :
    covarianceAlong rows u w = ν * Spec.inner u w := by
  rw [covariance_eq]
  unfold Spec.inner
  rw [Finset.mul_sum]
  refine Finset.sum_congr rfl fun i _ => ?_
  have : ∑ j, u i * ((cov rows i j : ℚ) : ℝ) * w j = u i * ∑ j, ((cov rows i j : ℚ) : ℝ) * w j := by
    rw [Finset.mul_sum]
    exact Finset.sum_congr rfl fun j _ => by ring
  rw [this, hw]
  ring

theorem variance_expand (rows : List (Fin d → ℚ)) (w : Fin d → Fin d → ℝ) (ν : Fin d → ℝ)
    (ho : Orthonormal w)
    (hw : ∀ c i, ∑ j, ((cov rows i j : ℚ) : ℝ) * w c j = ν c * w c i) (u : Fin d → ℝ) :
    varianceAlong rows u = ∑ c, ν c * Spec.inner u (w c) ^ 2 := by
  let Cu : Fin d → ℝ := fun i => ∑ j, ((cov rows i j : ℚ) : ℝ) * u j
  have h1 : varianceAlong rows u = Spec.inner u Cu := by
    unfold varianceAlong
    rw [covariance_eq]
    unfold Spec.inner
    refine Finset.sum_congr rfl fun i _ => ?_
    simp only [Cu]
    rw [Finset.mul_sum]
    exact Finset.sum_congr rfl fun j _ => by ring
  have h2 : ∀ c, Spec.inner (w c) Cu = ν c * Spec.inner u (w c) := by
    intro c
    unfold Spec.inner
    simp only [Cu]
    have : ∀ i, w c i * ∑ j, ((cov rows i j : ℚ) : ℝ) * u j
        = ∑ j, u j * (((cov rows j i : ℚ) : ℝ) * w c i) := by
      intro i
      rw [Finset.mul_sum]
      refine Finset.sum_congr rfl fun j _ => ?_
      rw [cov_symm rows i j]
      ring
    simp_rw [this]
    rw [Finset.sum_comm]
    simp_rw [← Finset.mul_sum, hw]
    rw [Finset.mul_sum]
    exact Finset.sum_congr rfl fun i _ => by ring
  rw [h1, ← parseval w ho u Cu]
  refine Finset.sum_congr rfl fun c _ => ?_
  rw [h2, inner_comm (w c) u]
  ring

/-- Ky Fan: no orthonormal directions have more variance than the first eigenvectors. -/
theorem variance_le (rows : List (Fin d → ℚ)) (w : Fin d → Fin d → ℝ) (ν : Fin d → ℝ)
    (ho : Orthonormal w)
    (hw : ∀ c i, ∑ j, ((cov rows i j : ℚ) : ℝ) * w c j = ν c * w c i)
    (hν : ∀ i j, i ≤ j → ν j ≤ ν i) (k : Nat) (hk : k ≤ d) (us : Fin k → Fin d → ℝ)
    (hu : Orthonormal us) :
    ∑ a, varianceAlong rows (us a) ≤ ∑ i : Fin d, if i.val < k then ν i else 0 := by
  have h1 : ∑ a, varianceAlong rows (us a) = ∑ c, ν c * ∑ a, Spec.inner (us a) (w c) ^ 2 := by
    simp_rw [variance_expand rows w ν ho hw]
    rw [Finset.sum_comm]
    exact Finset.sum_congr rfl fun c _ => by rw [Finset.mul_sum]
  rw [h1]
  refine weighted_le ν _ hν k hk (fun c => Finset.sum_nonneg fun a _ => sq_nonneg _) (fun c => ?_) ?_
  · refine (bessel us hu (w c)).trans ?_
    rw [ho c c]
    simp
  · rw [Finset.sum_comm]
    have : ∀ a, ∑ c, Spec.inner (us a) (w c) ^ 2 = 1 := by
      intro a
      have h := parseval w ho (us a) (us a)
      rw [hu a a, if_pos rfl] at h
      rw [← h]
      refine Finset.sum_congr rfl fun c _ => ?_
      rw [inner_comm (us a) (w c)]
      ring
    simp_rw [this]
    simp

/-! ## The property -/

theorem pca_total (eigh : (Fin d → Fin d → ℝ) → Eigh d)
    (argsort : (Fin d → ℝ) → Equiv.Perm (Fin d)) (k : Option Nat) :
    Sched.Total (pcaCombiner eigh argsort k) (fun _ => True) CovInv where
  create := cov_total.create
  add := cov_total.add
  merge := cov_total.merge
  compact := fun a _ h => ⟨a, rfl, h⟩

/-- What every run returns. -/
theorem pca_run (eigh : (Fin d → Fin d → ℝ) → Eigh d)
    (argsort : (Fin d → ℝ) → Equiv.Perm (Fin d)) (k : Option Nat)
    (s1 : List (Sched (List (Vec d)))) (s2 : Sched Nat) (hv : ValidRun s1 s2) :
    ∃ m, analysis (pcaCombiner eigh argsort k) s1 s2 = .ok m ∧
      ((allInputs s1).flatten = [] → m = eyeColumns d k) ∧
      ((allInputs s1).flatten ≠ [] → m = ((sortedColumns argsort
        (eigh fun i j => ((cov (allInputs s1).flatten i j : ℚ) : ℝ))).take (k.getD d))) := by
  obtain ⟨final, hfin, h1, h2, h3⟩ := analysis_total (pca_total eigh argsort k) (by
    rintro a l l' h ⟨h1, h2, h3⟩
    have hp := h.flatten
    refine ⟨fun i j => ?_, fun i => ?_, ?_⟩
    · rw [h1, (hp.map _).sum_eq]
    · rw [h2, (hp.map _).sum_eq]
    · rw [h3, hp.length_eq]) s1 s2 hv (by simp)
  refine ⟨pcaExtract eigh argsort k final, hfin, ?_, ?_⟩
  · intro he
    have : final.count = 0 := by rw [h3, he]; simp
    simp [pcaExtract, this]
  · intro hne
    have hc : ((allInputs s1).flatten.length : ℚ) ≠ 0 := by
      have := List.length_pos_iff.2 hne
      exact_mod_cast (by omega : (allInputs s1).flatten.length ≠ 0)
    have hc' : final.count ≠ 0 := by rw [h3]; exact hc
    unfold pcaExtract
    rw [if_neg hc']
    have hcov : (fun i j : Fin d => ((final.sumProduct i j / final.count
        - final.sumVectors i / final.count * (final.sumVectors j / final.count) : ℚ) : ℝ))
        = fun i j => ((cov (allInputs s1).flatten i j : ℚ) : ℝ) := by
      funext i j
      congr 1
      simp only [h1, h2, h3, cov, avg, sum_cross]
      field_simp
      ring
    simp only [hcov]
    cases k with
    | some k => rfl
    | none =>
      simp only [Option.getD_none]
      rw [List.take_of_length_le]
      simp [sortedColumns]

/-- **C69**. For every schedule and every dataset that is not empty, `tft.pca` returns `output_dim`
orthonormal directions, in the order of decreasing variance of the data, in which the data is not
correlated, and such that for every `j ≤ output_dim` no `j` orthonormal directions have a larger sum
of variances than the first `j` of them. -/
theorem pca_maximizes_variance (eigh : (Fin d → Fin d → ℝ) → Eigh d) (he : IsEigh eigh)
    (argsort : (Fin d → ℝ) → Equiv.Perm (Fin d)) (ha : IsArgsort argsort) (k : Nat) (hk : k ≤ d)
    (s1 : List (Sched (List (Vec d)))) (s2 : Sched Nat) (hv : ValidRun s1 s2)
    (hne : (allInputs s1).flatten ≠ []) :
    ∃ w : Fin k → Fin d → ℝ,
      analysis (pcaCombiner eigh argsort (some k)) s1 s2 = .ok (List.ofFn w) ∧
      Orthonormal w ∧
      (∀ a b, a ≤ b → varianceAlong (allInputs s1).flatten (w b) ≤ varianceAlong (allInputs s1).flatten (w a)) ∧
      (∀ a b, a ≠ b → covarianceAlong (allInputs s1).flatten (w a) (w b) = 0) ∧
      (∀ j (hj : j ≤ k) (us : Fin j → Fin d → ℝ), Orthonormal us →
        ∑ a, varianceAlong (allInputs s1).flatten (us a)
          ≤ ∑ a : Fin j, varianceAlong (allInputs s1).flatten (w ⟨a, by omega⟩)) := by
  obtain ⟨m, hm, -, hm2⟩ := pca_run eigh argsort (some k) s1 s2 hv
  have hm2 := hm2 hne
  set rows := (allInputs s1).flatten with hrows
  set E := eigh fun i j => ((cov rows i j : ℚ) : ℝ) with hE
  obtain ⟨ho, hvec⟩ := he (fun i j => ((cov rows i j : ℚ) : ℝ)) (fun i j => by rw [cov_symm])
  rw [← hE] at ho hvec
  let full : Fin d → Fin d → ℝ := fun j => E.vecs (argsort E.vals j.rev)
  let ν : Fin d → ℝ := fun j => E.vals (argsort E.vals j.rev)
  have hfo : Orthonormal full := by
    intro a b
    have := ho (argsort E.vals a.rev) (argsort E.vals b.rev)
    simp only [full]
    rw [this]
    simp
  have hfe : ∀ c i, ∑ j, ((cov rows i j : ℚ) : ℝ) * full c j = ν c * full c i :=
    fun c i => hvec _ i
  have hν : ∀ i j, i ≤ j → ν j ≤ ν i := by
    intro i j hij
    exact ha E.vals j.rev i.rev (by simpa using hij)
  have hcovw : ∀ a b, covarianceAlong rows (full a) (full b) = if a = b then ν b else 0 := by
    intro a b
    rw [covariance_eigen rows (full a) (full b) (ν b) (hfe b), hfo a b]
    split <;> simp
  refine ⟨fun a => full ⟨a, by omega⟩, ?_, ?_, ?_, ?_, ?_⟩
  · rw [hm, hm2]
    congr 1
    unfold sortedColumns
    refine List.ext_getElem ?_ ?_
    · simp
      omega
    · intro n h1 h2
      rw [List.getElem_take, List.getElem_map, List.getElem_ofFn]
      simp [full]
  · intro a b
    have := hfo ⟨a, by omega⟩ ⟨b, by omega⟩
    rw [this]
    simp [Fin.ext_iff]
  · intro a b hab
    unfold varianceAlong
    rw [hcovw, hcovw, if_pos rfl, if_pos rfl]
    exact hν _ _ (show a.val ≤ b.val from hab)
  · intro a b hab
    rw [hcovw, if_neg]
    simpa [Fin.ext_iff] using hab
  · intro j hj us hus
    refine (variance_le rows full ν hfo hfe hν j (by omega) us hus).trans (le_of_eq ?_)
    have hvar : ∀ a : Fin j, varianceAlong rows (full ⟨a, by omega⟩) = ν ⟨a, by omega⟩ := by
      intro a
      unfold varianceAlong
      rw [hcovw, if_pos rfl]
    simp_rw [hvar]
    rw [← Finset.sum_filter]
    symm
    refine Finset.sum_bij (fun a _ => ⟨a.val, by omega⟩) ?_ ?_ ?_ ?_
    · intro a _
      simp
    · intro a _ b _ hab
      simpa [Fin.ext_iff] using hab
    · intro b hb
      simp only [Finset.mem_filter, Finset.mem_univ, true_and] at hb
      exact ⟨⟨b.val, hb⟩, Finset.mem_univ _, rfl⟩
    · intro a _
      rfl

/-- Without data, the first basis vectors are returned. -/
theorem pca_of_nothing (eigh : (Fin d → Fin d → ℝ) → Eigh d)
    (argsort : (Fin d → ℝ) → Equiv.Perm (Fin d)) (k : Nat) (hk : k ≤ d)
    (s1 : List (Sched (List (Vec d)))) (s2 : Sched Nat) (hv : ValidRun s1 s2)
    (he : (allInputs s1).flatten = []) :
    ∃ w : Fin k → Fin d → ℝ,
      analysis (pcaCombiner eigh argsort (some k)) s1 s2 = .ok (List.ofFn w) ∧
      Orthonormal w ∧ ∀ a i, w a i = if i.val = a.val then 1 else 0 := by
  obtain ⟨m, hm, hm1, -⟩ := pca_run eigh argsort (some k) s1 s2 hv
  refine ⟨fun a i => if i.val = a.val then 1 else 0, ?_, ?_, fun _ _ => rfl⟩
  · rw [hm, hm1 he]
    congr 1
    unfold eyeColumns
    refine List.ext_getElem (by simp) fun n h1 h2 => by simp
  · intro a b
    unfold Spec.inner
    have : ∀ i : Fin d, (if i.val = a.val then (1 : ℝ) else 0) * (if i.val = b.val then 1 else 0)
        = if i = ⟨a, by omega⟩ then (if a = b then 1 else 0) else 0 := by
      intro i
      by_cases hi : i.val = a.val
      · rw [if_pos hi, if_pos (Fin.ext hi : i = ⟨a.val, by omega⟩), one_mul, hi]
        simp [Fin.ext_iff]
      · rw [if_neg hi, zero_mul, if_neg (fun h : i = ⟨a.val, by omega⟩ => hi (by rw [h]))]
    simp_rw [this]
    simp

/-- More directions than dimensions cannot be orthonormal, and this is not checked: `tft.pca` then
returns a matrix with `input_dim` columns and not with the declared `output_dim`. -/
theorem pca_wide (eigh : (Fin d → Fin d → ℝ) → Eigh d)
    (argsort : (Fin d → ℝ) → Equiv.Perm (Fin d)) (k : Nat) (hk : d < k)
    (s1 : List (Sched (List (Vec d)))) (s2 : Sched Nat) (hv : ValidRun s1 s2)
    (hne : (allInputs s1).flatten ≠ []) :
    ∃ m, analysis (pcaCombiner eigh argsort (some k)) s1 s2 = .ok m ∧ m.length ≠ k := by
  obtain ⟨m, hm, -, hm2⟩ := pca_run eigh argsort (some k) s1 s2 hv
  refine ⟨m, hm, ?_⟩
  rw [hm2 hne]
  simp [sortedColumns]
  omega

/-! ## What is assumed of NumPy can be met -/

/-- Every symmetric real matrix has orthonormal eigenvectors. -/
theorem eigh_exists (d : Nat) : ∃ eigh : (Fin d → Fin d → ℝ) → Eigh d, IsEigh eigh := by
  classical
  have : ∀ A : Fin d → Fin d → ℝ, ∃ e : Eigh d, (∀ i j, A i j = A j i) → Orthonormal e.vecs ∧
      ∀ c i, ∑ j, A i j * e.vecs c j = e.vals c * e.vecs c i := by
    intro A
    by_cases hA : ∀ i j, A i j = A j i
    · have hH : Matrix.IsHermitian (Matrix.of A) := by
        ext i j
        rw [Matrix.conjTranspose_apply]
        simpa using (hA j i)
      refine ⟨⟨hH.eigenvalues, fun c i => hH.eigenvectorBasis c i⟩, fun _ => ⟨?_, ?_⟩⟩
      · intro a b
        have := orthonormal_iff_ite.1 hH.eigenvectorBasis.orthonormal b a
        rw [PiLp.inner_apply] at this
        unfold Spec.inner
        simpa [eq_comm] using this
      · intro c i
        have := congrFun (hH.mulVec_eigenvectorBasis c) i
        simpa [Matrix.mulVec, dotProduct] using this
    · exact ⟨⟨0, 0⟩, fun h => absurd h hA⟩
  choose f hf using this
  exact ⟨f, hf⟩

/-- Every vector can be sorted. -/
theorem argsort_exists (d : Nat) :
    ∃ argsort : (Fin d → ℝ) → Equiv.Perm (Fin d), IsArgsort argsort :=
  ⟨fun v => Tuple.sort v, fun v _ _ h => Tuple.monotone_sort v h⟩

/-- The premises of `pca_maximizes_variance` are met by two rows of three numbers, in two batches,
for two directions. -/
example : ∃ (eigh : (Fin 3 → Fin 3 → ℝ) → Eigh 3) (argsort : (Fin 3 → ℝ) → Equiv.Perm (Fin 3))
    (s1 : List (Sched (List (Vec 3)))) (s2 : Sched Nat),
    IsEigh eigh ∧ IsArgsort argsort ∧ ValidRun s1 s2 ∧ (allInputs s1).flatten ≠ [] ∧ 2 ≤ 3 := by
  obtain ⟨e, he⟩ := eigh_exists 3
  obtain ⟨g, hg⟩ := argsort_exists 3
  refine ⟨e, g, [.add .create [![1, 2, 5]], .add .create [![3, 4, 0]]], .add (.add .create 1) 0,
    he, hg, ⟨?_, .add (.add .create), by decide⟩, by decide, by decide⟩
  intro s hs
  simp only [List.mem_cons, List.not_mem_nil, or_false] at hs
  rcases hs with rfl | rfl
  · exact .add .create
  · exact .add .create

end TFT
