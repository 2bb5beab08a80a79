import Verif.Combine.MeanVarLemmas

/-!
# C01: mean and variance do not depend on the schedule

`s1` gives, for every dataset, an arbitrary tree of Beam calls over arbitrary batches;
`s2` is an arbitrary tree over the datasets' accumulators. `allInputs s1` are the batches,
and `Spec.columnData _ j` are all finite values of column `j`.
-/

namespace TFT

open Spec

/-- The claim of C01 about an analyzer: every allowed run succeeds, and every column that has
data gets exactly the population mean and variance of all its data; a column without data gets
NaN or 0. -/
def ComputesMeanVar (an : Combiner MVAcc Batch MVOut) (ok : Batch → Prop) : Prop :=
  ∀ (s1 : List (Sched Batch)) (s2 : Sched Nat), ValidRun s1 s2 → (∀ b ∈ allInputs s1, ok b) →
    ∃ means vars, analysis an s1 s2 = .ok (.meanVar means vars) ∧
      ∀ j,
        (columnData (allInputs s1) j ≠ [] →
          means[j]? = some (some (mean (columnData (allInputs s1) j))) ∧
          vars[j]? = some (some (variance (columnData (allInputs s1) j)))) ∧
        (columnData (allInputs s1) j = [] →
          (∀ m, means[j]? = some m → m = none ∨ m = some 0) ∧
          (∀ v, vars[j]? = some v → v = none ∨ v = some 0))

theorem computesMeanVar_of_exact (stats : List Elem → MVCol) (cols : Nat) :
    ComputesMeanVar (meanVarAnalyzer (List.map stats) cols)
      (fun b => ∀ col ∈ b, ExactCol (finite col) (stats col)) := by
  intro s1 s2 hv hP
  obtain ⟨final, hfin, hinv⟩ :=
    analysis_total (meanVar_total stats cols) MVInv.perm s1 s2 hv hP
  refine ⟨final.map MVCol.mean, final.map MVCol.variance, hfin, ?_⟩
  intro j
  obtain ⟨h1, h2, h3⟩ := hinv j
  rcases lt_or_ge j final.length with hj | hj
  · rw [List.getD_eq_getElem _ _ hj] at h1 h2 h3
    refine ⟨fun hne => ?_, fun he => ?_⟩
    · simpa [hj] using h2 hne
    · simpa [hj] using h3 he
  · rw [List.getD_eq_default _ _ hj] at h1
    have : columnData (allInputs s1) j = [] :=
      List.length_eq_zero_iff.1 (by simpa [MVCol.zero] using h1.symm)
    refine ⟨fun hne => absurd this hne, fun _ => ?_⟩
    simp [hj]

/-- **C01** for dense batches (and all batches with `reduce_instance_dims=True`). -/
theorem mean_var_schedule_independent (cols : Nat) :
    ComputesMeanVar (meanVarAnalyzer denseStats cols) (fun _ => True) := by
  intro s1 s2 hv _
  exact computesMeanVar_of_exact reduceDenseCol cols s1 s2 hv
    (fun b _ col _ => reduceDenseCol_exact col)

/-- **C01** for elementwise statistics of sparse batches, partial: only when no value is NaN or
infinite. The full claim fails, see `sparse_mean_var_wrong`. -/
theorem sparse_mean_var_schedule_independent_partial (cols : Nat) :
    ComputesMeanVar (meanVarAnalyzer sparseStats cols)
      (fun b => ∀ col ∈ b, none ∉ col) := by
  intro s1 s2 hv hP
  refine computesMeanVar_of_exact reduceSparseCol cols s1 s2 hv ?_
  intro b hb col hcol
  rw [reduceSparseCol_eq col (hP b hb col hcol)]
  exact reduceDenseCol_exact col

/-- A run with two datasets, an empty batch, merges and a compaction. -/
def exampleRun1 : List (Sched Batch) :=
  [.merge [.add .create [[some 1, none]], .compact (.add (.add .create [[some 2]]) [[]])],
   .add .create [[some 6]]]

/-- Its merge stage takes the second dataset first. -/
def exampleRun2 : Sched Nat := .merge [.add .create 1, .add .create 0]

theorem exampleRun_valid : ValidRun exampleRun1 exampleRun2 where
  merges1 := by
    intro s hs
    simp only [exampleRun1, List.mem_cons, List.not_mem_nil, or_false] at hs
    rcases hs with rfl | rfl
    · refine .merge (by simp) ?_
      intro s hs
      simp only [List.mem_cons, List.not_mem_nil, or_false] at hs
      rcases hs with rfl | rfl
      · exact .add .create
      · exact .compact (.add (.add .create))
    · exact .add .create
  merges2 := by
    refine .merge (by simp) ?_
    intro s hs
    simp only [List.mem_cons, List.not_mem_nil, or_false] at hs
    rcases hs with rfl | rfl <;> exact .add .create
  once := by decide

/-- The hypotheses can be met by a non-trivial run: mean 3, variance 14/3. -/
example : ValidRun exampleRun1 exampleRun2 ∧ columnData (allInputs exampleRun1) 0 = [1, 2, 6] ∧
    analysis (meanVarAnalyzer denseStats 1) exampleRun1 exampleRun2
      = .ok (.meanVar [some 3] [some (14 / 3)]) :=
  ⟨exampleRun_valid, by decide, by decide +kernel⟩

/-- **C01 fails** for elementwise variance of sparse data with a NaN in it: the column
`[NaN, 2]` has the single finite value 2, so its variance is 0, but the code returns 4. -/
theorem sparse_mean_var_wrong :
    ¬ ComputesMeanVar (meanVarAnalyzer sparseStats 1) (fun _ => True) := by
  intro h
  let s1 : List (Sched Batch) := [.add .create [[none, some 2]]]
  let s2 : Sched Nat := .add .create 0
  have hv : ValidRun s1 s2 :=
    { merges1 := by
        intro s hs
        simp only [s1, List.mem_cons, List.not_mem_nil, or_false] at hs
        subst hs; exact .add .create
      merges2 := .add .create
      once := by decide }
  obtain ⟨means, vars, hrun, hj⟩ := h s1 s2 hv (by simp)
  have hc : columnData (allInputs s1) 0 = [2] := by decide
  have h0 := ((hj 0).1 (by rw [hc]; simp)).2
  rw [hc] at h0
  have hrun' : analysis (meanVarAnalyzer sparseStats 1) s1 s2
      = .ok (.meanVar [some 2] [some 4]) := by decide +kernel
  rw [hrun'] at hrun
  injection hrun with hrun
  injection hrun with hm hvv
  subst hvv
  have : variance [2] = 0 := by decide +kernel
  rw [this] at h0
  simp at h0

end TFT
