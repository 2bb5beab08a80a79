import Verif.Combine.MeanVar
import Verif.Combine.Stats
import Verif.Combine.SchedLemmas
import Mathlib.Data.List.GetD
import Mathlib.Tactic.FieldSimp
import Mathlib.Tactic.Ring
import Mathlib.Tactic.Linarith
import Mathlib.Algebra.Order.Field.Rat
import Mathlib.Algebra.Order.BigOperators.Group.List

namespace TFT

open Spec

theorem sum_sq_sub (l : List ℚ) (m : ℚ) :
    (l.map (fun x => (x - m) ^ 2)).sum
      = (l.map (fun x => x ^ 2)).sum - 2 * m * l.sum + l.length * m ^ 2 := by
  induction l with
  | nil => simp
  | cons x l ih => simp only [List.map_cons, List.sum_cons, ih, List.length_cons]; push_cast; ring

theorem mean_nil : mean [] = 0 := by simp [mean]
theorem variance_nil : variance [] = 0 := by simp [variance]

theorem mean_perm {l l' : List ℚ} (h : l.Perm l') : mean l = mean l' := by
  simp [mean, h.sum_eq, h.length_eq]

theorem variance_perm {l l' : List ℚ} (h : l.Perm l') : variance l = variance l' := by
  simp only [variance, mean_perm h, h.length_eq]
  rw [(h.map _).sum_eq]

theorem mean_append (a b : List ℚ) (h : a ++ b ≠ []) :
    mean (a ++ b) = mean a + (b.length : ℚ) / (a.length + b.length) * (mean b - mean a) := by
  have hn : ((a.length : ℚ) + b.length) ≠ 0 := by
    have : a.length + b.length ≠ 0 := by
      intro h'; apply h; apply List.length_eq_zero_iff.1; simpa using h'
    exact_mod_cast this
  rcases eq_or_ne a [] with rfl | ha
  · have hb : (b.length : ℚ) ≠ 0 := by simpa using hn
    simp [mean, hb]
  rcases eq_or_ne b [] with rfl | hb
  · simp [mean]
  have ha' : (a.length : ℚ) ≠ 0 := by simpa using ha
  have hb' : (b.length : ℚ) ≠ 0 := by simpa using hb
  simp only [mean, List.sum_append, List.length_append, Nat.cast_add]
  field_simp
  ring

theorem variance_eq (l : List ℚ) (h : l ≠ []) :
    variance l = (l.map (fun x => x ^ 2)).sum / l.length - mean l ^ 2 := by
  have h' : (l.length : ℚ) ≠ 0 := by simpa using h
  simp only [variance, sum_sq_sub, mean]
  field_simp
  ring

theorem variance_append (a b : List ℚ) (h : a ++ b ≠ []) :
    variance (a ++ b) = variance a + (b.length : ℚ) / (a.length + b.length) *
      (variance b - variance a + (mean b - mean (a ++ b)) * (mean b - mean a)) := by
  have hn : ((a.length : ℚ) + b.length) ≠ 0 := by
    have : a.length + b.length ≠ 0 := by
      intro h'; apply h; apply List.length_eq_zero_iff.1; simpa using h'
    exact_mod_cast this
  rcases eq_or_ne a [] with rfl | ha
  · have hb : (b.length : ℚ) ≠ 0 := by simpa using hn
    simp [variance_nil, mean_nil, hb]
  rcases eq_or_ne b [] with rfl | hb
  · simp
  have ha' : (a.length : ℚ) ≠ 0 := by simpa using ha
  have hb' : (b.length : ℚ) ≠ 0 := by simpa using hb
  rw [variance_eq _ h, variance_eq _ ha, variance_eq _ hb, mean_append _ _ h]
  have sa : a.sum = a.length * mean a := by simp [mean]; field_simp
  have sb : b.sum = b.length * mean b := by simp [mean]; field_simp
  simp only [List.map_append, List.sum_append, List.length_append, Nat.cast_add]
  field_simp
  ring

/-- What a column must look like after the values `vs` were seen. -/
def GoodCol (vs : List ℚ) (c : MVCol) : Prop :=
  c.count = vs.length ∧
  (vs ≠ [] → c.mean = some (mean vs) ∧ c.variance = some (variance vs)) ∧
  (vs = [] → (c.mean = none ∨ c.mean = some 0) ∧ (c.variance = none ∨ c.variance = some 0))

theorem GoodCol.perm {vs vs' : List ℚ} {c : MVCol} (h : vs.Perm vs') (g : GoodCol vs c) :
    GoodCol vs' c := by
  obtain ⟨h1, h2, h3⟩ := g
  refine ⟨by rw [h1, h.length_eq], ?_, ?_⟩
  · intro hne
    have : vs ≠ [] := by rintro rfl; exact hne h.nil_eq.symm
    rw [← mean_perm h, ← variance_perm h]; exact h2 this
  · intro he; subst he; exact h3 h.eq_nil

theorem GoodCol.zero : GoodCol [] MVCol.zero := by
  simp [GoodCol, MVCol.zero]

theorem GoodCol.nan {vs : List ℚ} {c : MVCol} (g : GoodCol vs c) :
    (c.nanToNum true false).count = vs.length ∧
    (c.nanToNum true false).mean = some (mean vs) ∧
    (c.nanToNum true false).variance = some (variance vs) := by
  obtain ⟨h1, h2, h3⟩ := g
  rcases eq_or_ne vs [] with rfl | hne
  · obtain ⟨hm, hv⟩ := h3 rfl
    refine ⟨h1, ?_, ?_⟩
    · rcases hm with hm | hm <;> simp [MVCol.nanToNum, hm, Num.nanToNum, mean_nil]
    · rcases hv with hv | hv <;> simp [MVCol.nanToNum, hv, Num.nanToNum, variance_nil]
  · obtain ⟨hm, hv⟩ := h2 hne
    exact ⟨h1, by simp [MVCol.nanToNum, hm, Num.nanToNum],
      by simp [MVCol.nanToNum, hv, Num.nanToNum]⟩

/-- Columns after `nan_to_num`. -/
def ExactCol (vs : List ℚ) (c : MVCol) : Prop :=
  c.count = vs.length ∧ c.mean = some (mean vs) ∧ c.variance = some (variance vs)

theorem ExactCol.good {vs : List ℚ} {c : MVCol} (g : ExactCol vs c) : GoodCol vs c := by
  obtain ⟨h1, h2, h3⟩ := g
  refine ⟨h1, fun _ => ⟨h2, h3⟩, ?_⟩
  rintro rfl
  simp [h2, h3, mean_nil, variance_nil]

theorem ExactCol.zero : ExactCol [] MVCol.zero := by
  simp [ExactCol, MVCol.zero, mean_nil, variance_nil]

theorem combineCol_good {va vb : List ℚ} {a b : MVCol} (ha : ExactCol va a)
    (hb : ExactCol vb b) : GoodCol (va ++ vb) (combineCol true false a b) := by
  obtain ⟨a1, a2, a3⟩ := ha
  obtain ⟨b1, b2, b3⟩ := hb
  refine ⟨by simp [combineCol, a1, b1], ?_, ?_⟩
  · intro hne
    have hn : ((va.length : ℚ) + vb.length) ≠ 0 := by
      have : va.length + vb.length ≠ 0 := by
        intro h'; apply hne; apply List.length_eq_zero_iff.1; simpa using h'
      exact_mod_cast this
    have hm : (combineCol true false a b).mean = some (mean (va ++ vb)) := by
      simp [combineCol, a1, b1, a2, b2, Num.add, Num.sub, Num.mul, Num.div, hn,
        mean_append _ _ hne]
    refine ⟨hm, ?_⟩
    rw [variance_append _ _ hne, mean_append _ _ hne]
    simp [combineCol, a1, b1, a2, b2, a3, b3, Num.add, Num.sub, Num.mul, Num.div, hn]
  · intro he
    have he' := List.append_eq_nil_iff.1 he
    obtain ⟨rfl, rfl⟩ := he'
    simp [combineCol, a1, b1, a2, b2, a3, b3, Num.add, Num.sub, Num.mul, Num.div]

/-- The invariant of accumulators, by columns. -/
def GoodAcc (vs : Nat → List ℚ) (a : MVAcc) : Prop :=
  ∀ j, GoodCol (vs j) (a.getD j MVCol.zero)

def ExactAcc (vs : Nat → List ℚ) (a : MVAcc) : Prop :=
  ∀ j, ExactCol (vs j) (a.getD j MVCol.zero)

theorem GoodAcc.exact {vs : Nat → List ℚ} {a : MVAcc} (h : GoodAcc vs a) :
    ExactAcc vs (a.map (MVCol.nanToNum true false)) := by
  intro j
  have := (h j).nan
  rcases lt_or_ge j a.length with hj | hj
  · simpa [ExactCol, hj] using this
  · have h1 := h j
    rw [List.getD_eq_default _ _ hj] at this
    rw [List.getD_eq_default _ _ (by simpa using hj)]
    simpa [ExactCol, MVCol.zero, MVCol.nanToNum, Num.nanToNum] using this

theorem countSum_zero {a : MVAcc} (h : countSum a = 0) (j : Nat) :
    (a.getD j MVCol.zero).count = 0 := by
  rcases lt_or_ge j a.length with hj | hj
  · rw [List.getD_eq_getElem _ _ hj]
    have := List.sum_eq_zero_iff (l := a.map MVCol.count)|>.1 h
    exact this _ (List.mem_map.2 ⟨a[j], List.getElem_mem hj, rfl⟩)
  · rw [List.getD_eq_default _ _ hj]; rfl

theorem padTo_getD (n : Nat) (a : MVAcc) (j : Nat) :
    (padTo n a).getD j MVCol.zero = a.getD j MVCol.zero := by
  unfold padTo
  rcases lt_or_ge j a.length with hj | hj
  · simp [List.getD_eq_getElem?_getD, List.getElem?_append_left hj]
  · simp only [List.getD_eq_getElem?_getD, List.getElem?_append_right hj,
      List.getElem?_eq_none_iff.2 hj, List.getElem?_replicate]
    split <;> rfl

theorem ExactAcc.combine {va vb : Nat → List ℚ} {a b : MVAcc} (ha : ExactAcc va a)
    (hb : ExactAcc vb b) :
    GoodAcc (fun j => va j ++ vb j)
      (List.zipWith (combineCol true false) (padTo b.length a) (padTo a.length b)) := by
  intro j
  have hl : (List.zipWith (combineCol true false) (padTo b.length a) (padTo a.length b)).length
      = max a.length b.length := by simp [padTo]; omega
  have hla : (padTo b.length a).length = max a.length b.length := by simp [padTo]; omega
  have hlb : (padTo a.length b).length = max a.length b.length := by simp [padTo]; omega
  rcases lt_or_ge j (max a.length b.length) with hj | hj
  · rw [List.getD_eq_getElem _ _ (by omega), List.getElem_zipWith]
    apply combineCol_good
    · have := ha j
      rwa [← padTo_getD b.length, List.getD_eq_getElem _ _ (by omega)] at this
    · have := hb j
      rwa [← padTo_getD a.length, List.getD_eq_getElem _ _ (by omega)] at this
  · rw [List.getD_eq_default _ _ (by omega)]
    have h1 := ha j
    have h2 := hb j
    rw [List.getD_eq_default _ _ (by omega)] at h1 h2
    have e1 : va j = [] := List.length_eq_zero_iff.1 (by simpa [MVCol.zero] using h1.1.symm)
    have e2 : vb j = [] := List.length_eq_zero_iff.1 (by simpa [MVCol.zero] using h2.1.symm)
    simp only [e1, e2]
    exact GoodCol.zero

theorem combineAcc_good {va vb : Nat → List ℚ} {a b : MVAcc} (ha : GoodAcc va a)
    (hb : GoodAcc vb b) : GoodAcc (fun j => va j ++ vb j) (combineAcc true false a b) := by
  have ha' := ha.exact
  have hb' := hb.exact
  unfold combineAcc
  generalize a.map (MVCol.nanToNum true false) = a at *
  generalize b.map (MVCol.nanToNum true false) = b at *
  have zero : ∀ {v : Nat → List ℚ} {x : MVAcc}, ExactAcc v x → countSum x = 0 → ∀ j, v j = [] := by
    intro v x hx h0 j
    have := (hx j).1
    rw [countSum_zero h0 j] at this
    exact List.length_eq_zero_iff.1 this.symm
  dsimp only
  split
  · rename_i hlt
    dsimp only
    split
    · omega
    · intro j
      exact (hb'.combine ha' j).perm (List.perm_append_comm)
  · rename_i hge
    dsimp only
    split
    · rename_i h0
      have hb0 : countSum b = 0 := by omega
      intro j
      show GoodCol (va j ++ vb j) _
      rw [zero ha' h0 j, List.nil_append]
      exact (hb' j).good
    · exact ha'.combine hb'

theorem reduceDenseCol_exact (xs : List Elem) : ExactCol (finite xs) (reduceDenseCol xs) := by
  have hc : (xs.map (fun x => if x.isSome then 1 else 0)).sum = (finite xs).length := by
    induction xs with
    | nil => rfl
    | cons x xs ih =>
      cases x with
      | none => simpa [finite] using ih
      | some v => simp [finite] at ih ⊢; omega
  have hs : ∀ f : ℚ → ℚ, (xs.map (fun x => (x.map f).getD 0)).sum
      = ((finite xs).map f).sum := by
    intro f
    induction xs with
    | nil => rfl
    | cons x xs ih =>
      cases x with
      | none =>
        have := ih (by simpa [finite] using hc)
        simpa [finite] using this
      | some v =>
        have := ih (by simp [finite] at hc ⊢; omega)
        simpa [finite] using this
  have hsum := hs id
  simp only [Option.map_id_fun, id, List.map_id_fun] at hsum
  have hdiv : ∀ q : ℚ, divNoNan q (finite xs).length = q / (finite xs).length := by
    intro q; unfold divNoNan; split
    · rename_i h; simp [h]
    · rfl
  have hm : divNoNan (finite xs).sum ((finite xs).length : ℚ) = mean (finite xs) := by
    rw [hdiv]; rfl
  refine ⟨hc, ?_, ?_⟩
  · simp only [reduceDenseCol, hc]
    rw [hsum, hm]
  · simp only [reduceDenseCol, hc]
    rw [hsum, hm, hs (fun v => (v - mean (finite xs)) ^ 2), hdiv]
    rfl

theorem reduceSparseCol_eq (xs : List Elem) (h : none ∉ xs) :
    reduceSparseCol xs = reduceDenseCol xs := by
  have key : ∀ m : ℚ, (List.map (fun v => (v - m) ^ 2)
        (xs.map (fun x => x.getD 0))).sum =
      (xs.map (fun x => (x.map (fun v => (v - m) ^ 2)).getD 0)).sum := by
    intro m
    rw [List.map_map]
    congr 1
    apply List.map_congr_left
    intro x hx
    cases x with
    | none => exact absurd hx h
    | some v => rfl
  simp only [reduceSparseCol, reduceDenseCol, key]

/-- Invariant over a list of batches. -/
def MVInv (a : MVAcc) (bs : List Batch) : Prop := GoodAcc (columnData bs) a

theorem stats_good (stats : List Elem → MVCol) (b : Batch)
    (hs : ∀ col ∈ b, ExactCol (finite col) (stats col)) :
    GoodAcc (columnData [b]) (b.map stats) := by
  intro j
  simp only [columnData, List.flatMap_cons, List.flatMap_nil, List.append_nil]
  rcases lt_or_ge j b.length with hj | hj
  · rw [List.getD_eq_getElem _ _ hj, List.getD_eq_getElem _ _ (by simpa using hj), List.getElem_map]
    exact (hs _ (List.getElem_mem hj)).good
  · rw [List.getD_eq_default _ _ hj, List.getD_eq_default _ _ (by simpa using hj)]
    exact GoodCol.zero

theorem columnData_append (as bs : List Batch) (j : Nat) :
    columnData (as ++ bs) j = columnData as j ++ columnData bs j := by
  simp [columnData]

theorem mergeFold_good (as : List MVAcc) (ls : List (List Batch))
    (h : List.Forall₂ MVInv as ls) (a : MVAcc) (l : List Batch) (ha : MVInv a l) :
    MVInv (as.foldl (combineAcc true false) a) (l ++ ls.flatten) := by
  induction h generalizing a l with
  | nil => simpa using ha
  | @cons b lb as ls hb _ ih =>
    have := ih (combineAcc true false a b) (l ++ lb) (by
      intro j
      rw [columnData_append]
      exact combineAcc_good ha hb j)
    simpa using this

theorem meanVar_total (stats : List Elem → MVCol) (cols : Nat) :
    Sched.Total (meanVarAnalyzer (List.map stats) cols)
      (fun b : Batch => ∀ col ∈ b, ExactCol (finite col) (stats col)) MVInv where
  create := by
    intro j
    simp only [columnData, List.flatMap_nil, meanVarAnalyzer, mvCombiner, Combiner.onBatches,
      Bool.and_false, Bool.false_eq_true, if_false]
    have : (List.replicate cols MVCol.zero).getD j MVCol.zero = MVCol.zero := by
      simp only [List.getD_eq_getElem?_getD, List.getElem?_replicate]
      split <;> rfl
    rw [this]
    exact GoodCol.zero
  add := by
    intro a l b ha hb
    refine ⟨_, rfl, ?_⟩
    intro j
    rw [columnData_append]
    exact combineAcc_good ha (stats_good stats b hb) j
  merge := by
    intro as ls hne hF
    cases hF with
    | nil => exact absurd rfl hne
    | cons ha hF => exact ⟨_, rfl, by simpa using mergeFold_good _ _ hF _ _ ha⟩
  compact := fun a l h => ⟨a, rfl, h⟩

theorem columnData_perm {as bs : List Batch} (h : as.Perm bs) (j : Nat) :
    (columnData as j).Perm (columnData bs j) :=
  h.flatMap_right _

theorem MVInv.perm (a : MVAcc) (l l' : List Batch) (h : l.Perm l') (g : MVInv a l) :
    MVInv a l' := fun j => (g j).perm (columnData_perm h j)

end TFT
