import Verif.Combine.LMomentsLemmas

/-! # C06: L-moment accumulators do not depend on the schedule -/

namespace TFT

open Spec

/-- Number of selections of size `k` in column `j`. -/
def selCount (k j : Nat) (bs : List (List (List ℚ))) : ℚ :=
  (bs.map (fun b => ((selections k (lcol j b)).length : ℚ))).sum

/-- Total contrast of the selections of size `k` in column `j`. -/
def selSum (k j : Nat) (bs : List (List (List ℚ))) : ℚ :=
  (bs.map (fun b => contrastSum k (lcol j b))).sum

theorem selCount_nonneg (k j bs) : 0 ≤ selCount k j bs := by
  apply List.sum_nonneg
  intro x hx
  obtain ⟨b, _, rfl⟩ := List.mem_map.1 hx
  positivity

theorem selCount_zero {k j bs} (h : selCount k j bs = 0) :
    ∀ b ∈ bs, selections k (lcol j b) = [] := by
  induction bs with
  | nil => simp
  | cons b bs ih =>
    have h1 := selCount_nonneg k j bs
    have h2 : selCount k j (b :: bs) = ((selections k (lcol j b)).length : ℚ) + selCount k j bs := by
      simp [selCount]
    have h3 : (0 : ℚ) ≤ ((selections k (lcol j b)).length : ℚ) := by positivity
    intro c hc
    rcases List.mem_cons.1 hc with rfl | hc
    · have : ((selections k (lcol j c)).length : ℚ) = 0 := by linarith
      exact List.length_eq_zero_iff.1 (by exact_mod_cast this)
    · exact ih (by linarith) c hc

theorem selSum_zero {k j bs} (h : selCount k j bs = 0) : selSum k j bs = 0 := by
  have := selCount_zero h
  apply List.sum_eq_zero
  intro x hx
  obtain ⟨b, hb, rfl⟩ := List.mem_map.1 hx
  simp [contrastSum, this b hb]

theorem selCount_append (k j a b) : selCount k j (a ++ b) = selCount k j a + selCount k j b := by
  simp [selCount]

theorem selSum_append (k j a b) : selSum k j (a ++ b) = selSum k j a + selSum k j b := by
  simp [selSum]

/-- No samples: no selections of any size. -/
theorem selCount_of_one {k j bs} (hk : 1 ≤ k) (h : selCount 1 j bs = 0) : selCount k j bs = 0 := by
  have := selCount_zero h
  apply List.sum_eq_zero
  intro x hx
  obtain ⟨b, hb, rfl⟩ := List.mem_map.1 hx
  have h1 := congrArg List.length (this b hb)
  rw [selections_length] at h1 ⊢
  simp only [Nat.choose_one_right, List.length_nil] at h1
  rw [h1, Nat.choose_eq_zero_of_lt (by omega)]; simp

/-- The accumulator is right for the batches. -/
def LInv (a : List LCol) (bs : List (List (List ℚ))) : Prop :=
  ∀ k, 1 ≤ k ∧ k ≤ 4 → ∀ j, ((a.getD j LCol.zero).mom k).count = selCount k j bs ∧
    ((a.getD j LCol.zero).mom k).l = selSum k j bs / selCount k j bs

theorem LInv.perm {a bs bs'} (h : bs.Perm bs') (g : LInv a bs) : LInv a bs' := by
  intro k hk j
  have h1 : selCount k j bs = selCount k j bs' := (h.map _).sum_eq
  have h2 : selSum k j bs = selSum k j bs' := (h.map _).sum_eq
  rw [← h1, ← h2]; exact g k hk j

theorem combineLCol_mom (a b : LCol) {k : Nat} (hk : 1 ≤ k ∧ k ≤ 4) :
    (combineLCol a b).mom k = combineLM (a.mom k) (b.mom k) := by
  obtain ⟨h1, h2⟩ := hk
  interval_cases k <;> rfl

theorem LCol.zero_mom (k : Nat) : LCol.zero.mom k = ⟨0, 0⟩ := by
  unfold LCol.mom; split <;> rfl

theorem padL_getD (n : Nat) (m : List LCol) (j : Nat) :
    (padL n m).getD j LCol.zero = m.getD j LCol.zero := by
  unfold padL
  rcases lt_or_ge j m.length with hj | hj
  · simp [List.getD_eq_getElem?_getD, List.getElem?_append_left hj]
  · simp only [List.getD_eq_getElem?_getD, List.getElem?_append_right hj,
      List.getElem?_eq_none_iff.2 hj, List.getElem?_replicate]
    split <;> rfl

theorem zipL_getD (a b : List LCol) (j : Nat) :
    (List.zipWith combineLCol (padL b.length a) (padL a.length b)).getD j LCol.zero
      = combineLCol (a.getD j LCol.zero) (b.getD j LCol.zero) := by
  have hla : (padL b.length a).length = max a.length b.length := by simp [padL]; omega
  have hlb : (padL a.length b).length = max a.length b.length := by simp [padL]; omega
  rcases lt_or_ge j (max a.length b.length) with hj | hj
  · rw [List.getD_eq_getElem _ _ (by simp; omega), List.getElem_zipWith, ← padL_getD b.length a,
      ← padL_getD a.length b, List.getD_eq_getElem _ _ (by omega),
      List.getD_eq_getElem _ _ (by omega)]
  · rw [List.getD_eq_default _ _ (by simp; omega), List.getD_eq_default _ _ (by omega),
      List.getD_eq_default _ _ (by omega)]
    simp [combineLCol, combineLM, LCol.zero]

theorem combineLM_right {a b : LM} {ca ta cb tb : ℚ} (h1 : a.count = ca) (h2 : a.l = ta / ca)
    (h3 : b.count = cb) (h4 : b.l = tb / cb) (pa : 0 ≤ ca) (pb : 0 ≤ cb) (za : ca = 0 → ta = 0)
    (zb : cb = 0 → tb = 0) :
    (combineLM a b).count = ca + cb ∧ (combineLM a b).l = (ta + tb) / (ca + cb) := by
  simp only [combineLM, h1, h2, h3, h4]
  refine ⟨trivial, ?_⟩
  by_cases h : ca + cb > 0
  · rw [if_pos h]
    by_cases ha : ca = 0
    · have : cb ≠ 0 := by intro hb; rw [ha, hb] at h; simp at h
      rw [za ha, ha]; field_simp; ring
    · by_cases hb : cb = 0
      · rw [zb hb, hb]; simp
      · field_simp; ring
  · rw [if_neg h]
    have ha : ca = 0 := by linarith
    have hb : cb = 0 := by linarith
    rw [za ha, zb hb, ha, hb]; simp

theorem l1Count_zero {a bs} (h : LInv a bs) (h0 : l1Count a = 0) (j : Nat) : selCount 1 j bs = 0 := by
  rw [← (h 1 (by omega) j).1]
  rcases lt_or_ge j a.length with hj | hj
  · rw [List.getD_eq_getElem _ _ hj]
    have hall : ∀ x ∈ a.map (fun c => c.m1.count), (0 : ℚ) ≤ x := by
      intro x hx
      obtain ⟨c, hc, rfl⟩ := List.mem_map.1 hx
      obtain ⟨i, hi, rfl⟩ := List.mem_iff_getElem.1 hc
      have := (h 1 (by omega) i).1
      rw [List.getD_eq_getElem _ _ hi] at this
      exact (show a[i].m1.count = _ from this) ▸ selCount_nonneg 1 i bs
    have hz : ∀ (l : List ℚ), (∀ x ∈ l, (0 : ℚ) ≤ x) → l.sum = 0 → ∀ x ∈ l, x = 0 := by
      intro l
      induction l with
      | nil => simp
      | cons y l ih =>
        intro hp hs x hx
        have p1 := hp y (by simp)
        have p2 := List.sum_nonneg (fun x hx => hp x (List.mem_cons_of_mem y hx))
        simp only [List.sum_cons] at hs
        rcases List.mem_cons.1 hx with rfl | hx
        · linarith
        · exact ih (fun x hx => hp x (List.mem_cons_of_mem y hx)) (by linarith) x hx
    exact hz _ hall h0 _ (List.mem_map.2 ⟨a[j], List.getElem_mem hj, rfl⟩)
  · rw [List.getD_eq_default _ _ hj]; rfl

theorem combineL_core {a b ba bb} (ha : LInv a ba) (hb : LInv b bb) :
    LInv (if l1Count b = 0 then a
      else List.zipWith combineLCol (padL b.length a) (padL a.length b)) (ba ++ bb) := by
  intro k hk j
  rw [selCount_append, selSum_append]
  split
  · rename_i h0
    have hz := selCount_of_one hk.1 (l1Count_zero hb h0 j)
    rw [hz, selSum_zero hz, add_zero, add_zero]
    exact ha k hk j
  · rw [zipL_getD, combineLCol_mom _ _ hk]
    exact combineLM_right (ha k hk j).1 (ha k hk j).2 (hb k hk j).1 (hb k hk j).2
      (selCount_nonneg _ _ _) (selCount_nonneg _ _ _) selSum_zero selSum_zero

theorem combineL_inv {a b ba bb} (ha : LInv a ba) (hb : LInv b bb) :
    LInv (combineL a b) (ba ++ bb) := by
  unfold combineL
  by_cases h : l1Count a < l1Count b
  · simp only [h, if_true]
    exact (combineL_core hb ha).perm List.perm_append_comm
  · simp only [h, if_false]
    exact combineL_core ha hb

theorem combineL_length {a b : List LCol} {n : Nat} (ha : a.length = n) (hb : b.length = n) :
    (combineL a b).length = n := by
  unfold combineL
  by_cases h : l1Count a < l1Count b
  · simp only [h, if_true]
    split <;> simp [padL, ha, hb]
  · simp only [h, if_false]
    split <;> simp [padL, ha, hb]

theorem batch_LInv (b : List (List ℚ)) : LInv (batchLMoments b) [b] := by
  intro k hk j
  simp only [selCount, selSum, List.map_cons, List.map_nil, List.sum_cons, List.sum_nil, add_zero]
  have : (batchLMoments b).getD j LCol.zero = batchLCol (lcol j b) ∨
      ((batchLMoments b).getD j LCol.zero = LCol.zero ∧ lcol j b = []) := by
    rcases lt_or_ge j b.length with hj | hj
    · left
      rw [List.getD_eq_getElem _ _ (by simpa [batchLMoments] using hj)]
      simp [batchLMoments, lcol, hj]
    · right
      refine ⟨List.getD_eq_default _ _ (by simpa [batchLMoments] using hj), ?_⟩
      exact List.getD_eq_default _ _ hj
  rcases this with h | ⟨h, h'⟩
  · rw [h]; exact ⟨batchLCol_count hk _, batchLCol_l hk _⟩
  · have hs : (selections k ([] : List ℚ)).length = 0 := by
      rw [selections_length, Nat.choose_eq_zero_of_lt (by simp; omega)]
    rw [h, h', LCol.zero_mom, hs]; simp

theorem lm_total (t : Tukey) (cols : Nat) :
    Sched.Total (lMomentsAnalyzer t cols) (fun _ => True)
      (fun a bs => LInv a bs ∧ ((∀ b ∈ bs, b.length = cols) → a.length = cols)) where
  create := by
    refine ⟨?_, by simp [lMomentsAnalyzer, Combiner.onBatches, lmCombiner]⟩
    intro k hk j
    have : (lMomentsAnalyzer t cols).create.getD j LCol.zero = LCol.zero := by
      simp only [lMomentsAnalyzer, Combiner.onBatches, lmCombiner, List.getD_eq_getElem?_getD,
        List.getElem?_replicate]
      split <;> rfl
    rw [this, LCol.zero_mom]; simp [selCount, selSum]
  add := by
    intro a l b h _
    refine ⟨_, rfl, combineL_inv h.1 (batch_LInv b), ?_⟩
    intro hall
    exact combineL_length (h.2 (fun x hx => hall x (by simp [hx])))
      (by simpa [batchLMoments] using hall b (by simp))
  merge := by
    intro as ls hne h
    cases h with
    | nil => exact absurd rfl hne
    | @cons a l as ls h hs =>
      refine ⟨_, rfl, ?_⟩
      clear hne
      have gen : ∀ (as : List (List LCol)) (ls : List (List (List (List ℚ)))),
          List.Forall₂ (fun a bs => LInv a bs ∧ ((∀ b ∈ bs, b.length = cols) → a.length = cols))
            as ls → ∀ a l,
          (LInv a l ∧ ((∀ b ∈ l, b.length = cols) → a.length = cols)) →
          (LInv (as.foldl combineL a) (l ++ ls.flatten) ∧
            ((∀ b ∈ (l ++ ls.flatten), b.length = cols) → (as.foldl combineL a).length = cols)) := by
        intro as ls hs
        induction hs with
        | nil => intro a l h; simpa using h
        | @cons b m as ls hb _ ih =>
          intro a l h
          have := ih (combineL a b) (l ++ m) ⟨combineL_inv h.1 hb.1, fun hall =>
            combineL_length (h.2 (fun x hx => hall x (by simp [hx])))
              (hb.2 (fun x hx => hall x (by simp [hx])))⟩
          simpa using this
      simpa using gen as ls hs a l h
  compact := fun a _ h => ⟨a, rfl, h⟩

/-- **C06**. For every allowed run of the L-moments analyzer over any batches, there is a final
accumulator from which the output is computed column by column, and in it the `k`-th moment of
column `j` (`k = 1..4`) has as count the number of `k`-element selections inside the batches, and
as value the average contrast of all those selections, that is the average of the batches' sample
L-moments weighted by their numbers of terms. When all batches have the analyzer's known width
the output has one entry per column. -/
theorem l_moments_schedule_independent (t : Tukey) (cols : Nat)
    (s1 : List (Sched (List (List ℚ)))) (s2 : Sched Nat) (hv : ValidRun s1 s2) :
    ∃ acc : List LCol,
      analysis (lMomentsAnalyzer t cols) s1 s2 = .ok (acc.map (LCol.params t)) ∧
      (∀ j, acc.getD j LCol.zero =
        ⟨⟨selCount 1 j (allInputs s1), batchedLMoment 1 j (allInputs s1)⟩,
         ⟨selCount 2 j (allInputs s1), batchedLMoment 2 j (allInputs s1)⟩,
         ⟨selCount 3 j (allInputs s1), batchedLMoment 3 j (allInputs s1)⟩,
         ⟨selCount 4 j (allInputs s1), batchedLMoment 4 j (allInputs s1)⟩⟩) ∧
      ((∀ b ∈ allInputs s1, b.length = cols) → acc.length = cols) := by
  obtain ⟨final, hfin, h0, h1⟩ := analysis_total (lm_total t cols)
    (fun a l l' h g => ⟨g.1.perm h, fun hall => g.2 (fun b hb => hall b (h.mem_iff.1 hb))⟩)
    s1 s2 hv (by simp)
  refine ⟨final, hfin, ?_, h1⟩
  intro j
  have e1 := h0 1 (by omega) j
  have e2 := h0 2 (by omega) j
  have e3 := h0 3 (by omega) j
  have e4 := h0 4 (by omega) j
  generalize final.getD j LCol.zero = c at *
  obtain ⟨⟨_, _⟩, ⟨_, _⟩, ⟨_, _⟩, ⟨_, _⟩⟩ := c
  simp only [LCol.mom] at e1 e2 e3 e4
  simp only [LCol.mk.injEq, LM.mk.injEq]
  exact ⟨e1, e2, e3, e4⟩

/-- The sample L-moments that one batch column contributes: the average contrast over all
selections (a batch alone). -/
theorem batch_l_moment (xs : List ℚ) (k : Nat) (hk : 1 ≤ k ∧ k ≤ 4) :
    ((batchLCol xs).mom k).l = contrastSum k xs / (xs.length.choose k : ℚ) := by
  rw [batchLCol_l hk, selections_length]

/-- A run over three batches of two columns, one of which has too few samples for the higher
moments. -/
example :
    let s1 : List (Sched (List (List ℚ))) :=
      [.add (.add .create [[3, 1, 2, 7], [1, 5]]) [[4], [2, 2, 8]], .add .create [[], [0]]]
    ValidRun s1 (.add (.add .create 1) 0) ∧
    (allInputs s1).length = 3 ∧ batchedLMoment 2 1 (allInputs s1) = 2 := by
  refine ⟨⟨?_, ?_, ?_⟩, rfl, by decide +kernel⟩
  · intro s hs
    simp only [List.mem_cons, List.not_mem_nil, or_false] at hs
    rcases hs with rfl | rfl
    · exact .add (.add .create)
    · exact .add .create
  · exact .add (.add .create)
  · decide

/-- What the four numbers of a column mean. A column without spread is not scaled. With spread,
the shape parameters are those of the ratios of the third and fourth L-moment to the second one
(or of a column that is symmetric with the kurtosis of the normal distribution if there are fewer
than four samples in every batch), and the distribution with these parameters has the L-location
and the L-scale of the data. -/
theorem l_params_spec (t : Tukey) (c : LCol) (loc scale hl hr : ℚ)
    (h : c.params t = (loc, scale, hl, hr)) :
    (c.m2.l > 0 → c.m4.count > 0 → (hl, hr) = t.hh (c.m3.l / c.m2.l) (c.m4.l / c.m2.l)) ∧
    (¬ (c.m2.l > 0 ∧ c.m4.count > 0) → (hl, hr) = t.hh 0 0) ∧
    (c.m2.l > 0 → t.lScale (hl, hr) ≠ 0 → scale * t.lScale (hl, hr) = c.m2.l) ∧
    (c.m2.l ≤ 0 → scale = 1) ∧
    loc + scale * t.lMean (hl, hr) = c.m1.l := by
  simp only [LCol.params, Prod.mk.injEq] at h
  obtain ⟨h1, h2, h3, h4⟩ := h
  have e : (hl, hr) = t.hh
      (if (decide (c.m2.l > 0) && decide (c.m4.count > 0)) = true then c.m3.l / c.m2.l else 0)
      (if (decide (c.m2.l > 0) && decide (c.m4.count > 0)) = true then c.m4.l / c.m2.l else 0) := by
    rw [← h3, ← h4]
  rw [← e] at h1 h2
  refine ⟨?_, ?_, ?_, ?_, ?_⟩
  · intro a b
    rw [e]
    simp [a, b]
  · intro a
    rw [e]
    have : (decide (c.m2.l > 0) && decide (c.m4.count > 0)) = false := by
      rw [← Bool.not_eq_true, Bool.and_eq_true, decide_eq_true_eq, decide_eq_true_eq]
      exact a
    simp [this]
  · intro a b
    rw [← h2]
    simp only [a, decide_true, if_true]
    field_simp
  · intro a
    rw [← h2]
    simp [not_lt.2 a]
  · rw [← h1, h2]
    ring

example : (⟨⟨4, 5⟩, ⟨6, 2⟩, ⟨4, 1⟩, ⟨1, 1⟩⟩ : LCol).params ⟨fun s k => (s, k), fun h => h.1, fun h => h.2⟩ =
    (3, 4, 1/2, 1/2) := by decide +kernel

end TFT
