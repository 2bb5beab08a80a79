import Verif.Numeric.HyperProps

/-!
# Mutual information is not negative (C56)
-/

namespace TFT.Numeric

/-! ## Specification: a dataset and its accumulators -/

/-- A row: its label, its weight, and whether the token is in it. -/
structure Row where
  label : ℕ
  weight : ℝ
  hasToken : Bool

/-- The total weight of rows. -/
noncomputable def total (rows : List Row) : ℝ := (rows.map Row.weight).sum

/-- The weight of the rows of a label. -/
noncomputable def labelWeight (rows : List Row) (i : ℕ) : ℝ :=
  total (rows.filter (fun r => r.label = i))

/-- The accumulator of some rows: for each label its share of the weight, the number of rows and
their mean weight. -/
noncomputable def accOf (labels : ℕ) (rows : List Row) : LabelAcc :=
  { mean := (List.range labels).map (fun i => labelWeight rows i / total rows)
    count := rows.length
    weight := total rows / rows.length }

/-- The rows with the token. -/
def withToken (rows : List Row) : List Row := rows.filter Row.hasToken

/-! ## Lemmas -/

theorem total_nonneg (rows : List Row) (h : ∀ r ∈ rows, 0 < r.weight) : 0 ≤ total rows := by
  unfold total
  apply List.sum_nonneg
  intro w hw
  obtain ⟨r, hr, rfl⟩ := List.mem_map.1 hw
  exact (h r hr).le

theorem total_pos (rows : List Row) (h : ∀ r ∈ rows, 0 < r.weight) (hne : rows ≠ []) :
    0 < total rows := by
  cases rows with
  | nil => exact absurd rfl hne
  | cons r rs =>
    have h1 := h r (by simp)
    have h2 := total_nonneg rs (fun q hq => h q (by simp [hq]))
    unfold total at h2 ⊢
    simp only [List.map_cons, List.sum_cons]
    linarith

theorem total_filter_le (rows : List Row) (p : Row → Bool) (h : ∀ r ∈ rows, 0 < r.weight) :
    total (rows.filter p) ≤ total rows := by
  induction rows with
  | nil => simp
  | cons r rs ih =>
    have h1 := h r (by simp)
    have ih := ih (fun q hq => h q (by simp [hq]))
    rw [List.filter_cons]
    split
    · simpa [total] using ih
    · unfold total at ih ⊢
      simp only [List.map_cons, List.sum_cons]
      linarith

theorem labels_total (labels : ℕ) (rows : List Row) (h : ∀ r ∈ rows, r.label < labels) :
    ∑ i ∈ Finset.range labels, labelWeight rows i = total rows := by
  induction rows with
  | nil => simp [labelWeight, total]
  | cons r rs ih =>
    have ih := ih (fun q hq => h q (by simp [hq]))
    have hr := h r (by simp)
    have hstep : ∀ i, labelWeight (r :: rs) i = (if r.label = i then r.weight else 0)
        + labelWeight rs i := by
      intro i
      unfold labelWeight
      by_cases hi : r.label = i
      · simp [total, hi]
      · simp [total, hi]
    simp only [hstep, Finset.sum_add_distrib, ih]
    rw [Finset.sum_ite_eq]
    simp [hr, total]

theorem enumerate_range (f : ℕ → ℝ) (k : ℕ) :
    enumerate ((List.range k).map f) = (List.range k).map (fun i => (i, f i)) := by
  unfold enumerate
  rw [List.zipIdx_map, List.map_map]
  apply List.ext_getElem
  · simp
  · intro i h1 h2
    simp

/-- The inequality behind: `a log (a / e) ≥ a - e`. -/
theorem gibbs (a e : ℝ) (ha : 0 < a) (he : 0 < e) : a - e ≤ a * Real.log (a / e) := by
  have h := Real.log_le_sub_one_of_pos (show 0 < e / a by positivity)
  have h2 : Real.log (a / e) = -Real.log (e / a) := by
    rw [← Real.log_inv, inv_div]
  rw [h2]
  have h3 : a * (e / a) = e := by field_simp
  nlinarith

theorem clip_pos (p : ℝ) : 0 < clipProbability p := by
  unfold clipProbability
  apply lt_min
  · exact lt_of_lt_of_le (by norm_num) (le_max_right _ _)
  · norm_num

theorem clip_ge (p : ℝ) (h : p ≤ 1 - 1e-6) : p ≤ clipProbability p :=
  le_min (le_max_left _ _) h

/-- The clipped probabilities of at least two labels add up to at least 1. -/
theorem clip_sum (S : Finset ℕ) (p : ℕ → ℝ) (hp : ∀ i ∈ S, 0 ≤ p i) (hsum : ∑ i ∈ S, p i = 1)
    (h2 : 2 ≤ S.card) : 1 ≤ ∑ i ∈ S, clipProbability (p i) := by
  by_cases hall : ∀ i ∈ S, p i ≤ 1 - 1e-6
  · rw [← hsum]
    exact Finset.sum_le_sum (fun i hi => clip_ge _ (hall i hi))
  · push Not at hall
    obtain ⟨j, hj, hbig⟩ := hall
    obtain ⟨k, hk⟩ : (S.erase j).Nonempty := by
      rw [← Finset.card_pos, Finset.card_erase_of_mem hj]
      omega
    have hkS := Finset.mem_of_mem_erase hk
    have hclipj : clipProbability (p j) = 1 - 1e-6 := by
      unfold clipProbability
      rw [min_eq_right]
      exact hbig.le.trans (le_max_left _ _)
    have hclipk : 1e-6 ≤ clipProbability (p k) :=
      le_min (le_max_right _ _) (by norm_num)
    rw [← Finset.add_sum_erase S _ hj, hclipj]
    have : clipProbability (p k) ≤ ∑ i ∈ S.erase j, clipProbability (p i) :=
      Finset.single_le_sum (fun i _ => (clip_pos (p i)).le) hk
    linarith

theorem log2_pos_ok (z : ℝ) (hz : 0 < z) : pyLog2 z = .ok (Real.logb 2 z) := by
  unfold pyLog2; rw [if_neg (not_le.2 hz)]

theorem partialMi_eq (nij x y n : ℝ) (h1 : 0 < nij) (h2 : 0 < x) (h3 : 0 < y) (h4 : 0 < n) :
    partialMi nij x y n = .ok (nij * Real.logb 2 (nij / (x * y / n))) := by
  unfold partialMi
  rw [if_neg (by push Not; exact ⟨h1.ne', h2.ne', h3.ne'⟩), log2_pos_ok _ h1, log2_pos_ok _ h2,
    log2_pos_ok _ h3, log2_pos_ok _ h4]
  simp only [bind, Except.bind, pure, Except.pure, Except.ok.injEq]
  rw [Real.logb_div (by positivity) (by positivity), Real.logb_div (by positivity) (by positivity),
    Real.logb_mul (by positivity) (by positivity)]
  ring

open Classical in
/-- The contribution of a label with share `g` among all rows and `c` among those with the token,
whose total weight is `x`. -/
noncomputable def shareTerm (x g c : ℝ) : ℝ :=
  if g = 0 then 0 else x * clipProbability c * Real.logb 2 (clipProbability c / g)

/-- The value: `g` and `c` are the shares of the labels among all rows and among those with the
token. -/
theorem mi_shares (rnd : ℝ → ℤ) (minDiff : ℝ) (hmin : minDiff ≤ 0) (labels : ℕ) (g c : ℕ → ℝ)
    (gc gw cc cw : ℝ) (hn : 0 < gc * gw) (hx : 0 < cc * cw)
    (hg : ∀ i < labels, 0 ≤ g i) (hord : rnd (cc * cw) < rnd (gc * gw)) :
    mutualInformation rnd false minDiff ⟨(List.range labels).map g, gc, gw⟩
      ⟨(List.range labels).map c, cc, cw⟩
      = .ok ⟨some (∑ i ∈ Finset.range labels, shareTerm (cc * cw) (g i) (c i)), none, cc * cw⟩ := by
  unfold mutualInformation
  simp only [if_neg hn.ne']
  rw [if_neg hord.ne, if_neg (not_lt.2 hord.le)]
  rw [List.map_map, enumerate_range]
  set n := gc * gw with hndef
  set x := cc * cw with hxdef
  have hterm : ∀ i ∈ List.range labels,
      (labelTerm rnd false minDiff n x ⟨(List.range labels).map c, cc, cw⟩ ∘
        fun i => (i, ((fun m => m * gw * gc) ∘ g) i)) i = .ok (shareTerm x (g i) (c i), 0) := by
    intro i hi
    have hil : i < labels := List.mem_range.1 hi
    simp only [Function.comp, labelTerm]
    by_cases h0 : g i = 0
    · simp [h0, shareTerm]
    · have hgi : 0 < g i := lt_of_le_of_ne (hg i hil) (Ne.symm h0)
      have hy : g i * gw * gc = g i * n := by rw [hndef]; ring
      have hypos : 0 < g i * n := by positivity
      rw [hy, if_neg hypos.ne']
      have hget : ((List.range labels).map c).getD i 0 = c i := by
        simp [hil]
      have hni : clipProbability (c i) * cw * cc = clipProbability (c i) * x := by
        rw [hxdef]; ring
      simp only [hget, hni]
      rw [if_neg (not_lt.2 (hmin.trans (abs_nonneg _))),
        partialMi_eq _ _ _ _ (mul_pos (clip_pos _) hx) hx hypos hn]
      have e : clipProbability (c i) * x / (x * (g i * n) / n) = clipProbability (c i) / g i := by
        field_simp
      rw [e, mul_comm (clipProbability (c i)) x]
      simp [bind, Except.bind, pure, Except.pure, shareTerm, h0]
  rw [List.mapM_map, mapM_ok_map _ (fun i => (shareTerm x (g i) (c i), (0 : ℝ))) _ hterm]
  simp only [bind, Except.bind, Bool.false_eq_true, if_false, pure, Except.pure]
  rw [List.map_map]
  rfl

/-- The sum is not negative. -/
theorem shares_nonneg (labels : ℕ) (g c : ℕ → ℝ) (x : ℝ) (hx : 0 < x)
    (hg : ∀ i < labels, 0 ≤ g i) (hc : ∀ i < labels, 0 ≤ c i)
    (hgs : ∑ i ∈ Finset.range labels, g i = 1) (hcs : ∑ i ∈ Finset.range labels, c i = 1)
    (hsub : ∀ i < labels, g i = 0 → c i = 0)
    (htwo : ∃ i j, i < labels ∧ j < labels ∧ i ≠ j ∧ g i ≠ 0 ∧ g j ≠ 0) :
    0 ≤ ∑ i ∈ Finset.range labels, shareTerm x (g i) (c i) := by
  set S := (Finset.range labels).filter (fun i => g i ≠ 0) with hS
  have hl2 : 0 < Real.log 2 := Real.log_pos (by norm_num)
  have hlow : ∀ i ∈ S, (clipProbability (c i) * x - x * g i) / Real.log 2 ≤ shareTerm x (g i) (c i) := by
    intro i hi
    rw [hS, Finset.mem_filter, Finset.mem_range] at hi
    have hgi : 0 < g i := lt_of_le_of_ne (hg i hi.1) (Ne.symm hi.2)
    simp only [shareTerm, if_neg hi.2]
    have e : clipProbability (c i) / g i = clipProbability (c i) * x / (x * g i) := by field_simp
    rw [e, mul_comm x (clipProbability (c i))]
    have := gibbs (clipProbability (c i) * x) (x * g i) (mul_pos (clip_pos _) hx) (by positivity)
    rw [div_le_iff₀ hl2]
    have e2 : clipProbability (c i) * x * Real.logb 2 (clipProbability (c i) * x / (x * g i))
        * Real.log 2 = clipProbability (c i) * x * Real.log (clipProbability (c i) * x / (x * g i)) := by
      unfold Real.logb
      field_simp
    rw [e2]
    exact this
  have hsumS : ∀ f : ℕ → ℝ, (∀ i < labels, g i = 0 → f i = 0) →
      ∑ i ∈ S, f i = ∑ i ∈ Finset.range labels, f i := by
    intro f hf
    apply Finset.sum_subset (Finset.filter_subset _ _)
    intro i hi hni
    rw [Finset.mem_range] at hi
    apply hf i hi
    by_contra hne
    exact hni (Finset.mem_filter.2 ⟨Finset.mem_range.2 hi, hne⟩)
  have hterms : ∑ i ∈ Finset.range labels, shareTerm x (g i) (c i) = ∑ i ∈ S, shareTerm x (g i) (c i) :=
    (hsumS (fun i => shareTerm x (g i) (c i)) (fun i _ h => by simp [shareTerm, h])).symm
  have hcard : 2 ≤ S.card := by
    obtain ⟨i, j, hi, hj, hij, hgi, hgj⟩ := htwo
    have h1 : ({i, j} : Finset ℕ) ⊆ S := by
      intro k hk
      simp only [Finset.mem_insert, Finset.mem_singleton] at hk
      rw [hS, Finset.mem_filter, Finset.mem_range]
      rcases hk with rfl | rfl
      · exact ⟨hi, hgi⟩
      · exact ⟨hj, hgj⟩
    have := Finset.card_le_card h1
    rw [Finset.card_pair hij] at this
    exact this
  have hclip := clip_sum S c
    (fun i hi => hc i (Finset.mem_range.1 (Finset.mem_filter.1 hi).1))
    (by rw [hsumS c hsub, hcs]) hcard
  have hgS : ∑ i ∈ S, g i = 1 := by rw [hsumS g (fun _ _ h => h), hgs]
  rw [hterms]
  refine le_trans ?_ (Finset.sum_le_sum hlow)
  rw [← Finset.sum_div]
  apply div_nonneg _ hl2.le
  rw [Finset.sum_sub_distrib, ← Finset.sum_mul, ← Finset.mul_sum, hgS]
  nlinarith

theorem acc_total (labels : ℕ) (rows : List Row) (h : rows ≠ []) :
    (accOf labels rows).count * (accOf labels rows).weight = total rows := by
  have : (rows.length : ℝ) ≠ 0 := by
    have := List.length_pos_iff.2 h
    positivity
  simp only [accOf]
  field_simp

/-- What a dataset and a token in it give. -/
structure Valid (labels : ℕ) (rows : List Row) : Prop where
  weights : ∀ r ∈ rows, 0 < r.weight
  labels : ∀ r ∈ rows, r.label < labels
  token : withToken rows ≠ []

/-- The share of a label among rows. -/
noncomputable def share (rows : List Row) (i : ℕ) : ℝ := labelWeight rows i / total rows

theorem labelWeight_nonneg (rs : List Row) (h : ∀ r ∈ rs, 0 < r.weight) (i : ℕ) :
    0 ≤ labelWeight rs i :=
  total_nonneg _ (fun r hr => h r (List.mem_of_mem_filter hr))

theorem valid_facts {labels : ℕ} {rows : List Row} (h : Valid labels rows) :
    rows ≠ [] ∧ 0 < total rows ∧ 0 < total (withToken rows) ∧
      (∀ r ∈ withToken rows, 0 < r.weight) ∧ (∀ r ∈ withToken rows, r.label < labels) := by
  have hw' : ∀ r ∈ withToken rows, 0 < r.weight := fun r hr => h.weights r (List.mem_of_mem_filter hr)
  have hne : rows ≠ [] := by
    rintro rfl
    exact h.token rfl
  exact ⟨hne, total_pos rows h.weights hne, total_pos _ hw' h.token, hw',
    fun r hr => h.labels r (List.mem_of_mem_filter hr)⟩

/-- **C56, value** For every dataset of rows with positive weights and every token in it whose total
weight does not round to that of the dataset, the mutual information without regularization is the
documented sum over the labels that occur, `x · P(y|token) · log2 (P(y|token) / P(y))`, where the
conditional probability is clipped. -/
theorem mutual_information_value (rnd : ℝ → ℤ) (labels : ℕ) (rows : List Row)
    (hv : Valid labels rows) (hrnd : rnd (total (withToken rows)) < rnd (total rows)) :
    mutualInformation rnd false 0 (accOf labels rows) (accOf labels (withToken rows))
      = .ok ⟨some (∑ i ∈ Finset.range labels, if share rows i = 0 then 0 else
          total (withToken rows) * clipProbability (share (withToken rows) i) *
            Real.logb 2 (clipProbability (share (withToken rows) i) / share rows i)),
          none, total (withToken rows)⟩ := by
  obtain ⟨hne, hN, hX, hw', hl'⟩ := valid_facts hv
  have key := mi_shares rnd 0 (le_refl _) labels (share rows) (share (withToken rows))
    (accOf labels rows).count (accOf labels rows).weight
    (accOf labels (withToken rows)).count (accOf labels (withToken rows)).weight
    (by rw [acc_total labels rows hne]; exact hN)
    (by rw [acc_total labels _ hv.token]; exact hX)
    (fun i _ => div_nonneg (labelWeight_nonneg rows hv.weights i) hN.le)
    (by rw [acc_total labels rows hne, acc_total labels _ hv.token]; exact hrnd)
  rw [acc_total labels _ hv.token] at key
  refine Eq.trans ?_ (key.trans ?_)
  · rfl
  · congr

/-- The clip does nothing to probabilities between `1e-6` and `1 - 1e-6`. -/
theorem clip_inside (p : ℝ) (h : 1e-6 ≤ p) (h2 : p ≤ 1 - 1e-6) : clipProbability p = p := by
  unfold clipProbability
  rw [max_eq_left h, min_eq_left h2]

/-- **C56** For every dataset of rows with positive weights in which at least two labels occur, and
every token that occurs in it, the mutual information computed without regularization is not negative
(and the computation raises no error). -/
theorem mutual_information_nonneg (rnd : ℝ → ℤ) (hrnd : Monotone rnd) (labels : ℕ) (rows : List Row)
    (hv : Valid labels rows) (htwo : ∃ r ∈ rows, ∃ r' ∈ rows, r.label ≠ r'.label) :
    ∃ m emi, mutualInformation rnd false 0 (accOf labels rows) (accOf labels (withToken rows))
      = .ok ⟨some m, emi, total (withToken rows)⟩ ∧ 0 ≤ m := by
  obtain ⟨hne, hN, hX, hw', hl'⟩ := valid_facts hv
  have hw := hv.weights
  have hl := hv.labels
  have hle : rnd (total (withToken rows)) ≤ rnd (total rows) :=
    hrnd (total_filter_le rows Row.hasToken hw)
  rcases eq_or_lt_of_le hle with heq | hlt
  · refine ⟨0, some 0, ?_, le_refl _⟩
    have hdef : mutualInformation rnd false 0 (accOf labels rows) (accOf labels (withToken rows)) =
      if (accOf labels rows).count * (accOf labels rows).weight = 0 then .ok ⟨none, none, 0⟩
      else if rnd ((accOf labels (withToken rows)).count * (accOf labels (withToken rows)).weight)
        = rnd ((accOf labels rows).count * (accOf labels rows).weight) then
        .ok ⟨some 0, some 0,
          (accOf labels (withToken rows)).count * (accOf labels (withToken rows)).weight⟩
      else _ := rfl
    rw [hdef, acc_total labels rows hne, acc_total labels _ hv.token, if_neg hN.ne', if_pos heq]
  · refine ⟨_, none, mutual_information_value rnd labels rows hv hlt, ?_⟩
    have := shares_nonneg labels (share rows) (share (withToken rows)) (total (withToken rows)) hX
      (fun i _ => div_nonneg (labelWeight_nonneg rows hw i) hN.le)
      (fun i _ => div_nonneg (labelWeight_nonneg _ hw' i) hX.le)
      (by unfold share; rw [← Finset.sum_div, labels_total labels rows hl, div_self hN.ne'])
      (by unfold share; rw [← Finset.sum_div, labels_total labels _ hl', div_self hX.ne'])
      (by
        intro i _ h0
        have h1 : labelWeight rows i = 0 := by
          rcases div_eq_zero_iff.1 h0 with h | h
          · exact h
          · exact absurd h hN.ne'
        have h2 : labelWeight (withToken rows) i ≤ labelWeight rows i := by
          unfold labelWeight withToken
          rw [List.filter_filter,
            show (rows.filter (fun r => decide (r.label = i) && r.hasToken))
              = (rows.filter (fun r => r.label = i)).filter Row.hasToken by
                rw [List.filter_filter]; apply List.filter_congr; intro r _; exact Bool.and_comm _ _]
          exact total_filter_le _ _ (fun r hr => hw r (List.mem_of_mem_filter hr))
        have h3 := labelWeight_nonneg _ hw' i
        have : labelWeight (withToken rows) i = 0 := le_antisymm (by linarith) h3
        simp only [share, this, zero_div])
      (by
        obtain ⟨r, hr, r', hr', hne2⟩ := htwo
        have hpos : ∀ r ∈ rows, share rows r.label ≠ 0 := by
          intro r hr
          have : 0 < labelWeight rows r.label := by
            apply total_pos
            · exact fun q hq => hw q (List.mem_of_mem_filter hq)
            · exact List.ne_nil_of_mem (List.mem_filter.2 ⟨hr, by simp⟩)
          unfold share
          positivity
        exact ⟨r.label, r'.label, hl r hr, hl r' hr', hne2, hpos r hr, hpos r' hr'⟩)
    refine this.trans (le_of_eq ?_)
    unfold shareTerm
    congr

/-- **C56, independence** If the rows with the token have the labels in the same proportions as all
rows (all within the clip), the mutual information is 0.  Outside the clip it is not:
`rare_label_mi_positive`. -/
theorem independent_token_zero_partial (rnd : ℝ → ℤ) (labels : ℕ) (rows : List Row)
    (hv : Valid labels rows) (hrnd : rnd (total (withToken rows)) < rnd (total rows))
    (hind : ∀ i < labels, share (withToken rows) i = share rows i)
    (hclip : ∀ i < labels, share rows i = 0 ∨ (1e-6 ≤ share rows i ∧ share rows i ≤ 1 - 1e-6)) :
    mutualInformation rnd false 0 (accOf labels rows) (accOf labels (withToken rows))
      = .ok ⟨some 0, none, total (withToken rows)⟩ := by
  rw [mutual_information_value rnd labels rows hv hrnd]
  congr
  apply Finset.sum_eq_zero
  intro i hi
  have hi := Finset.mem_range.1 hi
  rw [hind i hi]
  rcases hclip i hi with h | ⟨h1, h2⟩
  · rw [if_pos h]
  · rw [clip_inside _ h1 h2]
    split
    · rfl
    · rename_i h0
      rw [div_self h0]
      simp

/-- A dataset that meets the hypotheses. -/
example : ∃ rows : List Row, Valid 2 rows ∧
    (∃ r ∈ rows, ∃ r' ∈ rows, r.label ≠ r'.label) ∧ total (withToken rows) < total rows := by
  refine ⟨[⟨0, 1, true⟩, ⟨1, 2, false⟩, ⟨1, 1, true⟩], ⟨?_, ?_, ?_⟩, ?_, ?_⟩
  · simp
  · simp
  · simp [withToken]
  · exact ⟨_, List.mem_cons_self, ⟨1, 2, false⟩, by simp, by simp⟩
  · norm_num [withToken, total]

/-- **C56 needs no regularization**: `min_diff_from_avg` drops labels one by one, and with three
labels it can drop the positive terms and keep a negative one. Here 32 rows with labels in the
proportions 16, 8, 8, of which the token has 4, 6, 6; with `min_diff_from_avg = 3` the result is -4. -/
theorem regularized_mi_negative (rnd : ℝ → ℤ) (hrnd : rnd 16 < rnd 32) :
    mutualInformation rnd false 3 ⟨[1/2, 1/4, 1/4], 32, 1⟩ ⟨[1/4, 3/8, 3/8], 16, 1⟩
      = .ok ⟨some (-4), none, 16⟩ := by
  unfold mutualInformation
  have h32 : ((32 : ℝ) * 1) = 32 := by norm_num
  have h16 : ((16 : ℝ) * 1) = 16 := by norm_num
  simp only [h32, h16]
  rw [if_neg (by norm_num), if_neg hrnd.ne, if_neg (not_lt.2 hrnd.le)]
  have hmi : partialMi 4 16 16 32 = .ok (-4) := by
    rw [partialMi_eq _ _ _ _ (by norm_num) (by norm_num) (by norm_num) (by norm_num)]
    have : ((4 : ℝ) / (16 * 16 / 32)) = 2⁻¹ := by norm_num
    rw [this, Real.logb_inv, Real.logb_self_eq_one (by norm_num)]
    norm_num
  have hclip1 : clipProbability (1 / 4) = 1 / 4 := by
    unfold clipProbability
    rw [max_eq_left (by norm_num), min_eq_left (by norm_num)]
  have hclip2 : clipProbability (3 / 8) = 3 / 8 := by
    unfold clipProbability
    rw [max_eq_left (by norm_num), min_eq_left (by norm_num)]
  have t0 : labelTerm rnd false 3 32 16 ⟨[1/4, 3/8, 3/8], 16, 1⟩ (0, 1 / 2 * 1 * 32)
      = .ok (-4, 0) := by
    unfold labelTerm
    simp only [List.getD_cons_zero, hclip1]
    rw [if_neg (by norm_num), if_neg (by norm_num [abs_of_nonneg]),
      show (1 / 4 * 1 * 16 : ℝ) = 4 by norm_num, show (1 / 2 * 1 * 32 : ℝ) = 16 by norm_num, hmi]
    simp [bind, Except.bind, pure, Except.pure]
  have t1 : labelTerm rnd false 3 32 16 ⟨[1/4, 3/8, 3/8], 16, 1⟩ (1, 1 / 4 * 1 * 32)
      = .ok (0, 0) := by
    unfold labelTerm
    simp only [List.getD_cons_succ, List.getD_cons_zero, hclip2]
    rw [if_neg (by norm_num), if_pos (by rw [abs_lt]; constructor <;> norm_num)]
  have t2 : labelTerm rnd false 3 32 16 ⟨[1/4, 3/8, 3/8], 16, 1⟩ (2, 1 / 4 * 1 * 32)
      = .ok (0, 0) := by
    unfold labelTerm
    simp only [List.getD_cons_succ, List.getD_cons_zero, hclip2]
    rw [if_neg (by norm_num), if_pos (by rw [abs_lt]; constructor <;> norm_num)]
  have hen : enumerate ([1/2, 1/4, 1/4].map (fun m : ℝ => m * 1 * 32))
      = [(0, 1 / 2 * 1 * 32), (1, 1 / 4 * 1 * 32), (2, 1 / 4 * 1 * 32)] := rfl
  rw [hen]
  simp only [List.mapM_cons, List.mapM_nil, t0, t1, t2, bind, Except.bind, pure, Except.pure]
  simp

/-- **C56 needs two labels**: with a single label, clipping its probability makes the value
negative. -/
theorem single_label_mi_negative (rnd : ℝ → ℤ) (hrnd : rnd 1 < rnd 2) :
    ∃ m, mutualInformation rnd false 0 ⟨[1], 2, 1⟩ ⟨[1], 1, 1⟩ = .ok ⟨some m, none, 1⟩ ∧ m < 0 := by
  unfold mutualInformation
  have h2 : ((2 : ℝ) * 1) = 2 := by norm_num
  have h1 : ((1 : ℝ) * 1) = 1 := by norm_num
  simp only [h2, h1]
  rw [if_neg (by norm_num), if_neg hrnd.ne, if_neg (not_lt.2 hrnd.le)]
  have hclip : clipProbability 1 = 1 - 1e-6 := by
    unfold clipProbability
    rw [max_eq_left (by norm_num), min_eq_right (by norm_num)]
  have hen : enumerate ([1].map (fun m : ℝ => m * 1 * 2)) = [(0, 1 * 1 * 2)] := rfl
  have t0 : labelTerm rnd false 0 2 1 ⟨[1], 1, 1⟩ (0, 1 * 1 * 2)
      = .ok ((1 - 1e-6) * Real.logb 2 (1 - 1e-6), 0) := by
    unfold labelTerm
    simp only [List.getD_cons_zero, hclip]
    rw [if_neg (by norm_num), if_neg (not_lt.2 (abs_nonneg _)),
      partialMi_eq _ _ _ _ (by norm_num) (by norm_num) (by norm_num) (by norm_num)]
    simp [bind, Except.bind, pure, Except.pure]
  rw [hen]
  refine ⟨(1 - 1e-6) * Real.logb 2 (1 - 1e-6), ?_, ?_⟩
  · simp only [List.mapM_cons, List.mapM_nil, t0, bind, Except.bind, pure, Except.pure]
    simp
  · apply mul_neg_of_pos_of_neg (by norm_num)
    exact Real.logb_neg (by norm_num) (by norm_num) (by norm_num)

open Classical in
/-- Specification: a label counts if it occurs and if the number of its rows with the token differs
from the average by at least `minDiff`. -/
def Counts (minDiff : ℝ) (rows : List Row) (i : ℕ) : Prop :=
  share rows i ≠ 0 ∧ minDiff ≤ |total (withToken rows) * share rows i -
    total (withToken rows) * min (max (share (withToken rows) i) 1e-6) (1 - 1e-6)|

open Classical in
/-- Specification: the mutual information, over the labels that count. -/
noncomputable def plainMi (minDiff : ℝ) (labels : ℕ) (rows : List Row) : ℝ :=
  ∑ i ∈ Finset.range labels, if Counts minDiff rows i then
    total (withToken rows) * min (max (share (withToken rows) i) 1e-6) (1 - 1e-6) *
      Real.logb 2 (min (max (share (withToken rows) i) 1e-6) (1 - 1e-6) / share rows i) else 0

open Classical in
/-- Specification: the sum of the expected values, over the labels that count. -/
noncomputable def sumCounted (minDiff : ℝ) (labels : ℕ) (rows : List Row) (e : ℕ → ℝ) : ℝ :=
  ∑ i ∈ Finset.range labels, if Counts minDiff rows i then e i else 0

open Classical in
/-- The value for any `min_diff_from_avg`, adjusted or not. -/
theorem mutual_information_general (rnd : ℝ → ℤ) (adjusted : Bool) (minDiff : ℝ) (labels : ℕ)
    (rows : List Row) (hv : Valid labels rows)
    (hrnd : rnd (total (withToken rows)) < rnd (total rows)) (emi : ℕ → ℝ)
    (hemi : adjusted = true → ∀ i < labels, share rows i ≠ 0 →
      partialEmi rnd (total rows) (total (withToken rows)) (labelWeight rows i) = .ok (emi i)) :
    mutualInformation rnd adjusted minDiff (accOf labels rows) (accOf labels (withToken rows))
      = .ok (if adjusted then
          ⟨some (plainMi minDiff labels rows - sumCounted minDiff labels rows emi),
            some (sumCounted minDiff labels rows emi), total (withToken rows)⟩
        else ⟨some (plainMi minDiff labels rows), none, total (withToken rows)⟩) := by
  obtain ⟨hne, hN, hX, hw', hl'⟩ := valid_facts hv
  have hcn := acc_total labels rows hne
  have hcx := acc_total labels _ hv.token
  unfold mutualInformation
  simp only [hcn, hcx]
  rw [if_neg hN.ne', if_neg hrnd.ne, if_neg (not_lt.2 hrnd.le)]
  have hmeans : ((accOf labels rows).mean.map
      (fun m => m * (accOf labels rows).weight * (accOf labels rows).count))
      = (List.range labels).map (labelWeight rows) := by
    simp only [accOf, List.map_map]
    apply List.map_congr_left
    intro i _
    have hlen : (rows.length : ℝ) ≠ 0 := by
      have := List.length_pos_iff.2 hne
      positivity
    simp only [Function.comp]
    field_simp
  rw [hmeans, enumerate_range]
  let term : ℕ → ℝ × ℝ := fun i =>
    (if Counts minDiff rows i then
      total (withToken rows) * min (max (share (withToken rows) i) 1e-6) (1 - 1e-6) *
        Real.logb 2 (min (max (share (withToken rows) i) 1e-6) (1 - 1e-6) / share rows i) else 0,
      if adjusted then (if Counts minDiff rows i then emi i else 0) else 0)
  have hterm : ∀ i ∈ List.range labels,
      (labelTerm rnd adjusted minDiff (total rows) (total (withToken rows))
          (accOf labels (withToken rows)) ∘ fun i => (i, labelWeight rows i)) i = .ok (term i) := by
    intro i hi
    have hil : i < labels := List.mem_range.1 hi
    simp only [Function.comp, labelTerm, term]
    by_cases h0 : labelWeight rows i = 0
    · have hs : share rows i = 0 := by simp [share, h0]
      have hc : ¬ Counts minDiff rows i := fun h => h.1 hs
      rw [if_pos h0]
      simp [hc]
    · have hs : share rows i ≠ 0 := by simp [share, h0, hN.ne']
      have hsp : 0 < share rows i :=
        lt_of_le_of_ne (div_nonneg (labelWeight_nonneg rows hv.weights i) hN.le) (Ne.symm hs)
      have hy : labelWeight rows i = share rows i * total rows := by
        unfold share; field_simp
      have hget : (accOf labels (withToken rows)).mean.getD i 0 = share (withToken rows) i := by
        simp [accOf, hil, share]
      have hni : clipProbability (share (withToken rows) i) * (accOf labels (withToken rows)).weight
          * (accOf labels (withToken rows)).count
          = total (withToken rows) * clipProbability (share (withToken rows) i) := by
        rw [← hcx]; ring
      have hexp : total (withToken rows) * labelWeight rows i / total rows
          = total (withToken rows) * share rows i := by
        unfold share; ring
      rw [if_neg h0]
      simp only [hget, hni, hexp]
      by_cases hd : |total (withToken rows) * share rows i
          - total (withToken rows) * clipProbability (share (withToken rows) i)| < minDiff
      · have hc : ¬ Counts minDiff rows i := fun h => not_le.2 hd h.2
        rw [if_pos hd]
        simp [hc]
      · have hc : Counts minDiff rows i := ⟨hs, not_lt.1 hd⟩
        have hpos : 0 < labelWeight rows i := by rw [hy]; positivity
        rw [if_neg hd, partialMi_eq _ _ _ _ (mul_pos hX (clip_pos _)) hX hpos hN]
        have e : total (withToken rows) * clipProbability (share (withToken rows) i)
            / (total (withToken rows) * labelWeight rows i / total rows)
            = clipProbability (share (withToken rows) i) / share rows i := by
          rw [hexp]; field_simp
        rw [e]
        cases adjusted with
        | true =>
          simp only [bind, Except.bind, if_true, hemi rfl i hil hs, pure, Except.pure, if_pos hc]
          rfl
        | false =>
          simp only [bind, Except.bind, Bool.false_eq_true, if_false, pure, Except.pure, if_pos hc]
          rfl
  rw [List.mapM_map, mapM_ok_map _ term _ hterm]
  simp only [bind, Except.bind, pure, Except.pure]
  have s1 : (((List.range labels).map term).map Prod.fst).sum = plainMi minDiff labels rows := by
    rw [List.map_map]; rfl
  have s2 : adjusted = true →
      (((List.range labels).map term).map Prod.snd).sum = sumCounted minDiff labels rows emi := by
    intro ha
    rw [List.map_map]
    have : Prod.snd ∘ term = fun i => if Counts minDiff rows i then emi i else 0 := by
      funext i; simp [term, ha]
    rw [this]; rfl
  rw [s1]
  cases adjusted with
  | true => rw [s2 rfl]; rfl
  | false => rfl

/-- **C56, regularized value** With `min_diff_from_avg` the sum is over the labels whose number of
rows with the token differs enough from the average. -/
theorem regularized_mutual_information_value (rnd : ℝ → ℤ) (minDiff : ℝ) (labels : ℕ)
    (rows : List Row) (hv : Valid labels rows)
    (hrnd : rnd (total (withToken rows)) < rnd (total rows)) :
    mutualInformation rnd false minDiff (accOf labels rows) (accOf labels (withToken rows))
      = .ok ⟨some (plainMi minDiff labels rows), none, total (withToken rows)⟩ := by
  rw [mutual_information_general rnd false minDiff labels rows hv hrnd (fun _ => 0) (by simp)]
  simp

/-- Specification: the number of rows of a label. -/
def labelCount (rows : List Row) (i : ℕ) : ℕ := (rows.filter (fun r => r.label = i)).length

theorem total_unit (rows : List Row) (h : ∀ r ∈ rows, r.weight = 1) : total rows = rows.length := by
  unfold total
  rw [List.map_congr_left (g := fun _ => (1 : ℝ)) h]
  simp

/-- **C56, adjusted value** For rows without weights, the adjusted mutual information is the mutual
information minus the sum, over the labels that count, of its expectation when the rows with the token
are drawn at random (`expectedMi`, the expectation under the hypergeometric distribution). -/
theorem adjusted_mutual_information_value (rnd : ℝ → ℤ) (hr : ∀ k : ℤ, rnd k = k) (minDiff : ℝ)
    (labels : ℕ) (rows : List Row) (hv : Valid labels rows) (hw : ∀ r ∈ rows, r.weight = 1)
    (hlt : (withToken rows).length < rows.length) :
    let chance := sumCounted minDiff labels rows
      (fun i => expectedMi rows.length (withToken rows).length (labelCount rows i))
    mutualInformation rnd true minDiff (accOf labels rows) (accOf labels (withToken rows))
      = .ok ⟨some (plainMi minDiff labels rows - chance), some chance,
          ((withToken rows).length : ℝ)⟩ := by
  have t1 : total rows = (rows.length : ℝ) := total_unit rows hw
  have t2 : total (withToken rows) = ((withToken rows).length : ℝ) :=
    total_unit _ (fun r hr => hw r (List.mem_of_mem_filter hr))
  have t3 : ∀ i, labelWeight rows i = (labelCount rows i : ℝ) := fun i =>
    total_unit _ (fun r hr => hw r (List.mem_of_mem_filter hr))
  have rn : ∀ n : ℕ, rnd (n : ℝ) = (n : ℤ) := fun n => by
    have := hr (n : ℤ)
    simpa using this
  intro chance
  have := mutual_information_general rnd true minDiff labels rows hv
    (by rw [t1, t2, rn, rn]; exact_mod_cast hlt)
    (fun i => expectedMi rows.length (withToken rows).length (labelCount rows i))
    (fun _ i _ _ => by
      rw [t1, t2, t3]
      exact partial_emi_exact rnd hr _ _ _ (List.length_filter_le _ _) (List.length_filter_le _ _))
  rw [this]
  simp only [if_true, t2]
  rfl

/-- Rows as in the two theorems: both labels count for `min_diff_from_avg = 1/4`. -/
example : let rows : List Row := [⟨0, 1, true⟩, ⟨1, 1, false⟩, ⟨1, 1, false⟩, ⟨0, 1, true⟩]
    Valid 2 rows ∧ (∀ r ∈ rows, r.weight = 1) ∧ (withToken rows).length < rows.length ∧
    Counts (1 / 4) rows 0 ∧ Counts (1 / 4) rows 1 := by
  refine ⟨⟨?_, ?_, ?_⟩, ?_, ?_, ?_, ?_⟩
  · simp
  · simp
  · simp [withToken]
  · simp
  · simp [withToken]
  · refine ⟨by norm_num [share, labelWeight, total], ?_⟩
    norm_num [share, labelWeight, total, withToken]
  · refine ⟨by norm_num [share, labelWeight, total], ?_⟩
    norm_num [share, labelWeight, total, withToken]

end TFT.Numeric
