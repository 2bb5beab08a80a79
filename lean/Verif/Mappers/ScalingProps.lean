import Verif.Mappers.Scaling
import Verif.Mappers.PerKeyBucketsProps
import Verif.Mappers.LookupProps
import Verif.Combine.MeanVarProps
import Verif.Combine.NumPyProps

/-!
# C21, C22, C48: scaling
-/

namespace TFT.Scaling

open Spec
open Buckets (lookupKey lookupKey_eq)

/-! ## C21 -/

/-- A finite float. -/
def fin (q : ℚ) : EFloat := ((q : WithTop ℚ) : WithBot (WithTop ℚ))

/-- `f` is a scaling of data with minimum `lo` and maximum `hi` to `[outputMin, outputMax]`. -/
structure IsScaling (outputMin outputMax : ℝ) (lo hi : ℚ) (f : ℝ → ℝ) : Prop where
  range : ∀ x : ℚ, lo ≤ x → x ≤ hi → outputMin ≤ f x ∧ f x ≤ outputMax
  ends : lo < hi → f lo = outputMin ∧ f hi = outputMax
  order : ∀ x y, x < y → f x < f y
  constant : lo = hi → ∀ x, outputMin < f x ∧ f x < outputMax

theorem scale_isScaling (outputMin outputMax : ℝ) (hout : outputMin < outputMax) (lo hi : ℚ)
    (h : lo ≤ hi) : ∃ f, (∀ x, scaleByMinMax outputMin outputMax (fin lo) (fin hi) x = .ok (f x)) ∧
      IsScaling outputMin outputMax lo hi f := by
  have hd : 0 < outputMax - outputMin := sub_pos.2 hout
  rcases lt_or_eq_of_le h with hlt | heq
  · have hlt' : fin lo < fin hi := WithBot.coe_lt_coe.2 (WithTop.coe_lt_coe.2 hlt)
    have hr : (0 : ℝ) < (hi : ℝ) - (lo : ℝ) := sub_pos.2 (by exact_mod_cast hlt)
    refine ⟨fun x => (x - (lo : ℝ)) / ((hi : ℝ) - (lo : ℝ)) * (outputMax - outputMin) + outputMin,
      ?_, ?_, ?_, ?_, ?_⟩
    · intro x
      unfold scaleByMinMax
      rw [if_neg (not_le.2 hout), if_pos hlt']
      rfl
    · intro x h1 h2
      have e1 : (0 : ℝ) ≤ (x - (lo : ℝ)) / ((hi : ℝ) - (lo : ℝ)) := by
        apply div_nonneg _ hr.le
        exact sub_nonneg.2 (by exact_mod_cast h1)
      have e2 : (x - (lo : ℝ)) / ((hi : ℝ) - (lo : ℝ)) ≤ 1 := by
        rw [div_le_one hr]
        exact sub_le_sub_right (by exact_mod_cast h2) _
      constructor
      · nlinarith [mul_nonneg e1 hd.le]
      · nlinarith [mul_le_mul_of_nonneg_right e2 hd.le]
    · intro _
      constructor
      · simp
      · rw [div_self hr.ne']; ring
    · intro x y hxy
      have : (x - (lo : ℝ)) / ((hi : ℝ) - (lo : ℝ)) < (y - (lo : ℝ)) / ((hi : ℝ) - (lo : ℝ)) :=
        div_lt_div_of_pos_right (by linarith) hr
      nlinarith [mul_lt_mul_of_pos_right this hd]
    · intro he
      exact absurd he hlt.ne
  · subst heq
    have hs : ∀ x, outputMin < Real.sigmoid x * (outputMax - outputMin) + outputMin ∧
        Real.sigmoid x * (outputMax - outputMin) + outputMin < outputMax := by
      intro x
      have h1 := Real.sigmoid_pos x
      have h2 := Real.sigmoid_lt_one x
      constructor
      · nlinarith [mul_pos h1 hd]
      · nlinarith [mul_lt_mul_of_pos_right h2 hd]
    refine ⟨fun x => Real.sigmoid x * (outputMax - outputMin) + outputMin, ?_, ?_, ?_, ?_, ?_⟩
    · intro x
      unfold scaleByMinMax
      rw [if_neg (not_le.2 hout), if_neg (lt_irrefl _)]
      rfl
    · intro x _ _; exact ⟨(hs x).1.le, (hs x).2.le⟩
    · intro h; exact absurd h (lt_irrefl _)
    · intro x y hxy
      have := Real.sigmoid_strictMono hxy
      nlinarith [mul_lt_mul_of_pos_right this hd]
    · intro _ x; exact hs x

theorem fin_of_mem (data : List ℚ) (v : EFloat) (h : v ∈ data.map fin) : ∃ q ∈ data, v = fin q := by
  obtain ⟨q, hq, rfl⟩ := List.mem_map.1 h
  exact ⟨q, hq, rfl⟩

theorem fin_le (a b : ℚ) : fin a ≤ fin b ↔ a ≤ b := by
  unfold fin
  rw [WithBot.coe_le_coe, WithTop.coe_le_coe]

/-- **C21**, from the data to the scaled values. The data are finite; `sh` is the shape of the
statistics (`[]`: one minimum and maximum for everything, otherwise `elementwise`), and `data p`
are all the values at position `p` in the whole dataset. For every run of the analysis, every
output range and every position with data, `scale_by_min_max` is a scaling of these data. -/
theorem scale_by_min_max_spec (sh : List Nat) (known : Bool) (outputMin outputMax : ℝ)
    (hout : outputMin < outputMax) (s1 : List (Sched (ColBatch EFloat))) (s2 : Sched Nat)
    (hv : ValidRun s1 s2) (hlen : ∀ b ∈ allInputs s1, b.length = sh.prod)
    (data : Nat → List ℚ) (hdata : ∀ p, colData (allInputs s1) p = (data p).map fin) :
    ∃ mins maxs, analysis (minMaxAnalyzer floatType sh known) s1 s2 = .ok [mins, maxs] ∧
      ∀ p < sh.prod, data p ≠ [] → ∃ mn mx lo hi f, mins.data[p]? = some mn ∧
        maxs.data[p]? = some mx ∧ IsMinOf lo (data p) ∧ IsMaxOf hi (data p) ∧
        (∀ x, scaleByMinMax outputMin outputMax mn mx x = .ok (f x)) ∧
        IsScaling outputMin outputMax lo hi f := by
  have hmem : ∀ b ∈ allInputs s1, ∀ c ∈ b, ∀ x ∈ c, ∃ q, x = fin q := by
    intro b hb c hc x hx
    obtain ⟨p, hp, rfl⟩ := List.getElem_of_mem hc
    have : x ∈ colData (allInputs s1) p := by
      unfold colData
      rw [List.mem_flatMap]
      exact ⟨b, hb, by rw [List.getD_eq_getElem _ _ hp]; exact hx⟩
    rw [hdata p] at this
    obtain ⟨q, -, rfl⟩ := fin_of_mem _ _ this
    exact ⟨q, rfl⟩
  have key : ∃ mins maxs, analysis (minMaxAnalyzer floatType sh known) s1 s2 = .ok [mins, maxs] ∧
      ∀ p, colData (allInputs s1) p ≠ [] → p < sh.prod →
        ∃ lo hi, mins.data[p]? = some lo ∧ maxs.data[p]? = some hi ∧
          IsMinOf lo (colData (allInputs s1) p) ∧ IsMaxOf hi (colData (allInputs s1) p) := by
    by_cases hsh : sh = []
    · subst hsh
      refine float_min_max_partial known s1 s2 hv (fun b hb => ⟨hlen b hb, ?_⟩)
      intro c hc x hx
      obtain ⟨q, rfl⟩ := hmem b hb c hc x hx
      intro h
      have := WithBot.coe_injective (h : ((q : WithTop ℚ) : WithBot (WithTop ℚ)) = ((⊤ : WithTop ℚ) : WithBot (WithTop ℚ)))
      exact WithTop.coe_ne_top this
    · exact float_elementwise_min_max sh hsh known s1 s2 hv
        (fun b hb => ⟨hlen b hb, fun _ _ _ _ => trivial⟩)
  obtain ⟨mins, maxs, hrun, hk⟩ := key
  refine ⟨mins, maxs, hrun, ?_⟩
  intro p hp hne
  obtain ⟨mn, mx, h1, h2, h3, h4⟩ := hk p (by rw [hdata p]; simpa using hne) hp
  rw [hdata p] at h3 h4
  obtain ⟨lo, hlo, rfl⟩ := fin_of_mem _ _ h3.1
  obtain ⟨hi, hhi, rfl⟩ := fin_of_mem _ _ h4.1
  have hlo' : IsMinOf lo (data p) :=
    ⟨hlo, fun x hx => (fin_le _ _).1 (h3.2 _ (List.mem_map.2 ⟨x, hx, rfl⟩))⟩
  have hhi' : IsMaxOf hi (data p) :=
    ⟨hhi, fun x hx => (fin_le _ _).1 (h4.2 _ (List.mem_map.2 ⟨x, hx, rfl⟩))⟩
  obtain ⟨f, hf1, hf2⟩ := scale_isScaling outputMin outputMax hout lo hi (hlo'.2 _ hhi)
  exact ⟨_, _, lo, hi, f, h1, h2, hlo', hhi', hf1, hf2⟩

/-- An empty output range is refused. -/
theorem scale_by_min_max_range_error (outputMin outputMax : ℝ) (h : outputMax ≤ outputMin)
    (mn mx : EFloat) (x : ℝ) :
    scaleByMinMax outputMin outputMax mn mx x
      = .error "ValueError: output_min must be less than output_max" := by
  unfold scaleByMinMax
  rw [if_pos h]

/-- The hypotheses of C21 are met: two datasets, values 2, -1 and 5, 5. -/
example : ValidRun [Sched.add .create [[fin 2, fin (-1)]], .add (.add .create [[fin 5]]) [[fin 5]]]
      (.merge [.add .create 1, .add .create 0]) ∧
    colData (allInputs [Sched.add .create [[fin 2, fin (-1)]],
      .add (.add .create [[fin 5]]) [[fin 5]]]) 0 = [2, -1, 5, 5].map fin := by
  refine ⟨⟨?_, ?_, ?_⟩, by decide +kernel⟩
  · intro s hs
    simp only [List.mem_cons, List.not_mem_nil, or_false] at hs
    rcases hs with rfl | rfl
    · exact .add .create
    · exact .add (.add .create)
  · refine .merge (by simp) ?_
    intro s hs
    simp only [List.mem_cons, List.not_mem_nil, or_false] at hs
    rcases hs with rfl | rfl <;> exact .add .create
  · decide

/-! ## C22 -/

/-- Mean of real numbers. -/
noncomputable def meanR (l : List ℝ) : ℝ := l.sum / l.length

/-- Population variance of real numbers. -/
noncomputable def varianceR (l : List ℝ) : ℝ := (l.map (fun x => (x - meanR l) ^ 2)).sum / l.length

theorem sum_map_cast (l : List ℚ) : (l.map (fun x : ℚ => (x : ℝ))).sum = ((l.sum : ℚ) : ℝ) := by
  induction l with
  | nil => simp
  | cons a l ih =>
    rw [List.map_cons, List.sum_cons, List.sum_cons, ih]
    push_cast
    ring

theorem sum_map_sub (l : List ℚ) (m : ℝ) :
    (l.map (fun x : ℚ => (x : ℝ) - m)).sum = ((l.sum : ℚ) : ℝ) - l.length * m := by
  induction l with
  | nil => simp
  | cons a l ih =>
    simp only [List.map_cons, List.sum_cons, ih, List.length_cons]
    push_cast
    ring

theorem sum_map_div (l : List ℚ) (g : ℚ → ℝ) (s : ℝ) :
    (l.map (fun x => g x / s)).sum = (l.map g).sum / s := by
  induction l with
  | nil => simp
  | cons a l ih =>
    simp only [List.map_cons, List.sum_cons, ih]
    ring

theorem variance_nonneg (l : List ℚ) : 0 ≤ variance l := by
  unfold variance
  apply div_nonneg _ (by positivity)
  apply List.sum_nonneg
  intro x hx
  obtain ⟨y, -, rfl⟩ := List.mem_map.1 hx
  positivity

theorem sum_sq_eq_zero (l : List ℚ) (m : ℚ) (h : (l.map (fun x => (x - m) ^ 2)).sum = 0) :
    ∀ x ∈ l, x = m := by
  induction l with
  | nil => simp
  | cons a l ih =>
    simp only [List.map_cons, List.sum_cons] at h
    have h1 : 0 ≤ (a - m) ^ 2 := by positivity
    have h2 : 0 ≤ (l.map (fun x => (x - m) ^ 2)).sum := by
      apply List.sum_nonneg
      intro x hx
      obtain ⟨y, -, rfl⟩ := List.mem_map.1 hx
      positivity
    have h3 : (a - m) ^ 2 = 0 := by linarith
    have h4 : a = m := by
      have := pow_eq_zero_iff (two_ne_zero) |>.1 h3
      linarith
    intro x hx
    rcases List.mem_cons.1 hx with rfl | hx
    · exact h4
    · exact ih (by linarith) x hx

theorem variance_cast (l : List ℚ) :
    (l.map (fun x : ℚ => ((x : ℝ) - ((mean l : ℚ) : ℝ)) ^ 2)).sum = ((l.length * variance l : ℚ) : ℝ) := by
  by_cases h0 : l = []
  · subst h0; simp
  · have hl : (l.length : ℚ) ≠ 0 := by
      have := List.length_pos_iff.2 h0
      positivity
    have : (l.length * variance l : ℚ) = (l.map (fun x => (x - mean l) ^ 2)).sum := by
      unfold variance
      field_simp
    rw [this, ← sum_map_cast, List.map_map]
    congr 1
    apply List.map_congr_left
    intro x _
    simp

theorem zscore_of_data (data : List ℚ) (hne : data ≠ []) :
    ∃ z : ℚ → ℝ, (∀ x ∈ data, zScore (some (mean data)) (some (variance data)) x = some (z x)) ∧
      meanR (data.map z) = 0 ∧
      ((∃ x ∈ data, ∃ y ∈ data, x ≠ y) → varianceR (data.map z) = 1) ∧
      ((∀ x ∈ data, ∀ y ∈ data, x = y) → ∀ x ∈ data, z x = 0) := by
  have hlen : (data.length : ℝ) ≠ 0 := by
    have := List.length_pos_iff.2 hne
    positivity
  have hlenQ : (data.length : ℚ) ≠ 0 := by
    have := List.length_pos_iff.2 hne
    positivity
  have hsum : (data.map (fun x : ℚ => (x : ℝ) - ((mean data : ℚ) : ℝ))).sum = 0 := by
    rw [sum_map_sub]
    have : (data.sum : ℚ) = data.length * mean data := by
      unfold mean; field_simp
    rw [this]
    push_cast
    ring
  have hconst : variance data = 0 → ∀ x ∈ data, x = mean data := by
    intro h
    apply sum_sq_eq_zero
    unfold variance at h
    rcases div_eq_zero_iff.1 h with h | h
    · exact h
    · exact absurd h hlenQ
  by_cases hv : variance data = 0
  · refine ⟨fun x : ℚ => (x : ℝ) - ((mean data : ℚ) : ℝ), ?_, ?_, ?_, ?_⟩
    · intro x _
      simp [zScore, hv]
    · unfold meanR
      rw [hsum, zero_div]
    · rintro ⟨x, hx, y, hy, hxy⟩
      exact absurd ((hconst hv x hx).trans (hconst hv y hy).symm) hxy
    · intro _ x hx
      show (x : ℝ) - ((mean data : ℚ) : ℝ) = 0
      rw [hconst hv x hx, sub_self]
  · have hpos : 0 < variance data := lt_of_le_of_ne (variance_nonneg data) (Ne.symm hv)
    have hposR : (0 : ℝ) < ((variance data : ℚ) : ℝ) := by exact_mod_cast hpos
    have hs : Real.sqrt ((variance data : ℚ) : ℝ) ≠ 0 := (Real.sqrt_pos.2 hposR).ne'
    set s := Real.sqrt ((variance data : ℚ) : ℝ) with hsdef
    have hmean : meanR (data.map (fun x : ℚ => ((x : ℝ) - ((mean data : ℚ) : ℝ)) / s)) = 0 := by
      unfold meanR
      rw [sum_map_div data (fun x : ℚ => (x : ℝ) - ((mean data : ℚ) : ℝ)) s, hsum, zero_div, zero_div]
    refine ⟨fun x : ℚ => ((x : ℝ) - ((mean data : ℚ) : ℝ)) / s, ?_, hmean, ?_, ?_⟩
    · intro x _
      unfold zScore
      simp only [Option.bind_some]
      rw [if_neg (not_lt.2 hpos.le), ← hsdef, if_pos hs]
    · intro _
      unfold varianceR
      rw [hmean, List.map_map]
      have : (fun x : ℝ => (x - 0) ^ 2) ∘ (fun x : ℚ => ((x : ℝ) - ((mean data : ℚ) : ℝ)) / s)
          = fun x : ℚ => ((x : ℝ) - ((mean data : ℚ) : ℝ)) ^ 2 / s ^ 2 := by
        funext x
        simp [div_pow]
      rw [this, sum_map_div data (fun x : ℚ => ((x : ℝ) - ((mean data : ℚ) : ℝ)) ^ 2) (s ^ 2),
        variance_cast, hsdef, Real.sq_sqrt hposR.le, List.length_map]
      push_cast
      field_simp
    · intro hc x hx
      exfalso
      apply hv
      unfold variance
      have hall : ∀ y ∈ data, y = x := fun y hy => hc y hy x hx
      have hm : mean data = x := by
        unfold mean
        have : data = List.replicate data.length x := List.eq_replicate_iff.2 ⟨rfl, hall⟩
        rw [this]
        simp only [List.sum_replicate, nsmul_eq_mul, List.length_replicate]
        field_simp
      have : data.map (fun y => (y - mean data) ^ 2) = data.map (fun _ => (0 : ℚ)) := by
        apply List.map_congr_left
        intro y hy
        rw [hm, hall y hy]
        ring
      rw [this]
      simp

/-- **C22**, from the data to the scaled values. For every run of the analysis over dense batches
(or batches reduced over all instance dimensions): the scaled finite values of every column that
has some have mean 0, and variance 1 unless they are constant; constant columns become 0. -/
theorem z_score_spec (cols : Nat) (s1 : List (Sched Batch)) (s2 : Sched Nat)
    (hv : ValidRun s1 s2) :
    ∃ means vars, analysis (meanVarAnalyzer denseStats cols) s1 s2 = .ok (.meanVar means vars) ∧
      ∀ j, let data := columnData (allInputs s1) j
        data ≠ [] → ∃ mean var, means[j]? = some mean ∧ vars[j]? = some var ∧
          ∃ z : ℚ → ℝ, (∀ x ∈ data, zScore mean var x = some (z x)) ∧
            meanR (data.map z) = 0 ∧
            ((∃ x ∈ data, ∃ y ∈ data, x ≠ y) → varianceR (data.map z) = 1) ∧
            ((∀ x ∈ data, ∀ y ∈ data, x = y) → ∀ x ∈ data, z x = 0) := by
  obtain ⟨means, vars, hrun, h⟩ := mean_var_schedule_independent cols s1 s2 hv (fun _ _ => trivial)
  refine ⟨means, vars, hrun, ?_⟩
  intro j data hne
  obtain ⟨h1, h2⟩ := (h j).1 hne
  exact ⟨_, _, h1, h2, zscore_of_data data hne⟩

/-- The hypotheses of C22 are met by `exampleRun1`, `exampleRun2`, whose data are not constant. -/
example : ValidRun exampleRun1 exampleRun2 ∧
    columnData (allInputs exampleRun1) 0 = [1, 2, 6] := ⟨exampleRun_valid, by decide +kernel⟩

/-- The documentation says that a column whose variance is 0 is returned unscaled; the code
subtracts the mean: the value 5 of a constant column of fives becomes 0. -/
theorem z_score_constant_not_unscaled : zScore (some 5) (some 0) 5 = some 0 := by
  simp [zScore]

/-! ## C48 -/

section perKey

variable {K : Type} [DecidableEq K] {α : Type}

/-- **C48.** The statistic of an instance is that of its own key, for all vocabularies, in any
order; keys that are not in the vocabulary get 0. -/
theorem map_per_key_spec (zero : α) (stat : K → α) (keyVocab : List K) (hnd : keyVocab.Nodup)
    (hne : keyVocab ≠ []) (key : K) :
    mapPerKey zero (keyVocab.map stat) key keyVocab
      = .ok (if key ∈ keyVocab then stat key else zero) := by
  unfold mapPerKey
  rw [if_neg (by simpa using hne), lookupKey_eq key keyVocab hnd]
  by_cases hk : key ∈ keyVocab
  · have hlt := List.idxOf_lt_length_iff.2 hk
    simp only [hk, if_true]
    rw [if_pos (by positivity), Int.toNat_natCast, List.getElem?_append_left (by simpa using hlt),
      List.getElem?_map, List.getElem?_eq_getElem hlt, List.getElem_idxOf]
    rfl
  · simp only [hk, if_false]
    rw [if_neg (by omega), List.getElem?_append_right (by simp)]
    simp

/-- **C48** for `scale_by_min_max_per_key`: own minimum and maximum; unseen keys use the sigmoid. -/
theorem scale_per_key_spec (outputMin outputMax : ℝ) (hout : outputMin < outputMax)
    (keyVocab : List K) (hnd : keyVocab.Nodup) (hne : keyVocab ≠ []) (lo hi : K → EFloat) (x : ℝ)
    (key : K) :
    scaleByMinMaxPerKey outputMin outputMax keyVocab (keyVocab.map lo) (keyVocab.map hi) x key
      = if key ∈ keyVocab then scaleByMinMax outputMin outputMax (lo key) (hi key) x
        else .ok (Real.sigmoid x * (outputMax - outputMin) + outputMin) := by
  unfold scaleByMinMaxPerKey
  rw [if_neg (not_le.2 hout)]
  have h1 := map_per_key_spec (((0 : ℚ) : WithTop ℚ) : EFloat) lo keyVocab hnd hne key
  have h2 := map_per_key_spec (((0 : ℚ) : WithTop ℚ) : EFloat) hi keyVocab hnd hne key
  simp only [h1, h2, bind, Except.bind]
  by_cases hk : key ∈ keyVocab
  · simp only [hk, if_true]
  · simp only [hk, if_false]
    unfold scaleByMinMax
    rw [if_neg (not_le.2 hout), if_neg (lt_irrefl _)]
    rfl

/-- **C48** for `scale_to_z_score_per_key`: own mean and variance; unseen keys are unchanged. -/
theorem z_score_per_key_spec (keyVocab : List K) (hnd : keyVocab.Nodup) (hne : keyVocab ≠ [])
    (mean var : K → Option ℚ) (x : ℝ) (key : K) :
    zScorePerKey keyVocab (keyVocab.map mean) (keyVocab.map var) x key
      = .ok (if key ∈ keyVocab then zScore (mean key) (var key) x else some x) := by
  unfold zScorePerKey
  rw [map_per_key_spec _ mean keyVocab hnd hne, map_per_key_spec _ var keyVocab hnd hne]
  simp only [bind, Except.bind]
  by_cases hk : key ∈ keyVocab <;> simp [hk, zScore]

end perKey

/-- The hypotheses of the per-key theorems are met. -/
example : mapPerKey (0 : ℚ) ([3, 1, 2].map (fun k : Nat => (k : ℚ) * 10)) 1 [3, 1, 2] = .ok 10 ∧
    mapPerKey (0 : ℚ) ([3, 1, 2].map (fun k : Nat => (k : ℚ) * 10)) 7 [3, 1, 2] = .ok 0 := by
  decide +kernel

/-- An empty analysis dataset makes per-key scaling fail, although the documentation promises the
sigmoid. -/
theorem per_key_empty_error (x : ℝ) (key : Nat) :
    scaleByMinMaxPerKey 0 1 ([] : List Nat) [] [] x key
      = .error "InvalidArgumentError: slice index 0 of dimension 0 out of bounds" := by
  unfold scaleByMinMaxPerKey
  rw [if_neg (by norm_num)]
  rfl

/-! ## Key files -/

open Lookup

/-- Formatted values have no separators in them, and are read back. -/
structure Printable {V : Type} (showValue : V → Str) (parse : Str → Except Err V) (zero : V) :
    Prop where
  plain : ∀ v, '\n' ∉ showValue v ∧ '\r' ∉ showValue v ∧ ' ' ∉ showValue v ∧ ',' ∉ showValue v
  nonempty : ∀ v, showValue v ≠ []
  roundtrip : ∀ v, parse (showValue v) = .ok v
  zero : parse "0".toList = .ok zero

/-- **C48** for statistics kept in a file: every key gets its own pair, unseen keys get zeros.
Keys must not contain spaces or newlines, see `per_key_file_space_wrong`. -/
theorem per_key_file_partial {V : Type} (showValue : V → Str) (parse : Str → Except Err V)
    (zero : V) (hp : Printable showValue parse zero) (entries : List (Str × V × V))
    (hnd : (entries.map Prod.fst).Nodup)
    (hk : ∀ e ∈ entries, '\n' ∉ e.1 ∧ '\r' ∉ e.1 ∧ ' ' ∉ e.1) :
    (∀ e ∈ entries, applyPerKeyVocabulary parse (perKeyFile showValue entries) e.1 = .ok e.2) ∧
    (∀ key, key ∉ entries.map Prod.fst →
      applyPerKeyVocabulary parse (perKeyFile showValue entries) key = .ok (zero, zero)) := by
  let text : V × V → Str := fun v => showValue v.1 ++ ',' :: showValue v.2
  have hrows : seqExcept ((readLinesFrom [] ((entries.map (fun e =>
      showValue e.2.1 ++ ',' :: showValue e.2.2 ++ ' ' :: e.1)).flatMap (fun l => l ++ ['\n']))).map perKeyRow)
      = .ok (entries.map (fun e => (e.1, text e.2))) := by
    rw [readLines_lines]
    · rw [List.map_map]
      apply seqExcept_ok_map
      intro e he
      have h1 := hp.plain e.2.1
      have h2 := hp.plain e.2.2
      have hsp : ' ' ∉ showValue e.2.1 ++ ',' :: showValue e.2.2 := by
        simp [h1.2.2.1, h2.2.2.1]
      simp only [Function.comp_apply, perKeyRow]
      rw [splitAll_first _ _ _ hsp, splitAll_none _ _ (hk e he).2.2]
    · intro l hl
      obtain ⟨e, he, rfl⟩ := List.mem_map.1 hl
      have h1 := hp.plain e.2.1
      have h2 := hp.plain e.2.2
      have h3 := hk e he
      constructor <;> simp [h1, h2, h3]
  have htable : perKeyTable (perKeyFile showValue entries)
      = .ok (entries.map (fun e => (e.1, text e.2))) := by
    unfold perKeyTable perKeyFile writeFile
    simp only [hrows, bind, Except.bind]
    rw [if_pos]
    simp only [List.all_eq_true, decide_eq_true_eq, List.mem_map]
    rintro r ⟨e, he, rfl⟩ s ⟨e', he', rfl⟩ heq
    have := List.inj_on_of_nodup_map hnd he he' heq
    rw [this]
  have hsplit : ∀ v : V × V, splitAll ',' (text v) = [showValue v.1, showValue v.2] := by
    intro v
    show splitAll ',' (showValue v.1 ++ ',' :: showValue v.2) = _
    rw [splitAll_first _ _ _ (hp.plain v.1).2.2.2, splitAll_none _ _ (hp.plain v.2).2.2.2]
  constructor
  · intro e he
    unfold applyPerKeyVocabulary
    have hfind : (entries.map (fun e => (e.1, text e.2))).find? (fun r => decide (r.1 = e.1))
        = some (e.1, text e.2) := by
      cases hf : (entries.map (fun e => (e.1, text e.2))).find? (fun r => decide (r.1 = e.1)) with
      | none =>
        rw [List.find?_eq_none] at hf
        have := hf (e.1, text e.2) (List.mem_map.2 ⟨e, he, rfl⟩)
        simp at this
      | some r =>
        have hr := List.find?_some hf
        obtain ⟨e', he', rfl⟩ := List.mem_map.1 (List.mem_of_find?_eq_some hf)
        simp only [decide_eq_true_eq] at hr
        have := List.inj_on_of_nodup_map hnd he' he hr
        rw [this]
    simp only [htable, bind, Except.bind, hfind, Option.map_some, Option.getD_some, hsplit,
      hp.nonempty, if_false, hp.roundtrip]
  · intro key hkey
    unfold applyPerKeyVocabulary
    have hfind : (entries.map (fun e => (e.1, text e.2))).find? (fun r => decide (r.1 = key))
        = none := by
      rw [List.find?_eq_none]
      rintro r hr
      obtain ⟨e, he, rfl⟩ := List.mem_map.1 hr
      simp only [decide_eq_true_eq]
      intro h
      exact hkey (List.mem_map.2 ⟨e, he, h⟩)
    have h0 : splitAll ',' "0,0".toList = ["0".toList, "0".toList] := by decide
    simp only [htable, bind, Except.bind, hfind, Option.map_none, Option.getD_none, h0]
    simp only [show ("0".toList = []) = False by simp, if_false, hp.zero]

/-- **C48** fails for statistics kept in a file when a key contains a space: "new york" gets
(0, 0) instead of its statistics (3, 4), which go to "new" instead. -/
theorem per_key_file_space_wrong :
    let showValue : Nat → Str := fun n => [Char.ofNat (n + 48)]
    let parse : Str → Except Err Nat := fun s => .ok ((s.headD '0').toNat - 48)
    let file := perKeyFile showValue [("a".toList, 1, 2), ("new york".toList, 3, 4)]
    applyPerKeyVocabulary parse file "new york".toList = .ok (0, 0) ∧
    applyPerKeyVocabulary parse file "new".toList = .ok (3, 4) ∧
    applyPerKeyVocabulary parse file "a".toList = .ok (1, 2) := by
  decide +kernel

/-- ... and two keys that start with the same word make the table's initialization fail. -/
theorem per_key_file_space_error :
    let showValue : Nat → Str := fun n => [Char.ofNat (n + 48)]
    let parse : Str → Except Err Nat := fun s => .ok ((s.headD '0').toNat - 48)
    let file := perKeyFile showValue [("new york".toList, 1, 2), ("new jersey".toList, 3, 4)]
    applyPerKeyVocabulary parse file "a".toList
      = .error "InvalidArgumentError: HashTable has different value for same key" := by
  decide +kernel

/-- The hypotheses of `per_key_file_partial` are met. -/
example : Printable (fun b : Bool => if b then "1".toList else "0".toList)
    (fun s => .ok (decide (s = "1".toList))) false := by
  refine ⟨?_, ?_, ?_, ?_⟩
  · decide
  · decide
  · decide
  · decide

end TFT.Scaling
