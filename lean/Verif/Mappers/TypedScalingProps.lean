import Verif.Mappers.TypedScaling
import Verif.Mappers.ScalingProps
import Verif.Mappers.TypedBucketsProps

/-!
# Scaling of columns of integers (C97)
-/

namespace TFT.TypedScaling

open TFT.Buckets TFT.Scaling TFT.Spec

/-! ## Specification -/

/-- `r` is the rounding from the type `src` to the type `t`: none if they are the same. -/
def Spec.IsCast (r : ℚ → ℚ) (src t : Dtype) : Prop :=
  if src = t then r = id
  else match t with
    | .float p _ => IsRounding p r
    | .int _ _ => False

/-! ## Lemmas -/

theorem castTo_isCast (c : Casts) (src : Dtype) (p e : Nat) (h : IsRounding p (c.round p)) :
    Spec.IsCast (castTo c src (.float p e)) src (.float p e) := by
  unfold Spec.IsCast
  by_cases hs : src = .float p e
  · rw [if_pos hs]; funext q; simp [castTo, hs]
  · rw [if_neg hs]
    have : castTo c src (.float p e) = c.round p := by funext q; simp [castTo, hs]
    show IsRounding p _
    rw [this]; exact h

theorem cast_mono {r : ℚ → ℚ} {src t : Dtype} (h : Spec.IsCast r src t) : Monotone r := by
  unfold Spec.IsCast at h
  split at h
  · rw [h]; exact monotone_id
  · split at h
    · exact h.mono
    · exact absurd h id

theorem columnData_cast (r : ℚ → ℚ) (bs : List (ColBatch ℚ)) (j : Nat) :
    columnData (bs.map (fun b : ColBatch ℚ => b.map (List.map (fun q => some (r q))))) j
      = (colData bs j).map r := by
  unfold columnData colData
  induction bs with
  | nil => rfl
  | cons b bs ih =>
    rw [List.map_cons, List.flatMap_cons, ih, List.flatMap_cons, List.map_append]
    congr 1
    rw [List.getD_eq_getElem?_getD, List.getD_eq_getElem?_getD, List.getElem?_map]
    cases b[j]? with
    | none => rfl
    | some col =>
      simp only [Option.map_some, Option.getD_some, Spec.finite]
      induction col with
      | nil => rfl
      | cons a l ih => simp

theorem colData_cast (r : ℚ → EFloat) (bs : List (ColBatch ℚ)) (j : Nat) :
    colData (bs.map (fun b : ColBatch ℚ => b.map (List.map r))) j = (colData bs j).map r := by
  unfold colData
  induction bs with
  | nil => rfl
  | cons b bs ih =>
    rw [List.map_cons, List.flatMap_cons, ih, List.flatMap_cons, List.map_append]
    congr 1
    rw [List.getD_eq_getElem?_getD, List.getD_eq_getElem?_getD, List.getElem?_map]
    cases b[j]? <;> simp

theorem zScore_mono (mean var : Option ℚ) (x y : ℝ) (hxy : x ≤ y) (a b : ℝ)
    (ha : zScore mean var x = some a) (hb : zScore mean var y = some b) : a ≤ b := by
  unfold zScore at ha hb
  cases mean with
  | none => simp at ha
  | some m =>
    cases var with
    | none => simp at ha
    | some v =>
      simp only [Option.bind_some] at ha hb
      by_cases hv : v < 0
      · simp [hv] at ha
      · simp only [hv, if_false, Option.some.injEq] at ha hb
        rw [← ha, ← hb]
        split
        · exact div_le_div_of_nonneg_right (by linarith) (Real.sqrt_nonneg _)
        · linarith

theorem zScore_strict (mean var : Option ℚ) (x y : ℝ) (hxy : x < y) (a b : ℝ)
    (ha : zScore mean var x = some a) (hb : zScore mean var y = some b) : a < b := by
  unfold zScore at ha hb
  cases mean with
  | none => simp at ha
  | some m =>
    cases var with
    | none => simp at ha
    | some v =>
      simp only [Option.bind_some] at ha hb
      by_cases hv : v < 0
      · simp [hv] at ha
      · simp only [hv, if_false, Option.some.injEq] at ha hb
        rw [← ha, ← hb]
        split
        · rename_i h0
          exact div_lt_div_of_pos_right (by linarith) (lt_of_le_of_ne (Real.sqrt_nonneg _) (Ne.symm h0))
        · linarith

/-! ## Mean, variance and z-scores -/

/-- **C97** for a column of any type, with the rounding `r` to the type `float p e` of the result. Mean and variance
are those of the rounded values. The z-scores have mean 0, and variance 1 unless all values are rounded to the same
number; then they are 0. They never reverse the order of two values, and two values get the same z-score exactly if
they are rounded to the same number. -/
theorem z_scores_of_rounded (c : Casts) (outputDtype : Option Dtype) (src : Dtype) (p e : Nat)
    (ht : meanVarType outputDtype src = .ok (.float p e)) (hr : IsRounding p (c.round p)) (cols : Nat)
    (s1 : List (Sched (ColBatch ℚ))) (s2 : Sched Nat) (hv : ValidRun s1 s2) :
    ∃ r, Spec.IsCast r src (.float p e) ∧
    ∃ means vars, meanAndVar c outputDtype src cols s1 s2 = .ok (.meanVar means vars) ∧
      ∀ j, let data := colData (allInputs s1) j
        data ≠ [] → ∃ z : ℚ → ℝ,
          means[j]? = some (some (mean (data.map r))) ∧ vars[j]? = some (some (variance (data.map r))) ∧
          (∀ x ∈ data, zScoreTyped c src (.float p e) (some (mean (data.map r))) (some (variance (data.map r))) x
            = some (z x)) ∧
          meanR (data.map z) = 0 ∧
          ((∃ x ∈ data, ∃ y ∈ data, r x ≠ r y) → varianceR (data.map z) = 1) ∧
          ((∀ x ∈ data, ∀ y ∈ data, r x = r y) → ∀ x ∈ data, z x = 0) ∧
          (∀ x ∈ data, ∀ y ∈ data, x ≤ y → z x ≤ z y) ∧
          (∀ x ∈ data, ∀ y ∈ data, z x = z y ↔ r x = r y) := by
  refine ⟨castTo c src (.float p e), castTo_isCast c src p e hr, ?_⟩
  have hm := cast_mono (castTo_isCast c src p e hr)
  set r := castTo c src (.float p e) with hrdef
  obtain ⟨means, vars, hrun, h⟩ := mean_var_schedule_independent cols
    (s1.map (Sched.map (fun b : ColBatch ℚ => b.map (List.map (fun q => some (r q)))))) s2 (hv.map _)
    (fun _ _ => trivial)
  refine ⟨means, vars, ?_, ?_⟩
  · unfold meanAndVar
    rw [ht]
    exact hrun
  intro j data hne
  have hcol : columnData (allInputs (s1.map (Sched.map (fun b : ColBatch ℚ =>
      b.map (List.map (fun q => some (r q))))))) j = data.map r := by
    rw [allInputs_map]
    exact columnData_cast r _ j
  have hne' : data.map r ≠ [] := by simpa using hne
  obtain ⟨h1, h2⟩ := (h j).1 (by rw [hcol]; exact hne')
  rw [hcol] at h1 h2
  obtain ⟨z, hz, hmean, hvar, hconst⟩ := zscore_of_data (data.map r) hne'
  have hzx : ∀ x ∈ data, zScore (some (mean (data.map r))) (some (variance (data.map r))) ((r x : ℚ) : ℝ)
      = some (z (r x)) := fun x hx => hz (r x) (List.mem_map_of_mem hx)
  refine ⟨fun x => z (r x), h1, h2, hzx, ?_, ?_, ?_, ?_, ?_⟩
  · rw [List.map_map] at hmean; exact hmean
  · rintro ⟨x, hx, y, hy, hxy⟩
    have := hvar ⟨r x, List.mem_map_of_mem hx, r y, List.mem_map_of_mem hy, hxy⟩
    rw [List.map_map] at this
    exact this
  · intro hall x hx
    refine hconst ?_ (r x) (List.mem_map_of_mem hx)
    intro a ha b hb
    obtain ⟨a', ha', rfl⟩ := List.mem_map.1 ha
    obtain ⟨b', hb', rfl⟩ := List.mem_map.1 hb
    exact hall a' ha' b' hb'
  · intro x hx y hy hxy
    exact zScore_mono _ _ _ _ (by exact_mod_cast hm hxy) _ _ (hzx x hx) (hzx y hy)
  · intro x hx y hy
    refine ⟨fun heq => ?_, fun heq => congrArg z heq⟩
    rcases lt_trichotomy (r x) (r y) with hlt | h | hlt
    · exact absurd heq (zScore_strict _ _ _ _ (by exact_mod_cast hlt) _ _ (hzx x hx) (hzx y hy)).ne
    · exact h
    · exact absurd heq (zScore_strict _ _ _ _ (by exact_mod_cast hlt) _ _ (hzx y hy) (hzx x hx)).ne'

/-- **C97**, the usual case: integers of at most `p` binary digits (24 for `float32`, 53 with
`output_dtype=tf.float64`). Mean and variance are those of the integers, and different integers get different
z-scores. -/
theorem integer_z_scores_exact (c : Casts) (outputDtype : Option Dtype) (signed : Bool) (bits p e : Nat) (hp : 0 < p)
    (ht : meanVarType outputDtype (.int signed bits) = .ok (.float p e)) (hr : IsRounding p (c.round p)) (cols : Nat)
    (s1 : List (Sched (ColBatch ℚ))) (s2 : Sched Nat) (hv : ValidRun s1 s2)
    (hint : ∀ b ∈ allInputs s1, ∀ col ∈ b, ∀ q ∈ col, ∃ n : ℤ, q = n ∧ |n| ≤ 2 ^ p) :
    ∃ means vars, meanAndVar c outputDtype (.int signed bits) cols s1 s2 = .ok (.meanVar means vars) ∧
      ∀ j, let data := colData (allInputs s1) j
        data ≠ [] → ∃ z : ℚ → ℝ,
          means[j]? = some (some (mean data)) ∧ vars[j]? = some (some (variance data)) ∧
          (∀ x ∈ data, zScoreTyped c (.int signed bits) (.float p e) (some (mean data)) (some (variance data)) x
            = some (z x)) ∧
          meanR (data.map z) = 0 ∧ ((∃ x ∈ data, ∃ y ∈ data, x ≠ y) → varianceR (data.map z) = 1) ∧
          (∀ x ∈ data, ∀ y ∈ data, x < y → z x < z y) := by
  obtain ⟨r, hc, means, vars, hrun, h⟩ := z_scores_of_rounded c outputDtype _ p e ht hr cols s1 s2 hv
  refine ⟨means, vars, hrun, ?_⟩
  intro j data hne
  have hfix : ∀ x ∈ data, r x = x := by
    intro x hx
    unfold Spec.IsCast at hc
    rw [if_neg (by simp)] at hc
    obtain ⟨b, hb, hxb⟩ := List.mem_flatMap.1 hx
    rw [List.getD_eq_getElem?_getD] at hxb
    cases hcol : b[j]? with
    | none => simp [hcol] at hxb
    | some col =>
      rw [hcol] at hxb
      obtain ⟨n, rfl, hn⟩ := hint b hb col (List.mem_of_getElem? hcol) x hxb
      exact hc.fixes _ (representable_int p hp n hn)
  have hmap : data.map r = data := by
    conv_rhs => rw [← List.map_id data]
    exact List.map_congr_left hfix
  obtain ⟨z, h1, h2, hz, hmean, hvar, -, hmono, hinj⟩ := h j hne
  rw [hmap] at h1 h2
  refine ⟨z, h1, h2, ?_, hmean, ?_, ?_⟩
  · intro x hx
    have := hz x hx
    rw [hmap] at this
    exact this
  · rintro ⟨x, hx, y, hy, hxy⟩
    exact hvar ⟨x, hx, y, hy, by rwa [hfix x hx, hfix y hy]⟩
  · intro x hx y hy hxy
    refine lt_of_le_of_ne (hmono x hx y hy hxy.le) ?_
    intro heq
    have := (hinj x hx y hy).1 heq
    rw [hfix x hx, hfix y hy] at this
    exact hxy.ne this

/-! ## Scaling by minimum and maximum -/

/-- **C97** for `scale_by_min_max`, whatever the type of the column: the rounded values are scaled, so the result is in
the range and never reverses the order of two values, and two values get the same result exactly if they are
rounded to the same `float32`. -/
theorem scaling_of_rounded (c : Casts) (src : Dtype) (hr : IsRounding 24 (c.round 24)) (sh : List Nat) (known : Bool)
    (outputMin outputMax : ℝ) (hout : outputMin < outputMax)
    (s1 : List (Sched (ColBatch ℚ))) (s2 : Sched Nat) (hv : ValidRun s1 s2)
    (hlen : ∀ b ∈ allInputs s1, b.length = sh.prod) :
    ∃ r, Spec.IsCast r src .float32 ∧
    ∃ mins maxs, minAndMax c src sh known s1 s2 = .ok [mins, maxs] ∧
      ∀ p < sh.prod, let data := colData (allInputs s1) p
        data ≠ [] → ∃ mn mx lo hi, ∃ f : ℝ → ℝ, mins.data[p]? = some mn ∧ maxs.data[p]? = some mx ∧
          IsMinOf lo (data.map r) ∧ IsMaxOf hi (data.map r) ∧ IsScaling outputMin outputMax lo hi f ∧
          (∀ x, scaleTyped c src outputMin outputMax mn mx x = .ok (f (r x))) ∧
          (∀ x ∈ data, outputMin ≤ f (r x) ∧ f (r x) ≤ outputMax) ∧
          (∀ x y : ℚ, x ≤ y → f (r x) ≤ f (r y)) ∧ (∀ x y : ℚ, f (r x) = f (r y) ↔ r x = r y) := by
  have hcast := castTo_isCast c src 24 127 hr
  refine ⟨castTo c src .float32, hcast, ?_⟩
  have hm := cast_mono hcast
  set r := castTo c src .float32 with hrdef
  obtain ⟨mins, maxs, hrun, h⟩ := scale_by_min_max_spec sh known outputMin outputMax hout
    (s1.map (Sched.map (fun b : ColBatch ℚ => b.map (List.map (fun q => (((r q : ℚ) : WithTop ℚ) : EFloat)))))) s2
    (hv.map _) (by
      intro b hb
      rw [allInputs_map] at hb
      obtain ⟨b', hb', rfl⟩ := List.mem_map.1 hb
      rw [List.length_map]; exact hlen b' hb')
    (fun p => (colData (allInputs s1) p).map r) (by
      intro p
      rw [allInputs_map]
      rw [colData_cast (fun q => (((r q : ℚ) : WithTop ℚ) : EFloat))]
      rw [List.map_map]
      rfl)
  refine ⟨mins, maxs, hrun, ?_⟩
  intro p hp data hne
  obtain ⟨mn, mx, lo, hi, f, h1, h2, hlo, hhi, hf, hs⟩ := h p hp (by simpa using hne)
  have hmono : ∀ x y : ℝ, x ≤ y → f x ≤ f y := by
    intro x y hxy
    rcases hxy.lt_or_eq with hlt | rfl
    · exact (hs.order x y hlt).le
    · exact le_refl _
  refine ⟨mn, mx, lo, hi, f, h1, h2, hlo, hhi, hs, fun x => hf _, ?_, ?_, ?_⟩
  · intro x hx
    exact hs.range (r x) (hlo.2 _ (List.mem_map_of_mem hx)) (hhi.2 _ (List.mem_map_of_mem hx))
  · intro x y hxy
    exact hmono _ _ (by exact_mod_cast hm hxy)
  · intro x y
    refine ⟨fun heq => ?_, fun heq => by rw [heq]⟩
    rcases lt_trichotomy (r x) (r y) with hlt | h | hlt
    · exact absurd heq (hs.order _ _ (by exact_mod_cast hlt)).ne
    · exact h
    · exact absurd heq (hs.order _ _ (by exact_mod_cast hlt)).ne'

/-! ## Where the property fails -/

/-- From 2^30 on, `float32` has only multiples of 128. -/
theorem nearest_large (r : ℚ → ℚ) (h : IsNearest 24 r) (q : ℚ) (h1 : 2 ^ 30 ≤ q) (h2 : q ≤ 2 ^ 30 + 63) :
    r q = 2 ^ 30 := by
  obtain ⟨⟨m, e, hm, hq⟩, hle⟩ := h q
  have hd := hle (2 ^ 30) ⟨1, 30, by norm_num, by norm_num⟩
  rw [show |(2 : ℚ) ^ 30 - q| = q - 2 ^ 30 by rw [abs_sub_comm, abs_of_nonneg (by linarith)], abs_le] at hd
  have hlow : (2 : ℚ) ^ 30 ≤ r q := by linarith [hd.1]
  have hhigh : r q ≤ 2 ^ 30 + 126 := by linarith [hd.2]
  have he : 7 ≤ e := by
    by_contra hlt
    have h1 : (2 : ℚ) ^ e ≤ 2 ^ (6 : ℤ) := zpow_le_zpow_right₀ (by norm_num) (by omega)
    have h2 : (0 : ℚ) < 2 ^ e := zpow_pos (by norm_num) _
    have h3 : (m : ℚ) ≤ 2 ^ 24 - 1 := by
      have := (abs_lt.1 hm).2
      have : m ≤ 2 ^ 24 - 1 := by omega
      exact_mod_cast this
    norm_num at h1 h3
    have : (m : ℚ) * 2 ^ e ≤ 16777215 * 64 := by
      rcases le_or_gt 0 (m : ℚ) with h0 | h0
      · exact mul_le_mul h3 h1 h2.le (by norm_num)
      · nlinarith
    rw [← hq] at this
    norm_num at hlow
    linarith
  obtain ⟨d, hd'⟩ := Int.eq_ofNat_of_zero_le (sub_nonneg.2 he)
  have hk : r q = ((128 * (m * 2 ^ d) : ℤ) : ℚ) := by
    rw [hq, show e = 7 + (d : ℤ) by omega, zpow_add₀ (by norm_num)]
    push_cast
    norm_num
    ring
  rw [hk] at hlow hhigh ⊢
  generalize m * 2 ^ d = k at hlow hhigh ⊢
  have h1 : (1073741824 : ℤ) ≤ 128 * k := by
    have : (1073741824 : ℚ) ≤ ((128 * k : ℤ) : ℚ) := by norm_num at hlow ⊢; linarith
    exact_mod_cast this
  have h2 : 128 * k ≤ (1073741950 : ℤ) := by
    have : ((128 * k : ℤ) : ℚ) ≤ 1073741950 := by norm_num at hhigh ⊢; linarith
    exact_mod_cast this
  have : 128 * k = (1073741824 : ℤ) := by omega
  rw [this]
  norm_num

/-- **C97** fails for large integers that are close to each other, such as the times of a minute in seconds: all
values of a column of `int64` between 2^30 and 2^30 + 63 get the z-score 0, whatever they are, and the column is taken
to be constant: the variance is 0. -/
theorem close_large_integers_get_z_score_0 (c : Casts) (hc : IsNearest 24 (c.round 24)) (cols : Nat)
    (s1 : List (Sched (ColBatch ℚ))) (s2 : Sched Nat) (hv : ValidRun s1 s2)
    (hbig : ∀ b ∈ allInputs s1, ∀ col ∈ b, ∀ q ∈ col, (2 : ℚ) ^ 30 ≤ q ∧ q ≤ 2 ^ 30 + 63) :
    ∃ means vars, meanAndVar c none .int64 cols s1 s2 = .ok (.meanVar means vars) ∧
      ∀ j, let data := colData (allInputs s1) j
        data ≠ [] → means[j]? = some (some (2 ^ 30)) ∧ vars[j]? = some (some 0) ∧
          ∀ x ∈ data, zScoreTyped c .int64 .float32 (some (2 ^ 30)) (some 0) x = some 0 := by
  obtain ⟨means, vars, hrun, h⟩ := mean_var_schedule_independent cols
    (s1.map (Sched.map (fun b : ColBatch ℚ => b.map (List.map (fun q => some (castTo c .int64 .float32 q)))))) s2
    (hv.map _) (fun _ _ => trivial)
  refine ⟨means, vars, hrun, ?_⟩
  intro j data hne
  have hfix : ∀ x ∈ data, castTo c .int64 .float32 x = 2 ^ 30 := by
    intro x hx
    obtain ⟨b, hb, hxb⟩ := List.mem_flatMap.1 hx
    rw [List.getD_eq_getElem?_getD] at hxb
    cases hcol : b[j]? with
    | none => simp [hcol] at hxb
    | some col =>
      rw [hcol] at hxb
      obtain ⟨h1, h2⟩ := hbig b hb col (List.mem_of_getElem? hcol) x hxb
      show c.round 24 x = 2 ^ 30
      exact nearest_large _ hc x h1 h2
  have hcol : columnData (allInputs (s1.map (Sched.map (fun b : ColBatch ℚ =>
      b.map (List.map (fun q => some (castTo c .int64 .float32 q))))))) j
      = List.replicate data.length (2 ^ 30) := by
    rw [allInputs_map]
    rw [columnData_cast]
    rw [List.eq_replicate_iff]
    refine ⟨by simp [data], ?_⟩
    intro b hb
    obtain ⟨x, hx, rfl⟩ := List.mem_map.1 hb
    exact hfix x hx
  have hpos : 0 < data.length := List.length_pos_iff.2 hne
  obtain ⟨h1, h2⟩ := (h j).1 (by rw [hcol]; simp [hne])
  rw [hcol] at h1 h2
  have hmean : mean (List.replicate data.length ((2 : ℚ) ^ 30)) = 2 ^ 30 := by
    unfold mean
    rw [List.sum_replicate, List.length_replicate, nsmul_eq_mul]
    field_simp
  have hvar : variance (List.replicate data.length ((2 : ℚ) ^ 30)) = 0 := by
    unfold variance
    rw [hmean]
    simp
  rw [hmean] at h1
  rw [hvar] at h2
  refine ⟨h1, h2, ?_⟩
  intro x hx
  unfold zScoreTyped
  rw [hfix x hx]
  simp [zScore]

/-- `scale_to_0_1` does not use the range for such a column: all its values become the same number. -/
theorem close_large_integers_are_scaled_alike (c : Casts) (hc : IsNearest 24 (c.round 24)) (outputMin outputMax : ℝ)
    (mn mx : EFloat) (x y : ℚ) (hx : (2 : ℚ) ^ 30 ≤ x ∧ x ≤ 2 ^ 30 + 63) (hy : (2 : ℚ) ^ 30 ≤ y ∧ y ≤ 2 ^ 30 + 63) :
    scaleTyped c .int64 outputMin outputMax mn mx x = scaleTyped c .int64 outputMin outputMax mn mx y := by
  unfold scaleTyped
  have : ∀ q : ℚ, (2 : ℚ) ^ 30 ≤ q ∧ q ≤ 2 ^ 30 + 63 → castTo c .int64 .float32 q = 2 ^ 30 :=
    fun q hq => nearest_large (c.round 24) hc q hq.1 hq.2
  rw [this x hx, this y hy]

/-! ## Cases -/

/-- A run over two batches with the values `q`, `q + 7` and `q + 1`. -/
def Cases.run (q : ℚ) : List (Sched (ColBatch ℚ)) := [.add (.add .create [[q, q + 7]]) [[q + 1]]]

theorem Cases.run_valid (q : ℚ) : ValidRun (run q) (.add .create 0) where
  merges1 := by
    intro s hs
    simp only [run, List.mem_cons, List.not_mem_nil, or_false] at hs
    subst hs
    exact .add (.add .create)
  merges2 := .add .create
  once := by simp [run, Sched.inputs]

/-- Rounding exists, the types of the examples are as said, and both small and large integers meet the hypotheses. -/
theorem Cases.met : (∃ c : Casts, IsNearest 24 (c.round 24) ∧ IsRounding 24 (c.round 24)) ∧
    meanVarType none .int64 = .ok .float32 ∧ meanVarType (some .float64) .int64 = .ok .float64 ∧
    meanVarType none .float16 = .ok .float16 ∧
    (∀ b ∈ allInputs (run 3), ∀ col ∈ b, ∀ q ∈ col, ∃ n : ℤ, q = n ∧ |n| ≤ 2 ^ 24) ∧
    (∀ b ∈ allInputs (run (2 ^ 30)), ∀ col ∈ b, ∀ q ∈ col, (2 : ℚ) ^ 30 ≤ q ∧ q ≤ 2 ^ 30 + 63) ∧
    (∀ b ∈ allInputs (run 3), b.length = ([] : List Nat).prod) := by
  refine ⟨⟨⟨fun p q => if 0 < p then roundUp p q else q, fun _ _ => 0⟩, ?_, ?_⟩, by rfl, by rfl, by rfl, ?_, ?_, ?_⟩
  · exact roundUp_nearest 24 (by norm_num)
  · exact nearest_isRounding (roundUp_nearest 24 (by norm_num))
  · simp only [run, allInputs, List.map_cons, List.map_nil, List.flatten_cons, List.flatten_nil, Sched.inputs]
    intro b hb col hcol q hq
    simp at hb
    rcases hb with rfl | rfl <;> simp at hcol <;> subst hcol <;> simp at hq
    · rcases hq with rfl | rfl
      · exact ⟨3, by norm_num, by norm_num⟩
      · exact ⟨10, by norm_num, by norm_num⟩
    · exact ⟨4, by rw [hq]; norm_num, by norm_num⟩
  · simp only [run, allInputs, List.map_cons, List.map_nil, List.flatten_cons, List.flatten_nil, Sched.inputs]
    intro b hb col hcol q hq
    simp at hb
    rcases hb with rfl | rfl <;> simp at hcol <;> subst hcol <;> simp at hq
    · rcases hq with rfl | rfl <;> norm_num
    · subst hq; norm_num
  · simp only [run, allInputs, List.map_cons, List.map_nil, List.flatten_cons, List.flatten_nil, Sched.inputs]
    intro b hb
    simp at hb
    rcases hb with rfl | rfl <;> simp

end TFT.TypedScaling
