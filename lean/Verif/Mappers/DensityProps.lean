import Verif.Mappers.Density
import Verif.Mappers.HistogramProps
import Verif.Mappers.PerKeyBucketsProps

/-!
# Estimated probability densities (C70)
-/

namespace TFT.Histogram

open TFT.Buckets

/-! ## Lemmas -/

theorem fdiv_some (a b : ℚ) (h : b ≠ 0) : fdiv (some a) (some b) = some (a / b) := by
  simp [fdiv, h]

theorem flatMap_scalar {β : Type} (l : List β) (f : β → ℚ) :
    (l.map fun i => Nd.scalar (f i)).flatMap Nd.data = l.map f := by
  induction l with
  | nil => rfl
  | cons a l ih => simp [Nd.scalar, ← ih, List.flatMap_cons]

theorem pickDensity_nat (ds : List (Option ℚ)) (i : Nat) (d : Option ℚ) (h : ds[i]? = some d) :
    pickDensity ds (i : Int) = .ok d := by
  unfold pickDensity gatherAt
  have : ¬ ((i : Int) < 0) := by omega
  simp only [this, if_false, Int.toNat_natCast, h, bind, Except.bind]

theorem shifted_head (bs : List ℚ) (h : bs ≠ []) :
    (shifted bs).head? = some (bs.headD 0 - 1 / 10000) := by
  cases bs with
  | nil => exact absurd rfl h
  | cons b bs => rfl

theorem shifted_last (bs : List ℚ) (h : bs ≠ []) :
    (shifted bs).getLast? = some (bs.getLastD 0 - 1 / 10000) := by
  unfold shifted
  rw [List.getLast?_map, List.getLast?_eq_getLast_of_ne_nil h, Option.map_some,
    List.getLastD_eq_getLast?, List.getLast?_eq_getLast_of_ne_nil h]
  rfl

theorem cast_sum {β : Type} (l : List β) (f : β → Nat) :
    (((l.map f).sum : Nat) : ℚ) = (l.map fun i => (f i : ℚ)).sum := by
  induction l with
  | nil => simp
  | cons a l ih => simp [ih]

theorem sum_scaled {β : Type} (l : List β) (f : β → ℚ) (c : ℚ) :
    (l.map fun i => f i * c).sum = (l.map f).sum * c := by
  induction l with
  | nil => simp
  | cons a l ih => simp [ih, add_mul]

theorem of_toOption {ε β : Type} (e : Except ε β) (b : β) (h : e.toOption = some b) : e = .ok b := by
  cases e with
  | error e => cases h
  | ok b' => cases h; rfl

theorem sum_countP (bs : List ℚ) (hs : bs.Pairwise (· ≤ ·)) (h2 : 2 ≤ bs.length)
    (values : List (Option Ext)) :
    ((List.range (bs.length - 1)).map (fun i => (values.countP (InBin bs i) : ℚ))).sum
      = values.length := by
  have := congrArg (Nat.cast (R := ℚ)) (bins_partition bs hs h2 values)
  rw [← this, cast_sum]

/-! ## Theorems -/

/-- Every value is in exactly one bin. -/
theorem one_bin (bs : List ℚ) (hs : bs.Pairwise (· ≤ ·)) (h2 : 2 ≤ bs.length) (x : Option Ext) :
    ∃ i, (i < bs.length - 1 ∧ InBin bs i x = true) ∧
      ∀ j, j < bs.length - 1 → InBin bs j x = true → j = i := by
  have hb := bucket_lt bs h2 x
  refine ⟨bucket bs x, ⟨hb, (inBin_iff bs hs h2 x _ hb).2 rfl⟩, fun j hj h => ?_⟩
  exact ((inBin_iff bs hs h2 x j hj).1 h).symm

/-- **C70** The estimate for a value is the number of values of the dataset in its bin, divided by the
number of all of them and by the average width of the bins. -/
theorem density_exact (bs : List ℚ) (hs : bs.Pairwise (· ≤ ·)) (h2 : 2 ≤ bs.length)
    (hw : bs.headD 0 ≠ bs.getLastD 0)
    (datasets : List (List (List (Option Ext)))) (hne : datasets.flatten.flatten ≠ []) :
    ∃ pcs, countCollections (histogramKeys bs datasets) = .ok pcs ∧
    ∀ (r1s : List (KeyRun String (List ℚ))) (r2 : KeyRun String Nat),
      List.Forall₂ ValidKeyRun r1s pcs → ValidKeyMerge r2 (r1s.flatMap KeyRun.keys) →
      ∀ (i : Nat) (x : Option Ext), i < bs.length - 1 → InBin bs i x = true →
        estimatedDensity bs r1s r2 x = .ok (some
          ((datasets.flatten.flatten.countP (InBin bs i) : ℚ) / datasets.flatten.flatten.length
            / ((bs.getLastD 0 - bs.headD 0) / (bs.length - 1 : Nat)))) := by
  obtain ⟨pcs, hpcs, hrun⟩ := histogram_exact bs hs h2 datasets
  refine ⟨pcs, hpcs, fun r1s r2 hv1 hv2 i x hi hx => ?_⟩
  unfold estimatedDensity
  rw [hrun r1s r2 hv1 hv2]
  simp only [bind, Except.bind]
  rw [flatMap_scalar (List.range (bs.length - 1)) fun i =>
    (datasets.flatten.flatten.countP (InBin bs i) : ℚ)]
  have hbs : bs ≠ [] := by rintro rfl; simp at h2
  unfold densityAt
  simp only [shifted_head bs hbs, shifted_last bs hbs]
  have hidx : assignBuckets x [(shifted bs).tail.map (fun q : ℚ => ((q : WithTop ℚ) : Ext))] .left = i :=
    (inBin_iff bs hs h2 x i hi).1 hx
  rw [hidx]
  refine pickDensity_nat _ i _ ?_
  have hlen : ((datasets.flatten.flatten.length : Nat) : ℚ) ≠ 0 := by
    have := List.length_pos_iff.2 hne
    exact_mod_cast (by omega : datasets.flatten.flatten.length ≠ 0)
  have hn : ((bs.length - 1 : Nat) : ℚ) ≠ 0 := by
    exact_mod_cast (by omega : bs.length - 1 ≠ 0)
  unfold probabilities
  rw [sum_countP bs hs h2, List.getElem?_map, List.getElem?_map, List.getElem?_map,
    List.getElem?_range hi]
  simp only [Option.map_some, List.length_map, List.length_range]
  rw [fdiv_some _ _ hlen, fdiv_some _ _ hn, fdiv_some _ _ (by
    refine div_ne_zero (fun h => hw ?_) hn
    linarith)]
  congr 3
  ring

/-- **C70, total** If the bins have equal widths, the estimates are a density: the sum over the bins of
width and estimate is one. -/
theorem density_integrates_to_one (bs : List ℚ) (hs : bs.Pairwise (· ≤ ·)) (h2 : 2 ≤ bs.length)
    (w : ℚ) (hw : w ≠ 0) (heq : ∀ i, i < bs.length - 1 → bs.getD (i + 1) 0 - bs.getD i 0 = w)
    (datasets : List (List (List (Option Ext)))) (hne : datasets.flatten.flatten ≠ []) :
    ∃ pcs, countCollections (histogramKeys bs datasets) = .ok pcs ∧
    ∀ (r1s : List (KeyRun String (List ℚ))) (r2 : KeyRun String Nat),
      List.Forall₂ ValidKeyRun r1s pcs → ValidKeyMerge r2 (r1s.flatMap KeyRun.keys) →
      ∃ estimate : Nat → ℚ,
        (∀ (i : Nat) (x : Option Ext), i < bs.length - 1 → InBin bs i x = true →
          estimatedDensity bs r1s r2 x = .ok (some (estimate i))) ∧
        ((List.range (bs.length - 1)).map fun i =>
          (bs.getD (i + 1) 0 - bs.getD i 0) * estimate i).sum = 1 := by
  have hspan : ∀ n, n < bs.length → bs.getD n 0 - bs.getD 0 0 = n * w := by
    intro n
    induction n with
    | zero => intro _; simp
    | succ n ih =>
      intro hn
      have h1 := ih (by omega)
      have h3 := heq n (by omega)
      push_cast
      linarith
  have hlast : bs.getLastD 0 = bs.getD (bs.length - 1) 0 := by
    rw [List.getLastD_eq_getLast?, List.getLast?_eq_getElem?, List.getD_eq_getElem?_getD]
  have hhead : bs.headD 0 = bs.getD 0 0 := by cases bs <;> rfl
  have hn : ((bs.length - 1 : Nat) : ℚ) ≠ 0 := by
    exact_mod_cast (by omega : bs.length - 1 ≠ 0)
  have hd : bs.getLastD 0 - bs.headD 0 = (bs.length - 1 : Nat) * w := by
    rw [hlast, hhead]
    exact hspan _ (by omega)
  have hlen : ((datasets.flatten.flatten.length : Nat) : ℚ) ≠ 0 := by
    have := List.length_pos_iff.2 hne
    exact_mod_cast (by omega : datasets.flatten.flatten.length ≠ 0)
  obtain ⟨pcs, hpcs, hrun⟩ := density_exact bs hs h2 (by
    intro h
    rw [h, sub_self] at hd
    exact mul_ne_zero hn hw hd.symm) datasets hne
  refine ⟨pcs, hpcs, fun r1s r2 hv1 hv2 => ⟨_, hrun r1s r2 hv1 hv2, ?_⟩⟩
  rw [hd]
  have : (List.range (bs.length - 1)).map (fun i => (bs.getD (i + 1) 0 - bs.getD i 0) *
      ((datasets.flatten.flatten.countP (InBin bs i) : ℚ) / datasets.flatten.flatten.length
            / ((bs.length - 1 : Nat) * w / (bs.length - 1 : Nat))))
      = (List.range (bs.length - 1)).map (fun i => (datasets.flatten.flatten.countP (InBin bs i) : ℚ)
          * (1 / datasets.flatten.flatten.length)) := by
    refine List.map_congr_left fun i hi => ?_
    rw [heq i (List.mem_range.1 hi)]
    field_simp
  rw [this, sum_scaled, sum_countP bs hs h2]
  field_simp

/-- After the analysis of an empty dataset every estimate is NaN. -/
theorem density_of_nothing (bs : List ℚ) (hs : bs.Pairwise (· ≤ ·)) (h2 : 2 ≤ bs.length)
    (datasets : List (List (List (Option Ext)))) (he : datasets.flatten.flatten = []) :
    ∃ pcs, countCollections (histogramKeys bs datasets) = .ok pcs ∧
    ∀ (r1s : List (KeyRun String (List ℚ))) (r2 : KeyRun String Nat),
      List.Forall₂ ValidKeyRun r1s pcs → ValidKeyMerge r2 (r1s.flatMap KeyRun.keys) →
      ∀ x, estimatedDensity bs r1s r2 x = .ok none := by
  obtain ⟨pcs, hpcs, hrun⟩ := histogram_exact bs hs h2 datasets
  refine ⟨pcs, hpcs, fun r1s r2 hv1 hv2 x => ?_⟩
  unfold estimatedDensity
  rw [hrun r1s r2 hv1 hv2]
  simp only [bind, Except.bind]
  rw [flatMap_scalar (List.range (bs.length - 1)) fun i =>
    (datasets.flatten.flatten.countP (InBin bs i) : ℚ)]
  have hbs : bs ≠ [] := by rintro rfl; simp at h2
  unfold densityAt
  simp only [shifted_head bs hbs, shifted_last bs hbs]
  refine pickDensity_nat _ (bucket bs x) _ ?_
  unfold probabilities
  rw [sum_countP bs hs h2, he, List.getElem?_map, List.getElem?_map, List.getElem?_map,
    List.getElem?_range (bucket_lt bs h2 x)]
  simp [fdiv]

/-- The premises of `density_exact` and `density_integrates_to_one` are met by the boundaries 0, 1, 2
and three values in two datasets, one of them far outside. -/
example : ([0, 1, 2] : List ℚ).Pairwise (· ≤ ·) ∧ 2 ≤ ([0, 1, 2] : List ℚ).length ∧
    ([0, 1, 2] : List ℚ).headD 0 ≠ ([0, 1, 2] : List ℚ).getLastD 0 ∧
    (∀ i, i < ([0, 1, 2] : List ℚ).length - 1 →
      ([0, 1, 2] : List ℚ).getD (i + 1) 0 - ([0, 1, 2] : List ℚ).getD i 0 = 1) ∧
    ([[[none, some (((1 / 2 : ℚ) : WithTop ℚ) : Ext)]], [[some (((90 : ℚ) : WithTop ℚ) : Ext)], []]] :
      List (List (List (Option Ext)))).flatten.flatten ≠ [] := by
  decide +kernel

/-- With bins of different widths the estimates need not be a density: all values in the first of the
bins from 0 to 1 and from 1 to 4 gives one half, and not one. -/
theorem density_of_unequal_bins :
    densityAt [0, 1, 4] [1, 0] (some (((1 / 2 : ℚ) : WithTop ℚ) : Ext)) = .ok (some (1 / 2)) ∧
    densityAt [0, 1, 4] [1, 0] (some (((3 : ℚ) : WithTop ℚ) : Ext)) = .ok (some 0) ∧
    (1 - 0) * (1 / 2 : ℚ) + (4 - 1) * 0 ≠ 1 := by
  refine ⟨of_toOption _ _ (by decide +kernel), of_toOption _ _ (by decide +kernel), by norm_num⟩

/-- Values beyond the boundaries are given the density of the first or last bin, however far away they
are. -/
theorem outliers_have_the_density_of_the_last_bin (bs : List ℚ) (h2 : 2 ≤ bs.length)
    (hs : bs.Pairwise (· ≤ ·)) (v : ℚ) (hv : bs.getLastD 0 ≤ v) :
    InBin bs (bs.length - 2) (some ((v : WithTop ℚ) : Ext)) = true := by
  have hle : bs.getD (bs.length - 2) 0 ≤ v := by
    refine le_trans ?_ hv
    rw [List.getLastD_eq_getLast?, List.getLast?_eq_getElem?,
      List.getElem?_eq_getElem (by omega : bs.length - 1 < bs.length), List.getD_eq_getElem?_getD,
      List.getElem?_eq_getElem (by omega : bs.length - 2 < bs.length)]
    simp only [Option.getD_some]
    exact List.pairwise_iff_getElem.1 hs _ _ _ _ (by omega)
  unfold InBin
  rw [Bool.and_eq_true]
  constructor
  · rw [Bool.or_eq_true]
    right
    unfold Above
    simp only [Option.any_some, decide_eq_true_eq]
    have : bs.getD (bs.length - 2) 0 - 1 / 10000 < v := by linarith
    exact WithBot.coe_lt_coe.2 (WithTop.coe_lt_coe.2 this)
  · rw [Bool.or_eq_true]
    left
    simp only [decide_eq_true_eq]
    omega

/-- **C70, categorical** The estimate for a value is its number of occurrences divided by the number of
all values; in particular it is zero for values that do not occur. -/
theorem mass_exact {K : Type} [LinearOrder K] (datasets : List (List (List K)))
    (hne : datasets.flatten.flatten ≠ []) :
    ∃ pcs, countCollections datasets = .ok pcs ∧
    ∀ (r1s : List (KeyRun K (List ℚ))) (r2 : KeyRun K Nat),
      List.Forall₂ ValidKeyRun r1s pcs → ValidKeyMerge r2 (r1s.flatMap KeyRun.keys) →
      ∀ x, estimatedMass r1s r2 x = .ok (some
        ((datasets.flatten.flatten.count x : ℚ) / datasets.flatten.flatten.length)) := by
  obtain ⟨pcs, hpcs, hrun⟩ := count_per_key_schedule_independent datasets
  refine ⟨pcs, hpcs, fun r1s r2 hv1 hv2 x => ?_⟩
  obtain ⟨ks, hks, hmem, hres⟩ := hrun r1s r2 hv1 hv2
  have hunf : estimatedMass r1s r2 x = (do
      let p ← (do
        let outs ← perKeyAnalysis countCombiner r1s r2
        mergeOutputsByKey 1 outs)
      pickDensity (probabilities (p.2.flatten.flatMap Nd.data)) (lookupKey x p.1)) := by
    unfold estimatedMass
    rw [bind_assoc]
  rw [hunf, hres]
  simp only [bind, Except.bind, List.flatten_cons, List.flatten_nil, List.append_nil]
  rw [flatMap_scalar ks fun k => (datasets.flatten.flatten.count k : ℚ)]
  have hnd : ks.Nodup := hks.imp fun h => ne_of_lt h
  have hsum : (ks.map fun k => (datasets.flatten.flatten.count k : ℚ)).sum
      = datasets.flatten.flatten.length := by
    have hp : ks.Perm datasets.flatten.flatten.dedup :=
      (List.perm_ext_iff_of_nodup hnd (List.nodup_dedup _)).2 fun k => by
        rw [hmem, List.mem_dedup]
    rw [← cast_sum ks fun k => datasets.flatten.flatten.count k, (hp.map _).sum_eq,
      List.sum_map_count_dedup_eq_length]
  have hlen : ((datasets.flatten.flatten.length : Nat) : ℚ) ≠ 0 := by
    have := List.length_pos_iff.2 hne
    exact_mod_cast (by omega : datasets.flatten.flatten.length ≠ 0)
  have hprob : probabilities (ks.map fun k => (datasets.flatten.flatten.count k : ℚ))
      = ks.map fun k => some ((datasets.flatten.flatten.count k : ℚ) / datasets.flatten.flatten.length) := by
    unfold probabilities
    rw [hsum, List.map_map]
    refine List.map_congr_left fun k _ => ?_
    exact fdiv_some _ _ hlen
  rw [hprob, lookupKey_eq x ks hnd]
  by_cases hx : x ∈ ks
  · rw [if_pos hx]
    refine pickDensity_nat _ _ _ ?_
    rw [List.getElem?_map, List.getElem?_eq_getElem (List.idxOf_lt_length_of_mem hx)]
    simp
  · rw [if_neg hx, List.count_eq_zero_of_not_mem fun h => hx ((hmem x).2 h)]
    obtain ⟨v, hv⟩ := List.exists_mem_of_ne_nil _ hne
    have hk := (hmem v).2 hv
    cases ks with
    | nil => simp at hk
    | cons k ks => simp [pickDensity, gatherAt, bind, Except.bind]

/-- Categorical estimates after the analysis of an empty dataset fail for every value: there is no
density to read. -/
theorem mass_of_nothing_fails {K : Type} [LinearOrder K] (datasets : List (List (List K)))
    (he : datasets.flatten.flatten = []) :
    ∃ pcs, countCollections datasets = .ok pcs ∧
    ∀ (r1s : List (KeyRun K (List ℚ))) (r2 : KeyRun K Nat),
      List.Forall₂ ValidKeyRun r1s pcs → ValidKeyMerge r2 (r1s.flatMap KeyRun.keys) →
      ∀ x, ∃ e, estimatedMass r1s r2 x = .error e := by
  obtain ⟨pcs, hpcs, hrun⟩ := count_per_key_schedule_independent datasets
  refine ⟨pcs, hpcs, fun r1s r2 hv1 hv2 x => ?_⟩
  obtain ⟨ks, hks, hmem, hres⟩ := hrun r1s r2 hv1 hv2
  have hunf : estimatedMass r1s r2 x = (do
      let p ← (do
        let outs ← perKeyAnalysis countCombiner r1s r2
        mergeOutputsByKey 1 outs)
      pickDensity (probabilities (p.2.flatten.flatMap Nd.data)) (lookupKey x p.1)) := by
    unfold estimatedMass
    rw [bind_assoc]
  have : ks = [] := by
    rw [List.eq_nil_iff_forall_not_mem]
    intro k hk
    have := (hmem k).1 hk
    rw [he] at this
    cases this
  rw [hunf, hres, this]
  exact ⟨_, rfl⟩

/-- The result has the shape of the values, if they have rank one, or rank two with one column. -/
theorem density_shape_partial (n : Nat) :
    densityShape [n] = .ok [n] ∧ densityShape [n, 1] = .ok [n, 1] := by
  constructor <;> simp [densityShape]

/-- The shape is kept exactly if all dimensions but the first have size one. -/
theorem density_shape_kept_iff (shape : List Nat) :
    densityShape shape = .ok shape ↔ ∃ n k, shape = n :: List.replicate k 1 := by
  constructor
  · intro h
    unfold densityShape at h
    split at h
    · cases h
    · simp only [Except.ok.injEq] at h
      exact ⟨_, _, h.symm⟩
  · rintro ⟨n, k, rfl⟩
    have h : ¬ ((n :: List.replicate k 1).length > 1 ∧ (n :: List.replicate k 1).getLastD 0 > 1) := by
      rintro ⟨h1, h2⟩
      cases k with
      | zero => simp at h1
      | succ k => simp [List.replicate_succ', List.getLastD_eq_getLast?, List.getLast?_cons] at h2
    rw [densityShape, if_neg h]
    simp

/-- Values with more than one column are rejected. -/
theorem density_rejects_columns (d : Nat) (dims : List Nat) (columns : Nat) (h : 2 ≤ columns) :
    densityShape (d :: dims ++ [columns])
      = .error "NotImplementedError: estimated probability density does not support multiple dimensions" := by
  rw [densityShape, if_pos]
  constructor
  · simp
  · simp [List.getLastD_eq_getLast?, List.getLast?_cons]
    omega

/-- For values of higher rank the shape is not kept. -/
theorem density_shape_changes : densityShape [2, 3, 1] = .ok [6, 1, 1] := by rfl

end TFT.Histogram
