import Verif.Combine.PerKeyLemmas

/-!
# Per-key analyses, and C02 for `count_per_key`

`pcs` are the keyed collections of the datasets, `r1s` the runs of the accumulate stage and
`r2` the run of the merge stage.
-/

namespace TFT

open Spec

variable {K V Acc Out : Type} [DecidableEq K]

/-- What Beam promises about `CombinePerKey` over the collection `pc`: one result per key that
occurs, computed by some schedule over exactly the values of the key. -/
structure ValidKeyRun (r : KeyRun K V) (pc : List (K × V)) : Prop where
  nodup : r.keys.Nodup
  mem : ∀ k, k ∈ r.keys ↔ k ∈ pc.map Prod.fst
  merges : ∀ k ∈ r.keys, (r.sched k).MergesSome
  values : ∀ k ∈ r.keys, (r.sched k).inputs.Perm (valuesOf k pc)

/-- The same for the merge stage, whose inputs are given by position: `fk` are the keys of the
flattened accumulators. -/
structure ValidKeyMerge (r : KeyRun K Nat) (fk : List K) : Prop where
  nodup : r.keys.Nodup
  mem : ∀ k, k ∈ r.keys ↔ k ∈ fk
  merges : ∀ k ∈ r.keys, (r.sched k).MergesSome
  values : ∀ k ∈ r.keys, (r.sched k).inputs.Perm
    ((List.range fk.length).filter (fun i => decide (fk[i]? = some k)))

/-- The accumulate schedules of key `k`: one per dataset in which `k` occurs. -/
def ownStage1 (r1s : List (KeyRun K V)) (k : K) : List (Sched V) :=
  (r1s.filter (fun r => decide (k ∈ r.keys))).map (fun r => r.sched k)

/-- The merge schedule of key `k`, over its own accumulators. -/
def ownStage2 (r1s : List (KeyRun K V)) (r2 : KeyRun K Nat) (k : K) : Sched Nat :=
  (r2.sched k).map (fun i => ((r1s.flatMap KeyRun.keys).take i).count k)

theorem ownStage1_length (r1s : List (KeyRun K V)) (hnd : ∀ r ∈ r1s, r.keys.Nodup) (k : K) :
    (ownStage1 r1s k).length = (r1s.flatMap KeyRun.keys).count k := by
  induction r1s with
  | nil => rfl
  | cons r r1s ih =>
    have h := ih (fun r hr => hnd r (by simp [hr]))
    unfold ownStage1 at *
    rw [List.flatMap_cons, List.count_append, ← h, List.filter_cons]
    by_cases hk : k ∈ r.keys
    · rw [List.count_eq_one_of_mem (hnd r (by simp)) hk]
      simp [hk]; omega
    · rw [List.count_eq_zero_of_not_mem hk]
      simp [hk]

theorem ownStage1_accs (c : Combiner Acc V Out) (accOf : KeyRun K V → K → Acc) (k : K)
    (r1s : List (KeyRun K V)) (hnd : ∀ r ∈ r1s, r.keys.Nodup)
    (haccOf : ∀ r ∈ r1s, ∀ k ∈ r.keys, (r.sched k).run c.accumulateStage = .ok (accOf r k))
    (as : List Acc) (has : Sched.runList c.accumulateStage (ownStage1 r1s k) = .ok as) :
    as = valuesOf k (r1s.map (fun r => r.keys.map (fun k => (k, accOf r k)))).flatten := by
  induction r1s generalizing as with
  | nil =>
    simp only [ownStage1, List.filter_nil, List.map_nil, Sched.runList, Except.ok.injEq] at has
    simp [← has, valuesOf]
  | cons r r1s ih =>
    have ih' := ih (fun r hr => hnd r (by simp [hr])) (fun r hr => haccOf r (by simp [hr]))
    rw [List.map_cons, List.flatten_cons, valuesOf_append,
      valuesOf_map_nodup k r.keys (hnd r (by simp))]
    unfold ownStage1 at has ih'
    rw [List.filter_cons] at has
    by_cases hkr : k ∈ r.keys
    · simp only [hkr, decide_true, if_true, List.map_cons, Sched.runList] at has
      rw [haccOf r (by simp) k hkr] at has
      simp only [bind, Except.bind] at has
      cases hrest : Sched.runList c.accumulateStage
          (List.map (fun r => r.sched k) (List.filter (fun r => decide (k ∈ r.keys)) r1s)) with
      | error e => rw [hrest] at has; cases has
      | ok rest =>
        rw [hrest] at has
        simp only [Except.ok.injEq] at has
        simp only [hkr, if_true, ← has, List.singleton_append, List.cons.injEq, true_and]
        exact ih' rest hrest
    · simp only [hkr, decide_false, Bool.false_eq_true, if_false] at has
      simp only [hkr, if_false, List.nil_append]
      exact ih' as has

/-- Every key of a per-key analysis gets what an ordinary analysis (`analysis`) of its own values
gives, by a run that Beam may make; and the keys in the result are exactly the keys that occur. -/
theorem per_key_is_analysis (c : Combiner Acc V Out) (pcs : List (List (K × V)))
    (r1s : List (KeyRun K V)) (r2 : KeyRun K Nat) (h1 : List.Forall₂ ValidKeyRun r1s pcs)
    (h2 : ValidKeyMerge r2 (r1s.flatMap KeyRun.keys)) :
    r2.keys.Nodup ∧ (∀ k, k ∈ r2.keys ↔ k ∈ pcs.flatten.map Prod.fst) ∧
    ∃ (S1 : K → List (Sched V)) (S2 : K → Sched Nat),
      (∀ k ∈ r2.keys, ValidRun (S1 k) (S2 k) ∧
        (allInputs (S1 k)).Perm (valuesOf k pcs.flatten)) ∧
      ∀ out : K → Out, (∀ k ∈ r2.keys, analysis c (S1 k) (S2 k) = .ok (out k)) →
        perKeyAnalysis c r1s r2 = .ok (r2.keys.map (fun k => (k, out k))) := by
  have hnd : ∀ r ∈ r1s, r.keys.Nodup := by
    intro r hr
    obtain ⟨i, hi, rfl⟩ := List.getElem_of_mem hr
    exact ((List.forall₂_iff_get.1 h1).2 i hi (by rw [← h1.length_eq]; exact hi)).nodup
  have hmem : ∀ k, k ∈ r1s.flatMap KeyRun.keys ↔ k ∈ pcs.flatten.map Prod.fst := by
    intro k
    clear h2 hnd
    induction h1 with
    | nil => simp
    | cons h _ ih =>
      rw [List.flatMap_cons, List.flatten_cons, List.map_append, List.mem_append, List.mem_append,
        ih, h.mem]
  refine ⟨h2.nodup, fun k => (h2.mem k).trans (hmem k), ownStage1 r1s, ownStage2 r1s r2, ?_, ?_⟩
  · intro k hk
    refine ⟨⟨?_, (h2.merges k hk).map _, ?_⟩, ?_⟩
    · intro s hs
      obtain ⟨r, hr, rfl⟩ := List.mem_map.1 hs
      obtain ⟨hr1, hr2⟩ := List.mem_filter.1 hr
      obtain ⟨i, hi, rfl⟩ := List.getElem_of_mem hr1
      exact ((List.forall₂_iff_get.1 h1).2 i hi (by rw [← h1.length_eq]; exact hi)).merges k
        (by simpa using hr2)
    · unfold ownStage2
      rw [Sched.inputs_map, ownStage1_length r1s hnd k]
      have := (h2.values k hk).map (fun i => ((r1s.flatMap KeyRun.keys).take i).count k)
      have e := positions_rank k (r1s.flatMap KeyRun.keys)
      unfold positions at e
      rw [e] at this
      exact once_of_perm this
    · clear h2 hnd hmem hk
      unfold ownStage1 allInputs
      induction h1 with
      | nil => simp [valuesOf]
      | @cons r pc r1s pcs h _ ih =>
        rw [List.flatten_cons, valuesOf_append, List.filter_cons]
        by_cases hk : k ∈ r.keys
        · simp only [hk, decide_true, if_true, List.map_cons, List.flatten_cons]
          exact (h.values k hk).append ih
        · have : valuesOf k pc = [] := by
            have hk' := mt (h.mem k).2 hk
            unfold valuesOf
            rw [List.map_eq_nil_iff, List.filter_eq_nil_iff]
            intro p hp
            simp only [decide_eq_true_eq]
            rintro rfl
            exact hk' (List.mem_map.2 ⟨p, hp, rfl⟩)
          simp only [hk, decide_false, Bool.false_eq_true, if_false, this, List.nil_append]
          exact ih
  · intro out hout
    -- every accumulate schedule succeeded
    have hacc : ∀ r ∈ r1s, ∀ k ∈ r.keys, ∃ a, (r.sched k).run c.accumulateStage = .ok a := by
      intro r hr k hk
      have hk2 : k ∈ r2.keys := (h2.mem k).2 (List.mem_flatMap.2 ⟨r, hr, hk⟩)
      have ho := hout k hk2
      unfold analysis at ho
      obtain ⟨as, has, _⟩ := bind_ok_iff.1 ho
      have hF := (runList_ok_iff _ _ _).1 has
      have hm : r.sched k ∈ ownStage1 r1s k :=
        List.mem_map.2 ⟨r, List.mem_filter.2 ⟨hr, by simpa using hk⟩, rfl⟩
      obtain ⟨i, hi, he⟩ := List.getElem_of_mem hm
      have := (List.forall₂_iff_get.1 hF).2 i hi (by rw [← hF.length_eq]; exact hi)
      simp only [List.get_eq_getElem, he] at this
      exact ⟨_, this⟩
    classical
    let accOf : KeyRun K V → K → Acc := fun r k =>
      if h : ∃ a, (r.sched k).run c.accumulateStage = .ok a then h.choose else c.create
    have haccOf : ∀ r ∈ r1s, ∀ k ∈ r.keys,
        (r.sched k).run c.accumulateStage = .ok (accOf r k) := by
      intro r hr k hk
      have h := hacc r hr k hk
      simp only [accOf, h, dif_pos]
      exact h.choose_spec
    have hstage1 : seqExcept (r1s.map (combinePerKey c.accumulateStage))
        = .ok (r1s.map (fun r => r.keys.map (fun k => (k, accOf r k)))) := by
      apply seqExcept_ok_map
      intro r hr
      unfold combinePerKey
      apply seqExcept_ok_map
      intro k hk
      rw [haccOf r hr k hk]; rfl
    unfold perKeyAnalysis
    rw [hstage1]
    simp only [bind, Except.bind]
    unfold combinePerKey
    apply seqExcept_ok_map
    intro k hk
    have ho := hout k hk
    unfold analysis at ho
    obtain ⟨as, has, ho⟩ := bind_ok_iff.1 ho
    have hfst : ((r1s.map (fun r => r.keys.map (fun k => (k, accOf r k)))).flatten).map Prod.fst
        = r1s.flatMap KeyRun.keys := by
      simp [List.map_flatten, List.flatMap_def, Function.comp_def]
    have has' := ownStage1_accs c accOf k r1s hnd haccOf as has
    subst has'
    have hsched : (r2.sched k).map (fun i =>
          (((r1s.map (fun r => r.keys.map (fun k => (k, accOf r k)))).flatten)[i]?).map Prod.snd)
        = (ownStage2 r1s r2 k).map (fun i =>
          (valuesOf k (r1s.map (fun r => r.keys.map (fun k => (k, accOf r k)))).flatten)[i]?) := by
      unfold ownStage2
      rw [Sched.map_map]
      apply Sched.map_congr_inputs
      intro i hi
      have hi' := (h2.values k hk).mem_iff.1 hi
      have hki := (List.mem_filter.1 hi').2
      simp only [decide_eq_true_eq] at hki
      rw [← hfst] at hki ⊢
      exact valuesOf_rank k _ i hki
    show (do
      let a ← ((r2.sched k).map (fun i => (((r1s.map (fun r : KeyRun K V => r.keys.map
          (fun k => (k, accOf r k)))).flatten)[i]?).map Prod.snd)).run c.mergeStage
      let o ← c.mergeStage.extract a
      Except.ok (k, o)) = _
    rw [hsched]
    obtain ⟨final, hf, ho⟩ := bind_ok_iff.1 ho
    rw [hf]
    show (c.extract final >>= fun o => Except.ok (k, o)) = _
    rw [ho]; rfl

/-! ## count_per_key -/

theorem mem_uniqFirst (l : List K) (k : K) : k ∈ uniqFirst l ↔ k ∈ l := by
  induction l with
  | nil => simp [uniqFirst]
  | cons a l ih =>
    simp only [uniqFirst, List.mem_cons, List.mem_filter, ih, decide_eq_true_eq]
    by_cases h : k = a <;> simp [h]

theorem nodup_uniqFirst (l : List K) : (uniqFirst l).Nodup := by
  induction l with
  | nil => simp [uniqFirst]
  | cons a l ih =>
    simp only [uniqFirst, List.nodup_cons, List.mem_filter]
    exact ⟨by simp, ih.filter _⟩

theorem countBatchPairs_eq (b : List K) :
    countBatchPairs b = .ok ((uniqFirst b).map (fun k => (k, [(b.count k : ℚ)]))) := by
  simp only [countBatchPairs, reduceBatchCountPerKey, splitInputsByKey, ne_eq,
    not_true_eq_false, if_false, List.any_cons, List.any_nil, lt_irrefl, decide_false,
    Bool.or_false, Bool.false_eq_true, List.length_map, Except.ok.injEq]
  apply List.ext_getElem
  · simp
  · intro i h1 h2
    simp only [List.length_map] at h2
    simp [h2]

/-- The keyed collections that the combine stage of `count_per_key` sees, one per dataset. -/
def countCollections (datasets : List (List (List K))) :
    Except Err (List (List (K × List ℚ))) :=
  seqExcept (datasets.map (fun batches => do
    let ps ← seqExcept (batches.map countBatchPairs)
    .ok ps.flatten))

theorem count_analysis (s1 : List (Sched (List ℚ))) (s2 : Sched Nat) (hv : ValidRun s1 s2)
    (h1 : ∀ v ∈ allInputs s1, v.length = 1) :
    analysis countCombiner s1 s2 = .ok [Nd.scalar (allInputs s1).flatten.sum] := by
  have hc := computesTotal (β := ℚ) id [] true (s1.map (Sched.map (fun args => args.map (fun v => [v]))))
    s2 (hv.map _) (by
      rw [allInputs_map]
      intro b hb
      obtain ⟨v, hv, rfl⟩ := List.mem_map.1 hb
      simpa using h1 v hv) (.inl rfl)
  unfold countCombiner
  rw [analysis_onBatches] at hc ⊢
  rw [List.map_map] at hc
  have e : s1.map (Sched.map (fun cols : List ℚ => cols.map Nd.scalar))
      = s1.map (Sched.map (fun cols : ColBatch ℚ => [(⟨[], cols.map (fun c => (c.map id).sum)⟩ : Nd ℚ)])
        ∘ Sched.map (fun args : List ℚ => args.map (fun v => [v]))) := by
    apply List.map_congr_left
    intro s hs
    simp only [Function.comp_apply]
    rw [Sched.map_map]
    apply Sched.map_congr_inputs
    intro v hvs
    have hl : v.length = 1 := h1 v (by
      unfold allInputs
      exact List.mem_flatten.2 ⟨_, List.mem_map.2 ⟨s, hs, rfl⟩, hvs⟩)
    obtain ⟨x, rfl⟩ := List.length_eq_one_iff.1 hl
    simp [Nd.scalar]
  rw [e]
  have hs : ((colData (allInputs (s1.map (Sched.map (fun args : List ℚ => args.map (fun v => [v])))))
      0).map id).sum = (allInputs s1).flatten.sum := by
    rw [allInputs_map, List.map_id]
    generalize allInputs s1 = l at h1
    induction l with
    | nil => rfl
    | cons v l ih =>
      obtain ⟨x, rfl⟩ := List.length_eq_one_iff.1 (h1 v (by simp))
      have := ih (fun v hv => h1 v (by simp [hv]))
      simp only [colData, List.map_cons, List.map_nil, List.flatMap_cons, List.getD_cons_zero,
        List.sum_append, List.sum_singleton, List.flatten_cons] at *
      rw [this]
  simp only [if_true, List.prod_nil, List.range_one, List.map_cons,
    List.map_nil] at hc
  rw [hs] at hc
  exact hc

theorem batch_count_sum (k : K) (b : List K) :
    (valuesOf k ((uniqFirst b).map (fun k => (k, [(b.count k : ℚ)])))).flatten.sum = b.count k := by
  rw [valuesOf_map_nodup k _ (nodup_uniqFirst b)]
  by_cases h : k ∈ b
  · simp [mem_uniqFirst, h]
  · simp [mem_uniqFirst, h, List.count_eq_zero_of_not_mem h]

/-- **C02** for `tft.count_per_key`: for every division of the keys into datasets and batches
and for every run that Beam may make of the two combine stages, the result is the increasing list
of the keys that occur, each with its number of occurrences in the whole data. -/
theorem count_per_key_schedule_independent {K : Type} [LinearOrder K]
    (datasets : List (List (List K))) :
    ∃ pcs, countCollections datasets = .ok pcs ∧
    ∀ (r1s : List (KeyRun K (List ℚ))) (r2 : KeyRun K Nat),
      List.Forall₂ ValidKeyRun r1s pcs → ValidKeyMerge r2 (r1s.flatMap KeyRun.keys) →
      ∃ ks : List K, ks.Pairwise (· < ·) ∧ (∀ k, k ∈ ks ↔ k ∈ datasets.flatten.flatten) ∧
        (do let outs ← perKeyAnalysis countCombiner r1s r2
            mergeOutputsByKey 1 outs)
          = .ok (ks, [ks.map (fun k => Nd.scalar (datasets.flatten.flatten.count k : ℚ))]) := by
  let pairs : List K → List (K × List ℚ) := fun b =>
    (uniqFirst b).map (fun k => (k, [(b.count k : ℚ)]))
  have hpcs : countCollections datasets
      = .ok (datasets.map (fun batches => (batches.map pairs).flatten)) := by
    unfold countCollections
    apply seqExcept_ok_map
    intro batches _
    rw [seqExcept_ok_map batches countBatchPairs pairs (fun b _ => countBatchPairs_eq b)]
    rfl
  refine ⟨_, hpcs, ?_⟩
  intro r1s r2 h1 h2
  obtain ⟨hnd, hmem, S1, S2, hval, hrun⟩ := per_key_is_analysis countCombiner _ r1s r2 h1 h2
  have hflat : (datasets.map (fun batches => (batches.map pairs).flatten)).flatten
      = (datasets.flatten.map pairs).flatten := by
    rw [List.map_flatten, List.flatten_flatten, List.map_map]; rfl
  rw [hflat] at hmem hval
  have hmem' : ∀ k, k ∈ r2.keys ↔ k ∈ datasets.flatten.flatten := by
    intro k
    rw [hmem]
    simp only [List.mem_map, List.mem_flatten, pairs]
    constructor
    · rintro ⟨p, ⟨l, ⟨b, hb, rfl⟩, hp⟩, rfl⟩
      obtain ⟨k, hk, rfl⟩ := List.mem_map.1 hp
      exact ⟨b, hb, (mem_uniqFirst b k).1 hk⟩
    · rintro ⟨b, hb, hk⟩
      exact ⟨(k, [(b.count k : ℚ)]), ⟨_, ⟨b, hb, rfl⟩,
        List.mem_map.2 ⟨k, (mem_uniqFirst b k).2 hk, rfl⟩⟩, rfl⟩
  have hsum : ∀ k, ((valuesOf k (datasets.flatten.map pairs).flatten).flatten).sum
      = (datasets.flatten.flatten.count k : ℚ) := by
    intro k
    generalize datasets.flatten = bs
    induction bs with
    | nil => simp [valuesOf]
    | cons b bs ih =>
      rw [List.map_cons, List.flatten_cons, valuesOf_append, List.flatten_append, List.sum_append,
        ih, batch_count_sum, List.flatten_cons, List.count_append]
      push_cast; rfl
  have hr := hrun (fun k => [Nd.scalar (datasets.flatten.flatten.count k : ℚ)]) (by
    intro k hk
    obtain ⟨hv, hp⟩ := hval k hk
    rw [count_analysis (S1 k) (S2 k) hv]
    · rw [hp.flatten.sum_eq, hsum k]
    · intro v hv
      have hv' := hp.mem_iff.1 hv
      obtain ⟨p, hp, rfl⟩ := List.mem_map.1 hv'
      obtain ⟨l, hl, hpl⟩ := List.mem_flatten.1 (List.mem_filter.1 hp).1
      obtain ⟨b, _, rfl⟩ := List.mem_map.1 hl
      obtain ⟨k', _, rfl⟩ := List.mem_map.1 hpl
      rfl)
  rw [hr]
  simp only [bind, Except.bind]
  let out : K → List (Nd ℚ) := fun k => [Nd.scalar (datasets.flatten.flatten.count k : ℚ)]
  have hsort : (r2.keys.map (fun k => (k, out k))).insertionSort (fun a b => a.1 ≤ b.1)
      = (r2.keys.insertionSort (· ≤ ·)).map (fun k => (k, out k)) := by
    rw [List.map_insertionSort (r := fun a b : K => a ≤ b)
      (s := fun a b : K × List (Nd ℚ) => a.1 ≤ b.1) (fun k => (k, out k))]
    intros; rfl
  have hp := List.perm_insertionSort (· ≤ ·) r2.keys
  refine ⟨r2.keys.insertionSort (· ≤ ·), ?_, ?_, ?_⟩
  · have h3 := List.pairwise_insertionSort (· ≤ ·) r2.keys
    have h4 : (r2.keys.insertionSort (· ≤ ·)).Nodup := hp.nodup_iff.2 hnd
    exact h3.imp₂ (fun a b h1 h2 => lt_of_le_of_ne h1 h2) h4
  · intro k; rw [hp.mem_iff, hmem' k]
  · unfold mergeOutputsByKey
    simp only
    rw [show (fun k => (k, [Nd.scalar (datasets.flatten.flatten.count k : ℚ)]))
      = (fun k => (k, out k)) from rfl, hsort]
    generalize r2.keys.insertionSort (· ≤ ·) = ks
    cases ks with
    | nil => rfl
    | cons k ks =>
      have hz : zipStar (((k :: ks).map (fun k => (k, out k))).map Prod.snd)
          = [(k :: ks).map (fun k => Nd.scalar (datasets.flatten.flatten.count k : ℚ))] := by
        have hl : ∀ l ∈ ((k :: ks).map (fun k => (k, out k))).map Prod.snd, l.length = 1 := by
          intro l hl
          simp only [List.map_map, List.mem_map] at hl
          obtain ⟨k', _, rfl⟩ := hl
          rfl
        unfold zipStar
        rw [zipLen_eq_length _ (by simp) hl]
        simp only [List.range_one, List.map_cons, List.map_nil, List.filterMap_cons]
        simp only [out, List.getElem?_cons_zero, List.map_map, List.filterMap_map]
        congr 2
        clear hl
        induction ks with
        | nil => rfl
        | cons k' ks ih => simp
      rw [hz]
      simp [Function.comp_def]

/-- The hypotheses are met by two datasets with three batches. -/
example :
    let datasets : List (List (List Nat)) := [[[7, 5, 7], [5]], [[7]]]
    let r1s : List (KeyRun Nat (List ℚ)) :=
      [⟨[5, 7], fun k => if k = 5 then .merge [.add .create [1], .add .create [1]]
          else .add .create [2]⟩,
       ⟨[7], fun _ => .add .create [1]⟩]
    let r2 : KeyRun Nat Nat := ⟨[7, 5], fun k => if k = 5 then .add .create 0
      else .add (.compact (.add .create 2)) 1⟩
    ∃ pcs, countCollections datasets = .ok pcs ∧ List.Forall₂ ValidKeyRun r1s pcs ∧
      ValidKeyMerge r2 (r1s.flatMap KeyRun.keys) ∧
      (do let outs ← perKeyAnalysis countCombiner r1s r2
          mergeOutputsByKey 1 outs) = .ok ([5, 7], [[⟨[], [2]⟩, ⟨[], [3]⟩]]) := by
  intro datasets r1s r2
  refine ⟨_, rfl, ?_, ?_, by decide +kernel⟩
  · refine .cons ⟨by decide, ?_, ?_, ?_⟩ (.cons ⟨by decide, ?_, ?_, ?_⟩ .nil)
    · intro k
      show k ∈ [5, 7] ↔ k ∈ [7, 5, 5]
      simp; omega
    · intro k hk
      simp only [List.mem_cons, List.not_mem_nil, or_false] at hk
      rcases hk with rfl | rfl
      · refine .merge (by simp) ?_
        intro s hs
        simp only [List.mem_cons, List.not_mem_nil, or_false] at hs
        rcases hs with rfl | rfl <;> exact .add .create
      · exact .add .create
    · intro k hk
      simp only [List.mem_cons, List.not_mem_nil, or_false] at hk
      rcases hk with rfl | rfl <;> decide +kernel
    · intro k
      show k ∈ [7] ↔ k ∈ [7]
      simp
    · intro k hk; exact .add .create
    · intro k hk
      simp only [List.mem_cons, List.not_mem_nil, or_false] at hk
      subst hk; decide +kernel
  · refine ⟨by decide, ?_, ?_, ?_⟩
    · intro k
      show k ∈ [7, 5] ↔ k ∈ [5, 7, 7]
      simp; omega
    · intro k hk
      simp only [r2, List.mem_cons, List.not_mem_nil, or_false] at hk
      rcases hk with rfl | rfl
      · exact .add (.compact (.add .create))
      · exact .add .create
    · intro k hk
      simp only [r2, List.mem_cons, List.not_mem_nil, or_false] at hk
      rcases hk with rfl | rfl <;> decide

/-- Splitting a batch by key succeeds exactly if the keys form a vector and every argument has
a first axis of the length of this vector. Then there is one pair per row, in order: the row's key
and the row's slices of the arguments. -/
theorem split_ok_iff {K V : Type} (keys : KArr K) (args : List (KArr V))
    (r : List (K × List V)) :
    splitInputsByKey keys args = .ok r ↔
      keys.ndim = 1 ∧ (∀ a ∈ args, 1 ≤ a.ndim ∧ a.rows.length = keys.rows.length) ∧
      r.map Prod.fst = keys.rows ∧
      ∀ i (h : i < r.length), List.Forall₂ (fun (a : KArr V) v => a.rows[i]? = some v) args r[i].2 := by
  have hfm : ∀ (i : Nat) (vs : List V) (args : List (KArr V)),
      (∀ a ∈ args, i < a.rows.length) →
      (List.Forall₂ (fun (a : KArr V) v => a.rows[i]? = some v) args vs ↔
        vs = args.filterMap (fun a => a.rows[i]?)) := by
    intro i vs args
    induction args generalizing vs with
    | nil => simp
    | cons a as ih =>
      intro h
      have ha := h a (by simp)
      rw [List.forall₂_cons_left_iff]
      simp only [List.filterMap_cons, List.getElem?_eq_getElem ha, Option.some.injEq]
      constructor
      · rintro ⟨b, u, rfl, hu, rfl⟩
        rw [← (ih u (fun x hx => h x (by simp [hx]))).1 hu]
      · rintro rfl
        exact ⟨_, _, rfl, (ih _ (fun x hx => h x (by simp [hx]))).2 rfl, rfl⟩
  unfold splitInputsByKey
  by_cases h1 : keys.ndim = 1
  swap
  · simp [h1]
  by_cases h2 : ∃ a ∈ args, a.ndim < 1
  · have : args.any (fun a => decide (a.ndim < 1)) = true := by simpa using h2
    obtain ⟨a, ha, hn⟩ := h2
    simp only [h1, ne_eq, not_true, if_false, this, if_true, reduceCtorEq, false_iff]
    rintro ⟨-, h, -⟩
    have := (h a ha).1
    omega
  have h2' : args.any (fun a => decide (a.ndim < 1)) = false := by
    simpa using h2
  by_cases h3 : ∃ a ∈ args, a.rows.length ≠ keys.rows.length
  · have : args.any (fun a => decide (a.rows.length ≠ keys.rows.length)) = true := by simpa using h3
    obtain ⟨a, ha, hn⟩ := h3
    simp only [h1, ne_eq, not_true, if_false, h2', Bool.false_eq_true] at this ⊢
    simp only [this, if_true, reduceCtorEq, false_iff]
    rintro ⟨-, h, -⟩
    exact hn (h a ha).2
  have h3' : args.any (fun a => decide (a.rows.length ≠ keys.rows.length)) = false := by
    simpa using h3
  push Not at h2 h3
  simp only [h1, ne_eq, not_true, if_false, h2', Bool.false_eq_true] at h3' ⊢
  simp only [h3', Bool.false_eq_true, if_false, Except.ok.injEq, true_and]
  constructor
  · rintro rfl
    refine ⟨fun a ha => ⟨h2 a ha, h3 a ha⟩, ?_, ?_⟩
    · rw [List.map_map]
      exact List.zipIdx_map_fst 0 keys.rows
    · intro i hi
      simp only [List.length_map, List.length_zipIdx] at hi
      rw [hfm i _ args (fun a ha => by rw [h3 a ha]; exact hi)]
      simp
  · rintro ⟨-, hk, hr⟩
    have hl : r.length = keys.rows.length := by rw [← hk, List.length_map]
    apply List.ext_getElem
    · simp [hl]
    · intro i hi hi'
      have := (hfm i _ args (fun a ha => by rw [h3 a ha, ← hl]; exact hi')).1 (hr i hi')
      have hk' : keys.rows[i]'(by omega) = r[i].1 := by
        simp [← hk]
      simp only [List.getElem_map, List.getElem_zipIdx, zero_add, hk', ← this]

example : (splitInputsByKey ⟨1, ["a", "b", "a"]⟩ [⟨1, [1, 2, 3]⟩, ⟨2, [4, 5, 6]⟩]).toOption =
    some [("a", [1, 4]), ("b", [2, 5]), ("a", [3, 6])] := by decide

/-- A key with fewer outputs than the analyzer promises is an error, not a table with a hole. -/
theorem merge_outputs_too_few {K O : Type} [LinearOrder K] (numOutputs : Nat)
    (kos : List (K × List O)) (k : K) (os : List O) (hk : (k, os) ∈ kos)
    (hl : os.length < numOutputs) (r : List K × List (List O)) :
    mergeOutputsByKey numOutputs kos ≠ .ok r := by
  have hmem : (k, os) ∈ kos.insertionSort (fun a b => a.1 ≤ b.1) := by
    rwa [List.mem_insertionSort]
  have hne : kos.insertionSort (fun a b => a.1 ≤ b.1) ≠ [] := List.ne_nil_of_mem hmem
  have hz : ∀ (ls : List (List O)), os ∈ ls → zipLen ls ≤ os.length := by
    intro ls
    induction ls with
    | nil => simp
    | cons l ls ih =>
      intro h
      cases ls with
      | nil =>
        have : os = l := by simpa using h
        simp [zipLen, this]
      | cons l' ls =>
        rcases List.mem_cons.1 h with rfl | h
        · simp [zipLen]
        · have := ih h
          simp only [zipLen] at this ⊢
          omega
  have hlen := hz ((kos.insertionSort (fun a b => a.1 ≤ b.1)).map Prod.snd)
    (List.mem_map.2 ⟨_, hmem, rfl⟩)
  simp only [mergeOutputsByKey, if_neg hne]
  rw [if_pos]
  · simp
  · simp only [zipStar, List.length_map, List.length_range]
    omega

/-- The table of outputs has the keys in ascending order, and in column `j` at position `i` the
`j`-th output of the `i`-th key. -/
theorem merge_outputs_spec {K O : Type} [LinearOrder K] (numOutputs : Nat)
    (kos : List (K × List O)) (keys : List K) (cols : List (List O))
    (h : mergeOutputsByKey numOutputs kos = .ok (keys, cols)) :
    cols.length = numOutputs ∧ keys.Pairwise (· ≤ ·) ∧
    ∃ table : List (K × List O), table.Perm kos ∧ table.map Prod.fst = keys ∧
      ∀ j (hj : j < cols.length), cols[j].length = keys.length ∧
        ∀ i (hi : i < table.length), cols[j][i]? = (table[i].2)[j]? := by
  have hs : (kos.insertionSort (fun a b => a.1 ≤ b.1)).Pairwise (fun a b => a.1 ≤ b.1) :=
    List.pairwise_insertionSort _ _
  have hp := List.perm_insertionSort (fun a b : K × List O => a.1 ≤ b.1) kos
  unfold mergeOutputsByKey at h
  revert h hs hp
  generalize kos.insertionSort (fun a b => a.1 ≤ b.1) = sorted
  intro h hs hp
  have hz : ∀ (ls : List (List O)) l, l ∈ ls → zipLen ls ≤ l.length := by
    intro ls
    induction ls with
    | nil => simp
    | cons l ls ih =>
      intro m h
      cases ls with
      | nil =>
        have : m = l := by simpa using h
        simp [zipLen, this]
      | cons l' ls =>
        rcases List.mem_cons.1 h with rfl | h
        · simp [zipLen]
        · have := ih m h
          simp only [zipLen] at this ⊢
          omega
  by_cases hlen : (if sorted = [] then List.replicate numOutputs []
      else zipStar (sorted.map Prod.snd)).length ≠ numOutputs
  · simp only [if_pos hlen] at h
    cases h
  simp only [if_neg hlen, Except.ok.injEq, Prod.mk.injEq] at h
  obtain ⟨rfl, rfl⟩ := h
  refine ⟨not_not.1 hlen, ?_, sorted, hp, rfl, ?_⟩
  · exact List.pairwise_map.2 hs
  intro j hj0
  have hj := hj0
  by_cases he : sorted = []
  · subst he
    simp
  simp only [he, if_false] at hj ⊢
  have hj' : j < zipLen (sorted.map Prod.snd) := by simpa [zipStar] using hj
  have hfm : (zipStar (sorted.map Prod.snd))[j] =
      (sorted.map Prod.snd).filterMap (fun l => l[j]?) := by simp [zipStar]
  rw [hfm]
  have hall : ∀ p ∈ sorted, j < p.2.length := fun p hp =>
    lt_of_lt_of_le hj' (hz _ _ (List.mem_map.2 ⟨p, hp, rfl⟩))
  clear hfm hj hj' hj0 he hlen hp hs
  induction sorted with
  | nil => simp
  | cons p ps ih =>
    have h1 := hall p (by simp)
    obtain ⟨i1, i2⟩ := ih (fun q hq => hall q (by simp [hq]))
    simp only [List.map_cons, List.filterMap_cons, List.getElem?_eq_getElem h1, List.length_cons]
    refine ⟨by rw [i1], ?_⟩
    intro i hi
    cases i with
    | zero => simp [h1]
    | succ i => simpa using i2 i (by simpa using hi)

example : (mergeOutputsByKey 2 [(7, [1, 2]), (5, [3])]).toOption = none := by decide
example : (mergeOutputsByKey 2 [(7, [1, 2]), (5, [3, 4])]).toOption =
    some ([5, 7], [[3, 1], [4, 2]]) := by decide

end TFT
