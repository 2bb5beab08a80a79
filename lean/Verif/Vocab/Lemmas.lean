import Verif.Vocab.Model
import Verif.Vocab.Spec
import Verif.Combine.PerKeyProps

/-! Lemmas about sorting and selecting vocabulary entries. -/

namespace TFT.Vocab

open TFT.Spec

variable {B : Type} [LinearOrder B]

instance : Std.Total (precedes (B := B)) := ⟨fun a b => by
  unfold precedes
  rcases lt_trichotomy a.1 b.1 with h | h | h
  · exact .inr (.inl h)
  · rcases le_total a.2 b.2 with h2 | h2
    · exact .inr (.inr ⟨h, h2⟩)
    · exact .inl (.inr ⟨h.symm, h2⟩)
  · exact .inl (.inl h)⟩

instance : IsTrans (ℚ × B) precedes := ⟨fun a b c => by
  unfold precedes
  rintro (h1 | ⟨h1, h1'⟩) (h2 | ⟨h2, h2'⟩)
  · exact .inl (h2.trans h1)
  · exact .inl (h2 ▸ h1)
  · exact .inl (h1 ▸ h2)
  · exact .inr ⟨h2.trans h1, h2'.trans h1'⟩⟩

instance : Std.Antisymm (precedes (B := B)) := ⟨fun a b => by
  unfold precedes
  rintro (h1 | ⟨h1, h1'⟩) (h2 | ⟨h2, h2'⟩)
  · exact absurd (h1.trans h2) (lt_irrefl _)
  · exact absurd (h2 ▸ h1) (lt_irrefl _)
  · exact absurd (h1 ▸ h2) (lt_irrefl _)
  · exact Prod.ext h2 (le_antisymm h2' h1')⟩

theorem sorted_eq_of_perm {l l' : List (ℚ × B)} (h : l.Perm l') :
    l.insertionSort precedes = l'.insertionSort precedes :=
  List.Perm.eq_of_pairwise (le := precedes)
    (fun a b _ _ h1 h2 => Std.Antisymm.antisymm a b h1 h2)
    (List.pairwise_insertionSort _ _) (List.pairwise_insertionSort _ _)
    ((List.perm_insertionSort _ _).trans (h.trans (List.perm_insertionSort _ _).symm))

theorem sort_of_sorted {l : List (ℚ × B)} (h : l.Pairwise precedes) :
    l.insertionSort precedes = l :=
  h.insertionSort_eq

/-- Best tokens first. -/
def ranked (score : B → ℚ) (l : List B) : List B :=
  l.insertionSort (fun a b => precedes (score a, a) (score b, b))

theorem sort_entries (score : B → ℚ) (l : List B) :
    (l.map (fun b => (score b, b))).insertionSort precedes
      = (ranked score l).map (fun b => (score b, b)) := by
  unfold ranked
  rw [List.map_insertionSort (r := fun a b : B => precedes (score a, a) (score b, b))
      (s := precedes) (fun b => (score b, b))]
  intros; rfl

theorem ranked_perm (score : B → ℚ) (l : List B) : (ranked score l).Perm l :=
  List.perm_insertionSort _ _

theorem ranked_sorted (score : B → ℚ) (l : List B) (h : l.Nodup) :
    (ranked score l).Pairwise (Outranks score) := by
  have h1 : ((ranked score l).map (fun b => (score b, b))).Pairwise precedes := by
    rw [← sort_entries]; exact List.pairwise_insertionSort _ _
  rw [List.pairwise_map] at h1
  have h2 : (ranked score l).Nodup := (ranked_perm score l).nodup_iff.2 h
  refine h1.imp₂ (fun a b h3 h4 => ?_) h2
  unfold precedes at h3
  simp only at h3
  unfold Outranks
  rcases h3 with h3 | ⟨h3, h3'⟩
  · exact .inl h3
  · exact .inr ⟨h3, lt_of_le_of_ne h3' (Ne.symm h4)⟩

theorem outranks_asymm {score : B → ℚ} {a b : B} (h : Outranks score a b) :
    ¬ Outranks score b a := by
  unfold Outranks at *
  rintro (h2 | ⟨h2, h2'⟩) <;> rcases h with h | ⟨h, h'⟩
  · exact lt_asymm h h2
  · exact absurd (h ▸ h2) (lt_irrefl _)
  · exact absurd (h2 ▸ h) (lt_irrefl _)
  · exact lt_asymm h' h2'

theorem outranks_irrefl {score : B → ℚ} {a : B} : ¬ Outranks score a a :=
  fun h => outranks_asymm h h

/-- In a strictly ordered list, being among the first `k` means that fewer than `k` elements are
better. -/
theorem mem_take_iff {score : B → ℚ} (l : List B) (h : l.Pairwise (Outranks score)) (k : Nat)
    (t : B) : t ∈ l.take k ↔ t ∈ l ∧ (l.toFinset.filter (fun u => Outranks score u t)).card < k := by
  induction l generalizing k with
  | nil => simp
  | cons a l ih =>
    rw [List.pairwise_cons] at h
    obtain ⟨ha, hl⟩ := h
    have hna : a ∉ l := fun hm => outranks_irrefl (ha a hm)
    cases k with
    | zero => simp
    | succ k =>
      rw [List.take_succ_cons, List.mem_cons, List.mem_cons, ih hl k]
      by_cases hta : t = a
      · subst hta
        have : (List.toFinset (t :: l)).filter (fun u => Outranks score u t) = ∅ := by
          apply Finset.filter_eq_empty_iff.2
          intro u hu
          rcases List.mem_cons.1 (List.mem_toFinset.1 hu) with rfl | hu
          · exact outranks_irrefl
          · exact outranks_asymm (ha u hu)
        rw [this]; simp
      · simp only [hta, false_or]
        apply and_congr_right
        intro ht
        rw [List.toFinset_cons, Finset.filter_insert, if_pos (ha t ht),
          Finset.card_insert_of_notMem (by simp [hna])]
        omega

theorem pairwise_outranks_nodup {score : B → ℚ} {l : List B} (h : l.Pairwise (Outranks score)) :
    l.Nodup :=
  h.imp (fun {a b} h => by rintro rfl; exact outranks_irrefl h)

theorem isRanking_unique {score : B → ℚ} {sel : B → Prop} {l l' : List B}
    (h : IsRanking score sel l) (h' : IsRanking score sel l') : l = l' :=
  List.Perm.eq_of_pairwise (le := Outranks score)
    (fun _ _ _ _ h1 h2 => absurd h2 (outranks_asymm h1)) h.sorted h'.sorted
    ((List.perm_ext_iff_of_nodup (pairwise_outranks_nodup h.sorted)
      (pairwise_outranks_nodup h'.sorted)).2 (fun t => (h.mem t).trans (h'.mem t).symm))

/-! ## Counting -/

section counting

variable {T : Type} [DecidableEq T]

/-- The weights that token `t` gets from a batch. -/
def tokenWeights (weighted : Bool) (drop : T → Bool) (t : T) (batch : TokenBatch T) : List ℚ :=
  ((batch.filter (fun p => !drop p.1)).filter (fun p => decide (p.1 = t))).map
    (fun p => if weighted then p.2 else 1)

theorem batchPairs_sum (weighted : Bool) (drop : T → Bool) (t : T) (batch : TokenBatch T) :
    (valuesOf t (batchPairs weighted drop batch)).sum
      = (tokenWeights weighted drop t batch).sum := by
  unfold batchPairs tokenWeights
  cases weighted with
  | false =>
    simp only [Bool.false_eq_true, if_false]
    unfold valuesOf
    generalize batch.filter (fun p => !drop p.1) = kept
    induction kept with
    | nil => rfl
    | cons p kept ih =>
      simp only [List.map_cons, List.filter_cons]
      by_cases h : p.1 = t
      · simp only [h, decide_true, if_true, List.map_cons, List.sum_cons, ih]
      · simp only [h, decide_false, Bool.false_eq_true, if_false, ih]
  | true =>
    simp only [if_true]
    rw [valuesOf_map_nodup t _ (nodup_uniqFirst _)]
    by_cases h : t ∈ (batch.filter (fun p => !drop p.1)).map Prod.fst
    · rw [if_pos ((mem_uniqFirst _ _).2 h), List.sum_singleton]
    · rw [if_neg (fun h' => h ((mem_uniqFirst _ _).1 h'))]
      have : (batch.filter (fun p => !drop p.1)).filter (fun p => decide (p.1 = t)) = [] := by
        rw [List.filter_eq_nil_iff]
        intro p hp
        simp only [decide_eq_true_eq]
        rintro rfl
        exact h (List.mem_map.2 ⟨p, hp, rfl⟩)
      rw [this]; rfl

theorem batchPairs_mem (weighted : Bool) (drop : T → Bool) (t : T) (batch : TokenBatch T) :
    t ∈ (batchPairs weighted drop batch).map Prod.fst
      ↔ t ∈ (batch.filter (fun p => !drop p.1)).map Prod.fst := by
  unfold batchPairs
  cases weighted with
  | false => simp
  | true => simp [mem_uniqFirst]

theorem sumCombiner_analysis (s1 : List (Sched ℚ)) (s2 : Sched Nat) (hv : ValidRun s1 s2) :
    analysis sumCombiner s1 s2 = .ok (allInputs s1).sum := by
  have T : Sched.Total sumCombiner (fun _ => True) (fun a l => a = l.sum) :=
    { create := rfl
      add := fun a l b h _ => ⟨a + b, rfl, by simp [h]⟩
      merge := fun as ls hne h => ⟨as.sum, rfl, by
        clear hv hne
        induction h with
        | nil => rfl
        | cons h _ ih => rw [List.sum_cons, List.flatten_cons, List.sum_append, h, ih]⟩
      compact := fun a l h => ⟨a, rfl, h⟩ }
  obtain ⟨final, h1, h2⟩ := analysis_total T (fun a l l' hp h => h.trans hp.sum_eq) s1 s2 hv
    (fun _ _ => trivial)
  rw [h1, h2]; rfl

/-- The keyed collections that the count stage sees, one per dataset. -/
def countInputs (weighted : Bool) (drop : T → Bool) (datasets : List (List (TokenBatch T))) :
    List (List (T × ℚ)) :=
  datasets.map (fun batches => batches.flatMap (batchPairs weighted drop))

theorem valuesOf_flatMap_sum (weighted : Bool) (drop : T → Bool) (t : T)
    (bs : List (TokenBatch T)) :
    (valuesOf t (bs.flatMap (batchPairs weighted drop))).sum
      = (tokenWeights weighted drop t bs.flatten).sum := by
  induction bs with
  | nil => simp [valuesOf, tokenWeights]
  | cons b bs ih =>
    rw [List.flatMap_cons, valuesOf_append, List.sum_append, batchPairs_sum, ih]
    simp [tokenWeights]

theorem flatMap_mem (weighted : Bool) (drop : T → Bool) (t : T) (bs : List (TokenBatch T)) :
    t ∈ (bs.flatMap (batchPairs weighted drop)).map Prod.fst
      ↔ t ∈ (bs.flatten.filter (fun p => !drop p.1)).map Prod.fst := by
  induction bs with
  | nil => simp
  | cons b bs ih =>
    rw [List.flatMap_cons, List.map_append, List.mem_append, ih, batchPairs_mem,
      List.flatten_cons, List.filter_append, List.map_append, List.mem_append]

/-- Whatever the datasets, batches and schedules are, the count stage gives every token that
occurs (and is not dropped) once, with its total weight. -/
theorem count_stage (weighted : Bool) (drop : T → Bool) (datasets : List (List (TokenBatch T)))
    (r1s : List (KeyRun T ℚ)) (r2 : KeyRun T Nat)
    (h1 : List.Forall₂ ValidKeyRun r1s (countInputs weighted drop datasets))
    (h2 : ValidKeyMerge r2 (r1s.flatMap KeyRun.keys)) :
    r2.keys.Nodup ∧
    (∀ t, t ∈ r2.keys ↔ t ∈ (datasets.flatten.flatten.filter (fun p => !drop p.1)).map Prod.fst) ∧
    perKeyAnalysis sumCombiner r1s r2 = .ok (r2.keys.map (fun t =>
      (t, (tokenWeights weighted drop t datasets.flatten.flatten).sum))) := by
  obtain ⟨hnd, hmem, S1, S2, hval, hrun⟩ := per_key_is_analysis sumCombiner _ r1s r2 h1 h2
  have hflat : (countInputs weighted drop datasets).flatten
      = datasets.flatten.flatMap (batchPairs weighted drop) := by
    unfold countInputs
    simp only [List.flatMap_def, List.map_flatten, List.flatten_flatten, List.map_map]
    rfl
  rw [hflat] at hmem hval
  refine ⟨hnd, fun t => (hmem t).trans (flatMap_mem weighted drop t _), hrun _ ?_⟩
  intro t ht
  obtain ⟨hv, hp⟩ := hval t ht
  rw [sumCombiner_analysis _ _ hv, hp.sum_eq, valuesOf_flatMap_sum]

end counting

/-! ## Pruning -/

section pruning

variable {T Key : Type} [DecidableEq Key]

/-- What a threshold filter keeps. -/
def passB (freqThr : ℚ) (infoThr : WithBot ℚ) (i : Indicator) : Bool :=
  if 0 < freqThr ∨ ⊥ < infoThr then passesThresholds freqThr infoThr i else true

omit [LinearOrder B] in
theorem flat_eq (enc : T → B) (freqThr : ℚ) (infoThr : WithBot ℚ)
    (counts : List (Indicator × T)) (toks : List B) (ind : B → Indicator)
    (hc : counts.map (fun p => (p.1, enc p.2)) = toks.map (fun b => (ind b, b))) :
    (if 0 < freqThr ∨ ⊥ < infoThr
      then counts.filter (fun p => passesThresholds freqThr infoThr p.1) else counts).map
        (fun p => (flattenMetric p.1, enc p.2))
    = (toks.filter (fun b => passB freqThr infoThr (ind b))).map
        (fun b => (flattenMetric (ind b), b)) := by
  have e1 : ∀ l : List (Indicator × T), l.map (fun p => (flattenMetric p.1, enc p.2))
      = (l.map (fun p => (p.1, enc p.2))).map (fun q => (flattenMetric q.1, q.2)) := by
    intro l; rw [List.map_map]; rfl
  have e2 : (toks.filter (fun b => passB freqThr infoThr (ind b))).map
        (fun b => (flattenMetric (ind b), b))
      = ((toks.map (fun b => (ind b, b))).filter (fun q => passB freqThr infoThr q.1)).map
        (fun q => (flattenMetric q.1, q.2)) := by
    rw [List.filter_map, List.map_map]; rfl
  rw [e1, e2, ← hc, List.filter_map]
  unfold passB
  by_cases h : 0 < freqThr ∨ ⊥ < infoThr
  · simp only [h, if_true]; rfl
  · simp only [h, if_false]; simp

theorem topOf_entries (score : B → ℚ) (k : Nat) (l : List B) :
    topOf k (l.map (fun b => (score b, b)))
      = ((ranked score l).take k).map (fun b => (score b, b)) := by
  unfold topOf
  rw [sort_entries, List.map_take]

end pruning

end TFT.Vocab
