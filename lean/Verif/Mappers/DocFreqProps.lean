import Verif.Mappers.DocFreq
import Verif.Mappers.TfIdfProps

/-!
# Properties of `tft.experimental.document_frequency` and `idf` (C65)
-/

namespace TFT.TfIdf
open TFT.Sparse TFT.Sparse.Spec TFT.TfIdf.Spec

namespace Spec

/-- A sparse tensor with the same indices and shape, and other values. -/
def sameShape {β : Type} (x : Tensor Int) (f : Int → β) : Tensor β :=
  ⟨x.entries.map (fun e => (e.1, f e.2)), x.rows, x.cols⟩

/-- The inverse document frequency of the documentation; `none`: the division by zero that it
announces. -/
noncomputable def inverse (smooth addBaseline : Bool) (documents containing : Nat) : Option ℝ :=
  let baseline : ℝ := if addBaseline then 1 else 0
  if smooth then some (baseline + Real.log (((documents : ℝ) + 1) / ((containing : ℝ) + 1)))
  else if containing = 0 then none
  else some (baseline + Real.log ((documents : ℝ) / (containing : ℝ)))

end Spec
open TFT.TfIdf.Spec

theorem decode (v : Nat) (i : Nat) (t : Int) (h0 : 0 ≤ t) (h1 : t < v) :
    ((i : Int) * ((v : Int) + 1) + t) / ((v : Int) + 1) = i ∧
      ((i : Int) * ((v : Int) + 1) + t) % ((v : Int) + 1) = t := by
  constructor
  · rw [Int.add_comm, Int.add_mul_ediv_right _ _ (by omega), Int.ediv_eq_zero_of_lt h0 (by omega)]
    simp
  · rw [Int.add_comm, Int.add_mul_emod_self_right]
    exact Int.emod_eq_of_lt h0 (by omega)

/-- The sum over the documents of a batch is the number of documents with the term. -/
theorem oneHotSum_eq (v : Nat) (x : Tensor Int) (hb : ∀ e ∈ x.entries, e.1.1 < x.rows) :
    oneHotSum (toVocabRange x v) v = (List.range v).map (fun (t : Nat) =>
      (((docs v x).countP (fun d => decide ((t : Int) ∈ d)) : Nat) : ℚ)) := by
  unfold oneHotSum
  apply List.map_congr_left
  intro t ht
  have htv : t < v := List.mem_range.1 ht
  have hu : ∀ l : List Int, (uniqFirst l).Nodup ∧ (∀ a, a ∈ uniqFirst l ↔ a ∈ l) :=
    fun l => by rw [uniqFirst_eq]; exact ⟨(firstOccurrences_spec l).1, (firstOccurrences_spec l).2.1⟩
  obtain ⟨hn, hm⟩ := hu (flatIndices (toVocabRange x v) v)
  -- the pairs of the term
  have hmem : ∀ f, f ∈ flatIndices (toVocabRange x v) v ↔
      ∃ i, i < x.rows ∧ ∃ u ∈ docTerms v x i, f = (i : Int) * ((v : Int) + 1) + u := by
    intro f
    unfold flatIndices toVocabRange docTerms rowOf
    rw [List.map_map, List.mem_map]
    simp only [List.mem_map, List.mem_filter, decide_eq_true_eq, Function.comp_apply]
    constructor
    · rintro ⟨e, he, rfl⟩
      exact ⟨e.1.1, hb e he, _, ⟨e.2, ⟨e, ⟨he, rfl⟩, rfl⟩, rfl⟩, rfl⟩
    · rintro ⟨i, hi, u, ⟨w, ⟨e, ⟨he, rfl⟩, rfl⟩, rfl⟩, rfl⟩
      exact ⟨e, he, rfl⟩
  have hrange : ∀ i, ∀ u ∈ docTerms v x i, 0 ≤ u ∧ u < v := by
    intro i u hu
    obtain ⟨w, _, rfl⟩ := List.mem_map.1 hu
    exact ⟨Int.emod_nonneg _ (by omega), Int.emod_lt_of_pos _ (by omega)⟩
  have key : ((uniqFirst (flatIndices (toVocabRange x v) v)).filter
      (fun f : Int => decide (f % ((v : Int) + 1) = (t : Int)))).Perm
      (((List.range x.rows).filter (fun i => decide ((t : Int) ∈ docTerms v x i))).map
        (fun i : Nat => (i : Int) * ((v : Int) + 1) + (t : Int))) := by
    rw [List.perm_ext_iff_of_nodup (hn.filter _) ((List.nodup_range.filter _).map (by
      intro a b hab
      have hab : (a : Int) * ((v : Int) + 1) + t = (b : Int) * ((v : Int) + 1) + t := hab
      have := mul_right_cancel₀ (by omega : ((v : Int) + 1) ≠ 0) (by omega :
        (a : Int) * ((v : Int) + 1) = (b : Int) * ((v : Int) + 1))
      exact_mod_cast this))]
    intro f
    rw [List.mem_filter, hm, hmem, List.mem_map]
    constructor
    · rintro ⟨⟨i, hi, u, hu, rfl⟩, hf⟩
      rw [(decode v i u (hrange i u hu).1 (hrange i u hu).2).2, decide_eq_true_eq] at hf
      subst hf
      exact ⟨i, List.mem_filter.2 ⟨List.mem_range.2 hi, by simpa using hu⟩, rfl⟩
    · rintro ⟨i, hi, rfl⟩
      rw [List.mem_filter, List.mem_range, decide_eq_true_eq] at hi
      refine ⟨⟨i, hi.1, t, hi.2, rfl⟩, ?_⟩
      rw [(decode v i t (by omega) (by omega)).2]
      simp
  unfold oneHot
  rw [List.filter_map, List.map_map]
  have h1 : ((uniqFirst (flatIndices (toVocabRange x v) v)).filter
      ((fun k : Int × Int => decide (k.2 = (t : Int))) ∘
        fun f : Int => (f / ((v : Int) + 1), f % ((v : Int) + 1)))).length
      = (docs v x).countP (fun d => decide ((t : Int) ∈ d)) := by
    have := key.length_eq
    simp only [Function.comp_def]
    rw [this, List.length_map, docs, List.countP_map, List.countP_eq_length_filter]
    rfl
  rw [← h1]
  rw [show ((fun _ => (1 : ℚ)) ∘ fun f : Int => (f / ((v : Int) + 1), f % ((v : Int) + 1)))
    = fun _ => (1 : ℚ) from rfl, List.map_const', List.sum_replicate]
  simp

theorem oneHotSum_countDocs (v : Nat) (x : Tensor Int) (hb : ∀ e ∈ x.entries, e.1.1 < x.rows) :
    oneHotSum (toVocabRange x v) v = countDocsWithTerm (toVocabRange x v) v := by
  rw [oneHotSum_eq v x hb, countDocs_eq v x hb]

theorem Sched.map_congr_inputs {A B : Type} (f g : A → B) (s1 : List (Sched A))
    (h : ∀ x ∈ allInputs s1, f x = g x) :
    (allInputs (s1.map (Sched.map f))) = allInputs (s1.map (Sched.map g)) := by
  rw [allInputs_map, allInputs_map]
  exact List.map_congr_left h

/-- The analysis computes the document frequency of every term. -/
theorem global_document_frequency (v : Nat) (known : Bool) (s1 : List (Sched (Tensor Int)))
    (s2 : Sched Nat) (hv : ValidRun s1 s2)
    (hb : ∀ x ∈ allInputs s1, ∀ e ∈ x.entries, e.1.1 < x.rows)
    (hne : known = true ∨ allInputs s1 ≠ []) :
    analysis (globalDocumentFrequency v known) s1 s2
      = .ok [⟨[v], (List.range v).map (fun (t : Nat) =>
          (documentFrequency v (allInputs s1) (t : Int) : ℚ))⟩] := by
  unfold globalDocumentFrequency
  rw [analysis_onBatches, sum_schedule_independent [v] known _ _ (ValidRun.map _ hv)]
  · rw [Sched.map_congr_inputs _ (fun x => (countDocsWithTerm (toVocabRange x v) v).map (fun c => [c])) s1
      (fun x hx => by rw [oneHotSum_countDocs v x (hb x hx)]), allInputs_map]
    congr 2
    rw [Nd.mk.injEq]
    refine ⟨rfl, ?_⟩
    simp only [List.prod_singleton]
    apply List.map_congr_left
    intro t ht
    rw [List.map_id, colData_cols v _ t (List.mem_range.1 ht) hb]
  · intro b hb'
    rw [allInputs_map] at hb'
    obtain ⟨x, _, rfl⟩ := List.mem_map.1 hb'
    simp [oneHotSum]
  · rw [allInputs_map]
    rcases hne with h | h
    · exact Or.inl h
    · exact Or.inr (by simpa using h)

theorem mapValues_ok {β : Type} (x : Tensor Int) (v : Nat) (f : Int → Except Err β) (g : Int → β)
    (h : ∀ e ∈ x.entries, f (e.2 % (v : Int)) = .ok (g (e.2 % (v : Int)))) :
    mapValues (toVocabRange x v) f = .ok (sameShape x (fun t => g (t % (v : Int)))) := by
  unfold mapValues toVocabRange
  simp only [List.map_map]
  rw [seqExcept_ok_map x.entries _ (fun e => (e.1, g (e.2 % (v : Int))))]
  · rfl
  · intro e he
    simp only [Function.comp_apply, h e he, bind, Except.bind]

theorem gather_term {β : Type} (v : Nat) (hv : v ≠ 0) (g : Nat → β) (t : Int) :
    gather1 ((List.range v).map g) (t % (v : Int)).toNat = .ok (g (t % (v : Int)).toNat) := by
  have h1 := Int.emod_nonneg t (show (v : Int) ≠ 0 by omega)
  have h2 := Int.emod_lt_of_pos t (show (0 : Int) < v by omega)
  have : (t % (v : Int)).toNat < v := by omega
  unfold gather1
  simp [this]

/-- **C65** `tft.experimental.document_frequency`: every entry is replaced by the number of documents
of the whole corpus that contain its term (wrapped into the vocabulary range), and nothing else
changes, for every way in which a runner may compute the analysis. `vocab_size` must be at least 2,
see `document_frequency_fails_for_vocab_size_one`. -/
theorem document_frequency_spec_partial (v : Nat) (hv2 : 2 ≤ v) (known : Bool)
    (s1 : List (Sched (Tensor Int))) (s2 : Sched Nat) (hv : ValidRun s1 s2)
    (hb : ∀ x ∈ allInputs s1, ∀ e ∈ x.entries, e.1.1 < x.rows)
    (hne : known = true ∨ allInputs s1 ≠ []) (x : Tensor Int) :
    runDocumentFrequency v known s1 s2 x
      = .ok (sameShape x (fun t => (documentFrequency v (allInputs s1) (t % (v : Int)) : ℚ))) := by
  unfold runDocumentFrequency
  rw [global_document_frequency v known s1 s2 hv hb hne]
  simp only [bind, Except.bind]
  unfold applyDocumentFrequency
  rw [if_neg (by omega)]
  simp only [List.length_map, List.length_range]
  rw [if_neg (by omega)]
  refine mapValues_ok x v _ (fun t => (documentFrequency v (allInputs s1) t : ℚ)) ?_
  intro e _
  rw [gather_term v (by omega)]
  rw [Int.toNat_of_nonneg (Int.emod_nonneg _ (by omega))]

/-- **C65** fails for a vocabulary of size one: the frequencies are squeezed to a scalar, and every
batch fails. -/
theorem document_frequency_fails_for_vocab_size_one (known : Bool)
    (s1 : List (Sched (Tensor Int))) (s2 : Sched Nat) (hv : ValidRun s1 s2)
    (hb : ∀ x ∈ allInputs s1, ∀ e ∈ x.entries, e.1.1 < x.rows)
    (hne : known = true ∨ allInputs s1 ≠ []) (x : Tensor Int) :
    runDocumentFrequency 1 known s1 s2 x
      = .error "InvalidArgumentError: params must be at least 1 dimensional" := by
  unfold runDocumentFrequency
  rw [global_document_frequency 1 known s1 s2 hv hb hne]
  simp only [bind, Except.bind]
  unfold applyDocumentFrequency
  rw [if_neg (by omega)]
  rfl

/-- **C65** `tft.experimental.idf`: every entry is replaced by the inverse document frequency of its
term over the whole corpus, and nothing else changes, for every vocabulary size but 0. -/
theorem idf_spec (v : Nat) (hv1 : v ≠ 0) (smooth addBaseline known : Bool)
    (s1 : List (Sched (Tensor Int))) (s2 : Sched Nat) (hv : ValidRun s1 s2)
    (s1' : List (Sched (Tensor Int))) (s2' : Sched Nat) (hv' : ValidRun s1' s2')
    (hsame : (allInputs s1').Perm (allInputs s1))
    (hb : ∀ x ∈ allInputs s1, ∀ e ∈ x.entries, e.1.1 < x.rows)
    (hne : known = true ∨ allInputs s1 ≠ []) (x : Tensor Int) :
    runIdf v smooth addBaseline known s1 s2 s1' s2' x
      = .ok (sameShape x (fun t => Spec.inverse smooth addBaseline (corpus v (allInputs s1)).length
          (documentFrequency v (allInputs s1) (t % (v : Int))))) := by
  unfold runIdf
  rw [global_document_frequency v known s1 s2 hv hb hne, corpus_size_analysis v s1' s2' hv']
  have hN : (corpus v (allInputs s1')).length = (corpus v (allInputs s1)).length :=
    (corpus_perm v hsame).length_eq
  simp only [bind, Except.bind, hN]
  unfold applyIdf
  rw [if_neg (by omega)]
  refine mapValues_ok x v _ (fun t => Spec.inverse smooth addBaseline (corpus v (allInputs s1)).length
          (documentFrequency v (allInputs s1) t)) ?_
  intro e _
  rw [List.map_map, gather_term v hv1]
  have hnn : (((e.2 % (v : Int)).toNat : Nat) : Int) = e.2 % (v : Int) :=
    Int.toNat_of_nonneg (Int.emod_nonneg _ (by omega))
  simp only [Function.comp_apply, hnn]
  congr 1
  have hle : documentFrequency v (allInputs s1) (e.2 % (v : Int)) ≤ (corpus v (allInputs s1)).length :=
    List.countP_le_length
  unfold idfOf Spec.inverse
  cases smooth with
  | true =>
    simp only [if_true, Option.some.injEq]
    push_cast
    rw [add_comm (1 : ℝ) (documentFrequency _ _ _ : ℝ), add_comm _ (if addBaseline then (1 : ℝ) else 0)]
  | false =>
    by_cases h0 : documentFrequency v (allInputs s1) (e.2 % (v : Int)) = 0
    · simp [h0]
    · have hc : (corpus v (allInputs s1)).length ≠ 0 := by omega
      have h0' : ¬ ((documentFrequency v (allInputs s1) (e.2 % (v : Int)) : ℚ) = 0 ∨
          ((corpus v (allInputs s1)).length : ℚ) = 0) := by
        rintro (h | h)
        · exact h0 (by exact_mod_cast h)
        · exact hc (by exact_mod_cast h)
      simp only [Bool.false_eq_true, if_false, if_neg h0', if_neg h0, Option.some.injEq]
      push_cast
      rw [add_comm]

/-- With a vocabulary size of 0 `idf` fails for every batch that has an entry, and leaves a batch
without entries as it is. -/
theorem idf_for_vocab_size_zero (smooth addBaseline known : Bool)
    (s1 : List (Sched (Tensor Int))) (s2 : Sched Nat) (hv : ValidRun s1 s2)
    (s1' : List (Sched (Tensor Int))) (s2' : Sched Nat) (hv' : ValidRun s1' s2')
    (hb : ∀ x ∈ allInputs s1, ∀ e ∈ x.entries, e.1.1 < x.rows)
    (hne : known = true ∨ allInputs s1 ≠ []) (x : Tensor Int) :
    runIdf 0 smooth addBaseline known s1 s2 s1' s2' x
      = if x.entries = [] then .ok ⟨[], x.rows, x.cols⟩
        else .error "InvalidArgumentError: Integer division by zero" := by
  unfold runIdf
  rw [global_document_frequency 0 known s1 s2 hv hb hne, corpus_size_analysis 0 s1' s2' hv']
  simp only [bind, Except.bind]
  unfold applyIdf
  by_cases h : x.entries = []
  · rw [if_neg (by simp [h]), if_pos h]
    simp [mapValues, toVocabRange, h, seqExcept, bind, Except.bind, pure, Except.pure]
  · rw [if_pos ⟨rfl, h⟩, if_neg h]
    rfl

/-- **C65** a term in fewer documents has no smaller inverse document frequency; one that is in all
documents has exactly the baseline, and no term that occurs is below it. -/
theorem rarer_terms_weigh_more (smooth addBaseline : Bool) (n a b : Nat) (ha : a ≠ 0) (hab : a ≤ b)
    (hbn : b ≤ n) : ∃ x y : ℝ, Spec.inverse smooth addBaseline n a = some x ∧
      Spec.inverse smooth addBaseline n b = some y ∧ y ≤ x ∧ (a < b → y < x) ∧
      (if addBaseline then (1 : ℝ) else 0) ≤ y ∧ (b = n → y = if addBaseline then (1 : ℝ) else 0) := by
  have hap : (0 : ℝ) < a := by exact_mod_cast Nat.pos_of_ne_zero ha
  have hab' : (a : ℝ) ≤ b := by exact_mod_cast hab
  have hbn' : (b : ℝ) ≤ n := by exact_mod_cast hbn
  have hbp : (0 : ℝ) < b := lt_of_lt_of_le hap hab'
  have hnp : (0 : ℝ) < n := lt_of_lt_of_le hbp hbn'
  have key : ∀ N A B : ℝ, 0 < A → A ≤ B → B ≤ N → Real.log (N / B) ≤ Real.log (N / A) ∧
      (A < B → Real.log (N / B) < Real.log (N / A)) ∧ 0 ≤ Real.log (N / B) ∧
      (B = N → Real.log (N / B) = 0) := by
    intro N A B hA hAB hBN
    have hB := lt_of_lt_of_le hA hAB
    have hN := lt_of_lt_of_le hB hBN
    refine ⟨Real.log_le_log (by positivity) (div_le_div_of_nonneg_left hN.le hA hAB), ?_, ?_, ?_⟩
    · intro h
      exact Real.log_lt_log (by positivity) (div_lt_div_of_pos_left hN hA h)
    · exact Real.log_nonneg ((one_le_div hB).2 hBN)
    · rintro rfl
      rw [div_self hB.ne', Real.log_one]
  unfold Spec.inverse
  cases smooth with
  | true =>
    simp only [if_true]
    obtain ⟨h1, h2, h3, h4⟩ := key (n + 1) (a + 1) (b + 1) (by linarith) (by linarith) (by linarith)
    refine ⟨_, _, rfl, rfl, by linarith, ?_, by linarith, ?_⟩
    · intro h
      have : (a : ℝ) < b := by exact_mod_cast h
      linarith [h2 (by linarith)]
    · intro h
      have : (b : ℝ) = n := by exact_mod_cast h
      rw [h4 (by linarith), add_zero]
  | false =>
    have hb0 : b ≠ 0 := by omega
    simp only [Bool.false_eq_true, if_false, if_neg ha, if_neg hb0]
    obtain ⟨h1, h2, h3, h4⟩ := key n a b hap hab' hbn'
    refine ⟨_, _, rfl, rfl, by linarith, ?_, by linarith, ?_⟩
    · intro h
      linarith [h2 (by exact_mod_cast h)]
    · intro h
      rw [h4 (by exact_mod_cast h), add_zero]

/-! Non-vacuity: the batches of `TfIdfProps` meet the hypotheses. -/

example : runDocumentFrequency 3 false exBatches (.merge [.add .create 1, .add .create 0])
    ⟨[((0, 0), 1), ((0, 1), -1), ((1, 0), 0)], 2, 2⟩
    = .ok ⟨[((0, 0), 2), ((0, 1), 1), ((1, 0), 1)], 2, 2⟩ := by
  rw [document_frequency_spec_partial 3 (by omega) false exBatches _ ⟨by
      intro s hs
      simp [exBatches] at hs
      rcases hs with rfl | rfl <;> exact .add .create, .merge (by simp) (by
      intro s hs
      simp at hs
      rcases hs with rfl | rfl <;> exact .add .create), by decide⟩ (by decide) (Or.inr (by decide))]
  congr 1

end TFT.TfIdf
