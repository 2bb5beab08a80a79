import Verif.Mappers.TfIdf
import Verif.Mappers.SparseProps
import Verif.Combine.PerKeyProps
import Verif.Combine.NumPyProps

/-!
# Properties of `tft.tfidf` (C23)
-/

namespace TFT.TfIdf
open TFT.Sparse TFT.Sparse.Spec

namespace Spec

/-- The terms of document `i` of a batch, wrapped into the vocabulary range. -/
def docTerms (v : Nat) (x : Tensor Int) (i : Nat) : List Int :=
  (rowOf x i).map (fun t => t % (v : Int))

/-- All documents of a batch. -/
def docs (v : Nat) (x : Tensor Int) : List (List Int) := (List.range x.rows).map (docTerms v x)

/-- The distinct terms of a document in increasing order. -/
def distinct (l : List Int) : List Int := (firstOccurrences l).insertionSort (· ≤ ·)

/-- The corpus: the documents of all batches. -/
def corpus (v : Nat) (batches : List (Tensor Int)) : List (List Int) := batches.flatMap (docs v)

/-- The number of documents of the corpus that contain a term. -/
def documentFrequency (v : Nat) (batches : List (Tensor Int)) (t : Int) : Nat :=
  (corpus v batches).countP (fun d => decide (t ∈ d))

/-- The weight that the documentation promises. -/
noncomputable def weight (v : Nat) (smooth : Bool) (batches : List (Tensor Int)) (doc : List Int)
    (t : Int) : ℝ :=
  let n : ℝ := (corpus v batches).length
  let df : ℝ := documentFrequency v batches t
  ((doc.count t : ℝ) / (doc.length : ℝ)) *
    (1 + if smooth then Real.log ((n + 1) / (df + 1)) else Real.log (n / df))

end Spec
open TFT.TfIdf.Spec

instance : Std.Total lexLE := ⟨fun a b => by unfold lexLE; omega⟩
instance : IsTrans _ lexLE := ⟨fun a b c => by unfold lexLE; omega⟩
instance : Std.Antisymm lexLE :=
  ⟨fun a b h1 h2 => by unfold lexLE at h1 h2; exact Prod.ext (by omega) (by omega)⟩

theorem distinct_nodup (l : List Int) : (distinct l).Nodup :=
  (List.perm_insertionSort _ _).nodup_iff.2 (firstOccurrences_spec l).1

theorem mem_distinct (l : List Int) (t : Int) : t ∈ distinct l ↔ t ∈ l :=
  (List.perm_insertionSort _ _).mem_iff.trans ((firstOccurrences_spec l).2.1 t)

theorem distinct_sorted (l : List Int) : (distinct l).Pairwise (· ≤ ·) :=
  List.pairwise_insertionSort _ _

theorem rowOf_toVocabRange (v : Nat) (x : Tensor Int) (i : Nat) :
    rowOf (toVocabRange x v) i = docTerms v x i := by
  simp only [rowOf, toVocabRange, docTerms, List.filter_map, List.map_map]
  rfl

/-- The `(doc, term)` pairs of the reduced tensor, row by row. -/
theorem keys_eq (x : Tensor Int) (hb : ∀ e ∈ x.entries, e.1.1 < x.rows) :
    uniqFirst ((x.entries.map (fun e => (e.1.1, e.2))).insertionSort lexLE)
      = (List.range x.rows).flatMap (fun i => (distinct (rowOf x i)).map (fun t => (i, t))) := by
  have hu : ∀ l : List (Nat × Int), (uniqFirst l).Nodup ∧ (∀ a, a ∈ uniqFirst l ↔ a ∈ l) ∧
      (uniqFirst l).Sublist l := fun l => by rw [uniqFirst_eq]; exact firstOccurrences_spec l
  set P := x.entries.map (fun e => (e.1.1, e.2)) with hP
  obtain ⟨h1, h2, h3⟩ := hu (P.insertionSort lexLE)
  have hK : (uniqFirst (P.insertionSort lexLE)).Pairwise lexLE :=
    (List.pairwise_insertionSort _ _).sublist h3
  have hT : ((List.range x.rows).flatMap
      (fun i => (distinct (rowOf x i)).map (fun t => (i, t)))).Pairwise lexLE := by
    rw [List.pairwise_flatMap]
    refine ⟨?_, ?_⟩
    · intro i _
      rw [List.pairwise_map]
      exact (distinct_sorted _).imp (fun h => Or.inr ⟨rfl, h⟩)
    · refine (List.pairwise_lt_range).imp ?_
      intro i j hij a ha b hb
      obtain ⟨t, _, rfl⟩ := List.mem_map.1 ha
      obtain ⟨u, _, rfl⟩ := List.mem_map.1 hb
      exact Or.inl hij
  have hTn : ((List.range x.rows).flatMap
      (fun i => (distinct (rowOf x i)).map (fun t => (i, t)))).Nodup := by
    rw [List.nodup_flatMap]
    refine ⟨?_, ?_⟩
    · intro i _
      exact (distinct_nodup _).map (fun a b h => (Prod.mk.inj h).2)
    · refine (List.nodup_range (n := x.rows)).imp ?_
      intro i j hij a ha hb
      obtain ⟨t, _, rfl⟩ := List.mem_map.1 ha
      obtain ⟨u, _, h⟩ := List.mem_map.1 hb
      exact hij (Prod.mk.inj h).1.symm
  refine List.Perm.eq_of_pairwise' hK hT ?_
  rw [List.perm_ext_iff_of_nodup h1 hTn]
  rintro ⟨i, t⟩
  rw [h2, (List.perm_insertionSort _ _).mem_iff, hP]
  simp only [List.mem_map, List.mem_flatMap, List.mem_range, mem_distinct, Prod.mk.injEq]
  constructor
  · rintro ⟨e, he, rfl, rfl⟩
    refine ⟨e.1.1, hb e he, e.2, ?_, rfl, rfl⟩
    simp only [rowOf, List.mem_map, List.mem_filter, decide_eq_true_eq]
    exact ⟨e, ⟨he, rfl⟩, rfl⟩
  · rintro ⟨j, hj, u, hu, rfl, rfl⟩
    simp only [rowOf, List.mem_map, List.mem_filter, decide_eq_true_eq] at hu
    obtain ⟨e, ⟨he, hr⟩, rfl⟩ := hu
    exact ⟨e, he, hr, rfl⟩

theorem count_pairs (x : Tensor Int) (i : Nat) (t : Int) :
    (x.entries.map (fun e => (e.1.1, e.2))).count (i, t) = (rowOf x i).count t := by
  unfold rowOf
  induction x.entries with
  | nil => rfl
  | cons e l ih =>
    by_cases h : e.1.1 = i
    · rw [List.filter_cons_of_pos (by simpa using h), List.map_cons, List.map_cons,
        List.count_cons, List.count_cons, ih]
      simp [h]
    · rw [List.filter_cons_of_neg (by simpa using h), List.map_cons, List.count_cons, ih]
      simp [h]

theorem docSizes_get (x : Tensor Int) (i : Nat) (h : i < x.rows) :
    gather1 (docSizes x) i = .ok (rowOf x i).length := by
  unfold gather1 docSizes
  rw [List.getElem?_eq_getElem (by simpa using h)]
  simp [rowOf]

theorem toTermFrequency_ok (x : Tensor Int) (hb : ∀ e ∈ x.entries, e.1.1 < x.rows) :
    toTermFrequency x = .ok ((List.range x.rows).flatMap (fun i => (distinct (rowOf x i)).map
      (fun t => ((i, t), ((rowOf x i).count t : ℚ) / ((rowOf x i).length : ℚ))))) := by
  unfold toTermFrequency termCountPerDoc
  simp only [keys_eq x hb, List.map_map]
  have h := seqExcept_ok_map ((List.range x.rows).flatMap
      (fun i => (distinct (rowOf x i)).map (fun t => (i, t))))
    ((fun kc : (Nat × Int) × Nat => do
        let size ← gather1 (docSizes x) kc.1.1
        (.ok (kc.1, (kc.2 : ℚ) / (size : ℚ)) : Except Err ((Nat × Int) × ℚ))) ∘
      fun k => (k, (x.entries.map (fun e => (e.1.1, e.2))).count k))
    (fun k => (k, ((rowOf x k.1).count k.2 : ℚ) / ((rowOf x k.1).length : ℚ))) ?_
  · rw [h, List.map_flatMap]
    simp only [List.map_map, Function.comp_def]
  · rintro ⟨i, t⟩ hk
    simp only [List.mem_flatMap, List.mem_range, List.mem_map, Prod.mk.injEq] at hk
    obtain ⟨j, hj, u, _, rfl, rfl⟩ := hk
    simp only [Function.comp_apply, docSizes_get x j hj, count_pairs, bind, Except.bind]

theorem countDocs_eq (v : Nat) (x : Tensor Int) (hb : ∀ e ∈ x.entries, e.1.1 < x.rows) :
    countDocsWithTerm (toVocabRange x v) v = (List.range v).map (fun (t : Nat) =>
      (((docs v x).countP (fun d => decide ((t : Int) ∈ d)) : Nat) : ℚ)) := by
  unfold countDocsWithTerm
  apply List.map_congr_left
  intro t _
  have hb' : ∀ e ∈ (toVocabRange x v).entries, e.1.1 < (toVocabRange x v).rows := by
    intro e he
    obtain ⟨a, ha, rfl⟩ := List.mem_map.1 he
    exact hb a ha
  unfold termCountPerDoc
  simp only [keys_eq _ hb', List.filter_map, List.map_map]
  rw [show (toVocabRange x v).rows = x.rows from rfl]
  simp only [rowOf_toVocabRange, docs]
  rw [List.countP_map]
  induction x.rows with
  | zero => rfl
  | succ n ih =>
    rw [List.range_succ, List.flatMap_append, List.countP_append, List.filter_append,
      List.map_append, List.sum_append, ih, Nat.cast_add]
    congr 1
    rw [List.flatMap_singleton, List.filter_map, List.map_map]
    have : ∀ (l : List Int), l.Nodup → (l.filter (fun a => decide (a = (t : Int)))).length
        = if (t : Int) ∈ l then 1 else 0 := by
      intro l hl
      rw [← List.countP_eq_length_filter]
      have h1 : l.countP (fun a => decide (a = (t : Int))) = l.count (t : Int) := by
        rw [List.count]; apply List.countP_congr; intro a _; simp
      rw [h1]
      split_ifs with h
      · exact List.count_eq_one_of_mem hl h
      · exact List.count_eq_zero_of_not_mem h
    have h2 := this (distinct (docTerms v x n)) (distinct_nodup _)
    simp only [mem_distinct] at h2
    simp only [Function.comp_def]
    rw [List.map_const', List.sum_replicate, h2]
    simp

theorem colData_cols (v : Nat) (bs : List (Tensor Int)) (t : Nat) (ht : t < v)
    (hb : ∀ x ∈ bs, ∀ e ∈ x.entries, e.1.1 < x.rows) :
    (TFT.Spec.colData (bs.map (fun x =>
        (countDocsWithTerm (toVocabRange x v) v).map (fun c => [c]))) t).sum
      = (documentFrequency v bs (t : Int) : ℚ) := by
  unfold TFT.Spec.colData documentFrequency corpus
  induction bs with
  | nil => rfl
  | cons x bs ih =>
    rw [List.map_cons, List.flatMap_cons, List.sum_append, ih (fun y hy => hb y (by simp [hy])),
      List.flatMap_cons, List.countP_append, Nat.cast_add]
    congr 1
    rw [countDocs_eq v x (hb x (by simp))]
    simp [List.getD_eq_getElem?_getD, ht]

theorem allInputs_map {A B : Type} (f : A → B) (s1 : List (Sched A)) :
    allInputs (s1.map (Sched.map f)) = (allInputs s1).map f := by
  unfold allInputs
  rw [List.map_map, List.map_flatten, List.map_map]
  congr 1
  apply List.map_congr_left
  intro s _
  exact Sched.inputs_map f s

theorem ValidRun.map {A B : Type} (f : A → B) {s1 : List (Sched A)} {s2 : Sched Nat}
    (h : ValidRun s1 s2) : ValidRun (s1.map (Sched.map f)) s2 where
  merges1 := by
    intro s hs
    obtain ⟨a, ha, rfl⟩ := List.mem_map.1 hs
    exact (h.merges1 a ha).map f
  merges2 := h.merges2
  once := by simpa using h.once

/-- The first analysis computes the document frequency of every term. -/
theorem document_frequency_analysis (v : Nat) (known : Bool) (s1 : List (Sched (Tensor Int)))
    (s2 : Sched Nat) (hv : ValidRun s1 s2)
    (hb : ∀ x ∈ allInputs s1, ∀ e ∈ x.entries, e.1.1 < x.rows)
    (hne : known = true ∨ allInputs s1 ≠ []) :
    analysis (documentFrequencyAnalyzer v known) s1 s2
      = .ok [⟨[v], (List.range v).map (fun (t : Nat) =>
          (documentFrequency v (allInputs s1) (t : Int) : ℚ))⟩] := by
  unfold documentFrequencyAnalyzer
  rw [analysis_onBatches, sum_schedule_independent [v] known _ _ (ValidRun.map _ hv)]
  · rw [allInputs_map]
    congr 2
    rw [Nd.mk.injEq]
    refine ⟨rfl, ?_⟩
    simp only [List.prod_singleton]
    apply List.map_congr_left
    intro t ht
    rw [List.map_id, colData_cols v _ t (List.mem_range.1 ht) hb]
  · intro b hb'
    rw [allInputs_map] at hb'
    obtain ⟨x, _, rfl⟩ := List.mem_map.1 hb'
    simp [countDocsWithTerm]
  · rw [allInputs_map]
    rcases hne with h | h
    · exact Or.inl h
    · exact Or.inr (by simpa using h)

theorem docs_total (v : Nat) (bs : List (Tensor Int)) :
    (bs.map (fun x => (x.rows : ℚ))).sum = ((corpus v bs).length : ℚ) := by
  unfold corpus
  induction bs with
  | nil => rfl
  | cons x bs ih =>
    rw [List.map_cons, List.sum_cons, ih, List.flatMap_cons, List.length_append, Nat.cast_add]
    simp [docs]

/-- The second analysis computes the number of documents. -/
theorem corpus_size_analysis (v : Nat) (s1 : List (Sched (Tensor Int)))
    (s2 : Sched Nat) (hv : ValidRun s1 s2) :
    analysis corpusSizeAnalyzer s1 s2 = .ok [⟨[], [((corpus v (allInputs s1)).length : ℚ)]⟩] := by
  unfold corpusSizeAnalyzer
  rw [analysis_onBatches, sum_schedule_independent [] true _ _ (ValidRun.map _ hv)]
  · rw [allInputs_map, ← docs_total]
    simp only [List.prod_nil, List.range_one, List.map_cons, List.map_nil, TFT.Spec.colData,
      List.map_id]
    congr 4
    induction allInputs s1 with
    | nil => rfl
    | cons x bs ih => simpa using ih
  · intro b hb'
    rw [allInputs_map] at hb'
    obtain ⟨x, _, rfl⟩ := List.mem_map.1 hb'
    simp
  · exact Or.inl rfl

theorem corpus_perm (v : Nat) {a b : List (Tensor Int)} (h : a.Perm b) :
    (corpus v a).Perm (corpus v b) := h.flatMap_right _

theorem rowEntries {β : Type} (f : Nat → Int → β) (d : Nat → List Int) (n : Nat) (i : Nat)
    (hi : i < n) :
    (((List.range n).flatMap (fun i => (d i).map (fun t => (i, f i t)))).filter
      (fun e => e.1 = i)).map Prod.snd = (d i).map (f i) := by
  have key : ∀ n, (((List.range n).flatMap (fun i => (d i).map (fun t => (i, f i t)))).filter
      (fun e => e.1 = i)).map Prod.snd = if i < n then (d i).map (f i) else [] := by
    intro n
    induction n with
    | zero => simp
    | succ n ih =>
      rw [List.range_succ, List.flatMap_append, List.filter_append, List.map_append, ih,
        List.flatMap_singleton, List.filter_map, List.map_map]
      by_cases hn : n = i
      · subst hn
        simp [Function.comp_def]
      · simp only [Function.comp_def, hn, decide_false, List.filter_false, List.map_nil,
          List.append_nil]
        by_cases h : i < n
        · rw [if_pos h, if_pos (by omega)]
        · rw [if_neg h, if_neg (by omega)]
  rw [key, if_pos hi]

theorem splitOutputs_ok {β : Type} (d : Nat → List Int) (f : Nat → Int → β) (n : Nat) :
    splitOutputs ((List.range n).flatMap (fun i => (d i).map (fun t => ((i, t), f i t)))) n
      = .ok (⟨ofRows d n, n, width d n⟩, ⟨ofRows (fun i => (d i).map (f i)) n, n, width d n⟩) := by
  set L := (List.range n).flatMap (fun i => (d i).map (fun t => ((i, t), f i t))) with hL
  have hsort : L.Pairwise (fun a b => a.1.1 ≤ b.1.1) := by
    rw [hL, List.pairwise_flatMap]
    refine ⟨?_, ?_⟩
    · intro i _
      rw [List.pairwise_map]
      exact List.pairwise_of_forall (fun _ _ => le_refl _)
    · refine (List.pairwise_lt_range).imp ?_
      intro i j hij a ha b hb
      obtain ⟨t, _, rfl⟩ := List.mem_map.1 ha
      obtain ⟨u, _, rfl⟩ := List.mem_map.1 hb
      exact le_of_lt hij
  have hbd : ∀ a ∈ L, a.1.1 < n := by
    intro a ha
    obtain ⟨i, hi, ha⟩ := List.mem_flatMap.1 ha
    obtain ⟨t, _, rfl⟩ := List.mem_map.1 ha
    exact List.mem_range.1 hi
  have hseg := segmentIndices_ok (L.map (fun e => e.1.1)) (by rw [List.pairwise_map]; exact hsort)
  have h1 := zip_segPos (L.map (fun e => (e.1.1, e.1.2))) n
    (by rw [List.pairwise_map]; exact hsort)
    (by intro a ha; obtain ⟨e, he, rfl⟩ := List.mem_map.1 ha; exact hbd e he)
  have h2 := zip_segPos (L.map (fun e => (e.1.1, e.2))) n
    (by rw [List.pairwise_map]; exact hsort)
    (by intro a ha; obtain ⟨e, he, rfl⟩ := List.mem_map.1 ha; exact hbd e he)
  have e1 : L.map (fun e => (e.1.1, e.1.2))
      = (List.range n).flatMap (fun i => (d i).map (fun t => (i, t))) := by
    rw [hL, List.map_flatMap]
    simp only [List.map_map, Function.comp_def]
  have e2 : L.map (fun e => (e.1.1, e.2))
      = (List.range n).flatMap (fun i => (d i).map (fun t => (i, f i t))) := by
    rw [hL, List.map_flatMap]
    simp only [List.map_map, Function.comp_def]
  have ext : ∀ {γ : Type} (g g' : Nat → List γ), (∀ i, i < n → g i = g' i) →
      ofRows g n = ofRows g' n := by
    intro γ g g' h
    unfold ofRows
    apply List.flatMap_congr
    intro i hi
    rw [h i (List.mem_range.1 hi)]
  rw [ext _ d (by
    intro i hi
    rw [e1, rowEntries (fun _ t => t) d n i hi, List.map_id']) ] at h1
  rw [ext _ (fun i => (d i).map (f i)) (by
    intro i hi
    rw [e2, rowEntries f d n i hi])] at h2
  simp only [List.map_map, Function.comp_def] at h1 h2
  have hw : maxPlusOne ((segPos (L.map (fun e => e.1.1))).map Int.ofNat) = width d n := by
    rw [← ofRows_cols, ← h1]
    congr 1
    set A := L.map (fun e => e.1.1)
    have hA : (segPos A).length = A.length := segPos_length A
    have hlen : (L.map (fun e => e.1.2)).length = A.length := by simp [A]
    have : (List.zip (List.zip A (segPos A)) (L.map (fun e => e.1.2))).map
        (fun e => Int.ofNat e.1.2) = ((List.zip (List.zip A (segPos A))
          (L.map (fun e => e.1.2))).map Prod.fst).map (fun e => Int.ofNat e.2) := by simp
    rw [this, List.map_fst_zip (by simp [hA, hlen])]
    have h3 : (List.zip A (segPos A)).map (fun e => Int.ofNat e.2)
        = ((List.zip A (segPos A)).map Prod.snd).map Int.ofNat := by simp
    rw [h3, List.map_snd_zip (by simp [hA])]
  unfold splitOutputs
  rw [hseg]
  simp only [bind, Except.bind, List.map_map]
  have hid : (Int.toNat ∘ Int.ofNat) = id := by funext a; simp
  rw [hid, List.map_id, h1, h2, hw]

/-- **C23** `tft.tfidf`. For every way in which a runner may compute the two analyses over the
batches of the analysis data, and every batch `x` to be transformed: document `i` of the output
lists the distinct terms of document `i`, wrapped into `[0, vocab_size)`, once each, and the
second output holds their weights at the same positions. A weight is the number of occurrences
divided by the document length, times the inverse document frequency over the whole corpus.
`vocab_size` must be at least 2 (see `tfidf_fails_for_vocab_size_one`), and without smoothing every
term of `x` must occur in the analysis data (otherwise the code divides by zero). -/
theorem tfidf_spec_partial (v : Nat) (hv2 : 2 ≤ v) (smooth known : Bool)
    (s1 : List (Sched (Tensor Int))) (s2 : Sched Nat) (hv : ValidRun s1 s2)
    (s1' : List (Sched (Tensor Int))) (s2' : Sched Nat) (hv' : ValidRun s1' s2')
    (hsame : (allInputs s1').Perm (allInputs s1))
    (hb : ∀ x ∈ allInputs s1, ∀ e ∈ x.entries, e.1.1 < x.rows)
    (hne : known = true ∨ allInputs s1 ≠ [])
    (x : Tensor Int) (hx : ∀ e ∈ x.entries, e.1.1 < x.rows)
    (hsm : smooth = true ∨ ∀ d ∈ docs v x, ∀ t ∈ d, documentFrequency v (allInputs s1) t ≠ 0) :
    runTfidf v smooth known s1 s2 s1' s2' x = .ok
      (⟨ofRows (fun i => distinct (docTerms v x i)) x.rows, x.rows,
          width (fun i => distinct (docTerms v x i)) x.rows⟩,
       ⟨ofRows (fun i => (distinct (docTerms v x i)).map
            (fun t => some (weight v smooth (allInputs s1) (docTerms v x i) t))) x.rows, x.rows,
          width (fun i => distinct (docTerms v x i)) x.rows⟩) := by
  have hx' : ∀ e ∈ (toVocabRange x v).entries, e.1.1 < (toVocabRange x v).rows := by
    intro e he
    obtain ⟨a, ha, rfl⟩ := List.mem_map.1 he
    exact hx a ha
  unfold runTfidf
  rw [document_frequency_analysis v known s1 s2 hv hb hne, corpus_size_analysis v s1' s2' hv']
  have hN : (corpus v (allInputs s1')).length = (corpus v (allInputs s1)).length :=
    (corpus_perm v hsame).length_eq
  simp only [bind, Except.bind]
  unfold tfidf
  rw [if_neg (by omega)]
  dsimp only
  rw [toTermFrequency_ok _ hx', hN]
  simp only [bind, Except.bind]
  rw [show (toVocabRange x v).rows = x.rows from rfl]
  simp only [rowOf_toVocabRange]
  have hw : toTfidf ((List.range x.rows).flatMap (fun i => (distinct (docTerms v x i)).map (fun t =>
      ((i, t), ((docTerms v x i).count t : ℚ) / ((docTerms v x i).length : ℚ)))))
      ((List.range v).map (fun (t : Nat) => (documentFrequency v (allInputs s1) (t : Int) : ℚ)))
      ((corpus v (allInputs s1)).length : ℚ) smooth
      = .ok ((List.range x.rows).flatMap (fun i => (distinct (docTerms v x i)).map
          (fun t => ((i, t), some (weight v smooth (allInputs s1) (docTerms v x i) t))))) := by
    unfold toTfidf
    simp only
    rw [if_neg (by simp; omega)]
    have h := seqExcept_ok_map ((List.range x.rows).flatMap
      (fun i => (distinct (docTerms v x i)).map (fun t =>
        ((i, t), ((docTerms v x i).count t : ℚ) / ((docTerms v x i).length : ℚ)))))
      (fun e : (Nat × Int) × ℚ => do
        let w ← gatherSqueezed (((List.range v).map (fun (t : Nat) =>
          (documentFrequency v (allInputs s1) (t : Int) : ℚ))).map
            (fun d => idf smooth d ((corpus v (allInputs s1)).length : ℚ))) e.1.2
        (.ok (e.1, w.map (fun w => ((e.2 : ℚ) : ℝ) * w)) : Except Err ((Nat × Int) × Option ℝ)))
      (fun e => (e.1, some (weight v smooth (allInputs s1) (docTerms v x e.1.1) e.1.2))) ?_
    · rw [h, List.map_flatMap]
      simp only [List.map_map, Function.comp_def]
    · intro e he
      obtain ⟨i, hi, he⟩ := List.mem_flatMap.1 he
      obtain ⟨t, ht, rfl⟩ := List.mem_map.1 he
      rw [mem_distinct] at ht
      have hr : 0 ≤ t ∧ t < v := by
        obtain ⟨u, _, rfl⟩ := List.mem_map.1 ht
        exact ⟨Int.emod_nonneg _ (by omega), Int.emod_lt_of_pos _ (by omega)⟩
      obtain ⟨k, rfl⟩ := Int.eq_ofNat_of_zero_le hr.1
      have hk : k < v := by omega
      have hg : gatherSqueezed (((List.range v).map (fun (t : Nat) =>
          (documentFrequency v (allInputs s1) (t : Int) : ℚ))).map
            (fun d => idf smooth d ((corpus v (allInputs s1)).length : ℚ))) (k : Int)
          = .ok (idf smooth (documentFrequency v (allInputs s1) (k : Int) : ℚ)
              ((corpus v (allInputs s1)).length : ℚ)) := by
        unfold gatherSqueezed gather1
        rw [if_neg (by simp; omega)]
        simp [hk]
      simp only [hg, bind, Except.bind]
      congr 2
      unfold idf weight
      cases smooth with
      | true =>
        simp only [if_true, Option.map_some, Option.some.injEq]
        push_cast
        rw [add_comm (1 : ℝ) (documentFrequency v (allInputs s1) (k : Int) : ℝ), add_comm _ (1 : ℝ)]
      | false =>
        have hdf : documentFrequency v (allInputs s1) (k : Int) ≠ 0 := by
          rcases hsm with h | h
          · cases h
          · exact h _ (List.mem_map_of_mem hi) _ ht
        have hc : (corpus v (allInputs s1)).length ≠ 0 := by
          intro h0
          apply hdf
          have := List.countP_le_length (p := fun d => decide ((k : Int) ∈ d))
            (l := corpus v (allInputs s1))
          unfold documentFrequency
          omega
        rw [if_neg (by simp), if_neg (by
          rintro (h | h)
          · exact hdf (by exact_mod_cast h)
          · exact hc (by exact_mod_cast h))]
        simp only [Option.map_some, Option.some.injEq, Bool.false_eq_true, if_false]
        push_cast
        rw [add_comm _ (1 : ℝ)]
  rw [hw]
  exact splitOutputs_ok (fun i => distinct (docTerms v x i))
    (fun i t => some (weight v smooth (allInputs s1) (docTerms v x i) t)) x.rows

/-- **C23** the term frequencies of a non-empty document sum to 1. -/
theorem term_frequencies_sum_to_one (doc : List Int) (h : doc ≠ []) :
    ((distinct doc).map (fun t => (doc.count t : ℚ) / (doc.length : ℚ))).sum = 1 := by
  have hl : (doc.length : ℚ) ≠ 0 := by
    simpa using h
  have key : ∀ (T : List Int), T.Nodup → (∀ a ∈ doc, a ∈ T) →
      (T.map (fun t => doc.count t)).sum = doc.length := by
    clear hl h
    intro T hT
    induction doc with
    | nil => intro _; simp
    | cons a l ih =>
      intro hm
      have h1 := ih (fun b hb => hm b (by simp [hb]))
      have h2 : (T.map (fun t => (a :: l).count t)).sum
          = (T.map (fun t => l.count t)).sum + T.count a := by
        clear ih h1 hm hT
        induction T with
        | nil => rfl
        | cons t T ih =>
          rw [List.map_cons, List.sum_cons, ih, List.map_cons, List.sum_cons, List.count_cons,
            List.count_cons]
          by_cases h : a = t
          · subst h; simp; omega
          · have : ¬ t = a := fun e => h e.symm
            simp only [beq_iff_eq, h, this, if_false]; omega
      rw [h2, h1, List.count_eq_one_of_mem hT (hm a (by simp)), List.length_cons]
  have h1 := key (distinct doc) (distinct_nodup doc) (fun a ha => (mem_distinct doc a).2 ha)
  have h2 : ((distinct doc).map (fun t => (doc.count t : ℚ) / (doc.length : ℚ))).sum
      = (((distinct doc).map (fun t => doc.count t)).sum : ℚ) / (doc.length : ℚ) := by
    clear h1
    induction distinct doc with
    | nil => simp
    | cons t T ih => simp only [List.map_cons, List.sum_cons, ih]; push_cast; ring
  rw [h2]
  have : ((((distinct doc).map (fun t => doc.count t)).sum : Nat) : ℚ) = (doc.length : ℚ) := by
    exact_mod_cast h1
  rw [← this] at hl ⊢
  push_cast at hl ⊢
  exact div_self (by simpa [List.map_map, Function.comp_def] using hl)

/-- **C23** the wrapped terms are the given ones where those are in the vocabulary range. -/
theorem docTerms_in_range (v : Nat) (x : Tensor Int) (i : Nat)
    (h : ∀ t ∈ rowOf x i, 0 ≤ t ∧ t < v) : docTerms v x i = rowOf x i := by
  unfold docTerms
  conv_rhs => rw [← List.map_id (rowOf x i)]
  apply List.map_congr_left
  intro t ht
  exact Int.emod_eq_of_lt (h t ht).1 (h t ht).2

/-- **C23, disagreement.** With a vocabulary of size one `tft.tfidf` fails on every batch: the
idf vector of length one is squeezed to a scalar. -/
theorem tfidf_fails_for_vocab_size_one (smooth known : Bool)
    (s1 : List (Sched (Tensor Int))) (s2 : Sched Nat) (hv : ValidRun s1 s2)
    (s1' : List (Sched (Tensor Int))) (s2' : Sched Nat) (hv' : ValidRun s1' s2')
    (hb : ∀ x ∈ allInputs s1, ∀ e ∈ x.entries, e.1.1 < x.rows)
    (hne : known = true ∨ allInputs s1 ≠ [])
    (x : Tensor Int) (hx : ∀ e ∈ x.entries, e.1.1 < x.rows) :
    runTfidf 1 smooth known s1 s2 s1' s2' x
      = .error "InvalidArgumentError: params must be at least 1 dimensional" := by
  have hx' : ∀ e ∈ (toVocabRange x 1).entries, e.1.1 < (toVocabRange x 1).rows := by
    intro e he
    obtain ⟨a, ha, rfl⟩ := List.mem_map.1 he
    exact hx a ha
  unfold runTfidf
  rw [document_frequency_analysis 1 known s1 s2 hv hb hne, corpus_size_analysis 1 s1' s2' hv']
  simp only [bind, Except.bind]
  unfold tfidf
  rw [if_neg (by omega)]
  dsimp only
  rw [toTermFrequency_ok _ hx']
  simp [bind, Except.bind, toTfidf]

/-- Two batches: a document with a repeated term and an out-of-range term, an empty document. -/
def exBatches : List (Sched (Tensor Int)) :=
  [.add .create ⟨[((0, 0), 1), ((0, 1), 0), ((0, 2), 1), ((0, 3), -1)], 2, 4⟩,
   .add .create ⟨[((0, 0), 1)], 1, 1⟩]

example : ValidRun exBatches (.merge [.add .create 1, .add .create 0]) where
  merges1 := by
    intro s hs
    simp [exBatches] at hs
    rcases hs with rfl | rfl <;> exact .add .create
  merges2 := .merge (by simp) (by
    intro s hs
    simp at hs
    rcases hs with rfl | rfl <;> exact .add .create)
  once := by decide

example : ∀ x ∈ allInputs exBatches, ∀ e ∈ x.entries, e.1.1 < x.rows := by decide
example : documentFrequency 3 (allInputs exBatches) 1 = 2 := by decide
example : documentFrequency 3 (allInputs exBatches) 2 = 1 := by decide
example : (corpus 3 (allInputs exBatches)).length = 3 := by decide
example : distinct (docTerms 3 ⟨[((0, 0), 1), ((0, 1), 0), ((0, 2), 1), ((0, 3), -1)], 2, 4⟩ 0)
    = [0, 1, 2] := by decide

end TFT.TfIdf
