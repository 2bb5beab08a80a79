import Verif.Mappers.NgramsLemmas

/-!
# Properties of the sparse text mappers (C24, C25, C26)

Specification vocabulary is in `Verif/Mappers/SparseSpec.lean`.
-/

namespace TFT.Sparse
open TFT.Sparse.Spec

variable {α : Type}

/-- **C26** `segment_indices` of a non-decreasing list of ids returns for every position the
number of earlier positions of the same segment. -/
theorem segment_indices_spec (ids : List Nat) (h : ids.Pairwise (· ≤ ·)) :
    ∃ out, segmentIndices ids = .ok out ∧ out.length = ids.length ∧
      ∀ (j : Nat) (i : Nat), ids[j]? = some i →
        out[j]? = some (((ids.take j).count i : Nat) : Int) := by
  refine ⟨_, segmentIndices_ok ids h, by simp [segPos], ?_⟩
  intro j i hj
  have hlt : j < ids.length := (List.getElem?_eq_some_iff.1 hj).1
  rw [List.getElem?_eq_getElem hlt, Option.some.injEq] at hj
  subst hj
  rw [List.getElem?_eq_getElem (by simpa [segPos] using hlt)]
  simp [segPos]

/-- **C26** ids that decrease somewhere are rejected. -/
theorem segment_indices_rejects (ids : List Nat) (h : ¬ ids.Pairwise (· ≤ ·)) :
    ∃ e, segmentIndices ids = .error e := by
  unfold segmentIndices segmentLengths
  rw [if_neg h]
  exact ⟨_, rfl⟩

example : [0, 0, 2, 5, 5, 5].Pairwise (· ≤ ·) := by decide
example : segmentIndices [0, 0, 2, 5, 5, 5] = .ok [0, 1, 0, 0, 1, 2] := by decide +kernel

/-- **C26** `word_count` of a sparse tensor: each row's number of values, also for empty rows. -/
theorem word_count_sparse_spec (x : Tensor α) :
    wordCountSparse x = (List.range x.rows).map (fun i => (rowOf x i).length) := by
  unfold wordCountSparse rowOf
  apply List.map_congr_left
  intro i _
  simp

/-- **C26** `word_count` of a ragged tensor given by its row splits: each row's length. -/
theorem word_count_ragged_spec (rows : List (List α)) :
    wordCountRagged (rows.scanl (fun n r => n + r.length) 0) = rows.map List.length := by
  have : ∀ (n : Nat), wordCountRagged (rows.scanl (fun n r => n + r.length) n)
      = rows.map List.length := by
    induction rows with
    | nil => intro n; rfl
    | cons r rows ih =>
      intro n
      have h := ih (n + r.length)
      unfold wordCountRagged at h ⊢
      rw [List.scanl_cons, List.tail_cons, List.map_cons]
      cases rows with
      | nil => simp
      | cons r' rows =>
        rw [List.scanl_cons, List.zipWith_cons_cons]
        rw [List.scanl_cons, List.tail_cons] at h
        rw [h]
        simp
  exact this 0

/-- **C26** `sparse_tensor_left_align`: every row keeps its values, ordered by their column, in
columns 0, 1, 2, ...; the dense shape is unchanged. The entries may come in any order. -/
theorem left_align_spec (x : Tensor α) (hb : ∀ e ∈ x.entries, e.1.1 < x.rows) :
    (leftAlign x).entries = ofRows (rowByColumn x) x.rows ∧
      (leftAlign x).rows = x.rows ∧ (leftAlign x).cols = x.cols := by
  refine ⟨?_, rfl, rfl⟩
  have hs : (x.entries.insertionSort rowMajor).Pairwise rowMajor := List.pairwise_insertionSort _ _
  set E := x.entries.insertionSort rowMajor with hE
  have hs1 : E.Pairwise (fun a b => a.1.1 ≤ b.1.1) := hs.imp (by
    intro a b h; unfold rowMajor at h; omega)
  have hs2 : (E.map (fun e => e.1.1)).Pairwise (· ≤ ·) := by rwa [List.pairwise_map]
  have hb' : ∀ e ∈ E, e.1.1 < x.rows := fun e he =>
    hb e ((List.perm_insertionSort _ _).mem_iff.1 he)
  have hz := zip_segPos (E.map (fun e => (e.1.1, e.2))) x.rows
    (by rw [List.pairwise_map]; exact hs1) (by
      intro a ha
      obtain ⟨e, he, rfl⟩ := List.mem_map.1 ha
      exact hb' e he)
  simp only [List.map_map, Function.comp_def] at hz
  have : (leftAlign x).entries = List.zip (List.zip (E.map (fun e => e.1.1))
      (segPos (E.map (fun e => e.1.1)))) (E.map (fun e => e.2)) := by
    unfold leftAlign reorder
    rw [← raggedRange_counts _ _ (le_refl _) hs2]
    rfl
  rw [this, hz]
  unfold ofRows
  apply List.flatMap_congr
  intro i _
  congr 1
  unfold rowByColumn
  rw [← filter_insertionSort, ← hE]
  show ((E.map (fun e => (e.1.1, e.2))).filter (fun e => decide (e.1 = i))).map Prod.snd = _
  rw [List.filter_map, List.map_map]
  rfl

example : leftAlign (⟨[((1, 7), "d"), ((0, 3), "b"), ((1, 2), "c"), ((0, 1), "a")], 3, 9⟩ :
    Tensor String)
    = ⟨[((0, 0), "a"), ((0, 1), "b"), ((1, 0), "c"), ((1, 1), "d")], 3, 9⟩ := by decide +kernel

/-- **C25** `deduplicate_tensor_per_row` on a sparse tensor: row `i` of the result holds the
distinct values of row `i` in the order of their first occurrences, and the width is that of the
longest row. -/
theorem deduplicate_sparse_spec [DecidableEq α] (x : Tensor α) :
    deduplicate (.sparse x) = .ok
      { entries := ofRows (fun i => firstOccurrences (rowOf x i)) x.rows
        rows := x.rows
        cols := width (fun i => firstOccurrences (rowOf x i)) x.rows } := by
  show Except.ok (dedupLoop (fun i => rowOf x i) x.rows) = _
  rw [dedupLoop_eq]
  simp only [uniqFirst_eq]

/-- **C25** the same on a dense matrix. -/
theorem deduplicate_dense_spec [DecidableEq α] (rows : List (List α)) :
    deduplicate (.dense2 rows) = .ok
      { entries := ofRows (fun i => firstOccurrences ((rows[i]?).getD [])) rows.length
        rows := rows.length
        cols := width (fun i => firstOccurrences ((rows[i]?).getD [])) rows.length } := by
  show Except.ok (dedupLoop (fun i => (rows[i]?).getD []) rows.length) = _
  rw [dedupLoop_eq]
  simp only [uniqFirst_eq]

/-- **C25** a vector becomes the sparse matrix with one value per row. -/
theorem deduplicate_vector_spec [DecidableEq α] (vs : List α) :
    deduplicate (.dense1 vs) = .ok
      { entries := vs.mapIdx (fun i v => ((i, 0), v))
        rows := vs.length
        cols := 1 } := by
  have : List.zip ((List.range vs.length).map (fun i => (i, 0))) vs
      = vs.mapIdx (fun i v => ((i, 0), v)) := by
    apply List.ext_getElem
    · simp
    · intro j h1 h2; simp
  show Except.ok _ = _
  rw [this]

/-- The values of `firstOccurrences` are those of the list, each once. -/
theorem firstOccurrences_spec [DecidableEq α] (l : List α) :
    (firstOccurrences l).Nodup ∧ (∀ a, a ∈ firstOccurrences l ↔ a ∈ l) ∧
      (firstOccurrences l).Sublist l := by
  refine ⟨?_, ?_, ?_⟩
  · rw [← uniqFirst_eq]
    induction l with
    | nil => simp [uniqFirst]
    | cons a l ih => rw [uniqFirst, List.nodup_cons]; exact ⟨by simp, ih.filter _⟩
  · intro a
    rw [← uniqFirst_eq]
    induction l with
    | nil => simp [uniqFirst]
    | cons b l ih =>
      simp only [uniqFirst, List.mem_cons, List.mem_filter, ih, decide_eq_true_eq]
      by_cases h : a = b <;> simp [h]
  · rw [← uniqFirst_eq]
    induction l with
    | nil => exact List.Sublist.refl _
    | cons a l ih => exact (List.filter_sublist.trans ih).cons_cons a

/-- **C24** `ngrams`: row `i` of the result holds exactly the n-grams of row `i`'s tokens, for
every length from `lo` to `hi`, ordered by start position and then by length, in columns
0, 1, 2, ...; the width is that of the longest row. -/
theorem ngrams_spec (x : Tensor Str) (hx : RowOrdered x) (lo hi : Nat) (sep : Str)
    (hlo : 1 ≤ lo) (hhi : lo ≤ hi) :
    ngrams x lo hi sep = .ok
      { entries := ofRows (fun i => gramsOf lo hi sep (rowOf x i)) x.rows
        rows := x.rows
        cols := width (fun i => gramsOf lo hi sep (rowOf x i)) x.rows } := by
  obtain ⟨hb, hg⟩ := select_eq x lo hi sep hlo hhi
  set ents := x.entries.map (fun e => (e.1.1, e.2)) with hents
  have hsort : ents.Pairwise (fun a b => a.1 ≤ b.1) := by
    rw [hents, List.pairwise_map]; exact hx.sorted
  have hbound : ∀ a ∈ ents, a.1 < x.rows := by
    intro a ha
    obtain ⟨e, he, rfl⟩ := List.mem_map.1 ha
    exact hx.bound e he
  set G := allGrams lo hi sep ents with hG
  have hGs : G.Pairwise (fun a b => a.1 ≤ b.1) := allGrams_sorted _ _ _ _ hsort
  have hGb : ∀ a ∈ G, a.1 < x.rows := by
    intro a ha
    obtain ⟨b, hb, h⟩ := allGrams_fst _ _ _ _ a ha
    rw [← h]; exact hbound b hb
  have hz := zip_segPos G x.rows hGs hGb
  have hrow : (fun i => (G.filter (fun e => decide (e.1 = i))).map Prod.snd)
      = fun i => gramsOf lo hi sep (rowOf x i) := by
    funext i
    rw [hG, allGrams_row _ _ _ _ _ hsort, hents, List.filter_map, List.map_map]
    rfl
  rw [hrow] at hz
  have hseg := segmentIndices_ok (G.map Prod.fst) (by rw [List.pairwise_map]; exact hGs)
  unfold ngrams
  rw [if_neg (by omega)]
  simp only [bind, Except.bind]
  rw [hb, hg, hseg]
  simp only [List.map_map]
  have hid : (Int.toNat ∘ Int.ofNat) = id := by funext a; simp
  rw [hid, List.map_id, hz]
  congr 2
  rw [← ofRows_cols, ← hz]
  congr 1
  have : (List.zip (List.zip (G.map Prod.fst) (segPos (G.map Prod.fst))) (G.map Prod.snd)).map
      (fun e => Int.ofNat e.1.2) = ((List.zip (List.zip (G.map Prod.fst)
        (segPos (G.map Prod.fst))) (G.map Prod.snd)).map Prod.fst).map (fun e => Int.ofNat e.2) := by
    simp
  rw [this, List.map_fst_zip (by simp [segPos_length])]
  have h2 : (List.zip (G.map Prod.fst) (segPos (G.map Prod.fst))).map (fun e => Int.ofNat e.2)
      = ((List.zip (G.map Prod.fst) (segPos (G.map Prod.fst))).map Prod.snd).map Int.ofNat := by simp
  rw [h2, List.map_snd_zip (by simp [segPos_length])]

/-- **C24** an invalid range is rejected. -/
theorem ngrams_rejects (x : Tensor Str) (lo hi : Nat) (sep : Str) (h : lo < 1 ∨ hi < lo) :
    ngrams x lo hi sep = .error "ValueError: Invalid ngram_range" := by
  unfold ngrams
  rw [if_pos h]
  rfl

/-- **C24, C25** `bag_of_words`: each row's distinct n-grams once, in the order of first
occurrence. -/
theorem bag_of_words_spec (x : Tensor Str) (hx : RowOrdered x) (lo hi : Nat) (sep : Str)
    (hlo : 1 ≤ lo) (hhi : lo ≤ hi) :
    bagOfWords x lo hi sep = .ok
      { entries := ofRows (fun i => firstOccurrences (gramsOf lo hi sep (rowOf x i))) x.rows
        rows := x.rows
        cols := width (fun i => firstOccurrences (gramsOf lo hi sep (rowOf x i))) x.rows } := by
  unfold bagOfWords
  rw [ngrams_spec x hx lo hi sep hlo hhi]
  simp only [bind, Except.bind]
  rw [deduplicate_sparse_spec]
  have : ∀ (f : Nat → List Str) (i : Nat), i < x.rows →
      rowOf (⟨ofRows f x.rows, x.rows, width f x.rows⟩ : Tensor Str) i = f i := by
    intro f i hi
    unfold rowOf ofRows
    rw [List.filter_flatMap, List.map_flatMap]
    have key : ∀ n, (List.range n).flatMap (fun a => (((f a).mapIdx (fun j v => ((a, j), v))).filter
        (fun e => decide (e.1.1 = i))).map Prod.snd) = if i < n then f i else [] := by
      intro n
      induction n with
      | zero => simp
      | succ n ih =>
        rw [List.range_succ, List.flatMap_append, ih, List.flatMap_singleton]
        by_cases hn : n = i
        · subst hn
          have : (((f n).mapIdx (fun j v => ((n, j), v))).filter (fun e => decide (e.1.1 = n)))
              = (f n).mapIdx (fun j v => ((n, j), v)) := by
            rw [List.filter_eq_self]
            intro e he
            rw [List.mem_mapIdx] at he
            obtain ⟨j, hj, rfl⟩ := he
            simp
          rw [this, if_neg (by omega), if_pos (by omega), List.nil_append]
          apply List.ext_getElem
          · simp
          · intro j h1 h2; simp
        · have : (((f n).mapIdx (fun j v => ((n, j), v))).filter (fun e => decide (e.1.1 = i)))
              = [] := by
            rw [List.filter_eq_nil_iff]
            intro e he
            rw [List.mem_mapIdx] at he
            obtain ⟨j, hj, rfl⟩ := he
            simpa using hn
          rw [this, List.map_nil, List.append_nil]
          by_cases h : i < n
          · rw [if_pos h, if_pos (by omega)]
          · rw [if_neg h, if_neg (by omega)]
    rw [key x.rows, if_pos hi]
  set f := fun i => gramsOf lo hi sep (rowOf x i) with hf
  have e1 : ∀ g : Nat → List Str, (∀ i, i < x.rows → g i = firstOccurrences (f i)) →
      ofRows g x.rows = ofRows (fun i => firstOccurrences (f i)) x.rows ∧
      width g x.rows = width (fun i => firstOccurrences (f i)) x.rows := by
    intro g hg
    constructor
    · unfold ofRows
      apply List.flatMap_congr
      intro i hi
      rw [hg i (List.mem_range.1 hi)]
    · unfold width
      congr 1
      apply List.map_congr_left
      intro i hi
      rw [hg i (List.mem_range.1 hi)]
  have e2 := e1 (fun i => firstOccurrences
    (rowOf (⟨ofRows f x.rows, x.rows, width f x.rows⟩ : Tensor Str) i))
    (fun i hi => by rw [this f i hi])
  dsimp only
  rw [e2.1, e2.2]

/-- The tensor of the non-vacuity examples: four rows, one of them empty, with a gap in the
columns and a repeated token. -/
def exTokens : Tensor Str :=
  ⟨[((0, 0), ['a']), ((0, 2), ['b']), ((0, 3), ['a']), ((2, 0), ['c']), ((3, 1), ['a']),
    ((3, 2), ['a']), ((3, 3), ['a'])], 4, 5⟩

example : RowOrdered exTokens := ⟨by decide, by decide⟩
example : gramsOf 1 2 ['-'] [['a'], ['b'], ['a']]
    = [['a'], ['a', '-', 'b'], ['b'], ['b', '-', 'a'], ['a']] := by decide
example : ((ngrams exTokens 1 2 ['-']).toOption.map (fun t => (t.entries.length, t.cols)))
    = some (11, 5) := by decide +kernel
example : ((bagOfWords exTokens 1 2 ['-']).toOption.map (fun t => (t.entries.length, t.cols)))
    = some (7, 4) := by decide +kernel

end TFT.Sparse
