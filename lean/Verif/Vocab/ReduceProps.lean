import Verif.Vocab.Reduce
import Verif.Combine.PerKeyProps
import Verif.Vocab.Props

/-!
# Reducing a batch loses nothing (C49)
-/

namespace TFT.Reduce

variable {T : Type} [DecidableEq T]

/-! ## Specification -/

/-- The weight of the occurrences with a property. -/
def weightOf (occs : List (Occ T)) (p : Occ T → Bool) : ℚ := ((occs.filter p).map Occ.weight).sum

/-- An instance of a batch: its tokens with their weights, and its label. -/
abbrev Inst (T : Type) := List (T × ℚ) × Int

/-- The occurrences of tokens in a batch: instance by instance, every token with its weight and the
label of the instance. -/
def occurrences (drop : T → Bool) (rows : List (Inst T)) : List (Occ T) :=
  (rows.flatMap (fun r => r.1.map (fun t => (⟨t.1, r.2, t.2⟩ : Occ T)))).filter
    (fun o => !drop o.token)

/-- The distinct tokens of occurrences. -/
def tokensOf (occs : List (Occ T)) : List T := uniqFirst (occs.map Occ.token)

/-- What the reduction of occurrences has to be: for every token the total weight, the weight of every
label from 0 to `maxY`, and the number of occurrences. -/
def exactCounts (occs : List (Occ T)) (maxY : Int) : WeightedCounts T :=
  { unique := tokensOf occs
    weights := (tokensOf occs).map (fun t => weightOf occs (fun o => decide (o.token = t)))
    positive := (tokensOf occs).map (fun t => (List.range (maxY + 1).toNat).map (fun l : Nat =>
      weightOf occs (fun o => decide (o.token = t) && decide (o.label = (l : Int)))))
    counts := (tokensOf occs).map (fun t => (occs.filter (fun o => decide (o.token = t))).length) }

/-! ## Lemmas -/

theorem segmentSum_eq {α : Type} (items : List α) (g : α → ℚ) (f : α → Int) (num : Nat)
    (h : ∀ a ∈ items, f a < num) :
    segmentSum (items.map g) (items.map f) (num : Int)
      = .ok ((List.range num).map (fun s : Nat =>
          ((items.filter (fun a => decide (f a = (s : Int)))).map g).sum)) := by
  unfold segmentSum
  rw [if_neg (by simp), if_neg (by omega), if_neg]
  · simp only [Int.toNat_natCast, Except.ok.injEq]
    apply List.map_congr_left
    intro s _
    congr 1
    rw [List.zip_map', List.filter_map, List.map_map]
    rfl
  · simp only [List.any_map, List.any_eq_true, Function.comp, decide_eq_true_eq, not_exists, not_and,
      not_le]
    intro a ha
    exact h a ha

theorem idxOf_lt {us : List T} {t : T} (h : t ∈ us) : us.idxOf t < us.length :=
  List.idxOf_lt_length_of_mem h

theorem map_getElem_range {α β : Type} (us : List α) (f : α → β) (g : Nat → β)
    (h : ∀ i (hi : i < us.length), g i = f us[i]) : (List.range us.length).map g = us.map f := by
  apply List.ext_getElem
  · simp
  · intro i h1 h2
    simp only [List.length_map, List.length_range] at h1
    simp [h i h1]

theorem idxOf_eq_iff {us : List T} (hnd : us.Nodup) {t : T} (ht : t ∈ us) (i : Nat)
    (hi : i < us.length) : us.idxOf t = i ↔ t = us[i] := by
  constructor
  · rintro rfl
    exact (List.getElem_idxOf (idxOf_lt ht)).symm
  · rintro rfl
    exact hnd.idxOf_getElem i hi

theorem mem_tokens {occs : List (Occ T)} {o : Occ T} (h : o ∈ occs) : o.token ∈ tokensOf occs := by
  unfold tokensOf
  rw [mem_uniqFirst]
  exact List.mem_map.2 ⟨o, h, rfl⟩

theorem nodup_tokens (occs : List (Occ T)) : (tokensOf occs).Nodup := nodup_uniqFirst _

/-- **C49, core** `_compute_weighted_counts` is exact on labels from -1 (no label) to the maximum. -/
theorem compute_exact (occs : List (Occ T)) (maxY : Int) (hm : -1 ≤ maxY)
    (hlab : ∀ o ∈ occs, -1 ≤ o.label ∧ o.label ≤ maxY) :
    computeWeightedCounts occs maxY = .ok (exactCounts occs maxY) := by
  obtain ⟨m, hm'⟩ : ∃ m : Nat, maxY + 1 = m := ⟨(maxY + 1).toNat, by omega⟩
  have hnd := nodup_tokens occs
  unfold computeWeightedCounts
  simp only [uniqueWithCounts, List.map_map]
  have hus : uniqFirst (occs.map Occ.token) = tokensOf occs := rfl
  rw [hus]
  have h1 : segmentSum (occs.map Occ.weight)
      (occs.map ((fun i : Nat => (i : Int)) ∘ ((fun t => (tokensOf occs).idxOf t) ∘ Occ.token)))
      ((tokensOf occs).length : Int)
      = .ok ((tokensOf occs).map (fun t => weightOf occs (fun o => decide (o.token = t)))) := by
    rw [segmentSum_eq]
    · congr 1
      apply map_getElem_range
      intro i hi
      unfold weightOf
      congr 2
      apply List.filter_congr
      intro o ho
      rw [Bool.eq_iff_iff]
      simp only [Function.comp, decide_eq_true_eq]
      rw [← idxOf_eq_iff hnd (mem_tokens ho) i hi]
      omega
    · intro o ho
      simp only [Function.comp]
      have := idxOf_lt (mem_tokens ho)
      omega
  have hflat : List.zipWith (fun i (o : Occ T) => flatIndex maxY i o.label)
      (occs.map ((fun t => (tokensOf occs).idxOf t) ∘ Occ.token)) occs
      = occs.map (fun o => flatIndex maxY ((tokensOf occs).idxOf o.token) o.label) := by
    rw [List.zipWith_map_left]
    rw [List.zipWith_self]
    rfl
  have h2 : segmentSum (occs.map Occ.weight)
      (occs.map (fun o => flatIndex maxY ((tokensOf occs).idxOf o.token) o.label))
      (((tokensOf occs).length : Int) * (maxY + 1))
      = .ok ((List.range ((tokensOf occs).length * m)).map (fun s : Nat =>
          ((occs.filter (fun o => decide (flatIndex maxY ((tokensOf occs).idxOf o.token) o.label
            = (s : Int)))).map Occ.weight).sum)) := by
    rw [hm', show ((tokensOf occs).length : Int) * (m : Int)
      = (((tokensOf occs).length * m : Nat) : Int) by push_cast; rfl]
    apply segmentSum_eq
    intro o ho
    have hi := idxOf_lt (mem_tokens ho)
    obtain ⟨hl1, hl2⟩ := hlab o ho
    unfold flatIndex
    split
    · omega
    · rw [hm']
      have h3 : ((tokensOf occs).idxOf o.token + 1) * m ≤ (tokensOf occs).length * m :=
        Nat.mul_le_mul_right _ hi
      have h4 : ((((tokensOf occs).idxOf o.token + 1) * m : Nat) : Int)
          ≤ (((tokensOf occs).length * m : Nat) : Int) := by exact_mod_cast h3
      push_cast at h4 ⊢
      have h5 : ((m : Int)) * ((tokensOf occs).idxOf o.token : Int) + o.label
          < (((tokensOf occs).idxOf o.token : Int) + 1) * m := by
        have : o.label < m := by omega
        linarith [this, mul_comm (m : Int) ((tokensOf occs).idxOf o.token : Int)]
      linarith
  rw [h1]
  simp only [bind, Except.bind]
  rw [hflat, h2]
  simp only
  unfold reshape2
  rw [if_neg (by omega)]
  simp only [Except.ok.injEq]
  unfold exactCounts
  have hpos : (List.range (tokensOf occs).length).map (fun i =>
      (List.range (maxY + 1).toNat).map (fun j =>
        ((List.range ((tokensOf occs).length * m)).map (fun s : Nat =>
          ((occs.filter (fun o => decide (flatIndex maxY ((tokensOf occs).idxOf o.token) o.label
            = (s : Int)))).map Occ.weight).sum)).getD (i * (maxY + 1).toNat + j) 0))
      = (tokensOf occs).map (fun t => (List.range (maxY + 1).toNat).map (fun l : Nat =>
        weightOf occs (fun o => decide (o.token = t) && decide (o.label = (l : Int))))) := by
    apply map_getElem_range
    intro i hi
    apply List.map_congr_left
    intro j hj
    have hmn : (maxY + 1).toNat = m := by omega
    rw [hmn] at hj ⊢
    have hj := List.mem_range.1 hj
    have hlt : i * m + j < (tokensOf occs).length * m := by
      have : (i + 1) * m ≤ (tokensOf occs).length * m := Nat.mul_le_mul_right _ hi
      rw [Nat.add_mul] at this
      omega
    rw [List.getD_eq_getElem?_getD, List.getElem?_map, List.getElem?_range hlt]
    simp only [Option.map_some, Option.getD_some]
    unfold weightOf
    congr 2
    apply List.filter_congr
    intro o ho
    obtain ⟨hl1, hl2⟩ := hlab o ho
    rw [Bool.eq_iff_iff]
    simp only [Bool.and_eq_true, decide_eq_true_eq]
    rw [← idxOf_eq_iff hnd (mem_tokens ho) i hi]
    unfold flatIndex
    rw [hm']
    by_cases h0 : o.label = -1
    · rw [if_pos h0, h0]
      constructor
      · intro h; exfalso; push_cast at h
        have : (0 : Int) ≤ i * m := by positivity
        omega
      · rintro ⟨_, h⟩; omega
    · rw [if_neg h0]
      obtain ⟨l, hl⟩ : ∃ l : Nat, o.label = l := ⟨o.label.toNat, by omega⟩
      rw [hl]
      have hlm : l < m := by omega
      constructor
      · intro h
        have h' : m * (tokensOf occs).idxOf o.token + l = i * m + j := by exact_mod_cast h
        have e1 : (m * (tokensOf occs).idxOf o.token + l) / m = (tokensOf occs).idxOf o.token := by
          rw [Nat.mul_add_div (by omega), Nat.div_eq_of_lt hlm, Nat.add_zero]
        have e2 : (i * m + j) / m = i := by
          rw [mul_comm, Nat.mul_add_div (by omega), Nat.div_eq_of_lt hj, Nat.add_zero]
        have e3 : (m * (tokensOf occs).idxOf o.token + l) % m = l := by
          rw [Nat.mul_add_mod, Nat.mod_eq_of_lt hlm]
        have e4 : (i * m + j) % m = j := by
          rw [mul_comm, Nat.mul_add_mod, Nat.mod_eq_of_lt hj]
        rw [h', e2] at e1
        rw [h', e4] at e3
        exact ⟨e1.symm, by rw [e3]⟩
      · rintro ⟨h3, h4⟩
        have : l = j := by exact_mod_cast h4
        rw [h3, this]
        push_cast
        ring
  rw [hpos]
  congr 1
  · apply List.map_congr_left
    intro t _
    rw [List.count, List.countP_map, List.countP_eq_length_filter]
    congr 1

/-! ## The counts of `tft.vocabulary` without labels -/

theorem weighted_reduction_eq (drop : T → Bool) (force : Bool) (batch : List (T × ℚ)) :
    reduceBatchWeightedCounts drop force (batch.map Prod.fst) (some (batch.map Prod.snd))
      = .ok ⟨uniqFirst ((batch.filter (fun p => !drop p.1)).map Prod.fst),
          some ((uniqFirst ((batch.filter (fun p => !drop p.1)).map Prod.fst)).map (fun t =>
            (((batch.filter (fun p => !drop p.1)).filter (fun p => decide (p.1 = t))).map Prod.snd).sum)),
          none, none⟩ := by
  set kept := batch.filter (fun p => !drop p.1) with hk
  have e1 : (batch.map Prod.fst).filter (fun t => !drop t) = kept.map Prod.fst := by
    rw [List.filter_map]; rfl
  have e2 : (((batch.map Prod.fst).zip (batch.map Prod.snd)).filter (fun p => !drop p.1)).map Prod.snd
      = kept.map Prod.snd := by
    rw [List.zip_map']; simp [hk]
  have hseg : segmentSum (kept.map Prod.snd)
      (((kept.map Prod.fst).map (fun t => (uniqFirst (kept.map Prod.fst)).idxOf t)).map
        (fun i : Nat => (i : Int))) ((uniqFirst (kept.map Prod.fst)).length : Int)
      = .ok ((uniqFirst (kept.map Prod.fst)).map (fun t =>
          ((kept.filter (fun p => decide (p.1 = t))).map Prod.snd).sum)) := by
    rw [List.map_map, List.map_map, segmentSum_eq]
    · congr 1
      apply map_getElem_range
      intro i hi
      congr 2
      apply List.filter_congr
      intro o ho
      rw [Bool.eq_iff_iff]
      simp only [Function.comp, decide_eq_true_eq]
      rw [← idxOf_eq_iff (nodup_uniqFirst _) ((mem_uniqFirst _ _).2 (List.mem_map.2 ⟨o, ho, rfl⟩)) i hi]
      omega
    · intro o ho
      simp only [Function.comp]
      have := idxOf_lt ((mem_uniqFirst (kept.map Prod.fst) o.1).2 (List.mem_map.2 ⟨o, ho, rfl⟩))
      omega
  unfold reduceBatchWeightedCounts
  simp only [List.length_map, ne_eq, not_true, if_false, uniqueWithCounts]
  rw [e1, e2, hseg]
  rfl

/-- **C49** With weights, a batch is reduced to its distinct tokens and, for each, the sum of the
weights of its occurrences. -/
theorem weighted_counts_exact (drop : T → Bool) (force : Bool) (batch : List (T × ℚ)) :
    ∃ r, reduceBatchWeightedCounts drop force (batch.map Prod.fst) (some (batch.map Prod.snd)) = .ok r
      ∧ r.unique.Nodup
      ∧ (∀ t, t ∈ r.unique ↔ drop t = false ∧ ∃ w, (t, w) ∈ batch)
      ∧ r.weights = some (r.unique.map (fun t =>
          ((batch.filter (fun p => decide (p.1 = t))).map Prod.snd).sum)) := by
  refine ⟨_, weighted_reduction_eq drop force batch, nodup_uniqFirst _, ?_, ?_⟩
  · intro t
    simp only [mem_uniqFirst, List.mem_map, List.mem_filter, Bool.not_eq_true']
    constructor
    · rintro ⟨⟨a, w⟩, ⟨h1, h2⟩, rfl⟩; exact ⟨h2, w, h1⟩
    · rintro ⟨h2, w, h1⟩; exact ⟨(t, w), ⟨h1, h2⟩, rfl⟩
  · simp only [Option.some.injEq]
    apply List.map_congr_left
    intro t ht
    congr 2
    rw [List.filter_filter]
    apply List.filter_congr
    intro p hp
    rw [mem_uniqFirst] at ht
    obtain ⟨q, hq, rfl⟩ := List.mem_map.1 ht
    have := (List.mem_filter.1 hq).2
    by_cases h : p.1 = q.1
    · simp only [h] at *; simpa using this
    · simp [h]

/-- **C49** The reduction agrees with the pairs of the vocabulary model, so the theorems about
`tft.vocabulary` hold for the reduced batches. -/
theorem reduction_is_batch_pairs (drop : T → Bool) (batch : List (T × ℚ)) :
    (∃ us ws, reduceBatchWeightedCounts drop false (batch.map Prod.fst) (some (batch.map Prod.snd))
        = .ok ⟨us, some ws, none, none⟩ ∧ us.zip ws = Vocab.batchPairs true drop batch)
    ∧ (∃ us, reduceBatchWeightedCounts drop false (batch.map Prod.fst) none = .ok ⟨us, none, none, none⟩
        ∧ us.map (fun t => (t, (1 : ℚ))) = Vocab.batchPairs false drop batch) := by
  refine ⟨⟨_, _, weighted_reduction_eq drop false batch, ?_⟩, ⟨_, rfl, ?_⟩⟩
  · unfold Vocab.batchPairs
    simp only [if_true]
    rw [List.zip_map_right]
    simp [List.zip_eq_zipWith, List.zipWith_self]
  · unfold Vocab.batchPairs
    simp only [Bool.false_eq_true, if_false, List.filter_map, List.map_map]
    rfl

/-- **C49** Without weights the tokens are kept one by one, or, with `force`, each distinct token is
kept once with the number of its occurrences. -/
theorem unweighted_counts_exact (drop : T → Bool) (x : List T) :
    (∃ r, reduceBatchWeightedCounts drop true x none = .ok r ∧ r.unique.Nodup
      ∧ (∀ t, t ∈ r.unique ↔ drop t = false ∧ t ∈ x)
      ∧ r.counts = some (r.unique.map (fun t => x.count t)) ∧ r.weights = none)
    ∧ (∃ r, reduceBatchWeightedCounts drop false x none = .ok r
      ∧ (∀ t, r.unique.count t = if drop t then 0 else x.count t)
      ∧ r.counts = none ∧ r.weights = none) := by
  refine ⟨⟨_, rfl, nodup_uniqFirst _, ?_, ?_, rfl⟩, ⟨_, rfl, ?_, rfl, rfl⟩⟩
  · intro t
    simp only [uniqueWithCounts, mem_uniqFirst, List.mem_filter, Bool.not_eq_true']
    tauto
  · simp only [uniqueWithCounts, Option.some.injEq]
    apply List.map_congr_left
    intro t ht
    rw [mem_uniqFirst, List.mem_filter] at ht
    exact List.count_filter ht.2
  · intro t
    by_cases h : drop t
    · rw [if_pos h]
      apply List.count_eq_zero_of_not_mem
      simp [h]
    · rw [if_neg h]
      exact List.count_filter (by simpa using h)

/-- **C49** Weights that do not go with the tokens one by one are an error, not silently cut. -/
theorem weights_length_mismatch (drop : T → Bool) (force : Bool) (x : List T) (w : List ℚ)
    (h : w.length ≠ x.length) :
    ∃ e, reduceBatchWeightedCounts drop force x (some w) = .error e := by
  unfold reduceBatchWeightedCounts
  simp only [if_pos h]
  exact ⟨_, rfl⟩

/-- Two tokens and one weight. -/
example : ∃ e, reduceBatchWeightedCounts (fun _ => false) false ["a", "b"] (some [1]) = .error e :=
  weights_length_mismatch _ _ _ _ (by decide)

end TFT.Reduce
