import Verif.Vocab.Arms

/-!
# Properties of vocabularies: C09, C10, C11, C12, C13, C15, C16

In all theorems `enc` is how tokens are written (injective: the identity for strings, decimal
digits for integers), `dummy` the placeholder entry, `fmt` how an entry is formatted as a line,
and `batches` any division of the pruned counts into batches, in any order.
-/

namespace TFT.Vocab

open TFT.Spec

set_option linter.unusedSectionVars false

variable {T B H Key Line : Type} [DecidableEq T] [LinearOrder B] [LinearOrder H] [DecidableEq Key]

/-- **C09.** `tft.vocabulary` without labels, coverage, reserved tokens and shuffling. For all
data, thresholds and `top_k` that the API accepts, all divisions into datasets and batches and all
runs that Beam may make: the file lists exactly the tokens with sufficient frequency that are
among the `top_k` best, best first (or only the placeholder if there is none). -/
theorem vocabulary_contents (enc : T → B) (henc : Function.Injective enc) (dummy : ℚ × B)
    (fmt : ℚ × B → Line) (weighted : Bool) (drop : T → Bool)
    (topK : Option Int) (thr : Option ℚ) (P : PruneParams Key B)
    (hP : vocabularyParams topK thr none none none false = .ok P)
    (datasets : List (List (TokenBatch T))) (r1s : List (KeyRun T ℚ)) (r2 : KeyRun T Nat)
    (h1 : List.Forall₂ ValidKeyRun r1s (countInputs weighted drop datasets))
    (h2 : ValidKeyMerge r2 (r1s.flatMap KeyRun.keys)) :
    let data := writtenData enc drop datasets
    let freq := frequency weighted data
    ∃ tokens, IsRanking freq
        (Selected freq (thr.getD 0) (topK.map Int.toNat) data (fun _ _ => True)) tokens ∧
      ∃ counts, mergedCounts r1s r2 = .ok counts ∧
        ∀ batches, batches.flatten.Perm (prune enc dummy P counts) →
          vocabularyFile enc dummy P (none : Option (B → H)) fmt none counts batches
            = .ok ((if tokens = [] then [dummy] else tokens.map (fun t => (freq t, t))).map fmt) := by
  intro data freq
  obtain ⟨counts, toks, hrun, hnd, hmem, hc⟩ := merged_counts enc henc weighted drop datasets
    r1s r2 h1 h2
  obtain ⟨rfl, hthr, -, hk, -⟩ := vocabularyParams_ok hP
  set ind : B → Indicator := fun b => .count (freq b) with hind
  set l := toks.filter (fun b => passB (thr.getD 0) ⊥ (ind b)) with hl
  have hlnd : l.Nodup := hnd.filter _
  have hel : l.toFinset = eligible freq (thr.getD 0) data :=
    eligible_eq freq hthr data toks hmem
  have hbest : ∀ t, t ∈ bestOf freq l (topK.map Int.toNat) ↔
      Selected freq (thr.getD 0) (topK.map Int.toNat) data (fun _ _ => True) t := by
    intro t
    rw [mem_bestOf freq l hlnd, hel, ← List.mem_toFinset, hel]
    simp [Selected]
  refine ⟨ranked freq (bestOf freq l (topK.map Int.toNat)),
    ranked_isRanking _ _ (nodup_bestOf _ _ hlnd _) _ hbest, counts, hrun, ?_⟩
  intro batches hb
  unfold vocabularyFile prune at *
  simp only at hb ⊢
  rw [standard_arm (Key := Key) enc dummy (thr.getD 0) ⊥ counts toks ind hc] at hb ⊢
  cases topK with
  | none =>
    simp only [Option.map_none, Option.isSome_none, Bool.false_and, Bool.false_eq_true, if_false]
      at hb ⊢
    unfold orderAndWrite inputIsSorted
    simp only [Option.isSome_none, Bool.false_and, Bool.false_eq_true, if_false]
    rw [sort_path_none dummy ind _ batches hb]
    unfold maybeAddDummy
    simp only [List.map_eq_nil_iff]
    rfl
  | some k =>
    have hs : ranked freq (bestOf freq l ((some k).map Int.toNat))
        = bestOf freq l ((some k).map Int.toNat) := by
      apply ranked_of_sorted
      exact (ranked_sorted freq l hlnd).sublist (List.take_sublist _ _)
    rw [hs]
    unfold orderAndWrite inputIsSorted
    simp only [Option.map_some, Option.isSome_some, Option.isSome_none, Option.isNone_none,
      Bool.not_false, Bool.and_self, if_true, Bool.false_eq_true, if_false, Bool.true_and,
      List.isEmpty_iff]
    rfl

/-- **C16.** The fast path for sorted input writes the same file as the sorting path, for all
counts (with or without labels) and all batchings. -/
theorem fast_path_eq_sort_path (enc : T → B) (dummy : ℚ × B) (P : PruneParams Key B)
    (fmt : ℚ × B → Line) (counts : List (Indicator × T)) (batches : List (List (ℚ × B)))
    (hsorted : inputIsSorted P false = true)
    (hb : batches.flatten.Perm (prune enc dummy P counts)) :
    orderAndWrite true (none : Option (B → H)) dummy fmt none (prune enc dummy P counts) batches
      = orderAndWrite false (none : Option (B → H)) dummy fmt none (prune enc dummy P counts)
          batches := by
  unfold inputIsSorted at hsorted
  simp only [Bool.not_false, Bool.and_true, Bool.and_eq_true, Option.isSome_iff_exists,
    Option.isNone_iff_eq_none] at hsorted
  obtain ⟨⟨k, hk⟩, hf⟩ := hsorted
  have hp : ∃ l, prune enc dummy P counts = maybeAddDummy dummy (topOf k l) := by
    unfold prune applyThresholdsAndTopK
    simp only [hk, hf]
    exact ⟨_, rfl⟩
  obtain ⟨l, hl⟩ := hp
  have hs : (prune enc dummy P counts).Pairwise precedes := by
    rw [hl]
    unfold maybeAddDummy
    split
    · simp
    · exact (List.pairwise_insertionSort _ _).sublist (List.take_sublist _ _)
  have hne : prune enc dummy P counts ≠ [] := by
    rw [hl]
    unfold maybeAddDummy
    split
    · simp
    · assumption
  unfold orderAndWrite
  simp only [Option.isNone_none, Bool.and_true, if_true, Option.isSome_none, Bool.false_eq_true,
    if_false, Except.ok.injEq]
  congr 1
  unfold orderElements
  simp only [sort_none]
  rw [sorted_eq_of_perm ((presorted_perm (none : Option (B → H)) batches).trans hb),
    sort_of_sorted hs]
  unfold maybeAddDummy
  rw [if_neg hne]

/-- **C11.** Whatever was analyzed and whatever the parameters are, a file that is written has a
line. -/
theorem vocabulary_never_empty (enc : T → B) (dummy : ℚ × B) (P : PruneParams Key B)
    (fp : Option (B → H)) (fmt : ℚ × B → Line) (reserved : Option (List B))
    (counts : List (Indicator × T)) (batches : List (List (ℚ × B))) :
    ∃ lines, vocabularyFile enc dummy P fp fmt reserved counts batches = .ok lines ∧
      lines ≠ [] := by
  have hd : ∀ l : List (ℚ × B), maybeAddDummy dummy l ≠ [] := by
    intro l
    unfold maybeAddDummy
    split
    · simp
    · assumption
  unfold vocabularyFile orderAndWrite
  split
  · rename_i h
    simp only [inputIsSorted, Bool.and_eq_true, Option.isSome_iff_exists,
      Option.isNone_iff_eq_none, Bool.not_eq_true'] at h
    obtain ⟨⟨⟨⟨k, hk⟩, hf⟩, hfp⟩, -⟩ := h
    rw [if_neg (by simp [hfp])]
    refine ⟨_, rfl, ?_⟩
    rw [Ne, List.map_eq_nil_iff]
    unfold prune applyThresholdsAndTopK
    simp only [hk, hf]
    exact hd _
  · refine ⟨_, rfl, ?_⟩
    rw [Ne, List.map_eq_nil_iff]
    unfold orderElements
    exact hd _

/-- **C10.** With reserved tokens `r`, the file starts with exactly these tokens in their order;
then come the entries (`rest`) that the file would have without reserved tokens (`usual`), in the
same order, except those that are reserved. If there was no token at all, the placeholder may be
left out. -/
theorem reserved_tokens_first (enc : T → B) (dummy : ℚ × B) (P : PruneParams Key B)
    (fp : Option (B → H)) (hfp : ∀ h, fp = some h → Function.Injective h)
    (fmt : ℚ × B → Line) (r : List B) (counts : List (Indicator × T))
    (hnd : (counts.map (fun p => enc p.2)).Nodup) (hd : P.keyFn = none ∨ ∀ p ∈ counts, enc p.2 ≠ dummy.2)
    (batches batches' : List (List (ℚ × B)))
    (hb : batches.flatten.Perm (prune enc dummy P counts))
    (hb' : batches'.flatten.Perm (prune enc dummy P counts)) :
    ∃ usual rest, vocabularyFile enc dummy P fp id none counts batches' = .ok usual ∧
      vocabularyFile enc dummy P fp fmt (some r) counts batches
        = .ok ((r.map (fun t => (-1, t)) ++ rest).map fmt) ∧
      (∀ e ∈ rest, e.2 ∉ r) ∧
      (rest = usual.filter (fun e => !decide (e.2 ∈ r)) ∨ (usual = [dummy] ∧ rest = [])) := by
  have hu : SortsUniquely fp (prune enc dummy P counts) :=
    fun h hh => ⟨hfp h hh, prune_tokens_nodup enc dummy P counts hnd hd⟩
  rw [file_entries enc dummy P fp id none counts batches' hu hb',
    file_entries enc dummy P fp fmt (some r) counts batches hu hb]
  simp only [Option.getD_none, List.map_nil, List.nil_append, List.not_mem_nil, decide_false,
    Bool.not_false, List.filter_true, Option.getD_some, List.map_id_fun, id_eq]
  generalize prune enc dummy P counts = l at hu
  refine ⟨_, if l = [] ∧ r = [] then [dummy]
    else sortEntries fp (l.filter (fun p => !decide (p.2 ∈ r))), rfl, ?_, ?_, ?_⟩
  · congr 2
    unfold maybeAddDummy
    by_cases hr : r = []
    · subst hr
      by_cases hl : l = []
      · subst hl
        have : sortEntries fp ([] : List (ℚ × B)) = [] := by cases fp <;> rfl
        simp [this]
      · have hne : sortEntries fp l ≠ [] := fun h => hl (by
          have := sortEntries_perm fp l
          rw [h] at this
          exact this.symm.eq_nil)
        simp [hl, hne]
    · simp [hr]
  · intro e he
    split at he
    · rename_i h; simp [h.2]
    · have := (sortEntries_perm fp _).mem_iff.1 he
      simpa using (List.mem_filter.1 this).2
  · by_cases hl : l = []
    · subst hl
      have h0 : sortEntries fp ([] : List (ℚ × B)) = [] := by cases fp <;> rfl
      by_cases hr : r = []
      · left; subst hr; simp [maybeAddDummy, h0]
      · right; simp [maybeAddDummy, h0, hr]
    · left
      have hne : sortEntries fp l ≠ [] := fun h => hl (by
          have := sortEntries_perm fp l
          rw [h] at this
          exact this.symm.eq_nil)
      rw [if_neg (by simp [hl]), filter_sortEntries hu]
      unfold maybeAddDummy
      rw [if_neg hne]

/-- **C15**, first part. With and without fingerprint shuffling, the same entries are written. -/
theorem shuffle_permutes (enc : T → B) (dummy : ℚ × B) (P : PruneParams Key B)
    (h : B → H) (hinj : Function.Injective h)
    (fmt : ℚ × B → Line) (reserved : Option (List B)) (counts : List (Indicator × T))
    (hnd : (counts.map (fun p => enc p.2)).Nodup) (hd : P.keyFn = none ∨ ∀ p ∈ counts, enc p.2 ≠ dummy.2)
    (batches batches' : List (List (ℚ × B)))
    (hb : batches.flatten.Perm (prune enc dummy P counts))
    (hb' : batches'.flatten.Perm (prune enc dummy P counts)) :
    ∃ shuffled plain,
      vocabularyFile enc dummy P (some h) fmt reserved counts batches = .ok shuffled ∧
      vocabularyFile enc dummy P (none : Option (B → H)) fmt reserved counts batches' = .ok plain ∧
      shuffled.Perm plain := by
  have hu : ∀ fp, (∀ g, fp = some g → g = h) → SortsUniquely fp (prune enc dummy P counts) :=
    fun fp hfp g hg => ⟨hfp g hg ▸ hinj, prune_tokens_nodup enc dummy P counts hnd hd⟩
  rw [file_entries enc dummy P (some h) fmt reserved counts batches
      (hu _ (by rintro g hg; exact (Option.some.inj hg).symm)) hb,
    file_entries enc dummy P (none : Option (B → H)) fmt reserved counts batches'
      (hu _ (by simp)) hb']
  refine ⟨_, _, rfl, rfl, List.Perm.map _ ?_⟩
  have hp : ((reserved.getD []).map (fun t => ((-1 : ℚ), t)) ++
      sortEntries (some h) ((prune enc dummy P counts).filter
        (fun p => !decide (p.2 ∈ reserved.getD [])))).Perm
      ((reserved.getD []).map (fun t => ((-1 : ℚ), t)) ++
      sortEntries (none : Option (B → H)) ((prune enc dummy P counts).filter
        (fun p => !decide (p.2 ∈ reserved.getD [])))) :=
    ((sortEntries_perm (some h) _).trans (sortEntries_perm none _).symm).append_left _
  unfold maybeAddDummy
  split <;> split
  · exact .refl _
  · rename_i h1 h2; rw [h1] at hp; exact absurd hp.symm.eq_nil h2
  · rename_i h1 h2; rw [h2] at hp; exact absurd hp.eq_nil h1
  · exact hp

/-- **C15**, second part. With shuffling, two vocabularies with the same tokens are written in the
same order, whatever the counts, parameters, batches and orders of the two analyses are. The order
is that of the fingerprints. -/
theorem shuffle_order (enc : T → B) (dummy : ℚ × B) (P P' : PruneParams Key B)
    (h : B → H) (hinj : Function.Injective h) (counts counts' : List (Indicator × T))
    (batches batches' : List (List (ℚ × B)))
    (hb : batches.flatten.Perm (prune enc dummy P counts))
    (hb' : batches'.flatten.Perm (prune enc dummy P' counts'))
    (hsame : ((prune enc dummy P counts).map Prod.snd).Perm
      ((prune enc dummy P' counts').map Prod.snd)) :
    ∃ tokens, tokens.Pairwise (fun a b => h a ≤ h b) ∧
      vocabularyFile enc dummy P (some h) Prod.snd none counts batches = .ok tokens ∧
      vocabularyFile enc dummy P' (some h) Prod.snd none counts' batches' = .ok tokens := by
  have hfile : ∀ (P : PruneParams Key B) (counts) (batches : List (List (ℚ × B))),
      vocabularyFile enc dummy P (some h) Prod.snd none counts batches
        = .ok ((maybeAddDummy dummy (sortEntries (some h)
            (batches.map (sortEntries (some h))).flatten)).map Prod.snd) := by
    intro P counts batches
    unfold vocabularyFile orderAndWrite inputIsSorted
    simp only [Option.isSome_some, Bool.not_true, Bool.and_false, Bool.false_and,
      Bool.false_eq_true, if_false]
    rfl
  have hsorted : ∀ l : List (ℚ × B), ((maybeAddDummy dummy (sortEntries (some h) l)).map
      Prod.snd).Pairwise (fun a b => h a ≤ h b) := by
    intro l
    unfold maybeAddDummy
    split
    · simp
    · rw [List.pairwise_map]
      exact List.pairwise_insertionSort (fun a b : ℚ × B => h a.2 ≤ h b.2) l
  have hp : ((batches.map (sortEntries (some h))).flatten.map Prod.snd).Perm
      ((batches'.map (sortEntries (some h))).flatten.map Prod.snd) :=
    (((presorted_perm (some h) batches).trans hb).map Prod.snd).trans
      (hsame.trans (((presorted_perm (some h) batches').trans hb').map Prod.snd).symm)
  refine ⟨_, hsorted _, hfile P counts batches, ?_⟩
  rw [hfile P' counts' batches']
  congr 1
  refine List.Perm.eq_of_pairwise (le := fun a b : B => h a ≤ h b)
    (fun a b _ _ h1 h2 => hinj (le_antisymm h1 h2)) (hsorted _) (hsorted _) ?_
  generalize (batches.map (sortEntries (some h))).flatten = l at hp
  generalize (batches'.map (sortEntries (some h))).flatten = l' at hp
  have e : ∀ l : List (ℚ × B), sortEntries (some h) l = [] ↔ l = [] := by
    intro l
    constructor
    · intro hl
      have := sortEntries_perm (some h) l
      rw [hl] at this
      exact this.symm.eq_nil
    · rintro rfl; rfl
  unfold maybeAddDummy
  simp only [e]
  have hnil : l = [] ↔ l' = [] := by
    constructor
    · rintro rfl; exact List.map_eq_nil_iff.1 hp.symm.eq_nil
    · rintro rfl; exact List.map_eq_nil_iff.1 hp.eq_nil
  by_cases hl : l = []
  · rw [if_pos hl, if_pos (hnil.1 hl)]
  · rw [if_neg hl, if_neg (mt hnil.2 hl)]
    exact ((sortEntries_perm _ _).map _).trans (hp.symm.trans ((sortEntries_perm _ _).map _).symm)

/-- **C12**, part that holds: without reserved tokens, and with reserved tokens none of which is
in a vocabulary with at least one entry, the reported size is the number of lines of the file.
(`reported_size_ne_overlap` and `reported_size_ne_empty` show what is missing.) -/
theorem reported_size_partial (enc : T → B) (dummy : ℚ × B) (P : PruneParams Key B)
    (fp : Option (B → H)) (hfp : ∀ h, fp = some h → Function.Injective h)
    (fmt : ℚ × B → Line) (reserved : Option (List B)) (counts : List (Indicator × T))
    (hnd : (counts.map (fun p => enc p.2)).Nodup) (hd : P.keyFn = none ∨ ∀ p ∈ counts, enc p.2 ≠ dummy.2)
    (hr : reserved = none ∨ (prune enc dummy P counts ≠ [] ∧
      ∀ e ∈ prune enc dummy P counts, ∀ r, reserved = some r → e.2 ∉ r))
    (batches : List (List (ℚ × B))) (hb : batches.flatten.Perm (prune enc dummy P counts)) :
    ∃ lines, vocabularyFile enc dummy P fp fmt reserved counts batches = .ok lines ∧
      lines.length = reportedSize enc dummy P reserved counts := by
  have hu : SortsUniquely fp (prune enc dummy P counts) :=
    fun h hh => ⟨hfp h hh, prune_tokens_nodup enc dummy P counts hnd hd⟩
  refine ⟨_, file_entries enc dummy P fp fmt reserved counts batches hu hb, ?_⟩
  unfold reportedSize
  generalize prune enc dummy P counts = l at hr
  have hfl : l.filter (fun p => !decide (p.2 ∈ reserved.getD [])) = l := by
    rw [List.filter_eq_self]
    intro e he
    rcases hr with rfl | ⟨-, hr⟩
    · simp
    · cases reserved with
      | none => simp
      | some r => simpa using hr e he r rfl
  rw [hfl, List.length_map]
  have hlen := (sortEntries_perm fp l).length_eq
  unfold maybeAddDummy
  split
  · rename_i h
    have h' := congrArg List.length h
    simp only [List.length_append, List.length_map, hlen, List.length_nil] at h'
    simp only [List.length_singleton]
    omega
  · rename_i h
    simp only [List.length_append, List.length_map, hlen]
    have : 1 ≤ l.length ∨ l.length = 0 ∧ reserved.getD [] ≠ [] := by
      by_cases hl : l = []
      · right
        subst hl
        have h0 : sortEntries fp ([] : List (ℚ × B)) = [] := by cases fp <;> rfl
        rw [h0] at h
        simp at h
        exact ⟨rfl, h⟩
      · left; exact List.length_pos_iff.2 hl
    rcases this with h1 | ⟨h1, h2⟩
    · omega
    · rcases hr with rfl | ⟨hr, -⟩
      · simp at h2
      · exact absurd (List.length_eq_zero_iff.1 h1) hr

theorem uniqFirst_map {K K' : Type} [DecidableEq K] [DecidableEq K'] (g : K → K')
    (hg : Function.Injective g) (l : List K) : uniqFirst (l.map g) = (uniqFirst l).map g := by
  induction l with
  | nil => rfl
  | cons a l ih =>
    simp only [List.map_cons, uniqFirst, ih, List.filter_map, List.cons.injEq, true_and]
    congr 1
    apply List.filter_congr
    intro b _
    simp [hg.eq_iff]

/-- **C13**, part that holds: with coverage, the file lists exactly the tokens of the standard
selection and, for every key, the `coverage_top_k` best tokens of the key that reach the coverage
threshold, each once, best first — provided that there is no `top_k` or at least one token reaches
the standard threshold. (`coverage_placeholder` shows what happens otherwise.) -/
theorem coverage_contents_partial (enc : T → B) (henc : Function.Injective enc) (dummy : ℚ × B)
    (fmt : ℚ × B → Line) (weighted : Bool) (drop : T → Bool)
    (topK ctopK : Option Int) (thr cthr : Option ℚ) (f : B → Key) (P : PruneParams Key B)
    (hP : vocabularyParams topK thr ctopK cthr (some f) false = .ok P)
    (datasets : List (List (TokenBatch T))) (r1s : List (KeyRun T ℚ)) (r2 : KeyRun T Nat)
    (h1 : List.Forall₂ ValidKeyRun r1s (countInputs weighted drop datasets))
    (h2 : ValidKeyMerge r2 (r1s.flatMap KeyRun.keys)) :
    let data := writtenData enc drop datasets
    let freq := frequency weighted data
    (topK = none ∨ (eligible freq (thr.getD 0) data).Nonempty) →
    ∃ tokens, IsRanking freq
        (fun t => Selected freq (thr.getD 0) (topK.map Int.toNat) data (fun _ _ => True) t ∨
          Selected freq (cthr.getD 0) (ctopK.map Int.toNat) data (fun u t => f u = f t) t) tokens ∧
      ∃ counts, mergedCounts r1s r2 = .ok counts ∧
        ∀ batches, batches.flatten.Perm (prune enc dummy P counts) →
          vocabularyFile enc dummy P (none : Option (B → H)) fmt none counts batches
            = .ok ((if tokens = [] then [dummy] else tokens.map (fun t => (freq t, t))).map fmt) := by
  intro data freq hsome
  obtain ⟨counts, toks, hrun, hnd, hmem, hc⟩ := merged_counts enc henc weighted drop datasets
    r1s r2 h1 h2
  obtain ⟨rfl, hthr, hcthr, hk, -⟩ := vocabularyParams_ok hP
  set ind : B → Indicator := fun b => .count (freq b) with hind
  set l := toks.filter (fun b => passB (thr.getD 0) ⊥ (ind b)) with hl
  set l' := toks.filter (fun b => passB (cthr.getD 0) ⊥ (ind b)) with hl'
  have hlnd : l.Nodup := hnd.filter _
  have hlnd' : l'.Nodup := hnd.filter _
  have hel : l.toFinset = eligible freq (thr.getD 0) data :=
    eligible_eq freq hthr data toks hmem
  have hel' : l'.toFinset = eligible freq (cthr.getD 0) data :=
    eligible_eq freq hcthr data toks hmem
  have hbest : ∀ t, t ∈ bestOf freq l (topK.map Int.toNat) ↔
      Selected freq (thr.getD 0) (topK.map Int.toNat) data (fun _ _ => True) t := by
    intro t
    rw [mem_bestOf freq l hlnd, hel, ← List.mem_toFinset, hel]
    simp [Selected]
  have hbest' : ∀ t, t ∈ bestPerKey freq l' f (ctopK.map Int.toNat) ↔
      Selected freq (cthr.getD 0) (ctopK.map Int.toNat) data (fun u t => f u = f t) t := by
    intro t
    rw [mem_bestPerKey freq l' hlnd', hel', ← List.mem_toFinset, hel']
    rfl
  set S := bestOf freq l (topK.map Int.toNat) with hS
  set C := bestPerKey freq l' f (ctopK.map Int.toNat) with hC
  refine ⟨ranked freq (uniqFirst (S ++ C)),
    ranked_isRanking _ _ (nodup_uniqFirst _) _ (fun t => by
      rw [mem_uniqFirst, List.mem_append, hbest, hbest']), counts, hrun, ?_⟩
  have hcond : ((topK.map Int.toNat).isSome && S.isEmpty) = false := by
    rcases hsome with rfl | ⟨t, ht⟩
    · rfl
    · cases topK with
      | none => rfl
      | some k =>
        have hk0 := hk k rfl
        have hln : l ≠ [] := by
          rw [← hel, List.mem_toFinset] at ht
          exact List.ne_nil_of_mem ht
        have : S ≠ [] := by
          rw [hS]
          unfold bestOf
          simp only [Option.map_some]
          rw [Ne, List.take_eq_nil_iff, not_or]
          refine ⟨by omega, ?_⟩
          intro h
          have := ranked_perm freq l
          rw [h] at this
          exact hln this.symm.eq_nil
        simp [this]
  intro batches hb
  have hprune : prune enc dummy
      { topK := topK.map Int.toNat, frequencyThreshold := thr.getD 0,
          informativenessThreshold := ⊥, coverageTopK := ctopK.map Int.toNat,
          coverageFrequencyThreshold := cthr.getD 0, coverageInformativenessThreshold := ⊥,
          keyFn := some f } counts = (uniqFirst (S ++ C)).map (entry ind) := by
    unfold prune
    simp only
    rw [standard_arm (Key := Key) enc dummy (thr.getD 0) ⊥ counts toks ind hc,
      coverage_arm enc dummy (cthr.getD 0) ⊥ counts toks ind hc]
    simp only
    show uniqFirst ((if (topK.map Int.toNat).isSome && S.isEmpty then [dummy]
      else S.map (entry ind)) ++ C.map (entry ind)) = _
    rw [hcond]
    simp only [Bool.false_eq_true, if_false]
    rw [← List.map_append, uniqFirst_map]
    intro a b hab
    exact (Prod.mk.inj hab).2
  rw [hprune] at hb
  unfold vocabularyFile orderAndWrite inputIsSorted
  simp only [Option.isNone_some, Bool.and_false, Bool.false_and, Bool.false_eq_true, if_false]
  rw [sort_path_none dummy ind _ batches hb]
  unfold maybeAddDummy
  simp only [List.map_eq_nil_iff]
  rfl

/-! ## Where the code does not do what it says -/

/-- Two runs over one dataset with one batch, used in the examples: `2` occurs three times, `1`
twice, `7` once. -/
def exRuns : List (KeyRun Nat ℚ) :=
  [⟨[7, 1, 2], fun k => if k = 2 then .merge [.add (.add .create 1) 1, .add .create 1]
    else if k = 1 then .add (.add .create 1) 1 else .add .create 1⟩]

/-- The merge run of the examples. -/
def exMerge : KeyRun Nat Nat := ⟨[1, 2, 7], fun k => .add .create (if k = 7 then 0 else k)⟩

/-- The data of the examples. -/
def exData : List (List (TokenBatch Nat)) := [[[(2, 5), (1, 5), (2, 5)], [(7, 5), (1, 5), (2, 5)]]]

theorem exRuns_valid : List.Forall₂ ValidKeyRun exRuns (countInputs false (fun _ => false) exData)
    ∧ ValidKeyMerge exMerge (exRuns.flatMap KeyRun.keys) := by
  refine ⟨.cons ⟨by decide, ?_, ?_, ?_⟩ .nil, ⟨by decide, ?_, ?_, ?_⟩⟩
  · intro k
    show k ∈ [7, 1, 2] ↔ k ∈ [2, 1, 2, 7, 1, 2]
    simp; omega
  · intro k hk
    simp only [List.mem_cons, List.not_mem_nil, or_false] at hk
    rcases hk with rfl | rfl | rfl
    · exact .add .create
    · exact .add (.add .create)
    · refine .merge (by simp) ?_
      intro s hs
      simp only [List.mem_cons, List.not_mem_nil, or_false] at hs
      rcases hs with rfl | rfl
      · exact .add (.add .create)
      · exact .add .create
  · intro k hk
    simp only [List.mem_cons, List.not_mem_nil, or_false] at hk
    rcases hk with rfl | rfl | rfl <;> decide +kernel
  · intro k
    show k ∈ [1, 2, 7] ↔ k ∈ [7, 1, 2]
    simp; omega
  · intro k hk; exact .add .create
  · intro k hk
    simp only [exMerge, List.mem_cons, List.not_mem_nil, or_false] at hk
    rcases hk with rfl | rfl | rfl <;> decide

/-- The hypotheses of C09 are met: `top_k=2`, `frequency_threshold=2`. The file is `2, 1`. -/
example : ∃ P : PruneParams Nat Nat,
    vocabularyParams (some 2) (some 2) none none none false = .ok P ∧
    (do let c ← mergedCounts exRuns exMerge
        vocabularyFile id (1, 999) P (none : Option (Nat → Nat)) id none c
          [prune id (1, 999) P c]) = .ok [(3, 2), (2, 1)] := by
  refine ⟨_, rfl, ?_⟩
  decide +kernel

/-- The hypotheses of C13 are met: `top_k=1`, coverage of the best token per parity. -/
example : ∃ P : PruneParams Nat Nat,
    vocabularyParams (some 1) none (some 1) none (some (fun t => t % 2)) false = .ok P ∧
    (do let c ← mergedCounts exRuns exMerge
        vocabularyFile id (1, 999) P (none : Option (Nat → Nat)) id none c
          [prune id (1, 999) P c]) = .ok [(3, 2), (2, 1)] := by
  refine ⟨_, rfl, ?_⟩
  decide +kernel

/-- C10 and C15 on the example: reserved tokens `5, 1`; fingerprints in decreasing order. -/
example : ∃ P : PruneParams Nat Nat,
    vocabularyParams none none none none none false = .ok P ∧
    (do let c ← mergedCounts exRuns exMerge
        vocabularyFile id (1, 999) P (none : Option (Nat → Nat)) id (some [5, 1]) c
          [prune id (1, 999) P c]) = .ok [(-1, 5), (-1, 1), (3, 2), (1, 7)] ∧
    (do let c ← mergedCounts exRuns exMerge
        vocabularyFile id (1, 999) P (some (fun t : Nat => OrderDual.toDual t)) id none c
          [prune id (1, 999) P c]) = .ok [(1, 7), (3, 2), (2, 1)] := by
  refine ⟨_, rfl, ?_, ?_⟩ <;> decide +kernel

/-- **C12** fails when a reserved token occurs in the data: four are reported, the file has three
lines. -/
theorem reported_size_ne_overlap : ∃ P : PruneParams Nat Nat,
    vocabularyParams none none none none none false = .ok P ∧
    ∃ counts, mergedCounts exRuns exMerge = .ok counts ∧
      vocabularyFile id (1, 999) P (none : Option (Nat → Nat)) id (some [1]) counts
        [prune id (1, 999) P counts] = .ok [(-1, 1), (3, 2), (1, 7)] ∧
      reportedSize id (1, 999) P (some [1]) counts = 4 := by
  refine ⟨_, rfl, _, rfl, ?_, ?_⟩ <;> decide +kernel

/-- **C12** fails when no token survives and there are reserved tokens: two are reported, the
file has one line. -/
theorem reported_size_ne_empty : ∃ P : PruneParams Nat Nat,
    vocabularyParams none (some 10) none none none false = .ok P ∧
    ∃ counts, mergedCounts exRuns exMerge = .ok counts ∧
      vocabularyFile id (1, 999) P (none : Option (Nat → Nat)) id (some [5]) counts [] =
        .ok [(-1, 5)] ∧
      prune id (1, 999) P counts = [] ∧
      reportedSize id (1, 999) P (some [5]) counts = 2 := by
  refine ⟨_, rfl, _, rfl, ?_, ?_, ?_⟩ <;> decide +kernel

/-- **C13** fails when `top_k` is given and no token reaches the standard threshold: the
placeholder is written beside the tokens of the coverage arm. -/
theorem coverage_placeholder : ∃ P : PruneParams Nat Nat,
    vocabularyParams (some 1) (some 10) (some 1) none (some (fun t => t % 2)) false = .ok P ∧
    ∃ counts, mergedCounts exRuns exMerge = .ok counts ∧
      vocabularyFile id (1, 999) P (none : Option (Nat → Nat)) id none counts
        [prune id (1, 999) P counts] = .ok [(3, 2), (2, 1), (1, 999)] := by
  refine ⟨_, rfl, _, rfl, ?_⟩
  decide +kernel

end TFT.Vocab
