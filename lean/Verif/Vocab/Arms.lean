import Verif.Vocab.Lemmas

/-!
Bridges between the vocabulary model and the specification.
-/

namespace TFT.Vocab

open TFT.Spec

set_option linter.unusedSectionVars false

variable {T B H Key Line : Type} [DecidableEq T] [LinearOrder B] [LinearOrder H] [DecidableEq Key]

/-- All tokens of the analysis that can be written, as they are written, with their weights. -/
def writtenData (enc : T → B) (drop : T → Bool) (datasets : List (List (TokenBatch T))) :
    List (B × ℚ) :=
  (datasets.flatten.flatten.filter (fun p => !drop p.1)).map (fun p => (enc p.1, p.2))

theorem merged_counts (enc : T → B) (henc : Function.Injective enc) (weighted : Bool)
    (drop : T → Bool) (datasets : List (List (TokenBatch T)))
    (r1s : List (KeyRun T ℚ)) (r2 : KeyRun T Nat)
    (h1 : List.Forall₂ ValidKeyRun r1s (countInputs weighted drop datasets))
    (h2 : ValidKeyMerge r2 (r1s.flatMap KeyRun.keys)) :
    ∃ counts, ∃ toks : List B, mergedCounts r1s r2 = .ok counts ∧ toks.Nodup ∧
      (∀ t, t ∈ toks ↔ t ∈ (writtenData enc drop datasets).map Prod.fst) ∧
      counts.map (fun p => (p.1, enc p.2)) = toks.map (fun b =>
        (Indicator.count (frequency weighted (writtenData enc drop datasets) b), b)) := by
  obtain ⟨hnd, hmem, hrun⟩ := count_stage weighted drop datasets r1s r2 h1 h2
  refine ⟨_, r2.keys.map enc, by unfold mergedCounts; rw [hrun]; rfl, hnd.map henc, ?_, ?_⟩
  · intro t
    simp only [writtenData, List.map_map, List.mem_map, hmem]
    constructor
    · rintro ⟨a, ⟨p, hp, rfl⟩, rfl⟩; exact ⟨p, hp, rfl⟩
    · rintro ⟨p, hp, rfl⟩; exact ⟨p.1, ⟨p, hp, rfl⟩, rfl⟩
  · simp only [List.map_map]
    apply List.map_congr_left
    intro t _
    simp only [Function.comp_apply, Prod.mk.injEq, Indicator.count.injEq, and_true]
    unfold tokenWeights frequency writtenData
    rw [List.filter_map, List.map_map]
    have : ∀ p : T × ℚ, ((fun p : B × ℚ => decide (p.1 = enc t)) ∘
        fun p : T × ℚ => (enc p.1, p.2)) p = decide (p.1 = t) := by
      intro p
      simp only [Function.comp_apply, decide_eq_decide]
      exact henc.eq_iff
    rw [List.filter_congr (fun p _ => this p)]
    rfl

section selection

variable (score : B → ℚ) (l : List B)

/-- What a selection of the `k` best gives. -/
def bestOf (topK : Option Nat) : List B :=
  match topK with
  | none => l
  | some k => (ranked score l).take k

/-- What a selection of the `k` best per key gives. -/
def bestPerKey (f : B → Key) (topK : Option Nat) : List B :=
  match topK with
  | none => l
  | some k => (uniqFirst (l.map f)).flatMap
      (fun key => (ranked score (l.filter (fun b => decide (f b = key)))).take k)

theorem mem_bestOf (hl : l.Nodup) (topK : Option Nat) (t : B) :
    t ∈ bestOf score l topK ↔ t ∈ l ∧ ∀ k, topK = some k →
      (l.toFinset.filter (fun u => Outranks score u t)).card < k := by
  cases topK with
  | none => simp [bestOf]
  | some k =>
    have e : (ranked score l).toFinset = l.toFinset :=
      List.toFinset_eq_of_perm _ _ (ranked_perm score l)
    unfold bestOf
    simp only
    rw [mem_take_iff _ (ranked_sorted score l hl), (ranked_perm score l).mem_iff, e]
    simp

theorem nodup_bestOf (hl : l.Nodup) (topK : Option Nat) : (bestOf score l topK).Nodup := by
  cases topK with
  | none => exact hl
  | some k => exact ((ranked_perm score l).nodup_iff.2 hl).sublist (List.take_sublist _ _)

theorem mem_bestPerKey (hl : l.Nodup) (f : B → Key) (topK : Option Nat) (t : B) :
    t ∈ bestPerKey score l f topK ↔ t ∈ l ∧ ∀ k, topK = some k →
      (l.toFinset.filter (fun u => f u = f t ∧ Outranks score u t)).card < k := by
  cases topK with
  | none => simp [bestPerKey]
  | some k =>
    unfold bestPerKey
    simp only [List.mem_flatMap, Option.some.injEq, forall_eq']
    have hk : ∀ key, t ∈ (ranked score (l.filter (fun b => decide (f b = key)))).take k ↔
        (t ∈ l ∧ f t = key) ∧
          ((l.filter (fun b => decide (f b = key))).toFinset.filter
            (fun u => Outranks score u t)).card < k := by
      intro key
      rw [mem_take_iff _ (ranked_sorted score _ (hl.filter _)), (ranked_perm score _).mem_iff,
        List.toFinset_eq_of_perm _ _ (ranked_perm score _), List.mem_filter, decide_eq_true_eq]
    have he : (l.filter (fun b => decide (f b = f t))).toFinset.filter
        (fun u => Outranks score u t)
        = l.toFinset.filter (fun u => f u = f t ∧ Outranks score u t) := by
      ext u; simp [and_assoc]
    constructor
    · rintro ⟨key, _, h⟩
      obtain ⟨⟨h1, rfl⟩, h2⟩ := (hk key).1 h
      rw [he] at h2
      exact ⟨h1, h2⟩
    · rintro ⟨h1, h2⟩
      refine ⟨f t, (mem_uniqFirst _ _).2 (List.mem_map.2 ⟨t, h1, rfl⟩), (hk _).2 ⟨⟨h1, rfl⟩, ?_⟩⟩
      rw [he]; exact h2

end selection

/-- The entry of a token. -/
def entry (ind : B → Indicator) (b : B) : ℚ × B := (flattenMetric (ind b), b)

/-- The score of a token. -/
def scoreOf (ind : B → Indicator) (b : B) : ℚ := flattenMetric (ind b)

section arms

variable (enc : T → B) (dummy : ℚ × B) (freqThr : ℚ) (infoThr : WithBot ℚ)
  (counts : List (Indicator × T)) (toks : List B) (ind : B → Indicator)
  (hc : counts.map (fun p => (p.1, enc p.2)) = toks.map (fun b => (ind b, b)))
include hc

theorem standard_arm (topK : Option Nat) :
    applyThresholdsAndTopK enc dummy freqThr topK infoThr (none : Option (B → Key)) counts
      = (let best := bestOf (scoreOf ind) (toks.filter (fun b => passB freqThr infoThr (ind b))) topK
         if topK.isSome && best.isEmpty then [dummy] else best.map (entry ind)) := by
  unfold applyThresholdsAndTopK
  simp only [flat_eq enc freqThr infoThr counts toks ind hc]
  cases topK with
  | none => simp [bestOf, entry]
  | some k =>
    simp only [maybeAddDummy]
    have := topOf_entries (scoreOf ind) k (toks.filter (fun b => passB freqThr infoThr (ind b)))
    unfold scoreOf at this
    rw [this]
    simp only [bestOf, List.map_eq_nil_iff, Option.isSome_some, Bool.true_and, List.isEmpty_iff]
    rfl

theorem coverage_arm (topK : Option Nat) (f : B → Key) :
    applyThresholdsAndTopK enc dummy freqThr topK infoThr (some f) counts
      = (bestPerKey (scoreOf ind) (toks.filter (fun b => passB freqThr infoThr (ind b))) f topK).map
          (entry ind) := by
  unfold applyThresholdsAndTopK
  simp only [flat_eq enc freqThr infoThr counts toks ind hc]
  generalize toks.filter (fun b => passB freqThr infoThr (ind b)) = l
  cases topK with
  | none => rfl
  | some k =>
    simp only [bestPerKey, List.map_map, List.map_flatMap]
    congr 1
    funext key
    rw [List.filter_map]
    exact topOf_entries (scoreOf ind) k _

end arms

theorem sort_none (l : List (ℚ × B)) :
    sortEntries (none : Option (B → H)) l = l.insertionSort precedes := rfl

theorem sortEntries_perm (fp : Option (B → H)) (l : List (ℚ × B)) :
    (sortEntries fp l).Perm l := by
  cases fp with
  | none => exact List.perm_insertionSort _ _
  | some h => exact List.perm_insertionSort _ _

theorem presorted_perm (fp : Option (B → H)) (batches : List (List (ℚ × B))) :
    (batches.map (sortEntries fp)).flatten.Perm batches.flatten := by
  induction batches with
  | nil => exact .refl _
  | cons b bs ih =>
    rw [List.map_cons, List.flatten_cons, List.flatten_cons]
    exact (sortEntries_perm fp b).append ih

/-- The sorting path without reserved tokens. -/
theorem sort_path_none (dummy : ℚ × B) (ind : B → Indicator) (l : List B)
    (batches : List (List (ℚ × B))) (hb : batches.flatten.Perm (l.map (entry ind))) :
    orderElements (none : Option (B → H)) dummy none
        (batches.map (sortEntries (none : Option (B → H))))
      = maybeAddDummy dummy ((ranked (scoreOf ind) l).map (entry ind)) := by
  unfold orderElements
  simp only [sort_none]
  rw [sorted_eq_of_perm ((presorted_perm (none : Option (B → H)) batches).trans hb)]
  show maybeAddDummy dummy ((l.map (fun b => (scoreOf ind b, b))).insertionSort precedes) = _
  rw [sort_entries]
  rfl

theorem getTopKAndThreshold_ok {topK : Option Int} {thr : Option ℚ} {r : Option Nat × Option ℚ}
    (h : getTopKAndThreshold topK thr = .ok r) :
    r = (topK.map Int.toNat, thr) ∧ (∀ k, topK = some k → 0 < k) ∧ (∀ t, thr = some t → 0 ≤ t) := by
  unfold getTopKAndThreshold at h
  cases topK with
  | none =>
    cases thr with
    | none => simp at h; simp [← h]
    | some t =>
      simp only at h
      split at h
      · cases h
      · simp only [Except.ok.injEq] at h
        simp [← h]; rename_i h2; exact not_lt.1 h2
  | some k =>
    simp only at h
    split at h
    · cases h
    · rename_i hk
      cases thr with
      | none => simp at h; simp [← h]; omega
      | some t =>
        simp only at h
        split at h
        · cases h
        · simp only [Except.ok.injEq] at h
          simp [← h]; rename_i h2; exact ⟨by omega, not_lt.1 h2⟩

theorem vocabularyParams_ok {topK : Option Int} {thr : Option ℚ} {ctopK : Option Int}
    {cthr : Option ℚ} {f : Option (B → Key)} {P : PruneParams Key B}
    (hP : vocabularyParams topK thr ctopK cthr f false = .ok P) :
    P = { topK := topK.map Int.toNat, frequencyThreshold := thr.getD 0,
          informativenessThreshold := ⊥, coverageTopK := ctopK.map Int.toNat,
          coverageFrequencyThreshold := cthr.getD 0, coverageInformativenessThreshold := ⊥,
          keyFn := f } ∧
    0 ≤ thr.getD 0 ∧ 0 ≤ cthr.getD 0 ∧ (∀ k, topK = some k → 0 < k) ∧
    (∀ k, ctopK = some k → 0 < k) := by
  have nn : ∀ t : Option ℚ, (∀ x, t = some x → 0 ≤ x) → 0 ≤ t.getD 0 := by
    intro t h; cases t with
    | none => exact le_refl _
    | some x => exact h x rfl
  unfold vocabularyParams at hP
  obtain ⟨r, hr, hP⟩ := bind_ok_iff.1 hP
  obtain ⟨rfl, h1, h2⟩ := getTopKAndThreshold_ok hr
  simp only at hP
  split at hP
  · cases hP
  · split at hP
    · cases hP
    · obtain ⟨r', hr', hP⟩ := bind_ok_iff.1 hP
      obtain ⟨rfl, h3, h4⟩ := getTopKAndThreshold_ok hr'
      simp only [Bool.false_eq_true, if_false, Except.ok.injEq] at hP
      exact ⟨hP.symm, nn _ h2, nn _ h4, h1, h3⟩

/-- The threshold test on plain counts. -/
theorem passB_count {thr : ℚ} (h : 0 ≤ thr) (c : ℚ) :
    passB thr ⊥ (.count c) = decide (thr = 0 ∨ thr ≤ c) := by
  unfold passB passesThresholds
  by_cases h0 : thr = 0
  · simp [h0]
  · have : 0 < thr := lt_of_le_of_ne h (Ne.symm h0)
    simp [this, h0]

theorem eligible_eq (freq : B → ℚ) {thr : ℚ} (h : 0 ≤ thr) (data : List (B × ℚ)) (toks : List B)
    (hmem : ∀ t, t ∈ toks ↔ t ∈ data.map Prod.fst) :
    (toks.filter (fun b => passB thr ⊥ (.count (freq b)))).toFinset = eligible freq thr data := by
  ext t
  simp only [List.mem_toFinset, List.mem_filter, passB_count h, eligible, Finset.mem_filter,
    hmem, decide_eq_true_eq]

theorem mem_filter_eligible (freq : B → ℚ) {thr : ℚ} (h : 0 ≤ thr) (data : List (B × ℚ))
    (toks : List B) (hmem : ∀ t, t ∈ toks ↔ t ∈ data.map Prod.fst) (t : B) :
    t ∈ toks.filter (fun b => passB thr ⊥ (.count (freq b))) ↔ t ∈ eligible freq thr data := by
  rw [← eligible_eq freq h data toks hmem, List.mem_toFinset]

theorem ranked_isRanking (score : B → ℚ) (l : List B) (h : l.Nodup) (sel : B → Prop)
    (hs : ∀ t, t ∈ l ↔ sel t) : IsRanking score sel (ranked score l) :=
  ⟨fun t => ((ranked_perm score l).mem_iff).trans (hs t), ranked_sorted score l h⟩

theorem ranked_of_sorted (score : B → ℚ) (l : List B) (h : l.Pairwise (Outranks score)) :
    ranked score l = l := by
  unfold ranked
  apply List.Pairwise.insertionSort_eq
  refine h.imp (fun {a b} h => ?_)
  unfold precedes
  rcases h with h | ⟨h, h'⟩
  · exact .inl h
  · exact .inr ⟨h, h'.le⟩

/-! ## The entries of the file in general -/

/-- When sorting gives a result that does not depend on the order of its input. -/
def SortsUniquely (fp : Option (B → H)) (l : List (ℚ × B)) : Prop :=
  ∀ h, fp = some h → Function.Injective h ∧ (l.map Prod.snd).Nodup

theorem SortsUniquely.perm {fp : Option (B → H)} {l l' : List (ℚ × B)} (h : SortsUniquely fp l)
    (hp : l.Perm l') : SortsUniquely fp l' :=
  fun f hf => ⟨(h f hf).1, (hp.map Prod.snd).nodup_iff.1 (h f hf).2⟩

instance (h : B → H) : Std.Total (fun a b : ℚ × B => h a.2 ≤ h b.2) :=
  ⟨fun a b => le_total (h a.2) (h b.2)⟩

instance (h : B → H) : IsTrans (ℚ × B) (fun a b => h a.2 ≤ h b.2) :=
  ⟨fun _ _ _ h1 h2 => le_trans h1 h2⟩

theorem sorted_unique (h : B → H) (hinj : Function.Injective h) {l l' : List (ℚ × B)}
    (hnd : (l.map Prod.snd).Nodup) (hp : l.Perm l')
    (h1 : l.Pairwise (fun a b => h a.2 ≤ h b.2)) (h2 : l'.Pairwise (fun a b => h a.2 ≤ h b.2)) :
    l = l' := by
  refine List.Perm.eq_of_pairwise (le := fun a b : ℚ × B => h a.2 ≤ h b.2) ?_ h1 h2 hp
  intro a b ha hb h3 h4
  have : a.2 = b.2 := hinj (le_antisymm h3 h4)
  exact List.inj_on_of_nodup_map hnd ha (hp.mem_iff.2 hb) this

theorem sortEntries_eq_of_perm {fp : Option (B → H)} {l l' : List (ℚ × B)}
    (h : SortsUniquely fp l) (hp : l.Perm l') : sortEntries fp l = sortEntries fp l' := by
  cases fp with
  | none => exact sorted_eq_of_perm hp
  | some f =>
    obtain ⟨hinj, hnd⟩ := h f rfl
    have e1 := sortEntries_perm (some f) l
    refine sorted_unique f hinj ((e1.map Prod.snd).nodup_iff.2 hnd)
      (e1.trans (hp.trans (sortEntries_perm (some f) l').symm)) ?_ ?_
    · exact List.pairwise_insertionSort (fun a b : ℚ × B => f a.2 ≤ f b.2) l
    · exact List.pairwise_insertionSort (fun a b : ℚ × B => f a.2 ≤ f b.2) l'

theorem filter_sortEntries {fp : Option (B → H)} {l : List (ℚ × B)}
    (h : SortsUniquely fp l) (p : ℚ × B → Bool) :
    sortEntries fp (l.filter p) = (sortEntries fp l).filter p := by
  have hp : (sortEntries fp (l.filter p)).Perm ((sortEntries fp l).filter p) :=
    (sortEntries_perm fp _).trans ((sortEntries_perm fp l).filter p).symm
  cases fp with
  | none =>
    refine List.Perm.eq_of_pairwise (le := precedes)
      (fun a b _ _ h1 h2 => Std.Antisymm.antisymm a b h1 h2) ?_ ?_ hp
    · exact List.pairwise_insertionSort _ _
    · exact (List.pairwise_insertionSort precedes l).sublist List.filter_sublist
  | some f =>
    obtain ⟨hinj, hnd⟩ := h f rfl
    refine sorted_unique f hinj ?_ hp ?_ ?_
    · refine ((sortEntries_perm (some f) (l.filter p)).map Prod.snd).nodup_iff.2 ?_
      exact hnd.sublist (List.filter_sublist.map _)
    · exact List.pairwise_insertionSort (fun a b : ℚ × B => f a.2 ≤ f b.2) _
    · exact (List.pairwise_insertionSort (fun a b : ℚ × B => f a.2 ≤ f b.2) l).sublist
        List.filter_sublist

theorem maybeAddDummy_ne_nil (dummy : ℚ × B) (l : List (ℚ × B)) : maybeAddDummy dummy l ≠ [] := by
  unfold maybeAddDummy
  split
  · simp
  · assumption

/-- Sorted input is sorted, and not empty. -/
theorem prune_of_inputIsSorted (enc : T → B) (dummy : ℚ × B) (P : PruneParams Key B)
    (counts : List (Indicator × T)) {b : Bool} (hsorted : inputIsSorted P b = true) :
    (prune enc dummy P counts).Pairwise precedes ∧ prune enc dummy P counts ≠ [] := by
  unfold inputIsSorted at hsorted
  simp only [Bool.and_eq_true, Option.isSome_iff_exists,
    Option.isNone_iff_eq_none] at hsorted
  obtain ⟨⟨⟨k, hk⟩, hf⟩, -⟩ := hsorted
  have hp : ∃ l, prune enc dummy P counts = maybeAddDummy dummy (topOf k l) := by
    unfold prune applyThresholdsAndTopK
    simp only [hk, hf]
    exact ⟨_, rfl⟩
  obtain ⟨l, hl⟩ := hp
  rw [hl]
  refine ⟨?_, maybeAddDummy_ne_nil _ _⟩
  unfold maybeAddDummy
  split
  · simp
  · exact (List.pairwise_insertionSort _ _).sublist (List.take_sublist _ _)

/-- The file, whatever path is taken: reserved tokens, then the other pruned entries, sorted. -/
theorem file_entries (enc : T → B) (dummy : ℚ × B) (P : PruneParams Key B)
    (fp : Option (B → H)) (fmt : ℚ × B → Line) (reserved : Option (List B))
    (counts : List (Indicator × T)) (batches : List (List (ℚ × B)))
    (hu : SortsUniquely fp (prune enc dummy P counts))
    (hb : batches.flatten.Perm (prune enc dummy P counts)) :
    vocabularyFile enc dummy P fp fmt reserved counts batches
      = .ok ((maybeAddDummy dummy ((reserved.getD []).map (fun t => (-1, t)) ++
          sortEntries fp ((prune enc dummy P counts).filter
            (fun p => !decide (p.2 ∈ reserved.getD []))))).map fmt) := by
  have hpre := (presorted_perm fp batches).trans hb
  unfold vocabularyFile orderAndWrite
  split
  · rename_i h
    simp only [Bool.and_eq_true, Option.isNone_iff_eq_none] at h
    obtain ⟨h1, rfl⟩ := h
    have hfp : fp = none := by
      unfold inputIsSorted at h1
      cases fp with
      | none => rfl
      | some f => simp at h1
    subst hfp
    obtain ⟨hs, hne⟩ := prune_of_inputIsSorted enc dummy P counts h1
    rw [if_neg (by simp)]
    have : (prune enc dummy P counts).filter
        (fun p => !decide (p.2 ∈ (none : Option (List B)).getD [])) = prune enc dummy P counts := by
      simp
    rw [this, sort_none, sort_of_sorted hs]
    simp only [Option.getD_none, List.map_nil, List.nil_append]
    unfold maybeAddDummy
    rw [if_neg hne]
  · congr 2
    unfold orderElements
    cases reserved with
    | none =>
      simp only [Option.getD_none, List.map_nil, List.nil_append, List.not_mem_nil, decide_false,
        Bool.not_false, List.filter_true]
      rw [sortEntries_eq_of_perm (hu.perm hpre.symm) hpre]
    | some r =>
      simp only [Option.getD_some]
      congr 2
      have e : (batches.map (sortEntries fp)).flatMap
          (fun b => b.filter (fun p => !decide (p.2 ∈ r)))
          = (batches.map (sortEntries fp)).flatten.filter (fun p => !decide (p.2 ∈ r)) := by
        rw [List.flatMap_def, List.filter_flatten]
      rw [e]
      have hp2 := hpre.filter (fun p => !decide (p.2 ∈ r))
      refine sortEntries_eq_of_perm ?_ hp2
      intro h hh
      obtain ⟨hi, hn⟩ := hu h hh
      refine ⟨hi, (hp2.map Prod.snd).nodup_iff.2 (hn.sublist (List.filter_sublist.map _))⟩

theorem nodup_map_of_perm_repr (enc : T → B) (counts : List (Indicator × T))
    (hnd : (counts.map (fun p => enc p.2)).Nodup) :
    ∃ ind : B → Indicator, counts.map (fun p => (p.1, enc p.2))
      = (counts.map (fun p => enc p.2)).map (fun b => (ind b, b)) := by
  refine ⟨fun b => ((counts.find? (fun p => decide (enc p.2 = b))).map Prod.fst).getD (.count 0), ?_⟩
  rw [List.map_map]
  apply List.map_congr_left
  intro p hp
  have hf : counts.find? (fun q => decide (enc q.2 = enc p.2)) = some p := by
    cases h : counts.find? (fun q => decide (enc q.2 = enc p.2)) with
    | none =>
      have := List.find?_eq_none.1 h p hp
      simp at this
    | some q =>
      have hq := List.mem_of_find?_eq_some h
      have he := List.find?_some h
      simp only [decide_eq_true_eq] at he
      rw [List.inj_on_of_nodup_map hnd hq hp he]
  simp [hf]

/-- Every token has at most one entry after pruning, if it had at most one before. -/
theorem prune_tokens_nodup (enc : T → B) (dummy : ℚ × B) (P : PruneParams Key B)
    (counts : List (Indicator × T)) (hnd : (counts.map (fun p => enc p.2)).Nodup)
    (hd : P.keyFn = none ∨ ∀ p ∈ counts, enc p.2 ≠ dummy.2) :
    ((prune enc dummy P counts).map Prod.snd).Nodup := by
  obtain ⟨ind, hc⟩ := nodup_map_of_perm_repr enc counts hnd
  set toks := counts.map (fun p => enc p.2) with htoks
  have hent : ∀ l : List B, (l.map (entry ind)).map Prod.snd = l := by
    intro l; rw [List.map_map]; exact List.map_id _
  unfold prune
  rw [standard_arm (Key := Key) enc dummy P.frequencyThreshold P.informativenessThreshold counts
    toks ind hc]
  set l := toks.filter (fun b => passB P.frequencyThreshold P.informativenessThreshold (ind b))
  have hbnd := nodup_bestOf (scoreOf ind) l (hnd.filter _) P.topK
  have hstd : ((if P.topK.isSome && (bestOf (scoreOf ind) l P.topK).isEmpty then [dummy]
      else (bestOf (scoreOf ind) l P.topK).map (entry ind)).map Prod.snd).Nodup := by
    split
    · simp
    · rw [hent]; exact hbnd
  cases hf : P.keyFn with
  | none => exact hstd
  | some f =>
    have hdt : dummy.2 ∉ toks := by
      intro h
      obtain ⟨p, hp, he⟩ := List.mem_map.1 h
      rcases hd with hd | hd
      · rw [hf] at hd; cases hd
      · exact hd p hp he
    simp only
    rw [coverage_arm enc dummy _ _ counts toks ind hc]
    refine List.Nodup.map_on ?_ (nodup_uniqFirst _)
    intro a ha b hb hab
    rw [mem_uniqFirst, List.mem_append] at ha hb
    have hcov : ∀ e : ℚ × B, e ∈ (bestPerKey (scoreOf ind) (toks.filter (fun b =>
        passB P.coverageFrequencyThreshold P.coverageInformativenessThreshold (ind b))) f
        P.coverageTopK).map (entry ind) → e = entry ind e.2 ∧ e.2 ∈ toks := by
      intro e he
      obtain ⟨t, ht, rfl⟩ := List.mem_map.1 he
      exact ⟨rfl, (List.mem_filter.1 ((mem_bestPerKey _ _ (hnd.filter _) f _ t).1 ht).1).1⟩
    have hstd' : ∀ e : ℚ × B, e ∈ (if P.topK.isSome && (bestOf (scoreOf ind) l P.topK).isEmpty
        then [dummy] else (bestOf (scoreOf ind) l P.topK).map (entry ind)) →
        e = dummy ∨ (e = entry ind e.2 ∧ e.2 ∈ toks) := by
      intro e he
      split at he
      · left; simpa using he
      · right
        obtain ⟨t, ht, rfl⟩ := List.mem_map.1 he
        exact ⟨rfl, (List.mem_filter.1 ((mem_bestOf _ _ (hnd.filter _) _ t).1 ht).1).1⟩
    have hcase : ∀ e : ℚ × B, (e ∈ (if P.topK.isSome && (bestOf (scoreOf ind) l P.topK).isEmpty
        then [dummy] else (bestOf (scoreOf ind) l P.topK).map (entry ind)) ∨
        e ∈ (bestPerKey (scoreOf ind) (toks.filter (fun b =>
        passB P.coverageFrequencyThreshold P.coverageInformativenessThreshold (ind b))) f
        P.coverageTopK).map (entry ind)) → e = dummy ∨ (e = entry ind e.2 ∧ e.2 ∈ toks) := by
      rintro e (he | he)
      · exact hstd' e he
      · exact .inr (hcov e he)
    rcases hcase a ha with rfl | ⟨ha1, ha2⟩ <;> rcases hcase b hb with rfl | ⟨hb1, hb2⟩
    · rfl
    · exact absurd (hab ▸ hb2) hdt
    · exact absurd (hab ▸ ha2) hdt
    · rw [ha1, hb1, hab]

end TFT.Vocab
