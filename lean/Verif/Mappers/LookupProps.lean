import Verif.Mappers.Lookup
import Verif.Vocab.Props
import Verif.Combine.PerKeyLemmas

/-!
# C14: ids of a vocabulary lookup; C51: compute_and_apply_vocabulary from data to ids
-/

namespace TFT.Lookup

open TFT.Spec

/-! ## Files -/

theorem readLines_line (cur l rest : Str) (hn : '\n' ∉ l) (hr : '\r' ∉ l) :
    readLinesFrom cur (l ++ '\n' :: rest) = (cur ++ l) :: readLinesFrom [] rest := by
  induction l generalizing cur with
  | nil => simp [readLinesFrom]
  | cons c l ih =>
    simp only [List.mem_cons, not_or] at hn hr
    rw [List.cons_append, readLinesFrom, if_neg (fun h => hn.1 h.symm), if_neg (fun h => hr.1 h.symm),
      ih _ hn.2 hr.2]
    simp

theorem readLines_lines (lines : List Str) (h : ∀ l ∈ lines, '\n' ∉ l ∧ '\r' ∉ l) :
    readLinesFrom [] (lines.flatMap (fun l => l ++ ['\n'])) = lines := by
  induction lines with
  | nil => simp [readLinesFrom]
  | cons l lines ih =>
    rw [List.flatMap_cons, List.append_assoc, List.singleton_append,
      readLines_line _ _ _ (h l (by simp)).1 (h l (by simp)).2,
      ih (fun m hm => h m (by simp [hm])), List.nil_append]

theorem splitAll_none (sep : Char) (l : Str) (h : sep ∉ l) : splitAll sep l = [l] := by
  induction l with
  | nil => rfl
  | cons c l ih =>
    simp only [List.mem_cons, not_or] at h
    rw [splitAll, if_neg (fun h' => h.1 h'.symm), ih h.2]
    rfl

theorem splitAll_first (sep : Char) (l rest : Str) (h : sep ∉ l) :
    splitAll sep (l ++ sep :: rest) = l :: splitAll sep rest := by
  induction l with
  | nil => simp [splitAll]
  | cons c l ih =>
    simp only [List.mem_cons, not_or] at h
    rw [List.cons_append, splitAll, if_neg (fun h' => h.1 h'.symm), ih h.2]
    rfl

theorem afterFirstSpace_eq (l rest : Str) (h : ' ' ∉ l) :
    afterFirstSpace (l ++ ' ' :: rest) = .ok rest := by
  induction l with
  | nil => simp [afterFirstSpace]
  | cons c l ih =>
    simp only [List.mem_cons, not_or] at h
    rw [List.cons_append, afterFirstSpace, if_neg (fun h' => h.1 h'.symm), ih h.2]

/-- Tokens that a file format can hold. -/
def Storable (format : Format) (storeFrequency : Bool) (t : Str) : Prop :=
  format = .text → '\n' ∉ t ∧ '\r' ∉ t ∧ (storeFrequency = true → ' ' ∉ t)

/-- Numbers are written without spaces and newlines. -/
def PlainNumbers (showCount : ℚ → Str) : Prop :=
  ∀ q, '\n' ∉ showCount q ∧ '\r' ∉ showCount q ∧ ' ' ∉ showCount q

/-- The table has the tokens of the file as keys, in the order of the file. -/
theorem tableKeys_eq (showCount : ℚ → Str) (hs : PlainNumbers showCount) (format : Format)
    (storeFrequency : Bool) (entries : List (ℚ × Str))
    (h : ∀ e ∈ entries, Storable format storeFrequency e.2) :
    tableKeys storeFrequency (writeFile format (entries.map (formatEntry showCount storeFrequency)))
      = .ok (entries.map Prod.snd) := by
  cases format with
  | text =>
    have hl : ∀ l ∈ entries.map (formatEntry showCount storeFrequency), '\n' ∉ l ∧ '\r' ∉ l := by
      intro l hl
      obtain ⟨e, he, rfl⟩ := List.mem_map.1 hl
      obtain ⟨h1, h2, -⟩ := h e he rfl
      obtain ⟨h3, h4, -⟩ := hs e.1
      unfold formatEntry
      cases storeFrequency <;> simp [h1, h2, h3, h4]
    unfold writeFile tableKeys
    simp only [readLines_lines _ hl]
    cases storeFrequency with
    | false => simp [formatEntry]
    | true =>
      simp only [if_true, List.map_map]
      apply seqExcept_ok_map
      intro e he
      obtain ⟨-, -, h3⟩ := h e he rfl
      simp only [Function.comp_apply, formatEntry, if_true]
      rw [splitAll_first _ _ _ (hs e.1).2.2, splitAll_none _ _ (h3 rfl)]
      rfl
  | tfrecordGzip =>
    unfold writeFile tableKeys
    cases storeFrequency with
    | false => simp [formatEntry]
    | true =>
      simp only [if_true, List.map_map]
      apply seqExcept_ok_map
      intro e he
      simp only [Function.comp_apply, formatEntry, if_true]
      exact afterFirstSpace_eq _ _ (hs e.1).2.2

/-! ## The property -/

/-- What ids a vocabulary with these tokens should give. -/
structure Correct (tokens : List Str) (defaultValue numOovBuckets : Int) (x : Str) (r : Applied) :
    Prop where
  /-- the i-th token has id i -/
  known : ∀ i : Nat, tokens[i]? = some x → r.id = i
  /-- other tokens have the default value -/
  default : x ∉ tokens → numOovBuckets ≤ 0 → r.id = defaultValue
  /-- or an id after those of the vocabulary -/
  oov : x ∉ tokens → 0 < numOovBuckets →
    tokens.length ≤ r.id ∧ r.id < tokens.length + numOovBuckets
  /-- the id is in the published domain -/
  domain : r.minValue ≤ r.id ∧ r.id ≤ r.maxValue
  /-- the published number of buckets -/
  buckets : 0 < numOovBuckets → r.minValue = 0 ∧ r.maxValue + 1 = tokens.length + numOovBuckets

/-- **C14.** Looking a token up in a vocabulary file with the given entries: for all entries with
distinct tokens, tokens `x`, default values, numbers of OOV buckets and hash functions, for both
file formats, with and without frequencies. Tokens with newlines cannot be held by text files, nor
tokens with spaces by text files with frequencies. -/
theorem lookup_ids (showCount : ℚ → Str) (hs : PlainNumbers showCount) (hash : Str → Nat)
    (format : Format) (storeFrequency : Bool) (defaultValue numOovBuckets : Int)
    (entries : List (ℚ × Str)) (hnd : (entries.map Prod.snd).Nodup)
    (h : ∀ e ∈ entries, Storable format storeFrequency e.2) (x : Str) :
    ∃ r, applyVocabulary hash storeFrequency defaultValue numOovBuckets
        (writeFile format (entries.map (formatEntry showCount storeFrequency))) x = .ok r ∧
      Correct (entries.map Prod.snd) defaultValue numOovBuckets x r := by
  unfold applyVocabulary
  rw [tableKeys_eq showCount hs format storeFrequency entries h]
  simp only [bind, Except.bind, not_true_eq_false, hnd, if_false]
  generalize entries.map Prod.snd = tokens at hnd
  have hidx : ∀ i, tokens[i]? = some x → x ∈ tokens ∧ tokens.idxOf x = i := by
    intro i hi
    obtain ⟨hlt, hx⟩ := List.getElem?_eq_some_iff.1 hi
    refine ⟨hx ▸ List.getElem_mem hlt, ?_⟩
    rw [← hx]
    exact hnd.idxOf_getElem i hlt
  have hlt : x ∈ tokens → (tokens.idxOf x : Int) < tokens.length := by
    intro hx
    exact_mod_cast List.idxOf_lt_length_iff.2 hx
  by_cases ho : 0 < numOovBuckets
  · rw [if_pos ho]
    have hm1 := Int.emod_nonneg (hash x : Int) (by omega : numOovBuckets ≠ 0)
    have hm2 := Int.emod_lt_of_pos (hash x : Int) ho
    refine ⟨_, rfl, ?_, ?_, ?_, ?_, ?_⟩
    · intro i hi
      obtain ⟨hx, hi⟩ := hidx i hi
      simp [hx, hi]
    · intro _ h0; omega
    · intro hx _
      simp only [hx, if_false]
      omega
    · by_cases hx : x ∈ tokens
      · have := hlt hx
        simp only [hx, if_true]
        omega
      · simp only [hx, if_false]
        omega
    · intro _
      exact ⟨rfl, by simp only; ring⟩
  · rw [if_neg ho]
    refine ⟨_, rfl, ?_, ?_, ?_, ?_, ?_⟩
    · intro i hi
      obtain ⟨hx, hi⟩ := hidx i hi
      simp [hx, hi]
    · intro hx _; simp [hx]
    · intro _ h0; omega
    · by_cases hx : x ∈ tokens
      · have := hlt hx
        simp only [hx, if_true]
        exact ⟨le_trans (min_le_left _ _) (by omega), le_trans (by omega) (le_max_left _ _)⟩
      · simp only [hx, if_false]
        exact ⟨min_le_right _ _, le_max_right _ _⟩
    · intro h0; exact absurd h0 ho

/-- Not vacuous: a text file with frequencies. -/
example : ∃ r, applyVocabulary (fun x => x.length) true (-1) 2
    (writeFile .text ([(5, "b".toList), (3, "a".toList)].map
      (formatEntry (fun _ => "5".toList) true))) "a".toList = .ok r ∧ r = ⟨1, 0, 3⟩ ∧
    Storable .text true "a".toList ∧ PlainNumbers (fun _ => "5".toList) := by
  refine ⟨⟨1, 0, 3⟩, ?_, rfl, ?_, ?_⟩
  · decide +kernel
  · intro _; decide
  · intro q
    show '\n' ∉ "5".toList ∧ '\r' ∉ "5".toList ∧ ' ' ∉ "5".toList
    decide

/-- A reserved token with a space, written to a text file with frequencies (reserved tokens are
not formatted as the input is), is not found: "new york" gets the default value, and the id that
was reserved for it goes to the token "new". -/
theorem reserved_space_lost :
    let file := writeFile .text ([(-1, "new york".toList), (3, "a".toList)].map
      (formatEntry (fun q => if q = 3 then "3".toList else "-1".toList) true))
    applyVocabulary (fun _ => 0) true (-1) 0 file (prepare .text true "new york".toList)
      = .ok ⟨-1, -1, 1⟩ ∧
    applyVocabulary (fun _ => 0) true (-1) 0 file (prepare .text true "new".toList)
      = .ok ⟨0, -1, 1⟩ := by
  decide +kernel

/-! ## From data to ids -/

theorem formatInput_no_space (t : Str) : ' ' ∉ formatInput t := by
  unfold formatInput
  rw [List.mem_flatMap]
  rintro ⟨c, -, hc⟩
  split at hc
  · exact absurd hc (by decide)
  · rename_i h
    exact h (List.mem_singleton.1 hc).symm

/-- Formatting the input keeps tokens without underscores apart. -/
theorem formatInput_injective (t u : Str) (ht : '_' ∉ t) (hu : '_' ∉ u)
    (h : formatInput t = formatInput u) : t = u := by
  have hsp : ∃ r, "__SPACE__".toList = '_' :: r := ⟨_, rfl⟩
  unfold formatInput at h
  generalize hg : "__SPACE__".toList = g at h hsp
  obtain ⟨r, hsp⟩ := hsp
  clear hg
  induction t generalizing u with
  | nil =>
    cases u with
    | nil => rfl
    | cons d u =>
      rw [List.flatMap_nil, List.flatMap_cons, hsp] at h
      split at h <;> simp at h
  | cons c t ih =>
    simp only [List.mem_cons, not_or] at ht
    cases u with
    | nil =>
      rw [List.flatMap_nil, List.flatMap_cons, hsp] at h
      split at h <;> simp at h
    | cons d u =>
      simp only [List.mem_cons, not_or] at hu
      rw [List.flatMap_cons, List.flatMap_cons] at h
      by_cases hc : c = ' '
      · by_cases hd : d = ' '
        · rw [if_pos hc, if_pos hd] at h
          rw [hc, hd, ih u ht.2 hu.2 (List.append_cancel_left h)]
        · rw [if_pos hc, if_neg hd, hsp] at h
          simp only [List.cons_append, List.cons.injEq, List.nil_append] at h
          exact absurd h.1 hu.1
      · by_cases hd : d = ' '
        · rw [if_neg hc, if_pos hd, hsp] at h
          simp only [List.cons_append, List.cons.injEq, List.nil_append] at h
          exact absurd h.1.symm ht.1
        · rw [if_neg hc, if_neg hd] at h
          simp only [List.cons_append, List.cons.injEq, List.nil_append] at h
          rw [h.1, ih u ht.2 hu.2 h.2]

/-- With frequencies in a text file, `compute_and_apply_vocabulary` gives the distinct tokens
"a b" and "a__SPACE__b" the same id. -/
theorem format_collision :
    prepare .text true "a b".toList = prepare .text true "a__SPACE__b".toList := by decide

/-- How a token is stored and looked up: as it is, but in a text file with frequencies every space is
replaced by `__SPACE__`. -/
def storedAs (format : Format) (storeFrequency : Bool) (x : Str) : Str :=
  match format, storeFrequency with
  | .text, true => x.flatMap (fun c => if c = ' ' then "__SPACE__".toList else [c])
  | .text, false => x
  | .tfrecordGzip, _ => x

/-- The tokens that a vocabulary may have: in a text file, those that are not empty and have no line
break. -/
def Writable (format : Format) (x : Str) : Prop :=
  format = .text → x ≠ [] ∧ '\n' ∉ x ∧ '\r' ∉ x

instance (format : Format) (x : Str) : Decidable (Writable format x) :=
  inferInstanceAs (Decidable (_ → _))

theorem dropped_eq (format : Format) (x : Str) :
    (!dropped format x) = decide (Writable format x) := by
  cases format
  · rw [Bool.eq_iff_iff]
    simp [dropped, unwritable, Writable, and_assoc]
  · rfl

theorem prepare_eq (format : Format) (storeFrequency : Bool) :
    prepare format storeFrequency = storedAs format storeFrequency := by
  funext x
  cases format <;> cases storeFrequency <;> rfl

theorem selected_mem {B : Type} [LinearOrder B] (freq : B → ℚ) (thr : ℚ) (topK : Option Nat)
    (data : List (B × ℚ)) (group : B → B → Prop) [DecidableRel group] (t : B)
    (h : Selected freq thr topK data group t) : ∃ p ∈ data, p.1 = t := by
  have hmem := (Finset.mem_filter.1 h.1).1
  rwa [List.mem_toFinset, List.mem_map] at hmem

section

variable [LinearOrder Str]

/-- **C51.** `compute_and_apply_vocabulary` (without labels, coverage, reserved tokens and
shuffling), from the data to the ids. For all data, parameters that the API accepts, divisions
into datasets and batches and runs that Beam may make: there is one ranking of the selected tokens
such that every string gets its place in the ranking, or an out-of-vocabulary id. (Strings with
spaces are looked up as `storedAs` says.) -/
theorem compute_and_apply_vocabulary_ids (showCount : ℚ → Str) (hs : PlainNumbers showCount)
    (hash : Str → Nat) (format : Format) (storeFrequency : Bool)
    (defaultValue numOovBuckets : Int) (weighted : Bool)
    (topK : Option Int) (thr : Option ℚ) (P : Vocab.PruneParams Unit Str)
    (hP : Vocab.vocabularyParams topK thr none none none false = .ok P)
    (raw : List (List (Vocab.TokenBatch Str)))
    (r1s : List (KeyRun Str ℚ)) (r2 : KeyRun Str Nat)
    (h1 : List.Forall₂ ValidKeyRun r1s (Vocab.countInputs weighted (dropped format)
      (raw.map (·.map (·.map (fun p => (storedAs format storeFrequency p.1, p.2)))))))
    (h2 : ValidKeyMerge r2 (r1s.flatMap KeyRun.keys)) :
    let data := (raw.flatten.flatten.map
      (fun p => (storedAs format storeFrequency p.1, p.2))).filter (fun p => decide (Writable format p.1))
    let freq := frequency weighted data
    ∃ tokens, IsRanking freq
        (Selected freq (thr.getD 0) (topK.map Int.toNat) data (fun _ _ => True)) tokens ∧
      ∃ counts, Vocab.mergedCounts r1s r2 = .ok counts ∧
        ∀ batches, batches.flatten.Perm (Vocab.prune id dummyEntry P counts) → ∀ x,
          ∃ r, computeAndApply showCount hash format storeFrequency defaultValue numOovBuckets P
              counts batches x = .ok r ∧
            Correct (if tokens = [] then [dummyEntry.2] else tokens) defaultValue numOovBuckets
              (storedAs format storeFrequency x) r := by
  rw [← prepare_eq] at *
  rw [show (fun p : Str × ℚ => decide (Writable format p.1)) = (fun p => !dropped format p.1) from
    funext (fun p => (dropped_eq format p.1).symm)]
  intro data freq
  obtain ⟨tokens, hrank, counts, hc, hfile⟩ := Vocab.vocabulary_contents (H := Nat) (Key := Unit)
    id Function.injective_id dummyEntry (formatEntry showCount storeFrequency) weighted
    (dropped format) topK thr P hP _ r1s r2 h1 h2
  have hdata : Vocab.writtenData id (dropped format)
      (raw.map (·.map (·.map (fun p => (prepare format storeFrequency p.1, p.2))))) = data := by
    unfold Vocab.writtenData
    simp only [← List.map_flatten, id_eq, Prod.mk.eta, List.map_id', data]
  rw [hdata] at hrank hfile
  refine ⟨tokens, hrank, counts, hc, ?_⟩
  intro batches hb x
  unfold computeAndApply
  rw [hfile batches hb]
  simp only [bind, Except.bind]
  have hnd : tokens.Nodup := by
    refine hrank.sorted.imp ?_
    intro a b hab heq
    subst heq
    rcases hab with h | ⟨-, h⟩ <;> exact lt_irrefl _ h
  have hdummy : ∀ storeFrequency, Storable format storeFrequency dummyEntry.2 := by
    intro s _
    refine ⟨by decide, by decide, fun _ => by decide⟩
  have hst : ∀ t ∈ tokens, Storable format storeFrequency t := by
    intro t ht hf
    have hsel := (hrank.mem t).1 ht
    obtain ⟨p, hp, rfl⟩ := selected_mem _ _ _ _ _ _ hsel
    obtain ⟨hp1, hp2⟩ := List.mem_filter.1 hp
    obtain ⟨q, -, rfl⟩ := List.mem_map.1 hp1
    subst hf
    simp only [dropped, unwritable, decide_true, Bool.true_and, Bool.not_or, Bool.and_eq_true,
      Bool.not_eq_true', List.contains_eq_mem, decide_eq_false_iff_not] at hp2
    refine ⟨hp2.1.2, hp2.2, ?_⟩
    intro hsf
    subst hsf
    exact formatInput_no_space q.1
  by_cases ht : tokens = []
  · simp only [ht, if_true]
    exact lookup_ids showCount hs hash format storeFrequency defaultValue numOovBuckets
      [dummyEntry] (by simp) (by intro e he; rw [List.mem_singleton.1 he]; exact hdummy _) _
  · simp only [ht, if_false]
    have hsnd : (tokens.map (fun t => (freq t, t))).map Prod.snd = tokens := by
      simp [Function.comp_def]
    have := lookup_ids showCount hs hash format storeFrequency defaultValue numOovBuckets
      (tokens.map (fun t => (freq t, t))) (by rw [hsnd]; exact hnd)
      (by intro e he; obtain ⟨t, ht, rfl⟩ := List.mem_map.1 he; exact hst t ht)
      (prepare format storeFrequency x)
    rw [hsnd] at this
    exact this

/-- The hypotheses of C51 are met: a text file with frequencies, the tokens "b", "a b" and "b" in
one batch, and one that is dropped; "a b" is counted as "a__SPACE__b". -/
example :
    let b := "b".toList
    let a := "a__SPACE__b".toList
    let raw : List (List (Vocab.TokenBatch Str)) :=
      [[[(b, 1), ("a b".toList, 1), ("x\n".toList, 1), (b, 1)]]]
    let r1s : List (KeyRun Str ℚ) := [⟨[a, b], fun k =>
      if k = b then .merge [.add .create 1, .add .create 1] else .add .create 1⟩]
    let r2 : KeyRun Str Nat := ⟨[b, a], fun k => .add .create (if k = b then 1 else 0)⟩
    List.Forall₂ ValidKeyRun r1s (Vocab.countInputs false (dropped .text)
      (raw.map (·.map (·.map (fun p => (prepare .text true p.1, p.2)))))) ∧
    ValidKeyMerge r2 (r1s.flatMap KeyRun.keys) ∧
    ∃ P : Vocab.PruneParams Unit Str,
      Vocab.vocabularyParams (some 1) none none none none false = .ok P := by
  intro b a raw r1s r2
  have hci : Vocab.countInputs false (dropped .text)
      (raw.map (·.map (·.map (fun p => (prepare .text true p.1, p.2)))))
      = [[(b, 1), (a, 1), (b, 1)]] := by decide +kernel
  rw [hci]
  refine ⟨.cons ⟨by decide, ?_, ?_, ?_⟩ .nil, ⟨by decide, ?_, ?_, ?_⟩, _, rfl⟩
  · intro k
    show k ∈ [a, b] ↔ k ∈ [b, a, b]
    simp only [List.mem_cons, List.not_mem_nil, or_false]
    tauto
  · intro k hk
    simp only [List.mem_cons, List.not_mem_nil, or_false] at hk
    rcases hk with rfl | rfl
    · exact .add .create
    · refine .merge (by simp) ?_
      intro s hs
      simp only [List.mem_cons, List.not_mem_nil, or_false] at hs
      rcases hs with rfl | rfl <;> exact .add .create
  · intro k hk
    simp only [List.mem_cons, List.not_mem_nil, or_false] at hk
    rcases hk with rfl | rfl <;> decide +kernel
  · intro k
    show k ∈ [b, a] ↔ k ∈ [a, b]
    simp only [List.mem_cons, List.not_mem_nil, or_false]
    tauto
  · intro k hk; exact .add .create
  · intro k hk
    simp only [r2, List.mem_cons, List.not_mem_nil, or_false] at hk
    rcases hk with rfl | rfl <;> decide +kernel

end

section

variable [LinearOrder Str]

/-- **C11** If there is nothing to count, the file of a string vocabulary has the one line with the
documented placeholder, with the count 1 if counts are stored. -/
theorem empty_vocabulary_line (showCount : ℚ → Str) (storeFrequency : Bool)
    (P : Vocab.PruneParams Unit Str) (batches : List (List (ℚ × Str)))
    (hb : batches.flatten.Perm (Vocab.prune (T := Str) id dummyEntry P [])) :
    Vocab.vocabularyFile id dummyEntry P (none : Option (Str → Nat))
      (formatEntry showCount storeFrequency) none ([] : List (Vocab.Indicator × Str)) batches
    = .ok [if storeFrequency then showCount 1 ++ " 49d0cd50-04bb-48c0-bc6f-5b575dce351a".toList
      else "49d0cd50-04bb-48c0-bc6f-5b575dce351a".toList] := by
  have hfmt : [formatEntry showCount storeFrequency dummyEntry] = [if storeFrequency then
      showCount 1 ++ " 49d0cd50-04bb-48c0-bc6f-5b575dce351a".toList
      else "49d0cd50-04bb-48c0-bc6f-5b575dce351a".toList] := by
    cases storeFrequency <;> rfl
  have hcov : ∀ (a : ℚ) (b : Option Nat) (c : WithBot ℚ) (f : Str → Unit),
      Vocab.applyThresholdsAndTopK (id : Str → Str) dummyEntry a b c (some f) [] = [] := by
    intro a b c f
    cases b <;> simp [Vocab.applyThresholdsAndTopK, uniqFirst]
  have hmain : ∀ (a : ℚ) (b : Option Nat) (c : WithBot ℚ),
      Vocab.applyThresholdsAndTopK (id : Str → Str) dummyEntry a b c (none : Option (Str → Unit)) []
        = if b.isSome then [dummyEntry] else [] := by
    intro a b c
    cases b <;> simp [Vocab.applyThresholdsAndTopK, Vocab.topOf, Vocab.maybeAddDummy]
  have hprune : Vocab.prune (T := Str) id dummyEntry P []
      = if P.topK.isSome then [dummyEntry] else [] := by
    unfold Vocab.prune
    simp only [hcov, hmain]
    cases P.keyFn with
    | none => rfl
    | some f => cases P.topK <;> simp [uniqFirst]
  unfold Vocab.vocabularyFile Vocab.orderAndWrite
  rw [hprune] at hb ⊢
  by_cases hs : (Vocab.inputIsSorted P (none : Option (Str → Nat)).isSome
      && (none : Option (List Str)).isNone) = true
  · rw [if_pos hs, if_neg (by simp)]
    have : P.topK.isSome = true := by
      simp only [Vocab.inputIsSorted, Bool.and_eq_true] at hs
      exact hs.1.1.1
    rw [if_pos this, List.map_singleton, hfmt]
  · rw [if_neg hs, ← hfmt]
    have hperm : (batches.map (Vocab.sortEntries (none : Option (Str → Nat)))).flatten.Perm
        batches.flatten := by
      clear hb hs
      induction batches with
      | nil => simp
      | cons b bs ih =>
        simp only [List.map_cons, List.flatten_cons]
        exact (List.perm_insertionSort _ _).append ih
    have hp := hperm.trans hb
    unfold Vocab.orderElements
    simp only
    by_cases ht : P.topK.isSome = true
    · rw [if_pos ht] at hp
      rw [List.perm_singleton.1 hp]
      rfl
    · rw [if_neg ht] at hp
      rw [List.perm_nil.1 hp]
      rfl

end

end TFT.Lookup
