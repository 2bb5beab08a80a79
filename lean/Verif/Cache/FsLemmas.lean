import Verif.Cache.Fs
import Verif.Combine.PerKeyLemmas
import Mathlib.Tactic.Ring
import Mathlib.Tactic.IntervalCases

/-! Lemmas about the model of the cache directory. -/

namespace TFT.CacheFs

/-! ### Numbers in file names -/

def valRev : List Char → Nat
  | [] => 0
  | c :: cs => (c.toNat - 48) + 10 * valRev cs

theorem digit_toNat (r : Nat) (h : r < 10) : (Char.ofNat (48 + r)).toNat - 48 = r := by
  interval_cases r <;> rfl

theorem digit_ne (r : Nat) (h : r < 10) : Char.ofNat (48 + r) ≠ '-' := by
  interval_cases r <;> decide

theorem valRev_decRev (f n : Nat) (h : n < f) : valRev (decRev f n) = n := by
  induction f generalizing n with
  | zero => omega
  | succ f ih =>
    simp only [decRev, valRev]
    rw [digit_toNat _ (Nat.mod_lt _ (by decide))]
    split
    · simp only [valRev]; omega
    · rw [ih _ (by omega)]; omega

theorem valRev_append_zeros (l : List Char) (k : Nat) :
    valRev (l ++ List.replicate k '0') = valRev l := by
  induction l with
  | nil =>
    induction k with
    | zero => rfl
    | succ k ih =>
      simp only [List.nil_append] at ih
      simp only [List.replicate_succ, List.nil_append, valRev, ih]
      rfl
  | cons c l ih => simp only [List.cons_append, valRev, ih]

theorem decRev_ne (f n : Nat) : ∀ c ∈ decRev f n, c ≠ '-' := by
  induction f generalizing n with
  | zero => simp [decRev]
  | succ f ih =>
    intro c hc
    simp only [decRev, List.mem_cons] at hc
    rcases hc with rfl | hc
    · exact digit_ne _ (Nat.mod_lt _ (by decide))
    · split at hc
      · simp at hc
      · exact ih _ c hc

theorem dec_ne (n : Nat) : ∀ c ∈ dec n, c ≠ '-' := by
  intro c hc
  exact decRev_ne _ _ c (by simpa [dec] using hc)

theorem dec5_ne (n : Nat) : ∀ c ∈ dec5 n, c ≠ '-' := by
  intro c hc
  simp only [dec5, List.mem_append, List.mem_replicate] at hc
  rcases hc with ⟨_, rfl⟩ | hc
  · decide
  · exact dec_ne n c hc

theorem valRev_dec (n : Nat) : valRev (dec n).reverse = n := by
  simp [dec, valRev_decRev]

theorem valRev_dec5 (n : Nat) : valRev (dec5 n).reverse = n := by
  simp only [dec5, List.reverse_append, List.reverse_replicate]
  rw [valRev_append_zeros, valRev_dec]

theorem dec_inj {i j : Nat} (h : dec i = dec j) : i = j := by
  rw [← valRev_dec i, h, valRev_dec]

theorem dec5_inj {i j : Nat} (h : dec5 i = dec5 j) : i = j := by
  rw [← valRev_dec5 i, h, valRev_dec5]

/-- Splitting at the first hyphen. -/
theorem split_hyphen {a b r s : List Char} (ha : ∀ c ∈ a, c ≠ '-') (hb : ∀ c ∈ b, c ≠ '-')
    (h : a ++ '-' :: r = b ++ '-' :: s) : a = b ∧ r = s := by
  have key : ∀ (a r : List Char), (∀ c ∈ a, c ≠ '-') →
      (a ++ '-' :: r).takeWhile (fun c => c ≠ '-') = a := by
    intro a r ha
    rw [List.takeWhile_append_of_pos (by simpa using ha)]
    simp
  have h1 : a = b := by rw [← key a r ha, h, key b s hb]
  subst h1
  have := List.append_cancel_left h
  exact ⟨rfl, by simpa using this⟩

theorem fileName_inj {i j s t n m : Nat} (h : fileName i s n = fileName j t m) :
    i = j ∧ s = t ∧ n = m := by
  simp only [fileName, List.append_assoc, List.cons_append, List.nil_append] at h
  obtain ⟨h1, h⟩ := split_hyphen (dec_ne i) (dec_ne j) h
  obtain ⟨h2, h⟩ := split_hyphen (dec5_ne s) (dec5_ne t) h
  simp only [List.cons.injEq, true_and] at h
  have h3 : dec5 n = dec5 m := List.append_cancel_right h
  exact ⟨dec_inj h1, dec5_inj h2, dec5_inj h3⟩

/-! ### Patterns -/

theorem glob_lit (lit p s : List Char) (hl : ∀ c ∈ lit, c ≠ '*') :
    glob (lit ++ p) s = true ↔ ∃ r, s = lit ++ r ∧ glob p r = true := by
  induction lit generalizing s with
  | nil => simp
  | cons c lit ih =>
    have hc : c ≠ '*' := hl c (by simp)
    simp only [List.cons_append, glob, if_neg hc, Bool.and_eq_true, decide_eq_true_eq]
    rw [ih _ (fun d hd => hl d (by simp [hd]))]
    constructor
    · rintro ⟨h1, r, h2, h3⟩
      cases s with
      | nil => simp at h1
      | cons d s => simp at h1 h2; exact ⟨r, by rw [h1, h2], h3⟩
    · rintro ⟨r, rfl, h3⟩
      exact ⟨by simp, r, by simp, h3⟩

theorem glob_star (p s : List Char) :
    glob ('*' :: p) s = true ↔ ∃ a b, s = a ++ b ∧ glob p b = true := by
  simp only [glob, if_true, List.any_eq_true, List.mem_tails]
  constructor
  · rintro ⟨b, ⟨a, rfl⟩, h⟩
    exact ⟨a, b, rfl, h⟩
  · rintro ⟨a, b, rfl, h⟩
    exact ⟨b, ⟨a, rfl⟩, h⟩

theorem glob_nil (s : List Char) : glob [] s = true ↔ s = [] := by simp [glob]

theorem dec_ne_star (n : Nat) : ∀ c ∈ dec n, c ≠ '*' := by
  have key : ∀ f n, ∀ c ∈ decRev f n, c ≠ '*' := by
    intro f
    induction f with
    | zero => simp [decRev]
    | succ f ih =>
      intro n c hc
      simp only [decRev, List.mem_cons] at hc
      rcases hc with rfl | hc
      · have h : n % 10 < 10 := Nat.mod_lt _ (by decide)
        generalize n % 10 = r at h
        interval_cases r <;> decide
      · split at hc
        · simp at hc
        · exact ih _ c hc
  intro c hc
  exact key _ _ c (by simpa [dec] using hc)

theorem dec5_ne_star (n : Nat) : ∀ c ∈ dec5 n, c ≠ '*' := by
  intro c hc
  simp only [dec5, List.mem_append, List.mem_replicate] at hc
  rcases hc with ⟨_, rfl⟩ | hc
  · decide
  · exact dec_ne_star n c hc

/-- A pattern that is read selects exactly the shards of its index. -/
theorem readPattern_fileName (i j s n : Nat) :
    glob (readPattern i) (fileName j s n) = true ↔ i = j := by
  have hp : readPattern i = (dec i ++ ['-']) ++ ('*' :: (['-', 'o', 'f', '-'] ++ ['*'])) := by
    simp [readPattern]
  rw [hp, glob_lit _ _ _ (by
    intro c hc
    simp only [List.mem_append, List.mem_singleton] at hc
    rcases hc with hc | rfl
    · exact dec_ne_star i c hc
    · decide)]
  simp only [fileName, List.append_assoc, List.cons_append, List.nil_append]
  constructor
  · rintro ⟨r, h, _⟩
    exact dec_inj (split_hyphen (dec_ne j) (dec_ne i) h).1 |>.symm
  · rintro rfl
    refine ⟨_, rfl, ?_⟩
    rw [glob_star]
    refine ⟨dec5 s, _, rfl, ?_⟩
    rw [show ('-' :: 'o' :: 'f' :: '-' :: ['*']) = ['-', 'o', 'f', '-'] ++ ['*'] from rfl,
      glob_lit _ _ _ (by decide)]
    refine ⟨_, rfl, ?_⟩
    rw [glob_star]
    exact ⟨_, [], (List.append_nil _).symm, by simp [glob]⟩

/-- The sink deletes exactly the shards of its index with the same number of shards. -/
theorem cleanPattern_fileName (i n j s m : Nat) :
    glob (cleanPattern i n) (fileName j s m) = true ↔ i = j ∧ n = m := by
  have hp : cleanPattern i n = (dec i ++ ['-']) ++ ('*' :: ((['-', 'o', 'f', '-'] ++ dec5 n ++
      ['.', 'g', 'z']) ++ [])) := by
    simp [cleanPattern]
  rw [hp, glob_lit _ _ _ (by
    intro c hc
    simp only [List.mem_append, List.mem_singleton] at hc
    rcases hc with hc | rfl
    · exact dec_ne_star i c hc
    · decide)]
  have hlit : ∀ c ∈ ['-', 'o', 'f', '-'] ++ dec5 n ++ ['.', 'g', 'z'], c ≠ '*' := by
    intro c hc
    simp only [List.mem_append] at hc
    rcases hc with (hc | hc) | hc
    · revert c; decide
    · exact dec5_ne_star n c hc
    · revert c; decide
  constructor
  · rintro ⟨r, h, hg⟩
    rw [glob_star] at hg
    obtain ⟨a, b, rfl, hg⟩ := hg
    rw [glob_lit _ _ _ hlit] at hg
    obtain ⟨q, rfl, hq⟩ := hg
    rw [glob_nil] at hq
    subst hq
    simp only [fileName, List.append_assoc, List.cons_append, List.nil_append] at h
    obtain ⟨h1, h2⟩ := split_hyphen (dec_ne j) (dec_ne i) h
    refine ⟨(dec_inj h1).symm, ?_⟩
    have h3 := congrArg List.reverse h2
    simp only [List.reverse_append, List.reverse_cons, List.reverse_nil, List.nil_append,
      List.append_assoc, List.cons_append, List.append_nil] at h3
    simp only [List.cons.injEq, true_and] at h3
    obtain ⟨h4, _⟩ := split_hyphen (a := (dec5 m).reverse) (b := (dec5 n).reverse)
      (by intro c hc; exact dec5_ne m c (by simpa using hc))
      (by intro c hc; exact dec5_ne n c (by simpa using hc)) h3
    exact (dec5_inj (List.reverse_injective h4)).symm
  · rintro ⟨rfl, rfl⟩
    refine ⟨dec5 s ++ (['-', 'o', 'f', '-'] ++ dec5 n ++ ['.', 'g', 'z']), by simp [fileName], ?_⟩
    rw [glob_star]
    refine ⟨dec5 s, _, rfl, ?_⟩
    rw [glob_lit _ _ _ hlit]
    exact ⟨[], by simp, by simp [glob]⟩

/-- What the sink deletes is only what the reader of the same index would read. -/
theorem clean_sub_read (i n : Nat) (f : Name) (h : glob (cleanPattern i n) f = true) :
    glob (readPattern i) f = true := by
  have hp : cleanPattern i n = (dec i ++ ['-']) ++ ('*' :: ((['-', 'o', 'f', '-'] ++ (dec5 n ++
      ['.', 'g', 'z'])))) := by
    simp [cleanPattern]
  have hp' : readPattern i = (dec i ++ ['-']) ++ ('*' :: (['-', 'o', 'f', '-'] ++ ['*'])) := by
    simp [readPattern]
  have hl : ∀ c ∈ dec i ++ ['-'], c ≠ '*' := by
    intro c hc
    simp only [List.mem_append, List.mem_singleton] at hc
    rcases hc with hc | rfl
    · exact dec_ne_star i c hc
    · decide
  rw [hp, glob_lit _ _ _ hl] at h
  rw [hp', glob_lit _ _ _ hl]
  obtain ⟨r, rfl, h⟩ := h
  refine ⟨r, rfl, ?_⟩
  rw [glob_star] at h ⊢
  obtain ⟨a, b, rfl, h⟩ := h
  refine ⟨a, b, rfl, ?_⟩
  rw [glob_lit _ _ _ (by decide)] at h ⊢
  obtain ⟨q, rfl, _⟩ := h
  refine ⟨q, rfl, ?_⟩
  rw [glob_star]
  exact ⟨q, [], by simp, by simp [glob]⟩

/-- The names read for different indices are different. -/
theorem read_disjoint (i j : Nat) (f : Name) (hi : glob (readPattern i) f = true)
    (hj : glob (readPattern j) f = true) : i = j := by
  have hp : ∀ i, readPattern i = (dec i ++ ['-']) ++ ('*' :: (['-', 'o', 'f', '-'] ++ ['*'])) := by
    intro i; simp [readPattern]
  have hl : ∀ i, ∀ c ∈ dec i ++ ['-'], c ≠ '*' := by
    intro i c hc
    simp only [List.mem_append, List.mem_singleton] at hc
    rcases hc with hc | rfl
    · exact dec_ne_star i c hc
    · decide
  rw [hp, glob_lit _ _ _ (hl i)] at hi
  rw [hp, glob_lit _ _ _ (hl j)] at hj
  obtain ⟨r, rfl, _⟩ := hi
  obtain ⟨s, h, _⟩ := hj
  simp only [List.append_assoc, List.cons_append, List.nil_append] at h
  exact dec_inj (split_hyphen (dec_ne i) (dec_ne j) h).1

/-! ### Changes of the files -/

variable {K Rec : Type}

/-- The files read for an index. -/
def filesAt (i : Nat) (files : List (Name × List Rec)) : List (Name × List Rec) :=
  files.filter (fun f => glob (readPattern i) f.1)

theorem filesAt_applyData_ne (i : Nat) (files : List (Name × List Rec)) (a : DataAct Rec)
    (h : a.idx ≠ i) : filesAt i (applyData files a) = filesAt i files := by
  cases a with
  | clean j n =>
    simp only [DataAct.idx] at h
    simp only [applyData, filesAt, List.filter_filter]
    apply List.filter_congr
    intro f _
    cases hf : glob (readPattern i) f.1 with
    | false => simp
    | true =>
      cases hc : glob (cleanPattern j n) f.1 with
      | false => simp
      | true => exact absurd (read_disjoint _ _ _ (clean_sub_read _ _ _ hc) hf) h
  | rename j s n r =>
    simp only [DataAct.idx] at h
    have hn : glob (readPattern i) (fileName j s n) = false := by
      rw [Bool.eq_false_iff, Ne, readPattern_fileName]
      exact fun e => h e.symm
    simp only [applyData, filesAt, List.filter_append, List.filter_filter]
    rw [List.filter_cons_of_neg (by simp [hn])]
    simp only [List.filter_nil, List.append_nil]
    apply List.filter_congr
    intro f _
    cases hf : glob (readPattern i) f.1 with
    | false => simp
    | true =>
      have : f.1 ≠ fileName j s n := by
        intro e
        rw [e, hn] at hf
        cases hf
      simp [this]

theorem filesAt_applyData_eq (i : Nat) (files : List (Name × List Rec)) (a : DataAct Rec)
    (h : a.idx = i) : filesAt i (applyData files a) = applyData (filesAt i files) a := by
  cases a with
  | clean j n =>
    simp only [applyData, filesAt, List.filter_filter]
    apply List.filter_congr
    intro f _
    exact Bool.and_comm _ _
  | rename j s n r =>
    simp only [DataAct.idx] at h
    subst h
    have hn : glob (readPattern j) (fileName j s n) = true := by rw [readPattern_fileName]
    simp only [applyData, filesAt, List.filter_append, List.filter_filter]
    rw [List.filter_cons_of_pos (by simp [hn])]
    simp only [List.filter_nil]
    congr 1
    apply List.filter_congr
    intro f _
    exact Bool.and_comm _ _

/-- Only the changes for an index matter for what is read there. -/
theorem filesAt_foldl (i : Nat) (acts : List (DataAct Rec)) (files : List (Name × List Rec)) :
    filesAt i (acts.foldl applyData files)
      = (acts.filter (fun a => a.idx = i)).foldl applyData (filesAt i files) := by
  induction acts generalizing files with
  | nil => rfl
  | cons a acts ih =>
    rw [List.foldl_cons, ih]
    by_cases h : a.idx = i
    · rw [List.filter_cons_of_pos (by simpa using h), List.foldl_cons,
        filesAt_applyData_eq i files a h]
    · rw [List.filter_cons_of_neg (by simpa using h), filesAt_applyData_ne i files a h]

/-- The shards of an index as files. -/
def shardFiles (i num : Nat) (k : Nat) (shards : List (List Rec)) : List (Name × List Rec) :=
  (shards.zipIdx k).map (fun s => (fileName i s.2 num, s.1))

theorem foldl_renames (i num k : Nat) (shards : List (List Rec)) (files : List (Name × List Rec))
    (h : ∀ f ∈ files, ∀ s, k ≤ s → f.1 ≠ fileName i s num) :
    ((shards.zipIdx k).map (fun s => DataAct.rename i s.2 num s.1)).foldl applyData files
      = files ++ shardFiles i num k shards := by
  induction shards generalizing k files with
  | nil => simp [shardFiles]
  | cons s shards ih =>
    simp only [List.zipIdx_cons, List.map_cons, List.foldl_cons, applyData, shardFiles]
    rw [List.filter_eq_self.mpr (by intro f hf; simpa using h f hf k (le_refl _))]
    rw [ih (k + 1)]
    · simp [shardFiles]
    · intro f hf t ht
      rcases List.mem_append.mp hf with hf | hf
      · exact h f hf t (by omega)
      · simp only [List.mem_singleton] at hf
        subst hf
        intro e
        have := (fileName_inj e).2.1
        omega

theorem flatMap_shardFiles (i num k : Nat) (shards : List (List Rec)) :
    (shardFiles i num k shards).flatMap Prod.snd = shards.flatten := by
  induction shards generalizing k with
  | nil => rfl
  | cons s shards ih =>
    have := ih (k + 1)
    simp only [shardFiles] at this ⊢
    simp only [List.zipIdx_cons, List.map_cons, List.flatMap_cons, this, List.flatten_cons]

/-- A complete sink whose old files all have the same number of shards leaves exactly the new
shards. -/
theorem foldl_entryActs (i : Nat) (shards : List (List Rec)) (files : List (Name × List Rec))
    (h : ∀ f ∈ files, ∃ s, f.1 = fileName i s shards.length) :
    (entryActs i shards).foldl applyData files = shardFiles i shards.length 0 shards := by
  simp only [entryActs, List.foldl_cons]
  have h0 : applyData files (DataAct.clean i shards.length) = [] := by
    simp only [applyData]
    rw [List.filter_eq_nil_iff]
    intro f hf
    obtain ⟨s, hs⟩ := h f hf
    have : glob (cleanPattern i shards.length) f.1 = true := by
      rw [hs, cleanPattern_fileName]; exact ⟨rfl, rfl⟩
    simp [this]
  rw [h0, foldl_renames _ _ _ _ _ (by simp)]
  simp

theorem applyActs_data (d : Dir K Rec) (data : List (DataAct Rec)) :
    applyActs d (data.map .data) = { d with files := data.foldl applyData d.files } := by
  induction data generalizing d with
  | nil => rfl
  | cons a data ih =>
    simp only [applyActs, List.map_cons, List.foldl_cons] at ih ⊢
    rw [ih]
    rfl

end TFT.CacheFs
