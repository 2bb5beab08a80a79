import Verif.Cache.Keys
import Mathlib.Data.List.Basic

/-!
# Properties of dataset keys (C30)
-/

namespace TFT.Keys

/-! ### Specification -/

/-- A name that is an entry of the directory it is joined to: not empty, no separator, and none
of the names `.` and `..`. -/
def IsDirectoryName (s : List Char) : Prop := s ≠ [] ∧ '/' ∉ s ∧ s ≠ ['.'] ∧ s ≠ ['.', '.']

/-! ### Lemmas -/

theorem mem_replaceChar {c x : Char} {r s : List Char} (h : x ∈ replaceChar c r s) :
    (x ∈ s ∧ x ≠ c) ∨ x ∈ r := by
  simp only [replaceChar, List.mem_flatMap] at h
  obtain ⟨d, hd, hx⟩ := h
  split at hx
  · exact Or.inr hx
  · simp at hx; subst hx; exact Or.inl ⟨hd, by assumption⟩

/-- Replacing never brings back a replaced character. -/
theorem foldl_replace_not_mem (rs : List (Char × List Char)) (x : Char)
    (hr : ∀ r ∈ rs, x ∉ r.2) (s : List Char) (h : x ∉ s ∨ ∃ r ∈ rs, r.1 = x) :
    x ∉ rs.foldl (fun result r => replaceChar r.1 r.2 result) s := by
  induction rs generalizing s with
  | nil => simpa using h
  | cons r rs ih =>
    rw [List.foldl_cons]
    refine ih (fun q hq => hr q (by simp [hq])) _ ?_
    rcases h with h | ⟨q, hq, hx⟩
    · left
      intro hm
      rcases mem_replaceChar hm with ⟨h', _⟩ | h'
      · exact h h'
      · exact hr r (by simp) h'
    · rcases List.mem_cons.mp hq with rfl | hq
      · left
        intro hm
        rcases mem_replaceChar hm with ⟨_, h'⟩ | h'
        · exact h' hx.symm
        · exact hr q (by simp) h'
      · exact Or.inr ⟨q, hq, hx⟩

theorem validate_ok_iff (ks : List DatasetKey) :
    validate ks = .ok () ↔ ∀ k ∈ ks, keyMatches k.key = true := by
  induction ks with
  | nil => simp [validate]
  | cons k ks ih =>
    unfold validate
    by_cases h : keyMatches k.key = true
    · simp [h, ih]
    · simp [h]

theorem body_of_match {s : List Char} (h : keyMatches s = true) :
    ∃ body, body ≠ [] ∧ (∀ c ∈ body, allowed c = true) ∧ (s = body ∨ s = body ++ ['\n']) := by
  unfold keyMatches at h
  simp only [Bool.and_eq_true, Bool.not_eq_true', List.isEmpty_eq_false_iff, List.all_eq_true] at h
  split at h
  · rename_i hl
    refine ⟨s.dropLast, h.1, h.2, Or.inr ?_⟩
    have hne : s ≠ [] := by rintro rfl; simp at hl
    have : s.getLast hne = '\n' := by
      rw [List.getLast?_eq_getLast_of_ne_nil hne] at hl
      simpa using hl
    rw [← this, List.dropLast_append_getLast]
  · exact ⟨s, h.1, h.2, Or.inl rfl⟩

theorem no_slash_of_match {s : List Char} (h : keyMatches s = true) : s ≠ [] ∧ '/' ∉ s := by
  obtain ⟨body, h1, h2, h3⟩ := body_of_match h
  have hb : '/' ∉ body := by
    intro hm
    have := h2 _ hm
    revert this
    decide
  rcases h3 with rfl | rfl
  · exact ⟨h1, hb⟩
  · exact ⟨by simp, by simp [hb]⟩

/-! ### Theorems -/

/-- The allowed characters are the letters and digits of ASCII, the dot, the hyphen and the
underscore. -/
theorem allowed_iff (c : Char) :
    allowed c = true ↔ c.isAlphanum = true ∨ c = '.' ∨ c = '-' ∨ c = '_' := by
  simp only [allowed, Char.isAlphanum, Char.isAlpha, Char.isUpper, Char.isLower, Char.isDigit,
    Bool.or_eq_true, Bool.and_eq_true, decide_eq_true_eq, Char.le_def, ge_iff_le]
  have e : ∀ a b : Char, a.val = b.val ↔ a = b := fun a b =>
    ⟨fun h => Char.ext h, fun h => by rw [h]⟩
  have h1 : 'a'.val = 97 := rfl
  have h2 : 'z'.val = 122 := rfl
  have h3 : 'A'.val = 65 := rfl
  have h4 : 'Z'.val = 90 := rfl
  have h5 : '0'.val = 48 := rfl
  have h6 : '9'.val = 57 := rfl
  simp only [h1, h2, h3, h4, h5, h6]
  tauto

/-- **C30** Accepted keys are not empty, contain no path separator, and all their characters are
letters, digits, `.`, `-`, `_`, except perhaps a newline at the end. -/
theorem accepted_keys (ks : List DatasetKey) (h : validate ks = .ok ()) (k : DatasetKey)
    (hk : k ∈ ks) : k.key ≠ [] ∧ '/' ∉ k.key ∧
      ∃ body, (k.key = body ∨ k.key = body ++ ['\n']) ∧ ∀ c ∈ body, c.isAlphanum = true ∨ c = '.' ∨ c = '-' ∨ c = '_' := by
  have hm := (validate_ok_iff ks).mp h k hk
  obtain ⟨body, h1, h2, h3⟩ := body_of_match hm
  exact ⟨(no_slash_of_match hm).1, (no_slash_of_match hm).2, body, h3, fun c hc => (allowed_iff c).1 (h2 c hc)⟩

/-- **C30** A key made only of allowed characters is accepted. -/
theorem accepts_allowed (k : DatasetKey) (hne : k.key ≠ [])
    (h : ∀ c ∈ k.key, c.isAlphanum = true ∨ c = '.' ∨ c = '-' ∨ c = '_') :
    validate [k] = .ok () := by
  replace h : ∀ c ∈ k.key, allowed c = true := fun c hc => (allowed_iff c).2 (h c hc)
  rw [validate_ok_iff]
  intro k' hk'
  simp at hk'
  subst hk'
  unfold keyMatches
  have : k'.key.getLast? ≠ some '\n' := by
    intro hl
    have := h _ (List.mem_of_getLast? hl)
    revert this
    decide
  simp only [if_neg this]
  simp [hne]
  exact h

/-- **C30** Two different accepted keys never use the same cache directory. -/
theorem accepted_paths_injective (base : List Char) (ks : List DatasetKey)
    (h : validate ks = .ok ()) (a b : DatasetKey) (ha : a ∈ ks) (hb : b ∈ ks)
    (hp : cachePath base a = cachePath base b) : a.key = b.key := by
  have hslash : ∀ k ∈ ks, k.key.head? ≠ some '/' := by
    intro k hk he
    exact (no_slash_of_match ((validate_ok_iff ks).mp h k hk)).2 (List.mem_of_mem_head? he)
  unfold cachePath at hp
  rw [if_neg (hslash a ha), if_neg (hslash b hb)] at hp
  split at hp
  · exact List.append_cancel_left hp
  · exact List.append_cancel_left hp

/-- **C30** The directory of an accepted key lies in the base directory: the path is the base
directory followed by one component. -/
theorem accepted_path_in_base (base : List Char) (hbase : base ≠ [])
    (hsl : base.getLast? ≠ some '/') (k : DatasetKey) (h : validate [k] = .ok ()) :
    cachePath base k = base ++ ['/'] ++ k.key ∧ '/' ∉ k.key := by
  have hm := (validate_ok_iff [k]).mp h k (by simp)
  have hs := (no_slash_of_match hm).2
  refine ⟨?_, hs⟩
  unfold cachePath
  rw [if_neg (show ¬ k.key.head? = some '/' from fun he => hs (List.mem_of_mem_head? he)), if_neg (by
    rintro (h | h)
    · exact hbase h
    · exact hsl h)]

/-- **C30** A key made from any string contains none of the replaced characters, so its directory
is a component of the base directory even if it was never validated. -/
theorem new_key_no_special (name : List Char) (cached : Bool) (c : Char)
    (hc : c ∈ ['/', '\\', '*', '@', '[', ']', ':', '=']) :
    c ∉ (DatasetKey.new name cached).key := by
  have h1 : ∀ r ∈ replacements, c ∉ r.2 := by
    simp only [List.mem_cons, List.not_mem_nil, or_false] at hc
    rcases hc with rfl | rfl | rfl | rfl | rfl | rfl | rfl | rfl <;> decide +kernel
  have h2 : ∃ r ∈ replacements, r.1 = c := by
    simp only [List.mem_cons, List.not_mem_nil, or_false] at hc
    rcases hc with rfl | rfl | rfl | rfl | rfl | rfl | rfl | rfl <;> decide +kernel
  have h3 := foldl_replace_not_mem replacements c h1 name (Or.inr h2)
  simp only [DatasetKey.new, makeValid]
  exact h3

/-- **C30** Datasets are cached unless the caller says otherwise. -/
theorem cached_unless_said (name : List Char) :
    (DatasetKey.new name).isCached = true ∧ ∀ b, (DatasetKey.new name b).isCached = b :=
  ⟨rfl, fun _ => rfl⟩

/-- **C30, part** An accepted key is a directory name, unless it is `.` or `..`. What is missing:
these two names, see `accepts_dot_names`. -/
theorem accepted_directory_name_partial (k : DatasetKey) (h : validate [k] = .ok ())
    (h1 : k.key ≠ ['.']) (h2 : k.key ≠ ['.', '.']) : IsDirectoryName k.key := by
  have hm := (validate_ok_iff [k]).mp h k (by simp)
  exact ⟨(no_slash_of_match hm).1, (no_slash_of_match hm).2, h1, h2⟩

/-- C30 is false as stated: the keys `.` and `..` are accepted. Their cache directories are the
base directory and its parent. -/
theorem accepts_dot_names : validate [DatasetKey.new ['.'], DatasetKey.new ['.', '.']] = .ok () ∧
    ¬ IsDirectoryName (DatasetKey.new ['.']).key ∧
    ¬ IsDirectoryName (DatasetKey.new ['.', '.']).key ∧
    cachePath ['c'] (DatasetKey.new ['.', '.']) = ['c', '/', '.', '.'] := by
  refine ⟨by rfl, ?_, ?_, by rfl⟩
  · exact fun h => h.2.2.1 rfl
  · exact fun h => h.2.2.2 rfl

/-- A key that ends with a newline is accepted. -/
theorem accepts_trailing_newline : validate [DatasetKey.new ['a', '\n']] = .ok () := by rfl

/-- Different names can give the same key: the replacement of characters is not injective. So can
the key of a dataset that must not be cached and a name chosen by the user. -/
theorem names_collide :
    (DatasetKey.new ['a', '/', 'b']).key = (DatasetKey.new ['a', '-', 'b']).key ∧
    (DatasetKey.new ['x']).nonCacheable.key
      = (DatasetKey.new ['u', 'n', 'c', 'a', 'c', 'h', 'e', 'd', '_', 'x']).key := by
  exact ⟨by rfl, by rfl⟩

/-! ### The hypotheses are met -/

example : validate [DatasetKey.new ['s', 'p', 'a', 'n', '/', '1'], DatasetKey.new ['b', '.', '2']]
    = .ok () := by rfl

example : ∃ e, validate [DatasetKey.new ['a', ' ', 'b']] = .error e := ⟨_, rfl⟩

example : IsDirectoryName (DatasetKey.new ['s', '/', '1']).key := by
  refine ⟨by decide, by decide, by decide, by decide⟩

/-- **C30** A dataset that was marked as not cacheable keeps this mark and gets the documented
prefix, so that it does not share the key of the cacheable dataset. -/
theorem non_cacheable_key (k : DatasetKey) :
    k.nonCacheable.isCached = false ∧ k.nonCacheable.key = "uncached_".toList ++ k.key ∧
      k.nonCacheable.key ≠ k.key := by
  refine ⟨rfl, rfl, ?_⟩
  intro h
  have := congrArg List.length h
  simp [DatasetKey.nonCacheable] at this
  omega

/-! ### Keys of an analysis with a cache -/

theorem analyze_ok_iff (data : List DatasetKey) (cache : Option (List DatasetKey)) :
    (∃ r, analyzeWithCache data cache = .ok r) ↔ ∀ ck, cache = some ck →
      ∀ k ∈ ck, keyMatches k.key = true := by
  have hv := validate_ok_iff (cache.getD [])
  unfold analyzeWithCache
  cases hval : validate (cache.getD []) with
  | ok u =>
    rw [hval] at hv
    simp only [true_iff] at hv
    refine ⟨fun _ ck hck k hk => hv k (by rw [hck]; exact hk), fun _ => ⟨_, rfl⟩⟩
  | error e =>
    constructor
    · rintro ⟨r, hr⟩; cases hr
    · intro h
      rw [hval] at hv
      have := hv.2 (by
        cases cache with
        | none => simp
        | some ck => exact h ck rfl)
      cases this

/-- **C99.** An analysis goes on with exactly the datasets and caches it is given, and only if the
keys of the caches are accepted by `validate_dataset_keys`. -/
theorem keys_of_caches_are_checked (data ck : List DatasetKey) :
    (∀ r, analyzeWithCache data (some ck) = .ok r → r = (data, ck) ∧ validate ck = .ok ()) ∧
    (validate ck = .ok () → analyzeWithCache data (some ck) = .ok (data, ck)) := by
  constructor
  · intro r hr
    unfold analyzeWithCache at hr
    cases hval : validate ((some ck).getD []) with
    | error e => rw [hval] at hr; cases hr
    | ok u => rw [hval] at hr; cases hr; exact ⟨rfl, hval⟩
  · intro h
    have h' : validate ((some ck).getD []) = .ok () := h
    simp only [analyzeWithCache, h', bind, Except.bind]
    rfl

/-- **C99, part.** If the keys of the datasets are acceptable, an analysis accepts any cache of these
datasets, so also the one that it wrote in an earlier run. What is missing: other keys, see
`data_keys_are_not_checked` and `own_cache_is_refused`. -/
theorem own_cache_is_accepted_partial (data ck : List DatasetKey) (h : validate data = .ok ())
    (hsub : ∀ k ∈ ck, k ∈ data) : analyzeWithCache data (some ck) = .ok (data, ck) :=
  (keys_of_caches_are_checked data ck).2
    ((validate_ok_iff ck).2 fun k hk => (validate_ok_iff data).1 h k (hsub k hk))

/-- **C99.** Although they are not checked, datasets with different keys do not share a cache
directory, and the directory is the base directory followed by one component, which may be empty. -/
theorem unchecked_keys_have_own_directories (base : List Char) (n m : List Char) (b c : Bool) :
    (cachePath base (DatasetKey.new n b) = cachePath base (DatasetKey.new m c) →
      (DatasetKey.new n b).key = (DatasetKey.new m c).key) ∧
    (base ≠ [] → base.getLast? ≠ some '/' →
      cachePath base (DatasetKey.new n b) = base ++ ['/'] ++ (DatasetKey.new n b).key) ∧
    '/' ∉ (DatasetKey.new n b).key := by
  have hs : ∀ n b, '/' ∉ (DatasetKey.new n b).key := fun n b =>
    new_key_no_special n b '/' (by simp)
  have hh : ∀ n b, (DatasetKey.new n b).key.head? ≠ some '/' := fun n b he =>
    hs n b (List.mem_of_mem_head? he)
  refine ⟨?_, ?_, hs n b⟩
  · intro hp
    unfold cachePath at hp
    rw [if_neg (hh n b), if_neg (hh m c)] at hp
    split at hp
    · exact List.append_cancel_left hp
    · exact List.append_cancel_left hp
  · intro h1 h2
    unfold cachePath
    rw [if_neg (hh n b), if_neg (by simp [h1, h2])]

/-- **C99 (finding).** The keys of the datasets are not checked: without a cache, or with an empty
one, an analysis goes on with any keys. -/
theorem data_keys_are_not_checked (data : List DatasetKey) :
    analyzeWithCache data none = .ok (data, []) ∧ analyzeWithCache data (some []) = .ok (data, []) :=
  ⟨rfl, rfl⟩

/-- **C99 (finding).** So the first run with a key that `validate_dataset_keys` does not accept
succeeds, and every run that is given the cache of that dataset fails. -/
theorem own_cache_is_refused (data ck : List DatasetKey) (k : DatasetKey) (hk : k ∈ ck)
    (hbad : ∃ e, validate [k] = .error e) :
    analyzeWithCache data (some []) = .ok (data, []) ∧
    ∃ e, analyzeWithCache data (some ck) = .error e := by
  refine ⟨rfl, ?_⟩
  cases h : analyzeWithCache data (some ck) with
  | error e => exact ⟨e, rfl⟩
  | ok r =>
    have h1 := (analyze_ok_iff data (some ck)).1 ⟨r, h⟩ ck rfl k hk
    obtain ⟨e, he⟩ := hbad
    rw [(validate_ok_iff [k]).2 (by simpa using h1)] at he
    cases he

/-- The key `span 1`, with a space, is such a key. -/
example : (∃ e, validate [DatasetKey.new "span 1".toList] = .error e) ∧
    ∃ e, analyzeWithCache [DatasetKey.new "span 1".toList] (some [DatasetKey.new "span 1".toList])
      = .error e :=
  ⟨⟨_, rfl⟩, (own_cache_is_refused _ _ (DatasetKey.new "span 1".toList) (by simp) ⟨_, rfl⟩).2⟩

/-- And `span-1` is an acceptable one. -/
example : analyzeWithCache [DatasetKey.new "span-1".toList] (some [DatasetKey.new "span-1".toList])
    = .ok ([DatasetKey.new "span-1".toList], [DatasetKey.new "span-1".toList]) :=
  own_cache_is_accepted_partial _ _ rfl (fun _ h => h)

end TFT.Keys
