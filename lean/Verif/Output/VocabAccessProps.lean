import Verif.Output.VocabAccess
import Verif.Context.GraphProps
import Mathlib.Data.List.Nodup
import Mathlib.Data.List.Induction

/-!
# Vocabularies are found under their names (C63)
-/

namespace TFT.VocabAccess

open TFT.GraphContext

/-! ## Specification -/

/-- The vocabularies among the events. -/
def Spec.requests (es : List Event) : List Request :=
  es.filterMap (fun e => match e with
    | .vocabulary r => some r
    | .annotateAsset _ _ => none)

/-- The last component of a path. -/
def Spec.IsLastComponent (path name : Text) : Prop :=
  '/' ∉ name ∧ ∃ dir, path = dir ++ name ∧ (dir = [] ∨ dir.getLast? = some '/')

/-- The name under which an event is known: the key of `tft.annotate_asset`, the argument
`vocab_filename`, or without one the name made of the scope. -/
def Spec.keyOf (K : Classes) : Event → Text
  | .vocabulary r => r.name.getD (stem K r)
  | .annotateAsset k _ => k

/-! ## Sanitized names -/

/-- A sanitized name: word characters and single hyphens; `after` tells that a hyphen comes before. -/
def Clean (K : Classes) (after : Bool) : Text → Prop
  | [] => True
  | c :: cs => (K.isWord c = true ∧ Clean K false cs) ∨ (c = '-' ∧ after = false ∧ Clean K true cs)

theorem collapse_clean (K : Classes) (hK : K.Python) (b : Bool) (s : Text)
    (h : ∀ c ∈ s, K.isWord c = true ∨ K.isSpace c = true ∨ c = '-') : Clean K b (collapse K b s) := by
  induction s generalizing b with
  | nil => trivial
  | cons c cs ih =>
    have ih := fun b => ih b (fun x hx => h x (by simp [hx]))
    unfold collapse
    by_cases hc : (c == '-' || K.isSpace c) = true
    · rw [if_pos hc]
      cases b with
      | true => rw [if_pos rfl]; exact ih true
      | false =>
        rw [if_neg (by simp)]
        exact Or.inr ⟨rfl, rfl, ih true⟩
    · rw [if_neg hc]
      refine Or.inl ⟨?_, ih false⟩
      simp only [Bool.or_eq_true, beq_iff_eq, not_or] at hc
      rcases h c (by simp) with h | h | h
      · exact h
      · exact absurd h hc.2
      · exact absurd h hc.1

theorem mem_strip (K : Classes) (s : Text) (c : Char) (h : c ∈ strip K s) : c ∈ s := by
  unfold strip at h
  rw [List.mem_reverse] at h
  have := (List.dropWhile_sublist _).subset h
  rw [List.mem_reverse] at this
  exact (List.dropWhile_sublist _).subset this

theorem replaced_class (K : Classes) (hK : K.Python) (c : Char) :
    K.isWord (replaced K c) = true ∨ K.isSpace (replaced K c) = true ∨ replaced K c = '-' := by
  unfold replaced
  by_cases h : (K.isWord c || K.isSpace c || c == '-') = true
  · rw [if_pos h]
    simp only [Bool.or_eq_true, beq_iff_eq] at h
    tauto
  · rw [if_neg h]
    exact Or.inl hK.underscore

theorem sanitize_clean (K : Classes) (hK : K.Python) (s : Text) : Clean K false (sanitize K s) := by
  refine collapse_clean K hK false _ (fun c hc => ?_)
  obtain ⟨x, _, rfl⟩ := List.mem_map.1 (mem_strip K _ _ hc)
  exact replaced_class K hK x

theorem clean_mem (K : Classes) (b : Bool) (s : Text) (h : Clean K b s) (c : Char) (hc : c ∈ s) :
    K.isWord c = true ∨ c = '-' := by
  induction s generalizing b with
  | nil => cases hc
  | cons x xs ih =>
    rcases List.mem_cons.1 hc with rfl | hc
    · rcases h with ⟨h, _⟩ | ⟨h, _⟩
      · exact Or.inl h
      · exact Or.inr h
    · rcases h with ⟨_, h⟩ | ⟨_, _, h⟩
      · exact ih false h hc
      · exact ih true h hc

theorem collapse_id (K : Classes) (hK : K.Python) (b : Bool) (s : Text) (h : Clean K b s) :
    collapse K b s = s := by
  induction s generalizing b with
  | nil => rfl
  | cons c cs ih =>
    unfold collapse
    rcases h with ⟨hw, h⟩ | ⟨rfl, rfl, h⟩
    · have h1 : K.isSpace c = false := hK.disjoint c hw
      have h2 : c ≠ '-' := by
        rintro rfl
        rw [hK.hyphen.1] at hw; cases hw
      rw [if_neg (by simp [h1, h2]), ih false h]
    · rw [if_pos (by simp), if_neg (by simp), ih true h]

theorem sanitize_id (K : Classes) (hK : K.Python) (s : Text) (h : Clean K false s) :
    sanitize K s = s := by
  have hmem := clean_mem K false s h
  have hsp : ∀ c ∈ s, K.isSpace c = false := by
    intro c hc
    rcases hmem c hc with h | rfl
    · exact hK.disjoint c h
    · exact hK.hyphen.2
  have h1 : s.map (replaced K) = s := by
    conv_rhs => rw [← List.map_id s]
    apply List.map_congr_left
    intro c hc
    unfold replaced
    rcases hmem c hc with h | h <;> simp [h]
  have hdrop : ∀ l : Text, (∀ c ∈ l, K.isSpace c = false) → l.dropWhile K.isSpace = l := by
    intro l hl
    cases l with
    | nil => rfl
    | cons c cs => rw [List.dropWhile_cons_of_neg (by simp [hl c (by simp)])]
  have h2 : strip K s = s := by
    unfold strip
    rw [hdrop s hsp, hdrop _ (by simpa using hsp), List.reverse_reverse]
  unfold sanitize
  rw [h1, h2, collapse_id K hK false s h]

/-- **C63** Sanitizing a name twice changes nothing more. -/
theorem sanitize_idempotent (K : Classes) (hK : K.Python) (s : Text) :
    sanitize K (sanitize K s) = sanitize K s :=
  sanitize_id K hK _ (sanitize_clean K hK s)

/-- **C63** A sanitized name has word characters and hyphens only, so it names a file inside of the
directory; a name of such characters without two hyphens in a row is unchanged. -/
theorem sanitized_names_are_safe (K : Classes) (hK : K.Python) (s : Text) :
    (∀ c ∈ sanitize K s, K.isWord c = true ∨ c = '-') ∧ '/' ∉ sanitize K s ∧ '.' ∉ sanitize K s ∧
    ((∀ c ∈ s, K.isWord c = true ∨ c = '-') → ¬['-', '-'] <:+: s → sanitize K s = s) := by
  have h := clean_mem K false _ (sanitize_clean K hK s)
  refine ⟨h, fun hc => ?_, fun hc => ?_, fun h1 h2 => ?_⟩
  · rcases h _ hc with h | h
    · rw [hK.slash.1] at h; cases h
    · cases h
  · rcases h _ hc with h | h
    · rw [hK.dot.1] at h; cases h
    · cases h
  · apply sanitize_id K hK
    have key : ∀ (s : Text) (b : Bool), (∀ c ∈ s, K.isWord c = true ∨ c = '-') →
        ¬['-', '-'] <:+: (if b then '-' :: s else s) → Clean K b s := by
      intro s
      induction s with
      | nil => intro b _ _; trivial
      | cons c cs ih =>
        intro b h1 h2
        rcases h1 c (by simp) with hw | rfl
        · refine Or.inl ⟨hw, ih false (fun x hx => h1 x (by simp [hx])) (fun hc => h2 ?_)⟩
          simp only [Bool.false_eq_true, if_false] at hc
          cases b with
          | true => exact hc.trans ((List.suffix_cons _ _).trans (List.suffix_cons _ _)).isInfix
          | false => exact hc.trans (List.suffix_cons _ _).isInfix
        · cases b with
          | true =>
            exfalso
            apply h2
            simp only [if_true]
            exact (List.prefix_append ['-', '-'] cs).isInfix
          | false =>
            refine Or.inr ⟨rfl, rfl, ih true (fun x hx => h1 x (by simp [hx])) ?_⟩
            simpa using h2
    exact key s false h1 (by simpa using h2)

/-- **C63** Spaces around a name make no difference. -/
theorem spaces_around_names_are_ignored (K : Classes) (a s b : Text)
    (ha : ∀ c ∈ a, K.isSpace c = true) (hb : ∀ c ∈ b, K.isSpace c = true) :
    sanitize K (a ++ s ++ b) = sanitize K s := by
  have hr : ∀ l : Text, (∀ c ∈ l, K.isSpace c = true) → l.map (replaced K) = l := by
    intro l hl
    conv_rhs => rw [← List.map_id l]
    apply List.map_congr_left
    intro c hc
    simp [replaced, hl c hc]
  have hd : ∀ l m : Text, (∀ c ∈ l, K.isSpace c = true) →
      (l ++ m).dropWhile K.isSpace = m.dropWhile K.isSpace := by
    intro l m hl
    induction l with
    | nil => rfl
    | cons c cs ih =>
      rw [List.cons_append, List.dropWhile_cons_of_pos (hl c (by simp)),
        ih (fun x hx => hl x (by simp [hx]))]
  have hs : ∀ m : Text, strip K (a ++ m ++ b) = strip K m := by
    intro m
    unfold strip
    rw [List.append_assoc, hd a _ ha]
    by_cases hm : ∀ c ∈ m, K.isSpace c = true
    · have e1 := hd m b hm
      have e2 := hd m [] hm
      have e3 := hd b [] hb
      rw [List.append_nil] at e2 e3
      rw [e1, e2, e3]
    · have : (m ++ b).dropWhile K.isSpace = m.dropWhile K.isSpace ++ b := by
        clear hd
        induction m with
        | nil => exact absurd (fun c hc => (by cases hc)) hm
        | cons c cs ih =>
          by_cases hc : K.isSpace c = true
          · rw [List.cons_append, List.dropWhile_cons_of_pos hc, List.dropWhile_cons_of_pos hc]
            exact ih (fun h => hm (fun x hx => by
              rcases List.mem_cons.1 hx with rfl | hx
              · exact hc
              · exact h x hx))
          · rw [List.cons_append, List.dropWhile_cons_of_neg hc, List.dropWhile_cons_of_neg hc]
            rfl
      rw [this, List.reverse_append, hd b.reverse _ (by simpa using hb)]
  unfold sanitize
  rw [List.map_append, List.map_append, hr a ha, hr b hb, hs]

/-! ## Files -/

theorem stem_sanitized (K : Classes) (r : Request) : ∃ s, stem K r = sanitize K s := by
  unfold stem
  cases r.name with
  | some n => exact ⟨n, rfl⟩
  | none => exact ⟨_, rfl⟩

theorem stem_safe (K : Classes) (hK : K.Python) (r : Request) :
    '/' ∉ stem K r ∧ '.' ∉ stem K r ∧ sanitize K (stem K r) = stem K r := by
  obtain ⟨s, hs⟩ := stem_sanitized K r
  rw [hs]
  exact ⟨(sanitized_names_are_safe K hK s).2.1, (sanitized_names_are_safe K hK s).2.2.1,
    sanitize_idempotent K hK s⟩

theorem sanitize_key (K : Classes) (hK : K.Python) (r : Request) :
    sanitize K (key K r) = stem K r := by
  unfold key
  cases hn : r.name with
  | some n => unfold stem; rw [hn]; rfl
  | none => exact (stem_safe K hK r).2.2

theorem dot_suffix : '.' ∈ suffix := by decide +kernel

theorem slash_suffix : '/' ∉ suffix := by decide +kernel

theorem suffixed_ne_nil (s : Text) : s ++ suffix ≠ [] := by
  intro h
  have := dot_suffix
  rw [(List.append_eq_nil_iff.1 h).2] at this
  cases this

theorem dot_records : '.' ∈ "tfrecord.gz".toList := by decide +kernel

theorem suffix_records : "tfrecord.gz".toList <:+ suffix := by decide +kernel

theorem stem_ne_suffixed (K : Classes) (hK : K.Python) (r : Request) (s : Text) :
    stem K r ≠ s ++ suffix := by
  intro h
  have := (stem_safe K hK r).2.1
  rw [h] at this
  exact this (List.mem_append_right _ dot_suffix)

theorem assets_eq (K : Classes) (gz : List Text → Text) (es : List Event) :
    assets K gz es = (Spec.requests es).map (fun r => (fileName K r, fileOf gz r)) := by
  unfold assets Spec.requests
  rw [List.map_filterMap]
  congr 1
  funext e
  cases e <;> rfl

theorem mem_requests (es : List Event) (r : Request) :
    r ∈ Spec.requests es ↔ Event.vocabulary r ∈ es := by
  unfold Spec.requests
  rw [List.mem_filterMap]
  constructor
  · rintro ⟨e, he, hr⟩
    cases e with
    | vocabulary x => cases hr; exact he
    | annotateAsset _ _ => cases hr
  · intro h
    exact ⟨_, h, rfl⟩

theorem fileName_inj (K : Classes) (hK : K.Python) (rs : List Request) (hn : (rs.map (stem K)).Nodup)
    (a b : Request) (ha : a ∈ rs) (hb : b ∈ rs) (h : fileName K a = fileName K b) : a = b := by
  apply List.inj_on_of_nodup_map hn ha hb
  unfold fileName at h
  cases hfa : a.format <;> cases hfb : b.format <;> rw [hfa, hfb] at h <;> simp only at h
  · exact h
  · exact absurd h (stem_ne_suffixed K hK a _)
  · exact absurd h.symm (stem_ne_suffixed K hK b _)
  · exact List.append_cancel_right h

theorem lookup_of_mem {κ α : Type} [BEq κ] [LawfulBEq κ] (l : List (κ × α))
    (e : κ × α) (h : e ∈ l) (hn : ∀ x ∈ l, x.1 = e.1 → x = e) : l.lookup e.1 = some e.2 := by
  induction l with
  | nil => cases h
  | cons x xs ih =>
    rw [List.lookup_cons]
    by_cases hx : e.1 = x.1
    · rw [hn x (by simp) hx.symm]; simp
    · rw [beq_false_of_ne hx]
      rcases List.mem_cons.1 h with rfl | h
      · exact absurd rfl hx
      · exact ih h (fun y hy => hn y (by simp [hy]))

theorem lookup_file (K : Classes) (hK : K.Python) (gz : List Text → Text) (es : List Event)
    (hn : ((Spec.requests es).map (stem K)).Nodup) (r : Request) (hr : Event.vocabulary r ∈ es) :
    (assets K gz es).lookup (fileName K r) = some (fileOf gz r) := by
  rw [assets_eq]
  have hr := (mem_requests es r).2 hr
  refine lookup_of_mem _ (fileName K r, fileOf gz r) (List.mem_map.2 ⟨r, hr, rfl⟩) ?_
  intro x hx he
  obtain ⟨y, hy, rfl⟩ := List.mem_map.1 hx
  rw [fileName_inj K hK _ hn y r hy hr he]

theorem names_of_assets (K : Classes) (gz : List Text → Text) (es : List Event) :
    (assets K gz es).map Prod.fst = (Spec.requests es).map (fileName K) := by
  rw [assets_eq, List.map_map]; rfl

theorem stem_file_iff (K : Classes) (hK : K.Python) (gz : List Text → Text) (es : List Event) (s : Text)
    (hs : '.' ∉ s) :
    (s ∈ (assets K gz es).map Prod.fst ↔ ∃ r ∈ Spec.requests es, r.format = .text ∧ stem K r = s) ∧
    (s ++ suffix ∈ (assets K gz es).map Prod.fst ↔
      ∃ r ∈ Spec.requests es, r.format = .tfrecordGzip ∧ stem K r = s) := by
  rw [names_of_assets]
  constructor
  · rw [List.mem_map]
    refine exists_congr (fun r => and_congr_right (fun _ => ?_))
    unfold fileName
    cases r.format with
    | text => simp
    | tfrecordGzip =>
      simp only [reduceCtorEq, false_and, iff_false]
      intro h
      rw [← h] at hs
      exact hs (List.mem_append_right _ dot_suffix)
  · rw [List.mem_map]
    refine exists_congr (fun r => and_congr_right (fun _ => ?_))
    unfold fileName
    cases r.format with
    | text =>
      simp only [reduceCtorEq, false_and, iff_false]
      exact stem_ne_suffixed K hK r s
    | tfrecordGzip =>
      simp only [true_and]
      exact ⟨List.append_cancel_right, fun h => by rw [h]⟩

/-! ## The asset map -/

theorem collections_eq (K : Classes) (es : List Event) :
    collections K es = (es.map (fun e => AOp.annotate (annotationOf K e).1 (annotationOf K e).2)).foldl
      aexec {} := by
  unfold collections
  rw [List.foldl_map]
  rfl

/-- The file annotated last for a key. -/
theorem map_lookup (K : Classes) (es : List Event) :
    ∃ m, getAnnotations (collections K es) = .ok m ∧ ∀ k, m.lookup k
      = (es.filterMap (fun e => if basename (annotationOf K e).1 = k then
          some (basename (annotationOf K e).2) else none)).getLast? := by
  obtain ⟨m, h1, h2⟩ := annotations_exact
    (es.map (fun e => AOp.annotate (annotationOf K e).1 (annotationOf K e).2))
  rw [← collections_eq] at h1
  refine ⟨m, h1, fun k => ?_⟩
  rw [h2]
  clear h1 h2
  induction es using List.reverseRecOn with
  | nil => rfl
  | append_singleton es e ih =>
    unfold annotated at ih ⊢
    rw [List.map_append, List.foldl_append, ih, List.filterMap_append]
    simp only [List.map_cons, List.map_nil, List.foldl_cons, List.foldl_nil]
    by_cases h : basename (annotationOf K e).1 = k <;> simp [h]

theorem basename_last (p : Text) : Spec.IsLastComponent p (basename p) := by
  unfold Spec.IsLastComponent basename
  refine ⟨fun h => ?_, (p.reverse.dropWhile (· ≠ '/')).reverse, ?_, ?_⟩
  · rw [List.mem_reverse] at h
    have : ∀ l : Text, '/' ∉ l.takeWhile (fun c => decide (c ≠ '/')) := by
      intro l
      induction l with
      | nil => simp
      | cons x xs ih =>
        rw [List.takeWhile_cons]
        by_cases hx : x = '/'
        · simp [hx]
        · simpa [hx, Ne.symm hx] using ih
    exact this _ h
  · rw [← List.reverse_append, List.takeWhile_append_dropWhile, List.reverse_reverse]
  · cases hd : p.reverse.dropWhile (fun c => decide (c ≠ '/')) with
    | nil => exact Or.inl rfl
    | cons x xs =>
      right
      rw [List.getLast?_reverse]
      have := List.head?_dropWhile_not (fun c => decide (c ≠ '/')) p.reverse
      rw [hd] at this
      simpa using this

theorem last_unique (p a b : Text) (ha : Spec.IsLastComponent p a) (hb : Spec.IsLastComponent p b) :
    a = b := by
  have key : ∀ (d a : Text), '/' ∉ a → (d = [] ∨ d.getLast? = some '/') → basename (d ++ a) = a := by
    intro d a ha hd
    unfold basename
    rw [List.reverse_append, List.takeWhile_append_of_pos (by
      intro x hx
      have : x ≠ '/' := ne_of_mem_of_not_mem (List.mem_reverse.1 hx) ha
      simpa using this)]
    have : d.reverse.takeWhile (fun x => decide (x ≠ '/')) = [] := by
      rcases hd with rfl | hd
      · rfl
      · rw [← List.head?_reverse] at hd
        cases hl : d.reverse with
        | nil => rfl
        | cons x xs =>
          rw [hl] at hd
          simp only [List.head?_cons, Option.some.injEq] at hd
          subst hd
          rfl
    rw [this]
    simp
  obtain ⟨h1, d1, e1, f1⟩ := ha
  obtain ⟨h2, d2, e2, f2⟩ := hb
  rw [← key d1 a h1 f1, ← key d2 b h2 f2, ← e1, ← e2]

theorem basename_iff (p k : Text) : basename p = k ↔ Spec.IsLastComponent p k :=
  ⟨fun h => h ▸ basename_last p, fun h => last_unique p _ _ (basename_last p) h⟩

theorem basename_id (p : Text) (h : '/' ∉ p) : basename p = p :=
  (basename_iff p p).2 ⟨h, [], rfl, Or.inl rfl⟩

theorem fileName_plain (K : Classes) (hK : K.Python) (r : Request) : '/' ∉ fileName K r := by
  unfold fileName
  cases r.format with
  | text => exact (stem_safe K hK r).1
  | tfrecordGzip =>
    intro h
    rcases List.mem_append.1 h with h | h
    · exact (stem_safe K hK r).1 h
    · exact slash_suffix h

theorem annotationOf_key (K : Classes) (e : Event) : (annotationOf K e).1 = Spec.keyOf K e := by
  cases e <;> rfl

/-- **C63** Publishing never fails. -/
theorem publish_ok (K : Classes) (gz : List Text → Text) (dm : Bool) (others : List (Option (Text × Nat)))
    (es : List Event) : ∃ o, publish K gz dm others es = .ok o := by
  obtain ⟨m, h, _⟩ := map_lookup K es
  exact ⟨_, by unfold publish; rw [h]; rfl⟩

theorem publish_spec (K : Classes) (gz : List Text → Text) (dm : Bool)
    (others : List (Option (Text × Nat))) (es : List Event) (o : Output)
    (h : publish K gz dm others es = .ok o) :
    o.files = assets K gz es ∧ o.schema = some (others ++ metadata K es) ∧
    ∀ k, o.assetMap.lookup k = (es.filterMap (fun e => if basename (annotationOf K e).1 = k then
          some (basename (annotationOf K e).2) else none)).getLast? := by
  obtain ⟨m, h1, h2⟩ := map_lookup K es
  unfold publish at h
  rw [h1] at h
  simp only [bind, Except.bind, pure, Except.pure, Except.ok.injEq] at h
  subst h
  exact ⟨rfl, rfl, h2⟩

/-- **C63** The file of a vocabulary is found under the name given to it (or made for it), if file
names are different, as the documentation demands, and no other name has that name as its last
component (see `slashed_name_takes_over`). -/
theorem vocabulary_file_found_partial (K : Classes) (hK : K.Python) (gz : List Text → Text) (dm : Bool)
    (others : List (Option (Text × Nat))) (es : List Event) (o : Output)
    (ho : publish K gz dm others es = .ok o) (r : Request) (hr : Event.vocabulary r ∈ es)
    (hn : ((Spec.requests es).map (stem K)).Nodup) (hne : stem K r ≠ [])
    (hu : ∀ e ∈ es, Spec.IsLastComponent (Spec.keyOf K e) (Spec.keyOf K (.vocabulary r)) →
      e = .vocabulary r) :
    fileByName K o (Spec.keyOf K (.vocabulary r)) = .ok (some (fileName K r)) := by
  obtain ⟨h1, _, h3⟩ := publish_spec K gz dm others es o ho
  set k := Spec.keyOf K (.vocabulary r) with hk
  have hmem : fileName K r ∈ o.files.map Prod.fst := by
    rw [h1, names_of_assets]
    exact List.mem_map_of_mem ((mem_requests es r).2 hr)
  unfold fileByName
  cases hl : o.assetMap.lookup k with
  | some f =>
    rw [h3] at hl
    obtain ⟨e, he, hf⟩ := List.mem_filterMap.1 (List.mem_of_getLast? hl)
    by_cases hb : basename (annotationOf K e).1 = k
    · rw [if_pos hb, Option.some.injEq] at hf
      rw [annotationOf_key] at hb
      have := hu e he ((basename_iff _ _).1 hb)
      subst this
      simp only [annotationOf, basename_id _ (fileName_plain K hK r)] at hf
      subst hf
      simp only [Option.filter, fileExists, hmem, or_true, decide_true, if_true]
    · rw [if_neg hb] at hf; cases hf
  | none =>
    have hsan : sanitize K k = stem K r := sanitize_key K hK r
    have hdot := (stem_safe K hK r).2.1
    simp only [Option.filter_none, hsan]
    obtain ⟨i1, i2⟩ := stem_file_iff K hK gz es (stem K r) hdot
    have hr' := (mem_requests es r).2 hr
    unfold glob
    rw [if_neg hne, if_neg (suffixed_ne_nil _), h1]
    cases hf : r.format with
    | text =>
      rw [if_pos (i1.2 ⟨r, hr', hf, rfl⟩), if_neg]
      · simp [fileName, hf]
      · intro hc
        obtain ⟨x, hx, hxf, hxs⟩ := i2.1 hc
        have := List.inj_on_of_nodup_map hn hx hr' hxs
        rw [this, hf] at hxf; cases hxf
    | tfrecordGzip =>
      rw [if_pos (i2.2 ⟨r, hr', hf, rfl⟩), if_neg]
      · simp [fileName, hf]
      · intro hc
        obtain ⟨x, hx, hxf, hxs⟩ := i1.1 hc
        have := List.inj_on_of_nodup_map hn hx hr' hxs
        rw [this, hf] at hxf; cases hxf

/-! ## Contents -/

theorem lines_entry (e rest cur : Text) (h : '\n' ∉ e) :
    lines cur (e ++ '\n' :: rest) = (cur ++ e ++ ['\n']) :: lines [] rest := by
  induction e generalizing cur with
  | nil => simp [lines]
  | cons c cs ih =>
    have hc : c ≠ '\n' := fun hc => h (by simp [hc])
    rw [List.cons_append, lines, if_neg hc, ih _ (fun hm => h (by simp [hm]))]
    simp

theorem lines_file (es : List Text) (h : ∀ e ∈ es, '\n' ∉ e) :
    lines [] (es.flatMap (fun e => e ++ ['\n'])) = es.map (fun e => e ++ ['\n']) := by
  induction es with
  | nil => rfl
  | cons e es ih =>
    rw [List.flatMap_cons, List.append_assoc, List.singleton_append, lines_entry _ _ _ (h e (by simp)),
      ih (fun x hx => h x (by simp [hx]))]
    simp

theorem rstrip_entry (e : Text) (h : '\n' ∉ e) : rstrip (e ++ ['\n']) = e := by
  unfold rstrip
  rw [List.reverse_append]
  simp only [List.reverse_cons, List.reverse_nil, List.nil_append, List.singleton_append]
  rw [List.dropWhile_cons_of_pos (by simp)]
  cases hr : e.reverse with
  | nil =>
    have := List.reverse_eq_nil_iff.1 hr
    simp [this]
  | cons x xs =>
    have hx : x ≠ '\n' := by
      rintro rfl
      apply h
      rw [← List.mem_reverse, hr]
      simp
    rw [List.dropWhile_cons_of_neg (by simpa using hx), ← hr, List.reverse_reverse]

theorem records_iff (K : Classes) (hK : K.Python) (r : Request) :
    isRecords (fileName K r) = true ↔ r.format = .tfrecordGzip := by
  unfold isRecords fileName
  cases r.format with
  | text =>
    simp only [reduceCtorEq, iff_false]
    intro h
    rw [List.isSuffixOf_iff_suffix] at h
    exact (stem_safe K hK r).2.1 (h.subset dot_records)
  | tfrecordGzip =>
    simp only [iff_true]
    rw [List.isSuffixOf_iff_suffix]
    refine List.IsSuffix.trans ?_ (List.suffix_append _ _)
    exact suffix_records

/-- The entries of text vocabularies are lines. (Tokens with line breaks are filtered out of the data,
see C04; reserved tokens are not, see `reserved_token_with_newline`.) -/
def Spec.Lines (r : Request) : Prop := r.format = .text → ∀ e ∈ r.entries, '\n' ∉ e

theorem entries_of_file (K : Classes) (hK : K.Python) (gz : List Text → Text) (es : List Event)
    (o : Output) (ho : o.files = assets K gz es) (r : Request) (hr : Event.vocabulary r ∈ es)
    (hn : ((Spec.requests es).map (stem K)).Nodup) (hl : Spec.Lines r) :
    entriesOf o (fileName K r) = .ok r.entries := by
  unfold entriesOf openFile
  rw [ho, lookup_file K hK gz es hn r hr]
  simp only [bind, Except.bind]
  cases hf : r.format with
  | text =>
    have : isRecords (fileName K r) = false := by
      rw [Bool.eq_false_iff, ne_eq, records_iff K hK r, hf]; simp
    rw [this]
    simp only [fileOf, hf, Bool.false_eq_true, if_false, pure, Except.pure, Except.ok.injEq]
    rw [lines_file _ (hl hf), List.map_map]
    conv_rhs => rw [← List.map_id r.entries]
    apply List.map_congr_left
    intro e he
    exact rstrip_entry e (hl hf e he)
  | tfrecordGzip =>
    rw [(records_iff K hK r).2 hf]
    simp only [fileOf, hf, if_true]
    rfl

/-- **C63** Under its name a vocabulary is read back: its entries, in order. -/
theorem vocabulary_read_back_partial (K : Classes) (hK : K.Python) (gz : List Text → Text) (dm : Bool)
    (others : List (Option (Text × Nat))) (es : List Event) (o : Output)
    (ho : publish K gz dm others es = .ok o) (r : Request) (hr : Event.vocabulary r ∈ es)
    (hn : ((Spec.requests es).map (stem K)).Nodup) (hne : stem K r ≠ [])
    (hu : ∀ e ∈ es, Spec.IsLastComponent (Spec.keyOf K e) (Spec.keyOf K (.vocabulary r)) →
      e = .vocabulary r) (hl : Spec.Lines r) :
    vocabularyByName K o (Spec.keyOf K (.vocabulary r)) = .ok r.entries := by
  unfold vocabularyByName
  rw [vocabulary_file_found_partial K hK gz dm others es o ho r hr hn hne hu]
  exact entries_of_file K hK gz es o (publish_spec K gz dm others es o ho).1 r hr hn hl

theorem metadata_mem (K : Classes) (es : List Event) (f : Text) (n : Nat) :
    some (f, n) ∈ metadata K es ↔
      ∃ r ∈ Spec.requests es, r.approximate = false ∧ stem K r = f ∧ r.size = n := by
  unfold metadata Spec.requests
  rw [List.mem_filterMap]
  constructor
  · rintro ⟨e, he, h⟩
    cases e with
    | vocabulary r =>
      simp only at h
      by_cases ha : r.approximate = true
      · rw [if_pos ha] at h; cases h
      · rw [if_neg ha] at h
        simp only [Option.some.injEq, Prod.mk.injEq] at h
        exact ⟨r, List.mem_filterMap.2 ⟨_, he, rfl⟩, by simpa using ha, h.1, h.2⟩
    | annotateAsset _ _ => cases h
  · rintro ⟨r, hr, ha, h1, h2⟩
    obtain ⟨e, he, h⟩ := List.mem_filterMap.1 hr
    cases e with
    | vocabulary x =>
      cases h
      refine ⟨_, he, ?_⟩
      simp [ha, h1, h2]
    | annotateAsset _ _ => cases h

/-- **C63** The size found under the name of a vocabulary is the number of its entries, if that is what
was annotated (C12); other annotations of the schema are of other types. -/
theorem vocabulary_size_found_partial (K : Classes) (hK : K.Python) (gz : List Text → Text) (dm : Bool)
    (others : List (Option (Text × Nat))) (es : List Event) (o : Output)
    (ho : publish K gz dm others es = .ok o) (r : Request) (hr : Event.vocabulary r ∈ es)
    (hn : ((Spec.requests es).map (stem K)).Nodup) (hne : stem K r ≠ [])
    (hu : ∀ e ∈ es, Spec.IsLastComponent (Spec.keyOf K e) (Spec.keyOf K (.vocabulary r)) →
      e = .vocabulary r) (hl : Spec.Lines r) (hs : r.approximate = false → r.size = r.entries.length)
    (hoth : ∀ a ∈ others, a = none) :
    sizeByName K o (Spec.keyOf K (.vocabulary r)) = .ok r.entries.length := by
  obtain ⟨h1, h2, _⟩ := publish_spec K gz dm others es o ho
  set k := Spec.keyOf K (.vocabulary r) with hk
  unfold sizeByName
  cases ha : sizeFromAnnotations o k with
  | some n =>
    simp only
    congr 1
    unfold sizeFromAnnotations at ha
    rw [h2] at ha
    simp only at ha
    obtain ⟨a, ha1, ha2⟩ := Option.bind_eq_some_iff.1 ha
    have hmem := List.mem_of_find?_eq_some ha1
    have hp := List.find?_some ha1
    cases a with
    | none => cases ha2
    | some p =>
      obtain ⟨f, m⟩ := p
      simp only [Option.map_some, Option.some.injEq] at ha2
      simp only [decide_eq_true_eq] at hp
      rcases List.mem_append.1 hmem with hmem | hmem
      · cases hoth _ hmem
      · obtain ⟨x, hx, hxa, hxs, hxn⟩ := (metadata_mem K es f m).1 hmem
        have hstem : stem K x = stem K r := by
          have h1 := (stem_safe K hK x).2.2
          have h2 : sanitize K k = stem K r := sanitize_key K hK r
          rw [hxs, hp.1, h2] at h1
          rw [hxs, hp.1, ← h1]
        have := List.inj_on_of_nodup_map hn hx ((mem_requests es r).2 hr) hstem
        subst this
        rw [← ha2, ← hxn, hs hxa]
  | none =>
    simp only
    rw [vocabulary_file_found_partial K hK gz dm others es o ho r hr hn hne hu]
    simp only [bind, Except.bind]
    unfold openFile
    rw [h1, lookup_file K hK gz es hn r hr]
    simp only
    cases hf : r.format with
    | text =>
      have : isRecords (fileName K r) = false := by
        rw [Bool.eq_false_iff, ne_eq, records_iff K hK r, hf]; simp
      rw [this]
      simp only [fileOf, hf, Bool.false_eq_true, if_false, pure, Except.pure, Except.ok.injEq]
      rw [lines_file _ (hl hf), List.length_map]
    | tfrecordGzip =>
      rw [(records_iff K hK r).2 hf]
      simp only [fileOf, hf, if_true]
      rfl

/-- **C63** A name that is not the last component of any key, and that does not sanitize to the name
of a vocabulary, is not found: no file, and errors for its entries and its size. -/
theorem unknown_names_are_not_found (K : Classes) (hK : K.Python) (gz : List Text → Text) (dm : Bool)
    (others : List (Option (Text × Nat))) (es : List Event) (o : Output)
    (ho : publish K gz dm others es = .ok o) (name : Text) (hne : sanitize K name ≠ [])
    (h1 : ∀ e ∈ es, ¬Spec.IsLastComponent (Spec.keyOf K e) name)
    (h2 : ∀ r, Event.vocabulary r ∈ es → stem K r ≠ sanitize K name)
    (hoth : ∀ a ∈ others, a = none) :
    fileByName K o name = .ok none ∧ (∃ e, vocabularyByName K o name = .error e) ∧
      ∃ e, sizeByName K o name = .error e := by
  obtain ⟨o1, o2, o3⟩ := publish_spec K gz dm others es o ho
  have hf : fileByName K o name = .ok none := by
    unfold fileByName
    have hl : o.assetMap.lookup name = none := by
      rw [o3, List.getLast?_eq_none_iff, List.filterMap_eq_nil_iff]
      intro e he
      rw [if_neg]
      rw [annotationOf_key, basename_iff]
      exact h1 e he
    obtain ⟨i1, i2⟩ := stem_file_iff K hK gz es (sanitize K name)
      (sanitized_names_are_safe K hK name).2.2.1
    rw [hl]
    simp only [Option.filter_none]
    unfold glob
    rw [if_neg hne, if_neg (suffixed_ne_nil _), o1, if_neg, if_neg]
    · rfl
    · intro hc
      obtain ⟨r, hr, _, hs⟩ := i2.1 hc
      exact h2 r ((mem_requests es r).1 hr) hs
    · intro hc
      obtain ⟨r, hr, _, hs⟩ := i1.1 hc
      exact h2 r ((mem_requests es r).1 hr) hs
  refine ⟨hf, ⟨_, by unfold vocabularyByName; rw [hf]; rfl⟩, ?_⟩
  unfold sizeByName
  cases ha : sizeFromAnnotations o name with
  | none => exact ⟨_, by simp only; rw [hf]; rfl⟩
  | some n =>
    exfalso
    unfold sizeFromAnnotations at ha
    rw [o2] at ha
    simp only at ha
    obtain ⟨a, ha1, ha2⟩ := Option.bind_eq_some_iff.1 ha
    have hmem := List.mem_of_find?_eq_some ha1
    have hp := List.find?_some ha1
    cases a with
    | none => cases ha2
    | some p =>
      obtain ⟨f, m⟩ := p
      simp only [decide_eq_true_eq] at hp
      rcases List.mem_append.1 hmem with hmem | hmem
      · cases hoth _ hmem
      · obtain ⟨x, hx, _, hxs, _⟩ := (metadata_mem K es f m).1 hmem
        apply h2 x ((mem_requests es x).1 hx)
        have h1 := (stem_safe K hK x).2.2
        rw [← h1, hxs, hp.1]

/-- **C63** A key of `tft.annotate_asset` finds the file annotated for it, if it exists. -/
theorem annotated_asset_found (K : Classes) (gz : List Text → Text) (dm : Bool)
    (others : List (Option (Text × Nat))) (es : List Event) (o : Output)
    (ho : publish K gz dm others es = .ok o) (k f : Text) (he : Event.annotateAsset k f ∈ es)
    (hk : '/' ∉ k) (hf : '/' ∉ f) (hex : f ∈ o.files.map Prod.fst)
    (hu : ∀ e ∈ es, Spec.IsLastComponent (Spec.keyOf K e) k → e = .annotateAsset k f) :
    fileByName K o k = .ok (some f) := by
  obtain ⟨_, _, o3⟩ := publish_spec K gz dm others es o ho
  have hl : o.assetMap.lookup k = some f := by
    rw [o3]
    cases hg : (es.filterMap (fun e => if basename (annotationOf K e).1 = k then
          some (basename (annotationOf K e).2) else none)).getLast? with
    | none =>
      rw [List.getLast?_eq_none_iff, List.filterMap_eq_nil_iff] at hg
      have := hg _ he
      simp [annotationOf, basename_id k hk] at this
    | some g =>
      obtain ⟨e, he', hg'⟩ := List.mem_filterMap.1 (List.mem_of_getLast? hg)
      by_cases hb : basename (annotationOf K e).1 = k
      · rw [if_pos hb, Option.some.injEq] at hg'
        rw [annotationOf_key] at hb
        have := hu e he' ((basename_iff _ _).1 hb)
        subst this
        simp only [annotationOf, basename_id f hf] at hg'
        rw [hg']
      · rw [if_neg hb] at hg'; cases hg'
  unfold fileByName
  rw [hl]
  simp only [Option.filter, fileExists, hex, or_true, decide_true, if_true]

/-- **C63** A file that is returned exists. (An empty name in the asset map is the directory itself.) -/
theorem found_files_exist (K : Classes) (o : Output) (name f : Text)
    (h : fileByName K o name = .ok (some f)) : f = [] ∨ f ∈ o.files.map Prod.fst := by
  have hg : ∀ s x, x ∈ glob o s → x = [] ∨ x ∈ o.files.map Prod.fst := by
    intro s x hx
    unfold glob at hx
    by_cases hs : s = []
    · rw [if_pos hs] at hx
      cases hd : o.dirMatches <;> rw [hd] at hx <;> simp at hx
      exact Or.inl hx
    · rw [if_neg hs] at hx
      by_cases hm : s ∈ o.files.map Prod.fst
      · rw [if_pos hm, List.mem_singleton] at hx
        rw [hx]; exact Or.inr hm
      · rw [if_neg hm] at hx; cases hx
  unfold fileByName at h
  cases hl : (o.assetMap.lookup name).filter (fileExists o) with
  | some g =>
    rw [hl] at h
    simp only [Except.ok.injEq, Option.some.injEq] at h
    subst h
    have := (Option.filter_eq_some_iff.1 hl).2
    simpa [fileExists] using this
  | none =>
    rw [hl] at h
    simp only at h
    cases hc : glob o (sanitize K name) ++ glob o (sanitize K name ++ suffix) with
    | nil => rw [hc] at h; simp at h
    | cons x xs =>
      cases xs with
      | nil =>
        rw [hc] at h
        simp only [Except.ok.injEq, Option.some.injEq] at h
        subst h
        have : x ∈ glob o (sanitize K name) ++ glob o (sanitize K name ++ suffix) := by rw [hc]; simp
        rcases List.mem_append.1 this with h | h
        · exact hg _ _ h
        · exact hg _ _ h
      | cons y ys => rw [hc] at h; simp at h

/-- **C63** Reading a text file by lines loses nothing, also if it does not end with a line feed; a
line feed occurs at most once, at the end of a line. -/
theorem lines_are_the_file (cur bytes : Text) (hc : '\n' ∉ cur) :
    (lines cur bytes).flatten = cur ++ bytes ∧
    ∀ l ∈ lines cur bytes, l ≠ [] ∧ '\n' ∉ l.dropLast := by
  induction bytes generalizing cur with
  | nil =>
    unfold lines
    by_cases h : cur = []
    · simp [h]
    · rw [if_neg h]
      refine ⟨by simp, ?_⟩
      intro l hl
      rw [List.mem_singleton] at hl
      subst hl
      exact ⟨h, fun hm => hc (List.dropLast_subset _ hm)⟩
  | cons c cs ih =>
    unfold lines
    by_cases h : c = '\n'
    · rw [if_pos h]
      obtain ⟨i1, i2⟩ := ih [] (by simp)
      refine ⟨by simp [i1, h], ?_⟩
      intro l hl
      rcases List.mem_cons.1 hl with rfl | hl
      · exact ⟨by simp, by simpa using hc⟩
      · exact i2 l hl
    · rw [if_neg h]
      obtain ⟨i1, i2⟩ := ih (cur ++ [c]) (by simp [hc, Ne.symm h])
      exact ⟨by rw [i1]; simp, i2⟩

/-- **C63** Inside of `preprocessing_fn`, `get_vocabulary_size_by_name` gives the size of the
vocabulary with exactly that name, and fails for others. Approximate vocabularies have no size. -/
theorem size_inside (K : Classes) (es : List Event) (name : Text) :
    (∀ r, Event.vocabulary r ∈ es → r.approximate = false → Spec.keyOf K (.vocabulary r) = name →
      (∀ x, Event.vocabulary x ∈ es → x.approximate = false → Spec.keyOf K (.vocabulary x) = name →
        x = r) → sizeInside K es name = .ok r.size) ∧
    ((∀ r, Event.vocabulary r ∈ es → Spec.keyOf K (.vocabulary r) ≠ name) →
      ∃ e, sizeInside K es name = .error e) := by
  unfold sizeInside
  constructor
  · intro r hr ha hk hu
    have : ((es.filterMap (sizeEntry K)).reverse.lookup name) = some r.size := by
      have hmem : ∀ p, p ∈ (es.filterMap (sizeEntry K)).reverse ↔
          ∃ x, Event.vocabulary x ∈ es ∧ x.approximate = false ∧ (key K x, x.size) = p := by
        intro p
        rw [List.mem_reverse, List.mem_filterMap]
        constructor
        · rintro ⟨e, he, h⟩
          cases e with
          | vocabulary x =>
            simp only [sizeEntry] at h
            by_cases hx : x.approximate = true
            · rw [if_pos hx] at h; cases h
            · rw [if_neg hx] at h
              exact ⟨x, he, by simpa using hx, Option.some.inj h⟩
          | annotateAsset _ _ => cases h
        · rintro ⟨x, hx, hxa, h⟩
          exact ⟨_, hx, by simp [sizeEntry, hxa, h]⟩
      have := lookup_of_mem _ (name, r.size) ((hmem _).2 ⟨r, hr, ha, by rw [← hk]; rfl⟩) (by
        intro p hp he
        obtain ⟨x, hx, hxa, h⟩ := (hmem p).1 hp
        have hxr := hu x hx hxa (by
          have he' : p.1 = name := he
          rw [← he', ← h]; rfl)
        rw [← h, hxr, ← hk]
        rfl)
      exact this
    rw [this]
  · intro h
    have : ((es.filterMap (sizeEntry K)).reverse.lookup name) = none := by
      rw [List.lookup_eq_none_iff]
      intro p hp
      rw [List.mem_reverse, List.mem_filterMap] at hp
      obtain ⟨e, he, hq⟩ := hp
      cases e with
      | vocabulary x =>
        simp only [sizeEntry] at hq
        by_cases hx : x.approximate = true
        · rw [if_pos hx] at hq; cases hq
        · rw [if_neg hx] at hq
          have := h x he
          rw [← Option.some.inj hq]
          simpa using fun hc : name = key K x => this hc.symm
      | annotateAsset _ _ => cases hq
    rw [this]
    exact ⟨_, rfl⟩

/-- **C63** The number of buckets of an integerized feature is known exactly if its domain is an
integer domain that begins at 0, and then it is the number of its values. -/
theorem num_buckets_exact (domains : List (String × FeatureSpec.Domain)) (name : String) (n : Int) :
    numBuckets domains name = .ok n ↔
      ∃ lo hi cat, domains.lookup name = some (.int lo hi cat) ∧ lo.getD 0 = 0 ∧ n = hi.getD 0 + 1 := by
  unfold numBuckets
  cases hd : domains.lookup name with
  | none => simp
  | some d =>
    cases d with
    | int lo hi cat =>
      simp only [Option.some.injEq, FeatureSpec.Domain.int.injEq]
      by_cases h : lo.getD 0 = 0
      · rw [if_neg (by simpa using h), Except.ok.injEq]
        constructor
        · intro he; exact ⟨lo, hi, cat, ⟨rfl, rfl, rfl⟩, h, he.symm⟩
        · rintro ⟨_, _, _, ⟨rfl, rfl, rfl⟩, _, he⟩; exact he.symm
      · rw [if_pos h]
        constructor
        · intro he; cases he
        · rintro ⟨_, _, _, ⟨rfl, rfl, rfl⟩, h', _⟩; exact absurd h' h
    | string _ _ => simp
    | float _ _ => simp

/-! ## Cases -/

/-- The classes of ASCII. -/
def Cases.ascii : Classes := ⟨fun c => c.isAlphanum || c == '_', Char.isWhitespace⟩

theorem Cases.ascii_python : Cases.ascii.Python where
  underscore := by decide
  disjoint := by
    intro c h
    by_contra hc
    have hc : c.isWhitespace = true := by simpa [Cases.ascii] using hc
    simp only [Char.isWhitespace, Bool.or_eq_true, decide_eq_true_eq, beq_iff_eq] at hc
    rcases hc with ((rfl | rfl) | rfl) | rfl <;> revert h <;> decide
  hyphen := by decide
  slash := by decide
  dot := by decide

/-- Three vocabularies, one of them compressed and one without a name, and an annotated asset. -/
def Cases.words : Request := ⟨some "my words!".toList, [], false, false, .text,
  ["the".toList, "a cat".toList], 2⟩
def Cases.tags : Request := ⟨some "tags".toList, [], false, true, .tfrecordGzip,
  ["3 x".toList, "1 y\nz".toList], 2⟩
def Cases.plain : Request := ⟨none, "vocabulary".toList, true, false, .text, ["k".toList], 0⟩

def Cases.events : List Event :=
  [.vocabulary Cases.words, .annotateAsset "alias".toList "tags.tfrecord.gz".toList,
   .vocabulary Cases.tags, .vocabulary Cases.plain]

def Cases.gz (es : List Text) : Text := es.flatten

/-- The names are made as expected. -/
example : Cases.events.filterMap (fun e => match e with
      | .vocabulary r => some (fileName Cases.ascii r)
      | .annotateAsset _ _ => none)
    = ["my-words_".toList, "tags.tfrecord.gz".toList, "approx_vocab_frequency_vocabulary".toList] := by
  decide +kernel

/-- The hypotheses about names hold, for each of the vocabularies. -/
example : ((Spec.requests Cases.events).map (stem Cases.ascii)).Nodup ∧
    (∀ r ∈ Spec.requests Cases.events, stem Cases.ascii r ≠ [] ∧
      (r.approximate = false → r.size = r.entries.length) ∧
      (∀ e ∈ Cases.events, basename (Spec.keyOf Cases.ascii e) = Spec.keyOf Cases.ascii (.vocabulary r) →
        e = .vocabulary r)) := by
  decide +kernel

example : ∀ r ∈ Spec.requests Cases.events, Spec.Lines r := by
  unfold Spec.Lines
  decide +kernel

/-- What a caller sees. -/
example : ((publish Cases.ascii Cases.gz false [none] Cases.events).toOption.map (fun o =>
    ((vocabularyByName Cases.ascii o "my words!".toList).toOption,
     (sizeByName Cases.ascii o "my words!".toList).toOption,
     (vocabularyByName Cases.ascii o "alias".toList).toOption,
     (sizeByName Cases.ascii o "approx_vocab_frequency_vocabulary".toList).toOption,
     (fileByName Cases.ascii o "nothing".toList).toOption)))
    = some (some ["the".toList, "a cat".toList], some 2, some ["3 x".toList, "1 y\nz".toList], some 1,
        some none) := by
  rfl

example : (sizeInside Cases.ascii Cases.events "my words!".toList).toOption = some 2 ∧
    (sizeInside Cases.ascii Cases.events "my-words_".toList).toOption = none := by
  decide +kernel

example : (numBuckets [("x", .int (some 0) (some 9) true)] "x").toOption = some 10 ∧
    (numBuckets [("x", .int (some (-1)) (some 9) true)] "x").toOption = none := by
  decide +kernel

/-- **C63** What is missing, 1: keys lose everything before the last slash, so a vocabulary named
`x/b` takes over the name `b` of another one: its entries are read under that name, while the size is
still that of the other. Under its own name it is still found, by its sanitized name. -/
theorem slashed_name_takes_over :
    ∃ a b : Request, a.name = some "b".toList ∧ b.name = some "x/b".toList ∧
      stem Cases.ascii a ≠ stem Cases.ascii b ∧ a.entries ≠ b.entries ∧
      ∃ o, publish Cases.ascii Cases.gz false [] [.vocabulary a, .vocabulary b] = .ok o ∧
        vocabularyByName Cases.ascii o "b".toList = .ok b.entries ∧
        sizeByName Cases.ascii o "b".toList = .ok a.entries.length ∧
        vocabularyByName Cases.ascii o "x/b".toList = .ok b.entries :=
  ⟨⟨some "b".toList, [], false, false, .text, ["p".toList, "q".toList], 2⟩,
   ⟨some "x/b".toList, [], false, false, .text, ["r".toList], 1⟩,
   by decide +kernel, by decide +kernel, by decide +kernel, by decide +kernel, _, rfl,
   rfl, rfl, rfl⟩

/-- **C63** What is missing, 2: a reserved token with a line break in a text vocabulary reads back as
two entries. -/
theorem reserved_token_with_newline :
    ∃ r : Request, r.format = .text ∧ ∃ o,
      publish Cases.ascii Cases.gz false [] [.vocabulary r] = .ok o ∧
        vocabularyByName Cases.ascii o "v".toList = .ok ["a".toList, "b".toList] ∧
        r.entries = ["a\nb".toList] ∧ sizeByName Cases.ascii o "v".toList = .ok 1 :=
  ⟨⟨some "v".toList, [], false, false, .text, ["a\nb".toList], 1⟩, rfl, _, rfl, rfl, rfl, rfl⟩

end TFT.VocabAccess
