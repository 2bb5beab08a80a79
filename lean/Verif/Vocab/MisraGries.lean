import Verif.Vocab.ApproximateProps

/-!
# The Misra-Gries algorithm meets the contract of the sketch (C92)

A sketch that works as the papers cited by `approximate_vocabulary` describe
(`experimental/analyzers.py:373-376`). It is not the C++ code of tfx_bsl; it shows that the contract can
be met with at most `k` counters, however the data is divided and merged.
-/

namespace TFT.ApproxVocab.MisraGries

open TFT.Vocab TFT.ApproxVocab.Spec

variable {T B : Type} [DecidableEq T] [LinearOrder B]

/-- A sketch: the number of counters it may keep, the counters, and the error so far. -/
structure Sketch (B : Type) where
  size : Nat
  counters : List (B × ℚ)
  error : ℚ

/-- One counter for every token. -/
def tally (l : List (B × ℚ)) : List (B × ℚ) :=
  (uniqFirst (l.map Prod.fst)).map (fun t => (t, freq l t))

/-- The counters, largest first. -/
def sorted (l : List (B × ℚ)) : List (B × ℚ) :=
  ((l.map (fun r => (r.2, r.1))).insertionSort precedes).map (fun e => (e.2, e.1))

/-- If there are too many counters, the largest one that has to go is subtracted from all, and only
those that remain positive are kept. -/
def compress (s : Sketch B) : Sketch B :=
  match (sorted s.counters)[s.size]? with
  | none => s
  | some (_, c) =>
    { s with
      counters := (s.counters.filter (fun r => decide (c < r.2))).map (fun r => (r.1, r.2 - c))
      error := s.error + c }

/-- The methods. -/
def api (enc : T → B) : SketchApi (Sketch B) T B where
  new := fun k => ⟨k, [], 0⟩
  addValues := fun s items ws =>
    if items.length ≠ ws.length then .error "Invalid: weights and items do not match"
    else .ok (compress { s with counters := tally (s.counters ++ (items.map enc).zip ws) })
  merge := fun s t =>
    if s.size ≠ t.size then .error "Invalid: sketches of different sizes"
    else .ok (compress
      { s with counters := tally (s.counters ++ t.counters), error := s.error + t.error })
  estimate := fun s => .ok (sorted s.counters)

/-- What a sketch of `k` counters knows about the data `d`. -/
structure Rep (k : Nat) (s : Sketch B) (d : List (B × ℚ)) : Prop where
  size : s.size = k
  est : Estimates k d s.counters s.error

/-! ## Counting -/

theorem freq_tally (l : List (B × ℚ)) (t : B) : freq (tally l) t = freq l t := by
  have h := freq_map_nodup (id : B → B) Function.injective_id (uniqFirst (l.map Prod.fst))
    (nodup_uniqFirst _) (freq l) t
  simp only [id] at h
  unfold tally
  rw [h]
  split
  · rfl
  · rename_i h'
    rw [freq_of_not_mem]
    exact fun hm => h' ((mem_uniqFirst _ _).2 hm)

theorem tally_keys (l : List (B × ℚ)) : (tally l).map Prod.fst = uniqFirst (l.map Prod.fst) := by
  unfold tally
  rw [List.map_map]
  exact List.map_id _

theorem tally_nonneg (l : List (B × ℚ)) (h : ∀ p ∈ l, 0 ≤ p.2) : ∀ r ∈ tally l, 0 ≤ r.2 := by
  intro r hr
  obtain ⟨t, _, rfl⟩ := List.mem_map.1 hr
  exact freq_nonneg l h t

theorem sorted_perm (l : List (B × ℚ)) : (sorted l).Perm l := by
  unfold sorted
  have h := (List.perm_insertionSort (precedes (B := B)) (l.map (fun r => (r.2, r.1)))).map
    (fun e => (e.2, e.1))
  refine h.trans ?_
  rw [List.map_map]
  exact List.Perm.of_eq (List.map_id _)

theorem sorted_desc (l : List (B × ℚ)) : (sorted l).Pairwise (fun a b => b.2 ≤ a.2) := by
  unfold sorted
  rw [List.pairwise_map]
  refine (List.pairwise_insertionSort (precedes (B := B)) _).imp ?_
  rintro a b (h | ⟨h, _⟩)
  · exact h.le
  · exact h.le

theorem sorted_ordered (l : List (B × ℚ)) (hnd : (l.map Prod.fst).Nodup) : Ordered (sorted l) := by
  have hnd' : (sorted l).Pairwise (fun a b => a.1 ≠ b.1) := by
    have := ((sorted_perm l).map Prod.fst).nodup_iff.2 hnd
    exact List.pairwise_map.1 this
  unfold Ordered
  unfold sorted at hnd' ⊢
  rw [List.pairwise_map] at hnd' ⊢
  refine ((List.pairwise_insertionSort (precedes (B := B)) _).and hnd').imp ?_
  rintro a b ⟨h | ⟨h1, h2⟩, hne⟩
  · exact .inl h
  · exact .inr ⟨h1, lt_of_le_of_ne h2 (Ne.symm hne)⟩

/-! ## Compression -/

theorem freq_single (l : List (B × ℚ)) (hnd : (l.map Prod.fst).Nodup) (r : B × ℚ) (hr : r ∈ l) :
    freq l r.1 = r.2 := by
  obtain ⟨a, b, rfl⟩ := List.append_of_mem hr
  rw [List.map_append, List.map_cons, List.nodup_middle, List.nodup_cons] at hnd
  rw [freq_append, freq_cons, if_pos rfl, freq_of_not_mem a, freq_of_not_mem b]
  · ring
  · exact fun h => hnd.1 (List.mem_append.2 (.inr h))
  · exact fun h => hnd.1 (List.mem_append.2 (.inl h))

/-- The counters after subtracting `c`. -/
def cut (c : ℚ) (l : List (B × ℚ)) : List (B × ℚ) :=
  (l.filter (fun r => decide (c < r.2))).map (fun r => (r.1, r.2 - c))

theorem cut_keys (c : ℚ) (l : List (B × ℚ)) :
    (cut c l).map Prod.fst = (l.filter (fun r => decide (c < r.2))).map Prod.fst := by
  unfold cut
  rw [List.map_map]
  rfl

theorem total_cut (c : ℚ) (l : List (B × ℚ)) :
    total l - total (cut c l) = (l.map (fun r => min r.2 c)).sum := by
  induction l with
  | nil => simp [total, cut]
  | cons r l ih =>
    have e : total (r :: l) = r.2 + total l := by simp [total]
    by_cases h : c < r.2
    · have e2 : total (cut c (r :: l)) = (r.2 - c) + total (cut c l) := by simp [total, cut, h]
      rw [e, e2, List.map_cons, List.sum_cons, min_eq_right h.le, ← ih]
      ring
    · have e2 : total (cut c (r :: l)) = total (cut c l) := by simp [total, cut, h]
      rw [e, e2, List.map_cons, List.sum_cons, min_eq_left (not_lt.1 h), ← ih]
      ring

theorem freq_cut_le (c : ℚ) (hc : 0 ≤ c) (l : List (B × ℚ)) (hl : ∀ r ∈ l, 0 ≤ r.2) (t : B) :
    freq (cut c l) t ≤ freq l t := by
  induction l with
  | nil => simp [cut]
  | cons r l ih =>
    have ih' := ih (fun q hq => hl q (by simp [hq]))
    have h0 := hl r (by simp)
    by_cases h : c < r.2
    · have e2 : cut c (r :: l) = (r.1, r.2 - c) :: cut c l := by simp [cut, h]
      rw [e2, freq_cons, freq_cons]
      dsimp only
      split <;> linarith
    · have e2 : cut c (r :: l) = cut c l := by simp [cut, h]
      rw [e2, freq_cons]
      split <;> linarith

theorem freq_cut_ge (c : ℚ) (hc : 0 ≤ c) (l : List (B × ℚ)) (hnd : (l.map Prod.fst).Nodup) (t : B) :
    freq l t ≤ freq (cut c l) t + c := by
  by_cases ht : t ∈ l.map Prod.fst
  · obtain ⟨r, hr, rfl⟩ := List.mem_map.1 ht
    rw [freq_single l hnd r hr]
    by_cases h : c < r.2
    · have hm : (r.1, r.2 - c) ∈ cut c l :=
        List.mem_map.2 ⟨r, List.mem_filter.2 ⟨hr, by simpa using h⟩, rfl⟩
      have hnd' : ((cut c l).map Prod.fst).Nodup := by
        rw [cut_keys]
        exact hnd.sublist ((List.filter_sublist).map _)
      have := freq_single (cut c l) hnd' _ hm
      dsimp only at this
      rw [this]
      linarith
    · have : 0 ≤ freq (cut c l) r.1 := freq_nonneg _ (fun q hq => by
        obtain ⟨p, hp, rfl⟩ := List.mem_map.1 hq
        have := (List.mem_filter.1 hp).2
        simp only [decide_eq_true_eq] at this
        dsimp only
        linarith) _
      linarith
  · rw [freq_of_not_mem l t ht, freq_of_not_mem]
    · linarith
    · rw [cut_keys]
      exact fun h => ht (((List.filter_sublist).map _).subset h)

/-- The sum of the parts below a count that `n` counters reach. -/
theorem sum_min_ge (c : ℚ) (hc : 0 ≤ c) (l : List (B × ℚ)) (hl : ∀ r ∈ l, 0 ≤ r.2) (n : Nat)
    (hn : n < (sorted l).length) (h : ((sorted l)[n]).2 = c) :
    c * (n + 1) ≤ (l.map (fun r => min r.2 c)).sum := by
  have hp := (sorted_perm l).map (fun r => min r.2 c)
  rw [← hp.sum_eq]
  have hs := sorted_desc l
  have hl' : ∀ r ∈ sorted l, 0 ≤ r.2 := fun r hr => hl r ((sorted_perm l).mem_iff.1 hr)
  generalize sorted l = m at *
  have h1 : ∀ r ∈ m.take (n + 1), c ≤ r.2 := by
    intro r hr
    obtain ⟨i, hi, rfl⟩ := List.getElem_of_mem hr
    rw [List.length_take] at hi
    rw [List.getElem_take]
    by_cases hin : i = n
    · subst hin; exact h.ge
    · have := List.pairwise_iff_getElem.1 hs i n (by omega) hn (by omega)
      rw [h] at this
      exact this
  rw [← List.take_append_drop (n + 1) m, List.map_append, List.sum_append]
  have e1 : ((m.take (n + 1)).map (fun r => min r.2 c)) = List.replicate (n + 1) c := by
    rw [List.eq_replicate_iff]
    refine ⟨by simp; omega, ?_⟩
    intro b hb
    obtain ⟨r, hr, rfl⟩ := List.mem_map.1 hb
    exact min_eq_right (h1 r hr)
  have e2 : 0 ≤ ((m.drop (n + 1)).map (fun r => min r.2 c)).sum := by
    apply List.sum_nonneg
    intro b hb
    obtain ⟨r, hr, rfl⟩ := List.mem_map.1 hb
    exact le_min (hl' r (List.mem_of_mem_drop hr)) hc
  rw [e1, List.sum_replicate, nsmul_eq_mul]
  push_cast
  linarith

/-- A sketch before compression: as accurate as it should be, but perhaps with too many counters. -/
structure Loose (k : Nat) (s : Sketch B) (d : List (B × ℚ)) : Prop where
  size : s.size = k
  once : (s.counters.map Prod.fst).Nodup
  occurs : ∀ r ∈ s.counters, r.1 ∈ d.map Prod.fst
  counts : ∀ r ∈ s.counters, 0 ≤ r.2
  lower : ∀ t, freq s.counters t ≤ freq d t
  upper : ∀ t, freq d t ≤ freq s.counters t + s.error
  delta : s.error * (k + 1) ≤ total d - total s.counters

theorem compress_rep (k : Nat) (s : Sketch B) (d : List (B × ℚ)) (h : Loose k s d) :
    Rep k (compress s) d := by
  unfold compress
  split
  · rename_i hn
    refine ⟨h.size, ⟨?_, h.once, h.occurs, h.counts, h.lower, h.upper, h.delta⟩⟩
    rw [List.getElem?_eq_none_iff, (sorted_perm _).length_eq, h.size] at hn
    exact hn
  · rename_i t c hsome
    obtain ⟨hlt, hget⟩ := List.getElem?_eq_some_iff.1 hsome
    have hmem : (t, c) ∈ s.counters := (sorted_perm _).mem_iff.1 (hget ▸ List.getElem_mem hlt)
    have hc : 0 ≤ c := h.counts _ hmem
    have hkey := cut_keys c s.counters
    refine ⟨h.size, ⟨?_, ?_, ?_, ?_, ?_, ?_, ?_⟩⟩
    · -- only the counters before number `k` are larger than `c`
      show (cut c s.counters).length ≤ k
      unfold cut
      rw [List.length_map, ← ((sorted_perm s.counters).filter _).length_eq]
      have hs := sorted_desc s.counters
      simp only [h.size] at hlt hget
      generalize sorted s.counters = m at *
      rw [← List.take_append_drop k m, List.filter_append, List.length_append]
      have e : (m.drop k).filter (fun r => decide (c < r.2)) = [] := by
        rw [List.filter_eq_nil_iff]
        intro r hr
        obtain ⟨i, hi, rfl⟩ := List.getElem_of_mem hr
        rw [List.getElem_drop]
        simp only [decide_eq_true_eq, not_lt]
        have hi' : k + i < m.length := by rw [List.length_drop] at hi; omega
        by_cases h0 : i = 0
        · subst h0
          simp [hget]
        · have := List.pairwise_iff_getElem.1 hs k (k + i) hlt hi' (by omega)
          rw [hget] at this
          exact this
      rw [e]
      have := List.length_filter_le (fun r : B × ℚ => decide (c < r.2)) (m.take k)
      rw [List.length_take] at this
      simp only [List.length_nil, add_zero]
      omega
    · show ((cut c s.counters).map Prod.fst).Nodup
      rw [hkey]
      exact h.once.sublist ((List.filter_sublist).map _)
    · intro r hr
      obtain ⟨p, hp, rfl⟩ := List.mem_map.1 hr
      exact h.occurs p (List.mem_filter.1 hp).1
    · intro r hr
      obtain ⟨p, hp, rfl⟩ := List.mem_map.1 hr
      have := (List.mem_filter.1 hp).2
      simp only [decide_eq_true_eq] at this
      dsimp only
      linarith
    · intro t
      exact (freq_cut_le c hc s.counters h.counts t).trans (h.lower t)
    · intro t
      have h1 := h.upper t
      have h2 := freq_cut_ge c hc s.counters h.once t
      show freq d t ≤ freq (cut c s.counters) t + (s.error + c)
      linarith
    · have h1 := total_cut c s.counters
      have h2 := sum_min_ge c hc s.counters h.counts s.size hlt (by rw [hget])
      have h3 := h.delta
      rw [h.size] at h2
      show (s.error + c) * (k + 1) ≤ total d - total (cut c s.counters)
      linarith

theorem loose_of_parts (k : Nat) (l d : List (B × ℚ)) (e : ℚ)
    (hk : ∀ p ∈ l, p.1 ∈ d.map Prod.fst) (hnn : ∀ p ∈ l, 0 ≤ p.2)
    (hlow : ∀ t, freq l t ≤ freq d t) (hup : ∀ t, freq d t ≤ freq l t + e)
    (hd : e * (k + 1) ≤ total d - total l) : Loose k ⟨k, tally l, e⟩ d := by
  refine ⟨rfl, ?_, ?_, tally_nonneg l hnn, fun t => ?_, fun t => ?_, ?_⟩
  · show ((tally l).map Prod.fst).Nodup
    rw [tally_keys]; exact nodup_uniqFirst _
  · intro r hr
    obtain ⟨t, ht, rfl⟩ := List.mem_map.1 hr
    obtain ⟨p, hp, rfl⟩ := List.mem_map.1 ((mem_uniqFirst _ _).1 ht)
    exact hk p hp
  · show freq (tally l) t ≤ _
    rw [freq_tally]; exact hlow t
  · show _ ≤ freq (tally l) t + e
    rw [freq_tally]; exact hup t
  · show e * (k + 1) ≤ total d - total (tally l)
    rw [total_congr (tally l) l (freq_tally l)]
    exact hd

theorem total_append (a b : List (B × ℚ)) : total (a ++ b) = total a + total b := by
  simp [total]

/-- **C92.** The Misra-Gries algorithm meets the contract that is assumed of the sketch. -/
theorem misra_gries_contract (enc : T → B) (k : Nat) : Contract (api enc) enc k (Rep k) := by
  refine ⟨?_, ?_, ?_, ?_, ?_⟩
  · refine ⟨rfl, ⟨by simp [api], by simp [api], by simp [api], by simp [api], fun t => ?_, fun t => ?_, ?_⟩⟩
    · simp [api]
    · simp [api]
    · simp [api, total]
  · intro s d d' hp h
    exact ⟨h.size, h.est.congr (fun t => freq_perm hp t) (fun t ht => (hp.map _).mem_iff.1 ht)⟩
  · intro s d items ws h hlen hw
    have e := h.est
    refine ⟨_, if_neg (not_not.2 hlen), ?_⟩
    obtain ⟨n, cs, er⟩ := s
    obtain rfl : n = k := h.size
    dsimp only at e ⊢
    apply compress_rep
    have hz : ∀ p ∈ (items.map enc).zip ws, 0 ≤ p.2 := fun p hp => hw _ (List.of_mem_zip hp).2
    apply loose_of_parts
    · intro p hp
      rw [List.map_append, List.mem_append]
      rcases List.mem_append.1 hp with hp | hp
      · exact .inl (e.occurs p hp)
      · exact .inr (List.mem_map.2 ⟨p, hp, rfl⟩)
    · intro p hp
      rcases List.mem_append.1 hp with hp | hp
      · exact e.counts p hp
      · exact hz p hp
    · intro t
      rw [freq_append, freq_append]
      have := e.lower t
      linarith
    · intro t
      rw [freq_append, freq_append]
      have := e.upper t
      linarith
    · rw [total_append, total_append]
      have := e.delta
      linarith
  · intro s s' d d' h h'
    have e := h.est
    have e' := h'.est
    refine ⟨_, if_neg (not_not.2 (h.size.trans h'.size.symm)), ?_⟩
    obtain ⟨n, cs, er⟩ := s
    obtain ⟨n', cs', er'⟩ := s'
    obtain rfl : n = k := h.size
    dsimp only at e e' ⊢
    apply compress_rep
    apply loose_of_parts
    · intro p hp
      rw [List.map_append, List.mem_append]
      rcases List.mem_append.1 hp with hp | hp
      · exact .inl (e.occurs p hp)
      · exact .inr (e'.occurs p hp)
    · intro p hp
      rcases List.mem_append.1 hp with hp | hp
      · exact e.counts p hp
      · exact e'.counts p hp
    · intro t
      rw [freq_append, freq_append]
      have := e.lower t
      have := e'.lower t
      linarith
    · intro t
      rw [freq_append, freq_append]
      have := e.upper t
      have := e'.upper t
      linarith
    · rw [total_append, total_append]
      have := e.delta
      have := e'.delta
      linarith
  · intro s d h
    have e := h.est
    have hp := sorted_perm s.counters
    refine ⟨_, rfl, sorted_ordered _ e.once, s.error, ?_⟩
    refine ⟨?_, (hp.map _).nodup_iff.2 e.once, fun r hr => e.occurs r (hp.mem_iff.1 hr),
      fun r hr => e.counts r (hp.mem_iff.1 hr), fun t => ?_, fun t => ?_, ?_⟩
    · rw [hp.length_eq]; exact e.size
    · rw [freq_perm hp]; exact e.lower t
    · rw [freq_perm hp]; exact e.upper t
    · rw [total_perm hp]; exact e.delta

/-! ## Examples -/

namespace Example

/-- Three batches of two datasets. -/
def run1 : List (Sched (Batch Nat)) :=
  [.add (.add .create ⟨[3, 3, 1], []⟩) ⟨[], []⟩, .merge [.create, .add .create ⟨[2, 3, 1], []⟩]]

/-- The second dataset is merged first. -/
def run2 : Sched Nat := .add (.add .create 1) 0

/-- The arguments: the two most frequent tokens. -/
def call : Call Nat := ⟨some 2, "text", .integer, false, none⟩

theorem accepted : Accepted call 2 := ⟨rfl, by decide, by decide, .inl rfl, by decide⟩

theorem valid : ValidRun run1 run2 := by
  refine ⟨?_, .add (.add .create), by decide +kernel⟩
  intro s hs
  simp only [run1, List.mem_cons, List.not_mem_nil, or_false] at hs
  rcases hs with rfl | rfl
  · exact .add (.add .create)
  · refine .merge (by simp) ?_
    intro s hs
    simp only [List.mem_cons, List.not_mem_nil, or_false] at hs
    rcases hs with rfl | rfl
    · exact .create
    · exact .add .create

theorem good : ∀ b ∈ allInputs run1, GoodBatch call.hasWeights b := fun _ _ h => by
  simp [call] at h

/-- The hypotheses of the theorems of `ApproximateProps` are met. Token 2 is lost; the others are
counted once too few. -/
example : ∃ (rows : List (Nat × ℚ)) (δ : ℚ), Ordered rows ∧
    Estimates 2 (data id (fun _ => false) call (allInputs run1)) rows δ ∧
    approximateVocabulary (api id) (fun _ => false) (1, 0) id (fun l => [l]) call run1 run2
      = .ok ((entries (1, 0) rows).map id) :=
  approximate_vocabulary_estimates (api id) id Function.injective_id _ _ _ _ call 2 accepted rfl
    (misra_gries_contract id 2) run1 run2 valid good

example : approximateVocabulary (api id) (fun _ => false) (1, 0) id (fun l => [l]) call run1 run2
    = .ok [((2 : ℚ), 3), (1, 1)] := by decide +kernel

/-- Token 3 is more than a third of the data. -/
example : total (data id (fun _ => false) call (allInputs run1))
    < freq (data id (fun _ => false) call (allInputs run1)) 3 * ((2 : Nat) + 1) := by decide +kernel

/-- With `top_k = 3` the hypotheses of `few_tokens_are_exact` are met, and nothing is lost. -/
example : (((data id (fun _ => false) call (allInputs run1)).map Prod.fst).toFinset.card ≤ 3) ∧
    (∀ p ∈ data id (fun _ => false) call (allInputs run1), 0 < p.2) ∧
    approximateVocabulary (api id) (fun _ => false) (1, 0) id (fun l => [l])
      { call with topK := some 3 } run1 run2 = .ok [((3 : ℚ), 3), (2, 1), (1, 2)] := by
  decide +kernel

/-- With reserved tokens. -/
example : approximateVocabulary (api id) (fun _ => false) (1, 0) id (fun l => [l])
    { call with reserved := some [7, 3] } run1 run2 = .ok [((-1 : ℚ), 7), (-1, 3), (1, 1)] := by
  decide +kernel

/-- Runs may differ: if the batches are not reduced before they are merged, other tokens can be lost.
Here the data is the same but divided in another way, and no token is left. -/
example :
    approximateVocabulary (api id) (fun _ => false) (1, 0) id (fun l => [l])
      { call with topK := some 1 } [.add .create ⟨[3, 3, 1, 2], []⟩] (.add .create 0)
        = .ok [((1 : ℚ), 3)] ∧
    approximateVocabulary (api id) (fun _ => false) (1, 0) id (fun l => [l])
      { call with topK := some 1 }
      [.add (.add (.add .create ⟨[3, 3], []⟩) ⟨[1], []⟩) ⟨[2], []⟩] (.add .create 0)
        = .ok [((1 : ℚ), 0)] := by
  decide +kernel

end Example

end TFT.ApproxVocab.MisraGries
