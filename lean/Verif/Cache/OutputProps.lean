import Verif.Cache.Output
import Mathlib.Data.List.Nodup
import Mathlib.Data.List.Induction

/-!
# What is in the output cache of an analysis (C100)
-/

namespace TFT.OutputCache

variable {K E N V P M : Type} [DecidableEq K] [DecidableEq E]

theorem mem_iff_lookup {A B : Type} [DecidableEq A] {d : List (A × B)} (h : (d.map Prod.fst).Nodup)
    (a : A) (b : B) : (a, b) ∈ d ↔ d.lookup a = some b := by
  induction d with
  | nil => simp
  | cons p d ih =>
    obtain ⟨x, y⟩ := p
    simp only [List.map_cons, List.nodup_cons] at h
    rw [List.lookup_cons, List.mem_cons]
    by_cases hx : a = x
    · subst hx
      simp only [beq_self_eq_true, Option.some.injEq, Prod.mk.injEq, true_and]
      constructor
      · rintro (h1 | h1)
        · exact h1.symm
        · exact absurd (List.mem_map_of_mem (f := Prod.fst) h1) h.1
      · intro h1; exact .inl h1.symm
    · have : (a == x) = false := by simpa using hx
      simp only [this, Prod.mk.injEq, hx, false_and, false_or]
      exact ih h.2

theorem put_keys {A B : Type} [DecidableEq A] (d : List (A × B)) (a : A) (b : B) :
    (put d a b).map Prod.fst = if a ∈ d.map Prod.fst then d.map Prod.fst else d.map Prod.fst ++ [a] := by
  unfold put
  split
  · rw [List.map_map]
    apply List.map_congr_left
    intro p _
    simp only [Function.comp]
    split
    · next h => exact h.symm
    · rfl
  · simp

theorem put_nodup {A B : Type} [DecidableEq A] {d : List (A × B)} (h : (d.map Prod.fst).Nodup)
    (a : A) (b : B) : ((put d a b).map Prod.fst).Nodup := by
  rw [put_keys]
  split
  · exact h
  · next hn =>
    rw [List.nodup_append]
    exact ⟨h, by simp, by intro x hx y hy; simp at hy; subst hy; rintro rfl; exact hn hx⟩

theorem lookup_none_iff {A B : Type} [DecidableEq A] (d : List (A × B)) (a : A) :
    d.lookup a = none ↔ a ∉ d.map Prod.fst := by
  induction d with
  | nil => simp
  | cons p d ih =>
    obtain ⟨x, y⟩ := p
    rw [List.lookup_cons]
    by_cases hx : a = x
    · subst hx; simp
    · have : (a == x) = false := by simpa using hx
      simp only [this, ih, List.map_cons, List.mem_cons, hx, false_or]

theorem lookup_put {A B : Type} [DecidableEq A] (d : List (A × B)) (a : A) (b : B) (x : A) :
    (put d a b).lookup x = if x = a then some b else d.lookup x := by
  unfold put
  split
  · next h =>
    induction d with
    | nil => simp at h
    | cons p d ih =>
      obtain ⟨y, z⟩ := p
      simp only [List.map_cons]
      by_cases hy : y = a
      · subst hy
        simp only [if_true, List.lookup_cons]
        by_cases hx : x = y
        · subst hx; simp
        · have : (x == y) = false := by simpa using hx
          simp only [this, hx, if_false]
          by_cases hm : y ∈ d.map Prod.fst
          · rw [ih hm, if_neg hx]
          · congr 1
            conv_rhs => rw [← List.map_id d]
            apply List.map_congr_left
            intro p hp
            have : p.1 ≠ y := fun he => hm (he ▸ List.mem_map_of_mem hp)
            simp [this]
      · simp only [hy, if_false, List.lookup_cons]
        have hm : a ∈ d.map Prod.fst := by
          simp only [List.map_cons, List.mem_cons] at h
          rcases h with h | h
          · exact absurd h.symm hy
          · exact h
        by_cases hx : x = y
        · subst hx; simp [hy]
        · have : (x == y) = false := by simpa using hx
          simp only [this]
          exact ih hm
  · next h =>
    rw [List.lookup_append]
    by_cases hx : x = a
    · subst hx
      rw [(lookup_none_iff d x).2 h]
      simp
    · have : (x == a) = false := by simpa using hx
      simp [List.lookup_cons, this, hx]

/-- A well-formed dict of dicts, none of which is empty. -/
structure Wf (d : List (K × List (E × N))) : Prop where
  keys : (d.map Prod.fst).Nodup
  inner : ∀ p ∈ d, (p.2.map Prod.fst).Nodup ∧ p.2 ≠ []

theorem format_spec (ws : List ((K × E) × N)) (h : (ws.map Prod.fst).Nodup) :
    Wf (format ws) ∧ (∀ k e n, ((format ws).lookup k).bind (fun c => c.lookup e) = some n ↔
      ((k, e), n) ∈ ws) := by
  induction ws using List.reverseRecOn with
  | nil => exact ⟨⟨by simp [format], by simp [format]⟩, by simp [format]⟩
  | append_singleton ws w ih =>
    obtain ⟨⟨k, e⟩, n⟩ := w
    rw [List.map_append, List.nodup_append] at h
    obtain ⟨hwf, hget⟩ := ih h.1
    have hnew : (k, e) ∉ ws.map Prod.fst := fun hm => h.2.2 _ hm (k, e) (by simp) rfl
    have hfmt : format (ws ++ [((k, e), n)]) = putEntry (format ws) k e n := by
      simp [format, List.foldl_append]
    rw [hfmt]
    have hin : ((((format ws).lookup k).getD []).map Prod.fst).Nodup := by
      cases hl : (format ws).lookup k with
      | none => simp
      | some c => exact (hwf.inner _ ((mem_iff_lookup hwf.keys k c).2 hl)).1
    refine ⟨⟨put_nodup hwf.keys _ _, ?_⟩, ?_⟩
    · intro p hp
      obtain ⟨k', c⟩ := p
      have hp' := (mem_iff_lookup (put_nodup hwf.keys _ _) k' c).1 hp
      rw [lookup_put] at hp'
      split at hp'
      · cases hp'
        refine ⟨put_nodup hin _ _, ?_⟩
        intro he
        have := lookup_put (((format ws).lookup k).getD []) e n e
        dsimp only at he
        rw [he] at this
        simp at this
      · exact hwf.inner _ ((mem_iff_lookup hwf.keys k' c).2 hp')
    · intro k' e' n'
      rw [List.mem_append, ← hget k' e' n']
      unfold putEntry
      rw [lookup_put]
      by_cases hk : k' = k
      · subst hk
        simp only [if_true, Option.bind_some, lookup_put]
        by_cases he : e' = e
        · subst he
          simp only [if_true, Option.some.injEq, List.mem_singleton, Prod.mk.injEq, true_and]
          constructor
          · intro h1; exact .inr h1.symm
          · rintro (h1 | h1)
            · exact absurd (List.mem_map_of_mem (f := Prod.fst) ((hget _ _ _).1 h1)) hnew
            · exact h1.symm
        · simp only [he, if_false, List.mem_singleton, Prod.mk.injEq, and_false, false_and, or_false]
          cases (format ws).lookup k' <;> simp
      · simp [hk]

theorem format_keys (ws : List ((K × E) × N)) (h : (ws.map Prod.fst).Nodup) (k : K) :
    k ∈ (format ws).map Prod.fst ↔ ∃ e n, ((k, e), n) ∈ ws := by
  obtain ⟨hwf, hget⟩ := format_spec ws h
  constructor
  · intro hk
    obtain ⟨⟨k', c⟩, hp, rfl⟩ := List.mem_map.1 hk
    obtain ⟨hn, hne⟩ := hwf.inner _ hp
    obtain ⟨⟨e, n⟩, he⟩ := List.exists_mem_of_ne_nil _ hne
    refine ⟨e, n, (hget _ _ _).1 ?_⟩
    rw [(mem_iff_lookup hwf.keys k' c).1 hp]
    exact (mem_iff_lookup hn e n).1 he
  · rintro ⟨e, n, hw⟩
    have := (hget _ _ _).2 hw
    by_contra hk
    rw [(lookup_none_iff _ _).2 hk] at this
    cases this

/-- The pairs of the loops of `_make_output_cache`. -/
def pairs (d : List (K × List (E × N))) : List ((K × E) × N) :=
  d.flatMap fun p => p.2.map fun q => ((p.1, q.1), q.2)

omit [DecidableEq K] [DecidableEq E] in
theorem pairs_nodup {d : List (K × List (E × N))} (h : Wf d) : ((pairs d).map Prod.fst).Nodup := by
  have he : (pairs d).map Prod.fst = d.flatMap fun p => (p.2.map Prod.fst).map fun e => (p.1, e) := by
    simp [pairs, List.map_flatMap, Function.comp_def]
  rw [he, List.nodup_flatMap]
  refine ⟨fun p hp => ((h.inner p hp).1.map fun a b hab => by simpa using hab), ?_⟩
  have := h.keys
  rw [List.Nodup, List.pairwise_map] at this
  refine this.imp ?_
  intro a b hab x hx hy
  simp only [List.mem_map] at hx hy
  obtain ⟨e, _, rfl⟩ := hx
  obtain ⟨e', _, h2⟩ := hy
  exact hab (congrArg Prod.fst h2).symm

theorem mem_pairs {d : List (K × List (E × N))} (h : Wf d) (k : K) (e : E) (n : N) :
    ((k, e), n) ∈ pairs d ↔ (d.lookup k).bind (fun c => c.lookup e) = some n := by
  simp only [pairs, List.mem_flatMap, List.mem_map]
  constructor
  · rintro ⟨⟨k', c⟩, hp, ⟨e', n'⟩, hq, heq⟩
    simp only [Prod.mk.injEq] at heq
    obtain ⟨⟨rfl, rfl⟩, rfl⟩ := heq
    rw [(mem_iff_lookup h.keys _ c).1 hp]
    exact (mem_iff_lookup (h.inner _ hp).1 _ _).1 hq
  · intro hl
    cases hk : d.lookup k with
    | none => rw [hk] at hl; cases hl
    | some c =>
      rw [hk] at hl
      have hp := (mem_iff_lookup h.keys k c).2 hk
      exact ⟨(k, c), hp, (e, n), (mem_iff_lookup (h.inner _ hp).1 e n).2 hl, rfl⟩

theorem seqExcept_ok {α β : Type} (f : α → Except Err β) (l : List α) (ys : List β) :
    seqExcept (l.map f) = .ok ys ↔ List.Forall₂ (fun x y => f x = .ok y) l ys := by
  induction l generalizing ys with
  | nil => simp [seqExcept, eq_comm]
  | cons x l ih =>
    simp only [List.map_cons, seqExcept, bind, Except.bind]
    cases hx : f x with
    | error e =>
      simp only [reduceCtorEq, false_iff]
      intro h; cases h with | cons h _ => rw [hx] at h; cases h
    | ok y =>
      cases hl : seqExcept (l.map f) with
      | error e =>
        simp only [reduceCtorEq, false_iff]
        intro h
        cases h with | cons _ h => rw [(ih _).2 h] at hl; cases hl
      | ok zs =>
        simp only [Except.ok.injEq]
        constructor
        · rintro rfl; exact .cons hx ((ih _).1 hl)
        · intro h
          cases h with
          | cons h1 h2 =>
            rw [hx] at h1; cases h1
            rw [(ih _).2 h2] at hl; cases hl; rfl

theorem forall₂_exists {α β : Type} {f : α → β → Prop} {l : List α} (h : ∀ x ∈ l, ∃ y, f x y) :
    ∃ ys, List.Forall₂ f l ys := by
  induction l with
  | nil => exact ⟨[], .nil⟩
  | cons x l ih =>
    obtain ⟨y, hy⟩ := h x (by simp)
    obtain ⟨ys, hys⟩ := ih fun z hz => h z (by simp [hz])
    exact ⟨y :: ys, .cons hy hys⟩

theorem forall₂_mem_left {α β : Type} {f : α → β → Prop} {l : List α} {ys : List β}
    (h : List.Forall₂ f l ys) {x : α} (hx : x ∈ l) : ∃ y ∈ ys, f x y := by
  induction h with
  | nil => simp at hx
  | cons h _ ih =>
    rcases List.mem_cons.1 hx with rfl | hx
    · exact ⟨_, by simp, h⟩
    · obtain ⟨y, hy, h'⟩ := ih hx; exact ⟨y, by simp [hy], h'⟩

theorem forall₂_mem_right {α β : Type} {f : α → β → Prop} {l : List α} {ys : List β}
    (h : List.Forall₂ f l ys) {y : β} (hy : y ∈ ys) : ∃ x ∈ l, f x y := by
  induction h with
  | nil => simp at hy
  | cons h _ ih =>
    rcases List.mem_cons.1 hy with rfl | hy
    · exact ⟨_, by simp, h⟩
    · obtain ⟨x, hx, h'⟩ := ih hy; exact ⟨x, by simp [hx], h'⟩

omit [DecidableEq K] [DecidableEq E] in
theorem visited_keys {visit : N → Except Err V} {l : List ((K × E) × N)} {vs : List ((K × E) × V)}
    (h : List.Forall₂ (fun w y => (visit w.2).map (fun v => (w.1, v)) = .ok y) l vs) :
    vs.map Prod.fst = l.map Prod.fst ∧
    ∀ p v, (p, v) ∈ vs ↔ ∃ n, (p, n) ∈ l ∧ visit n = .ok v := by
  have hone : ∀ (w : (K × E) × N) (y : (K × E) × V),
      (visit w.2).map (fun v => (w.1, v)) = .ok y → y.1 = w.1 ∧ visit w.2 = .ok y.2 := by
    intro w y hw
    cases hv : visit w.2 with
    | error e => rw [hv] at hw; cases hw
    | ok v => rw [hv] at hw; cases hw; exact ⟨rfl, rfl⟩
  constructor
  · induction h with
    | nil => rfl
    | cons h _ ih => simp [ih, (hone _ _ h).1]
  · intro p v
    constructor
    · intro hm
      obtain ⟨⟨p', n⟩, hx, hw⟩ := forall₂_mem_right h hm
      obtain ⟨h1, h2⟩ := hone _ _ hw
      cases h1
      exact ⟨n, hx, h2⟩
    · rintro ⟨n, hn, hv⟩
      obtain ⟨⟨p', v'⟩, hy, hw⟩ := forall₂_mem_left h hn
      obtain ⟨h1, h2⟩ := hone _ _ hw
      cases h1
      rw [hv] at h2; cases h2
      exact hy

omit [DecidableEq E] in
theorem withMetadata_ok (metrics : List (K × M)) (p : K × List (E × V)) (y : K × (List (E × V) × M)) :
    withMetadata metrics p = .ok y ↔ y.1 = p.1 ∧ y.2.1 = p.2 ∧ metrics.lookup p.1 = some y.2.2 := by
  obtain ⟨k, c, m⟩ := y
  unfold withMetadata
  cases h : metrics.lookup p.1 with
  | none => simp
  | some m' => simp [Prod.ext_iff, eq_comm]

omit [DecidableEq E] in
theorem withMetadata_keys {metrics : List (K × M)} {l : List (K × List (E × V))}
    {ys : List (K × (List (E × V) × M))}
    (h : List.Forall₂ (fun x y => withMetadata metrics x = .ok y) l ys) :
    ys.map Prod.fst = l.map Prod.fst := by
  induction h with
  | nil => rfl
  | cons h _ ih => simp only [List.map_cons, ih, ((withMetadata_ok _ _ _).1 h).1]

theorem pairs_format (ws : List ((K × E) × N)) (h : (ws.map Prod.fst).Nodup) (w : (K × E) × N) :
    w ∈ pairs (format ws) ↔ w ∈ ws := by
  obtain ⟨hwf, hget⟩ := format_spec ws h
  obtain ⟨⟨k, e⟩, n⟩ := w
  rw [mem_pairs hwf, hget]

/-- **C100.** The output cache of an analysis with a cache has an entry for exactly what is to be
written: of each dataset, under each key, the collection of the node for it. With it goes the
metadata of the dataset. -/
theorem output_cache_holds_what_is_written (visit : N → Except Err V) (metrics : List (K × M))
    (ws : List ((K × E) × N)) (hws : (ws.map Prod.fst).Nodup)
    (out : List (K × (List (E × V) × M)))
    (h : outputCache visit metrics (some ws) = .ok (some out)) :
    (out.map Prod.fst).Nodup ∧
    (∀ k, (∃ c m, (k, (c, m)) ∈ out) ↔ ∃ e n, ((k, e), n) ∈ ws) ∧
    ∀ k c m, (k, (c, m)) ∈ out → metrics.lookup k = some m ∧ (c.map Prod.fst).Nodup ∧
      ∀ e v, (e, v) ∈ c ↔ ∃ n, ((k, e), n) ∈ ws ∧ visit n = .ok v := by
  have hwf := (format_spec ws hws).1
  simp only [outputCache, makeOutput, bind, Except.bind] at h
  cases hvs : seqExcept ((pairs (format ws)).map fun w => (visit w.2).map fun v => (w.1, v)) with
  | error e => simp only [pairs] at hvs; rw [hvs] at h; cases h
  | ok vs =>
    have hvs' := hvs
    simp only [pairs] at hvs'
    rw [hvs'] at h
    simp only at h
    cases hout : seqExcept ((format vs).map (withMetadata metrics)) with
    | error e => rw [hout] at h; cases h
    | ok out' =>
      rw [hout] at h
      cases h
      obtain ⟨hk, hmem⟩ := visited_keys ((seqExcept_ok _ _ _).1 hvs)
      have hnd : (vs.map Prod.fst).Nodup := by rw [hk]; exact pairs_nodup hwf
      obtain ⟨hwf2, hget2⟩ := format_spec vs hnd
      have hall := (seqExcept_ok _ _ _).1 hout
      have hkeys := withMetadata_keys hall
      have hkeyiff : ∀ k, k ∈ (format vs).map Prod.fst ↔ ∃ e n, ((k, e), n) ∈ ws := by
        intro k
        rw [format_keys vs hnd]
        constructor
        · rintro ⟨e, v, hv⟩
          obtain ⟨n, hn, _⟩ := (hmem _ _).1 hv
          exact ⟨e, n, (pairs_format ws hws _).1 hn⟩
        · rintro ⟨e, n, hn⟩
          obtain ⟨y, hy, hw⟩ := forall₂_mem_left ((seqExcept_ok _ _ _).1 hvs)
            ((pairs_format ws hws _).2 hn)
          cases hv : visit n with
          | error e => simp only [hv] at hw; cases hw
          | ok v => exact ⟨e, v, (hmem _ _).2 ⟨n, (pairs_format ws hws _).2 hn, hv⟩⟩
      refine ⟨by rw [hkeys]; exact hwf2.keys, ?_, ?_⟩
      · intro k
        rw [← hkeyiff, ← hkeys]
        simp
      · intro k c m hcm
        obtain ⟨p, hp, hw⟩ := forall₂_mem_right hall hcm
        obtain ⟨h1, h2, h3⟩ := (withMetadata_ok _ _ _).1 hw
        obtain ⟨k', c'⟩ := p
        simp only at h1 h2 h3
        subst h1 h2
        refine ⟨h3, (hwf2.inner _ hp).1, fun e v => ?_⟩
        rw [mem_iff_lookup (hwf2.inner _ hp).1]
        have := hget2 k e v
        rw [(mem_iff_lookup hwf2.keys k c).1 hp] at this
        simp only [Option.bind_some] at this
        rw [this, hmem]
        simp only [pairs_format ws hws]

/-- **C100.** The metadata of a dataset are made from the data of this dataset. -/
theorem metadata_are_of_own_data (size : P → M) (data : List (K × Option P))
    (hdata : (data.map Prod.fst).Nodup) (k : K) (m : M) :
    (datasetMetrics size data).lookup k = some m ↔ ∃ x, (k, some x) ∈ data ∧ size x = m := by
  have hn : ((datasetMetrics size data).map Prod.fst).Nodup := by
    have hs : ((datasetMetrics size data).map Prod.fst).Sublist (data.map Prod.fst) := by
      clear hdata
      induction data with
      | nil => simp [datasetMetrics]
      | cons p data ih =>
        obtain ⟨a, x⟩ := p
        cases x with
        | none => simpa [datasetMetrics] using ih.cons a
        | some x => simpa [datasetMetrics] using ih
    exact hdata.sublist hs
  rw [← mem_iff_lookup hn]
  simp only [datasetMetrics, List.mem_filterMap, Option.map_eq_some_iff]
  constructor
  · rintro ⟨⟨a, y⟩, hm, x, hx, heq⟩
    cases heq
    simp only at hx
    subst hx
    exact ⟨x, hm, rfl⟩
  · rintro ⟨x, hm, rfl⟩
    exact ⟨(k, some x), hm, x, rfl, rfl⟩

/-- **C100.** The output cache is made if and only if every node for it can be made and every dataset
of which something is to be written is read in this run. Without a cache there is none. -/
theorem output_cache_is_made_iff (visit : N → Except Err V) (size : P → M) (data : List (K × Option P))
    (hdata : (data.map Prod.fst).Nodup) (ws : List ((K × E) × N)) (hws : (ws.map Prod.fst).Nodup) :
    ((∃ out, outputCache visit (datasetMetrics size data) (some ws) = .ok (some out)) ↔
      ∀ k e n, ((k, e), n) ∈ ws → (∃ v, visit n = .ok v) ∧ ∃ x, (k, some x) ∈ data) ∧
    outputCache visit (datasetMetrics size data) (none : Option (List ((K × E) × N))) = .ok none := by
  refine ⟨?_, rfl⟩
  have hwf := (format_spec ws hws).1
  constructor
  · rintro ⟨out, hout⟩ k e n hw
    have hspec := output_cache_holds_what_is_written _ _ _ hws _ hout
    obtain ⟨c, m, hcm⟩ := (hspec.2.1 k).2 ⟨e, n, hw⟩
    refine ⟨?_, ?_⟩
    · cases hvs : seqExcept ((pairs (format ws)).map fun w => (visit w.2).map fun v => (w.1, v)) with
      | error e =>
        simp only [pairs] at hvs
        simp only [outputCache, makeOutput, bind, Except.bind] at hout
        rw [hvs] at hout; cases hout
      | ok vs =>
        obtain ⟨y, _, hw'⟩ := forall₂_mem_left ((seqExcept_ok _ _ _).1 hvs)
          ((pairs_format ws hws _).2 hw)
        cases hv : visit n with
        | error e => simp only [hv] at hw'; cases hw'
        | ok v => exact ⟨v, rfl⟩
    · obtain ⟨x, hx, _⟩ := (metadata_are_of_own_data size data hdata k m).1 (hspec.2.2 k c m hcm).1
      exact ⟨x, hx⟩
  · intro h
    obtain ⟨vs, hvs⟩ := forall₂_exists (l := pairs (format ws))
      (f := fun w y => (visit w.2).map (fun v => (w.1, v)) = .ok y) (by
        rintro ⟨⟨k, e⟩, n⟩ hw
        obtain ⟨⟨v, hv⟩, _⟩ := h k e n ((pairs_format ws hws _).1 hw)
        exact ⟨((k, e), v), by simp only [hv]; rfl⟩)
    obtain ⟨hk, hmem⟩ := visited_keys hvs
    have hnd : (vs.map Prod.fst).Nodup := by rw [hk]; exact pairs_nodup hwf
    obtain ⟨out, hout⟩ := forall₂_exists (l := format vs)
      (f := fun x y => withMetadata (datasetMetrics size data) x = .ok y) (by
        rintro ⟨k, c⟩ hp
        obtain ⟨e, v, hv⟩ := (format_keys vs hnd k).1 (List.mem_map_of_mem hp)
        obtain ⟨n, hn, _⟩ := (hmem _ _).1 hv
        obtain ⟨_, x, hx⟩ := h k e n ((pairs_format ws hws _).1 hn)
        exact ⟨(k, (c, size x)), (withMetadata_ok _ _ _).2
          ⟨rfl, rfl, (metadata_are_of_own_data size data hdata k _).2 ⟨x, hx, rfl⟩⟩⟩)
    refine ⟨out, ?_⟩
    have h1 := (seqExcept_ok (fun w : (K × E) × N => (visit w.2).map fun v => (w.1, v)) _ _).2 hvs
    have h2 := (seqExcept_ok _ _ _).2 hout
    simp only [pairs] at h1
    simp only [outputCache, makeOutput, bind, Except.bind]
    rw [h1]
    simp only
    rw [h2]
    rfl

/-! ### An example -/

/-- Two datasets, of which the second is not read; two entries of the first are written. -/
def exampleData : List (String × Option (List Nat)) := [("a", some [1, 2]), ("b", none)]

@[inherit_doc exampleData]
def exampleWrites : List ((String × Nat) × Nat) := [(("a", 7), 70), (("a", 8), 80)]

example : (exampleData.map Prod.fst).Nodup ∧ (exampleWrites.map Prod.fst).Nodup ∧
    outputCache (fun n => .ok (n + 1)) (datasetMetrics List.sum exampleData) (some exampleWrites)
      = .ok (some [("a", ([(7, 71), (8, 81)], 3))]) := by
  refine ⟨by decide, by decide, rfl⟩

/-- An entry of the dataset that is not read cannot be written. -/
example : ¬ ∃ out, outputCache (fun n => .ok (n + 1)) (datasetMetrics List.sum exampleData)
    (some [(("b", 7), 70)]) = .ok (some out) := by
  rw [(output_cache_is_made_iff _ _ _ (by decide) _ (by decide)).1]
  intro h
  obtain ⟨_, x, hx⟩ := h "b" 7 70 (by simp)
  simp [exampleData] at hx

end TFT.OutputCache
