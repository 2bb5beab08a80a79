import Verif.Graph.OptimizeCases
import Verif.Graph.Instrument

/-!
# What the counters of the use of the cache say (C98)
-/

namespace TFT.Graph.Optimize

open TFT.Graph.CachePath TFT.Graph.Spec Optimize.Spec
open TFT.Coders (Bytes)

variable {Op Coll : Type}

namespace Spec

/-- The analysis needs the output of the cacheable operation `o` on the dataset `k`, and an entry
of the cache holds it. -/
def Decodes (c : Config Op Coll) (g : OpGraph Op) (target : Op × Nat) (o : Op) (k : DatasetKey) :
    Prop :=
  Reach g target.1 o ∧ FirstPhase c.info g o ∧ (c.info o).hasCoder = true ∧ k ∈ c.keys ∧
    ∃ key, KeyOf c g o key ∧ entries c k key ≠ none

/-- The analysis needs the output of the cacheable operation `o` on the dataset `k`, no entry of
the cache holds it, and the dataset is to be cached. -/
def Encodes (c : Config Op Coll) (g : OpGraph Op) (target : Op × Nat) (o : Op) (k : DatasetKey) :
    Prop :=
  Reach g target.1 o ∧ FirstPhase c.info g o ∧ (c.info o).hasCoder = true ∧ k ∈ c.keys ∧
    k.isCached = true ∧ ∃ key, KeyOf c g o key ∧ entries c k key = none

/-- The dataset `k` has metadata, entries of it are read, and none is written. -/
def FromCache (c : Config Op Coll) (g : OpGraph Op) (target : Op × Nat)
    (metadata : DatasetKey → Option (List (Option Nat))) (k : DatasetKey) : Prop :=
  metadata k ≠ none ∧ (∃ o, Decodes c g target o k) ∧ ∀ o, ¬ Encodes c g target o k

/-- `n` is the number of pairs of which `P` holds. -/
def Counts {α β : Type} (P : α → β → Prop) (n : Nat) : Prop :=
  ∃ l : List (α × β), l.Nodup ∧ (∀ a b, (a, b) ∈ l ↔ P a b) ∧ l.length = n

/-- The size of a dataset in its metadata. -/
def sizeOf (metadata : DatasetKey → Option (List (Option Nat))) (k : DatasetKey) : Nat :=
  (((metadata k).getD []).map fun m => m.getD 0).sum

end Spec
open Optimize.Spec

/-! ### One call of `visit` -/

theorem loopKey_first [DecidableEq Op] [Fintype Op] {c : Config Op Coll} {g : OpGraph Op} (hs : Shape c g)
    (hc : c.cache.isSome = true) (hne : c.keys ≠ []) {o : Op} {ins : List (View Op)}
    (hins : List.Forall₂ (Fine c g) (g.inputs o) ins) (hf : FirstPhase c.info g o)
    (hk : (c.info o).kind ≠ .applySavedModel 0) :
    ∃ key, c.loopKey o ins = some key ∧ KeyOf c g o key := by
  obtain ⟨q, hq⟩ := first_has_path hs hf
  have hq' := hq
  cases hq with
  | apply h => exact absurd h hk
  | @step _ n p _ _ hp hin hpo hnext =>
    have hfn : FirstPhase c.info g n.1 := by
      cases hf with
      | apply h => exact absurd h hk
      | step _ _ h1 h2 => rw [hin] at h1; cases h1; exact h2
    rw [hin] at hins
    obtain ⟨v, rfl, hv⟩ := forall₂_one hins
    obtain ⟨f, p', hvf, hfk, hvp, hpo'⟩ := hv.first hfn
    have hpp : p' = p := pathOf_unique hpo' hpo
    subst hpp
    have ht : truthy v.fine = true := by
      rw [hvf]
      cases f with
      | nil => exact absurd hfk.symm hne
      | cons a l => rfl
    refine ⟨_, ?_, q, hq', rfl⟩
    simp [Config.loopKey, hk, hc, hp, ht, hvp, hnext, cacheEntryKey, Except.toOption]

theorem loopKey_other {c : Config Op Coll} {g : OpGraph Op} (hs : Shape c g) {o : Op}
    {ins : List (View Op)} (hins : List.Forall₂ (Fine c g) (g.inputs o) ins)
    (hf : ¬ (FirstPhase c.info g o ∧ (c.info o).kind ≠ .applySavedModel 0)) :
    c.loopKey o ins = none := by
  by_cases hk : (c.info o).kind = .applySavedModel 0
  · simp [Config.loopKey, hk]
  · have hf' : ¬ FirstPhase c.info g o := fun h => hf ⟨h, hk⟩
    by_cases hp : (c.info o).isPartitionable = true
    · have hne : ins ≠ [] := by
        rintro rfl
        cases hgi : g.inputs o with
        | nil => exact hs.inputs o hp hgi
        | cons a l => rw [hgi] at hins; cases hins
      obtain ⟨v, hv⟩ := List.exists_mem_of_ne_nil _ hne
      obtain ⟨n, hn, hgv⟩ := exists_left hins hv
      have hfn : ¬ FirstPhase c.info g n.1 := by
        intro hfn
        by_cases hl : 2 ≤ (g.inputs o).length
        · exact absurd hfn (hs.several o hl n hn)
        · have hone : g.inputs o = [n] := by
            cases hgi : g.inputs o with
            | nil => rw [hgi] at hn; simp at hn
            | cons a l =>
              cases l with
              | nil => rw [hgi] at hn; simp at hn; rw [hn]
              | cons b l => rw [hgi] at hl; simp at hl
          exact hf' (.step hk hp hone hfn)
      have hall : ins.all (fun v => truthy v.fine) = false := by
        rw [List.all_eq_false]
        exact ⟨v, hv, by rw [(hgv.notFirst hfn).1]; simp [truthy]⟩
      simp [Config.loopKey, hall]
    · simp [Config.loopKey, hp]

/-! ### The lists of what is counted -/

/-- The pairs that a call decodes. -/
def hitsOf (c : Config Op Coll) (call : Call Op (View Op)) : List (Op × DatasetKey) :=
  match c.loopKey call.op call.ins with
  | some key => (c.keys.filter fun k => (c.info call.op).hasCoder && c.hasEntry k key).map
      fun k => (call.op, k)
  | none => []

/-- The pairs that a call encodes. -/
def missesOf (c : Config Op Coll) (call : Call Op (View Op)) : List (Op × DatasetKey) :=
  match c.loopKey call.op call.ins with
  | some key => (c.keys.filter fun k => (c.info call.op).hasCoder && !c.hasEntry k key &&
      k.isCached).map fun k => (call.op, k)
  | none => []

/-- The tally for given lists. -/
structure Tallied (t : Tally) (hits misses : List (Op × DatasetKey)) : Prop where
  decoded : t.decoded = hits.length
  encoded : t.encoded = misses.length
  keys : ∀ k, t.hasMisses k = if k ∈ misses.map Prod.snd then some true
    else if k ∈ hits.map Prod.snd then some false else none

theorem tallied_keys (c : Config Op Coll) (o : Op) (key : Bytes) (ks : List DatasetKey) :
    ∀ {t : Tally} {hits misses : List (Op × DatasetKey)}, Tallied t hits misses →
    Tallied (ks.foldl (c.tallyStep o key) t)
      (hits ++ (ks.filter fun k => (c.info o).hasCoder && c.hasEntry k key).map fun k => (o, k))
      (misses ++ (ks.filter fun k => (c.info o).hasCoder && !c.hasEntry k key &&
        k.isCached).map fun k => (o, k)) := by
  induction ks with
  | nil => intro t hits misses h; simpa using h
  | cons k ks ih =>
    intro t hits misses h
    rw [List.foldl_cons]
    by_cases h1 : ((c.info o).hasCoder && c.hasEntry k key) = true
    · have hc : (c.info o).hasCoder = true := (Bool.and_eq_true _ _ ▸ h1).1
      have he : c.hasEntry k key = true := (Bool.and_eq_true _ _ ▸ h1).2
      have hstep : Tallied (c.tallyStep o key t k) (hits ++ [(o, k)]) misses := by
        refine ⟨?_, ?_, ?_⟩
        · simp [Config.tallyStep, hc, he, h.decoded]
        · simp [Config.tallyStep, hc, he, h.encoded]
        · intro k'
          have := h.keys k
          have hk' := h.keys k'
          simp only [Config.tallyStep, hc, he, Bool.and_self, if_true]
          by_cases hkk : k' = k
          · subst hkk
            rw [if_pos rfl, this]
            by_cases hm : k' ∈ misses.map Prod.snd
            · simp only [hm, if_true]; rfl
            · simp only [hm, if_false]
              by_cases hh : k' ∈ hits.map Prod.snd <;> simp [hh]
          · have hiff : k' ∈ (hits ++ [(o, k)]).map Prod.snd ↔ k' ∈ hits.map Prod.snd := by
              simp [hkk]
            rw [if_neg hkk, hk']
            simp only [hiff]
      have := ih hstep
      simpa [hc, he] using this
    · by_cases h2 : ((c.info o).hasCoder && k.isCached) = true
      · have hc : (c.info o).hasCoder = true := (Bool.and_eq_true _ _ ▸ h2).1
        have hi : k.isCached = true := (Bool.and_eq_true _ _ ▸ h2).2
        have he : c.hasEntry k key = false := by rw [hc] at h1; simpa using h1
        have hstep : Tallied (c.tallyStep o key t k) hits (misses ++ [(o, k)]) := by
          refine ⟨?_, ?_, ?_⟩
          · simp [Config.tallyStep, hc, he, hi, h.decoded]
          · simp [Config.tallyStep, hc, he, hi, h.encoded]
          · intro k'
            have hk' := h.keys k'
            simp only [Config.tallyStep, hc, he, hi, Bool.and_self, Bool.and_false, if_true,
              Bool.false_eq_true, if_false]
            by_cases hkk : k' = k
            · subst hkk
              simp
            · have hiff : k' ∈ (misses ++ [(o, k)]).map Prod.snd ↔ k' ∈ misses.map Prod.snd := by
                simp [hkk]
              rw [if_neg hkk, hk']
              simp only [hiff]
        have := ih hstep
        simpa [hc, he, hi] using this
      · have hstep : c.tallyStep o key t k = t := by
          simp only [Config.tallyStep]
          rw [if_neg h1, if_neg h2]
        rw [hstep]
        have := ih h
        cases hc : (c.info o).hasCoder
        · simpa [hc] using this
        · have he : c.hasEntry k key = false := by rw [hc] at h1; simpa using h1
          have hi : k.isCached = false := by rw [hc] at h2; simpa using h2
          simpa [hc, he, hi] using this

theorem tallied_calls (c : Config Op Coll) (calls : List (Call Op (View Op))) :
    ∀ {t : Tally} {hits misses : List (Op × DatasetKey)}, Tallied t hits misses →
    Tallied (calls.foldl c.tallyCall t) (hits ++ calls.flatMap (hitsOf c))
      (misses ++ calls.flatMap (missesOf c)) := by
  induction calls with
  | nil => intro t hits misses h; simpa using h
  | cons call calls ih =>
    intro t hits misses h
    have hstep : Tallied (c.tallyCall t call) (hits ++ hitsOf c call) (misses ++ missesOf c call) := by
      unfold Config.tallyCall hitsOf missesOf
      cases hl : c.loopKey call.op call.ins with
      | none => simpa using h
      | some key => exact tallied_keys c call.op key c.keys h
    have := ih hstep
    simpa using this

theorem flatMap_nodup {f : Call Op (View Op) → List (Op × DatasetKey)}
    (hf : ∀ call, (f call).Nodup) (ho : ∀ call, ∀ p ∈ f call, p.1 = call.op) :
    ∀ {calls : List (Call Op (View Op))}, (calls.map (fun c => c.op)).Nodup →
      (calls.flatMap f).Nodup := by
  intro calls
  induction calls with
  | nil => intro _; simp
  | cons call calls ih =>
    intro h
    rw [List.map_cons, List.nodup_cons] at h
    rw [List.flatMap_cons, List.nodup_append]
    refine ⟨hf call, ih h.2, ?_⟩
    intro a ha b hb hab
    subst hab
    obtain ⟨call', hc', hb'⟩ := List.mem_flatMap.1 hb
    exact h.1 (List.mem_map.2 ⟨call', hc', by rw [← ho _ _ hb', ho _ _ ha]⟩)

theorem filter_pairs_nodup {ks : List DatasetKey} (h : ks.Nodup) (p : DatasetKey → Bool) (o : Op) :
    ((ks.filter p).map fun k => (o, k)).Nodup :=
  (h.filter p).map (fun _ _ h => (Prod.mk.inj h).2)

section Main
variable [DecidableEq Op] [Fintype Op]

/-- The tally of a run. -/
theorem run_tally {c : Config Op Coll} {g : OpGraph Op} {m : Meaning Op Coll}
    {R : Op → Coll → Coll → Prop} {env : DatasetKey → Coll} {target : Op × Nat}
    (h : Run c g m R env target) (hc : c.cache.isSome = true) (hne : c.keys ≠ []) :
    ∃ st vs hits misses, traverse g c.visitor [target] = .ok (st, vs) ∧
      Tallied (st.calls.foldl c.tallyCall .start) hits misses ∧ hits.Nodup ∧ misses.Nodup ∧
      (∀ o k, (o, k) ∈ hits ↔ Decodes c g target o k) ∧
      (∀ o k, (o, k) ∈ misses ↔ Encodes c g target o k) := by
  obtain ⟨st, v, h1, _, _, _, h5, h6⟩ := optimize_on h hc hne
  obtain ⟨hproper, _, _⟩ := traverse_spec g h.shape.wellFormed c.visitor [target]
    (by simpa using h.target) st _ h1
  have hnd := hproper.nodup
  have hkey : ∀ call ∈ st.calls, ∀ key, c.loopKey call.op call.ins = some key →
      FirstPhase c.info g call.op ∧ KeyOf c g call.op key := by
    intro call hcall key hl
    have hins := (h6 call hcall).2.imp (fun _ _ h => h.toFine)
    by_cases hf : FirstPhase c.info g call.op ∧ (c.info call.op).kind ≠ .applySavedModel 0
    · obtain ⟨key', hk1, hk2⟩ := loopKey_first h.shape hc hne hins hf.1 hf.2
      rw [hl] at hk1
      cases hk1
      exact ⟨hf.1, hk2⟩
    · rw [loopKey_other h.shape hins hf] at hl
      cases hl
  have hback : ∀ o key, Reach g target.1 o → FirstPhase c.info g o → (c.info o).hasCoder = true →
      KeyOf c g o key → ∃ call ∈ st.calls, call.op = o ∧ c.loopKey call.op call.ins = some key := by
    intro o key hr hf hcd hk
    obtain ⟨call, hcall, rfl⟩ := h5 o hr
    have hkind : (c.info call.op).kind ≠ .applySavedModel 0 := by
      intro hk'
      rw [(h.shape.applyPart _ hk').2] at hcd
      cases hcd
    obtain ⟨key', hk1, hk2⟩ := loopKey_first h.shape hc hne
      ((h6 call hcall).2.imp (fun _ _ h => h.toFine)) hf hkind
    rw [keyOf_unique hk hk2]
    exact ⟨call, hcall, rfl, hk1⟩
  have hent : ∀ k key, c.hasEntry k key = true ↔ entries c k key ≠ none := by
    intro k key
    have := hasEntry_false (c := c) (k := k) (key := key)
    cases he : c.hasEntry k key
    · rw [he] at this; simp [this.1 rfl]
    · rw [he] at this; simp only [true_iff]; intro hn; exact absurd (this.2 hn) (by simp)
  refine ⟨st, [v], st.calls.flatMap (hitsOf c), st.calls.flatMap (missesOf c), h1, ?_, ?_, ?_, ?_, ?_⟩
  · have := tallied_calls c st.calls (t := .start) (hits := []) (misses := [])
      ⟨rfl, rfl, fun k => by simp [Tally.start]⟩
    simpa using this
  · refine flatMap_nodup ?_ ?_ hnd
    · intro call
      unfold hitsOf
      split
      · exact filter_pairs_nodup h.keys _ _
      · simp
    · intro call p hp
      unfold hitsOf at hp
      split at hp
      · obtain ⟨k, _, rfl⟩ := List.mem_map.1 hp; rfl
      · simp at hp
  · refine flatMap_nodup ?_ ?_ hnd
    · intro call
      unfold missesOf
      split
      · exact filter_pairs_nodup h.keys _ _
      · simp
    · intro call p hp
      unfold missesOf at hp
      split at hp
      · obtain ⟨k, _, rfl⟩ := List.mem_map.1 hp; rfl
      · simp at hp
  · intro o k
    constructor
    · intro hm
      obtain ⟨call, hcall, hp⟩ := List.mem_flatMap.1 hm
      unfold hitsOf at hp
      split at hp
      · rename_i key hl
        obtain ⟨k', hk', heq⟩ := List.mem_map.1 hp
        cases heq
        obtain ⟨hk1, hk2⟩ := List.mem_filter.1 hk'
        rw [Bool.and_eq_true] at hk2
        obtain ⟨hf, hko⟩ := hkey call hcall key hl
        exact ⟨(h6 call hcall).1, hf, hk2.1, hk1, key, hko, (hent _ _).1 hk2.2⟩
      · simp at hp
    · rintro ⟨hr, hf, hcd, hk, key, hko, he⟩
      obtain ⟨call, hcall, rfl, hl⟩ := hback o key hr hf hcd hko
      refine List.mem_flatMap.2 ⟨call, hcall, ?_⟩
      simp only [hitsOf, hl]
      exact List.mem_map.2 ⟨k, List.mem_filter.2 ⟨hk, by simp [hcd, (hent _ _).2 he]⟩, rfl⟩
  · intro o k
    constructor
    · intro hm
      obtain ⟨call, hcall, hp⟩ := List.mem_flatMap.1 hm
      unfold missesOf at hp
      split at hp
      · rename_i key hl
        obtain ⟨k', hk', heq⟩ := List.mem_map.1 hp
        cases heq
        obtain ⟨hk1, hk2⟩ := List.mem_filter.1 hk'
        simp only [Bool.and_eq_true, Bool.not_eq_true'] at hk2
        obtain ⟨hf, hko⟩ := hkey call hcall key hl
        exact ⟨(h6 call hcall).1, hf, hk2.1.1, hk1, hk2.2, key, hko, hasEntry_false.1 hk2.1.2⟩
      · simp at hp
    · rintro ⟨hr, hf, hcd, hk, hi, key, hko, he⟩
      obtain ⟨call, hcall, rfl, hl⟩ := hback o key hr hf hcd hko
      refine List.mem_flatMap.2 ⟨call, hcall, ?_⟩
      simp only [missesOf, hl]
      exact List.mem_map.2 ⟨k, List.mem_filter.2 ⟨hk, by simp [hcd, hi, hasEntry_false.2 he]⟩, rfl⟩

/-- **C98.** In an analysis with one phase the counters are: the number of pairs of a cacheable
operation and a dataset whose entry is written; the number of those whose entry is read; and the
sum of the sizes of the datasets that have metadata, for which entries are read, and for which no
entry is written. -/
theorem counters_are_exact {c : Config Op Coll} {g : OpGraph Op} {m : Meaning Op Coll}
    {R : Op → Coll → Coll → Prop} {env : DatasetKey → Coll} {target : Op × Nat}
    (h : Run c g m R env target) (hc : c.cache ≠ none) (hne : c.keys ≠ []) {numPhases : Nat}
    (hp : numPhases ≤ 1) (metadata : DatasetKey → Option (List (Option Nat))) :
    ∃ r, c.counters g target numPhases metadata = .ok r ∧
      Counts (Encodes c g target) r.encoded ∧ Counts (Decodes c g target) r.decoded ∧
      ∃ ks, List.Sublist ks c.keys ∧ (∀ k, k ∈ ks ↔ FromCache c g target metadata k) ∧
        r.bytesFromCache = (ks.map (sizeOf metadata)).sum := by
  obtain ⟨st, vs, hits, misses, h1, h2, h3, h4, h5, h6⟩ := run_tally h
    (by simpa [Option.isSome_iff_ne_none] using hc) hne
  have hr : c.counters g target numPhases metadata = .ok (instrument metadata
      (c.detachedLeafs numPhases metadata (st.calls.foldl c.tallyCall .start))) := by
    simp only [Config.counters, h1, bind, Except.bind]
  refine ⟨_, hr, ?_⟩
  generalize st.calls.foldl c.tallyCall .start = t at h2
  have hmem : ∀ k, k ∈ (c.keys.filter fun k => !((t.hasMisses k).getD true) && (metadata k).isSome) ↔
      (metadata k).isSome = true ∧ (∃ o, Decodes c g target o k) ∧ ∀ o, ¬ Encodes c g target o k := by
    intro k
    rw [List.mem_filter, Bool.and_eq_true, Bool.not_eq_true', h2.keys k]
    have hM : k ∈ misses.map Prod.snd ↔ ∃ o, Encodes c g target o k := by
      simp only [List.mem_map, Prod.exists, exists_eq_right, h6]
    have hH : k ∈ hits.map Prod.snd ↔ ∃ o, Decodes c g target o k := by
      simp only [List.mem_map, Prod.exists, exists_eq_right, h5]
    by_cases hm : k ∈ misses.map Prod.snd
    · have := hM.1 hm
      rw [if_pos hm]
      simp only [Option.getD_some, Bool.true_eq_false, false_and, and_false, false_iff]
      rintro ⟨_, _, hn⟩
      obtain ⟨o, ho⟩ := this
      exact hn o ho
    · rw [if_neg hm]
      by_cases hh : k ∈ hits.map Prod.snd
      · rw [if_pos hh]
        have hd := hH.1 hh
        obtain ⟨o, ho⟩ := hd
        constructor
        · rintro ⟨_, _, hx⟩
          exact ⟨hx, ⟨o, ho⟩, fun o' ho' => hm (hM.2 ⟨o', ho'⟩)⟩
        · rintro ⟨hx, _, _⟩
          exact ⟨ho.2.2.2.1, rfl, hx⟩
      · rw [if_neg hh]
        simp only [Option.getD_none, Bool.true_eq_false, false_and, and_false, false_iff]
        rintro ⟨_, hd, _⟩
        exact hh (hH.2 hd)
  generalize hks : (c.keys.filter fun k => !((t.hasMisses k).getD true) && (metadata k).isSome) = ks
    at hmem
  have hsub : List.Sublist ks c.keys := hks ▸ List.filter_sublist
  have hsum : ∀ l : List DatasetKey, ((l.flatMap fun k => (metadata k).getD []).map
      fun m => m.getD 0).sum = (l.map (sizeOf metadata)).sum := by
    intro l
    induction l with
    | nil => rfl
    | cons k l ih => simp [ih, Optimize.Spec.sizeOf]
  have hval : instrument metadata (c.detachedLeafs numPhases metadata t)
      = ⟨misses.length, hits.length, (ks.map (sizeOf metadata)).sum⟩ := by
    unfold Config.detachedLeafs
    rw [if_neg (by omega)]
    simp only [hks, h2.encoded, h2.decoded]
    by_cases hz : (!ks.isEmpty || misses.length != 0 || hits.length != 0) = true
    · rw [if_pos hz]
      simp only [instrument, hsum]
      congr 1
      · split <;> omega
      · split <;> omega
      · cases ks <;> simp
    · rw [if_neg hz]
      simp only [Bool.or_eq_true, Bool.not_eq_true', bne_iff_ne, ne_eq, not_or, not_not,
        Bool.not_eq_false, List.isEmpty_iff] at hz
      obtain ⟨⟨hz1, hz2⟩, hz3⟩ := hz
      simp [instrument, hz1, hz2, hz3]
  rw [hval]
  exact ⟨⟨misses, h4, h6, rfl⟩, ⟨hits, h3, h5, rfl⟩, ks, hsub,
    fun k => by rw [hmem k, FromCache, Option.isSome_iff_ne_none], rfl⟩

/-- **C98.** If the result gets at the data only through cacheable outputs, then a dataset that is
to be cached and is counted in the bytes that come from the cache is not read. -/
theorem bytes_from_cache_are_not_read_partial {c : Config Op Coll} {g : OpGraph Op}
    {m : Meaning Op Coll} {R : Op → Coll → Coll → Prop} {env : DatasetKey → Coll} {target : Op × Nat}
    (h : Run c g m R env target) (hc : c.cache ≠ none) (hne : c.keys ≠ [])
    (hcov : Covered c.info g target.1) (metadata : DatasetKey → Option (List (Option Nat))) :
    ∃ node ws, c.optimize g target = .ok (node, ws) ∧
      ∀ k, FromCache c g target metadata k → k.isCached = true → k ∉ c.requiredKeys node := by
  obtain ⟨node, ws, h1, h2⟩ := fully_cached_datasets_are_not_required h hc hne hcov
  refine ⟨node, ws, h1, ?_⟩
  intro k hk hi hreq
  obtain ⟨hkeys, hnot⟩ := h2 k hreq
  refine hnot ?_
  intro o key hr hf hcd hko
  have hen : entries c k key ≠ none := fun hen => hk.2.2 o ⟨hr, hf, hcd, hkeys, hi, key, hko, hen⟩
  unfold entries at hen
  cases hcc : c.cache with
  | none => exact absurd hcc hc
  | some cache =>
    rw [hcc] at hen
    obtain ⟨e, he⟩ := Option.ne_none_iff_exists'.1 hen
    exact ⟨cache, e, rfl, by simpa using he⟩

/-- **C98.** With several phases nothing is counted. -/
theorem several_phases_count_nothing {c : Config Op Coll} {g : OpGraph Op} {target : Op × Nat}
    {numPhases : Nat} (hp : 1 < numPhases) (metadata : DatasetKey → Option (List (Option Nat)))
    {r : Counters} (h : c.counters g target numPhases metadata = .ok r) : r = ⟨0, 0, 0⟩ := by
  unfold Config.counters at h
  obtain ⟨⟨st, vs⟩, _, h2⟩ := bind_ok_iff.1 h
  cases h2
  simp [Config.detachedLeafs, hp, instrument]

end Main

/-! ### An analyzer without a cache beside one with a cache -/

section Beside
variable {Coll : Type}

/-- The graph of `ptransform_analyzer` for a `CacheablePTransformAnalyzer` (operations 0 to 7 as in
`ptGraph`), and beside it an analyzer without a cache on the same tensors (8); the SavedModel that
binds both (9). -/
def upGraph : OpGraph (Fin 10) where
  inputs := ![[], [], [(0, 0), (1, 0)], [(2, 0)], [(3, 0)], [(4, 0)], [(5, 0)], [(6, 0)], [(3, 0)],
    [(7, 0), (8, 0)]]
  numOutputs := fun _ => 1

/-- The classes of its operations. -/
def upKind : Fin 10 → OpKind := ![.other, .extractInput, .applySavedModel 0, .other, .other, .other,
  .other, .other, .other, .other]

/-- Which of them are partitionable. -/
def upPartitionable : Fin 10 → Bool :=
  ![false, false, true, true, true, true, false, false, false, false]

/-- Which of them have a cache coder. -/
def upCoder : Fin 10 → Bool :=
  ![false, false, false, false, false, true, false, false, false, false]

/-- Its operations. -/
def upInfo (label : Fin 10 → Bytes) (desc : Fin 10 → OpDef) (o : Fin 10) : OpInfo where
  label := label o
  kind := upKind o
  isPartitionable := upPartitionable o
  hasCoder := upCoder o
  desc := desc o

/-- What they compute: the analyzer without a cache counts the elements. -/
def upMeaning (t : PTransforms (List Int)) : Meaning (Fin 10) (List Int) where
  run o ins :=
    match o, ins with
    | 0, [] => .ok [t.model]
    | 2, [_, d] => .ok [t.apply d]
    | 3, [d] => .ok [t.select d]
    | 4, [d] => .ok [t.make d]
    | 5, [a] => .ok [t.merge a]
    | 6, [a] => .ok [t.merge a]
    | 7, [a] => .ok [t.extract a]
    | 8, [d] => .ok [[(d.length : Int)]]
    | 9, [a, b] => .ok [a ++ b]
    | _, _ => .error "TypeError"
  flatten := t.flatten
  encode _ := t.encode
  decode _ := t.decode

/-- The configuration for it. -/
def upConfig (Coll : Type) (label : Fin 10 → Bytes) (desc : Fin 10 → OpDef)
    (paths : String → Option (Option Bytes)) (sha1 : Bytes → Bytes) (version : Bytes) :
    Config (Fin 10) Coll where
  info := upInfo label desc
  numOutputs := fun _ => 1
  keys := []
  cache := none
  paths := paths
  sha1 := sha1
  version := version

theorem up_apply : ∀ {o : Fin 10}, upKind o = .applySavedModel 0 → o = 2 := by decide

theorem up_source : ∀ {o : Fin 10}, upKind o = .extractInput → o = 1 := by decide

theorem up_part : ∀ {o : Fin 10}, upPartitionable o = true → o = 2 ∨ o = 3 ∨ o = 4 ∨ o = 5 := by
  decide

theorem up_inputs : ∀ o : Fin 10, 2 ≤ (upGraph.inputs o).length → ∀ n ∈ upGraph.inputs o,
    ¬ (n.1 = 2 ∨ n.1 = 3 ∨ n.1 = 4 ∨ n.1 = 5) := by decide

theorem up_next : ∀ o : Fin 10, upPartitionable o = false → ∀ n ∈ upGraph.inputs o,
    (n.1 = 2 ∨ n.1 = 3 ∨ n.1 = 4 ∨ n.1 = 5) → o = 6 ∨ o = 8 := by decide

theorem up_first {label : Fin 10 → Bytes} {desc : Fin 10 → OpDef} {o : Fin 10}
    (h : FirstPhase (upInfo label desc) upGraph o) : o = 2 ∨ o = 3 ∨ o = 4 ∨ o = 5 := by
  cases h with
  | apply h => exact Or.inl (up_apply h)
  | step _ h _ _ => exact up_part h

theorem up_shape {label : Fin 10 → Bytes} {desc : Fin 10 → OpDef}
    {paths : String → Option (Option Bytes)} (sha1 : Bytes → Bytes) (version : Bytes)
    (hp : ∀ o, HasPaths (desc o) paths) :
    Shape (upConfig Coll label desc paths sha1 version) upGraph where
  wellFormed := by unfold WellFormed; decide
  numOutputs := rfl
  several := by
    intro o ho n hn hf
    exact up_inputs o ho n hn (up_first hf)
  source := by
    intro o h
    have : o = 1 := up_source h
    subst this
    exact ⟨rfl, rfl, rfl⟩
  apply := by
    intro o h
    have : o = 2 := up_apply h
    subst this
    exact ⟨0, 1, rfl, rfl, (by show upKind 0 ≠ _; decide), rfl⟩
  applyPart := by
    intro o h
    have : o = 2 := up_apply h
    subst this
    exact ⟨rfl, rfl⟩
  coder := (by decide : ∀ o, upCoder o = true → upPartitionable o = true)
  one := by intro o _; rfl
  inputs := (by decide : ∀ o, upPartitionable o = true → upGraph.inputs o ≠ [])
  paths := by
    intro o _
    obtain ⟨ps, h1, h2⟩ := hp o
    exact ⟨ps, h1, fun _ => h2⟩

theorem up_out_iff {m : Meaning (Fin 10) Coll} {o : Fin 10} {ins : List Coll} {y x : Coll}
    (h : m.run o ins = .ok [y]) : Out m o ins 0 x ↔ x = y := by
  constructor
  · rintro ⟨outs, h1, h2⟩
    rw [h] at h1
    cases h1
    simpa using h2.symm
  · rintro rfl
    exact ⟨_, h, rfl⟩

/-- When collections are equivalent as outputs of the operations, as in
`PTransforms.Equivalent`. -/
def UpEquivalent (t : PTransforms (List Int)) (o : Fin 10) (a b : List Int) : Prop :=
  if o = 4 ∨ o = 5 then t.merge a = t.merge b else a = b

theorem up_contract {label : Fin 10 → Bytes} {desc : Fin 10 → OpDef}
    {paths : String → Option (Option Bytes)} {sha1 : Bytes → Bytes} {version : Bytes}
    {t : PTransforms (List Int)} (ht : Lawful t) :
    Contract (upConfig (List Int) label desc paths sha1 version) upGraph (upMeaning t) (UpEquivalent t) where
  apply := by
    intro o model parts x h _ hx
    have : o = 2 := up_apply h
    subst this
    have hrun : ∀ d, (upMeaning t).run 2 [model, d] = .ok [t.apply d] := fun _ => rfl
    rw [up_out_iff (hrun _)] at hx
    refine ⟨parts.map t.apply, forall₂_self_map (fun a => (up_out_iff (hrun a)).2 rfl) parts, ?_⟩
    rw [hx]
    exact ht.apply parts
  step := by
    intro o n all parts x hf hk hin _ hR hx
    rcases up_first hf with rfl | rfl | rfl | rfl
    · exact absurd rfl hk
    · have hn : n = (2, 0) := by
        have : upGraph.inputs 3 = [(2, 0)] := rfl
        rw [this] at hin; cases hin; rfl
      subst hn
      have hrun : ∀ d, (upMeaning t).run 3 [d] = .ok [t.select d] := fun _ => rfl
      rw [up_out_iff (hrun _)] at hx
      refine ⟨parts.map t.select, forall₂_self_map (fun a => (up_out_iff (hrun a)).2 rfl) parts, ?_⟩
      have hR' : all = t.flatten parts := by
        simpa [UpEquivalent, upMeaning] using hR
      rw [hx, hR']
      exact ht.select parts
    · have hn : n = (3, 0) := by
        have : upGraph.inputs 4 = [(3, 0)] := rfl
        rw [this] at hin; cases hin; rfl
      subst hn
      have hrun : ∀ d, (upMeaning t).run 4 [d] = .ok [t.make d] := fun _ => rfl
      rw [up_out_iff (hrun _)] at hx
      refine ⟨parts.map t.make, forall₂_self_map (fun a => (up_out_iff (hrun a)).2 rfl) parts, ?_⟩
      have hR' : all = t.flatten parts := by
        simpa [UpEquivalent, upMeaning] using hR
      rw [hx, hR']
      exact ht.make parts
    · have hn : n = (4, 0) := by
        have : upGraph.inputs 5 = [(4, 0)] := rfl
        rw [this] at hin; cases hin; rfl
      subst hn
      have hrun : ∀ d, (upMeaning t).run 5 [d] = .ok [t.merge d] := fun _ => rfl
      rw [up_out_iff (hrun _)] at hx
      refine ⟨parts.map t.merge, forall₂_self_map (fun a => (up_out_iff (hrun a)).2 rfl) parts, ?_⟩
      have hR' : t.merge all = t.merge (t.flatten parts) := by
        simpa [UpEquivalent, upMeaning] using hR
      have h1 := ht.merge [all]
      simp only [List.map_cons, List.map_nil, ht.one] at h1
      show t.merge x = t.merge (t.flatten (parts.map t.merge))
      rw [hx, h1, hR']
      exact (ht.merge parts).symm
  next := by
    intro o n a b outs hp hin hf hR hrun
    rcases up_next o hp n (by rw [hin]; simp) (up_first hf) with rfl | rfl
    · have hn : n = (5, 0) := by
        have : upGraph.inputs 6 = [(5, 0)] := rfl
        rw [this] at hin; cases hin; rfl
      subst hn
      have hR' : t.merge a = t.merge b := by simpa [UpEquivalent] using hR
      rw [← hrun]
      show Except.ok [t.merge b] = Except.ok [t.merge a]
      rw [hR']
    · have hn : n = (3, 0) := by
        have : upGraph.inputs 8 = [(3, 0)] := rfl
        rw [this] at hin; cases hin; rfl
      subst hn
      have hR' : a = b := by simpa [UpEquivalent] using hR
      rw [← hR']
      exact hrun

theorem up_acyclic (o : Fin 10) : ¬ OnCycle upGraph o := by
  have hdep : ∀ a b, Dep upGraph a b → b < a := by
    rintro a b ⟨i, hi⟩
    have : ∀ a : Fin 10, ∀ n ∈ upGraph.inputs a, n.1 < a := by decide
    exact this a _ hi
  have : ∀ a b, Relation.TransGen (Dep upGraph) a b → b < a := by
    intro a b h
    induction h with
    | single h => exact hdep _ _ h
    | tail _ h ih => exact lt_trans (hdep _ _ h) ih
  exact fun h => lt_irrefl _ (this _ _ h)

theorem up_value_local (t : PTransforms (List Int)) (label : Fin 10 → Bytes)
    (desc : Fin 10 → OpDef) (all : List Int) :
    Value (upMeaning t) (upInfo label desc) upGraph all (3, 0) (t.select (t.apply all)) ∧
    Value (upMeaning t) (upInfo label desc) upGraph all (5, 0)
      (t.merge (t.make (t.select (t.apply all)))) := by
  have hk : ∀ o : Fin 10, o ≠ 1 → (upInfo label desc o).kind ≠ .extractInput :=
    fun o ho h => ho (up_source h)
  have h0 : Value (upMeaning t) (upInfo label desc) upGraph all (0, 0) t.model :=
    .op (hk 0 (by decide)) (by show List.Forall₂ _ [] []; exact .nil) ⟨_, rfl, rfl⟩
  have h1 : Value (upMeaning t) (upInfo label desc) upGraph all (1, 0) all := .source rfl
  have h2 : Value (upMeaning t) (upInfo label desc) upGraph all (2, 0) (t.apply all) :=
    .op (ins := [t.model, all]) (hk 2 (by decide)) (.cons h0 (.cons h1 .nil)) ⟨_, rfl, rfl⟩
  have h3 : Value (upMeaning t) (upInfo label desc) upGraph all (3, 0) (t.select (t.apply all)) :=
    .op (ins := [_]) (hk 3 (by decide)) (.cons h2 .nil) ⟨_, rfl, rfl⟩
  have h4 : Value (upMeaning t) (upInfo label desc) upGraph all (4, 0)
      (t.make (t.select (t.apply all))) :=
    .op (ins := [_]) (hk 4 (by decide)) (.cons h3 .nil) ⟨_, rfl, rfl⟩
  exact ⟨h3, .op (ins := [_]) (hk 5 (by decide)) (.cons h4 .nil) ⟨_, rfl, rfl⟩⟩

theorem up_value (t : PTransforms (List Int)) (label : Fin 10 → Bytes) (desc : Fin 10 → OpDef)
    (all : List Int) :
    Value (upMeaning t) (upInfo label desc) upGraph all (9, 0)
      (t.extract (t.merge (t.merge (t.make (t.select (t.apply all))))) ++
        [((t.select (t.apply all)).length : Int)]) := by
  have hk : ∀ o : Fin 10, o ≠ 1 → (upInfo label desc o).kind ≠ .extractInput :=
    fun o ho h => ho (up_source h)
  obtain ⟨h3, h5⟩ := up_value_local t label desc all
  have h6 : Value (upMeaning t) (upInfo label desc) upGraph all (6, 0)
      (t.merge (t.merge (t.make (t.select (t.apply all))))) :=
    .op (ins := [_]) (hk 6 (by decide)) (.cons h5 .nil) ⟨_, rfl, rfl⟩
  have h7 : Value (upMeaning t) (upInfo label desc) upGraph all (7, 0)
      (t.extract (t.merge (t.merge (t.make (t.select (t.apply all)))))) :=
    .op (ins := [_]) (hk 7 (by decide)) (.cons h6 .nil) ⟨_, rfl, rfl⟩
  have h8 : Value (upMeaning t) (upInfo label desc) upGraph all (8, 0)
      [((t.select (t.apply all)).length : Int)] :=
    .op (ins := [_]) (hk 8 (by decide)) (.cons h3 .nil) ⟨_, rfl, rfl⟩
  exact .op (ins := [_, _]) (hk 9 (by decide)) (.cons h7 (.cons h8 .nil)) ⟨_, rfl, rfl⟩

end Beside

/-- A dataset whose data make a difference, with the same entries of the cache, is required. -/
theorem dataset_with_effect_is_required {Op Coll : Type} [DecidableEq Op] [Fintype Op]
    {c : Config Op Coll} {g : OpGraph Op} {m : Meaning Op Coll} {R : Op → Coll → Coll → Prop}
    {env env' : DatasetKey → Coll} {target : Op × Nat} (h : Run c g m R env target)
    (h' : Run c g m R env' target) {k : DatasetKey} (hk : ∀ k', k' ≠ k → env' k' = env k')
    {x x' : Coll} (hx : Value m c.info g (m.flatten (c.keys.map env)) target x)
    (hx' : Value m c.info g (m.flatten (c.keys.map env')) target x') (hne : x ≠ x') :
    ∃ node ws, c.optimize g target = .ok (node, ws) ∧ k ∈ c.requiredKeys node := by
  obtain ⟨node, ws, h1, _, h3⟩ := only_required_datasets_matter h
  obtain ⟨node', ws', h4, h5⟩ := optimized_graph_computes_the_same h' hx'
  rw [h1] at h4
  cases h4
  refine ⟨node, ws, h1, ?_⟩
  by_contra hn
  have := h3 env' (fun k' hk' => hk k' (fun he => hn (he ▸ hk'))) x hx
  rw [h5] at this
  cases this
  exact hne rfl

namespace InstrumentExample
open Example (sums sums_lawful sha d1)

def label (o : Fin 10) : Bytes := [⟨o.val, by omega⟩]

def desc (o : Fin 10) : OpDef := ⟨label o, none, [], [[1]]⟩

def conf : Config (Fin 10) (List Int) :=
  (upConfig _ label desc (fun _ => none) sha [100]).on [d1]
    (fun k _ => if k = d1 then some [11] else none)

/-- The metadata of the dataset: it has 1000 bytes. -/
def metadata (k : DatasetKey) : Option (List (Option Nat)) :=
  if k = d1 then some [some 1000] else none

theorem has_paths (o : Fin 10) : HasPaths (desc o) (fun _ => none) :=
  ⟨_, rfl, by simp [desc]⟩

theorem run {env : DatasetKey → List Int} (hd : (env d1).sum = 3) :
    Run conf upGraph (upMeaning sums) (UpEquivalent sums) env (9, 0) := by
  refine ⟨on_shape (up_shape sha [100] has_paths) _ _, on_contract (up_contract sums_lawful) _ _,
    ?_, (by show [d1].Nodup; decide), fun o _ => up_acyclic o, by decide⟩
  intro o k key e p hf hcd hkey he hp
  have ho : o = 5 := by
    have : ∀ o : Fin 10, upCoder o = true → o = 5 := by decide
    exact this o hcd
  subst ho
  by_cases hk : k = d1
  · subst hk
    have he' : e = [11] := by
      have : some [11] = some e := by
        rw [← he]; simp [entries, conf, Config.on]
      cases this; rfl
    have := value_unique (c := conf) (on_shape (up_shape sha [100] has_paths) _ _) hf
      (up_value_local sums label desc (env d1)).2 hp
    subst this
    subst he'
    have h1 : ∀ l : List Int, (l.map (fun x => 2 * x)).sum = 2 * l.sum := by
      intro l
      induction l with
      | nil => rfl
      | cons a l ih => simp only [List.map_cons, List.sum_cons, ih]; omega
    have h2 : ((env d1).map (fun x => 2 * x)).sum = 6 := by rw [h1, hd]; rfl
    simp [upMeaning, sums, h2]
  · have : (none : Option (List Int)) = some e := by
      rw [← he]; simp [entries, conf, Config.on, hk]
    cases this

end InstrumentExample

open InstrumentExample in
/-- **C98 (finding).** The counter of bytes that come from the cache also counts datasets that are
read: here an analyzer without a cache reads the dataset whose 1000 bytes are counted as those of
a dataset that is not read due to a cache hit. -/
theorem counted_although_read :
    ∃ node ws r, conf.optimize upGraph (9, 0) = .ok (node, ws) ∧
      Example.d1 ∈ conf.requiredKeys node ∧
      conf.counters upGraph (9, 0) 1 metadata = .ok r ∧ r = ⟨0, 1, 1000⟩ := by
  have hrun := run (env := fun _ => [1, 2]) rfl
  obtain ⟨node, ws, h1, h2⟩ := dataset_with_effect_is_required hrun
    (run (env := fun k => if k = Example.d1 then [3] else [1, 2]) rfl) (k := Example.d1)
    (fun k hk => if_neg hk) (up_value Example.sums label desc _) (up_value Example.sums label desc _)
    (by decide)
  refine ⟨node, ws, ?_⟩
  obtain ⟨r, h3, he, hd, ks, hsub, hks, hb⟩ := counters_are_exact hrun (numPhases := 1)
    (by simp [conf, Config.on]) (by simp [conf, Config.on]) (Nat.le_refl 1) metadata
  refine ⟨r, h1, h2, h3, ?_⟩
  have hinfo : conf.info = upInfo label desc := rfl
  have hcoder : ∀ o, (conf.info o).hasCoder = true → o = 5 := by
    have : ∀ o : Fin 10, upCoder o = true → o = 5 := by decide
    exact this
  have hentry : ∀ key, entries conf Example.d1 key ≠ none := by
    intro key; simp [entries, conf, Config.on]
  have hkeys : conf.keys = [Example.d1] := rfl
  have f5 : FirstPhase conf.info upGraph 5 := by
    refine .step (n := (4, 0)) (by show upKind 5 ≠ _; decide) rfl rfl ?_
    refine .step (n := (3, 0)) (by show upKind 4 ≠ _; decide) rfl rfl ?_
    refine .step (n := (2, 0)) (by show upKind 3 ≠ _; decide) rfl rfl ?_
    exact .apply rfl
  have hdep : ∀ a b : Fin 10, (b, 0) ∈ upGraph.inputs a → Dep upGraph a b := fun a b h => ⟨0, h⟩
  have hreach : Reach upGraph 9 5 := .head (hdep 9 7 (by decide))
    (.head (hdep 7 6 (by decide)) (.head (hdep 6 5 (by decide)) .refl))
  obtain ⟨q, hq⟩ := first_has_path hrun.shape f5
  have hdec : ∀ o k, Decodes conf upGraph (9, 0) o k ↔ o = 5 ∧ k = Example.d1 := by
    intro o k
    constructor
    · rintro ⟨_, _, hc, hk, _⟩
      exact ⟨hcoder o hc, by simpa [hkeys] using hk⟩
    · rintro ⟨rfl, rfl⟩
      exact ⟨hreach, f5, rfl, by simp [hkeys], _, ⟨q, hq, rfl⟩, hentry _⟩
  have henc : ∀ o k, ¬ Encodes conf upGraph (9, 0) o k := by
    rintro o k ⟨_, _, _, hk, _, key, _, hn⟩
    have : k = Example.d1 := by simpa [hkeys] using hk
    subst this
    exact hentry key hn
  have e0 : r.encoded = 0 := by
    obtain ⟨l, _, hl, hlen⟩ := he
    cases l with
    | nil => exact hlen.symm
    | cons p l => exact absurd ((hl p.1 p.2).1 (by simp)) (henc _ _)
  have d1' : r.decoded = 1 := by
    obtain ⟨l, hnd, hl, hlen⟩ := hd
    have hp : ∀ p, p ∈ l ↔ p = (5, Example.d1) := by
      rintro ⟨o, k⟩
      rw [hl o k, hdec]
      simp
    have : l.Perm [(5, Example.d1)] := (List.perm_ext_iff_of_nodup hnd (by simp)).2 (by simpa using hp)
    rw [← hlen, this.length_eq]
    rfl
  have hks' : ks = [Example.d1] := by
    have hm : Example.d1 ∈ ks := (hks _).2 ⟨by simp [metadata], ⟨5, (hdec _ _).2 ⟨rfl, rfl⟩⟩, fun o => henc o _⟩
    have hnd : ks.Nodup := hrun.keys.sublist hsub
    have hall : ∀ k ∈ ks, k = Example.d1 := fun k hk => by
      simpa [hkeys] using hsub.subset hk
    exact List.perm_singleton.1 ((List.perm_ext_iff_of_nodup hnd (by simp)).2
      (fun k => ⟨fun hk => by simpa using hall k hk, fun hk => by
        rw [List.mem_singleton] at hk; subst hk; exact hm⟩))
  have hb' : r.bytesFromCache = 1000 := by
    rw [hb, hks']
    rfl
  obtain ⟨a, b, c⟩ := r
  simp only at e0 d1' hb'
  rw [e0, d1', hb']

/-- One of two datasets comes from the cache: it is counted and not read. -/
example : ∃ node ws, (Example.conf.on [Example.d1, Example.d2] Example.entryOfD1).optimize
      ptGraph (7, 0) = .ok (node, ws) ∧
    FromCache (Example.conf.on [Example.d1, Example.d2] Example.entryOfD1) ptGraph (7, 0)
      InstrumentExample.metadata Example.d1 ∧
    Example.d1 ∉ (Example.conf.on [Example.d1, Example.d2] Example.entryOfD1).requiredKeys node := by
  have hrun : Run (Example.conf.on [Example.d1, Example.d2] Example.entryOfD1) ptGraph Example.sums.meaning Example.sums.Equivalent Example.data (7, 0) := by
    refine ⟨on_shape (pt_shape Example.sha [100] Example.has_paths) _ _, on_contract (pt_contract Example.sums_lawful) _ _,
      ?_, (by show [Example.d1, Example.d2].Nodup; decide), fun o _ => pt_acyclic o, by decide⟩
    intro o k key e p hf hcd hkey he hp
    have ho : o = 5 := by
      have : ∀ o : Fin 8, ptCoder o = true → o = 5 := by decide
      exact this o hcd
    subst ho
    by_cases hk : k = Example.d1
    · subst hk
      have he' : e = [11] := by
        have : some [11] = some e := he
        cases this; rfl
      have := value_unique (c := Example.conf) (pt_shape Example.sha [100] Example.has_paths) hf
        (pt_value_local Example.sums Example.label Example.desc (Example.data Example.d1)) hp
      subst this
      subst he'
      rfl
    · have : (none : Option (List Int)) = some e := by
        rw [← he]; simp [entries, Config.on, Example.entryOfD1, hk]
      cases this
  obtain ⟨node, ws, h1, h2⟩ := bytes_from_cache_are_not_read_partial hrun (by simp [Config.on])
    (by simp [Config.on]) (pt_covered Example.label Example.desc) InstrumentExample.metadata
  have h5 : FirstPhase (ptInfo Example.label Example.desc) ptGraph 5 := by
    refine .step (n := (4, 0)) (by show ptKind 5 ≠ _; decide) rfl rfl ?_
    refine .step (n := (3, 0)) (by show ptKind 4 ≠ _; decide) rfl rfl ?_
    refine .step (n := (2, 0)) (by show ptKind 3 ≠ _; decide) rfl rfl ?_
    exact .apply rfl
  have hdep : ∀ a b : Fin 8, (b, 0) ∈ ptGraph.inputs a → Dep ptGraph a b := fun a b h => ⟨0, h⟩
  have hreach : Reach ptGraph 7 5 :=
    .head (hdep 7 6 (by decide)) (.head (hdep 6 5 (by decide)) .refl)
  obtain ⟨q, hq⟩ := first_has_path hrun.shape h5
  have hentry : ∀ key, entries (Example.conf.on [Example.d1, Example.d2] Example.entryOfD1)
      Example.d1 key ≠ none := by
    intro key; simp [entries, Config.on, Example.entryOfD1]
  have hfrom : FromCache (Example.conf.on [Example.d1, Example.d2] Example.entryOfD1) ptGraph (7, 0)
      InstrumentExample.metadata Example.d1 :=
    ⟨by simp [InstrumentExample.metadata],
      ⟨5, hreach, h5, rfl, by simp [Config.on], _, ⟨q, hq, rfl⟩, hentry _⟩,
      fun o ⟨_, _, _, _, _, key, _, hn⟩ => hentry key hn⟩
  exact ⟨node, ws, h1, hfrom, h2 _ hfrom rfl⟩

end TFT.Graph.Optimize
