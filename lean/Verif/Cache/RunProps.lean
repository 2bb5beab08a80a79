import Verif.Cache.Run
import Verif.Combine.PackedLemmas
import Verif.Combine.MeanVarProps
import Verif.Combine.NumPyProps

/-!
# C08: analysis with cache equals analysis without cache

A cache is the product of a history of earlier runs. Data of a dataset never changes, but every
run may batch it, schedule it and merge it differently.
-/

namespace TFT

/-- The caches that can exist when `Exec k els` says which elements the cacheable operation can
produce for dataset `k`: start with nothing, run analyses that use the present cache and merge
what they write into it, forget entries. -/
inductive CacheHistory {El Bytes : Type} (coder : Option (CacheCoder El Bytes))
    (Exec : DatasetKey → List El → Prop) : CacheDict Bytes → Prop where
  | empty : CacheHistory coder Exec (fun _ => none)
  | run {cache : CacheDict Bytes} (h : CacheHistory coder Exec cache) (ks : List DatasetKey)
      (compute : DatasetKey → Except Err (List El))
      (hc : ∀ k ∈ ks, ∀ els, compute k = .ok els → Exec k els)
      {view ws} (hr : applyFineGrained coder cache compute ks = .ok (view, ws)) :
      CacheHistory coder Exec (updateCache cache ws)
  | forget {cache : CacheDict Bytes} (h : CacheHistory coder Exec cache) (k : DatasetKey) :
      CacheHistory coder Exec (fun k' => if k' = k then none else cache k')

section general

variable {El Bytes : Type}

theorem decode_encode (cd : CacheCoder El Bytes) (hcd : ∀ e, cd.decode (cd.encode e) = .ok e)
    (els : List El) : decodeCache cd (encodeCache cd els) = .ok els := by
  induction els with
  | nil => rfl
  | cons e els ih =>
    simp only [decodeCache, encodeCache, List.map_cons, seqExcept] at *
    simp only [hcd, ih, bind, Except.bind]

/-- Every entry of a cache encodes elements that the operation produced for this dataset. -/
def GoodCache (coder : Option (CacheCoder El Bytes)) (Exec : DatasetKey → List El → Prop)
    (cache : CacheDict Bytes) : Prop :=
  ∀ k bs, cache k = some bs → ∃ cd els, coder = some cd ∧ bs = encodeCache cd els ∧ Exec k els

theorem applyFineGrained_good (coder : Option (CacheCoder El Bytes))
    (hcd : ∀ cd, coder = some cd → ∀ e, cd.decode (cd.encode e) = .ok e)
    (Exec : DatasetKey → List El → Prop) (cache : CacheDict Bytes)
    (hg : GoodCache coder Exec cache) (compute : DatasetKey → Except Err (List El)) :
    ∀ (ks : List DatasetKey), (∀ k ∈ ks, ∀ els, compute k = .ok els → Exec k els) →
    ∀ view ws, applyFineGrained coder cache compute ks = .ok (view, ws) →
      view.map Prod.fst = ks ∧ (∀ p ∈ view, Exec p.1 p.2) ∧
      ∀ p ∈ ws, ∃ cd els, coder = some cd ∧ p.2 = encodeCache cd els ∧ Exec p.1 els := by
  intro ks
  induction ks with
  | nil =>
    intro _ view ws h
    simp only [applyFineGrained, Except.ok.injEq, Prod.mk.injEq] at h
    obtain ⟨rfl, rfl⟩ := h
    simp
  | cons k ks ih =>
    intro hc view ws h
    simp only [applyFineGrained] at h
    obtain ⟨⟨els, w⟩, h1, h⟩ := bind_ok_iff.1 h
    obtain ⟨⟨view', ws'⟩, h2, h⟩ := bind_ok_iff.1 h
    simp only [Except.ok.injEq, Prod.mk.injEq] at h
    obtain ⟨rfl, rfl⟩ := h
    obtain ⟨i1, i2, i3⟩ := ih (fun k hk => hc k (by simp [hk])) view' ws' h2
    have step : Exec k els ∧ ∀ bs, w = some bs →
        ∃ cd els, coder = some cd ∧ bs = encodeCache cd els ∧ Exec k els := by
      unfold fineGrainedStep at h1
      cases hco : coder with
      | none =>
        rw [hco] at h1
        obtain ⟨els', h3, h4⟩ := bind_ok_iff.1 h1
        simp only [Except.ok.injEq, Prod.mk.injEq] at h4
        obtain ⟨rfl, rfl⟩ := h4
        exact ⟨hc k (by simp) _ h3, by simp⟩
      | some cd =>
        rw [hco] at h1
        cases hca : cache k with
        | none =>
          rw [hca] at h1
          obtain ⟨els', h3, h4⟩ := bind_ok_iff.1 h1
          have he := hc k (by simp) _ h3
          split at h4
          · simp only [Except.ok.injEq, Prod.mk.injEq] at h4
            obtain ⟨rfl, rfl⟩ := h4
            exact ⟨he, by rintro bs ⟨⟩; exact ⟨cd, _, rfl, rfl, he⟩⟩
          · simp only [Except.ok.injEq, Prod.mk.injEq] at h4
            obtain ⟨rfl, rfl⟩ := h4
            exact ⟨he, by simp⟩
        | some bs =>
          rw [hca] at h1
          obtain ⟨els', h3, h4⟩ := bind_ok_iff.1 h1
          simp only [Except.ok.injEq, Prod.mk.injEq] at h4
          obtain ⟨rfl, rfl⟩ := h4
          obtain ⟨cd', e0, h5, rfl, h6⟩ := hg k bs hca
          rw [hco, Option.some.injEq] at h5
          subst h5
          rw [decode_encode cd (hcd cd hco)] at h3
          obtain rfl := Except.ok.inj h3
          exact ⟨h6, by simp⟩
    refine ⟨by simp [i1], ?_, ?_⟩
    · intro p hp
      rcases List.mem_cons.1 hp with rfl | hp
      · exact step.1
      · exact i2 p hp
    · intro p hp
      rcases List.mem_append.1 hp with hp | hp
      · simp only [Option.mem_toList, Option.map_eq_some_iff] at hp
        obtain ⟨bs, hbs, rfl⟩ := hp
        exact step.2 bs hbs
      · exact i3 p hp

theorem lookup_mem {α β : Type} [BEq α] [LawfulBEq α] {l : List (α × β)} {k : α} {v : β}
    (h : l.lookup k = some v) : (k, v) ∈ l := by
  induction l with
  | nil => simp at h
  | cons p l ih =>
    obtain ⟨a, b⟩ := p
    rw [List.lookup_cons] at h
    by_cases hk : k = a
    · subst hk; simp at h; simp [h]
    · have : (k == a) = false := by simpa using hk
      rw [this] at h
      exact List.mem_cons_of_mem _ (ih h)

theorem CacheHistory.good {coder : Option (CacheCoder El Bytes)}
    (hcd : ∀ cd, coder = some cd → ∀ e, cd.decode (cd.encode e) = .ok e)
    {Exec : DatasetKey → List El → Prop} {cache : CacheDict Bytes}
    (h : CacheHistory coder Exec cache) : GoodCache coder Exec cache := by
  induction h with
  | empty => intro k bs h; simp at h
  | @run cache h ks compute hc view ws hr ih =>
    obtain ⟨_, _, h3⟩ := applyFineGrained_good coder hcd Exec cache ih compute ks hc view ws hr
    intro k bs hk
    unfold updateCache at hk
    cases hl : ws.lookup k with
    | none => rw [hl] at hk; exact ih k bs (by simpa using hk)
    | some b =>
      rw [hl] at hk
      obtain rfl : b = bs := by simpa using hk
      exact h3 _ (lookup_mem hl)
  | @forget cache h k' ih =>
    intro k bs hk
    simp only at hk
    split at hk
    · simp at hk
    · exact ih k bs hk

/-- **C08**, for every cacheable operation (combiners, per-key combiners, vocabulary counts):
whatever the history of the cache, the elements that the merge stage sees for every dataset are
elements that the operation can produce on that dataset's own data. -/
theorem cached_view_is_execution {coder : Option (CacheCoder El Bytes)}
    (hcd : ∀ cd, coder = some cd → ∀ e, cd.decode (cd.encode e) = .ok e)
    {Exec : DatasetKey → List El → Prop} {cache : CacheDict Bytes}
    (h : CacheHistory coder Exec cache) (ks : List DatasetKey)
    (compute : DatasetKey → Except Err (List El))
    (hc : ∀ k ∈ ks, ∀ els, compute k = .ok els → Exec k els)
    {view ws} (hr : applyFineGrained coder cache compute ks = .ok (view, ws)) :
    view.map Prod.fst = ks ∧ ∀ p ∈ view, Exec p.1 p.2 :=
  let r := applyFineGrained_good coder hcd Exec cache (h.good hcd) compute ks hc view ws hr
  ⟨r.1, r.2.1⟩

/-- A run with cache succeeds if the computations that it needs succeed. -/
theorem applyFineGrained_ok {coder : Option (CacheCoder El Bytes)}
    (hcd : ∀ cd, coder = some cd → ∀ e, cd.decode (cd.encode e) = .ok e)
    {Exec : DatasetKey → List El → Prop} {cache : CacheDict Bytes}
    (h : GoodCache coder Exec cache) (compute : DatasetKey → Except Err (List El)) :
    ∀ (ks : List DatasetKey), (∀ k ∈ ks, ∃ els, compute k = .ok els) →
    ∃ r, applyFineGrained coder cache compute ks = .ok r := by
  intro ks
  induction ks with
  | nil => intro _; exact ⟨_, rfl⟩
  | cons k ks ih =>
    intro hc
    obtain ⟨r, hr⟩ := ih (fun k hk => hc k (by simp [hk]))
    obtain ⟨els, he⟩ := hc k (by simp)
    have : ∃ x, fineGrainedStep coder cache compute k = .ok x := by
      unfold fineGrainedStep
      cases hco : coder with
      | none => exact ⟨(els, none), by simp [he, bind, Except.bind]⟩
      | some cd =>
        cases hca : cache k with
        | none =>
          simp only [he, bind, Except.bind]
          split <;> exact ⟨_, rfl⟩
        | some bs =>
          obtain ⟨cd', e0, h5, rfl, h6⟩ := h k bs hca
          rw [hco, Option.some.injEq] at h5
          subst h5
          exact ⟨(e0, none), by simp [decode_encode cd (hcd cd hco), bind, Except.bind]⟩
    obtain ⟨x, hx⟩ := this
    simp only [applyFineGrained, hx, hr, bind, Except.bind]
    exact ⟨_, rfl⟩

/-- **C08**, what a run with cache does, dataset by dataset: a dataset with an entry is decoded
from the entry, whatever its data; all others are computed. An entry is written for exactly those
computed datasets that may be cached, and it encodes all computed elements. -/
theorem cached_run_effects {coder : Option (CacheCoder El Bytes)} {cache : CacheDict Bytes}
    {compute : DatasetKey → Except Err (List El)} :
    ∀ {ks : List DatasetKey} {view : FineGrained El} {ws : List (DatasetKey × List Bytes)},
    applyFineGrained coder cache compute ks = .ok (view, ws) →
    view.map Prod.fst = ks ∧
    (∀ p ∈ view,
      (∃ cd bs, coder = some cd ∧ cache p.1 = some bs ∧
        List.Forall₂ (fun b e => cd.decode b = .ok e) bs p.2) ∨
      ((coder = none ∨ cache p.1 = none) ∧ compute p.1 = .ok p.2)) ∧
    (∀ k bs, (k, bs) ∈ ws ↔ ∃ cd els, coder = some cd ∧ cache k = none ∧ k.isCached = true ∧
      (k, els) ∈ view ∧ bs = els.map cd.encode) ∧
    (ws.map Prod.fst).Sublist ks := by
  intro ks
  induction ks with
  | nil =>
    intro view ws h
    simp only [applyFineGrained, Except.ok.injEq, Prod.mk.injEq] at h
    obtain ⟨rfl, rfl⟩ := h
    simp
  | cons k ks ih =>
    intro view ws h
    simp only [applyFineGrained] at h
    obtain ⟨⟨els, w⟩, h1, h⟩ := bind_ok_iff.1 h
    obtain ⟨⟨view', ws'⟩, h2, h⟩ := bind_ok_iff.1 h
    simp only [Except.ok.injEq, Prod.mk.injEq] at h
    obtain ⟨rfl, rfl⟩ := h
    obtain ⟨i1, i2, i3, i4⟩ := ih h2
    have hdec : ∀ (cd : CacheCoder El Bytes) (bs : List Bytes) (els : List El),
        decodeCache cd bs = .ok els → List.Forall₂ (fun b e => cd.decode b = .ok e) bs els := by
      intro cd bs
      induction bs with
      | nil =>
        intro els h
        simp only [decodeCache, List.map_nil, seqExcept, Except.ok.injEq] at h
        subst h
        exact .nil
      | cons b bs ihb =>
        intro els h
        simp only [decodeCache, List.map_cons, seqExcept] at h
        obtain ⟨e, he, h⟩ := bind_ok_iff.1 h
        obtain ⟨es, hes, h⟩ := bind_ok_iff.1 h
        simp only [Except.ok.injEq] at h
        subst h
        exact .cons he (ihb es hes)
    have step : ((∃ cd bs, coder = some cd ∧ cache k = some bs ∧
        List.Forall₂ (fun b e => cd.decode b = .ok e) bs els) ∨
        ((coder = none ∨ cache k = none) ∧ compute k = .ok els)) ∧
        (∀ bs, w = some bs ↔ ∃ cd, coder = some cd ∧ cache k = none ∧ k.isCached = true ∧
          bs = els.map cd.encode) := by
      unfold fineGrainedStep at h1
      cases hco : coder with
      | none =>
        rw [hco] at h1
        obtain ⟨els', h3, h4⟩ := bind_ok_iff.1 h1
        simp only [Except.ok.injEq, Prod.mk.injEq] at h4
        obtain ⟨rfl, rfl⟩ := h4
        exact ⟨.inr ⟨.inl rfl, h3⟩, by simp⟩
      | some cd =>
        rw [hco] at h1
        cases hca : cache k with
        | none =>
          rw [hca] at h1
          obtain ⟨els', h3, h4⟩ := bind_ok_iff.1 h1
          split at h4
          · rename_i hcached
            simp only [Except.ok.injEq, Prod.mk.injEq] at h4
            obtain ⟨rfl, rfl⟩ := h4
            refine ⟨.inr ⟨.inr rfl, h3⟩, ?_⟩
            intro bs
            simp [hcached, encodeCache, eq_comm]
          · rename_i hcached
            simp only [Except.ok.injEq, Prod.mk.injEq] at h4
            obtain ⟨rfl, rfl⟩ := h4
            exact ⟨.inr ⟨.inr rfl, h3⟩, by simp [hcached]⟩
        | some bs =>
          rw [hca] at h1
          obtain ⟨els', h3, h4⟩ := bind_ok_iff.1 h1
          simp only [Except.ok.injEq, Prod.mk.injEq] at h4
          obtain ⟨rfl, rfl⟩ := h4
          exact ⟨.inl ⟨cd, bs, rfl, rfl, hdec _ _ _ h3⟩, by simp⟩
    refine ⟨by simp [i1], ?_, ?_, ?_⟩
    · intro p hp
      rcases List.mem_cons.1 hp with rfl | hp
      · exact step.1
      · exact i2 p hp
    · intro k' bs
      rw [List.mem_append, i3]
      simp only [Option.mem_toList, Option.map_eq_some_iff, Prod.mk.injEq, List.mem_cons]
      constructor
      · rintro (⟨b, hb, rfl, rfl⟩ | ⟨cd, e, a1, a2, a3, a4, a5⟩)
        · obtain ⟨cd, a1, a2, a3, a4⟩ := (step.2 b).1 hb
          exact ⟨cd, els, a1, a2, a3, .inl ⟨rfl, rfl⟩, a4⟩
        · exact ⟨cd, e, a1, a2, a3, .inr a4, a5⟩
      · rintro ⟨cd, e, a1, a2, a3, ⟨rfl, rfl⟩ | a4, a5⟩
        · exact .inl ⟨bs, (step.2 bs).2 ⟨cd, a1, a2, a3, a5⟩, rfl, rfl⟩
        · exact .inr ⟨cd, e, a1, a2, a3, a4, a5⟩
    · cases w with
      | none => simpa using i4.cons k
      | some b => simpa using i4.cons_cons k

/-- **C08** The data of datasets that have a cache entry are never looked at. -/
theorem cached_datasets_not_read {coder : Option (CacheCoder El Bytes)} {cache : CacheDict Bytes}
    (compute compute' : DatasetKey → Except Err (List El)) (ks : List DatasetKey)
    (h : ∀ k ∈ ks, coder = none ∨ cache k = none → compute k = compute' k) :
    applyFineGrained coder cache compute ks = applyFineGrained coder cache compute' ks := by
  induction ks with
  | nil => rfl
  | cons k ks ih =>
    have : fineGrainedStep coder cache compute k = fineGrainedStep coder cache compute' k := by
      unfold fineGrainedStep
      have hk := h k (by simp)
      cases hco : coder with
      | none => simp only [hk (.inl hco)]
      | some cd =>
        cases hca : cache k with
        | none => simp only [hk (.inr hca)]
        | some bs => rfl
    simp only [applyFineGrained, this, ih (fun k hk => h k (by simp [hk]))]

/-- **C08** After a run the cache has all its old entries unchanged, and an entry for every
dataset of the run that may be cached. -/
theorem cache_after_run {cd : CacheCoder El Bytes} {cache : CacheDict Bytes}
    {compute : DatasetKey → Except Err (List El)} {ks : List DatasetKey} {view ws}
    (h : applyFineGrained (some cd) cache compute ks = .ok (view, ws)) :
    (∀ k bs, cache k = some bs → updateCache cache ws k = some bs) ∧
    (∀ k ∈ ks, k.isCached = true → (updateCache cache ws k).isSome) ∧
    ∀ k, k ∉ ks → updateCache cache ws k = cache k := by
  obtain ⟨h1, -, h3, h4⟩ := cached_run_effects h
  refine ⟨?_, ?_, ?_⟩
  · intro k bs hk
    unfold updateCache
    cases hl : ws.lookup k with
    | none => simpa using hk
    | some b =>
      obtain ⟨_, _, _, hn, _⟩ := (h3 k b).1 (lookup_mem hl)
      rw [hk] at hn
      cases hn
  · intro k hk hc
    unfold updateCache
    cases hca : cache k with
    | some bs => simp
    | none =>
      rw [← h1] at hk
      obtain ⟨⟨k', els⟩, hp, rfl⟩ := List.mem_map.1 hk
      have hw := (h3 k' _).2 ⟨cd, els, rfl, hca, hc, hp, rfl⟩
      cases hl : ws.lookup k' with
      | some b => simp
      | none =>
        rw [List.lookup_eq_none_iff] at hl
        have := hl _ hw
        simp at this
  · intro k hk
    unfold updateCache
    cases hl : ws.lookup k with
    | none => simp
    | some b =>
      exact absurd (h4.subset (List.mem_map.2 ⟨_, lookup_mem hl, rfl⟩)) hk

/-- Two datasets, one with an entry, and one that must not be cached. -/
example :
    let cd : CacheCoder Nat Nat := ⟨fun e => e + 100, fun b => .ok (b - 100)⟩
    let cache : CacheDict Nat := fun k => if k.key = "old" then some [101, 102] else none
    (applyFineGrained (some cd) cache (fun k => .ok [k.key.length])
      [⟨"new", true⟩, ⟨"old", true⟩, ⟨"secret", false⟩]).toOption =
      some ([(⟨"new", true⟩, [3]), (⟨"old", true⟩, [1, 2]), (⟨"secret", false⟩, [6])],
        [(⟨"new", true⟩, [103])]) := by decide

end general

section combiner

variable {Acc In Out Bytes : Type}

/-- The accumulators that combiner `c` can produce for dataset `k`: those of all schedules over
batches of its data. `SameData k batches` says that `batches` hold exactly the data of `k`. -/
def CombinerExec (c : Combiner Acc In Out) (SameData : DatasetKey → List In → Prop)
    (k : DatasetKey) (els : List Acc) : Prop :=
  ∃ s : Sched In, s.MergesSome ∧ SameData k s.inputs ∧
    ∃ a, s.run c.accumulateStage = .ok a ∧ els = [a]

theorem view_scheds (c : Combiner Acc In Out) (SameData : DatasetKey → List In → Prop) :
    ∀ (view : FineGrained Acc), (∀ p ∈ view, CombinerExec c SameData p.1 p.2) →
    ∃ s1 : List (Sched In), (∀ s ∈ s1, s.MergesSome) ∧
      List.Forall₂ (fun k s => SameData k s.inputs) (view.map Prod.fst) s1 ∧
      Sched.runList c.accumulateStage s1 = .ok (flattenCache view) := by
  intro view
  induction view with
  | nil => intro _; exact ⟨[], by simp, by simp, rfl⟩
  | cons p view ih =>
    intro h
    obtain ⟨s1, h1, h2, h3⟩ := ih (fun p hp => h p (by simp [hp]))
    obtain ⟨s, e1, e2, a, e3, e4⟩ := h p (by simp)
    refine ⟨s :: s1, ?_, ?_, ?_⟩
    · intro t ht
      rcases List.mem_cons.1 ht with rfl | ht
      · exact e1
      · exact h1 t ht
    · simp [e2, h2]
    · simp only [Sched.runList, e3, h3, bind, Except.bind, flattenCache, List.map_cons, e4,
        List.flatten_cons, List.singleton_append]

/-- **C08**, for every combiner: every run with a cache, whatever the cache's history, has the
same output as some allowed run without cache over exactly the same data. -/
theorem cached_analysis_is_analysis (c : Combiner Acc In Out)
    (coder : Option (CacheCoder Acc Bytes))
    (hcd : ∀ cd, coder = some cd → ∀ e, cd.decode (cd.encode e) = .ok e)
    (SameData : DatasetKey → List In → Prop) {cache : CacheDict Bytes}
    (h : CacheHistory coder (CombinerExec c SameData) cache)
    (ks : List DatasetKey) (sched : DatasetKey → Sched In) (s2 : Sched Nat)
    (hms : ∀ k ∈ ks, (sched k).MergesSome) (hsd : ∀ k ∈ ks, SameData k (sched k).inputs)
    (hok : ∀ k ∈ ks, ∃ a, (sched k).run c.accumulateStage = .ok a)
    (hs2 : s2.MergesSome) 
    (honce : (s2.inputs.filter (fun i => decide (i < ks.length))).Perm (List.range ks.length)) :
    ∃ s1 : List (Sched In), ValidRun s1 s2 ∧
      List.Forall₂ (fun k s => SameData k s.inputs) ks s1 ∧
      (cachedAnalysis c coder cache ks sched s2).map Prod.fst = analysis c s1 s2 := by
  have hc : ∀ k ∈ ks, ∀ els,
      (do let a ← (sched k).run c.accumulateStage; Except.ok [a] : Except Err (List Acc)) = .ok els →
      CombinerExec c SameData k els := by
    intro k hk els he
    obtain ⟨a, h1, h2⟩ := bind_ok_iff.1 he
    exact ⟨sched k, hms k hk, hsd k hk, a, h1, (Except.ok.inj h2).symm⟩
  obtain ⟨⟨view, ws⟩, hr⟩ := applyFineGrained_ok hcd (h.good hcd)
    (fun k => do let a ← (sched k).run c.accumulateStage; .ok [a]) ks (by
      intro k hk
      obtain ⟨a, ha⟩ := hok k hk
      exact ⟨[a], by simp [ha, bind, Except.bind]⟩)
  obtain ⟨hv1, hv2⟩ := cached_view_is_execution hcd h ks _ hc hr
  obtain ⟨s1, h1, h2, h3⟩ := view_scheds c SameData view hv2
  rw [hv1] at h2
  refine ⟨s1, ⟨h1, hs2, ?_⟩, h2, ?_⟩
  · rw [← h2.length_eq]; exact honce
  · unfold cachedAnalysis analysis
    rw [hr, h3]
    simp only [bind, Except.bind]
    cases (s2.map (fun i => (flattenCache view)[i]?)).run c.mergeStage with
    | error e => rfl
    | ok final =>
      simp only
      cases c.extract final <;> rfl

end combiner

/-! ## Instances -/

open Spec

theorem columnData_allInputs (s1 : List (Sched Batch)) (j : Nat) :
    columnData (allInputs s1) j = (s1.map (fun s => columnData s.inputs j)).flatten := by
  simp only [columnData, allInputs, List.flatMap_def, List.map_flatten, List.map_map]
  rw [List.flatten_flatten, List.map_map]; rfl

/-- `batches` hold exactly the data of dataset `k`: column `j` has the values `data k j`. -/
def SameColumns (data : DatasetKey → Nat → List ℚ) (k : DatasetKey) (batches : List Batch) :
    Prop :=
  ∀ j, (columnData batches j).Perm (data k j)

/-- **C08** for `tft.mean`, `tft.var`, `tft.scale_to_z_score` and the like: with any cache, the
result is the mean and variance of all data of all datasets, the same as without cache. -/
theorem mean_var_with_cache {Bytes : Type} (cols : Nat)
    (coder : Option (CacheCoder MVAcc Bytes))
    (hcd : ∀ cd, coder = some cd → ∀ e, cd.decode (cd.encode e) = .ok e)
    (data : DatasetKey → Nat → List ℚ) {cache : CacheDict Bytes}
    (h : CacheHistory coder
      (CombinerExec (meanVarAnalyzer denseStats cols) (SameColumns data)) cache)
    (ks : List DatasetKey) (sched : DatasetKey → Sched Batch) (s2 : Sched Nat)
    (hms : ∀ k ∈ ks, (sched k).MergesSome)
    (hsd : ∀ k ∈ ks, SameColumns data k (sched k).inputs)
    (hs2 : s2.MergesSome) 
    (honce : (s2.inputs.filter (fun i => decide (i < ks.length))).Perm (List.range ks.length)) :
    ∃ means vars ws,
      cachedAnalysis (meanVarAnalyzer denseStats cols) coder cache ks sched s2
        = .ok (.meanVar means vars, ws) ∧
      ∀ j, ks.flatMap (fun k => data k j) ≠ [] →
        means[j]? = some (some (mean (ks.flatMap (fun k => data k j)))) ∧
        vars[j]? = some (some (variance (ks.flatMap (fun k => data k j)))) := by
  have T := meanVar_total reduceDenseCol cols
  have T1 : Sched.Total (meanVarAnalyzer denseStats cols).accumulateStage
      (fun b : Batch => ∀ col ∈ b, ExactCol (finite col) (reduceDenseCol col)) MVInv :=
    ⟨T.create, T.add, T.merge, T.compact⟩
  obtain ⟨s1, hv, hF, he⟩ := cached_analysis_is_analysis (meanVarAnalyzer denseStats cols) coder
    hcd (SameColumns data) h ks sched s2 hms hsd (by
      intro k hk
      obtain ⟨a, ha, _⟩ := Sched.run_total T1 (sched k) (hms k hk)
        (fun b _ col _ => reduceDenseCol_exact col)
      exact ⟨a, ha⟩) hs2 honce
  obtain ⟨means, vars, hrun, hj⟩ := mean_var_schedule_independent cols s1 s2 hv (by simp)
  rw [hrun] at he
  cases hca : cachedAnalysis (meanVarAnalyzer denseStats cols) coder cache ks sched s2 with
  | error e => rw [hca] at he; cases he
  | ok r =>
    obtain ⟨o, ws⟩ := r
    rw [hca] at he
    obtain rfl : o = .meanVar means vars := by simpa [Except.map] using he
    refine ⟨means, vars, ws, rfl, ?_⟩
    intro j hne
    have hp : (columnData (allInputs s1) j).Perm (ks.flatMap (fun k => data k j)) := by
      rw [columnData_allInputs, List.flatMap_def]
      clear hj hrun hca he hv hms hsd honce hne
      induction hF with
      | nil => simp
      | cons h1 _ ih =>
        simp only [List.map_cons, List.flatten_cons]
        exact (h1 j).append ih
    have hne' : columnData (allInputs s1) j ≠ [] := by
      intro h0; rw [h0] at hp; exact hne hp.nil_eq.symm
    have := (hj j).1 hne'
    rw [mean_perm hp, variance_perm hp] at this
    exact this

/-- A history with two runs, the second of which reads dataset `b`'s entry written by the first
and computes dataset `a`: the hypotheses are met and the cache is used. -/
example :
    let a : DatasetKey := ⟨"a", true⟩
    let b : DatasetKey := ⟨"b", true⟩
    let coder : Option (CacheCoder MVAcc MVAcc) := some ⟨id, .ok⟩
    let data : DatasetKey → Nat → List ℚ := fun k j =>
      if j = 0 then (if k = a then [1, 2] else [6]) else []
    let old : DatasetKey → Sched Batch := fun _ => .add (.compact .create) [[some 6]]
    let new : DatasetKey → Sched Batch := fun k =>
      if k = a then .merge [.add .create [[some 2]], .add .create [[some 1]]]
      else .add .create [[some 6]]
    ∃ cache : CacheDict MVAcc, CacheHistory coder
        (CombinerExec (meanVarAnalyzer denseStats 1) (SameColumns data)) cache ∧
      (cache b).isSome = true ∧ (∀ k ∈ [a, b], SameColumns data k (new k).inputs) ∧
      (cachedAnalysis (meanVarAnalyzer denseStats 1) coder cache [a, b] new
        (.add (.add .create 1) 0)).map Prod.fst = .ok (.meanVar [some 3] [some (14 / 3)]) := by
  intro a b coder data old new
  refine ⟨_, CacheHistory.run CacheHistory.empty [b]
    (fun k => do
      let x ← (old k).run (meanVarAnalyzer denseStats 1).accumulateStage
      .ok [x]) ?_ rfl, ?_, ?_, ?_⟩
  · intro k hk els he
    obtain ⟨x, h1, h2⟩ := bind_ok_iff.1 he
    refine ⟨old k, .add (.compact .create), ?_, x, h1, (Except.ok.inj h2).symm⟩
    simp only [List.mem_singleton] at hk
    subst hk
    rintro (_ | j)
    · decide
    · simp [columnData, old, Sched.inputs, data, finite]
  · decide +kernel
  · intro k hk
    simp only [List.mem_cons, List.not_mem_nil, or_false] at hk
    rcases hk with rfl | rfl
    · rintro (_ | j)
      · decide
      · simp [columnData, new, Sched.inputs, Sched.inputsList, data, finite]
    · rintro (_ | j)
      · decide
      · simp [columnData, new, Sched.inputs, data, finite, a, b]
  · decide +kernel

end TFT
