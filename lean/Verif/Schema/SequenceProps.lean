import Verif.Schema.Sequence
import Verif.Schema.FeatureSpecProps
import Mathlib.Data.List.Induction

/-!
# Properties of reading schemas of sequence examples (C78)
-/

namespace TFT.FeatureSpec

/-! ## Specification -/

/-- The feature `f` is found at the end of the path of names, going into structs. -/
inductive LeafAt : List Node → List String → Feature → Prop
  | here {ns : List Node} {f : Feature} {b : Bool} :
      Node.leaf f b ∈ ns → LeafAt ns [f.name] f
  | inside {ns cs : List Node} {name : String} {b : Bool} {path : List String} {f : Feature} :
      Node.struct name b cs ∈ ns → LeafAt cs path f → LeafAt ns (name :: path) f

/-- The feature has the domain: its own, or the string domain of the schema that it names (the last
one of that name). -/
def HasDomain (stringDomains : List (String × Domain)) (f : Feature) (d : Domain) : Prop :=
  f.domainInfo = some (.own d) ∨
  ∃ n pre post, f.domainInfo = some (.named n) ∧ stringDomains = pre ++ (n, d) :: post ∧
    ∀ e ∈ post, e.1 ≠ n

/-- The name of the column from which the tensor `name` takes its values. -/
def ValuesFrom (name : String) : Spec → String → Prop
  | .fixedLen _ _ _, c => c = name
  | .varLen _, c => c = name
  | .sparse _ valueKey _ _ _, c => c = valueKey
  | .ragged _ valueKey _ _, c => valueKey = some c
  | .other _, _ => False

/-- The schema describes sequence examples: one of its features has the type struct. -/
def DescribesSequences (s : NestedSchema) : Prop :=
  (∃ f, Node.leaf f true ∈ s.nodes) ∨ ∃ name children, Node.struct name true children ∈ s.nodes

/-! ## Lemmas -/

theorem leafAt_nil (path : List String) (f : Feature) : ¬LeafAt [] path f := by
  intro h
  cases h with
  | here h => cases h
  | inside h _ => cases h

theorem leafAt_cons (n : Node) (ns : List Node) (path : List String) (f : Feature) :
    LeafAt (n :: ns) path f ↔ LeafAt [n] path f ∨ LeafAt ns path f := by
  constructor
  · intro h
    cases h with
    | here h =>
      rcases List.mem_cons.1 h with h | h
      · exact Or.inl (.here (by rw [← h]; exact List.mem_singleton_self _))
      · exact Or.inr (.here h)
    | inside h h' =>
      rcases List.mem_cons.1 h with h | h
      · exact Or.inl (.inside (by rw [← h]; exact List.mem_singleton_self _) h')
      · exact Or.inr (.inside h h')
  · rintro (h | h)
    · cases h with
      | here h => exact .here (List.mem_cons.2 (Or.inl (List.mem_singleton.1 h)))
      | inside h h' => exact .inside (List.mem_cons.2 (Or.inl (List.mem_singleton.1 h))) h'
    · cases h with
      | here h => exact .here (List.mem_cons_of_mem _ h)
      | inside h h' => exact .inside (List.mem_cons_of_mem _ h) h'

theorem leafAt_cons_cons (n m : Node) (ns : List Node) (path : List String) (f : Feature) :
    LeafAt (n :: m :: ns) path f ↔ LeafAt [n] path f ∨ LeafAt (m :: ns) path f :=
  leafAt_cons n (m :: ns) path f

theorem leafAt_leaf (g : Feature) (b : Bool) (path : List String) (f : Feature) :
    LeafAt [.leaf g b] path f ↔ path = [g.name] ∧ f = g := by
  constructor
  · intro h
    cases h with
    | here h =>
      have := List.mem_singleton.1 h
      injection this with h1 _
      subst h1
      exact ⟨rfl, rfl⟩
    | inside h _ => cases List.mem_singleton.1 h
  · rintro ⟨rfl, rfl⟩
    exact .here (List.mem_singleton_self _)

theorem leafAt_struct (name : String) (b : Bool) (cs : List Node) (path : List String) (f : Feature) :
    LeafAt [.struct name b cs] path f ↔ ∃ p, path = name :: p ∧ LeafAt cs p f := by
  constructor
  · intro h
    cases h with
    | here h => cases List.mem_singleton.1 h
    | inside h h' =>
      have := List.mem_singleton.1 h
      injection this with h1 h2 h3
      subst h1 h3
      exact ⟨_, rfl, h'⟩
  · rintro ⟨p, rfl, h⟩
    exact .inside (List.mem_singleton_self _) h

mutual

theorem mem_sourceDomainsOf (sd : List (String × Domain)) (c : String) (d : Domain) :
    (n : Node) → ((c, d) ∈ sourceDomainsOf sd n ↔
      ∃ path f, LeafAt [n] path f ∧ f.name = c ∧ getDomain f sd = some d)
  | .leaf g b => by
    rw [sourceDomainsOf]
    simp only [leafAt_leaf]
    cases hg : getDomain g sd with
    | none =>
      simp only [List.not_mem_nil, false_iff]
      rintro ⟨path, f, ⟨_, rfl⟩, _, h⟩
      rw [hg] at h; cases h
    | some e =>
      simp only [List.mem_singleton, Prod.mk.injEq]
      constructor
      · rintro ⟨rfl, rfl⟩
        exact ⟨_, g, ⟨rfl, rfl⟩, rfl, hg⟩
      · rintro ⟨path, f, ⟨_, rfl⟩, rfl, h⟩
        rw [hg] at h; injection h with h
        exact ⟨rfl, h.symm⟩
  | .struct name b cs => by
    rw [sourceDomainsOf, mem_sourceDomains sd c d cs]
    simp only [leafAt_struct]
    constructor
    · rintro ⟨path, f, h, h'⟩
      exact ⟨name :: path, f, ⟨path, rfl, h⟩, h'⟩
    · rintro ⟨_, f, ⟨path, _, h⟩, h'⟩
      exact ⟨path, f, h, h'⟩

theorem mem_sourceDomains (sd : List (String × Domain)) (c : String) (d : Domain) :
    (ns : List Node) → ((c, d) ∈ sourceDomains sd ns ↔
      ∃ path f, LeafAt ns path f ∧ f.name = c ∧ getDomain f sd = some d)
  | [] => by
    rw [sourceDomains]
    simp only [List.not_mem_nil, false_iff]
    rintro ⟨path, f, h, _⟩
    exact leafAt_nil _ _ h
  | n :: ns => by
    rw [sourceDomains, List.mem_append, mem_sourceDomainsOf sd c d n, mem_sourceDomains sd c d ns]
    simp only [leafAt_cons n ns]
    constructor
    · rintro (⟨path, f, h, h'⟩ | ⟨path, f, h, h'⟩)
      · exact ⟨path, f, Or.inl h, h'⟩
      · exact ⟨path, f, Or.inr h, h'⟩
    · rintro ⟨path, f, h | h, h'⟩
      · exact Or.inl ⟨path, f, h, h'⟩
      · exact Or.inr ⟨path, f, h, h'⟩

end

/-- Reading a list of assignments: the last one for the key. -/
theorem get_spec {α : Type} (l : List (String × α)) (k : String) (a : α) :
    get l k = some a ↔ ∃ pre post, l = pre ++ (k, a) :: post ∧ ∀ e ∈ post, e.1 ≠ k := by
  induction l using List.reverseRecOn with
  | nil => simp [get]
  | append_singleton l x ih =>
    obtain ⟨k', a'⟩ := x
    have hg : get (l ++ [(k', a')]) k = if k = k' then some a' else get l k := by
      unfold get
      rw [List.reverse_append, List.reverse_singleton, List.singleton_append, List.lookup_cons]
      by_cases h : k = k'
      · simp [h]
      · have : (k == k') = false := by simpa using h
        simp [this, h]
    rw [hg]
    by_cases h : k = k'
    · subst h
      simp only [if_true, Option.some.injEq]
      constructor
      · rintro rfl
        exact ⟨l, [], rfl, by simp⟩
      · rintro ⟨pre, post, he, hp⟩
        rcases List.eq_nil_or_concat post with rfl | ⟨post', y, rfl⟩
        · have := (List.append_inj' he rfl).2
          simpa using this
        · rw [List.concat_eq_append, ← List.cons_append, ← List.append_assoc] at he
          have := (List.append_inj' he rfl).2
          simp only [List.cons.injEq, and_true] at this
          exact absurd (by rw [← this]) (hp y (by simp))
    · simp only [h, if_false, ih]
      constructor
      · rintro ⟨pre, post, rfl, hp⟩
        refine ⟨pre, post ++ [(k', a')], by simp, ?_⟩
        intro e he
        rcases List.mem_append.1 he with he | he
        · exact hp e he
        · rw [List.mem_singleton.1 he]; exact fun e => h e.symm
      · rintro ⟨pre, post, he, hp⟩
        rcases List.eq_nil_or_concat post with rfl | ⟨post', y, rfl⟩
        · have := (List.append_inj' he rfl).2
          simp only [List.cons.injEq, Prod.mk.injEq, and_true] at this
          exact absurd this.1.symm h
        · rw [List.concat_eq_append, ← List.cons_append, ← List.append_assoc] at he
          have := (List.append_inj' he rfl).1
          exact ⟨pre, post', this, fun e he => hp e (by simp [he])⟩

theorem getDomain_iff (f : Feature) (sd : List (String × Domain)) (d : Domain) :
    getDomain f sd = some d ↔ HasDomain sd f d := by
  unfold getDomain HasDomain
  cases hf : f.domainInfo with
  | none => simp
  | some i =>
    cases i with
    | own e => simp
    | named n =>
      have := get_spec sd n d
      unfold get at this
      rw [this]
      simp

theorem get_some_of_mem {α : Type} (l : List (String × α)) (k : String) (a : α) (h : (k, a) ∈ l) :
    ∃ b, get l k = some b := by
  unfold get
  cases hl : l.reverse.lookup k with
  | some b => exact ⟨b, rfl⟩
  | none =>
    rw [lookup_find] at hl
    simp only [Option.map_eq_none_iff, List.find?_eq_none, List.mem_reverse, decide_eq_true_eq] at hl
    exact absurd rfl (hl _ h)

theorem get_mem {α : Type} (l : List (String × α)) (k : String) (a : α) (h : get l k = some a) :
    (k, a) ∈ l := by
  obtain ⟨pre, post, rfl, _⟩ := (get_spec l k a).1 h
  simp

theorem sourceName_iff (name : String) (spec : Spec) (c : String) :
    sourceName name spec = .ok (some c) ↔ ValuesFrom name spec c := by
  cases spec <;> simp [sourceName, ValuesFrom, eq_comm]

theorem mergeSpecs_keys (ctx seq : List (String × Spec)) (hc : (ctx.map Prod.fst).Nodup)
    (hs : (seq.map Prod.fst).Nodup) : ((mergeSpecs ctx seq).map Prod.fst).Nodup := by
  unfold mergeSpecs
  rw [List.map_append, List.map_map]
  have h1 : (Prod.fst ∘ fun p : String × Spec => (p.1, (seq.lookup p.1).getD p.2)) = Prod.fst := rfl
  rw [h1]
  refine List.nodup_append.2 ⟨hc, hs.sublist (List.filter_sublist.map _), ?_⟩
  intro a ha b hb e
  subst e
  obtain ⟨p, hp, rfl⟩ := List.mem_map.1 hb
  obtain ⟨q, hq, hqe⟩ := List.mem_map.1 ha
  have h2 := (List.mem_filter.1 hp).2
  have : ctx.lookup p.1 = some q.2 := (lookup_iff ctx hc p.1 q.2).2 (by rw [← hqe]; exact hq)
  rw [this] at h2
  cases h2

theorem mem_mergeSpecs (ctx seq : List (String × Spec)) (hc : (ctx.map Prod.fst).Nodup)
    (hs : (seq.map Prod.fst).Nodup) (name : String) (spec : Spec) :
    (name, spec) ∈ mergeSpecs ctx seq ↔
      (name, spec) ∈ seq ∨ ((name, spec) ∈ ctx ∧ name ∉ seq.map Prod.fst) := by
  have hnone : ∀ l : List (String × Spec), l.lookup name = none ↔ name ∉ l.map Prod.fst := by
    intro l
    rw [lookup_find]
    simp only [Option.map_eq_none_iff, List.find?_eq_none, decide_eq_true_eq, List.mem_map, not_exists,
      not_and]
  unfold mergeSpecs
  rw [List.mem_append]
  constructor
  · rintro (h | h)
    · obtain ⟨p, hp, he⟩ := List.mem_map.1 h
      injection he with h1 h2
      subst h1
      cases hl : seq.lookup p.1 with
      | none =>
        rw [hl] at h2
        exact Or.inr ⟨by rw [← h2]; exact hp, (hnone seq).1 hl⟩
      | some t =>
        rw [hl] at h2
        exact Or.inl (by rw [← h2]; exact (lookup_iff seq hs _ _).1 hl)
    · exact Or.inl (List.mem_filter.1 h).1
  · rintro (h | ⟨h, hn⟩)
    · cases hl : ctx.lookup name with
      | none => exact Or.inr (List.mem_filter.2 ⟨h, by simp [hl]⟩)
      | some t =>
        refine Or.inl (List.mem_map.2 ⟨(name, t), (lookup_iff ctx hc _ _).1 hl, ?_⟩)
        rw [(lookup_iff seq hs _ _).2 h]
        rfl
    · refine Or.inl (List.mem_map.2 ⟨(name, spec), h, ?_⟩)
      rw [(hnone seq).2 hn]
      rfl

theorem filterMap_id_map {α β : Type} (l : List α) (f : α → Option β) :
    (l.map f).filterMap id = l.filterMap f := by
  rw [List.filterMap_map]; rfl

/-- What a spec's domain is. -/
def domainFor (doms : List (String × Domain)) (item : String × Spec) : Option (String × Domain) :=
  match sourceName item.1 item.2 with
  | .ok (some s) => (get doms s).map (fun d => (item.1, d))
  | _ => none

theorem sequenceDomain_ok (doms : List (String × Domain)) (item : String × Spec)
    (h : ∀ t, item.2 ≠ .other t) : sequenceDomain doms item = .ok (domainFor doms item) := by
  obtain ⟨name, spec⟩ := item
  cases spec with
  | other t => exact absurd rfl (h t)
  | ragged dt vk ps t => cases vk <;> rfl
  | _ => rfl

theorem sequenceDomain_error (doms : List (String × Domain)) (name t : String) :
    ∃ e, sequenceDomain doms (name, .other t) = .error e := ⟨_, rfl⟩

theorem forall2_mem_left {α β : Type} {R : α → β → Prop} {l : List α} {r : List β}
    (h : List.Forall₂ R l r) {a : α} (ha : a ∈ l) : ∃ b, b ∈ r ∧ R a b := by
  induction h with
  | nil => cases ha
  | cons hr _ ih =>
    rcases List.mem_cons.1 ha with rfl | ha
    · exact ⟨_, List.mem_cons_self .., hr⟩
    · obtain ⟨b, hb, hr⟩ := ih ha
      exact ⟨b, List.mem_cons_of_mem _ hb, hr⟩

theorem mapM_error_of_mem {α β : Type} (f : α → Except Err β) (l : List α) (a : α) (ha : a ∈ l)
    (h : ∃ e, f a = .error e) : ∃ e, l.mapM f = .error e := by
  cases hr : l.mapM f with
  | error e => exact ⟨e, rfl⟩
  | ok r =>
    obtain ⟨e, he⟩ := h
    have := mapM_ok_forall f l r hr
    obtain ⟨b, _, hb⟩ := forall2_mem_left this ha
    rw [he] at hb; cases hb

theorem describesSequences_iff (s : NestedSchema) :
    DescribesSequences s ↔ s.nodes.any Node.typeIsStruct = true := by
  rw [List.any_eq_true]
  constructor
  · rintro (⟨f, h⟩ | ⟨name, children, h⟩)
    · exact ⟨_, h, rfl⟩
    · exact ⟨_, h, rfl⟩
  · rintro ⟨n, hn, h⟩
    cases n with
    | leaf f b => exact Or.inl ⟨f, by simp only [Node.typeIsStruct] at h; rwa [h] at hn⟩
    | struct name b children =>
      exact Or.inr ⟨name, children, by simp only [Node.typeIsStruct] at h; rwa [h] at hn⟩

theorem nested_of_sequences (parser) (s : NestedSchema) (h : DescribesSequences s) :
    nestedSchemaAsFeatureSpec parser s = sequenceSchemaAsFeatureSpec parser s := by
  unfold nestedSchemaAsFeatureSpec
  rw [if_pos ((describesSequences_iff s).1 h)]

theorem sequence_result (parser) (s : NestedSchema) (ctx seq specs : List (String × Spec))
    (doms : List (String × Domain)) (hp : parser s = .ok (ctx, seq))
    (h : sequenceSchemaAsFeatureSpec parser s = .ok (specs, doms)) :
    specs = mergeSpecs ctx seq ∧ (∀ p ∈ specs, ∀ t, p.2 ≠ .other t) ∧
      doms = specs.filterMap (domainFor (sourceDomains s.stringDomains s.nodes)) := by
  unfold sequenceSchemaAsFeatureSpec at h
  rw [hp] at h
  simp only [bind, Except.bind] at h
  have hno : ∀ p ∈ mergeSpecs ctx seq, ∀ t, p.2 ≠ .other t := by
    intro p hpm t he
    obtain ⟨name, spec⟩ := p
    subst he
    obtain ⟨e, he⟩ := mapM_error_of_mem
      (sequenceDomain (sourceDomains s.stringDomains s.nodes)) _ _ hpm (sequenceDomain_error _ _ _)
    rw [he] at h; cases h
  rw [mapM_ok _ (domainFor (sourceDomains s.stringDomains s.nodes)) _
    (fun p hp => sequenceDomain_ok _ p (hno p hp))] at h
  simp only [pure, Except.pure, Except.ok.injEq, Prod.mk.injEq] at h
  obtain ⟨rfl, rfl⟩ := h
  exact ⟨rfl, hno, filterMap_id_map _ _⟩

theorem mem_domains (specs : List (String × Spec)) (sd : List (String × Domain)) (name : String)
    (d : Domain) : (name, d) ∈ specs.filterMap (domainFor sd) ↔
      ∃ spec c, (name, spec) ∈ specs ∧ ValuesFrom name spec c ∧ get sd c = some d := by
  rw [List.mem_filterMap]
  constructor
  · rintro ⟨⟨n, spec⟩, hm, he⟩
    unfold domainFor at he
    cases hs : sourceName n spec with
    | error e => simp [hs] at he
    | ok o =>
      cases o with
      | none => simp [hs] at he
      | some c =>
        simp only [hs, Option.map_eq_some_iff, Prod.mk.injEq] at he
        obtain ⟨d', hd, rfl, rfl⟩ := he
        exact ⟨spec, c, hm, (sourceName_iff _ _ _).1 hs, hd⟩
  · rintro ⟨spec, c, hm, hv, hg⟩
    refine ⟨(name, spec), hm, ?_⟩
    unfold domainFor
    rw [(sourceName_iff _ _ _).2 hv]
    simp [hg]

theorem domains_keys (specs : List (String × Spec)) (sd : List (String × Domain))
    (h : (specs.map Prod.fst).Nodup) : ((specs.filterMap (domainFor sd)).map Prod.fst).Nodup := by
  have hsub : List.Sublist ((specs.filterMap (domainFor sd)).map Prod.fst) (specs.map Prod.fst) := by
    induction specs with
    | nil => simp
    | cons p ps ih =>
      have ih := ih (List.nodup_cons.1 h).2
      rw [List.filterMap_cons]
      cases hd : domainFor sd p with
      | none => exact List.Sublist.cons _ ih
      | some e =>
        have : e.1 = p.1 := by
          unfold domainFor at hd
          split at hd
          · simp only [Option.map_eq_some_iff] at hd
            obtain ⟨d, _, rfl⟩ := hd
            rfl
          · cases hd
        simp only [List.map_cons, this]
        exact ih.cons_cons _
  exact h.sublist hsub

/-! ## The properties -/

/-- **C78, specs** For a schema of sequence examples the feature spec has the specs of the sequence
features and those of the context features, each under its name; where both have a name, the sequence
feature counts. -/
theorem sequence_specs_are_the_union (parser) (s : NestedSchema)
    (ctx seq specs : List (String × Spec)) (doms : List (String × Domain))
    (hs : DescribesSequences s) (hp : parser s = .ok (ctx, seq))
    (hc : (ctx.map Prod.fst).Nodup) (hq : (seq.map Prod.fst).Nodup)
    (h : nestedSchemaAsFeatureSpec parser s = .ok (specs, doms)) (name : String) (spec : Spec) :
    get specs name = some spec ↔
      (name, spec) ∈ seq ∨ ((name, spec) ∈ ctx ∧ name ∉ seq.map Prod.fst) := by
  rw [nested_of_sequences parser s hs] at h
  obtain ⟨rfl, _, _⟩ := sequence_result parser s ctx seq specs doms hp h
  rw [get_iff _ (mergeSpecs_keys ctx seq hc hq), mem_mergeSpecs ctx seq hc hq]

/-- **C78, where domains come from** The domain returned for a tensor is the domain of a feature of the
schema, at some depth, that has the name of the column from which the tensor takes its values. -/
theorem sequence_domains_are_of_sources (parser) (s : NestedSchema)
    (ctx seq specs : List (String × Spec)) (doms : List (String × Domain))
    (hs : DescribesSequences s) (hp : parser s = .ok (ctx, seq))
    (hc : (ctx.map Prod.fst).Nodup) (hq : (seq.map Prod.fst).Nodup)
    (h : nestedSchemaAsFeatureSpec parser s = .ok (specs, doms)) (name : String) (d : Domain)
    (hd : get doms name = some d) :
    ∃ spec path f, get specs name = some spec ∧ LeafAt s.nodes path f ∧
      ValuesFrom name spec f.name ∧ HasDomain s.stringDomains f d := by
  rw [nested_of_sequences parser s hs] at h
  obtain ⟨rfl, _, rfl⟩ := sequence_result parser s ctx seq specs doms hp h
  obtain ⟨spec, c, hm, hv, hg⟩ := (mem_domains _ _ name d).1 (get_mem _ _ _ hd)
  obtain ⟨path, f, hl, rfl, hf⟩ := (mem_sourceDomains _ _ _ _).1 (get_mem _ _ _ hg)
  exact ⟨spec, path, f, (get_iff _ (mergeSpecs_keys ctx seq hc hq) _ _).2 hm, hl, hv,
    (getDomain_iff _ _ _).1 hf⟩

/-- **C78, no domain is lost** A tensor whose column, at any depth, has a domain has a domain. -/
theorem sequence_domains_are_found (parser) (s : NestedSchema)
    (ctx seq specs : List (String × Spec)) (doms : List (String × Domain))
    (hs : DescribesSequences s) (hp : parser s = .ok (ctx, seq))
    (h : nestedSchemaAsFeatureSpec parser s = .ok (specs, doms)) (name : String) (spec : Spec)
    (path : List String) (f : Feature) (d : Domain)
    (hg : get specs name = some spec) (hl : LeafAt s.nodes path f) (hv : ValuesFrom name spec f.name)
    (hd : HasDomain s.stringDomains f d) : ∃ d', get doms name = some d' := by
  rw [nested_of_sequences parser s hs] at h
  obtain ⟨rfl, _, rfl⟩ := sequence_result parser s ctx seq specs doms hp h
  obtain ⟨d', hd'⟩ := get_some_of_mem _ f.name d
    ((mem_sourceDomains s.stringDomains f.name d s.nodes).2
      ⟨path, f, hl, rfl, (getDomain_iff _ _ _).2 hd⟩)
  exact get_some_of_mem _ name d' ((mem_domains _ _ name d').2 ⟨spec, f.name, get_mem _ _ _ hg, hv, hd'⟩)

/-- **C78, the domain of the source** The domain returned for a tensor is that of the feature from
which it takes its values, and none is returned if that feature has none. The full property has no
hypothesis `hsame`: missing are the columns whose name occurs at several places in the schema with
different domains; see `same_name_takes_the_other_domain`. -/
theorem sequence_domain_is_the_sources_partial (parser) (s : NestedSchema)
    (ctx seq specs : List (String × Spec)) (doms : List (String × Domain))
    (hs : DescribesSequences s) (hp : parser s = .ok (ctx, seq))
    (hc : (ctx.map Prod.fst).Nodup) (hq : (seq.map Prod.fst).Nodup)
    (h : nestedSchemaAsFeatureSpec parser s = .ok (specs, doms)) (name : String) (spec : Spec)
    (path : List String) (f : Feature)
    (hg : get specs name = some spec) (hl : LeafAt s.nodes path f) (hv : ValuesFrom name spec f.name)
    (hsame : ∀ path' f', LeafAt s.nodes path' f' → f'.name = f.name →
      ∀ d, HasDomain s.stringDomains f' d → HasDomain s.stringDomains f d) (d : Domain) :
    get doms name = some d ↔ HasDomain s.stringDomains f d := by
  have huniq : ∀ d d', HasDomain s.stringDomains f d → HasDomain s.stringDomains f d' → d = d' := by
    intro d d' h1 h2
    have h1 := (getDomain_iff _ _ _).2 h1
    have h2 := (getDomain_iff _ _ _).2 h2
    rw [h1] at h2
    injection h2
  have hsound : ∀ d, get doms name = some d → HasDomain s.stringDomains f d := by
    intro d hd
    obtain ⟨spec', path', f', hg', hl', hv', hd'⟩ :=
      sequence_domains_are_of_sources parser s ctx seq specs doms hs hp hc hq h name d hd
    rw [hg] at hg'
    injection hg' with hg'
    subst hg'
    have : f'.name = f.name := by
      have h1 := (sourceName_iff _ _ _).2 hv
      have h2 := (sourceName_iff _ _ _).2 hv'
      rw [h1] at h2
      simpa using h2.symm
    exact hsame path' f' hl' this d hd'
  constructor
  · exact hsound d
  · intro hd
    obtain ⟨d', hd'⟩ := sequence_domains_are_found parser s ctx seq specs doms hs hp h name spec path f d
      hg hl hv hd
    rw [hd', huniq d d' hd (hsound d' hd')]

/-- **C78, which schemas are read** A schema of sequence examples is read exactly if the parser
configuration can be made from it and all its specs are of a known kind. -/
theorem sequence_schema_accepted_iff (parser) (s : NestedSchema) (hs : DescribesSequences s)
    (hdict : ∀ ctx seq, parser s = .ok (ctx, seq) →
      (ctx.map Prod.fst).Nodup ∧ (seq.map Prod.fst).Nodup) :
    (∃ r, nestedSchemaAsFeatureSpec parser s = .ok r) ↔
      ∃ ctx seq, parser s = .ok (ctx, seq) ∧
        ∀ name spec, ((name, spec) ∈ seq ∨ ((name, spec) ∈ ctx ∧ name ∉ seq.map Prod.fst)) →
          ∀ t, spec ≠ .other t := by
  rw [nested_of_sequences parser s hs]
  constructor
  · rintro ⟨⟨specs, doms⟩, h⟩
    cases hp : parser s with
    | error e =>
      unfold sequenceSchemaAsFeatureSpec at h
      rw [hp] at h
      cases h
    | ok r =>
      obtain ⟨ctx, seq⟩ := r
      obtain ⟨hc, hq⟩ := hdict ctx seq hp
      obtain ⟨rfl, hno, _⟩ := sequence_result parser s ctx seq specs doms hp h
      exact ⟨ctx, seq, rfl, fun name spec hm t =>
        hno (name, spec) ((mem_mergeSpecs ctx seq hc hq name spec).2 hm) t⟩
  · rintro ⟨ctx, seq, hp, hno⟩
    obtain ⟨hc, hq⟩ := hdict ctx seq hp
    unfold sequenceSchemaAsFeatureSpec
    rw [hp]
    simp only [bind, Except.bind]
    rw [mapM_ok _ (domainFor (sourceDomains s.stringDomains s.nodes)) _
      (fun p hp => sequenceDomain_ok _ p
        (fun t => hno p.1 p.2 ((mem_mergeSpecs ctx seq hc hq p.1 p.2).1 hp) t))]
    exact ⟨_, rfl⟩

/-- **C78, plain schemas** A schema none of whose features has the type struct is read as a schema of
examples, whatever the parser configuration of sequence examples. -/
theorem plain_schema_is_read_as_before (parser) (fs : List Feature) (sparse : List SparseFeature)
    (reps : List (String × Rep)) (sd : List (String × Domain)) (rr : Bool) :
    nestedSchemaAsFeatureSpec parser ⟨fs.map (fun f => .leaf f false), sparse, reps, sd, rr⟩
      = schemaAsFeatureSpec ⟨fs, sparse, reps, sd, rr⟩ := by
  unfold nestedSchemaAsFeatureSpec
  have h1 : (fs.map (fun f => Node.leaf f false)).any Node.typeIsStruct = false := by
    rw [List.any_eq_false]
    intro n hn
    obtain ⟨f, _, rfl⟩ := List.mem_map.1 hn
    simp [Node.typeIsStruct]
  have h2 : (fs.map (fun f => Node.leaf f false)).map Node.plain = fs := by
    rw [List.map_map]
    exact List.map_id _
  simp only [h1, h2]
  rfl

/-- **C78, plain schemas** The parser configuration of sequence examples is not used for a schema that
does not describe them, also if features have struct domains but another type. -/
theorem parser_is_for_sequences_only (parser parser') (s : NestedSchema) (h : ¬DescribesSequences s) :
    nestedSchemaAsFeatureSpec parser s = nestedSchemaAsFeatureSpec parser' s := by
  rw [describesSequences_iff] at h
  unfold nestedSchemaAsFeatureSpec
  rw [if_neg h, if_neg h]

/-- A schema with a struct domain but another type. -/
example : ¬DescribesSequences ⟨[.struct "s" false [.leaf { name := "a" } false]], [], [], [], false⟩ := by
  simp [DescribesSequences]

/-! ## Instances and counterexamples -/

/-- A context feature `id`, and two sequence features in nested structs. -/
def queries : NestedSchema where
  nodes :=
    [.leaf { name := "id", type := .int, domainInfo := some (.own (.int (some 0) (some 9) false)) } false,
     .struct "##SEQUENCE##" true
      [.leaf { name := "word", type := .bytes, domainInfo := some (.named "words") } false,
       .struct "inner" true
        [.leaf { name := "score", type := .float, domainInfo := some (.own (.float (some 0) none)) }
          false],
       .leaf { name := "free", type := .int } false]]
  stringDomains := [("words", .string "words" ["a", "b"])]

/-- Its parser configuration. -/
def queriesParser (_ : NestedSchema) : Except Err (List (String × Spec) × List (String × Spec)) :=
  .ok ([("id", .varLen .int64)],
    [("word", .ragged .string (some "word") [] .int64),
     ("the_score", .ragged .float32 (some "score") [] .int64),
     ("free", .ragged .int64 (some "free") [] .int64)])

/-- The hypotheses of the theorems can be met, and what they say is what is returned. -/
theorem queries_are_read :
    DescribesSequences queries ∧
    (nestedSchemaAsFeatureSpec queriesParser queries).map Prod.snd = .ok
      [("id", .int (some 0) (some 9) false), ("word", .string "words" ["a", "b"]),
       ("the_score", .float (some 0) none)] := by
  refine ⟨Or.inr ⟨_, _, List.mem_cons_of_mem _ (List.mem_singleton_self _)⟩, ?_⟩
  decide +kernel

example : ∃ path f, LeafAt queries.nodes path f ∧ path = ["##SEQUENCE##", "inner", "score"] ∧
    HasDomain queries.stringDomains f (.float (some 0) none) ∧
    (∀ path' f', LeafAt queries.nodes path' f' → f'.name = f.name →
      ∀ d, HasDomain queries.stringDomains f' d → HasDomain queries.stringDomains f d) := by
  refine ⟨_, { name := "score", type := .float, domainInfo := some (.own (.float (some 0) none)) },
    .inside (b := true) (cs := _) (List.mem_cons_of_mem _ (List.mem_singleton_self _))
      (.inside (b := true) (cs := _) (List.mem_cons_of_mem _ (List.mem_cons_self ..))
        (.here (b := false) (List.mem_singleton_self _))), rfl, Or.inl rfl, ?_⟩
  intro path' f' hl hn d hd
  simp only [queries, leafAt_cons_cons, leafAt_leaf, leafAt_struct] at hl
  have : f' = { name := "score", type := .float, domainInfo := some (.own (.float (some 0) none)) } := by
    rcases hl with (⟨_, rfl⟩ | ⟨_, _, (⟨_, rfl⟩ | ⟨_, _, ⟨_, rfl⟩⟩ | ⟨_, rfl⟩)⟩) <;> first | rfl | (revert hn; decide)
  rw [this] at hd
  exact hd

/-- A context feature and a sequence feature with one name, `id`, and different domains. -/
def twoIds (second : Option DomainInfo) : NestedSchema where
  nodes :=
    [.leaf { name := "id", type := .int, domainInfo := some (.own (.int (some 0) (some 9) false)) } false,
     .struct "##SEQUENCE##" true [.leaf { name := "id", type := .int, domainInfo := second } false]]

/-- Its parser configuration: the sequence feature is the tensor `items`. -/
def twoIdsParser (_ : NestedSchema) : Except Err (List (String × Spec) × List (String × Spec)) :=
  .ok ([("id", .varLen .int64)], [("items", .ragged .int64 (some "id") [] .int64)])

/-- **C78, finding** Features in different places are taken for the same feature if they have the same
name: the context feature `id`, with values from 0 to 9, is returned with the domain of the sequence
feature `id`, from 0 to 99. -/
theorem same_name_takes_the_other_domain :
    (nestedSchemaAsFeatureSpec twoIdsParser
      (twoIds (some (.own (.int (some 0) (some 99) false))))).map Prod.snd = .ok
        [("id", .int (some 0) (some 99) false), ("items", .int (some 0) (some 99) false)] := by
  decide +kernel

/-- **C78, finding** A sequence feature without domain is returned with the domain of a context feature
of the same name. -/
theorem domain_of_another_feature :
    (nestedSchemaAsFeatureSpec twoIdsParser (twoIds none)).map Prod.snd = .ok
        [("id", .int (some 0) (some 9) false), ("items", .int (some 0) (some 9) false)] := by
  decide +kernel

/-- **C78, finding** A context and a sequence tensor with one name: only the sequence tensor is
returned. -/
theorem context_tensor_is_hidden :
    (nestedSchemaAsFeatureSpec
      (fun _ => .ok ([("id", .varLen .int64)], [("id", .ragged .int64 (some "id") [] .int64)]))
      (twoIds none)).map Prod.fst = .ok [("id", .ragged .int64 (some "id") [] .int64)] := by
  decide +kernel

end TFT.FeatureSpec
