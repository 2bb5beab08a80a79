import Verif.Pipeline.OutputWrapper
import Verif.Pipeline.WorkerProps

/-!
# Training and serving see the same features (C79)
-/

namespace TFT.OutputWrapper

open TFT.Serving TFT.Worker

variable {V Op C : Type}

/-! ## Specification -/

/-- Somewhere, the saved function `e` was applied to the inputs `given`, and the output `k` had the
components `vs`. `pipeline`: a batch in a worker of a Beam pipeline, at any point of any schedule.
`program`: a call of `transform_raw_features` or of the layer of a `TFTransformOutput`, after any other
calls in any contexts. -/
inductive Applied (env : Env V Op C) (e : Export Op) :
    List (String × List V) → String → List V → Prop
  | pipeline (steps : List Step) (dirs : Nat → String) (w : Worker V C)
      (outs : List (Record.Out V C)) (r : Record.Out V C) (s : Step)
      (given : List (String × List V)) (out : List (String × (List V ⊕ C))) (k : String) (vs : List V)
      (hkeys : (steps.map Step.handle).Nodup)
      (hrun : Worker.Run env steps (fun i dir => dir = dirs i) Worker.start w outs)
      (hr : r ∈ outs) (hs : steps[r.step]? = some s)
      (hdisk : env.disk (dirs r.step) = some e.function)
      (hcols : s.columns.Nodup)
      (hlist : ∀ k ∈ s.passthrough, ∀ c, (k, c) ∈ r.batch → env.isList c = true)
      (hgiven : env.adapt s.names r.batch = .ok given)
      (hnames : ∀ k, k ∈ s.names ↔ k ∈ given.map Prod.fst)
      (hout : r.result = .ok out) (hk : (k, .inl vs) ∈ out) : Applied env e given k vs
  | program (calls : List (Call × Context × List (String × List V))) (call : Call) (ctx : Context)
      (given : List (String × List V)) (out : List (String × Except Err (List V)))
      (k : String) (vs : List V)
      (hout : ((Output.after env.meaning e calls).step env.meaning e (call, ctx, given)).2 = .ok out)
      (hk : (k, .ok vs) ∈ out) : Applied env e given k vs

/-- Two sets of inputs have the same value for every input that is in both. -/
def Agree (given given' : List (String × List V)) : Prop :=
  ∀ k vs vs', (k, vs) ∈ given → (k, vs') ∈ given' → vs = vs'

/-! ## Lemmas -/

/-- What is meant by "the value of output `k` for the inputs `given`". -/
structure IsValue (m : Meaning V Op) (f : Function Op) (given : List (String × List V)) (k : String)
    (vs : List V) (ts : List (Tensor Op)) : Prop where
  output : (k, ts) ∈ f.outputs
  uses : ∀ i ∈ Tensor.usesOf ts, i ∈ given.map Prod.fst
  value : ∀ full, Completes given full → List.Forall₂ (fun t v => t.value m full = .ok v) ts vs

theorem isValue_of_valuesOf (m : Meaning V Op) (f : Function Op)
    (given : List (String × List V)) (out : List (String × List V))
    (h : ∀ full, Completes given full → ValuesOf m full (computable f (given.map Prod.fst)) out)
    (hW : WellFormed f) (hC : Conforms m f given) (rest : String → Nat → V)
    (k : String) (vs : List V) (hk : (k, vs) ∈ out) : ∃ ts, IsValue m f given k vs ts := by
  obtain ⟨ts, hts, -⟩ := (valuesOf_mem m _ _ out (h _ (completes_self m f given hC rest))).1 _ hk
  have hmem : (k, ts) ∈ f.outputs ∧ ∀ i ∈ Tensor.usesOf ts, i ∈ given.map Prod.fst := by
    unfold computable at hts
    rw [List.mem_filter, decide_eq_true_iff] at hts
    exact hts
  refine ⟨ts, hmem.1, hmem.2, fun full hF => ?_⟩
  obtain ⟨ts', hts', hv⟩ := (valuesOf_mem m _ _ out (h full hF)).1 _ hk
  have hts'' : (k, ts') ∈ f.outputs := by
    unfold computable at hts'
    exact (List.mem_filter.1 hts').1
  have : (k, ts') = (k, ts) := List.inj_on_of_nodup_map hW.outputs hts'' hmem.1 rfl
  rw [Prod.mk.injEq] at this
  rw [← this.2]
  exact hv

theorem mem_computed (r : Except Err (List (String × List V)))
    (out : List (String × Except Err (List V))) (h : computed r = .ok out) (k : String) (vs : List V)
    (hk : (k, .ok vs) ∈ out) : ∃ out', r = .ok out' ∧ (k, vs) ∈ out' := by
  unfold computed at h
  cases r with
  | error e => simp [Except.bind] at h
  | ok out' =>
    simp only [Except.bind, Except.ok.injEq] at h
    subst h
    obtain ⟨⟨k', vs'⟩, h1, h2⟩ := List.mem_map.1 hk
    simp only [Prod.mk.injEq, Except.ok.injEq] at h2
    exact ⟨out', rfl, by rw [← h2.1, ← h2.2]; exact h1⟩

/-- The conditions under which an output is returned by `compatV1`. -/
theorem compat_sources (f : Function Op) (hW : WellFormed f) (given : List (String × List V))
    (o : String × List (Tensor Op)) (ho : o ∈ f.outputs) :
    ((Tensor.sourcesOf o.2).all fun c => !(f.unfed (given.map Prod.fst)).contains c.1) = true ↔
      ∀ i ∈ Tensor.usesOf o.2, i ∈ given.map Prod.fst := by
  rw [List.all_eq_true, usesOf_eq]
  constructor
  · intro h i hi
    obtain ⟨c, hc, rfl⟩ := List.mem_map.1 hi
    have h1 := h c hc
    by_contra hno
    obtain ⟨n, hn, -⟩ := (withinAll_iff f.inputs o.2).1 (hW.within o ho) c hc
    simp only [Bool.not_eq_true', ← Bool.not_eq_true, List.contains_iff_mem] at h1
    refine h1 ?_
    unfold Function.unfed
    rw [List.mem_filter]
    refine ⟨List.mem_map.2 ⟨_, hn, rfl⟩, ?_⟩
    simp only [Bool.not_eq_true', ← Bool.not_eq_true, List.contains_iff_mem]
    exact hno
  · intro h c hc
    simp only [Bool.not_eq_true', ← Bool.not_eq_true, List.contains_iff_mem]
    intro hm
    unfold Function.unfed at hm
    rw [List.mem_filter] at hm
    have h2 := hm.2
    simp only [Bool.not_eq_true', ← Bool.not_eq_true, List.contains_iff_mem] at h2
    exact h2 (h c.1 (List.mem_map_of_mem hc))

mutual
/-- A tensor that was computed has all its sources. -/
theorem eval_sources (m : Meaning V Op) (env : String × Nat → Option V) :
    (t : Tensor Op) → (v : V) → Tensor.eval m env t = .ok v →
      ∀ c ∈ t.sources, ∃ x, env c = some x
  | .feed key i, v, h, c, hc => by
    rw [Tensor.sources, List.mem_singleton] at hc
    rw [Tensor.eval] at h
    subst hc
    cases he : env (key, i) with
    | none => rw [he] at h; simp at h
    | some x => exact ⟨x, rfl⟩
  | .capture _, _, _, c, hc => by rw [Tensor.sources] at hc; simp at hc
  | .op o ins, v, h, c, hc => by
    rw [Tensor.eval] at h
    rw [Tensor.sources] at hc
    cases he : Tensor.evals m env ins with
    | error e => rw [he] at h; simp [Except.bind] at h
    | ok vs => exact evals_sources m env ins vs he c hc
theorem evals_sources (m : Meaning V Op) (env : String × Nat → Option V) :
    (ts : List (Tensor Op)) → (vs : List V) → Tensor.evals m env ts = .ok vs →
      ∀ c ∈ Tensor.sourcesOf ts, ∃ x, env c = some x
  | [], _, _, c, hc => by rw [Tensor.sourcesOf] at hc; simp at hc
  | t :: ts, vs, h, c, hc => by
    rw [Tensor.evals] at h
    rw [Tensor.sourcesOf, List.mem_append] at hc
    cases he : Tensor.eval m env t with
    | error e => rw [he] at h; simp [Except.bind] at h
    | ok v =>
      cases he' : Tensor.evals m env ts with
      | error e => rw [he, he'] at h; simp [Except.bind] at h
      | ok vs' =>
        rcases hc with hc | hc
        · exact eval_sources m env t v he c hc
        · exact evals_sources m env ts vs' he' c hc
end

theorem expand_source (f : Function Op) (hW : WellFormed f) (given : List (String × List V))
    (hcomp : ∀ g ∈ given, (g.1, g.2.length) ∈ f.inputs)
    (c : String × Nat) (x : V) (h : (f.expand given).lookup c = some x) :
    c.1 ∈ given.map Prod.fst := by
  by_contra hno
  have : c ∉ (f.expand given).map Prod.fst := by
    intro hm
    obtain ⟨⟨c', v⟩, hm', rfl⟩ := List.mem_map.1 hm
    obtain ⟨g, hg, he, -⟩ := (mem_expand f hW given hcomp c' v).1 hm'
    exact hno (List.mem_map.2 ⟨g, hg, he⟩)
  rw [(lookup_none _ c).2 this] at h
  simp at h

theorem compat_value (m : Meaning V Op) (f : Function Op) (hW : WellFormed f) (ctx : Context)
    (drop : Bool) (given : List (String × List V)) (hC : Conforms m f given)
    (out : List (String × Except Err (List V))) (h : compatV1 m f ctx drop given = .ok out)
    (k : String) (vs : List V) (hk : (k, .ok vs) ∈ out) : ∃ ts, IsValue m f given k vs ts := by
  unfold compatV1 at h
  split_ifs at h
  all_goals
    simp only at h
    split at h
    · simp at h
    rw [Except.ok.injEq] at h
    subst h
    obtain ⟨o, ho, hv⟩ := List.mem_map.1 hk
    simp only [Prod.mk.injEq] at hv
    have ho' : o ∈ f.outputs := by
      first
        | exact ho
        | exact (List.mem_filter.1 ho).1
    have huses : ∀ i ∈ Tensor.usesOf o.2, i ∈ given.map Prod.fst := by
      intro i hi
      rw [usesOf_eq] at hi
      obtain ⟨c, hc, rfl⟩ := List.mem_map.1 hi
      obtain ⟨x, hx⟩ := evals_sources m _ o.2 vs hv.2 c hc
      exact expand_source f hW given hC.components c x hx
    refine ⟨o.2, by rw [← hv.1]; exact ho', huses, fun full hF => ?_⟩
    rw [← values_iff, ← hv.2]
    symm
    refine evals_eq m _ full o.2 fun c hc => ?_
    exact expand_lookup f hW given hC.nodup hC.components full hF c
      ((withinAll_iff f.inputs o.2).1 (hW.within o ho') c hc)
      (huses c.1 (by rw [usesOf_eq]; exact List.mem_map_of_mem hc))

theorem call_value (m : Meaning V Op) (e : Export Op) (hW : WellFormed e.function)
    (given : List (String × List V)) (hC : Conforms m e.function given) (rest : String → Nat → V)
    (made ctx : Context) (out : List (String × Except Err (List V)))
    (h : applyLoaded m e made ctx given = .ok out)
    (k : String) (vs : List V) (hk : (k, .ok vs) ∈ out) :
    ∃ ts, IsValue m e.function given k vs ts := by
  unfold applyLoaded at h
  split_ifs at h with hu hv
  · obtain ⟨out', ho, hm⟩ := mem_computed _ _ h k vs hk
    exact isValue_of_valuesOf m e.function given out' (fun full hF =>
      (pruned_application_returns_the_computable_outputs m e.function hW given hC full hF out').1 ho)
      hW hC rest k vs hm
  · obtain ⟨out', ho, hm⟩ := mem_computed _ _ h k vs hk
    exact isValue_of_valuesOf m e.function given out' (fun full hF =>
      made_up_inputs_have_no_influence m e.function hW given hC out' ho full hF)
      hW hC rest k vs hm

theorem layer_value (m : Meaning V Op) (e : Export Op) (hW : WellFormed e.function)
    (given : List (String × List V)) (hC : Conforms m e.function given) (rest : String → Nat → V)
    (ctx : Context) (o : Output) (out : List (String × Except Err (List V)))
    (h : (o.callLayer m e ctx given).2 = .ok out)
    (k : String) (vs : List V) (hk : (k, .ok vs) ∈ out) :
    ∃ ts, IsValue m e.function given k vs ts := by
  unfold Output.callLayer at h
  split at h
  · simp at h
  · simp only at h
    unfold Layer.call at h
    split_ifs at h with hv
    · exact compat_value m e.function hW ctx true given hC out h k vs hk
    · split at h
      · simp at h
      · exact call_value m e hW given hC rest _ ctx out h k vs hk

theorem step_value (m : Meaning V Op) (e : Export Op) (hW : WellFormed e.function)
    (given : List (String × List V)) (hC : Conforms m e.function given) (rest : String → Nat → V)
    (call : Call) (ctx : Context) (o : Output) (out : List (String × Except Err (List V)))
    (h : (o.step m e (call, ctx, given)).2 = .ok out)
    (k : String) (vs : List V) (hk : (k, .ok vs) ∈ out) :
    ∃ ts, IsValue m e.function given k vs ts := by
  unfold Output.step at h
  cases call with
  | layer => exact layer_value m e hW given hC rest ctx o out h k vs hk
  | raw drop =>
    simp only at h
    unfold Output.transformRaw at h
    split_ifs at h
    · exact compat_value m e.function hW ctx drop given hC out h k vs hk
    · exact layer_value m e hW given hC rest ctx o out h k vs hk

/-- However a function is applied, an output has the value that it has for the given inputs. -/
theorem applied_value (env : Env V Op C) (e : Export Op) (hW : WellFormed e.function)
    (given : List (String × List V)) (hC : Conforms env.meaning e.function given)
    (rest : String → Nat → V) (k : String) (vs : List V) (h : Applied env e given k vs) :
    ∃ ts, IsValue env.meaning e.function given k vs ts := by
  cases h with
  | pipeline steps dirs w outs r s _ out _ _ hkeys hrun hr hs hdisk hcols hlist hgiven hnames hout hk =>
    obtain ⟨s', hs', hal⟩ := batches_are_transformed_as_alone env steps dirs hkeys w outs hrun r hr
    rw [hs] at hs'
    obtain rfl := Option.some.inj hs'
    rw [hout] at hal
    have key : ∀ full, Completes given full → ∃ ts, ((k, ts) ∈ e.function.outputs ∧
        (∀ i ∈ Tensor.usesOf ts, i ∈ given.map Prod.fst)) ∧
        List.Forall₂ (fun t v => t.value env.meaning full = .ok v) ts vs := by
      intro full hF
      obtain ⟨hb, hcomp, hexp⟩ := alone_is_expected env s (dirs r.step) e.function hdisk hW r.batch hcols
        hlist given hgiven hC hnames full hF out hal.symm
      have hpass : ¬ Passes s k := by
        rintro ⟨hp1, hp2⟩
        rw [← hb] at hp2
        obtain ⟨⟨k', c⟩, hkc, rfl⟩ := List.mem_map.1 hp2
        have h1 := hexp.passed k' c hp1 hkc
        have := List.inj_on_of_nodup_map hexp.keys h1 hk rfl
        simp at this
      obtain ⟨ts, hts, hex⟩ : ∃ ts, (k, ts) ∈ e.function.outputs ∧ k ∉ s.exclude := by
        rcases hexp.nothingElse _ hk with h | h
        · exact h
        · exact absurd h hpass
      refine ⟨ts, ⟨hts, fun i hi => (hnames i).1 (hcomp.uses k ts hts hex i hi)⟩, ?_⟩
      obtain ⟨vs', h1, h2⟩ := hexp.transformed k ts hts hex hpass
      have := List.inj_on_of_nodup_map hexp.keys h1 hk rfl
      simp only [Prod.mk.injEq, Sum.inl.injEq, true_and] at this
      rw [← this]
      exact h2
    obtain ⟨ts, ⟨h1, h2⟩, -⟩ := key _ (completes_self env.meaning e.function given hC rest)
    refine ⟨ts, h1, h2, fun full hF => ?_⟩
    obtain ⟨ts', ⟨h1', -⟩, h3⟩ := key full hF
    have : (k, ts') = (k, ts) := List.inj_on_of_nodup_map hW.outputs h1' h1 rfl
    rw [Prod.mk.injEq] at this
    rw [← this.2]
    exact h3
  | program calls call ctx _ out _ _ hout hk =>
    exact step_value env.meaning e hW given hC rest call ctx _ out hout k vs hk

mutual
/-- A relation between values that operations keep is kept by tensors. -/
theorem value_related (m : Meaning V Op) (R : V → V → Prop)
    (hop : ∀ o args args' v v', List.Forall₂ R args args' → m.op o args = .ok v →
      m.op o args' = .ok v' → R v v')
    (hcap : ∀ n, R (m.captured n) (m.captured n)) (full full' : String → Nat → V) :
    (t : Tensor Op) → (∀ c ∈ t.sources, R (full c.1 c.2) (full' c.1 c.2)) → (v v' : V) →
      t.value m full = .ok v → t.value m full' = .ok v' → R v v'
  | .feed key i, hs, v, v', h, h' => by
    rw [Tensor.value, Except.ok.injEq] at h h'
    rw [← h, ← h']
    exact hs (key, i) (by rw [Tensor.sources]; simp)
  | .capture n, _, v, v', h, h' => by
    rw [Tensor.value, Except.ok.injEq] at h h'
    rw [← h, ← h']
    exact hcap n
  | .op o ins, hs, v, v', h, h' => by
    rw [Tensor.value] at h h'
    cases he : Tensor.values m full ins with
    | error e => rw [he] at h; simp [Except.bind] at h
    | ok args =>
      cases he' : Tensor.values m full' ins with
      | error e => rw [he'] at h'; simp [Except.bind] at h'
      | ok args' =>
        rw [he] at h
        rw [he'] at h'
        exact hop o args args' v v' (values_related m R hop hcap full full' ins
          (fun c hc => hs c (by rw [Tensor.sources]; exact hc)) args args' he he') h h'
theorem values_related (m : Meaning V Op) (R : V → V → Prop)
    (hop : ∀ o args args' v v', List.Forall₂ R args args' → m.op o args = .ok v →
      m.op o args' = .ok v' → R v v')
    (hcap : ∀ n, R (m.captured n) (m.captured n)) (full full' : String → Nat → V) :
    (ts : List (Tensor Op)) → (∀ c ∈ Tensor.sourcesOf ts, R (full c.1 c.2) (full' c.1 c.2)) →
      (vs vs' : List V) → Tensor.values m full ts = .ok vs → Tensor.values m full' ts = .ok vs' →
        List.Forall₂ R vs vs'
  | [], _, vs, vs', h, h' => by
    rw [Tensor.values, Except.ok.injEq] at h h'
    rw [← h, ← h']
    exact .nil
  | t :: ts, hs, vs, vs', h, h' => by
    rw [Tensor.values] at h h'
    cases he : t.value m full with
    | error e => rw [he] at h; simp [Except.bind] at h
    | ok v =>
      cases he' : t.value m full' with
      | error e => rw [he'] at h'; simp [Except.bind] at h'
      | ok v' =>
        cases hr : Tensor.values m full ts with
        | error e => rw [he, hr] at h; simp [Except.bind] at h
        | ok ws =>
          cases hr' : Tensor.values m full' ts with
          | error e => rw [he', hr'] at h'; simp [Except.bind] at h'
          | ok ws' =>
            rw [he, hr] at h
            rw [he', hr'] at h'
            simp only [Except.bind, Except.ok.injEq] at h h'
            rw [← h, ← h']
            refine .cons (value_related m R hop hcap full full' t (fun c hc => hs c ?_) v v' he he')
              (values_related m R hop hcap full full' ts (fun c hc => hs c ?_) ws ws' hr hr')
            · rw [Tensor.sourcesOf]; exact List.mem_append_left _ hc
            · rw [Tensor.sourcesOf]; exact List.mem_append_right _ hc
end

/-! ## Properties -/

/-- Inputs whose common parts are related, component by component, give outputs that are related,
if operations keep the relation. -/
theorem related_inputs_give_related_outputs (env : Env V Op C) (e : Export Op)
    (hW : WellFormed e.function) (R : V → V → Prop)
    (hop : ∀ o args args' v v', List.Forall₂ R args args' → env.meaning.op o args = .ok v →
      env.meaning.op o args' = .ok v' → R v v')
    (hcap : ∀ n, R (env.meaning.captured n) (env.meaning.captured n))
    (given given' : List (String × List V)) (hC : Conforms env.meaning e.function given)
    (hC' : Conforms env.meaning e.function given')
    (hR : ∀ k vs vs', (k, vs) ∈ given → (k, vs') ∈ given' → List.Forall₂ R vs vs')
    (k : String) (vs vs' : List V) (h : Applied env e given k vs) (h' : Applied env e given' k vs') :
    List.Forall₂ R vs vs' := by
  let rest : String → Nat → V := fun _ _ => env.meaning.captured 0
  obtain ⟨ts, h1, h2, h3⟩ := applied_value env e hW given hC rest k vs h
  obtain ⟨ts', h1', h2', h3'⟩ := applied_value env e hW given' hC' rest k vs' h'
  have : (k, ts') = (k, ts) := List.inj_on_of_nodup_map hW.outputs h1' h1 rfl
  rw [Prod.mk.injEq] at this
  rw [this.2] at h2' h3'
  refine values_related env.meaning R hop hcap _ _ ts ?_ vs vs'
    ((values_iff _ _ _ _).2 (h3 _ (completes_self env.meaning e.function given hC rest)))
    ((values_iff _ _ _ _).2 (h3' _ (completes_self env.meaning e.function given' hC' rest)))
  intro c hc
  have hcu : c.1 ∈ Tensor.usesOf ts := by rw [usesOf_eq]; exact List.mem_map_of_mem hc
  obtain ⟨⟨k1, ws⟩, hg, he⟩ := List.mem_map.1 (h2 _ hcu)
  obtain ⟨⟨k2, ws'⟩, hg', he'⟩ := List.mem_map.1 (h2' _ hcu)
  simp only at he he'
  subst he
  rw [he'] at hg'
  obtain ⟨n, hn, hi⟩ := (withinAll_iff e.function.inputs ts).1 (hW.within _ h1) c hc
  have l1 := (lookup_iff e.function.inputs hW.inputs c.1 n).2 hn
  have l2 := (lookup_iff e.function.inputs hW.inputs c.1 ws.length).2 (hC.components _ hg)
  have l3 := (lookup_iff e.function.inputs hW.inputs c.1 ws'.length).2 (hC'.components _ hg')
  rw [l1] at l2 l3
  have e2 : n = ws.length := Option.some.inj l2
  have e3 : n = ws'.length := Option.some.inj l3
  have hrel := hR c.1 ws ws' hg hg'
  have q := completes_self env.meaning e.function given hC rest _ hg c.2 _
    (List.getElem?_eq_getElem (by simp only; omega))
  have q' := completes_self env.meaning e.function given' hC' rest _ hg' c.2 _
    (List.getElem?_eq_getElem (by simp only; omega))
  simp only at q q'
  rw [q, q']
  exact (List.forall₂_iff_get.1 hrel).2 c.2 (by omega) (by omega)

/-- Training and serving compute the same features: wherever and in whatever way the function is
applied, an output has the same value in both places if the inputs that both have are the same. One
of the two may lack inputs, e.g. the label. -/
theorem training_and_serving_agree (env : Env V Op C) (e : Export Op) (hW : WellFormed e.function)
    (given given' : List (String × List V)) (hC : Conforms env.meaning e.function given)
    (hC' : Conforms env.meaning e.function given') (hagree : Agree given given')
    (k : String) (vs vs' : List V) (h : Applied env e given k vs) (h' : Applied env e given' k vs') :
    vs = vs' := by
  have hop : ∀ (o : Op) (args args' : List V) (v v' : V), List.Forall₂ (· = ·) args args' →
      env.meaning.op o args = .ok v → env.meaning.op o args' = .ok v' → v = v' := by
    intro o args args' v v' ha hv hv'
    rw [List.forall₂_eq_eq_eq] at ha
    rw [ha, hv'] at hv
    exact (Except.ok.inj hv).symm
  have := related_inputs_give_related_outputs env e hW (· = ·) hop (fun _ => rfl) given given' hC hC'
    (fun k vs vs' h1 h2 => by rw [List.forall₂_eq_eq_eq]; exact hagree k vs vs' h1 h2) k vs vs' h h'
  rwa [List.forall₂_eq_eq_eq] at this

/-- An output is computed from inputs that are given, all of them. -/
theorem outputs_come_from_given_inputs (env : Env V Op C) (e : Export Op)
    (hW : WellFormed e.function) (given : List (String × List V))
    (hC : Conforms env.meaning e.function given) (k : String) (vs : List V)
    (h : Applied env e given k vs) :
    ∃ ts, (k, ts) ∈ e.function.outputs ∧ (∀ i ∈ Tensor.usesOf ts, i ∈ given.map Prod.fst) ∧
      ∀ full, Completes given full →
        List.Forall₂ (fun t v => t.value env.meaning full = .ok v) ts vs := by
  obtain ⟨ts, h1, h2, h3⟩ := applied_value env e hW given hC (fun _ _ => env.meaning.captured 0) k vs h
  exact ⟨ts, h1, h2, h3⟩

/-- The value `v` in one batch and the value `w` in another belong to the same row: row `i` of `v` is row
`j` of `w`. A value without rows, e.g. a constant, is the same in both. -/
def SameRow {Row : Type} (rows : V → Option (List Row)) (i j : Nat) (v w : V) : Prop :=
  match rows v, rows w with
  | some rs, some rs' => ∃ r, rs[i]? = some r ∧ rs'[j]? = some r
  | _, _ => v = w

/-- An operation acts on rows: a row of its result depends on the same row of its arguments only. -/
def ActsByRows {Row : Type} (rows : V → Option (List Row)) (m : Meaning V Op) : Prop :=
  ∀ o i j args args' v v', List.Forall₂ (SameRow rows i j) args args' →
    m.op o args = .ok v → m.op o args' = .ok v' → SameRow rows i j v v'

/-- A row is transformed to the same values whatever other rows are in its batch, and wherever it is:
in the pipeline with a thousand others, or alone when serving. -/
theorem rows_are_transformed_as_in_other_batches {Row : Type} (rows : V → Option (List Row))
    (env : Env V Op C) (e : Export Op) (hW : WellFormed e.function)
    (hrows : ActsByRows rows env.meaning) (hcap : ∀ n, rows (env.meaning.captured n) = none)
    (i j : Nat) (given given' : List (String × List V))
    (hC : Conforms env.meaning e.function given) (hC' : Conforms env.meaning e.function given')
    (hsame : ∀ k vs vs', (k, vs) ∈ given → (k, vs') ∈ given' →
      List.Forall₂ (SameRow rows i j) vs vs')
    (k : String) (vs vs' : List V) (h : Applied env e given k vs) (h' : Applied env e given' k vs') :
    List.Forall₂ (SameRow rows i j) vs vs' := by
  refine related_inputs_give_related_outputs env e hW _ (fun o => hrows o i j) (fun n => ?_) given
    given' hC hC' hsame k vs vs' h h'
  unfold SameRow
  rw [hcap n]

theorem compat_keys (m : Meaning V Op) (f : Function Op) (hW : WellFormed f) (ctx : Context)
    (drop : Bool) (given : List (String × List V))
    (out : List (String × Except Err (List V))) (h : compatV1 m f ctx drop given = .ok out)
    (k : String) : k ∈ out.map Prod.fst ↔ ∃ ts, (k, ts) ∈ f.outputs ∧
      (drop = false ∨ ∀ i ∈ Tensor.usesOf ts, i ∈ given.map Prod.fst) := by
  unfold compatV1 at h
  split_ifs at h with h1 h2 h3
  all_goals
    simp only at h
    split at h
    · simp at h
    rw [Except.ok.injEq] at h
    subst h
    rw [List.map_map, List.mem_map]
  · constructor
    · rintro ⟨o, ho, rfl⟩
      obtain ⟨ho1, ho2⟩ := List.mem_filter.1 ho
      exact ⟨o.2, ho1, .inr ((compat_sources f hW given o ho1).1 ho2)⟩
    · rintro ⟨ts, hts, hd | hu⟩
      · rw [hd] at h3; simp at h3
      · exact ⟨(k, ts), List.mem_filter.2 ⟨hts, (compat_sources f hW given _ hts).2 hu⟩, rfl⟩
  · constructor
    · rintro ⟨o, ho, rfl⟩
      exact ⟨o.2, ho, .inl (by simpa using h3)⟩
    · rintro ⟨ts, hts, -⟩
      exact ⟨(k, ts), hts, rfl⟩

theorem loaded_keys (m : Meaning V Op) (e : Export Op) (hW : WellFormed e.function)
    (given : List (String × List V)) (hC : Conforms m e.function given)
    (made ctx : Context) (out : List (String × Except Err (List V)))
    (h : applyLoaded m e made ctx given = .ok out) (k : String) :
    k ∈ out.map Prod.fst ↔ ∃ ts, (k, ts) ∈ e.function.outputs ∧
      ∀ i ∈ Tensor.usesOf ts, i ∈ given.map Prod.fst := by
  have hF := completes_self m e.function given hC (fun _ _ => m.captured 0)
  have key : ∃ out', ValuesOf m (fun k i => ((given.lookup k).bind fun vs => vs[i]?).getD
      (m.captured 0)) (computable e.function (given.map Prod.fst)) out' ∧
      out.map Prod.fst = out'.map Prod.fst := by
    unfold applyLoaded at h
    split_ifs at h with hu hv
    · unfold computed at h
      cases hr : applyV1InV2 m e.function given with
      | error err => rw [hr] at h; simp [Except.bind] at h
      | ok out' =>
        rw [hr] at h
        simp only [Except.bind, Except.ok.injEq] at h
        refine ⟨out', (pruned_application_returns_the_computable_outputs m e.function hW given hC _ hF
          out').1 hr, ?_⟩
        rw [← h, List.map_map]
        rfl
    · unfold computed at h
      cases hr : applyV2 m e.function given with
      | error err => rw [hr] at h; simp [Except.bind] at h
      | ok out' =>
        rw [hr] at h
        simp only [Except.bind, Except.ok.injEq] at h
        refine ⟨out', made_up_inputs_have_no_influence m e.function hW given hC out' hr _ hF, ?_⟩
        rw [← h, List.map_map]
        rfl
  obtain ⟨out', hv, hk⟩ := key
  rw [hk, valuesOf_keys m _ _ _ hv, List.mem_map]
  unfold computable
  constructor
  · rintro ⟨o, ho, rfl⟩
    rw [List.mem_filter, decide_eq_true_iff] at ho
    exact ⟨o.2, ho⟩
  · rintro ⟨ts, h1, h2⟩
    exact ⟨(k, ts), List.mem_filter.2 ⟨h1, by simpa using h2⟩, rfl⟩

theorem layer_keys (m : Meaning V Op) (e : Export Op) (hW : WellFormed e.function)
    (given : List (String × List V)) (hC : Conforms m e.function given)
    (ctx : Context) (o : Output) (out : List (String × Except Err (List V)))
    (h : (o.callLayer m e ctx given).2 = .ok out) (k : String) :
    k ∈ out.map Prod.fst ↔ ∃ ts, (k, ts) ∈ e.function.outputs ∧
      ∀ i ∈ Tensor.usesOf ts, i ∈ given.map Prod.fst := by
  unfold Output.callLayer at h
  split at h
  · simp at h
  · simp only at h
    unfold Layer.call at h
    split_ifs at h with hv
    · rw [compat_keys m e.function hW ctx true given out h k]
      simp
    · split at h
      · simp at h
      · exact loaded_keys m e hW given hC _ ctx out h k

/-- With `drop_unused_features`, and always with a TF2 SavedModel and the layer, exactly the outputs are
returned whose inputs are all given; without it all outputs of a TF1 SavedModel are. -/
theorem returned_outputs (m : Meaning V Op) (e : Export Op) (hW : WellFormed e.function)
    (o : Output) (call : Call) (ctx : Context) (given : List (String × List V))
    (hC : Conforms m e.function given) (out : List (String × Except Err (List V)))
    (h : (o.step m e (call, ctx, given)).2 = .ok out) (k : String) :
    k ∈ out.map Prod.fst ↔ ∃ ts, (k, ts) ∈ e.function.outputs ∧
      ((e.v1 = true ∧ call = .raw false) ∨ ∀ i ∈ Tensor.usesOf ts, i ∈ given.map Prod.fst) := by
  unfold Output.step at h
  cases call with
  | layer =>
    rw [layer_keys m e hW given hC ctx o out h k]
    simp
  | raw drop =>
    simp only at h
    unfold Output.transformRaw at h
    split_ifs at h with hv
    · rw [compat_keys m e.function hW ctx drop given out h k, hv]
      simp
    · rw [layer_keys m e hW given hC ctx o out h k]
      simp [hv]

/-! ## Repeated use -/

/-- The layer of a `TFTransformOutput` keeps a function that was loaded in the context of one of the
calls. -/
def Made (past : List Context) (o : Output) : Prop :=
  ∀ l, o.layer = some l → ∀ made, l.loader = some made → made ∈ past ∧ l.loadedGraph = some made.graph

theorem getLoader_made (e : Export Op) (ctx : Context) (past : List Context) (l l' : Layer)
    (made : Context)
    (hl : ∀ made, l.loader = some made → made ∈ past ∧ l.loadedGraph = some made.graph)
    (h : l.getLoader e ctx = .ok (l', made)) :
    l'.loader = some made ∧ l'.loadedGraph = some made.graph ∧ (made = ctx ∨ made ∈ past) ∧
      (l.loader = none → made = ctx) ∧
      (ctx.mode = .graph → made.graph = ctx.graph) ∧
      (ctx.mode ≠ .graph → ∀ old, l.loader = some old → made = old) := by
  unfold Layer.getLoader at h
  cases ho : l.loader with
  | none =>
    simp only [ho] at h
    split_ifs at h with h1 h2 h3
    · simp only [Except.ok.injEq, Prod.mk.injEq, Option.getD_some] at h
      obtain ⟨rfl, rfl⟩ := h
      simp
    · simp at h3
    · simp only [Except.ok.injEq, Prod.mk.injEq, Option.getD_some] at h
      obtain ⟨rfl, rfl⟩ := h
      simp
  | some old =>
    obtain ⟨hp, hg⟩ := hl old ho
    simp only [ho] at h
    split_ifs at h with h1 h2 h3
    · simp only [Except.ok.injEq, Prod.mk.injEq, Option.getD_some] at h
      obtain ⟨rfl, rfl⟩ := h
      simp [ho, hg, hp, h1]
    · simp only [Except.ok.injEq, Prod.mk.injEq] at h
      obtain ⟨rfl, rfl⟩ := h
      simp only [not_not] at h1
      simp [h1]
    · simp only [Except.ok.injEq, Prod.mk.injEq, Option.getD_some] at h
      obtain ⟨rfl, rfl⟩ := h
      simp only [not_not] at h1 h3
      rw [hg, Option.some.injEq] at h3
      simp [ho, hg, hp, h1, h3]

theorem make_made (e : Export Op) (ctx : Context) :
    ∃ l, Layer.make e ctx = .ok l ∧
      (∀ made, l.loader = some made → made = ctx ∧ l.loadedGraph = some made.graph) ∧
      (ctx.mode ≠ .graph → l.loader = some ctx) := by
  unfold Layer.make
  by_cases h : ctx.mode = .graph
  · exact ⟨⟨none, none⟩, by rw [if_pos h], by simp, fun h' => absurd h h'⟩
  · refine ⟨⟨some ctx, some ctx.graph⟩, ?_, by simp, fun _ => rfl⟩
    rw [if_neg h]
    unfold Layer.getLoader
    simp only
    rw [if_pos h]
    rfl

/-- The function that a call of the layer uses. -/
theorem callLayer_uses (m : Meaning V Op) (e : Export Op) (ctx : Context) (o : Output)
    (past : List Context) (ho : Made past o) (given : List (String × List V)) :
    Made (ctx :: past) (o.callLayer m e ctx given).1 ∧
    (e.v1 = true → ctx.mode = .graph →
      (o.callLayer m e ctx given).2 = compatV1 m e.function ctx true given) ∧
    (¬ (e.v1 = true ∧ ctx.mode = .graph) → ∃ made, (made = ctx ∨ made ∈ past) ∧
      (o.callLayer m e ctx given).2 = applyLoaded m e made ctx given ∧
      (ctx.mode = .graph → made.graph = ctx.graph)) := by
  obtain ⟨l, hl, hget⟩ : ∃ l, (∃ o', o.getLayer e ctx = .ok (o', l)) ∧
      ∀ made, l.loader = some made → made ∈ ctx :: past ∧ l.loadedGraph = some made.graph := by
    unfold Output.getLayer
    cases hol : o.layer with
    | some l =>
      exact ⟨l, ⟨o, rfl⟩, fun made hm => ⟨List.mem_cons_of_mem _ (ho l hol made hm).1,
        (ho l hol made hm).2⟩⟩
    | none =>
      obtain ⟨l, h1, h2, -⟩ := make_made e ctx
      refine ⟨l, ⟨⟨some l⟩, by simp only [h1, Except.bind]⟩, fun made hm => ?_⟩
      obtain ⟨rfl, h3⟩ := h2 made hm
      exact ⟨by simp, h3⟩
  obtain ⟨o', ho'⟩ := hl
  unfold Output.callLayer
  simp only [ho']
  unfold Layer.call
  by_cases hv : e.v1 = true ∧ ctx.mode = .graph
  · simp only [hv.1, hv.2, and_self, if_true, not_true_eq_false, false_imp_iff, and_true,
      true_imp_iff]
    intro l' hl' made hm
    rw [Option.some.injEq] at hl'
    exact hget made (hl' ▸ hm) |>.imp id (fun h => hl' ▸ h)
  · simp only [hv, if_false, not_false_eq_true, true_imp_iff]
    cases hg : l.getLoader e ctx with
    | error err =>
      exfalso
      unfold Layer.getLoader at hg
      simp only at hg
      split_ifs at hg with h1 h2
      exact hv ⟨h2, by simpa using h1⟩
    | ok r =>
      obtain ⟨l', made⟩ := r
      obtain ⟨h1, h2, h3, h4, h5, h6⟩ := getLoader_made e ctx (ctx :: past) l l' made hget hg
      refine ⟨?_, fun h1 h2 => absurd ⟨h1, h2⟩ hv, made, by simpa using h3, rfl, h5⟩
      intro l'' hl'' made' hm'
      simp only [Option.some.injEq] at hl''
      subst hl''
      rw [h1, Option.some.injEq] at hm'
      subst hm'
      exact ⟨by simpa using h3, h2⟩

theorem step_made (m : Meaning V Op) (e : Export Op) (o : Output)
    (past : List Context) (ho : Made past o) (c : Call × Context × List (String × List V)) :
    Made (c.2.1 :: past) (o.step m e c).1 := by
  have hmono : Made (c.2.1 :: past) o := fun l hl made hm =>
    ⟨List.mem_cons_of_mem _ (ho l hl made hm).1, (ho l hl made hm).2⟩
  unfold Output.step
  cases c.1 with
  | layer => exact (callLayer_uses m e c.2.1 o past ho c.2.2).1
  | raw drop =>
    simp only
    unfold Output.transformRaw
    split
    · exact hmono
    · exact (callLayer_uses m e c.2.1 o past ho c.2.2).1

theorem made_mono (past past' : List Context) (h : ∀ c ∈ past, c ∈ past') (o : Output)
    (ho : Made past o) : Made past' o :=
  fun l hl made hm => ⟨h _ (ho l hl made hm).1, (ho l hl made hm).2⟩

theorem after_made (m : Meaning V Op) (e : Export Op)
    (calls : List (Call × Context × List (String × List V))) :
    Made (calls.map fun c => c.2.1) (Output.after m e calls) := by
  unfold Output.after
  suffices H : ∀ (o : Output) (past : List Context), Made past o →
      Made (past ++ calls.map fun c => c.2.1) (calls.foldl (fun o c => (o.step m e c).1) o) by
    have := H ⟨none⟩ [] (fun l hl => by simp at hl)
    simpa using this
  induction calls with
  | nil => intro o past ho; simpa using ho
  | cons c cs ih =>
    intro o past ho
    rw [List.foldl_cons]
    refine made_mono _ _ ?_ _ (ih _ (c.2.1 :: past) (step_made m e o past ho c))
    intro x hx
    simp only [List.cons_append, List.mem_cons, List.mem_append, List.map_cons] at hx ⊢
    tauto

/-- What a call returns does not depend on the calls before it, and a call is not refused because of them,
if with eager execution no call before was made in a graph, and, in a graph, no call before was made
with eager execution while the same graph was the default. -/
theorem earlier_calls_have_no_influence_partial (m : Meaning V Op) (e : Export Op)
    (calls : List (Call × Context × List (String × List V))) (call : Call) (ctx : Context)
    (given : List (String × List V))
    (hpast : ∀ c ∈ calls, (ctx.mode ≠ .graph → c.2.1.mode ≠ .graph) ∧
      (ctx.mode = .graph → c.2.1.graph = ctx.graph → c.2.1.mode = .graph)) :
    ((Output.after m e calls).step m e (call, ctx, given)).2 =
      if e.v1 then
        match call with
        | .layer => if ctx.mode = .graph then compatV1 m e.function ctx true given
            else computed (applyV1InV2 m e.function given)
        | .raw drop => compatV1 m e.function ctx drop given
      else computed (applyV2 m e.function given) := by
  have hM := after_made m e calls
  have hlayer : ¬ (e.v1 = true ∧ ctx.mode = .graph) →
      ((Output.after m e calls).callLayer m e ctx given).2 =
        computed (if e.v1 then applyV1InV2 m e.function given else applyV2 m e.function given) := by
    intro hv
    obtain ⟨made, h1, h2, h3⟩ := (callLayer_uses m e ctx _ _ hM given).2.2 hv
    rw [h2]
    unfold applyLoaded
    rw [if_pos]
    unfold usable
    have hmade : made = ctx ∨ ∃ c ∈ calls, c.2.1 = made := by
      rcases h1 with h | h
      · exact .inl h
      · obtain ⟨c, hc, he⟩ := List.mem_map.1 h
        exact .inr ⟨c, hc, he⟩
    by_cases hg : ctx.mode = .graph
    · rw [if_pos hg, decide_eq_true_iff]
      refine ⟨?_, h3 hg⟩
      rcases hmade with rfl | ⟨c, hc, rfl⟩
      · exact hg
      · exact (hpast c hc).2 hg (h3 hg)
    · rw [if_neg hg, decide_eq_true_iff]
      rcases hmade with rfl | ⟨c, hc, rfl⟩
      · exact hg
      · exact (hpast c hc).1 hg
  unfold Output.step
  cases call with
  | layer =>
    simp only
    by_cases hv : e.v1 = true
    · rw [if_pos hv]
      by_cases hg : ctx.mode = .graph
      · rw [if_pos hg, (callLayer_uses m e ctx _ _ hM given).2.1 hv hg]
      · rw [if_neg hg, hlayer (fun h => hg h.2), if_pos hv]
    · rw [if_neg hv, hlayer (fun h => hv h.1), if_neg hv]
  | raw drop =>
    simp only
    unfold Output.transformRaw
    by_cases hv : e.v1 = true
    · rw [if_pos hv, if_pos hv]
    · rw [if_neg hv, if_neg hv, hlayer (fun h => hv h.1), if_neg hv]

/-! ## Examples and limits -/

open Serving.Example (Val Oper meaning function function_wf serving_conforms both_conforms) in
/-- The function of a pipeline that trains with the label, and is served without: the batch of a worker
that was given the label, and a program that was not (with a TF1 SavedModel). -/
example : Applied Worker.Example.env ⟨function, true⟩ [("x", [.num 3])] "x_scaled" [.num 13] ∧
    Applied Worker.Example.env ⟨function, true⟩ [("x", [.num 3]), ("label", [.str "ab"])] "x_scaled"
      [.num 13] ∧
    WellFormed (⟨function, true⟩ : Export Oper).function ∧
    Conforms Worker.Example.env.meaning function [("x", [.num 3])] ∧
    Conforms Worker.Example.env.meaning function [("x", [.num 3]), ("label", [.str "ab"])] ∧
    Agree [("x", [Val.num 3])] [("x", [.num 3]), ("label", [.str "ab"])] := by
  refine ⟨?_, ?_, function_wf, serving_conforms, both_conforms, ?_⟩
  · exact .program [(.layer, ⟨.eager, 0⟩, [("x", [.num 8])])] .layer ⟨.function, 1⟩ _
      [("x_scaled", .ok [.num 13])] "x_scaled" _ rfl (by simp)
  · refine .pipeline [Worker.Example.first] (fun _ => "m1") _ _
      ⟨0, "m1", Worker.Example.batch,
        .ok [("x_scaled", .inl [Val.num 13]), ("id", .inr [Val.num 77])]⟩
      Worker.Example.first _ _ "x_scaled" [Val.num 13] (by decide)
      (.yield _ _ _ _ _ (.silent _ _ _ _ (.silent _ _ _ _ (.nil _)
        (.setup _ 0 (by decide)))
        (.acquire _ _ 0 _ Worker.Example.first Worker.Example.batch "m1" _ rfl rfl rfl rfl rfl rfl rfl))
        (.store _ 0 _ Worker.Example.first _ _ rfl rfl rfl rfl rfl))
      (by simp only [List.nil_append, List.mem_singleton]; rfl) rfl rfl (by decide)
      (fun _ _ _ _ => rfl) rfl ?_ rfl (by simp)
    intro k
    simp [Worker.Example.first]
  · intro k vs vs' h h'
    simp only [Prod.mk.injEq, List.mem_cons, List.not_mem_nil, or_false] at h h'
    rcases h' with h' | h'
    · rw [h.2, h'.2]
    · rw [h.1] at h'; simp at h'

open Serving.Example (Val Oper meaning function) in
/-- A `TFTransformOutput` that was used in a TF1 graph cannot be used with eager execution any more,
although a fresh one can: the cached layer keeps the function that was loaded into the graph. -/
theorem graph_use_spoils_eager_use :
    ((Output.after meaning ⟨function, false⟩ [(.raw true, ⟨.graph, 7⟩, [("x", [.num 3]),
        ("label", [.str "ab"])])]).step meaning ⟨function, false⟩
      (.raw true, ⟨.eager, 0⟩, [("x", [.num 3]), ("label", [.str "ab"])])).2
      = .error "ValueError: tensor from a different graph" ∧
    ((Output.after meaning ⟨function, false⟩ []).step meaning ⟨function, false⟩
      (.raw true, ⟨.eager, 0⟩, [("x", [.num 3]), ("label", [.str "ab"])])).2
      = .ok [("x_scaled", .ok [.num 13]), ("y", .ok [.num 5])] := ⟨rfl, rfl⟩

open Serving.Example (Val Oper meaning function) in
/-- Two graphs one after the other: the function is loaded again. -/
example : ((Output.after meaning ⟨function, false⟩ [(.raw true, ⟨.graph, 7⟩, [("x", [.num 3]),
        ("label", [.str "ab"])])]).step meaning ⟨function, false⟩
      (.layer, ⟨.graph, 8⟩, [("x", [.num 3]), ("label", [.str "ab"])])).2
      = .ok [("x_scaled", .ok [.num 13]), ("y", .ok [.num 5])] := rfl

open Serving.Example (Val Oper meaning function) in
/-- Without dropping unused features a TF1 SavedModel returns an output that cannot be computed. -/
example : ((Output.after meaning ⟨function, true⟩ []).step meaning ⟨function, true⟩
      (.raw false, ⟨.graph, 7⟩, [("x", [.num 3])])).2
      = .ok [("x_scaled", .ok [.num 13]),
        ("y", .error "InvalidArgumentError: placeholder without a value")] := rfl

/-- Columns of numbers, added row by row to a constant. -/
def columnMeaning : Meaning (List Nat ⊕ Nat) Unit :=
  { op := fun _ vs => match vs with
      | [.inl xs, .inr c] => .ok (.inl (xs.map (· + c)))
      | _ => .error "TypeError"
    captured := fun _ => .inr 10
    compatible := fun _ _ _ => true
    madeUp := fun n _ _ => .inl (List.replicate n 0)
    batchSize := fun vs => vs.length }

/-- The hypotheses on operations of `rows_are_transformed_as_in_other_batches` are met. -/
example : ActsByRows (fun v : List Nat ⊕ Nat => v.getLeft?) columnMeaning ∧
    (∀ n, (columnMeaning.captured n).getLeft? = none) ∧
    SameRow (fun v : List Nat ⊕ Nat => v.getLeft?) 2 0 (.inl [5, 6, 7]) (.inl [7]) := by
  refine ⟨?_, fun _ => rfl, 7, rfl, rfl⟩
  intro o i j args args' v v' hs h h'
  match hs with
  | .nil => simp [columnMeaning] at h
  | .cons _ .nil => simp [columnMeaning] at h
  | .cons _ (.cons _ (.cons _ _)) => simp [columnMeaning] at h
  | @List.Forall₂.cons _ _ _ a a' _ _ h1 (@List.Forall₂.cons _ _ _ b b' _ _ h2 .nil) =>
    rcases a with xs | n <;> rcases a' with xs' | n' <;> rcases b with ys | c <;>
      rcases b' with ys' | c' <;> simp [columnMeaning] at h h'
    subst h h'
    obtain ⟨r, hr, hr'⟩ := h1
    have hc : (Sum.inr c : List Nat ⊕ Nat) = .inr c' := h2
    rw [Sum.inr.injEq] at hc
    subst hc
    exact ⟨r + c, by simp [hr], by simp [hr']⟩

end TFT.OutputWrapper
