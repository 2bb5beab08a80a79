import Verif.Graph.OptimizeLabels
import Mathlib.Algebra.BigOperators.Group.List.Basic
import Mathlib.Data.Fin.VecNotation
import Mathlib.Tactic.FinCases

/-!
# Analyzers made of cacheable PTransforms, and graphs that the optimization cannot handle (C60)
-/

namespace TFT.Graph.Optimize

open TFT.Graph.CachePath TFT.Graph.Spec Optimize.Spec
open TFT.Coders (Bytes)

variable {Coll : Type}

/-- A `CacheablePTransformAnalyzer`, `experimental/analyzers.py:72-110`, with what the graph around
it does: `apply` is the SavedModel of phase 0, `select` takes the inputs of the analyzer from its
outputs. -/
structure PTransforms (Coll : Type) where
  flatten : List Coll → Coll
  model : Coll
  apply : Coll → Coll
  select : Coll → Coll
  make : Coll → Coll
  merge : Coll → Coll
  extract : Coll → Coll
  encode : Coll → Coll
  decode : Coll → Except Err Coll

namespace Spec

/-- What the documentation of `CacheablePTransformAnalyzer` demands:
`merge(make({D1, ..., Dn})) == merge({make(D1), ..., make(Dn)})`, and that merging is associative;
the cache coder is lossless. The SavedModel is applied to every batch by itself. -/
structure Lawful (t : PTransforms Coll) : Prop where
  apply : ∀ ds, t.apply (t.flatten ds) = t.flatten (ds.map t.apply)
  select : ∀ ds, t.select (t.flatten ds) = t.flatten (ds.map t.select)
  make : ∀ ds, t.merge (t.make (t.flatten ds)) = t.merge (t.flatten (ds.map t.make))
  merge : ∀ cs, t.merge (t.flatten (cs.map t.merge)) = t.merge (t.flatten cs)
  one : ∀ d, t.flatten [d] = d
  coder : ∀ a, t.decode (t.encode a) = .ok a

end Spec

/-- The graph of `ptransform_analyzer`, `experimental/analyzers.py:133-167`, after
`_TranslateVisitor`: `CreateSavedModel`, `ExtractInputForSavedModel`, `ApplySavedModel`,
`ExtractFromDict`, and the four `PTransform`s. -/
def ptGraph : OpGraph (Fin 8) where
  inputs := ![[], [], [(0, 0), (1, 0)], [(2, 0)], [(3, 0)], [(4, 0)], [(5, 0)], [(6, 0)]]
  numOutputs := fun _ => 1

/-- The classes of its operations. -/
def ptKind : Fin 8 → OpKind := ![.other, .extractInput, .applySavedModel 0, .other, .other, .other,
  .other, .other]

/-- Which of them are partitionable. -/
def ptPartitionable : Fin 8 → Bool := ![false, false, true, true, true, true, false, false]

/-- Which of them have a cache coder. -/
def ptCoder : Fin 8 → Bool := ![false, false, false, false, false, true, false, false]

/-- Its operations. -/
def ptInfo (label : Fin 8 → Bytes) (desc : Fin 8 → OpDef) (o : Fin 8) : OpInfo where
  label := label o
  kind := ptKind o
  isPartitionable := ptPartitionable o
  hasCoder := ptCoder o
  desc := desc o

/-- What they compute. -/
def PTransforms.meaning (t : PTransforms Coll) : Meaning (Fin 8) Coll where
  run o ins :=
    match o, ins with
    | 0, [] => .ok [t.model]
    | 2, [_, d] => .ok [t.apply d]
    | 3, [d] => .ok [t.select d]
    | 4, [d] => .ok [t.make d]
    | 5, [a] => .ok [t.merge a]
    | 6, [a] => .ok [t.merge a]
    | 7, [a] => .ok [t.extract a]
    | _, _ => .error "TypeError"
  flatten := t.flatten
  encode _ := t.encode
  decode _ := t.decode

/-- The configuration for it. -/
def ptConfig (Coll : Type) (label : Fin 8 → Bytes) (desc : Fin 8 → OpDef)
    (paths : String → Option (Option Bytes)) (sha1 : Bytes → Bytes) (version : Bytes) :
    Config (Fin 8) Coll where
  info := ptInfo label desc
  numOutputs := fun _ => 1
  keys := []
  cache := none
  paths := paths
  sha1 := sha1
  version := version

/-- The tensors that an operation reads have a known path. -/
def HasPaths (desc : OpDef) (paths : String → Option (Option Bytes)) : Prop :=
  ∃ ps, desc.parts paths = .ok ps ∧ ∀ p ∈ ps, p ≠ none

theorem pt_apply : ∀ {o : Fin 8}, ptKind o = .applySavedModel 0 → o = 2 := by decide

theorem pt_source : ∀ {o : Fin 8}, ptKind o = .extractInput → o = 1 := by decide

theorem pt_part : ∀ {o : Fin 8}, ptPartitionable o = true → o = 2 ∨ o = 3 ∨ o = 4 ∨ o = 5 := by
  decide

theorem pt_inputs : ∀ o : Fin 8, 2 ≤ (ptGraph.inputs o).length → ∀ n ∈ ptGraph.inputs o,
    ¬ (n.1 = 2 ∨ n.1 = 3 ∨ n.1 = 4 ∨ n.1 = 5) := by decide

theorem pt_next : ∀ o : Fin 8, ptPartitionable o = false → ∀ n ∈ ptGraph.inputs o,
    (n.1 = 2 ∨ n.1 = 3 ∨ n.1 = 4 ∨ n.1 = 5) → o = 6 := by decide

theorem pt_first {label : Fin 8 → Bytes} {desc : Fin 8 → OpDef} {o : Fin 8}
    (h : FirstPhase (ptInfo label desc) ptGraph o) : o = 2 ∨ o = 3 ∨ o = 4 ∨ o = 5 := by
  cases h with
  | apply h => exact Or.inl (pt_apply h)
  | step _ h _ _ => exact pt_part h

theorem pt_shape {label : Fin 8 → Bytes} {desc : Fin 8 → OpDef}
    {paths : String → Option (Option Bytes)} (sha1 : Bytes → Bytes) (version : Bytes)
    (hp : ∀ o, HasPaths (desc o) paths) :
    Shape (ptConfig Coll label desc paths sha1 version) ptGraph where
  wellFormed := by unfold WellFormed; decide
  numOutputs := rfl
  several := by
    intro o ho n hn hf
    exact pt_inputs o ho n hn (pt_first hf)
  source := by
    intro o h
    have : o = 1 := pt_source h
    subst this
    exact ⟨rfl, rfl, rfl⟩
  apply := by
    intro o h
    have : o = 2 := pt_apply h
    subst this
    exact ⟨0, 1, rfl, rfl, (by show ptKind 0 ≠ _; decide), rfl⟩
  applyPart := by
    intro o h
    have : o = 2 := pt_apply h
    subst this
    exact ⟨rfl, rfl⟩
  coder := (by decide : ∀ o, ptCoder o = true → ptPartitionable o = true)
  one := by intro o _; rfl
  inputs := (by decide : ∀ o, ptPartitionable o = true → ptGraph.inputs o ≠ [])
  paths := by
    intro o _
    obtain ⟨ps, h1, h2⟩ := hp o
    exact ⟨ps, h1, fun _ => h2⟩

theorem out_iff {m : Meaning (Fin 8) Coll} {o : Fin 8} {ins : List Coll} {y x : Coll}
    (h : m.run o ins = .ok [y]) : Out m o ins 0 x ↔ x = y := by
  constructor
  · rintro ⟨outs, h1, h2⟩
    rw [h] at h1
    cases h1
    simpa using h2.symm
  · rintro rfl
    exact ⟨_, h, rfl⟩

/-- When collections are equivalent as outputs of the operations: equal before the accumulators are
made, and with the same merged accumulators afterwards. -/
def PTransforms.Equivalent (t : PTransforms Coll) (o : Fin 8) (a b : Coll) : Prop :=
  if o = 4 ∨ o = 5 then t.merge a = t.merge b else a = b

theorem forall₂_self_map {α β : Type} {A : α → β → Prop} {f : α → β} (h : ∀ a, A a (f a)) :
    ∀ l : List α, List.Forall₂ A l (l.map f)
  | [] => .nil
  | a :: l => .cons (h a) (forall₂_self_map h l)

theorem pt_contract {label : Fin 8 → Bytes} {desc : Fin 8 → OpDef}
    {paths : String → Option (Option Bytes)} {sha1 : Bytes → Bytes} {version : Bytes}
    {t : PTransforms Coll} (ht : Lawful t) :
    Contract (ptConfig Coll label desc paths sha1 version) ptGraph t.meaning t.Equivalent where
  apply := by
    intro o model parts x h _ hx
    have : o = 2 := pt_apply h
    subst this
    have hrun : ∀ d, t.meaning.run 2 [model, d] = .ok [t.apply d] := fun _ => rfl
    rw [out_iff (hrun _)] at hx
    refine ⟨parts.map t.apply, forall₂_self_map (fun a => (out_iff (hrun a)).2 rfl) parts, ?_⟩
    rw [hx]
    exact ht.apply parts
  step := by
    intro o n all parts x hf hk hin _ hR hx
    rcases pt_first hf with rfl | rfl | rfl | rfl
    · exact absurd rfl hk
    · have hn : n = (2, 0) := by
        have : ptGraph.inputs 3 = [(2, 0)] := rfl
        rw [this] at hin; cases hin; rfl
      subst hn
      have hrun : ∀ d, t.meaning.run 3 [d] = .ok [t.select d] := fun _ => rfl
      rw [out_iff (hrun _)] at hx
      refine ⟨parts.map t.select, forall₂_self_map (fun a => (out_iff (hrun a)).2 rfl) parts, ?_⟩
      have hR' : all = t.flatten parts := by
        simpa [PTransforms.Equivalent, PTransforms.meaning] using hR
      rw [hx, hR']
      exact ht.select parts
    · have hn : n = (3, 0) := by
        have : ptGraph.inputs 4 = [(3, 0)] := rfl
        rw [this] at hin; cases hin; rfl
      subst hn
      have hrun : ∀ d, t.meaning.run 4 [d] = .ok [t.make d] := fun _ => rfl
      rw [out_iff (hrun _)] at hx
      refine ⟨parts.map t.make, forall₂_self_map (fun a => (out_iff (hrun a)).2 rfl) parts, ?_⟩
      have hR' : all = t.flatten parts := by
        simpa [PTransforms.Equivalent, PTransforms.meaning] using hR
      rw [hx, hR']
      exact ht.make parts
    · have hn : n = (4, 0) := by
        have : ptGraph.inputs 5 = [(4, 0)] := rfl
        rw [this] at hin; cases hin; rfl
      subst hn
      have hrun : ∀ d, t.meaning.run 5 [d] = .ok [t.merge d] := fun _ => rfl
      rw [out_iff (hrun _)] at hx
      refine ⟨parts.map t.merge, forall₂_self_map (fun a => (out_iff (hrun a)).2 rfl) parts, ?_⟩
      have hR' : t.merge all = t.merge (t.flatten parts) := by
        simpa [PTransforms.Equivalent, PTransforms.meaning] using hR
      have h1 := ht.merge [all]
      simp only [List.map_cons, List.map_nil, ht.one] at h1
      show t.merge x = t.merge (t.flatten (parts.map t.merge))
      rw [hx, h1, hR']
      exact (ht.merge parts).symm
  next := by
    intro o n a b outs hp hin hf hR hrun
    have ho : o = 6 := pt_next o hp n (by rw [hin]; simp) (pt_first hf)
    subst ho
    have hn : n = (5, 0) := by
      have : ptGraph.inputs 6 = [(5, 0)] := rfl
      rw [this] at hin; cases hin; rfl
    subst hn
    have hR' : t.merge a = t.merge b := by simpa [PTransforms.Equivalent] using hR
    rw [← hrun]
    show Except.ok [t.merge b] = Except.ok [t.merge a]
    rw [hR']

theorem pt_acyclic (o : Fin 8) : ¬ OnCycle ptGraph o := by
  have hdep : ∀ a b, Dep ptGraph a b → b < a := by
    rintro a b ⟨i, hi⟩
    have : ∀ a : Fin 8, ∀ n ∈ ptGraph.inputs a, n.1 < a := by decide
    exact this a _ hi
  have : ∀ a b, Relation.TransGen (Dep ptGraph) a b → b < a := by
    intro a b h
    induction h with
    | single h => exact hdep _ _ h
    | tail _ h ih => exact lt_trans (hdep _ _ h) ih
  exact fun h => lt_irrefl _ (this _ _ h)

theorem pt_value_local (t : PTransforms Coll) (label : Fin 8 → Bytes) (desc : Fin 8 → OpDef)
    (all : Coll) :
    Value t.meaning (ptInfo label desc) ptGraph all (5, 0)
      (t.merge (t.make (t.select (t.apply all)))) := by
  have hk : ∀ o : Fin 8, o ≠ 1 → (ptInfo label desc o).kind ≠ .extractInput :=
    fun o ho h => ho (pt_source h)
  have h0 : Value t.meaning (ptInfo label desc) ptGraph all (0, 0) t.model :=
    .op (hk 0 (by decide)) (by show List.Forall₂ _ [] []; exact .nil) ⟨_, rfl, rfl⟩
  have h1 : Value t.meaning (ptInfo label desc) ptGraph all (1, 0) all := .source rfl
  have h2 : Value t.meaning (ptInfo label desc) ptGraph all (2, 0) (t.apply all) :=
    .op (ins := [t.model, all]) (hk 2 (by decide)) (.cons h0 (.cons h1 .nil)) ⟨_, rfl, rfl⟩
  have h3 : Value t.meaning (ptInfo label desc) ptGraph all (3, 0) (t.select (t.apply all)) :=
    .op (ins := [_]) (hk 3 (by decide)) (.cons h2 .nil) ⟨_, rfl, rfl⟩
  have h4 : Value t.meaning (ptInfo label desc) ptGraph all (4, 0) (t.make (t.select (t.apply all))) :=
    .op (ins := [_]) (hk 4 (by decide)) (.cons h3 .nil) ⟨_, rfl, rfl⟩
  exact .op (ins := [_]) (hk 5 (by decide)) (.cons h4 .nil) ⟨_, rfl, rfl⟩

theorem pt_value (t : PTransforms Coll) (label : Fin 8 → Bytes) (desc : Fin 8 → OpDef) (all : Coll) :
    Value t.meaning (ptInfo label desc) ptGraph all (7, 0)
      (t.extract (t.merge (t.merge (t.make (t.select (t.apply all)))))) := by
  have hk : ∀ o : Fin 8, o ≠ 1 → (ptInfo label desc o).kind ≠ .extractInput :=
    fun o ho h => ho (pt_source h)
  have h6 : Value t.meaning (ptInfo label desc) ptGraph all (6, 0)
      (t.merge (t.merge (t.make (t.select (t.apply all))))) :=
    .op (ins := [_]) (hk 6 (by decide)) (.cons (pt_value_local t label desc all) .nil) ⟨_, rfl, rfl⟩
  exact .op (ins := [_]) (hk 7 (by decide)) (.cons h6 .nil) ⟨_, rfl, rfl⟩

/-- Operations of the first phase have a path. -/
theorem first_has_path {Op : Type} {c : Config Op Coll} {g : OpGraph Op} (hs : Shape c g) {o : Op}
    (h : FirstPhase c.info g o) : ∃ q, PathOf c g o q := by
  induction h with
  | apply h => exact ⟨_, .apply h⟩
  | @step o n hk hp hin hf ih =>
    obtain ⟨p, hpo⟩ := ih
    obtain ⟨ps, hps, hsome⟩ := hs.paths o hp
    refine ⟨c.sha1 (([some p] ++ ps).filterMap id).flatten, .step hk hp hin hpo ?_⟩
    have : ([some p] ++ ps).any (fun p => p.isNone) = false := by
      rw [List.any_eq_false]
      intro x hx
      rcases List.mem_append.1 hx with hx | hx
      · simp at hx; subst hx; simp
      · have := hsome (.step hk hp hin hf) x hx
        cases x with
        | none => exact absurd rfl this
        | some y => simp
    simp only [nextHashedPath, hps, bind, Except.bind, this]
    simp

theorem pt_covered (label : Fin 8 → Bytes) (desc : Fin 8 → OpDef) :
    Covered (ptInfo label desc) ptGraph 7 := by
  have h2 : FirstPhase (ptInfo label desc) ptGraph 2 := .apply rfl
  have h3 : FirstPhase (ptInfo label desc) ptGraph 3 :=
    .step (n := (2, 0)) (by show ptKind 3 ≠ _; decide) rfl rfl h2
  have h4 : FirstPhase (ptInfo label desc) ptGraph 4 :=
    .step (n := (3, 0)) (by show ptKind 4 ≠ _; decide) rfl rfl h3
  have h5 : FirstPhase (ptInfo label desc) ptGraph 5 :=
    .step (n := (4, 0)) (by show ptKind 5 ≠ _; decide) rfl rfl h4
  have n6 : ¬ FirstPhase (ptInfo label desc) ptGraph 6 := fun h => by
    have := pt_first h; revert this; decide
  have n7 : ¬ FirstPhase (ptInfo label desc) ptGraph 7 := fun h => by
    have := pt_first h; revert this; decide
  refine .op (by show ptKind 7 ≠ _; decide) n7 ?_
  intro n hn _
  have hn' : n = (6, 0) := by
    have : ptGraph.inputs 7 = [(6, 0)] := rfl
    rw [this] at hn; simpa using hn
  subst hn'
  refine .op (by show ptKind 6 ≠ _; decide) n6 ?_
  intro n hn h
  have hn' : n = (5, 0) := by
    have : ptGraph.inputs 6 = [(5, 0)] := rfl
    rw [this] at hn; simpa using hn
  subst hn'
  exact absurd (.here h5 rfl) h

/-- **C60.** An analyzer made of a `CacheablePTransformAnalyzer` that satisfies its documented
conditions: whatever runs the cache comes from, the analysis of any datasets gives
`extract(merge(make(inputs)))` of the whole data. -/
theorem cacheable_ptransform_analyzer {t : PTransforms Coll} (ht : Lawful t)
    {label : Fin 8 → Bytes} (hlabel : Function.Injective label) {desc : Fin 8 → OpDef}
    {paths : String → Option (Option Bytes)} (hp : ∀ o, HasPaths (desc o) paths)
    {sha1 : Bytes → Bytes} (hsha : ∀ a b, (sha1 a).length = (sha1 b).length) {version : Bytes}
    {env : DatasetKey → Coll} {cache : DatasetKey → Bytes → Option Coll}
    (hb : Built (ptConfig Coll label desc paths sha1 version) ptGraph t.meaning env (7, 0) cache)
    {keys : List DatasetKey} (hnd : keys.Nodup) :
    ∃ node ws, ((ptConfig Coll label desc paths sha1 version).on keys cache).optimize ptGraph (7, 0)
        = .ok (node, ws) ∧
      node.eval t.meaning (ptInfo label desc) (t.flatten (keys.map env)) env cache
        = .ok (t.extract (t.merge (t.make (t.select (t.apply (t.flatten (keys.map env))))))) := by
  have hm : ∀ x, t.merge (t.merge x) = t.merge x := by
    intro x
    have := ht.merge [x]
    simpa [ht.one] using this
  rw [← hm]
  exact analysis_after_any_history (pt_shape sha1 version hp) (pt_contract ht)
    ⟨fun _ _ h => hlabel h, hsha, fun _ a _ => ht.coder a⟩ (fun o _ => pt_acyclic o) (by decide) hb hnd
    (pt_value t label desc _)

/-! ### Graphs that cannot be optimized -/

/-- **C60 (finding).** A partitionable operation with more than one output makes every analysis
fail, with or without a cache. So `ptransform_analyzer` fails for every
`CacheablePTransformAnalyzer` that has two or more outputs: the number of outputs of
`make_accumulators` is that of the analyzer. -/
theorem partitionable_with_several_outputs_fails {Op : Type} [DecidableEq Op] [Fintype Op]
    {c : Config Op Coll} {g : OpGraph Op} (hw : WellFormed g) (hn : c.numOutputs = g.numOutputs)
    {target : Op × Nat} (ht : target.2 < g.numOutputs target.1) {o : Op}
    (hr : Reach g target.1 o) (hp : (c.info o).isPartitionable = true) (ho : g.numOutputs o ≠ 1) :
    ∃ e, c.optimize g target = .error e := by
  cases h : c.optimize g target with
  | error e => exact ⟨e, rfl⟩
  | ok r =>
    exfalso
    unfold Config.optimize at h
    obtain ⟨⟨st, views⟩, h1, _⟩ := bind_ok_iff.1 h
    obtain ⟨hproper, hs2, _⟩ := traverse_spec g hw c.visitor [target] (by simpa using ht) st _ h1
    obtain ⟨call, hcall, rfl⟩ := (hs2 o).2 ⟨target, by simp, hr⟩
    have hvisit : ∀ calls : List (Call Op (View Op)), Proper g c.visitor calls →
        ∀ call ∈ calls, ∃ outs, c.visit call.op call.ins = .ok outs := by
      intro calls hpr
      induction hpr with
      | nil => simp
      | @snoc calls op ins outs _ _ _ hv _ ih =>
        intro call hcall
        rcases List.mem_append.1 hcall with hcall | hcall
        · exact ih call hcall
        · have := List.mem_singleton.1 hcall
          subst this
          cases hvv : c.visit op ins with
          | ok r => exact ⟨r, rfl⟩
          | error e => simp [Config.visitor, hvv, Except.map] at hv
    obtain ⟨outs, hv⟩ := hvisit _ hproper call hcall
    have hbad : ∃ e, c.validateDef call.op = .error e := by
      unfold Config.validateDef
      cases hcd : (c.info call.op).hasCoder <;> simp [hp, hn, ho]
    obtain ⟨e, hbad⟩ := hbad
    simp [Config.visit, hbad, bind, Except.bind] at hv

/-- **C60 (finding, latent).** An operation that is not partitionable and has two inputs that prefer
their fine grained views is given a single input, which mixes the two. No analyzer of the library has
such an operation (`Shape.several`). -/
theorem two_preferring_inputs_become_one {Op : Type} {c : Config Op Coll} {o : Op}
    (hd : c.validateDef o = .ok ()) (hk : (c.info o).kind ≠ .applySavedModel 0)
    (hp : (c.info o).isPartitionable = false) {v w : View Op}
    {f f' : List (DatasetKey × Node Op)} (hv : v.prefer = true) (hf : v.fine = some f) (hne : f ≠ [])
    (hf' : w.fine = some f') :
    ∃ vs, c.visit o [v, w] = .ok (vs, []) ∧ ∀ x ∈ vs, ∃ i, x.flat
      = .op o none [.flatten o (f.map Prod.snd ++ f'.map Prod.snd)] i := by
  have ht : truthy (some f) = true := by
    cases f with
    | nil => exact absurd rfl hne
    | cons a l => rfl
  refine ⟨(c.outputs o [.flatten o (f.map Prod.snd ++ f'.map Prod.snd)]).map
      (fun n => ⟨false, n, none, none⟩), ?_, ?_⟩
  · simp [Config.visit, hd, hk, hp, nextInputs, hv, hf, hf', ht, fineValues, seqExcept, bind,
      Except.bind]
  · intro x hx
    obtain ⟨n, hn, rfl⟩ := List.mem_map.1 hx
    obtain ⟨i, hi⟩ := List.getElem?_of_mem hn
    exact ⟨i, (outputs_get hi).1⟩

/-! ### Examples -/

namespace Example

/-- Sums as a cacheable analyzer: batches are flattened, `make` adds up, `merge` adds up. -/
def sums : PTransforms (List Int) where
  flatten := List.flatten
  model := []
  apply := List.map (fun x => 2 * x)
  select := id
  make d := [d.sum]
  merge a := [a.sum]
  extract a := a.map (fun x => x + 1)
  encode a := a.map (fun x => x + 5)
  decode e := .ok (e.map (fun x => x - 5))

theorem sum_sums (ls : List (List Int)) : (ls.map (fun d => [d.sum])).flatten.sum = ls.flatten.sum := by
  induction ls with
  | nil => rfl
  | cons d ls ih => simp only [List.map_cons, List.flatten_cons, List.sum_append, ih]; simp

theorem sums_lawful : Lawful sums where
  apply ds := by simp [sums, List.map_flatten]
  select ds := by simp [sums]
  make ds := by
    show [[ds.flatten.sum].sum] = [(ds.map (fun d => [d.sum])).flatten.sum]
    rw [sum_sums]; simp
  merge cs := by
    show [(cs.map (fun d => [d.sum])).flatten.sum] = [cs.flatten.sum]
    rw [sum_sums]
  one d := by simp [sums]
  coder a := by
    have : ((fun x : Int => x - 5) ∘ fun x => x + 5) = id := by funext x; simp
    simp [sums, this]

def label (o : Fin 8) : Bytes := [⟨o.val, by omega⟩]

theorem label_injective : Function.Injective label := by
  intro a b h
  simp only [label, List.cons.injEq, Fin.mk.injEq, and_true] at h
  exact Fin.ext h

def desc (o : Fin 8) : OpDef := ⟨label o, if o = 3 then some ["x"] else none, [], [[1]]⟩

def paths (k : String) : Option (Option Bytes) := if k = "x" then some (some [9]) else none

theorem has_paths (o : Fin 8) : HasPaths (desc o) paths := by
  unfold HasPaths
  fin_cases o
  case «3» =>
    refine ⟨[some (label 3), some [9]], ?_, by simp⟩
    simp [desc, OpDef.parts, pathOf, paths, seqExcept, bind, Except.bind]
  all_goals exact ⟨_, rfl, by simp [desc]⟩

def sha (b : Bytes) : Bytes := [b.foldr (fun x acc => x + acc) 0]

def conf : Config (Fin 8) (List Int) := ptConfig _ label desc paths sha [100]

def d1 : DatasetKey := ⟨"a", true⟩
def d2 : DatasetKey := ⟨"b", true⟩

def data (k : DatasetKey) : List Int := if k = d1 then [1, 2] else [3]

/-- A first run on one dataset, all of whose writes are kept, and then a run on both. -/
example : ∃ cache, Built conf ptGraph sums.meaning data (7, 0) cache ∧
    (∃ k key, cache k key ≠ none) ∧
    ∃ node ws, (conf.on [d1, d2] cache).optimize ptGraph (7, 0) = .ok (node, ws) ∧
      node.eval sums.meaning (ptInfo label desc) [1, 2, 3] data cache = .ok [13] := by
  have hnd : [d1].Nodup := by simp
  have hrun : Run (conf.on [d1] (fun _ _ => none)) ptGraph sums.meaning sums.Equivalent data (7, 0) :=
    ⟨on_shape (pt_shape sha [100] has_paths) _ _, on_contract (pt_contract sums_lawful) _ _,
      (by intro o k key e p _ _ _ h; cases h), hnd, fun o _ => pt_acyclic o, by decide⟩
  have hval := pt_value sums label desc (sums.flatten ([d1].map data))
  obtain ⟨node, ws, h1, h2, h3⟩ := written_entries hrun (by simp [Config.on]) hval
  -- the entry of `d1`
  have h5 : FirstPhase (ptInfo label desc) ptGraph 5 := by
    refine .step (n := (4, 0)) (by show ptKind 5 ≠ _; decide) rfl rfl ?_
    refine .step (n := (3, 0)) (by show ptKind 4 ≠ _; decide) rfl rfl ?_
    refine .step (n := (2, 0)) (by show ptKind 3 ≠ _; decide) rfl rfl ?_
    exact .apply rfl
  have hdep : ∀ a b : Fin 8, (b, 0) ∈ ptGraph.inputs a → Dep ptGraph a b := fun a b h => ⟨0, h⟩
  have hreach : Reach ptGraph 7 5 :=
    .head (hdep 7 6 (by decide)) (.head (hdep 6 5 (by decide)) .refl)
  obtain ⟨q, hq⟩ := first_has_path (c := conf) (pt_shape sha [100] has_paths) h5
  have hkey : KeyOf conf ptGraph 5 ([100] ++ (label 5 ++ [45] ++ q)) := ⟨q, hq, rfl⟩
  obtain ⟨n, hn⟩ := h3 5 d1 _ hreach h5 rfl (on_key.2 hkey) (by simp [Config.on]) rfl rfl
  obtain ⟨_, _, _, o, p, _, _, _, _, _, hev⟩ := h2 d1 _ n hn
  have hb : Built conf ptGraph sums.meaning data (7, 0)
      (fun k key => if k = d1 ∧ key = [100] ++ (label 5 ++ [45] ++ q) then some (sums.meaning.encode o p)
        else none) := by
    refine .run .empty hnd hval h1 ?_
    intro k key e he
    by_cases hk : k = d1 ∧ key = [100] ++ (label 5 ++ [45] ++ q)
    · rw [if_pos hk] at he
      cases he
      obtain ⟨rfl, rfl⟩ := hk
      exact Or.inr ⟨n, hn, hev⟩
    · rw [if_neg hk] at he
      cases he
  refine ⟨_, hb, ⟨d1, [100] ++ (label 5 ++ [45] ++ q), by simp⟩, ?_⟩
  obtain ⟨node, ws, h6, h7⟩ := cacheable_ptransform_analyzer sums_lawful label_injective has_paths
    (fun _ _ => rfl) hb (keys := [d1, d2]) (by decide)
  exact ⟨node, ws, h6, h7⟩

/-- With its entry in the cache, a dataset is not required; the other one is. -/
def entryOfD1 (k : DatasetKey) (_ : Bytes) : Option (List Int) := if k = d1 then some [11] else none

example : ∃ node ws, (conf.on [d1, d2] entryOfD1).optimize ptGraph (7, 0) = .ok (node, ws) ∧
    ∀ k ∈ (conf.on [d1, d2] entryOfD1).requiredKeys node, k = d2 := by
  have hrun : Run (conf.on [d1, d2] entryOfD1) ptGraph sums.meaning sums.Equivalent data (7, 0) := by
    refine ⟨on_shape (pt_shape sha [100] has_paths) _ _, on_contract (pt_contract sums_lawful) _ _,
      ?_, (by show [d1, d2].Nodup; decide), fun o _ => pt_acyclic o, by decide⟩
    intro o k key e p hf hcd hkey he hp
    have ho : o = 5 := by
      have : ∀ o : Fin 8, ptCoder o = true → o = 5 := by decide
      exact this o hcd
    subst ho
    by_cases hk : k = d1
    · subst hk
      have he' : e = [11] := by
        have : some [11] = some e := he
        cases this; rfl
      have := value_unique (c := conf) (pt_shape sha [100] has_paths) hf
        (pt_value_local sums label desc (data d1)) hp
      subst this
      subst he'
      rfl
    · have : (none : Option (List Int)) = some e := by
        rw [← he]; simp [entries, Config.on, entryOfD1, hk]
      cases this
  obtain ⟨node, ws, h1, h2⟩ := fully_cached_datasets_are_not_required hrun (by simp [Config.on])
    (by simp [Config.on]) (pt_covered label desc)
  refine ⟨node, ws, h1, ?_⟩
  intro k hk
  obtain ⟨h3, h4⟩ := h2 k hk
  have h3' : k = d1 ∨ k = d2 := by simpa [Config.on] using h3
  rcases h3' with rfl | rfl
  · exact absurd (fun o key _ _ _ _ => ⟨_, _, rfl, rfl⟩) h4
  · rfl

/-- The hypotheses of `labels_are_unique`: a run that writes an entry for each of two datasets. -/
example : ∃ node ws, (conf.on [d1, d2] (fun _ _ => none)).optimize ptGraph (7, 0) = .ok (node, ws) ∧
    ∃ w1 ∈ ws, ∃ w2 ∈ ws, w1.1.1 = d1 ∧ w2.1.1 = d2 ∧
      ∀ s t, Sub s w1.2 → Sub t w2.2 → s.label = t.label → SameOperation s t := by
  have hrun : Run (conf.on [d1, d2] (fun _ _ => none)) ptGraph sums.meaning sums.Equivalent data
      (7, 0) :=
    ⟨on_shape (pt_shape sha [100] has_paths) _ _, on_contract (pt_contract sums_lawful) _ _,
      (by intro o k key e p _ _ _ h; cases h), (by show [d1, d2].Nodup; decide),
      fun o _ => pt_acyclic o, by decide⟩
  obtain ⟨node, ws, h1, _, h3⟩ := written_entries hrun (by simp [Config.on])
    (pt_value sums label desc (sums.flatten ([d1, d2].map data)))
  have h5 : FirstPhase (ptInfo label desc) ptGraph 5 := by
    refine .step (n := (4, 0)) (by show ptKind 5 ≠ _; decide) rfl rfl ?_
    refine .step (n := (3, 0)) (by show ptKind 4 ≠ _; decide) rfl rfl ?_
    refine .step (n := (2, 0)) (by show ptKind 3 ≠ _; decide) rfl rfl ?_
    exact .apply rfl
  have hdep : ∀ a b : Fin 8, (b, 0) ∈ ptGraph.inputs a → Dep ptGraph a b := fun a b h => ⟨0, h⟩
  have hreach : Reach ptGraph 7 5 :=
    .head (hdep 7 6 (by decide)) (.head (hdep 6 5 (by decide)) .refl)
  obtain ⟨q, hq⟩ := first_has_path (c := conf) (pt_shape sha [100] has_paths) h5
  have hkey : KeyOf conf ptGraph 5 ([100] ++ (label 5 ++ [45] ++ q)) := ⟨q, hq, rfl⟩
  obtain ⟨n1, hn1⟩ := h3 5 d1 _ hreach h5 rfl (on_key.2 hkey) (by simp [Config.on]) rfl rfl
  obtain ⟨n2, hn2⟩ := h3 5 d2 _ hreach h5 rfl (on_key.2 hkey) (by simp [Config.on]) rfl rfl
  refine ⟨node, ws, h1, _, hn1, _, hn2, rfl, rfl, ?_⟩
  intro s t hs ht hl
  exact labels_are_unique (by unfold WellFormed; decide) (by decide) h1 (Or.inr ⟨_, hn1, hs⟩)
    (Or.inr ⟨_, hn2, ht⟩) hl

/-- Two inputs that prefer their fine grained views. -/
example : ∃ vs, conf.visit 6 [⟨true, .op 4 none [] 0, some [(d1, .op 4 (some 0) [] 0)], none⟩,
      ⟨true, .op 5 none [] 0, some [(d1, .op 5 (some 0) [] 0)], none⟩] = .ok (vs, []) ∧
    ∀ x ∈ vs, ∃ i, x.flat = .op 6 none [.flatten 6 [.op 4 (some 0) [] 0, .op 5 (some 0) [] 0]] i :=
  two_preferring_inputs_become_one (c := conf) (o := 6) (f := [(d1, .op 4 (some 0) [] 0)])
    (f' := [(d1, .op 5 (some 0) [] 0)]) rfl (by show ptKind 6 ≠ _; decide) rfl rfl rfl (by simp) rfl

/-- Two outputs: the analysis fails even without a cache. -/
example : ∃ e, ({ conf with numOutputs := fun o => if o = 4 then 2 else 1 }
    : Config (Fin 8) (List Int)).optimize
      { ptGraph with numOutputs := fun o => if o = 4 then 2 else 1 } (7, 0) = .error e := by
  refine partitionable_with_several_outputs_fails (o := 4) ?_ rfl (by decide) ?_ rfl (by decide)
  · unfold WellFormed; decide
  · have hdep : ∀ a b : Fin 8, (b, 0) ∈ ptGraph.inputs a →
        Dep { ptGraph with numOutputs := fun o => if o = 4 then 2 else 1 } a b := fun a b h => ⟨0, h⟩
    exact .head (hdep 7 6 (by decide)) (.head (hdep 6 5 (by decide)) (.head (hdep 5 4 (by decide)) .refl))

end Example

end TFT.Graph.Optimize
