import Verif.Graph.Optimize
import Verif.Graph.TraverseInv
import Verif.Combine.PackedLemmas

/-!
# Properties of the cache optimization of the analysis graph (C60)
-/

set_option linter.unusedSectionVars false

namespace TFT.Graph.Optimize

open TFT.Graph.CachePath TFT.Graph.Spec
open TFT.Coders (Bytes)

variable {Op Coll : Type}

namespace Spec

/-- Output `i` of operation `o` applied to `ins` is `x`. -/
def Out (m : Meaning Op Coll) (o : Op) (ins : List Coll) (i : Nat) (x : Coll) : Prop :=
  ∃ outs, m.run o ins = .ok outs ∧ outs[i]? = some x

/-- What the analysis graph, as the user's `preprocessing_fn` defines it, computes on the data
`all`: every operation is applied to what its inputs are. -/
inductive Value (m : Meaning Op Coll) (info : Op → OpInfo) (g : OpGraph Op) (all : Coll) :
    Op × Nat → Coll → Prop where
  | source {o} : (info o).kind = .extractInput → Value m info g all (o, 0) all
  | op {o i ins x} : (info o).kind ≠ .extractInput →
      List.Forall₂ (Value m info g all) (g.inputs o) ins → Out m o ins i x →
      Value m info g all (o, i) x

/-- The operations that work on the tensors of the first phase dataset by dataset: the
application of the SavedModel of phase 0 and, after it, partitionable operations. -/
inductive FirstPhase (info : Op → OpInfo) (g : OpGraph Op) : Op → Prop where
  | apply {o} : (info o).kind = .applySavedModel 0 → FirstPhase info g o
  | step {o n} : (info o).kind ≠ .applySavedModel 0 → (info o).isPartitionable = true →
      g.inputs o = [n] → FirstPhase info g n.1 → FirstPhase info g o

/-- The hashed path of an operation of the first phase. -/
inductive PathOf (c : Config Op Coll) (g : OpGraph Op) : Op → Bytes → Prop where
  | apply {o} : (c.info o).kind = .applySavedModel 0 → PathOf c g o applySavedModelPath
  | step {o n p q} : (c.info o).kind ≠ .applySavedModel 0 → (c.info o).isPartitionable = true →
      g.inputs o = [n] → PathOf c g n.1 p →
      nextHashedPath c.sha1 [some p] (c.info o).desc c.paths = .ok (some q) → PathOf c g o q

/-- The key under which the output of an operation is cached. -/
def KeyOf (c : Config Op Coll) (g : OpGraph Op) (o : Op) (key : Bytes) : Prop :=
  ∃ p, PathOf c g o p ∧ cacheEntryKey c.version (c.info o).label (some p) = .ok key

/-- The graphs that `build` makes (`beam/analysis_graph_builder.py:690-776`). Operations with
several inputs are `CreateSavedModel`, `ApplySavedModel`, `FlattenLists` and
`VocabularyOrderAndWrite`: their inputs are tensor bindings, SavedModels, the input data, and
vocabularies and reserved tokens, which come after operations that are not partitionable. The SavedModel of phase 0 has no
tensor bindings. `paths`: the tensors that operations read have a known path if they can be computed
in the first phase (`first_phase_tensors_have_paths`). -/
structure Shape (c : Config Op Coll) (g : OpGraph Op) : Prop where
  wellFormed : WellFormed g
  numOutputs : c.numOutputs = g.numOutputs
  several : ∀ o, 2 ≤ (g.inputs o).length → ∀ n ∈ g.inputs o, ¬ FirstPhase c.info g n.1
  source : ∀ o, (c.info o).kind = .extractInput →
    (c.info o).isPartitionable = false ∧ g.inputs o = [] ∧ g.numOutputs o = 1
  apply : ∀ o, (c.info o).kind = .applySavedModel 0 → ∃ model input,
    g.inputs o = [(model, 0), (input, 0)] ∧ g.inputs model = [] ∧
    (c.info model).kind ≠ .extractInput ∧ (c.info input).kind = .extractInput
  applyPart : ∀ o, (c.info o).kind = .applySavedModel 0 →
    (c.info o).isPartitionable = true ∧ (c.info o).hasCoder = false
  coder : ∀ o, (c.info o).hasCoder = true → (c.info o).isPartitionable = true
  one : ∀ o, (c.info o).isPartitionable = true → g.numOutputs o = 1
  inputs : ∀ o, (c.info o).isPartitionable = true → g.inputs o ≠ []
  paths : ∀ o, (c.info o).isPartitionable = true → ∃ ps, (c.info o).desc.parts c.paths = .ok ps ∧
    (FirstPhase c.info g o → ∀ p ∈ ps, p ≠ none)

/-- The contract of `is_partitionable` (`nodes.py:60-74`): "partitioning the data, running this
operation on each of the data subsets independently, and then having the next operation get the
flattened results as inputs would be equivalent to running this operation on the entire data and
passing the result to the next operation". `R o c d` says that collections `c` and `d` are
equivalent as outputs of `o` for the next operation: a partitionable operation can be run on the
parts of a collection equivalent to its input, and gives parts of a collection equivalent to its
output (`step`; `apply` is the same for the SavedModel of phase 0, whose parts get the same
SavedModel); any other operation gives the same results (`next`). -/
structure Contract (c : Config Op Coll) (g : OpGraph Op) (m : Meaning Op Coll)
    (R : Op → Coll → Coll → Prop) : Prop where
  apply : ∀ o model parts x, (c.info o).kind = .applySavedModel 0 → parts ≠ [] →
    Out m o [model, m.flatten parts] 0 x →
    ∃ xs, List.Forall₂ (fun p y => Out m o [model, p] 0 y) parts xs ∧ R o x (m.flatten xs)
  step : ∀ o n all parts x, FirstPhase c.info g o → (c.info o).kind ≠ .applySavedModel 0 →
    g.inputs o = [n] → parts ≠ [] → R n.1 all (m.flatten parts) → Out m o [all] 0 x →
    ∃ xs, List.Forall₂ (fun p y => Out m o [p] 0 y) parts xs ∧ R o x (m.flatten xs)
  next : ∀ o n a b outs, (c.info o).isPartitionable = false → g.inputs o = [n] →
    FirstPhase c.info g n.1 → R n.1 a b → m.run o [a] = .ok outs → m.run o [b] = .ok outs

/-- An entry that the optimization may read holds what the operation computes on that dataset
alone. -/
def GoodCache (c : Config Op Coll) (g : OpGraph Op) (m : Meaning Op Coll)
    (env : DatasetKey → Coll) (cache : DatasetKey → Bytes → Option Coll) : Prop :=
  ∀ o k key e p, FirstPhase c.info g o → (c.info o).hasCoder = true → KeyOf c g o key →
    cache k key = some e → Value m c.info g (env k) (o, 0) p → m.decode o e = .ok p

/-- The unchanged graph: every operation of the original graph, applied to its inputs. -/
inductive Unfolds (g : OpGraph Op) : Op × Nat → Node Op → Prop where
  | op {o i ns} : List.Forall₂ (Unfolds g) (g.inputs o) ns → Unfolds g (o, i) (.op o none ns i)

/-- The operations of the first phase whose output is a cacheable output or was computed from
one. -/
inductive AfterCoder (info : Op → OpInfo) (g : OpGraph Op) : Op → Prop where
  | here {o} : FirstPhase info g o → (info o).hasCoder = true → AfterCoder info g o
  | step {o n} : FirstPhase info g o → (info o).kind ≠ .applySavedModel 0 → g.inputs o = [n] →
      AfterCoder info g n.1 → AfterCoder info g o

/-- The operations after the first phase that get at the data only through cacheable outputs. -/
inductive Covered (info : Op → OpInfo) (g : OpGraph Op) : Op → Prop where
  | op {o} : (info o).kind ≠ .extractInput → ¬ FirstPhase info g o →
      (∀ n ∈ g.inputs o, ¬ AfterCoder info g n.1 → Covered info g n.1) → Covered info g o

/-- The cache has every entry of a dataset that the analysis for `target` can use. -/
def FullyCached (c : Config Op Coll) (g : OpGraph Op) (target : Op × Nat) (k : DatasetKey) : Prop :=
  ∀ o key, Reach g target.1 o → FirstPhase c.info g o → (c.info o).hasCoder = true →
    KeyOf c g o key → ∃ cache e, c.cache = some cache ∧ cache k key = some e

/-- The entries of the input cache; none if there is no cache. -/
def entries (c : Config Op Coll) (k : DatasetKey) (key : Bytes) : Option Coll :=
  c.cache.bind (fun cache => cache k key)

end Spec
open Optimize.Spec

/-! ### Lists and evaluation -/

theorem evalList_ok {m : Meaning Op Coll} {info : Op → OpInfo} {all : Coll}
    {env : DatasetKey → Coll} {cache : DatasetKey → Bytes → Option Coll} {ns : List (Node Op)}
    {xs : List Coll} (h : List.Forall₂ (fun n x => n.eval m info all env cache = .ok x) ns xs) :
    evalList m info all env cache ns = .ok xs := by
  induction h with
  | nil => rfl
  | cons h _ ih => simp only [evalList, h, ih, bind, Except.bind]

theorem pick_ok {α : Type} {outs : List α} {i : Nat} {x : α} (h : outs[i]? = some x) :
    pick outs i = .ok x := by simp only [pick, h]

theorem eval_op {m : Meaning Op Coll} {info : Op → OpInfo} {all : Coll}
    {env : DatasetKey → Coll} {cache : DatasetKey → Bytes → Option Coll} {o : Op} {d : Option Nat}
    {ns : List (Node Op)} {xs : List Coll} {i : Nat} {x : Coll}
    (hk : (info o).kind ≠ .extractInput)
    (h : List.Forall₂ (fun n x => n.eval m info all env cache = .ok x) ns xs)
    (hx : Out m o xs i x) : (Node.op o d ns i).eval m info all env cache = .ok x := by
  obtain ⟨outs, h1, h2⟩ := hx
  simp only [Node.eval, if_neg hk, evalList_ok h, h1, pick_ok h2, bind, Except.bind]

theorem first_partitionable {c : Config Op Coll} {g : OpGraph Op} (hs : Shape c g) {o : Op}
    (h : FirstPhase c.info g o) : (c.info o).isPartitionable = true := by
  cases h with
  | apply h => exact (hs.applyPart o h).1
  | step _ h _ _ => exact h

theorem first_not_source {c : Config Op Coll} {g : OpGraph Op} (hs : Shape c g) {o : Op}
    (h : FirstPhase c.info g o) : (c.info o).kind ≠ .extractInput := by
  intro hk
  have := first_partitionable hs h
  rw [(hs.source o hk).1] at this
  cases this

/-- The outputs of an operation, `nodes.py`. -/
theorem outputs_get {c : Config Op Coll} {o : Op} {ins : List (Node Op)} {i : Nat} {n : Node Op}
    (h : (c.outputs o ins)[i]? = some n) : n = .op o none ins i ∧ i < c.numOutputs o := by
  simp only [Config.outputs, List.getElem?_map, Option.map_eq_some_iff] at h
  obtain ⟨j, hj, rfl⟩ := h
  obtain ⟨h1, h2⟩ := List.getElem?_eq_some_iff.1 hj
  simp at h1 h2
  subst h2
  exact ⟨rfl, h1⟩

/-! ### The loop over the datasets -/

/-- What the loop gives for one dataset. -/
def FineNode (c : Config Op Coll) (o : Op) (key : Bytes) (f : List (DatasetKey × Node Op))
    (k : DatasetKey) (kn : DatasetKey × Node Op) : Prop :=
  kn.1 = k ∧
    (((c.info o).hasCoder = true ∧ c.hasEntry k key = true ∧ ∃ i, kn.2 = .decodeCache o i k key) ∨
     (((c.info o).hasCoder && c.hasEntry k key) = false ∧
      ∃ i n, f.lookup k = some n ∧ kn.2 = .op o (some i) [n] 0))

/-- What is written for one dataset. -/
def FineWrite (c : Config Op Coll) (o : Op) (key : Bytes) (f : List (DatasetKey × Node Op))
    (k : DatasetKey) (w : Write Op) : Prop :=
  (c.info o).hasCoder = true ∧ k.isCached = true ∧ c.hasEntry k key = false ∧
    ∃ i n, f.lookup k = some n ∧ w = ((k, key), .encodeCache o i (.op o (some i) [n] 0))

theorem fineLoop_ok (c : Config Op Coll) (o : Op) (key : Bytes) (f : List (DatasetKey × Node Op)) :
    ∀ (ks : List DatasetKey) (idx : Nat), (∀ k ∈ ks, k ∈ f.map Prod.fst) →
    ∃ fine ws, c.fineLoop o [f] key idx ks = .ok (fine, ws) ∧
      List.Forall₂ (FineNode c o key f) ks fine ∧
      (∀ w ∈ ws, ∃ k ∈ ks, FineWrite c o key f k w) ∧
      (∀ k ∈ ks, (c.info o).hasCoder = true → k.isCached = true → c.hasEntry k key = false →
        ∃ w ∈ ws, FineWrite c o key f k w) := by
  intro ks
  induction ks with
  | nil => intro idx _; exact ⟨[], [], rfl, .nil, by simp, by simp⟩
  | cons k ks ih =>
    intro idx hk
    obtain ⟨fine, ws, h1, h2, h3, h4⟩ := ih (idx + 1) (fun k' h => hk k' (by simp [h]))
    obtain ⟨n, hn⟩ : ∃ n, f.lookup k = some n := by
      have hk0 := hk k (by simp)
      cases h : f.lookup k with
      | some n => exact ⟨n, rfl⟩
      | none =>
        rw [List.lookup_eq_none_iff] at h
        obtain ⟨p, hp, he⟩ := List.mem_map.1 hk0
        have := h p hp
        simp [he] at this
    by_cases hd : ((c.info o).hasCoder && c.hasEntry k key) = true
    · have hd' := hd
      rw [Bool.and_eq_true] at hd'
      refine ⟨(k, .decodeCache o idx k key) :: fine, ws, ?_, .cons ⟨rfl, Or.inl ⟨hd'.1, hd'.2, idx, rfl⟩⟩ h2, ?_, ?_⟩
      · simp only [Config.fineLoop, Config.fineStep, hd, if_true, h1, bind, Except.bind,
          Option.toList_none, List.nil_append]
      · intro w hw
        obtain ⟨k', hk', h⟩ := h3 w hw
        exact ⟨k', by simp [hk'], h⟩
      · intro k' hk' hc hca he
        rcases List.mem_cons.1 hk' with rfl | hk'
        · rw [hd'.2] at he; cases he
        · exact h4 k' hk' hc hca he
    · have hd0 : ((c.info o).hasCoder && c.hasEntry k key) = false := by simpa using hd
      have hl : seqExcept ([f].map (lookupKey k)) = .ok [n] := by
        simp [seqExcept, lookupKey, hn, bind, Except.bind]
      by_cases hw : ((c.info o).hasCoder && k.isCached) = true
      · have hw' := hw
        rw [Bool.and_eq_true] at hw'
        have hne : c.hasEntry k key = false := by
          rw [hw'.1, Bool.true_and] at hd0; exact hd0
        refine ⟨(k, .op o (some idx) [n] 0) :: fine,
          ((k, key), .encodeCache o idx (.op o (some idx) [n] 0)) :: ws, ?_,
          .cons ⟨rfl, Or.inr ⟨hd0, idx, n, hn, rfl⟩⟩ h2, ?_, ?_⟩
        · simp only [Config.fineLoop, Config.fineStep, hd, hl, hw, if_true, h1, bind, Except.bind,
            Option.toList_some, List.singleton_append]
          simp
        · intro w hmem
          rcases List.mem_cons.1 hmem with rfl | hmem
          · exact ⟨k, by simp, hw'.1, hw'.2, hne, idx, n, hn, rfl⟩
          · obtain ⟨k', hk', h⟩ := h3 w hmem
            exact ⟨k', by simp [hk'], h⟩
        · intro k' hk' hc hca he
          rcases List.mem_cons.1 hk' with rfl | hk'
          · exact ⟨_, by simp, hw'.1, hw'.2, hne, idx, n, hn, rfl⟩
          · obtain ⟨w, hm, h⟩ := h4 k' hk' hc hca he
            exact ⟨w, by simp [hm], h⟩
      · refine ⟨(k, .op o (some idx) [n] 0) :: fine, ws, ?_,
          .cons ⟨rfl, Or.inr ⟨hd0, idx, n, hn, rfl⟩⟩ h2, ?_, ?_⟩
        · simp only [Config.fineLoop, Config.fineStep, hd, hl, hw, h1, bind, Except.bind]
          simp
        · intro w hmem
          obtain ⟨k', hk', h⟩ := h3 w hmem
          exact ⟨k', by simp [hk'], h⟩
        · intro k' hk' hc hca he
          rcases List.mem_cons.1 hk' with rfl | hk'
          · rw [hc, hca] at hw; simp at hw
          · exact h4 k' hk' hc hca he

/-! ### One visit -/

theorem validateDef_ok {c : Config Op Coll} {g : OpGraph Op} (hs : Shape c g) (o : Op) :
    c.validateDef o = .ok () := by
  unfold Config.validateDef
  have h1 : ((c.info o).hasCoder && !(c.info o).isPartitionable) = false := by
    cases h : (c.info o).hasCoder with
    | false => rfl
    | true => simp [hs.coder o h]
  have h2 : (((c.info o).isPartitionable || (c.info o).hasCoder) && c.numOutputs o != 1) = false := by
    cases h : (c.info o).isPartitionable with
    | true => simp [hs.numOutputs, hs.one o h]
    | false =>
      cases h' : (c.info o).hasCoder with
      | false => rfl
      | true => rw [hs.coder o h'] at h; cases h
  simp [h1, h2]

theorem visit_apply {c : Config Op Coll} {g : OpGraph Op} (hs : Shape c g) {o : Op}
    (hk : (c.info o).kind = .applySavedModel 0) {vm vi : View Op} (hm : vm.fine = none)
    (hi : vi.fine = none) :
    c.visit o [vm, vi] = .ok ([⟨false, .op o none [vm.flat, vi.flat] 0,
      some (applyViews o vm.flat 0 c.keys), some applySavedModelPath⟩], []) := by
  simp [Config.visit, validateDef_ok hs, hk, Config.visitApply, hm, hi, truthy, bind, Except.bind]

theorem seqExcept_one {α : Type} (x : Except Err α) :
    seqExcept [x] = x.map (fun y => [y]) := by
  cases x <;> rfl

theorem visit_step {c : Config Op Coll} {g : OpGraph Op} (hs : Shape c g)
    (hc : c.cache.isSome = true) (hne : c.keys ≠ []) {o : Op} {n : Op × Nat}
    (hk : (c.info o).kind ≠ .applySavedModel 0) (hp : (c.info o).isPartitionable = true)
    (hin : g.inputs o = [n]) (hf : FirstPhase c.info g o) {v : View Op}
    {f : List (DatasetKey × Node Op)} {p : Bytes} (hvf : v.fine = some f)
    (hfk : f.map Prod.fst = c.keys) (hvp : v.path = some p) (hpo : PathOf c g n.1 p) :
    ∃ q key fine ws, PathOf c g o q ∧ KeyOf c g o key ∧
      c.visit o [v] = .ok ([⟨v.prefer || (c.info o).hasCoder, .op o none [v.flat] 0, some fine,
        some q⟩], ws) ∧
      List.Forall₂ (FineNode c o key f) c.keys fine ∧
      (∀ w ∈ ws, ∃ k ∈ c.keys, FineWrite c o key f k w) ∧
      (∀ k ∈ c.keys, (c.info o).hasCoder = true → k.isCached = true → c.hasEntry k key = false →
        ∃ w ∈ ws, FineWrite c o key f k w) := by
  obtain ⟨ps, hps, hsome⟩ := hs.paths o hp
  obtain ⟨q, hq⟩ : ∃ q, nextHashedPath c.sha1 [some p] (c.info o).desc c.paths = .ok (some q) := by
    refine ⟨c.sha1 (([some p] ++ ps).filterMap id).flatten, ?_⟩
    have : ([some p] ++ ps).any (fun p => p.isNone) = false := by
      rw [List.any_eq_false]
      intro x hx
      rcases List.mem_append.1 hx with hx | hx
      · simp at hx; subst hx; simp
      · have := hsome hf x hx
        cases x with
        | none => exact absurd rfl this
        | some y => simp
    simp only [nextHashedPath, hps, bind, Except.bind, this]
    simp
  have hPo : PathOf c g o q := .step hk hp hin hpo hq
  obtain ⟨key, hkey⟩ : ∃ key, cacheEntryKey c.version (c.info o).label (some q) = .ok key := ⟨_, rfl⟩
  obtain ⟨fine, ws, h1, h2, h3, h4⟩ := fineLoop_ok c o key f c.keys 0 (fun k hk => hfk ▸ hk)
  have ht : truthy (some f) = true := by
    cases f with
    | nil => exact absurd hfk.symm hne
    | cons a l => rfl
  have hfine : truthy (some fine) = true := by
    have hlen := h2.length_eq
    cases fine with
    | nil => exact absurd (List.length_eq_zero_iff.1 hlen) hne
    | cons _ _ => rfl
  refine ⟨q, key, fine, ws, hPo, ⟨q, hPo, hkey⟩, ?_, h2, h3, h4⟩
  have ho : c.numOutputs o = 1 := by rw [hs.numOutputs]; exact hs.one o hp
  have hmv : makeView (v.prefer || (c.info o).hasCoder) (some q)
      (Node.op o none [v.flat] 0, some fine)
      = .ok ⟨v.prefer || (c.info o).hasCoder, .op o none [v.flat] 0, some fine, some q⟩ := by
    simp [makeView, View.make, hfine]
  simp only [Config.visit, validateDef_ok hs, if_neg hk, hc, hp, Bool.and_self, if_true,
    Config.visitPartitionable, List.all_cons, List.all_nil, Bool.and_true, List.any_cons,
    List.any_nil, Bool.or_false, hvf, ht, Bool.true_and, List.map_cons, List.map_nil, hvp, hq,
    Option.getD_some, Config.applyFine, hkey, h1, bind, Except.bind, Config.outputs, ho,
    List.range_one, List.zip_cons_cons, List.zip_nil_left, seqExcept_one, hmv]
  simp [Except.map]

theorem visit_part_other {c : Config Op Coll} {g : OpGraph Op} (hs : Shape c g)
    (hc : c.cache.isSome = true) {o : Op}
    (hk : (c.info o).kind ≠ .applySavedModel 0) (hp : (c.info o).isPartitionable = true)
    {ins : List (View Op)} (hne : ins ≠ [])
    (hins : ∀ v ∈ ins, truthy v.fine = false ∧ v.prefer = false) :
    ∃ q, c.visit o ins
      = .ok ([⟨false, .op o none (ins.map (fun v => v.flat)) 0, none, q⟩], []) := by
  obtain ⟨ps, hps, _⟩ := hs.paths o hp
  obtain ⟨q, hq⟩ : ∃ q, nextHashedPath c.sha1 (ins.map (fun v => v.path)) (c.info o).desc c.paths
      = .ok q := by
    by_cases h : (ins.map (fun v => v.path) ++ ps).any (fun p => p.isNone) = true
    · exact ⟨none, by simp only [nextHashedPath, hps, bind, Except.bind, h, if_true]⟩
    · exact ⟨some (c.sha1 ((ins.map (fun v => v.path) ++ ps).filterMap id).flatten), by
        simp only [nextHashedPath, hps, bind, Except.bind, if_neg h]⟩
  refine ⟨q, ?_⟩
  have ho : c.numOutputs o = 1 := by rw [hs.numOutputs]; exact hs.one o hp
  have hall : ins.all (fun v => truthy v.fine) = false := by
    cases ins with
    | nil => exact absurd rfl hne
    | cons v vs => simp [(hins v (by simp)).1]
  have hany : ins.any (fun v => v.prefer) = false := by
    rw [List.any_eq_false]
    intro v hv
    rw [(hins v hv).2]
    simp
  have hmv : makeView false q (Node.op o none (ins.map (fun v => v.flat)) 0, none)
      = .ok ⟨false, .op o none (ins.map (fun v => v.flat)) 0, none, q⟩ := rfl
  simp only [Config.visit, validateDef_ok hs, if_neg hk, hc, hp, Bool.and_self, if_true,
    Config.visitPartitionable, hall, hany, Bool.false_and, Bool.or_false, hq, bind, Except.bind,
    Config.outputs, ho, List.range_one, List.map_cons, List.map_nil, List.replicate_one,
    Bool.false_eq_true, if_false, List.zip_cons_cons, List.zip_nil_left, seqExcept_one, hmv]
  simp [Except.map]

theorem visit_plain {c : Config Op Coll} {g : OpGraph Op} (hs : Shape c g) {o : Op}
    (hk : (c.info o).kind ≠ .applySavedModel 0)
    (hp : (c.cache.isSome && (c.info o).isPartitionable) = false)
    {ins : List (View Op)} (hins : ∀ v ∈ ins, v.prefer = false) :
    c.visit o ins = .ok ((c.outputs o (ins.map (fun v => v.flat))).map
      (fun n => ⟨false, n, none, none⟩), []) := by
  have hany : ins.any (fun v => truthy v.fine && v.prefer) = false := by
    rw [List.any_eq_false]
    intro v hv
    rw [hins v hv]
    simp
  simp [Config.visit, validateDef_ok hs, hk, hp, nextInputs, hany, bind, Except.bind]

theorem visit_flatten {c : Config Op Coll} {g : OpGraph Op} (hs : Shape c g) {o : Op}
    (hk : (c.info o).kind ≠ .applySavedModel 0) (hp : (c.info o).isPartitionable = false)
    {v : View Op} (hv : v.prefer = true) {f : List (DatasetKey × Node Op)}
    (hf : v.fine = some f) (hne : f ≠ []) :
    c.visit o [v] = .ok ((c.outputs o [.flatten o (f.map Prod.snd)]).map
      (fun n => ⟨false, n, none, none⟩), []) := by
  have ht : truthy (some f) = true := by
    cases f with
    | nil => exact absurd rfl hne
    | cons a l => rfl
  simp [Config.visit, validateDef_ok hs, hk, hp, nextInputs, hv, hf, ht, fineValues, seqExcept_one,
    Except.map, bind, Except.bind]

/-! ### The invariant with a cache -/

/-- What a view says about the value node it stands for, when there is a cache. `all` is the
whole data. -/
structure Good (c : Config Op Coll) (g : OpGraph Op) (m : Meaning Op Coll)
    (R : Op → Coll → Coll → Prop) (env : DatasetKey → Coll) (n : Op × Nat) (v : View Op) : Prop where
  first : FirstPhase c.info g n.1 →
    ∃ f p, v.fine = some f ∧ f.map Prod.fst = c.keys ∧ v.path = some p ∧ PathOf c g n.1 p
  notFirst : ¬ FirstPhase c.info g n.1 → v.fine = none ∧ v.prefer = false
  value : ∀ x, Value m c.info g (m.flatten (c.keys.map env)) n x →
    v.flat.eval m c.info (m.flatten (c.keys.map env)) env (entries c) = .ok x
  parts : ∀ x f, Value m c.info g (m.flatten (c.keys.map env)) n x → v.fine = some f →
    ∃ ps, List.Forall₂ (fun k p => Value m c.info g (env k) n p) c.keys ps ∧
      List.Forall₂ (fun kn p =>
        kn.2.eval m c.info (m.flatten (c.keys.map env)) env (entries c) = .ok p) f ps ∧
      R n.1 x (m.flatten ps)

theorem lookup_forall₂ {α β κ : Type} [BEq κ] [LawfulBEq κ] {S : α → β → Prop} {f : List (κ × α)}
    {ps : List β} (h : List.Forall₂ (fun kn p => S kn.2 p) f ps) (hn : (f.map Prod.fst).Nodup) :
    List.Forall₂ (fun k p => ∃ n, f.lookup k = some n ∧ S n p) (f.map Prod.fst) ps := by
  induction h with
  | nil => exact .nil
  | @cons kn p f ps h1 h2 ih =>
    simp only [List.map_cons, List.nodup_cons] at hn
    refine .cons ⟨kn.2, by rw [List.lookup_cons, beq_self_eq_true], h1⟩ ?_
    refine forall₂_imp_mem (ih hn.2) ?_
    rintro k hk p ⟨n, h3, h4⟩
    refine ⟨n, ?_, h4⟩
    have : (k == kn.1) = false := by
      rw [beq_eq_false_iff_ne]
      rintro rfl
      exact hn.1 hk
    rw [List.lookup_cons, this]
    exact h3

theorem forall₂_trans {α β γ : Type} {B : α → β → Prop} {C : β → γ → Prop} {E : α → γ → Prop}
    {ks : List α} {ps : List β} {xs : List γ} (h1 : List.Forall₂ B ks ps)
    (h2 : List.Forall₂ C ps xs) (H : ∀ k p y, B k p → C p y → E k y) : List.Forall₂ E ks xs := by
  induction h1 generalizing xs with
  | nil => cases h2; exact .nil
  | cons h _ ih =>
    cases h2 with
    | cons h' h2 => exact .cons (H _ _ _ h h') (ih h2)

theorem forall₂_combine {α β γ : Type} {A : α → β → Prop} {B : α → γ → Prop} {D : β → γ → Prop}
    {ks : List α} {fs : List β} {xs : List γ} (h1 : List.Forall₂ A ks fs)
    (h2 : List.Forall₂ B ks xs) (H : ∀ k kn y, A k kn → B k y → D kn y) : List.Forall₂ D fs xs := by
  induction h1 generalizing xs with
  | nil => cases h2; exact .nil
  | cons h _ ih =>
    cases h2 with
    | cons h' h2 => exact .cons (H _ _ _ h h') (ih h2)

theorem forall₂_and {α β : Type} {A B : α → β → Prop} {ks : List α} {fs : List β}
    (h1 : List.Forall₂ A ks fs) (h2 : List.Forall₂ B ks fs) :
    List.Forall₂ (fun a b => A a b ∧ B a b) ks fs := by
  induction h1 with
  | nil => exact .nil
  | cons h _ ih =>
    cases h2 with
    | cons h' h2 => exact .cons ⟨h, h'⟩ (ih h2)

theorem forall₂_map_left {α β γ : Type} {A : γ → β → Prop} {f : α → γ} {ks : List α} {xs : List β}
    (h : List.Forall₂ A (ks.map f) xs) : List.Forall₂ (fun k x => A (f k) x) ks xs :=
  List.forall₂_map_left_iff.1 h

theorem value_inputs {m : Meaning Op Coll} {info : Op → OpInfo} {g : OpGraph Op} {all : Coll}
    {n : Op × Nat} {x : Coll} (hk : (info n.1).kind ≠ .extractInput)
    (h : Value m info g all n x) :
    ∃ ins, List.Forall₂ (Value m info g all) (g.inputs n.1) ins ∧ Out m n.1 ins n.2 x := by
  cases h with
  | source h => exact absurd h hk
  | op _ h1 h2 => exact ⟨_, h1, h2⟩

theorem forall₂_one {α β : Type} {A : α → β → Prop} {a : α} {ys : List β}
    (h : List.Forall₂ A [a] ys) : ∃ y, ys = [y] ∧ A a y := by
  cases h with
  | cons h h' => cases h'; exact ⟨_, rfl, h⟩

theorem applyViews_keys (o : Op) (model : Node Op) : ∀ (ks : List DatasetKey) (i : Nat),
    (applyViews o model i ks).map Prod.fst = ks := by
  intro ks
  induction ks with
  | nil => intro i; rfl
  | cons k ks ih => intro i; simp [applyViews, ih]

theorem applyViews_nodes (o : Op) (model : Node Op) : ∀ (ks : List DatasetKey) (i : Nat),
    List.Forall₂ (fun k (kn : DatasetKey × Node Op) =>
      ∃ i, kn.2 = .op o (some i) [model, .extractInput i k] 0) ks (applyViews o model i ks) := by
  intro ks
  induction ks with
  | nil => intro i; exact .nil
  | cons k ks ih => intro i; exact .cons ⟨i, rfl⟩ (ih (i + 1))

theorem validate_good {c : Config Op Coll} {v : View Op}
    (h : ∀ f, v.fine = some f → f.map Prod.fst = c.keys) : c.visitor.validate v = .ok () := by
  show c.validateValue v = .ok ()
  unfold Config.validateValue
  cases hf : v.fine with
  | none => rfl
  | some f =>
    simp only
    rw [h f hf]
    simp

theorem exists_left {α β : Type} {A : α → β → Prop} {l : List α} {m : List β}
    (h : List.Forall₂ A l m) {b : β} (hb : b ∈ m) : ∃ a ∈ l, A a b := by
  induction h with
  | nil => simp at hb
  | cons h _ ih =>
    rcases List.mem_cons.1 hb with rfl | hb
    · exact ⟨_, by simp, h⟩
    · obtain ⟨n, hn, h⟩ := ih hb
      exact ⟨n, by simp [hn], h⟩

theorem fine_keys {c : Config Op Coll} {o : Op} {key : Bytes} {f fine : List (DatasetKey × Node Op)}
    {ks : List DatasetKey} (h : List.Forall₂ (FineNode c o key f) ks fine) :
    fine.map Prod.fst = ks := by
  induction h with
  | nil => rfl
  | cons h _ ih => simp [h.1, ih]

theorem outs_views {c : Config Op Coll} {g : OpGraph Op} {m : Meaning Op Coll}
    {R : Op → Coll → Coll → Prop} {env : DatasetKey → Coll} {o : Op} {next : List (Node Op)}
    (hnf : ¬ FirstPhase c.info g o)
    (hval : ∀ i x, Value m c.info g (m.flatten (c.keys.map env)) (o, i) x →
      (Node.op o none next i).eval m c.info (m.flatten (c.keys.map env)) env (entries c) = .ok x)
    (i : Nat) (v : View Op)
    (h : ((c.outputs o next).map (fun n => (⟨false, n, none, none⟩ : View Op)))[i]? = some v) :
    Good c g m R env (o, i) v ∧ c.visitor.validate v = .ok () := by
  rw [List.getElem?_map, Option.map_eq_some_iff] at h
  obtain ⟨n, hn, rfl⟩ := h
  obtain ⟨rfl, _⟩ := outputs_get hn
  refine ⟨⟨fun h => absurd h hnf, fun _ => ⟨rfl, rfl⟩, fun x hx => hval i x hx, ?_⟩,
    validate_good (by intro f hf; cases hf)⟩
  intro x f _ hf
  cases hf

theorem optimize_keeps {c : Config Op Coll} {g : OpGraph Op} {m : Meaning Op Coll}
    {R : Op → Coll → Coll → Prop} {env : DatasetKey → Coll} (hs : Shape c g) (hr : Contract c g m R)
    (hg : GoodCache c g m env (entries c)) (hc : c.cache.isSome = true) (hne : c.keys ≠ [])
    (hnd : c.keys.Nodup) (Need : Op → Prop) :
    Keeps g c.visitor Need (Good c g m R env) := by
  intro calls o ins _ hins
  have hvisit : ∀ vs ws, c.visit o ins = .ok (vs, ws) → c.visitor.visit calls o ins = .ok vs := by
    intro vs ws h
    simp only [Config.visitor, h, Except.map]
  -- inputs that are not partitionable
  have hplain : ∀ n v, Good c g m R env n v → ¬ FirstPhase c.info g n.1 →
      v.fine = none ∧ v.prefer = false := fun n v hv hp => hv.notFirst hp
  by_cases hk : (c.info o).kind = .applySavedModel 0
  · -- the SavedModel of phase 0
    obtain ⟨mo, io, hio, hmi, hmk, hik⟩ := hs.apply o hk
    have hokind : (c.info o).kind ≠ .extractInput := by rw [hk]; simp
    rw [hio] at hins
    obtain ⟨vm, vi, rfl, hvm, hvi⟩ : ∃ vm vi, ins = [vm, vi] ∧ Good c g m R env (mo, 0) vm ∧
        Good c g m R env (io, 0) vi := by
      cases hins with
      | cons h1 h2 => obtain ⟨y, rfl, h3⟩ := forall₂_one h2; exact ⟨_, y, rfl, h1, h3⟩
    have hsev := hs.several o (by rw [hio]; simp)
    have hm0 := hplain _ _ hvm (hsev (mo, 0) (by rw [hio]; simp))
    have hi0 := hplain _ _ hvi (hsev (io, 0) (by rw [hio]; simp))
    refine ⟨_, hvisit _ _ (visit_apply hs hk hm0.1 hi0.1), by
      simp [hs.one o (hs.applyPart o hk).1], ?_⟩
    intro i x hx
    obtain ⟨rfl, rfl⟩ : i = 0 ∧ x = ⟨false, .op o none [vm.flat, vi.flat] 0,
        some (applyViews o vm.flat 0 c.keys), some applySavedModelPath⟩ := by
      cases i with
      | zero => simp at hx; exact ⟨rfl, hx.symm⟩
      | succ i => simp at hx
    have hval : ∀ all x, Value m c.info g all (o, 0) x → ∃ mv, Value m c.info g all (mo, 0) mv ∧
        Out m o [mv, all] 0 x := by
      intro all x hx
      obtain ⟨ins, h1, h2⟩ := value_inputs (n := (o, 0)) hokind hx
      simp only [hio] at h1
      cases h1 with
      | cons h1 h3 =>
        obtain ⟨y, rfl, h4⟩ := forall₂_one h3
        cases h4 with
        | source _ => exact ⟨_, h1, h2⟩
        | op h _ _ => exact absurd hik h
    have hmodel : ∀ all all' mv, Value m c.info g all (mo, 0) mv → Value m c.info g all' (mo, 0) mv := by
      intro all all' mv h
      obtain ⟨ins, h1, h2⟩ := value_inputs (n := (mo, 0)) hmk h
      simp only [hmi] at h1
      cases h1
      exact .op hmk (by rw [hmi]; exact .nil) h2
    refine ⟨⟨fun _ => ⟨_, _, rfl, applyViews_keys _ _ _ _, rfl, .apply hk⟩,
      fun h => absurd (.apply hk) h, ?_, ?_⟩, validate_good ?_⟩
    · intro x hx
      obtain ⟨mv, h1, h2⟩ := hval _ _ hx
      refine eval_op hokind (.cons (hvm.value _ h1) (.cons (hvi.value _ (.source hik)) .nil)) h2
    · intro x f hx hf
      cases hf
      obtain ⟨mv, h1, h2⟩ := hval _ _ hx
      obtain ⟨xs, h3, h4⟩ := hr.apply o mv (c.keys.map env) x hk (by simpa using hne) h2
      have h5 := forall₂_map_left h3
      refine ⟨xs, ?_, ?_, h4⟩
      · refine h5.imp ?_
        intro k y hy
        refine .op hokind ?_ hy
        rw [hio]
        exact .cons (hmodel _ _ _ h1) (.cons (.source hik) .nil)
      · refine forall₂_combine (applyViews_nodes o vm.flat c.keys 0) h5 ?_
        rintro k kn y ⟨i, hi⟩ hy
        rw [hi]
        exact eval_op hokind (.cons (hvm.value _ h1) (.cons rfl .nil)) hy
    · intro f hf
      cases hf
      exact applyViews_keys _ _ _ _
  · by_cases hp : (c.info o).isPartitionable = true
    · have hokind : (c.info o).kind ≠ .extractInput := by
        intro h
        rw [(hs.source o h).1] at hp
        cases hp
      by_cases hf : FirstPhase c.info g o
      · -- a partitionable operation of the first phase
        obtain ⟨n, hin, hfn⟩ : ∃ n, g.inputs o = [n] ∧ FirstPhase c.info g n.1 := by
          cases hf with
          | apply h => exact absurd h hk
          | step _ _ h1 h2 => exact ⟨_, h1, h2⟩
        rw [hin] at hins
        obtain ⟨v, rfl, hv⟩ := forall₂_one hins
        obtain ⟨f, p, hvf, hfk, hvp, hpo⟩ := hv.first hfn
        obtain ⟨q, key, fine, ws, hPq, hkey, hvis, hfine, _, _⟩ :=
          visit_step hs hc hne hk hp hin hf hvf hfk hvp hpo
        have hkeys : fine.map Prod.fst = c.keys := by
          exact fine_keys hfine
        refine ⟨_, hvisit _ _ hvis, by simp [hs.one o hp], ?_⟩
        intro i x hx
        obtain ⟨rfl, rfl⟩ : i = 0 ∧ x = ⟨v.prefer || (c.info o).hasCoder, .op o none [v.flat] 0,
            some fine, some q⟩ := by
          cases i with
          | zero => simp at hx; exact ⟨rfl, hx.symm⟩
          | succ i => simp at hx
        have hn2 : n.2 = 0 := by
          have := hs.wellFormed o n (by rw [hin]; simp)
          rw [hs.one n.1 (first_partitionable hs hfn)] at this
          omega
        have hval : ∀ all x, Value m c.info g all (o, 0) x → ∃ mv, Value m c.info g all n mv ∧
            Out m o [mv] 0 x := by
          intro all x hx
          obtain ⟨ins, h1, h2⟩ := value_inputs (n := (o, 0)) hokind hx
          simp only [hin] at h1
          obtain ⟨y, rfl, h4⟩ := forall₂_one h1
          exact ⟨y, h4, h2⟩
        refine ⟨⟨fun _ => ⟨fine, q, rfl, hkeys, rfl, hPq⟩, fun h => absurd hf h, ?_, ?_⟩,
          validate_good (by intro f hf; cases hf; exact hkeys)⟩
        · intro x hx
          obtain ⟨mv, h1, h2⟩ := hval _ _ hx
          exact eval_op hokind (.cons (hv.value _ h1) .nil) h2
        · intro x f' hx hf'
          cases hf'
          obtain ⟨mv, h1, h2⟩ := hval _ _ hx
          obtain ⟨ps, h3, h4, h5⟩ := hv.parts mv f h1 hvf
          have hps : ps ≠ [] := by
            rintro rfl
            cases hkk : c.keys with
            | nil => exact hne hkk
            | cons k ks => rw [hkk] at h3; cases h3
          obtain ⟨xs, h6, h7⟩ := hr.step o n mv ps x hf hk hin hps h5 h2
          have h8 := lookup_forall₂ (S := fun (n : Node Op) (p : Coll) => n.eval m c.info (m.flatten (c.keys.map env)) env
            (entries c) = .ok p) h4 (by rw [hfk]; exact hnd)
          rw [hfk] at h8
          have hvals : List.Forall₂ (fun k y => Value m c.info g (env k) (o, 0) y) c.keys xs := by
            refine forall₂_trans h3 h6 ?_
            intro k p y h9 h10
            refine .op hokind ?_ h10
            rw [hin]
            exact .cons h9 .nil
          refine ⟨xs, hvals, ?_, h7⟩
          have h9 : List.Forall₂ (fun k y => (∃ n p, f.lookup k = some n ∧
              n.eval m c.info (m.flatten (c.keys.map env)) env (entries c) = .ok p ∧
              Out m o [p] 0 y)) c.keys xs := by
            refine forall₂_trans h8 h6 ?_
            rintro k p y ⟨n, ha, hb⟩ hcc
            exact ⟨n, p, ha, hb, hcc⟩
          refine forall₂_combine hfine (forall₂_and h9 hvals) ?_
          rintro k kn y ⟨_, hnode⟩ ⟨⟨n', p, ha, hb, hcc⟩, hvy⟩
          rcases hnode with ⟨hcd, hen, i, hi⟩ | ⟨_, i, n'', hl, hi⟩
          · rw [hi]
            simp only [Config.hasEntry] at hen
            cases hcc' : c.cache with
            | none => rw [hcc'] at hc; cases hc
            | some cache =>
              rw [hcc'] at hen
              simp only at hen
              obtain ⟨e, he⟩ := Option.isSome_iff_exists.1 hen
              have hent : entries c k key = some e := by simp [entries, hcc', he]
              simp only [Node.eval, hent]
              exact hg o k key e y hf hcd hkey hent hvy
          · rw [hi]
            rw [ha] at hl
            cases hl
            exact eval_op hokind (.cons hb .nil) hcc
      · -- a partitionable operation of a later phase
        have hall : ∀ v ∈ ins, v.fine = none ∧ v.prefer = false := by
          intro v hv
          have hex := exists_left hins hv
          obtain ⟨n, hn, hv⟩ := hex
          refine hv.notFirst ?_
          intro hfn
          by_cases hl : 2 ≤ (g.inputs o).length
          · exact absurd hfn (hs.several o hl n hn)
          · have hone : g.inputs o = [n] := by
              cases hgi : g.inputs o with
              | nil => rw [hgi] at hn; simp at hn
              | cons a l =>
                cases l with
                | nil => rw [hgi] at hn; simp at hn; rw [hn]
                | cons b l => rw [hgi] at hl; simp at hl
            exact hf (.step hk hp hone hfn)
        have hne' : ins ≠ [] := by
          rintro rfl
          cases hgi : g.inputs o with
          | nil => exact hs.inputs o hp hgi
          | cons a l => rw [hgi] at hins; cases hins
        obtain ⟨q, hq⟩ := visit_part_other hs hc hk hp hne'
          (fun v hv => ⟨by rw [(hall v hv).1]; rfl, (hall v hv).2⟩)
        refine ⟨_, hvisit _ _ hq, by simp [hs.one o hp], ?_⟩
        intro i x hx
        obtain ⟨rfl, rfl⟩ : i = 0 ∧ x = ⟨false, .op o none (ins.map (fun v => v.flat)) 0, none, q⟩ := by
          cases i with
          | zero => simp at hx; exact ⟨rfl, hx.symm⟩
          | succ i => simp at hx
        refine ⟨⟨fun h => absurd h hf, fun _ => ⟨rfl, rfl⟩, ?_, ?_⟩,
          validate_good (by intro f hf; cases hf)⟩
        · intro x hx
          obtain ⟨xs, h1, h2⟩ := value_inputs (n := (o, 0)) hokind hx
          refine eval_op hokind ?_ h2
          rw [List.forall₂_map_left_iff]
          exact forall₂_combine hins h1 (fun n v y hv hy => hv.value y hy)
        · intro x f _ hf'
          cases hf'
    · -- an operation that is not partitionable
      have hp0 : (c.info o).isPartitionable = false := by simpa using hp
      have hnf : ¬ FirstPhase c.info g o := fun h => hp (first_partitionable hs h)
      have hlen : ∀ next : List (Node Op),
          ((c.outputs o next).map (fun n => (⟨false, n, none, none⟩ : View Op))).length
            = g.numOutputs o := by
        intro next
        simp [Config.outputs, hs.numOutputs]
      by_cases hpref : ∃ v ∈ ins, v.prefer = true
      · -- the fine grained view of the only input is flattened
        obtain ⟨v, hv, hvp⟩ := hpref
        have hex := exists_left hins hv
        obtain ⟨n, hn, hgv⟩ := hex
        have hfn : FirstPhase c.info g n.1 := by
          by_contra h
          rw [(hgv.notFirst h).2] at hvp
          cases hvp
        have hone : g.inputs o = [n] := by
          by_cases hl : 2 ≤ (g.inputs o).length
          · exact absurd hfn (hs.several o hl n hn)
          · cases hgi : g.inputs o with
            | nil => rw [hgi] at hn; simp at hn
            | cons a l =>
              cases l with
              | nil => rw [hgi] at hn; simp at hn; rw [hn]
              | cons b l => rw [hgi] at hl; simp at hl
        rw [hone] at hins
        obtain ⟨v', rfl, hgv'⟩ := forall₂_one hins
        have hvv : v = v' := by simpa using hv
        subst hvv
        obtain ⟨f, p, hvf, hfk, _, _⟩ := hgv.first hfn
        have hfne : f ≠ [] := by
          rintro rfl
          exact hne hfk.symm
        have hokind : (c.info o).kind ≠ .extractInput := by
          intro h
          rw [(hs.source o h).2.1] at hone
          cases hone
        refine ⟨_, hvisit _ _ (visit_flatten hs hk hp0 hvp hvf hfne), hlen _, ?_⟩
        refine outs_views hnf ?_
        intro i x hx
        obtain ⟨xs, h1, h2⟩ := value_inputs (n := (o, i)) hokind hx
        simp only [hone] at h1
        obtain ⟨y, rfl, hy⟩ := forall₂_one h1
        obtain ⟨ps, _, h4, h5⟩ := hgv.parts y f hy hvf
        obtain ⟨outs, h6, h7⟩ := h2
        refine eval_op hokind (.cons ?_ .nil) ⟨outs, hr.next o n _ _ outs hp0 hone hfn h5 h6, h7⟩
        simp only [Node.eval, bind, Except.bind]
        rw [evalList_ok (xs := ps)]
        rw [List.forall₂_map_left_iff]
        exact h4
      · -- the flattened views are used
        have hpf : ∀ v ∈ ins, v.prefer = false := by
          intro v hv
          by_contra h
          exact hpref ⟨v, hv, by simpa using h⟩
        refine ⟨_, hvisit _ _ (visit_plain hs hk (by simp [hp0]) hpf), hlen _, ?_⟩
        refine outs_views hnf ?_
        intro i x hx
        cases hx with
        | source h => simp [Node.eval, h]
        | op h h1 h2 =>
          refine eval_op h ?_ h2
          rw [List.forall₂_map_left_iff]
          exact forall₂_combine hins h1 (fun n v y hv hy => hv.value y hy)

/-! ### The cases of a visit -/

/-- The part of the invariant that does not mention values. -/
structure Fine (c : Config Op Coll) (g : OpGraph Op) (n : Op × Nat) (v : View Op) : Prop where
  first : FirstPhase c.info g n.1 →
    ∃ f p, v.fine = some f ∧ f.map Prod.fst = c.keys ∧ v.path = some p ∧ PathOf c g n.1 p
  notFirst : ¬ FirstPhase c.info g n.1 → v.fine = none ∧ v.prefer = false

theorem Good.toFine {c : Config Op Coll} {g : OpGraph Op} {m : Meaning Op Coll}
    {R : Op → Coll → Coll → Prop} {env : DatasetKey → Coll} {n : Op × Nat} {v : View Op}
    (h : Good c g m R env n v) : Fine c g n v := ⟨h.first, h.notFirst⟩

/-- What `visit` does: it applies the SavedModel of phase 0 to every dataset; or continues
dataset by dataset; or continues with flattened views; or flattens the fine grained view of its
input. -/
inductive Outcome (c : Config Op Coll) (g : OpGraph Op) (o : Op) :
    List (View Op) → List (View Op) → List (Write Op) → Prop where
  | apply {vm vi : View Op} : (c.info o).kind = .applySavedModel 0 → vm.fine = none →
      vi.fine = none → Outcome c g o [vm, vi]
        [⟨false, .op o none [vm.flat, vi.flat] 0, some (applyViews o vm.flat 0 c.keys),
          some applySavedModelPath⟩] []
  | step {n : Op × Nat} {v : View Op} {f : List (DatasetKey × Node Op)} {q key : Bytes}
      {fine : List (DatasetKey × Node Op)} {ws : List (Write Op)} :
      (c.info o).kind ≠ .applySavedModel 0 → FirstPhase c.info g o → g.inputs o = [n] →
      FirstPhase c.info g n.1 → v.fine = some f → f.map Prod.fst = c.keys → KeyOf c g o key →
      List.Forall₂ (FineNode c o key f) c.keys fine →
      (∀ w ∈ ws, ∃ k ∈ c.keys, FineWrite c o key f k w) →
      (∀ k ∈ c.keys, (c.info o).hasCoder = true → k.isCached = true → c.hasEntry k key = false →
        ∃ w ∈ ws, FineWrite c o key f k w) →
      Outcome c g o [v] [⟨v.prefer || (c.info o).hasCoder, .op o none [v.flat] 0, some fine,
        some q⟩] ws
  | flat {ins vs : List (View Op)} : ¬ FirstPhase c.info g o → (∀ v ∈ ins, v.prefer = false) →
      (∀ (i : Nat) (w : View Op), vs[i]? = some w → w.flat = .op o none (ins.map (fun v => v.flat)) i ∧
        w.fine = none ∧ w.prefer = false) → Outcome c g o ins vs []
  | flatten {n : Op × Nat} {v : View Op} {f : List (DatasetKey × Node Op)} {vs : List (View Op)} :
      ¬ FirstPhase c.info g o → g.inputs o = [n] → FirstPhase c.info g n.1 → v.prefer = true →
      v.fine = some f → f.map Prod.fst = c.keys →
      (∀ (i : Nat) (w : View Op), vs[i]? = some w → w.flat = .op o none [.flatten o (f.map Prod.snd)] i ∧
        w.fine = none ∧ w.prefer = false) → Outcome c g o [v] vs []

theorem visit_outcome {c : Config Op Coll} {g : OpGraph Op} (hs : Shape c g)
    (hc : c.cache.isSome = true) (hne : c.keys ≠ []) {o : Op} {ins : List (View Op)}
    (hins : List.Forall₂ (Fine c g) (g.inputs o) ins) :
    ∃ vs ws, c.visit o ins = .ok (vs, ws) ∧ Outcome c g o ins vs ws := by
  have hplain : ∀ n v, Fine c g n v → ¬ FirstPhase c.info g n.1 →
      v.fine = none ∧ v.prefer = false := fun n v hv hp => hv.notFirst hp
  by_cases hk : (c.info o).kind = .applySavedModel 0
  · obtain ⟨mo, io, hio, _, _, _⟩ := hs.apply o hk
    rw [hio] at hins
    obtain ⟨vm, vi, rfl, hvm, hvi⟩ : ∃ vm vi, ins = [vm, vi] ∧ Fine c g (mo, 0) vm ∧
        Fine c g (io, 0) vi := by
      cases hins with
      | cons h1 h2 => obtain ⟨y, rfl, h3⟩ := forall₂_one h2; exact ⟨_, y, rfl, h1, h3⟩
    have hsev := hs.several o (by rw [hio]; simp)
    have hm0 := hplain _ _ hvm (hsev (mo, 0) (by rw [hio]; simp))
    have hi0 := hplain _ _ hvi (hsev (io, 0) (by rw [hio]; simp))
    exact ⟨_, _, visit_apply hs hk hm0.1 hi0.1, .apply hk hm0.1 hi0.1⟩
  · by_cases hp : (c.info o).isPartitionable = true
    · by_cases hf : FirstPhase c.info g o
      · obtain ⟨n, hin, hfn⟩ : ∃ n, g.inputs o = [n] ∧ FirstPhase c.info g n.1 := by
          cases hf with
          | apply h => exact absurd h hk
          | step _ _ h1 h2 => exact ⟨_, h1, h2⟩
        rw [hin] at hins
        obtain ⟨v, rfl, hv⟩ := forall₂_one hins
        obtain ⟨f, p, hvf, hfk, hvp, hpo⟩ := hv.first hfn
        obtain ⟨q, key, fine, ws, hPq, hkey, hvis, hfine, hw1, hw2⟩ :=
          visit_step hs hc hne hk hp hin hf hvf hfk hvp hpo
        exact ⟨_, _, hvis, .step hk hf hin hfn hvf hfk hkey hfine hw1 hw2⟩
      · have hall : ∀ v ∈ ins, v.fine = none ∧ v.prefer = false := by
          intro v hv
          obtain ⟨n, hn, hv⟩ := exists_left hins hv
          refine hv.notFirst ?_
          intro hfn
          by_cases hl : 2 ≤ (g.inputs o).length
          · exact absurd hfn (hs.several o hl n hn)
          · have hone : g.inputs o = [n] := by
              cases hgi : g.inputs o with
              | nil => rw [hgi] at hn; simp at hn
              | cons a l =>
                cases l with
                | nil => rw [hgi] at hn; simp at hn; rw [hn]
                | cons b l => rw [hgi] at hl; simp at hl
            exact hf (.step hk hp hone hfn)
        have hne' : ins ≠ [] := by
          rintro rfl
          cases hgi : g.inputs o with
          | nil => exact hs.inputs o hp hgi
          | cons a l => rw [hgi] at hins; cases hins
        obtain ⟨q, hq⟩ := visit_part_other hs hc hk hp hne'
          (fun v hv => ⟨by rw [(hall v hv).1]; rfl, (hall v hv).2⟩)
        refine ⟨_, _, hq, .flat hf (fun v hv => (hall v hv).2) ?_⟩
        intro i x hx
        cases i with
        | zero => simp at hx; subst hx; exact ⟨rfl, rfl, rfl⟩
        | succ i => simp at hx
    · have hp0 : (c.info o).isPartitionable = false := by simpa using hp
      have hnf : ¬ FirstPhase c.info g o := fun h => hp (first_partitionable hs h)
      have hget : ∀ (next : List (Node Op)) (i : Nat) (w : View Op),
          ((c.outputs o next).map (fun n => (⟨false, n, none, none⟩ : View Op)))[i]? = some w →
          w.flat = .op o none next i ∧ w.fine = none ∧ w.prefer = false := by
        intro next i w h
        rw [List.getElem?_map, Option.map_eq_some_iff] at h
        obtain ⟨n, hn, rfl⟩ := h
        exact ⟨(outputs_get hn).1, rfl, rfl⟩
      by_cases hpref : ∃ v ∈ ins, v.prefer = true
      · obtain ⟨v, hv, hvp⟩ := hpref
        obtain ⟨n, hn, hgv⟩ := exists_left hins hv
        have hfn : FirstPhase c.info g n.1 := by
          by_contra h
          rw [(hgv.notFirst h).2] at hvp
          cases hvp
        have hone : g.inputs o = [n] := by
          by_cases hl : 2 ≤ (g.inputs o).length
          · exact absurd hfn (hs.several o hl n hn)
          · cases hgi : g.inputs o with
            | nil => rw [hgi] at hn; simp at hn
            | cons a l =>
              cases l with
              | nil => rw [hgi] at hn; simp at hn; rw [hn]
              | cons b l => rw [hgi] at hl; simp at hl
        rw [hone] at hins
        obtain ⟨v', rfl, _⟩ := forall₂_one hins
        have hvv : v = v' := by simpa using hv
        subst hvv
        obtain ⟨f, p, hvf, hfk, _, _⟩ := hgv.first hfn
        have hfne : f ≠ [] := by
          rintro rfl
          exact hne hfk.symm
        exact ⟨_, _, visit_flatten hs hk hp0 hvp hvf hfne, .flatten hnf hone hfn hvp hvf hfk (hget _)⟩
      · have hpf : ∀ v ∈ ins, v.prefer = false := by
          intro v hv
          by_contra h
          exact hpref ⟨v, hv, by simpa using h⟩
        exact ⟨_, _, visit_plain hs hk (by simp [hp0]) hpf, .flat hnf hpf (hget _)⟩

/-! ### The invariant without a cache or without datasets -/

/-- What a view says about the value node it stands for, when there is no cache or no dataset. -/
structure Off (c : Config Op Coll) (g : OpGraph Op) (m : Meaning Op Coll) (n : Op × Nat)
    (v : View Op) : Prop where
  prefer : v.prefer = false
  keys : ∀ f, v.fine = some f → f.map Prod.fst = c.keys
  plain : ¬ FirstPhase c.info g n.1 → v.fine = none
  cache : c.cache.isSome = true → truthy v.fine = false
  unfolds : Unfolds g n v.flat
  value : ∀ all env cache x, Value m c.info g all n x →
    v.flat.eval m c.info all env cache = .ok x

theorem off_view {c : Config Op Coll} {g : OpGraph Op} {m : Meaning Op Coll} {o : Op}
    {ins : List (View Op)} (hins : List.Forall₂ (Off c g m) (g.inputs o) ins) {i : Nat}
    {fine : Option (List (DatasetKey × Node Op))} {q : Option Bytes}
    (h1 : ∀ f, fine = some f → f.map Prod.fst = c.keys)
    (h2 : ¬ FirstPhase c.info g o → fine = none)
    (h3 : c.cache.isSome = true → truthy fine = false) :
    Off c g m (o, i) ⟨false, .op o none (ins.map (fun v => v.flat)) i, fine, q⟩ := by
  refine ⟨rfl, h1, h2, h3, .op ?_, ?_⟩
  · rw [List.forall₂_map_right_iff]
    exact hins.imp (fun _ _ h => h.unfolds)
  · intro all env cache x hx
    cases hx with
    | source h => simp [Node.eval, h]
    | op h h1 h2 =>
      refine eval_op h ?_ h2
      rw [List.forall₂_map_left_iff]
      exact forall₂_combine hins h1 (fun n v y hv hy => hv.value all env cache y hy)

theorem off_visit {c : Config Op Coll} {g : OpGraph Op} {m : Meaning Op Coll} (hs : Shape c g)
    (hoff : c.cache = none ∨ c.keys = []) {o : Op} {ins : List (View Op)}
    (hins : List.Forall₂ (Off c g m) (g.inputs o) ins) :
    ∃ vs, c.visit o ins = .ok (vs, []) ∧ vs.length = g.numOutputs o ∧
      ∀ i x, vs[i]? = some x → Off c g m (o, i) x ∧ c.visitor.validate x = .ok () := by
  have hpref : ∀ v ∈ ins, v.prefer = false := by
    intro v hv
    obtain ⟨n, _, h⟩ := exists_left hins hv
    exact h.prefer
  by_cases hk : (c.info o).kind = .applySavedModel 0
  · obtain ⟨mo, io, hio, _, _, _⟩ := hs.apply o hk
    have hins' := hins
    rw [hio] at hins'
    obtain ⟨vm, vi, rfl, hvm, hvi⟩ : ∃ vm vi, ins = [vm, vi] ∧ Off c g m (mo, 0) vm ∧
        Off c g m (io, 0) vi := by
      cases hins' with
      | cons h1 h2 => obtain ⟨y, rfl, h3⟩ := forall₂_one h2; exact ⟨_, y, rfl, h1, h3⟩
    have hsev := hs.several o (by rw [hio]; simp)
    have hm0 := hvm.plain (hsev (mo, 0) (by rw [hio]; simp))
    have hi0 := hvi.plain (hsev (io, 0) (by rw [hio]; simp))
    refine ⟨_, visit_apply hs hk hm0 hi0, by
      simp [hs.one o (hs.applyPart o hk).1], ?_⟩
    intro i x hx
    obtain ⟨rfl, rfl⟩ : i = 0 ∧ x = ⟨false, .op o none [vm.flat, vi.flat] 0,
        some (applyViews o vm.flat 0 c.keys), some applySavedModelPath⟩ := by
      cases i with
      | zero => simp at hx; exact ⟨rfl, hx.symm⟩
      | succ i => simp at hx
    have hkeys : ∀ f, some (applyViews o vm.flat 0 c.keys) = some f → f.map Prod.fst = c.keys := by
      intro f hf
      cases hf
      exact applyViews_keys _ _ _ _
    refine ⟨off_view hins hkeys ?_ ?_, validate_good hkeys⟩
    · intro h
      exact absurd (.apply hk) h
    · intro h
      rcases hoff with h' | h'
      · rw [h'] at h; cases h
      · rw [h']; rfl
  · cases hp : (c.cache.isSome && (c.info o).isPartitionable) with
    | true =>
      rw [Bool.and_eq_true] at hp
      have hne' : ins ≠ [] := by
        rintro rfl
        cases hgi : g.inputs o with
        | nil => exact hs.inputs o hp.2 hgi
        | cons a l => rw [hgi] at hins; cases hins
      obtain ⟨q, hq⟩ := visit_part_other hs hp.1 hk hp.2 hne' (fun v hv => by
        obtain ⟨n, _, h⟩ := exists_left hins hv
        exact ⟨h.cache hp.1, h.prefer⟩)
      refine ⟨_, hq, by simp [hs.one o hp.2], ?_⟩
      intro i x hx
      obtain ⟨rfl, rfl⟩ : i = 0 ∧ x = ⟨false, .op o none (ins.map (fun v => v.flat)) 0, none, q⟩ := by
        cases i with
        | zero => simp at hx; exact ⟨rfl, hx.symm⟩
        | succ i => simp at hx
      exact ⟨off_view hins (by intro f hf; cases hf) (fun _ => rfl) (fun _ => rfl),
        validate_good (by intro f hf; cases hf)⟩
    | false =>
      refine ⟨_, visit_plain hs hk hp hpref, by
        simp [Config.outputs, hs.numOutputs], ?_⟩
      intro i x hx
      rw [List.getElem?_map, Option.map_eq_some_iff] at hx
      obtain ⟨n, hn, rfl⟩ := hx
      obtain ⟨rfl, _⟩ := outputs_get hn
      exact ⟨off_view hins (by intro f hf; cases hf) (fun _ => rfl) (fun _ => rfl),
        validate_good (by intro f hf; cases hf)⟩

theorem off_keeps {c : Config Op Coll} {g : OpGraph Op} {m : Meaning Op Coll} (hs : Shape c g)
    (hoff : c.cache = none ∨ c.keys = []) (Need : Op → Prop) :
    Keeps g c.visitor Need (Off c g m) := by
  intro calls o ins _ hins
  obtain ⟨vs, h1, h2, h3⟩ := off_visit hs hoff hins
  exact ⟨vs, by simp only [Config.visitor, h1, Except.map], h2, h3⟩

/-! ### Which datasets are read -/

mutual
theorem eval_congr (m : Meaning Op Coll) (info : Op → OpInfo) {all all' : Coll}
    {env env' : DatasetKey → Coll} (cache : DatasetKey → Bytes → Option Coll) :
    ∀ n : Node Op, (∀ k, some k ∈ n.datasetKeys info → env k = env' k) →
      (none ∈ n.datasetKeys info → all = all') →
      n.eval m info all env cache = n.eval m info all' env' cache
  | .op o d ins i, h1, h2 => by
    by_cases hk : (info o).kind = .extractInput
    · simp only [Node.eval, if_pos hk]
      rw [h2 (by simp [Node.datasetKeys, hk])]
    · simp only [Node.datasetKeys, if_neg hk] at h1 h2
      simp only [Node.eval, if_neg hk, evalList_congr m info cache ins h1 h2]
  | .extractInput _ k, h1, _ => by
    simp only [Node.eval]
    rw [h1 k (by simp [Node.datasetKeys])]
  | .flatten _ ins, h1, h2 => by
    simp only [Node.datasetKeys] at h1 h2
    simp only [Node.eval, evalList_congr m info cache ins h1 h2]
  | .decodeCache _ _ _ _, _, _ => rfl
  | .encodeCache _ _ n, h1, h2 => by
    simp only [Node.datasetKeys] at h1 h2
    simp only [Node.eval, eval_congr m info cache n h1 h2]

theorem evalList_congr (m : Meaning Op Coll) (info : Op → OpInfo) {all all' : Coll}
    {env env' : DatasetKey → Coll} (cache : DatasetKey → Bytes → Option Coll) :
    ∀ ns : List (Node Op), (∀ k, some k ∈ datasetKeysList info ns → env k = env' k) →
      (none ∈ datasetKeysList info ns → all = all') →
      evalList m info all env cache ns = evalList m info all' env' cache ns
  | [], _, _ => rfl
  | n :: ns, h1, h2 => by
    simp only [datasetKeysList, List.mem_append] at h1 h2
    simp only [evalList, eval_congr m info cache n (fun k h => h1 k (Or.inl h)) (fun h => h2 (Or.inl h)),
      evalList_congr m info cache ns (fun k h => h1 k (Or.inr h)) (fun h => h2 (Or.inr h))]
end

theorem mem_keysList {info : Op → OpInfo} {d : Option DatasetKey} : ∀ {ns : List (Node Op)},
    d ∈ datasetKeysList info ns ↔ ∃ n ∈ ns, d ∈ n.datasetKeys info := by
  intro ns
  induction ns with
  | nil => simp [datasetKeysList]
  | cons n ns ih => simp [datasetKeysList, ih]

/-- What a view says about the datasets that its nodes read. -/
structure Reads (c : Config Op Coll) (g : OpGraph Op) (Full : DatasetKey → Prop) (n : Op × Nat)
    (v : View Op) : Prop where
  fine : ∀ f, v.fine = some f → ∀ kn ∈ f, ∀ d ∈ kn.2.datasetKeys c.info, d = some kn.1
  full : ∀ f, v.fine = some f → AfterCoder c.info g n.1 → ∀ kn ∈ f, Full kn.1 →
    kn.2.datasetKeys c.info = []
  prefer : AfterCoder c.info g n.1 → v.prefer = true
  keys : ∀ k, some k ∈ v.flat.datasetKeys c.info → k ∈ c.keys
  leaf : g.inputs n.1 = [] → (c.info n.1).kind ≠ .extractInput → v.flat.datasetKeys c.info = []
  covered : Covered c.info g n.1 → ∀ d ∈ v.flat.datasetKeys c.info, ∃ k, d = some k ∧ ¬ Full k

theorem not_after_apply {c : Config Op Coll} {g : OpGraph Op} (hs : Shape c g) {o : Op}
    (hk : (c.info o).kind = .applySavedModel 0) (h : AfterCoder c.info g o) : False := by
  cases h with
  | here _ h => rw [(hs.applyPart o hk).2] at h; cases h
  | step _ h _ _ => exact h hk

theorem after_first {info : Op → OpInfo} {g : OpGraph Op} {o : Op} (h : AfterCoder info g o) :
    FirstPhase info g o := by
  cases h with
  | here h _ => exact h
  | step h _ _ _ => exact h

theorem covered_not_first {info : Op → OpInfo} {g : OpGraph Op} {o : Op} (h : Covered info g o) :
    ¬ FirstPhase info g o := by
  cases h with
  | op _ h _ => exact h

theorem lookup_mem {f : List (DatasetKey × Node Op)} {k : DatasetKey} {n : Node Op}
    (h : f.lookup k = some n) : (k, n) ∈ f := by
  induction f with
  | nil => simp at h
  | cons a f ih =>
    obtain ⟨k', n'⟩ := a
    rw [List.lookup_cons] at h
    by_cases hk : (k == k') = true
    · rw [hk] at h
      simp at h hk
      subst h hk
      simp
    · have : (k == k') = false := by simpa using hk
      rw [this] at h
      exact List.mem_cons_of_mem _ (ih h)

theorem reads_outcome {c : Config Op Coll} {g : OpGraph Op} (hs : Shape c g)
    {Full : DatasetKey → Prop} {o : Op} {ins vs : List (View Op)} {ws : List (Write Op)}
    (hfull : ∀ key k, FirstPhase c.info g o → (c.info o).hasCoder = true → KeyOf c g o key →
      Full k → c.hasEntry k key = true)
    (hins : List.Forall₂ (Reads c g Full) (g.inputs o) ins) (h : Outcome c g o ins vs ws) :
    ∀ i x, vs[i]? = some x → Reads c g Full (o, i) x := by
  have hflatKeys : ∀ i d, d ∈ (Node.op o none (ins.map (fun v => v.flat)) i).datasetKeys c.info →
      (d = none ∧ (c.info o).kind = .extractInput) ∨
        (c.info o).kind ≠ .extractInput ∧ ∃ n ∈ g.inputs o, ∃ v ∈ ins, Reads c g Full n v ∧
          d ∈ v.flat.datasetKeys c.info := by
    intro i d hd
    by_cases hk : (c.info o).kind = .extractInput
    · simp [Node.datasetKeys, hk] at hd
      exact Or.inl ⟨hd, hk⟩
    · simp only [Node.datasetKeys, if_neg hk] at hd
      obtain ⟨n, hn, hd⟩ := mem_keysList.1 hd
      obtain ⟨v, hv, rfl⟩ := List.mem_map.1 hn
      obtain ⟨n, hn, h⟩ := exists_left hins hv
      exact Or.inr ⟨hk, n, hn, v, hv, h, hd⟩
  have hkeys : ∀ i k, some k ∈ (Node.op o none (ins.map (fun v => v.flat)) i).datasetKeys c.info →
      k ∈ c.keys := by
    intro i k hd
    rcases hflatKeys i _ hd with ⟨h, _⟩ | ⟨_, n, _, v, _, h, hd⟩
    · cases h
    · exact h.keys k hd
  have hleaf : ∀ i, g.inputs o = [] → (c.info o).kind ≠ .extractInput →
      (Node.op o none (ins.map (fun v => v.flat)) i).datasetKeys c.info = [] := by
    intro i hi hk
    rw [List.eq_nil_iff_forall_not_mem]
    intro d hd
    rcases hflatKeys i _ hd with ⟨_, h⟩ | ⟨_, n, hn, _⟩
    · exact hk h
    · rw [hi] at hn; simp at hn
  cases h with
  | @apply vm vi hk _ _ =>
    obtain ⟨mo, io, hio, hmi, hmk, hik⟩ := hs.apply o hk
    intro i x hx
    obtain ⟨rfl, rfl⟩ : i = 0 ∧ x = ⟨false, .op o none [vm.flat, vi.flat] 0,
        some (applyViews o vm.flat 0 c.keys), some applySavedModelPath⟩ := by
      cases i with
      | zero => simp at hx; exact ⟨rfl, hx.symm⟩
      | succ i => simp at hx
    rw [hio] at hins
    have hvm : Reads c g Full (mo, 0) vm := by cases hins with | cons h1 _ => exact h1
    have hmod := hvm.leaf hmi hmk
    refine ⟨?_, fun _ _ h => (not_after_apply hs hk h).elim,
      fun h => (not_after_apply hs hk h).elim, hkeys 0, ?_,
      fun h => absurd (.apply hk) (covered_not_first h)⟩
    · intro f hf kn hkn d hd
      cases hf
      obtain ⟨k, hk', i, hi⟩ : ∃ k, kn.1 = k ∧ ∃ i, kn.2 = .op o (some i) [vm.flat, .extractInput i k] 0 := by
        have h1 := forall₂_and (applyViews_nodes o vm.flat c.keys 0)
          (List.forall₂_iff_get.2 ⟨(List.length_map _).symm.trans
            (congrArg List.length (applyViews_keys o vm.flat c.keys 0)) |>.symm,
            fun j h1 h2 => ?_⟩ : List.Forall₂ (fun k (kn : DatasetKey × Node Op) => kn.1 = k) c.keys
              (applyViews o vm.flat 0 c.keys))
        · obtain ⟨k, _, ⟨i, h2⟩, h3⟩ := exists_left h1 hkn
          exact ⟨k, h3, i, h2⟩
        · have := applyViews_keys o vm.flat c.keys 0
          have h4 : ((applyViews o vm.flat 0 c.keys).map Prod.fst)[j]? = c.keys[j]? := by rw [this]
          rw [List.getElem?_map, List.getElem?_eq_getElem h2, List.getElem?_eq_getElem h1] at h4
          simpa using h4
      rw [hi] at hd
      have hne : (c.info o).kind ≠ .extractInput := by rw [hk]; simp
      simp only [Node.datasetKeys, if_neg hne, datasetKeysList, hmod] at hd
      simp at hd
      rw [hd, hk']
    · intro h
      simp only [hio] at h
      cases h
  | @step n v f q key fine ws hk hf hin hfn hvf hfk hkey hfine _ _ =>
    intro i x hx
    obtain ⟨rfl, rfl⟩ : i = 0 ∧ x = ⟨v.prefer || (c.info o).hasCoder, .op o none [v.flat] 0,
        some fine, some q⟩ := by
      cases i with
      | zero => simp at hx; exact ⟨rfl, hx.symm⟩
      | succ i => simp at hx
    rw [hin] at hins
    obtain ⟨v', hv', hv⟩ := forall₂_one hins
    cases hv'
    have hne : (c.info o).kind ≠ .extractInput := first_not_source hs hf
    refine ⟨?_, ?_, ?_, hkeys 0, ?_, fun h => absurd hf (covered_not_first h)⟩
    · intro f' hf' kn hkn d hd
      cases hf'
      obtain ⟨k, _, hk', hnode⟩ := exists_left hfine hkn
      rcases hnode with ⟨_, _, i, hi⟩ | ⟨_, i, n', hl, hi⟩
      · rw [hi] at hd; simp [Node.datasetKeys] at hd
      · rw [hi] at hd
        simp only [Node.datasetKeys, if_neg hne, datasetKeysList, List.append_nil] at hd
        rw [hk']
        exact hv.fine f hvf (k, n') (lookup_mem hl) d hd
    · intro f' hf' hafter kn hkn hF
      cases hf'
      obtain ⟨k, _, hk', hnode⟩ := exists_left hfine hkn
      rw [hk'] at hF
      rcases hnode with ⟨_, _, i, hi⟩ | ⟨hno, i, n', hl, hi⟩
      · rw [hi]; simp [Node.datasetKeys]
      · rw [hi]
        simp only [Node.datasetKeys, if_neg hne, datasetKeysList, List.append_nil]
        cases hcd : (c.info o).hasCoder with
        | true =>
          rw [hcd, hfull key k hf hcd hkey hF] at hno
          cases hno
        | false =>
          cases hafter with
          | here _ h => rw [hcd] at h; cases h
          | step _ _ hin' ha =>
            rw [hin] at hin'
            cases hin'
            exact hv.full f hvf ha (k, n') (lookup_mem hl) hF
    · intro hafter
      cases hafter with
      | here _ h => simp only at h; simp [h]
      | step _ _ hin' ha =>
        simp only at hin'
        rw [hin] at hin'
        cases hin'
        simp [hv.prefer ha]
    · intro h
      simp only [hin] at h
      cases h
  | flat hnf hpf hout =>
    intro i x hx
    obtain ⟨h1, h2, h3⟩ := hout i x hx
    refine ⟨?_, ?_, fun h => absurd (after_first h) hnf, by rw [h1]; exact hkeys i,
      by rw [h1]; exact hleaf i, ?_⟩
    · intro f hf; rw [h2] at hf; cases hf
    · intro f hf; rw [h2] at hf; cases hf
    · intro hcov d hd
      rw [h1] at hd
      rcases hflatKeys i _ hd with ⟨_, h⟩ | ⟨_, n, hn, v, hv, h, hd⟩
      · cases hcov with | op h' _ _ => exact absurd h h'
      · cases hcov with
        | op _ _ hall =>
          rcases or_iff_not_imp_left.2 (hall n hn) with ha | hcn
          · have := h.prefer ha
            rw [hpf v hv] at this
            cases this
          · exact h.covered hcn d hd
  | @flatten n v f vs hnf hin hfn hvp hvf hfk hout =>
    intro i x hx
    obtain ⟨h1, h2, h3⟩ := hout i x hx
    rw [hin] at hins
    obtain ⟨v', hv', hv⟩ := forall₂_one hins
    cases hv'
    have hmem : ∀ d, d ∈ (Node.op o none [.flatten o (f.map Prod.snd)] i).datasetKeys c.info →
        (c.info o).kind ≠ .extractInput → ∃ kn ∈ f, d ∈ kn.2.datasetKeys c.info := by
      intro d hd hne
      simp only [Node.datasetKeys, if_neg hne, datasetKeysList, List.append_nil] at hd
      obtain ⟨n', hn', hd⟩ := mem_keysList.1 hd
      obtain ⟨kn, hkn, rfl⟩ := List.mem_map.1 hn'
      exact ⟨kn, hkn, hd⟩
    have hne : (c.info o).kind ≠ .extractInput := by
      intro h
      rw [(hs.source o h).2.1] at hin
      cases hin
    refine ⟨?_, ?_, fun h => absurd (after_first h) hnf, ?_, ?_, ?_⟩
    · intro f hf; rw [h2] at hf; cases hf
    · intro f hf; rw [h2] at hf; cases hf
    · intro k hd
      rw [h1] at hd
      obtain ⟨kn, hkn, hd⟩ := hmem _ hd hne
      have := hv.fine f hvf kn hkn _ hd
      cases this
      rw [← hfk]
      exact List.mem_map.2 ⟨kn, hkn, rfl⟩
    · intro h
      simp only [hin] at h
      cases h
    · intro hcov d hd
      rw [h1] at hd
      obtain ⟨kn, hkn, hd⟩ := hmem _ hd hne
      have hdk := hv.fine f hvf kn hkn _ hd
      refine ⟨kn.1, hdk, ?_⟩
      intro hF
      cases hcov with
      | op _ _ hall =>
        rcases or_iff_not_imp_left.2 (hall n (by simp only [hin]; simp)) with ha | hcn
        · rw [hv.full f hvf ha kn hkn hF] at hd
          simp at hd
        · exact absurd hfn (covered_not_first hcn)

theorem fine_keeps {c : Config Op Coll} {g : OpGraph Op} (hs : Shape c g)
    (hc : c.cache.isSome = true) (hne : c.keys ≠ []) {o : Op} {ins vs : List (View Op)}
    {ws : List (Write Op)} (hins : List.Forall₂ (Fine c g) (g.inputs o) ins)
    (hv : c.visit o ins = .ok (vs, ws)) : Outcome c g o ins vs ws := by
  obtain ⟨vs', ws', h1, h2⟩ := visit_outcome hs hc hne hins
  rw [hv] at h1
  cases h1
  exact h2

/-- The two invariants together. -/
theorem both_keeps {c : Config Op Coll} {g : OpGraph Op} {m : Meaning Op Coll}
    {R : Op → Coll → Coll → Prop} {env : DatasetKey → Coll} (hs : Shape c g) (hr : Contract c g m R)
    (hg : GoodCache c g m env (entries c)) (hc : c.cache.isSome = true) (hne : c.keys ≠ [])
    (hnd : c.keys.Nodup) (target : Op × Nat) :
    Keeps g c.visitor (Reach g target.1) (fun n v => Good c g m R env n v ∧
      Reads c g (FullyCached c g target) n v) := by
  intro calls o ins hneed hins
  have h1 : List.Forall₂ (Good c g m R env) (g.inputs o) ins := hins.imp (fun _ _ h => h.1)
  have h2 : List.Forall₂ (Reads c g (FullyCached c g target)) (g.inputs o) ins :=
    hins.imp (fun _ _ h => h.2)
  obtain ⟨outs, h3, h4, h5⟩ := optimize_keeps hs hr hg hc hne hnd (Reach g target.1) calls o ins hneed h1
  refine ⟨outs, h3, h4, ?_⟩
  intro i x hx
  refine ⟨⟨(h5 i x hx).1, ?_⟩, (h5 i x hx).2⟩
  cases hv : c.visit o ins with
  | error e => simp [Config.visitor, hv, Except.map] at h3
  | ok p =>
    obtain ⟨vs, ws⟩ := p
    simp [Config.visitor, hv, Except.map] at h3
    subst h3
    refine reads_outcome hs ?_ h2 (fine_keeps hs hc hne (h1.imp (fun _ _ h => h.toFine)) hv) i x hx
    intro key k hf hcd hkey hF
    obtain ⟨cache, e, h6, h7⟩ := hF o key hneed hf hcd hkey
    simp [Config.hasEntry, h6, h7]

/-! ### The theorems -/

section Main
variable [DecidableEq Op] [Fintype Op]

/-- What is assumed of a run: the graph has the shape that `build` makes, without cycles; the
operations keep the contract of `is_partitionable`; the datasets are distinct; and what the cache
holds is good. -/
structure Run (c : Config Op Coll) (g : OpGraph Op) (m : Meaning Op Coll)
    (R : Op → Coll → Coll → Prop) (env : DatasetKey → Coll) (target : Op × Nat) : Prop where
  shape : Shape c g
  contract : Contract c g m R
  cache : GoodCache c g m env (entries c)
  keys : c.keys.Nodup
  acyclic : ∀ o, Reach g target.1 o → ¬ OnCycle g o
  target : target.2 < g.numOutputs target.1

theorem reach_closed (g : OpGraph Op) (r : Op) : ∀ a b, Reach g r a → Dep g a b → Reach g r b :=
  fun _ _ h1 h2 => .tail h1 h2

/-- Everything about one run with a cache and at least one dataset. -/
theorem optimize_on {c : Config Op Coll} {g : OpGraph Op} {m : Meaning Op Coll}
    {R : Op → Coll → Coll → Prop} {env : DatasetKey → Coll} {target : Op × Nat}
    (h : Run c g m R env target) (hc : c.cache.isSome = true) (hne : c.keys ≠ []) :
    ∃ st v, traverse g c.visitor [target] = .ok (st, [v]) ∧
      c.optimize g target = .ok (v.flat, st.calls.flatMap c.writesOf) ∧
      Good c g m R env target v ∧ Reads c g (FullyCached c g target) target v ∧
      (∀ o, Reach g target.1 o → ∃ call ∈ st.calls, call.op = o) ∧
      ∀ call ∈ st.calls, Reach g target.1 call.op ∧
        List.Forall₂ (Good c g m R env) (g.inputs call.op) call.ins := by
  obtain ⟨st, v, h1, h2, h3⟩ := traverse_keeps h.shape.wellFormed (reach_closed g target.1) h.acyclic
    (both_keeps h.shape h.contract h.cache hc hne h.keys target) target h.target .refl
  obtain ⟨_, hs2, _⟩ := traverse_spec g h.shape.wellFormed c.visitor [target]
    (by simpa using h.target) st _ h1
  refine ⟨st, v, h1, ?_, h2.1, h2.2, ?_, ?_⟩
  · simp only [Config.optimize, h1, bind, Except.bind]
  · intro o ho
    exact (hs2 o).2 ⟨target, by simp, ho⟩
  · intro call hcall
    exact ⟨(h3 call hcall).1, (h3 call hcall).2.1.imp (fun _ _ h => h.1)⟩

theorem optimize_off {c : Config Op Coll} {g : OpGraph Op} {m : Meaning Op Coll}
    {R : Op → Coll → Coll → Prop} {env : DatasetKey → Coll} {target : Op × Nat}
    (h : Run c g m R env target) (hoff : c.cache = none ∨ c.keys = []) :
    ∃ node, c.optimize g target = .ok (node, []) ∧ Unfolds g target node ∧
      ∀ all env cache x, Value m c.info g all target x → node.eval m c.info all env cache = .ok x := by
  obtain ⟨st, v, h1, h2, h3⟩ := traverse_keeps h.shape.wellFormed (reach_closed g target.1) h.acyclic
    (off_keeps (m := m) h.shape hoff _) target h.target .refl
  have hw : st.calls.flatMap c.writesOf = [] := by
    rw [List.flatMap_eq_nil_iff]
    intro call hcall
    obtain ⟨vs, h4, _⟩ := off_visit h.shape hoff (h3 call hcall).2.1
    simp only [Config.writesOf, h4]
  exact ⟨v.flat, by simp only [Config.optimize, h1, bind, Except.bind, hw], h2.unfolds, h2.value⟩

/-- **C60.** The optimized graph computes, from the datasets and the cache, what the graph that
was optimized computes from the flattened data. -/
theorem optimized_graph_computes_the_same {c : Config Op Coll} {g : OpGraph Op}
    {m : Meaning Op Coll} {R : Op → Coll → Coll → Prop} {env : DatasetKey → Coll} {target : Op × Nat}
    (h : Run c g m R env target) {x : Coll}
    (hx : Value m c.info g (m.flatten (c.keys.map env)) target x) :
    ∃ node ws, c.optimize g target = .ok (node, ws) ∧
      node.eval m c.info (m.flatten (c.keys.map env)) env (entries c) = .ok x := by
  by_cases hc : c.cache.isSome = true
  · by_cases hne : c.keys = []
    · obtain ⟨node, h1, _, h3⟩ := optimize_off h (Or.inr hne)
      exact ⟨node, [], h1, h3 _ _ _ _ hx⟩
    · obtain ⟨st, v, _, h2, h3, _⟩ := optimize_on h hc hne
      exact ⟨_, _, h2, h3.value x hx⟩
  · obtain ⟨node, h1, _, h3⟩ := optimize_off h (Or.inl (by simpa using hc))
    exact ⟨node, [], h1, h3 _ _ _ _ hx⟩

/-- **C60.** Without a cache the optimization changes nothing, and nothing is written to a
cache. -/
theorem without_cache_the_graph_is_unchanged {c : Config Op Coll} {g : OpGraph Op}
    {m : Meaning Op Coll} {R : Op → Coll → Coll → Prop} {env : DatasetKey → Coll} {target : Op × Nat}
    (h : Run c g m R env target) (hc : c.cache = none) :
    ∃ node, c.optimize g target = .ok (node, []) ∧ Unfolds g target node := by
  obtain ⟨node, h1, h2, _⟩ := optimize_off h (Or.inl hc)
  exact ⟨node, h1, h2⟩

theorem unfolds_keys {c : Config Op Coll} {g : OpGraph Op} : ∀ (node : Node Op) (n : Op × Nat),
    Unfolds g n node → ∀ k, some k ∉ node.datasetKeys c.info := by
  intro node
  induction node using Node.rec (motive_2 := fun ns => ∀ (l : List (Op × Nat)),
      List.Forall₂ (Unfolds g) l ns → ∀ k, some k ∉ datasetKeysList c.info ns) with
  | op o d ins i ih =>
    intro n hu k hk
    cases hu with
    | op h =>
      by_cases he : (c.info o).kind = .extractInput
      · simp [Node.datasetKeys, he] at hk
      · simp only [Node.datasetKeys, if_neg he] at hk
        exact ih _ h k hk
  | extractInput => intro n hu; cases hu
  | flatten => intro n hu; cases hu
  | decodeCache => intro n hu; cases hu
  | encodeCache => intro n hu; cases hu
  | nil => intro hk; simp [datasetKeysList] at hk
  | cons n ns ih1 ih2 =>
    rename_i l h k
    intro hk
    cases h with
    | cons h1 h2 =>
      simp only [datasetKeysList, List.mem_append] at hk
      rcases hk with hk | hk
      · exact ih1 _ h1 k hk
      · exact ih2 _ h2 k hk

/-- **C60.** The datasets that `get_analysis_dataset_keys` names are among the given ones, and
any other dataset can be replaced by any data (in practice it is not even read) without changing
what the optimized graph computes. -/
theorem only_required_datasets_matter {c : Config Op Coll} {g : OpGraph Op}
    {m : Meaning Op Coll} {R : Op → Coll → Coll → Prop} {env : DatasetKey → Coll} {target : Op × Nat}
    (h : Run c g m R env target) :
    ∃ node ws, c.optimize g target = .ok (node, ws) ∧
      (∀ k ∈ c.requiredKeys node, k ∈ c.keys) ∧
      ∀ env', (∀ k ∈ c.requiredKeys node, env' k = env k) →
        ∀ x, Value m c.info g (m.flatten (c.keys.map env)) target x →
          node.eval m c.info (m.flatten (c.keys.map env')) env' (entries c) = .ok x := by
  have key : ∀ node : Node Op, (∀ k, some k ∈ node.datasetKeys c.info → k ∈ c.keys) →
      (∀ x, Value m c.info g (m.flatten (c.keys.map env)) target x →
        node.eval m c.info (m.flatten (c.keys.map env)) env (entries c) = .ok x) →
      (∀ k ∈ c.requiredKeys node, k ∈ c.keys) ∧
      ∀ env', (∀ k ∈ c.requiredKeys node, env' k = env k) →
        ∀ x, Value m c.info g (m.flatten (c.keys.map env)) target x →
          node.eval m c.info (m.flatten (c.keys.map env')) env' (entries c) = .ok x := by
    intro node h1 h2
    have hreq : ∀ k, some k ∈ node.datasetKeys c.info → k ∈ c.requiredKeys node := by
      intro k hk
      unfold Config.requiredKeys
      by_cases ha : (node.datasetKeys c.info).any (fun k => k.isNone) = true
      · simp only [ha, if_true]
        exact h1 k hk
      · simp only [ha]
        simpa using hk
    constructor
    · intro k hk
      unfold Config.requiredKeys at hk
      by_cases ha : (node.datasetKeys c.info).any (fun k => k.isNone) = true
      · simpa only [ha, if_true] using hk
      · simp only [ha] at hk
        exact h1 k (by simpa using hk)
    · intro env' he x hx
      rw [← h2 x hx]
      refine eval_congr m c.info (entries c) node (fun k hk => he k (hreq k hk)) ?_
      intro hnone
      have ha : (node.datasetKeys c.info).any (fun k => k.isNone) = true := by
        rw [List.any_eq_true]
        exact ⟨none, hnone, rfl⟩
      have : ∀ k ∈ c.keys, env' k = env k := by
        intro k hk
        refine he k ?_
        unfold Config.requiredKeys
        simpa only [ha, if_true] using hk
      rw [List.map_congr_left this]
  by_cases hon : c.cache.isSome = true ∧ c.keys ≠ []
  · obtain ⟨st, v, _, h2, h3, h4, _⟩ := optimize_on h hon.1 hon.2
    exact ⟨_, _, h2, key _ h4.keys h3.value⟩
  · have hoff : c.cache = none ∨ c.keys = [] := by
      by_cases hc : c.cache = none
      · exact Or.inl hc
      · right
        by_contra hk
        exact hon ⟨by simpa [Option.isSome_iff_ne_none] using hc, hk⟩
    obtain ⟨node, h1, h2, h3⟩ := optimize_off h hoff
    exact ⟨node, [], h1, key _ (fun k hk => absurd hk (unfolds_keys node target h2 k))
      (fun x hx => h3 _ _ _ x hx)⟩

/-- **C60.** If the result gets at the data only through cacheable outputs of the first phase,
then a dataset with all its entries in the cache is not required. -/
theorem fully_cached_datasets_are_not_required {c : Config Op Coll} {g : OpGraph Op}
    {m : Meaning Op Coll} {R : Op → Coll → Coll → Prop} {env : DatasetKey → Coll} {target : Op × Nat}
    (h : Run c g m R env target) (hc : c.cache ≠ none) (hne : c.keys ≠ [])
    (hcov : Covered c.info g target.1) :
    ∃ node ws, c.optimize g target = .ok (node, ws) ∧
      ∀ k ∈ c.requiredKeys node, k ∈ c.keys ∧ ¬ FullyCached c g target k := by
  obtain ⟨st, v, _, h2, h3, h4, _⟩ := optimize_on h
    (by simpa [Option.isSome_iff_ne_none] using hc) hne
  refine ⟨_, _, h2, ?_⟩
  intro k hk
  have hall := h4.covered hcov
  have ha : (v.flat.datasetKeys c.info).any (fun k => k.isNone) = false := by
    rw [List.any_eq_false]
    intro d hd
    obtain ⟨k, rfl, _⟩ := hall d hd
    simp
  unfold Config.requiredKeys at hk
  simp only [ha] at hk
  have hmem : some k ∈ v.flat.datasetKeys c.info := by simpa using hk
  obtain ⟨k', hk', hn⟩ := hall _ hmem
  cases hk'
  exact ⟨h4.keys k hmem, hn⟩

/-! ### What is written -/

theorem pathOf_unique {c : Config Op Coll} {g : OpGraph Op} {o : Op} {p : Bytes}
    (h : PathOf c g o p) : ∀ {q}, PathOf c g o q → p = q := by
  induction h with
  | apply hk =>
    intro q hq
    cases hq with
    | apply _ => rfl
    | step h _ _ _ _ => exact absurd hk h
  | step hk _ hin _ hn ih =>
    intro q hq
    cases hq with
    | apply h => exact absurd h hk
    | step _ _ hin' hp' hn' =>
      rw [hin] at hin'
      cases hin'
      rw [ih hp', hn'] at hn
      cases hn
      rfl

theorem keyOf_unique {c : Config Op Coll} {g : OpGraph Op} {o : Op} {key key' : Bytes}
    (h : KeyOf c g o key) (h' : KeyOf c g o key') : key = key' := by
  obtain ⟨p, h1, h2⟩ := h
  obtain ⟨q, h3, h4⟩ := h'
  rw [pathOf_unique h1 h3, h4] at h2
  cases h2
  rfl

theorem value_mem {α β : Type} {A : α → β → Prop} {l : List α} {ys : List β}
    (h : List.Forall₂ A l ys) {a : α} (ha : a ∈ l) : ∃ y, A a y := by
  induction h with
  | nil => simp at ha
  | cons h _ ih =>
    rcases List.mem_cons.1 ha with rfl | ha
    · exact ⟨_, h⟩
    · exact ih ha

theorem value_reach {c : Config Op Coll} {g : OpGraph Op} {m : Meaning Op Coll} (hs : Shape c g)
    {all : Coll} {n : Op × Nat} (hn : n.2 < g.numOutputs n.1) {x : Coll}
    (hx : Value m c.info g all n x) {o : Op} (ho : Reach g n.1 o) :
    ∃ j y, j < g.numOutputs o ∧ Value m c.info g all (o, j) y := by
  induction ho with
  | refl => exact ⟨n.2, x, hn, hx⟩
  | @tail a b _ hab ih =>
    obtain ⟨j, y, _, hy⟩ := ih
    obtain ⟨i, hi⟩ := hab
    cases hy with
    | source hk => rw [(hs.source a hk).2.1] at hi; simp at hi
    | op _ h1 _ =>
      obtain ⟨z, hz⟩ := value_mem h1 hi
      exact ⟨i, z, hs.wellFormed a _ hi, hz⟩

theorem fine_at {A B : Type} {S : DatasetKey → A → Prop} {T : A → B → Prop} {U : DatasetKey → B → Prop}
    {ks : List DatasetKey} {fs : List A} {ps : List B} (h1 : List.Forall₂ S ks fs)
    (h2 : List.Forall₂ T fs ps) (h3 : List.Forall₂ U ks ps) {k : DatasetKey} (hk : k ∈ ks) :
    ∃ a p, S k a ∧ T a p ∧ U k p := by
  induction h1 generalizing ps with
  | nil => simp at hk
  | cons h _ ih =>
    cases h2 with
    | cons h2 h2' =>
      cases h3 with
      | cons h3 h3' =>
        rcases List.mem_cons.1 hk with rfl | hk
        · exact ⟨_, _, h, h2, h3⟩
        · exact ih h2' h3' hk

theorem hasEntry_false {c : Config Op Coll} {k : DatasetKey} {key : Bytes} :
    c.hasEntry k key = false ↔ entries c k key = none := by
  unfold Config.hasEntry entries
  cases c.cache with
  | none => simp
  | some cache => simp

/-- **C60.** What is written to the cache: for every dataset that is to be cached and every
cacheable operation of the first phase that the analysis needs, unless there is an entry
already, what the operation computes on that dataset alone, encoded; and nothing else. -/
theorem written_entries {c : Config Op Coll} {g : OpGraph Op}
    {m : Meaning Op Coll} {R : Op → Coll → Coll → Prop} {env : DatasetKey → Coll} {target : Op × Nat}
    (h : Run c g m R env target) (hc : c.cache ≠ none) {x : Coll}
    (hx : Value m c.info g (m.flatten (c.keys.map env)) target x) :
    ∃ node ws, c.optimize g target = .ok (node, ws) ∧
      (∀ k key n, ((k, key), n) ∈ ws → k ∈ c.keys ∧ k.isCached = true ∧ entries c k key = none ∧
        ∃ o p, Reach g target.1 o ∧ FirstPhase c.info g o ∧ (c.info o).hasCoder = true ∧
          KeyOf c g o key ∧ Value m c.info g (env k) (o, 0) p ∧
          n.eval m c.info (m.flatten (c.keys.map env)) env (entries c) = .ok (m.encode o p)) ∧
      (∀ o k key, Reach g target.1 o → FirstPhase c.info g o → (c.info o).hasCoder = true →
        KeyOf c g o key → k ∈ c.keys → k.isCached = true → entries c k key = none →
        ∃ n, ((k, key), n) ∈ ws) := by
  by_cases hne : c.keys = []
  · obtain ⟨node, h1, _⟩ := optimize_off h (Or.inr hne)
    refine ⟨node, [], h1, by simp, ?_⟩
    intro o k key _ _ _ _ hk
    rw [hne] at hk
    simp at hk
  · have hsome : c.cache.isSome = true := by simpa [Option.isSome_iff_ne_none] using hc
    obtain ⟨st, v, _, h2, _, _, h5, h6⟩ := optimize_on h hsome hne
    have hwrites : ∀ call ∈ st.calls, ∃ vs ws, c.visit call.op call.ins = .ok (vs, ws) ∧
        c.writesOf call = ws ∧ Outcome c g call.op call.ins vs ws := by
      intro call hcall
      obtain ⟨vs, ws, h7, h8⟩ := visit_outcome h.shape hsome hne
        ((h6 call hcall).2.imp (fun _ _ h => h.toFine))
      exact ⟨vs, ws, h7, by simp only [Config.writesOf, h7], h8⟩
    refine ⟨_, _, h2, ?_, ?_⟩
    · intro k key n hn
      obtain ⟨call, hcall, hw⟩ := List.mem_flatMap.1 hn
      obtain ⟨vs, ws, h7, h8, h9⟩ := hwrites call hcall
      rw [h8] at hw
      obtain ⟨hreach, hgood⟩ := h6 call hcall
      obtain ⟨op, ins, outs⟩ := call
      simp only at h7 h8 h9 hreach hgood
      have hkeep := optimize_keeps h.shape h.contract h.cache hsome hne h.keys (Reach g target.1)
        [] op ins hreach hgood
      obtain ⟨outs', ho1, _, ho3⟩ := hkeep
      simp only [Config.visitor, h7, Except.map, Except.ok.injEq] at ho1
      subst ho1
      cases h9 with
      | apply => simp at hw
      | flat => simp at hw
      | flatten => simp at hw
      | @step n0 v f q key0 fine ws hk hf hin hfn hvf hfk hkey hfine hw1 hw2 =>
        obtain ⟨k0, hk0, hcd, hca, hen, i, n1, hl, hweq⟩ := hw1 _ hw
        cases hweq
        refine ⟨hk0, hca, hasEntry_false.1 hen, op, ?_⟩
        obtain ⟨j, y, hj, hy⟩ := value_reach h.shape h.target hx hreach
        rw [h.shape.one op (first_partitionable h.shape hf)] at hj
        have hj0 : j = 0 := by omega
        subst hj0
        obtain ⟨ps, hp1, hp2, _⟩ := (ho3 0 _ rfl).1.parts y fine hy rfl
        obtain ⟨kn, p, ⟨_, hnode⟩, hT, hU⟩ := fine_at hfine hp2 hp1 hk0
        refine ⟨p, hreach, hf, hcd, hkey, hU, ?_⟩
        rcases hnode with ⟨_, he, _⟩ | ⟨_, i', n2, hl2, hi'⟩
        · rw [hen] at he; cases he
        · rw [hl] at hl2
          cases hl2
          rw [hi'] at hT
          have hT' : (Node.op op (some i) [n1] 0).eval m c.info (m.flatten (c.keys.map env)) env
              (entries c) = .ok p := by
            rw [← hT]
            simp only [Node.eval]
          show (Node.encodeCache op i (Node.op op (some i) [n1] 0)).eval m c.info
            (m.flatten (c.keys.map env)) env (entries c) = _
          unfold Node.eval
          rw [hT']
          rfl
    · intro o k key hreach hf hcd hkey hk hca hen
      obtain ⟨call, hcall, rfl⟩ := h5 o hreach
      obtain ⟨vs, ws, h7, h8, h9⟩ := hwrites call hcall
      obtain ⟨op, ins, outs⟩ := call
      simp only at h7 h8 h9 hreach hf hcd hkey
      have : ∃ n, ((k, key), n) ∈ ws := by
        cases h9 with
        | apply hk' => rw [(h.shape.applyPart op hk').2] at hcd; cases hcd
        | flat h' => exact absurd hf h'
        | flatten h' => exact absurd hf h'
        | step _ _ _ _ _ _ hkey' _ _ hw2 =>
          rw [keyOf_unique hkey hkey'] at hen ⊢
          obtain ⟨w, hw, _, _, _, i, n, _, rfl⟩ := hw2 k hk hcd hca (hasEntry_false.2 hen)
          exact ⟨_, hw⟩
      obtain ⟨n, hn⟩ := this
      exact ⟨n, List.mem_flatMap.2 ⟨_, hcall, by rw [h8]; exact hn⟩⟩

/-! ### A sequence of runs -/

/-- The run of the analysis on other datasets and with another cache. -/
def _root_.TFT.Graph.Optimize.Config.on (c : Config Op Coll) (keys : List DatasetKey)
    (cache : DatasetKey → Bytes → Option Coll) : Config Op Coll :=
  { c with keys := keys, cache := some cache }

/-- The caches that arise from an empty one by runs of the analysis, each on some datasets and
with the cache so far as its input. After a run the next cache has some (or all, or none, if it
was interrupted or entries were removed) of the entries of the one before, and some of those that
the run wrote. -/
inductive Built (c : Config Op Coll) (g : OpGraph Op) (m : Meaning Op Coll)
    (env : DatasetKey → Coll) (target : Op × Nat) : (DatasetKey → Bytes → Option Coll) → Prop where
  | empty : Built c g m env target (fun _ _ => none)
  | run {cache keys node ws next x} : Built c g m env target cache → keys.Nodup →
      Value m c.info g (m.flatten (keys.map env)) target x →
      (c.on keys cache).optimize g target = .ok (node, ws) →
      (∀ k key e, next k key = some e → cache k key = some e ∨ ∃ n, ((k, key), n) ∈ ws ∧
        n.eval m c.info (m.flatten (keys.map env)) env cache = .ok e) →
      Built c g m env target next

/-- What makes entries of different operations different, and readable: labels are unique in a
graph, `sha1` has digests of one length, and the cache coders are lossless. -/
structure Lossless (c : Config Op Coll) (m : Meaning Op Coll) : Prop where
  labels : ∀ o o', (c.info o).label = (c.info o').label → o = o'
  digests : ∀ a b, (c.sha1 a).length = (c.sha1 b).length
  coders : ∀ o p, (c.info o).hasCoder = true → m.decode o (m.encode o p) = .ok p

theorem on_shape {c : Config Op Coll} {g : OpGraph Op} (h : Shape c g) (keys : List DatasetKey)
    (cache : DatasetKey → Bytes → Option Coll) : Shape (c.on keys cache) g :=
  ⟨h.wellFormed, h.numOutputs, h.several, h.source, h.apply, h.applyPart, h.coder, h.one, h.inputs,
    h.paths⟩

theorem on_contract {c : Config Op Coll} {g : OpGraph Op} {m : Meaning Op Coll} {R : Op → Coll → Coll → Prop}
    (h : Contract c g m R) (keys : List DatasetKey) (cache : DatasetKey → Bytes → Option Coll) :
    Contract (c.on keys cache) g m R := ⟨h.apply, h.step, h.next⟩

theorem on_path {c : Config Op Coll} {g : OpGraph Op} {keys : List DatasetKey}
    {cache : DatasetKey → Bytes → Option Coll} {o : Op} {p : Bytes} :
    PathOf (c.on keys cache) g o p ↔ PathOf c g o p := by
  constructor
  · intro h
    induction h with
    | apply h => exact .apply h
    | step h1 h2 h3 _ h5 ih => exact .step h1 h2 h3 ih h5
  · intro h
    induction h with
    | apply h => exact .apply h
    | step h1 h2 h3 _ h5 ih => exact .step h1 h2 h3 ih h5

theorem on_key {c : Config Op Coll} {g : OpGraph Op} {keys : List DatasetKey}
    {cache : DatasetKey → Bytes → Option Coll} {o : Op} {key : Bytes} :
    KeyOf (c.on keys cache) g o key ↔ KeyOf c g o key :=
  exists_congr (fun _ => and_congr_left (fun _ => on_path))

theorem key_digest {c : Config Op Coll} {g : OpGraph Op} (hs : Shape c g) {o : Op} {key : Bytes}
    (hc : (c.info o).hasCoder = true) (h : KeyOf c g o key) :
    ∃ b, key = c.version ++ ((c.info o).label ++ [45] ++ c.sha1 b) := by
  obtain ⟨p, h1, h2⟩ := h
  cases h1 with
  | apply hk => rw [(hs.applyPart o hk).2] at hc; cases hc
  | step _ _ _ _ hn =>
    unfold nextHashedPath at hn
    obtain ⟨ps, _, hn⟩ := bind_ok_iff.1 hn
    simp only at hn
    split at hn
    · cases hn
    · cases hn
      cases h2
      exact ⟨_, rfl⟩

theorem keys_differ {c : Config Op Coll} {g : OpGraph Op} {m : Meaning Op Coll} (hs : Shape c g)
    (hl : Lossless c m) {o o' : Op} {key : Bytes} (hc : (c.info o).hasCoder = true)
    (hc' : (c.info o').hasCoder = true) (h : KeyOf c g o key) (h' : KeyOf c g o' key) : o = o' := by
  obtain ⟨b, h1⟩ := key_digest hs hc h
  obtain ⟨b', h2⟩ := key_digest hs hc' h'
  rw [h1, List.append_cancel_left_eq] at h2
  have := (List.append_inj_left' h2 (hl.digests b b'))
  exact hl.labels o o' (List.append_inj_left' this rfl)

theorem value_unique {c : Config Op Coll} {g : OpGraph Op} {m : Meaning Op Coll} (hs : Shape c g)
    {all : Coll} {o : Op} (ho : FirstPhase c.info g o) :
    ∀ {p q}, Value m c.info g all (o, 0) p → Value m c.info g all (o, 0) q → p = q := by
  have hout : ∀ {o ins i p q}, Out m o ins i p → Out m o ins i q → p = q := by
    rintro o ins i p q ⟨outs, h1, h2⟩ ⟨outs', h3, h4⟩
    rw [h1] at h3
    cases h3
    rw [h2] at h4
    cases h4
    rfl
  induction ho with
  | @apply o hk =>
    intro p q hp hq
    obtain ⟨mo, io, hio, hmi, hmk, hik⟩ := hs.apply o hk
    have hne : (c.info o).kind ≠ .extractInput := by rw [hk]; simp
    have hval : ∀ {x}, Value m c.info g all (o, 0) x → ∃ mv, Out m mo [] 0 mv ∧
        Out m o [mv, all] 0 x := by
      intro x hx
      obtain ⟨ins, h1, h2⟩ := value_inputs (n := (o, 0)) hne hx
      simp only [hio] at h1
      cases h1 with
      | cons h1 h3 =>
        obtain ⟨y, rfl, h4⟩ := forall₂_one h3
        obtain ⟨ins', h5, h6⟩ := value_inputs (n := (mo, 0)) hmk h1
        simp only [hmi] at h5
        cases h5
        cases h4 with
        | source _ => exact ⟨_, h6, h2⟩
        | op h _ _ => exact absurd hik h
    obtain ⟨mv, h1, h2⟩ := hval hp
    obtain ⟨mv', h3, h4⟩ := hval hq
    have := hout h1 h3
    subst this
    exact hout h2 h4
  | @step o n hk hpart hin hfn ih =>
    intro p q hp hq
    have hne : (c.info o).kind ≠ .extractInput := first_not_source hs (.step hk hpart hin hfn)
    have hn2 : n.2 = 0 := by
      have := hs.wellFormed o n (by rw [hin]; simp)
      rw [hs.one n.1 (first_partitionable hs hfn)] at this
      omega
    have hval : ∀ {x}, Value m c.info g all (o, 0) x → ∃ mv, Value m c.info g all (n.1, 0) mv ∧
        Out m o [mv] 0 x := by
      intro x hx
      obtain ⟨ins, h1, h2⟩ := value_inputs (n := (o, 0)) hne hx
      simp only [hin] at h1
      obtain ⟨y, rfl, h4⟩ := forall₂_one h1
      have hn : n = (n.1, 0) := by rw [← hn2]
      rw [hn] at h4
      exact ⟨y, h4, h2⟩
    obtain ⟨mv, h1, h2⟩ := hval hp
    obtain ⟨mv', h3, h4⟩ := hval hq
    have := ih h1 h3
    subst this
    exact hout h2 h4

theorem built_good {c : Config Op Coll} {g : OpGraph Op} {m : Meaning Op Coll}
    {R : Op → Coll → Coll → Prop} {env : DatasetKey → Coll} {target : Op × Nat} (hs : Shape c g)
    (hr : Contract c g m R) (hl : Lossless c m)
    (acyclic : ∀ o, Reach g target.1 o → ¬ OnCycle g o) (ht : target.2 < g.numOutputs target.1)
    {cache : DatasetKey → Bytes → Option Coll} (hb : Built c g m env target cache) :
    GoodCache c g m env cache := by
  induction hb with
  | empty => intro o k key e p _ _ _ h; cases h
  | @run cache keys node ws next x _ hnd hx hopt hnext ih =>
    intro o k key e p hf hcd hkey he hp
    rcases hnext k key e he with he | ⟨n, hn, hev⟩
    · exact ih o k key e p hf hcd hkey he hp
    · have hrun : Run (c.on keys cache) g m R env target := by
        refine ⟨on_shape hs _ _, on_contract hr _ _, ?_, hnd, acyclic, ht⟩
        intro o k key e p hf hcd hkey he hp
        exact ih o k key e p hf hcd (on_key.1 hkey) he hp
      obtain ⟨node', ws', h1, h2, _⟩ := written_entries hrun (by simp [Config.on]) hx
      rw [hopt] at h1
      cases h1
      obtain ⟨_, _, _, o', p', _, hf', hcd', hkey', hp', hev'⟩ := h2 k key n hn
      have hoo := keys_differ hs hl hcd hcd' hkey (on_key.1 hkey')
      subst hoo
      have hpp := value_unique hs hf hp hp'
      subst hpp
      have hev2 : n.eval m c.info (m.flatten (keys.map env)) env cache = .ok (m.encode o p) := hev'
      rw [hev] at hev2
      cases hev2
      exact hl.coders o p hcd

/-- **C60.** After any sequence of runs of the analysis on any datasets, each using and extending
the cache of those before (and possibly interrupted, or with entries removed), the next run
computes the same as an analysis without a cache. -/
theorem analysis_after_any_history {c : Config Op Coll} {g : OpGraph Op} {m : Meaning Op Coll}
    {R : Op → Coll → Coll → Prop} {env : DatasetKey → Coll} {target : Op × Nat} (hs : Shape c g)
    (hr : Contract c g m R) (hl : Lossless c m)
    (acyclic : ∀ o, Reach g target.1 o → ¬ OnCycle g o) (ht : target.2 < g.numOutputs target.1)
    {cache : DatasetKey → Bytes → Option Coll} (hb : Built c g m env target cache)
    {keys : List DatasetKey} (hnd : keys.Nodup) {x : Coll}
    (hx : Value m c.info g (m.flatten (keys.map env)) target x) :
    ∃ node ws, (c.on keys cache).optimize g target = .ok (node, ws) ∧
      node.eval m c.info (m.flatten (keys.map env)) env cache = .ok x := by
  have hrun : Run (c.on keys cache) g m R env target := by
    refine ⟨on_shape hs _ _, on_contract hr _ _, ?_, hnd, acyclic, ht⟩
    intro o k key e p hf hcd hkey he hp
    exact built_good hs hr hl acyclic ht hb o k key e p hf hcd (on_key.1 hkey) he hp
  exact optimized_graph_computes_the_same hrun hx

/-- **C60.** `get_analysis_cache_entry_keys` gives, if some dataset is to be cached, the keys of
the entries of the cacheable operations of the first phase that the analysis needs. -/
theorem entry_keys_are_those_of_cacheable_operations {c : Config Op Coll} {g : OpGraph Op}
    {m : Meaning Op Coll} {R : Op → Coll → Coll → Prop} {env : DatasetKey → Coll} {target : Op × Nat}
    (h : Run c g m R env target) (hc : c.cache = some (fun _ _ => none)) {x : Coll}
    (hx : Value m c.info g (m.flatten (c.keys.map env)) target x)
    (hk : ∃ k ∈ c.keys, k.isCached = true) :
    ∃ node ws, c.optimize g target = .ok (node, ws) ∧
      ∀ key, key ∈ entryKeys ws ↔ ∃ o, Reach g target.1 o ∧ FirstPhase c.info g o ∧
        (c.info o).hasCoder = true ∧ KeyOf c g o key := by
  obtain ⟨node, ws, h1, h2, h3⟩ := written_entries h (by simp [hc]) hx
  refine ⟨node, ws, h1, ?_⟩
  intro key
  constructor
  · intro hkey
    obtain ⟨⟨⟨k, key'⟩, n⟩, hw, rfl⟩ := List.mem_map.1 hkey
    obtain ⟨_, _, _, o, p, h4, h5, h6, h7, _⟩ := h2 k key' n hw
    exact ⟨o, h4, h5, h6, h7⟩
  · rintro ⟨o, h4, h5, h6, h7⟩
    obtain ⟨k, hk, hca⟩ := hk
    obtain ⟨n, hn⟩ := h3 o k key h4 h5 h6 h7 hk hca (by simp [entries, hc])
    exact List.mem_map.2 ⟨_, hn, rfl⟩


end Main

end TFT.Graph.Optimize
