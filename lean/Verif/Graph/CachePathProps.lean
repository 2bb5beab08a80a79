import Verif.Graph.CachePath
import Verif.Graph.ReadyProps
import Verif.Cache.Run
import Mathlib.Algebra.Order.Group.Int
import Verif.Combine.PackedLemmas
import Mathlib.Data.List.Infix
import Mathlib.Data.Nat.Digits.Lemmas

/-!
# Properties of the keys of cache entries (C59)
-/

set_option linter.unusedSectionVars false

namespace TFT.Graph.CachePath

open TFT.Graph.Ready TFT.Graph.Ready.Spec
open TFT.Coders (Bytes)

variable {N₁ N₂ : Type} [DecidableEq N₁] [DecidableEq N₂]

namespace Spec

/-- Two nodes with the same content: operations whose attribute dicts are equal (the order in
which a dict lists its entries does not matter), or the same output of an operation. Nothing is
said about names or about the type of an operation. -/
def SameContent : Described → Described → Prop
  | .operation a, .operation b => a.attrs.Perm b.attrs ∧ (a.attrs.map Prod.fst).Nodup
  | .tensor i, .tensor j => i = j
  | .source s, .source t => s = t
  | _, _ => False

/-- Two nodes of the same kind whose inputs correspond one to one. -/
def SameKind (R : N₁ → N₂ → Prop) : Kind N₁ → Kind N₂ → Prop
  | .tensor a, .tensor b => R a b
  | .op is cs, .op is' cs' => List.Forall₂ R is is' ∧ List.Forall₂ R cs cs'
  | .table, .table => True
  | .placeholder, .placeholder => True
  | _, _ => False

/-- `R` relates the nodes of two graphs, for instance those of two traces of one
`preprocessing_fn`: corresponding sources have the same names (whatever their readiness), other
corresponding nodes have the same contents and corresponding inputs. -/
structure Matches (g₁ : PathGraph N₁) (g₂ : PathGraph N₂) (R : N₁ → N₂ → Prop) : Prop where
  asBytes : g₁.asBytes = g₂.asBytes
  source : ∀ a b, R a b → (g₁.source a).map (fun i => i.name) = (g₂.source b).map (fun i => i.name)
  kind : ∀ a b, R a b → g₁.source a = none → SameKind R (g₁.kind a) (g₂.kind b)
  content : ∀ a b, R a b → g₁.source a = none → SameContent (g₁.content a) (g₂.content b)
  funcs : ∀ a b rs₁ rs₂, R a b → rs₁.map (fun r => r.path) = rs₂.map (fun r => r.path) →
    ∀ frs₁ frs₂, g₁.funcs a rs₁ = .ok frs₁ → g₂.funcs b rs₂ = .ok frs₂ →
      frs₁.map (fun r => r.path) = frs₂.map (fun r => r.path)

end Spec
open CachePath.Spec

/-! ### Equal programs have equal keys -/

theorem sorted_perm_eq {l l' : List (Bytes × Attr)} (h : l.Perm l')
    (hn : (l.map Prod.fst).Nodup) :
    l.insertionSort (fun a b => a.1 ≤ b.1) = l'.insertionSort (fun a b => a.1 ≤ b.1) := by
  have htot : Std.Total (fun a b : Bytes × Attr => a.1 ≤ b.1) := ⟨fun a b => le_total a.1 b.1⟩
  have htr : IsTrans (Bytes × Attr) (fun a b => a.1 ≤ b.1) := ⟨fun a b c => le_trans⟩
  have hp : (l.insertionSort (fun a b => a.1 ≤ b.1)).Perm
      (l'.insertionSort (fun a b => a.1 ≤ b.1)) :=
    (List.perm_insertionSort _ l).trans (h.trans (List.perm_insertionSort _ l').symm)
  refine hp.eq_of_pairwise ?_ (List.pairwise_insertionSort _ l) (List.pairwise_insertionSort _ l')
  intro a b ha hb h1 h2
  have ha' : a ∈ l := (List.perm_insertionSort _ l).mem_iff.1 ha
  have hb' : b ∈ l := h.mem_iff.2 ((List.perm_insertionSort _ l').mem_iff.1 hb)
  exact List.inj_on_of_nodup_map hn ha' hb' (le_antisymm h1 h2)

theorem serializeOpAttr_perm {l l' : List (Bytes × Attr)} (h : l.Perm l')
    (hn : (l.map Prod.fst).Nodup) : serializeOpAttr l = serializeOpAttr l' := by
  unfold serializeOpAttr selectAttrs
  rw [sorted_perm_eq h hn]
  have : l.any (fun kv => kv.1 == keyF) = l'.any (fun kv => kv.1 == keyF) := h.any_eq
  rw [this]

theorem ownValues_same {x y : Described} (h : SameContent x y) : ownValues x = ownValues y := by
  cases x <;> cases y <;> simp only [SameContent] at h
  · exact serializeOpAttr_perm h.1 h.2
  · rw [h]
  · rw [h]

theorem parents_same {sha1 : Bytes → Bytes} {g₁ : PathGraph N₁} {g₂ : PathGraph N₂}
    {R : N₁ → N₂ → Prop} (hm : Matches g₁ g₂ R) {a : N₁} {b : N₂} (h : R a b)
    {ps : List N₁} {qs : List N₂} (h1 : (g₁.analyzer sha1).getParents a = .ok ps)
    (h2 : (g₂.analyzer sha1).getParents b = .ok qs) : List.Forall₂ R ps qs := by
  have hs := hm.source a b h
  unfold Analyzer.getParents at h1 h2
  cases hs1 : g₁.source a with
  | some i =>
    cases hs2 : g₂.source b with
    | none => rw [hs1, hs2] at hs; cases hs
    | some j =>
      have e1 : (g₁.analyzer sha1).source a = some i := hs1
      have e2 : (g₂.analyzer sha1).source b = some j := hs2
      rw [e1] at h1
      rw [e2] at h2
      simp at h1 h2
      subst h1; subst h2
      exact .nil
  | none =>
    cases hs2 : g₂.source b with
    | some j => rw [hs1, hs2] at hs; cases hs
    | none =>
      have hk := hm.kind a b h hs1
      have e1 : (g₁.analyzer sha1).source a = none := hs1
      have e2 : (g₂.analyzer sha1).source b = none := hs2
      have k1 : (g₁.analyzer sha1).kind a = g₁.kind a := rfl
      have k2 : (g₂.analyzer sha1).kind b = g₂.kind b := rfl
      rw [e1, k1] at h1
      rw [e2, k2] at h2
      cases hk1 : g₁.kind a <;> cases hk2 : g₂.kind b <;> rw [hk1, hk2] at hk <;>
        rw [hk1] at h1 <;> rw [hk2] at h2 <;> simp [SameKind] at hk h1 h2
      · subst h1; subst h2
        exact .cons hk .nil
      · subst h1; subst h2
        exact List.rel_append hk.1 hk.2

theorem value_path_same {sha1 : Bytes → Bytes} {g₁ : PathGraph N₁} {g₂ : PathGraph N₂}
    {R : N₁ → N₂ → Prop} (hm : Matches g₁ g₂ R) {a : N₁} {r₁ : Result N₁ Path}
    (h1 : Value (g₁.analyzer sha1) a r₁) : ∀ {b : N₂} {r₂ : Result N₂ Path}, R a b →
    Value (g₂.analyzer sha1) b r₂ → r₁.path = r₂.path := by
  induction h1 with
  | @mk a ps rs r₁ hp hl hv hc ih =>
    intro b r₂ hR h2
    cases h2 with
    | @mk _ qs ss _ hp' hl' hv' hc' =>
      have hf := parents_same hm hR hp hp'
      have hpaths : rs.map (fun r => r.path) = ss.map (fun r => r.path) := by
        apply List.ext_getElem
        · rw [List.length_map, List.length_map, ← hl, ← hl', hf.length_eq]
        · intro i h1 h2
          rw [List.length_map] at h1 h2
          rw [List.getElem_map, List.getElem_map]
          have b1 : i < ps.length := by omega
          have b2 : i < qs.length := by omega
          exact ih i ps[i] rs[i] (by simp [b1]) (by simp [h1]) (List.Forall₂.get hf b1 b2)
            (hv' i qs[i] ss[i] (by simp [b2]) (by simp [h2]))
      have hs := hm.source a b hR
      unfold Analyzer.compute at hc hc'
      cases hs1 : g₁.source a with
      | some i =>
        cases hs2 : g₂.source b with
        | none => rw [hs1, hs2] at hs; cases hs
        | some j =>
          have e1 : (g₁.analyzer sha1).source a = some i := hs1
          have e2 : (g₂.analyzer sha1).source b = some j := hs2
          rw [e1] at hc
          rw [e2] at hc'
          simp only [Except.ok.injEq] at hc hc'
          subst hc; subst hc'
          rw [hs1, hs2] at hs
          simp only [Option.map_some, Option.some.injEq] at hs
          simp only [PathGraph.analyzer, hs, hm.asBytes]
      | none =>
        cases hs2 : g₂.source b with
        | some j => rw [hs1, hs2] at hs; cases hs
        | none =>
          have e1 : (g₁.analyzer sha1).source a = none := hs1
          have e2 : (g₂.analyzer sha1).source b = none := hs2
          rw [e1] at hc
          rw [e2] at hc'
          obtain ⟨frs, hfrs, hc⟩ := bind_ok_iff.1 hc
          obtain ⟨frs', hfrs', hc'⟩ := bind_ok_iff.1 hc'
          cases hc; cases hc'
          have hfp := hm.funcs a b rs ss hR hpaths frs frs' hfrs hfrs'
          simp only [PathGraph.analyzer, hpaths, hfp, describe]
          rw [ownValues_same (hm.content a b hR hs1)]

/-- **C59** Corresponding tensors of two graphs that describe the same computation have the same
path, whatever the names of the nodes, the order of attributes, the readiness of sources, and
whatever was asked of the analyzers before. So the cache of an analyzer is found again when the
same `preprocessing_fn` is traced again. -/
theorem same_computation_same_path [Fintype N₁] [Fintype N₂] (sha1 : Bytes → Bytes)
    (g₁ : PathGraph N₁) (g₂ : PathGraph N₂) (R : N₁ → N₂ → Prop) (hm : Matches g₁ g₂ R)
    (hac₁ : Acyclic (g₁.analyzer sha1)) (hac₂ : Acyclic (g₂.analyzer sha1))
    {hs₁ : List (N₁ × Result N₁ Path)} {memo₁ : Memo N₁ Path}
    (h₁ : (g₁.analyzer sha1).History hs₁ memo₁)
    {hs₂ : List (N₂ × Result N₂ Path)} {memo₂ : Memo N₂ Path}
    (h₂ : (g₂.analyzer sha1).History hs₂ memo₂)
    (a : N₁) (b : N₂) (hR : R a b) (r₁ : Result N₁ Path) (r₂ : Result N₂ Path)
    (hr₁ : (a, r₁) ∈ hs₁) (hr₂ : (b, r₂) ∈ hs₂) : r₁.path = r₂.path :=
  value_path_same hm ((history_good hac₁ h₁).2 _ hr₁) hR ((history_good hac₂ h₂).2 _ hr₂)

/-! ### Paths of tensors that are ready in the first phase -/

/-- The results of functions have a path. (The sources of a function's body all have names.) -/
def FuncPaths {N : Type} (g : PathGraph N) : Prop :=
  ∀ n rs frs, g.funcs n rs = .ok frs → ∀ fr ∈ frs, fr.path ≠ .ok none

theorem seqExcept_some_none {l : List Path} {ps : List (Option Bytes)}
    (h : seqExcept l = .ok ps) : ps.any (fun p => p.isNone) = true ↔ ∃ x ∈ l, x = .ok none := by
  have h' := (seqExcept_ok_iff _ _).1 h
  rw [List.any_eq_true]
  constructor
  · rintro ⟨p, hp, hn⟩
    obtain ⟨x, hx, he⟩ := forall₂_right h' p hp
    refine ⟨x, hx, ?_⟩
    cases p with
    | none => exact he
    | some _ => cases hn
  · rintro ⟨x, hx, rfl⟩
    obtain ⟨p, hp, he⟩ := forall₂_left h' _ hx
    cases he
    exact ⟨none, hp, rfl⟩

theorem value_path_none {N : Type} [DecidableEq N] {sha1 : Bytes → Bytes} {g : PathGraph N}
    (hf : FuncPaths g) {n : N} {r : Result N Path} (h : Value (g.analyzer sha1) n r) :
    r.path = .ok none → ∃ s info, DependsOn (g.analyzer sha1) n s ∧ g.source s = some info ∧
      info.name = none := by
  induction h with
  | @mk n ps rs r hp hl hv hc ih =>
    intro hnone
    unfold Analyzer.compute at hc
    cases hs : g.source n with
    | some i =>
      have e : (g.analyzer sha1).source n = some i := hs
      rw [e] at hc
      cases hc
      refine ⟨n, i, .refl, hs, ?_⟩
      cases hi : i.name with
      | none => rfl
      | some s => simp [PathGraph.analyzer, describe, hi, ownValues, bind, Except.bind] at hnone
    | none =>
      have e : (g.analyzer sha1).source n = none := hs
      rw [e] at hc
      obtain ⟨frs, hfrs, hc⟩ := bind_ok_iff.1 hc
      cases hc
      obtain ⟨qs, hqs, hd⟩ := bind_ok_iff.1 hnone
      unfold describe at hd
      simp only at hd
      split at hd
      · rename_i hany
        obtain ⟨x, hx, rfl⟩ := (seqExcept_some_none hqs).1 hany
        rcases List.mem_append.1 hx with hx | hx
        · obtain ⟨q, hq, hqp⟩ := List.mem_map.1 hx
          obtain ⟨i, hi, rfl⟩ := List.getElem_of_mem hq
          have hi' : i < ps.length := by omega
          obtain ⟨s, info, hds, h1, h2⟩ := ih i ps[i] rs[i] (by simp [hi']) (by simp [hi]) hqp
          refine ⟨s, info, .head ((uses_iff _ _ _).2 ⟨ps, hp, List.getElem_mem hi'⟩) hds, h1, h2⟩
        · obtain ⟨q, hq, hqp⟩ := List.mem_map.1 hx
          exact absurd hqp (hf n rs frs hfrs q hq)
      · obtain ⟨vs, _, hd⟩ := bind_ok_iff.1 hd
        cases hd

/-- The relation between two analyzers of one graph that differ in what is ready. -/
theorem matches_readiness {N : Type} (g : PathGraph N) (source' : N → Option SourceInfo)
    (hsrc : ∀ n, (g.source n).map (fun i => i.name) = (source' n).map (fun i => i.name))
    (hnames : ∀ n nd, g.content n = .operation nd → (nd.attrs.map Prod.fst).Nodup)
    (hfuncs : ∀ n rs₁ rs₂, rs₁.map (fun r => r.path) = rs₂.map (fun r => r.path) →
      ∀ frs₁ frs₂, g.funcs n rs₁ = .ok frs₁ → g.funcs n rs₂ = .ok frs₂ →
        frs₁.map (fun r => r.path) = frs₂.map (fun r => r.path)) :
    Matches g { g with source := source' } Eq where
  asBytes := rfl
  source := by rintro a _ rfl; exact hsrc a
  kind := by
    rintro a _ rfl _
    show SameKind Eq (g.kind a) (g.kind a)
    cases g.kind a with
    | tensor o => rfl
    | op is cs => exact ⟨List.forall₂_same.2 (fun _ _ => rfl), List.forall₂_same.2 (fun _ _ => rfl)⟩
    | table => trivial
    | placeholder => trivial
  content := by
    rintro a _ rfl _
    show SameContent (g.content a) (g.content a)
    cases hc : g.content a with
    | operation nd => exact ⟨.refl _, hnames a nd hc⟩
    | tensor i => rfl
    | source s => rfl
  funcs := by
    rintro a _ rs₁ rs₂ rfl h
    exact hfuncs a rs₁ rs₂ h

/-- **C59** A tensor that is ready in the first phase, in which no analyzer has run, has a path
that the analysis of any later phase computes too: the cache entry key is never built from a
missing path (which would be a `TypeError`). `later` are the sources of the later phase: the same
tensors, of which more are ready. -/
theorem first_phase_tensors_have_paths {N : Type} [DecidableEq N] [Fintype N]
    (sha1 : Bytes → Bytes) (g : PathGraph N)
    (later : N → Option SourceInfo)
    (hfirst : ∀ n info, g.source n = some info → info.name = none → info.ready = false)
    (hsrc : ∀ n, (g.source n).map (fun i => i.name) = (later n).map (fun i => i.name))
    (hnames : ∀ n nd, g.content n = .operation nd → (nd.attrs.map Prod.fst).Nodup)
    (hfuncs : ∀ n rs₁ rs₂, rs₁.map (fun r => r.path) = rs₂.map (fun r => r.path) →
      ∀ frs₁ frs₂, g.funcs n rs₁ = .ok frs₁ → g.funcs n rs₂ = .ok frs₂ →
        frs₁.map (fun r => r.path) = frs₂.map (fun r => r.path))
    (hfp : FuncPaths g) (hfok : FuncsOk (g.analyzer sha1))
    (hac : Acyclic (g.analyzer sha1))
    (hac' : Acyclic (PathGraph.analyzer { g with source := later } sha1))
    {hs₁ hs₂ : List (N × Result N Path)} {memo₁ memo₂ : Memo N Path}
    (h₁ : (g.analyzer sha1).History hs₁ memo₁)
    (h₂ : (PathGraph.analyzer { g with source := later } sha1).History hs₂ memo₂)
    (n : N) (r₁ r₂ : Result N Path) (hr₁ : (n, r₁) ∈ hs₁) (hr₂ : (n, r₂) ∈ hs₂)
    (hready : r₁.ready = true) : r₂.path = r₁.path ∧ r₂.path ≠ .ok none := by
  have he := same_computation_same_path sha1 g _ Eq (matches_readiness g later hsrc hnames hfuncs)
    hac hac' h₁ h₂ n n rfl r₁ r₂ hr₁ hr₂
  refine ⟨he.symm, ?_⟩
  rw [← he]
  intro hnone
  obtain ⟨s, info, hd, hs, hnm⟩ := value_path_none hfp ((history_good hac h₁).2 _ hr₁) hnone
  have := (analyze_exact _ hac hfok h₁ n r₁ hr₁).1.1 hready s info hd hs
  rw [hfirst s info hs hnm] at this
  cases this

/-! ### Equal keys mean equal programs, but for what the key leaves out -/

namespace Spec

/-- Two nodes from which the same shape of graph is seen: both are sources, or the same kind of
node with as many inputs, from which the same shape is seen in turn; operations have attributes
of the same names, and the same of them are functions. -/
inductive SameShape (g₁ : PathGraph N₁) (g₂ : PathGraph N₂) : N₁ → N₂ → Prop where
  | source {a b} : (g₁.source a).isSome → (g₂.source b).isSome → SameShape g₁ g₂ a b
  | tensor {a b o o' i j} : g₁.source a = none → g₂.source b = none → g₁.kind a = .tensor o →
      g₂.kind b = .tensor o' → g₁.content a = .tensor i → g₂.content b = .tensor j →
      SameShape g₁ g₂ o o' → SameShape g₁ g₂ a b
  | op {a b} {is cs : List N₁} {is' cs' : List N₂} {nd nd' : NodeDef} :
      g₁.source a = none → g₂.source b = none → g₁.kind a = .op is cs → g₂.kind b = .op is' cs' →
      g₁.content a = .operation nd → g₂.content b = .operation nd' →
      (nd.attrs.map (fun kv => (kv.1, kv.2.isFunc))).Perm
        (nd'.attrs.map (fun kv => (kv.1, kv.2.isFunc))) →
      (nd.attrs.map Prod.fst).Nodup →
      is.length = is'.length → cs.length = cs'.length →
      (∀ (i : Nat) p q, is[i]? = some p → is'[i]? = some q → SameShape g₁ g₂ p q) →
      (∀ (i : Nat) p q, cs[i]? = some p → cs'[i]? = some q → SameShape g₁ g₂ p q) →
      SameShape g₁ g₂ a b

/-- Equal values of all attributes, except of functions, and, if one of them is called `f`, only
of `Tin` and `Tout`. -/
def SameAttrs (nd nd' : NodeDef) : Prop :=
  ∀ k v v', (k, v) ∈ nd.attrs → (k, v') ∈ nd'.attrs → v.isFunc = false →
    ((∃ w, (keyF, w) ∈ nd.attrs) → k = keyTin ∨ k = keyTout) → v.serialized = v'.serialized

/-- The nodes describe the same computation on the same inputs, except that nothing is said about
types of operations. -/
inductive SameUpToTypes (g₁ : PathGraph N₁) (g₂ : PathGraph N₂) : N₁ → N₂ → Prop where
  | source {a b i j s t} : g₁.source a = some i → g₂.source b = some j → i.name = some s →
      j.name = some t → g₁.asBytes s = g₂.asBytes t → SameUpToTypes g₁ g₂ a b
  | tensor {a b o o' i} : g₁.kind a = .tensor o → g₂.kind b = .tensor o' →
      g₁.content a = .tensor i → g₂.content b = .tensor i →
      SameUpToTypes g₁ g₂ o o' → SameUpToTypes g₁ g₂ a b
  | op {a b} {is cs : List N₁} {is' cs' : List N₂} {nd nd' : NodeDef} :
      g₁.kind a = .op is cs → g₂.kind b = .op is' cs' →
      g₁.content a = .operation nd → g₂.content b = .operation nd' → SameAttrs nd nd' →
      is.length = is'.length → cs.length = cs'.length →
      (∀ (i : Nat) p q, is[i]? = some p → is'[i]? = some q → SameUpToTypes g₁ g₂ p q) →
      (∀ (i : Nat) p q, cs[i]? = some p → cs'[i]? = some q → SameUpToTypes g₁ g₂ p q) →
      SameUpToTypes g₁ g₂ a b

/-- The strings that are hashed when the path of `n` is computed. -/
inductive Hashed {N : Type} [DecidableEq N] (g : PathGraph N) (sha1 : Bytes → Bytes) :
    N → Bytes → Prop where
  | source {n info s} : g.source n = some info → info.name = some s → Hashed g sha1 n (g.asBytes s)
  | own {n ps rs} {ds vs : List Bytes} : g.source n = none → (g.analyzer sha1).getParents n = .ok ps →
      List.Forall₂ (Value (g.analyzer sha1)) ps rs →
      rs.map (fun r => r.path) = ds.map (fun d => .ok (some d)) →
      ownValues (g.content n) = .ok vs → Hashed g sha1 n (vs.flatten ++ ds.flatten)
  | input {n p x} : Uses (g.analyzer sha1) n p → Hashed g sha1 p x → Hashed g sha1 n x

end Spec

theorem flatten_eq_of_lengths {α : Type} (d : Nat) : ∀ (l l' : List (List α)),
    (∀ x ∈ l, x.length = d) → (∀ x ∈ l', x.length = d) → l.length = l'.length →
    l.flatten = l'.flatten → l = l'
  | [], [], _, _, _, _ => rfl
  | x :: l, y :: l', h1, h2, hl, h => by
    rw [List.flatten_cons, List.flatten_cons] at h
    obtain ⟨e1, e2⟩ := List.append_inj h (by rw [h1 x (by simp), h2 y (by simp)])
    rw [e1, flatten_eq_of_lengths d l l' (fun z hz => h1 z (by simp [hz]))
      (fun z hz => h2 z (by simp [hz])) (by simpa using hl) e2]

theorem decimal_injective : Function.Injective decimal := by
  intro a b h
  unfold decimal at h
  have key : ∀ n : Nat, n ≠ 0 →
      (Nat.digits 10 n).reverse.map (fun d => Fin.ofNat 256 (48 + d)) ≠ [48] := by
    intro n hn h
    have hl : ((Nat.digits 10 n).reverse).length = 1 := by
      have := congrArg List.length h
      simpa using this
    rw [List.length_reverse] at hl
    obtain ⟨d, hd⟩ := List.length_eq_one_iff.1 hl
    rw [hd] at h
    have hlt : d < 10 := Nat.digits_lt_base (by omega) (by rw [hd]; simp)
    simp only [List.reverse_cons, List.reverse_nil, List.nil_append, List.map_cons, List.map_nil,
      List.cons.injEq, and_true] at h
    have hd0 : d = 0 := by
      have := congrArg Fin.val h
      simp only [Fin.ofNat] at this
      have e : ((48 : Fin 256) : Nat) = 48 := rfl
      rw [e] at this
      omega
    have := Nat.getLast_digit_ne_zero 10 hn
    simp [hd, hd0] at this
  by_cases ha : a = 0
  · by_cases hb : b = 0
    · rw [ha, hb]
    · rw [if_pos ha, if_neg hb] at h
      exact absurd h.symm (key b hb)
  · by_cases hb : b = 0
    · rw [if_neg ha, if_pos hb] at h
      exact absurd h (key a ha)
    · rw [if_neg ha, if_neg hb] at h
      have hd : Nat.digits 10 a = Nat.digits 10 b := by
        apply List.reverse_injective
        have hlen : ((Nat.digits 10 a).reverse).length = ((Nat.digits 10 b).reverse).length := by
          have := congrArg List.length h
          simpa using this
        apply List.ext_getElem hlen
        intro i h1 h2
        have e := List.getElem_of_eq h (by simpa using h1)
        rw [List.getElem_map, List.getElem_map] at e
        have l1 : ((Nat.digits 10 a).reverse)[i] < 10 :=
          Nat.digits_lt_base (by omega) (List.mem_reverse.1 (List.getElem_mem h1))
        have l2 : ((Nat.digits 10 b).reverse)[i] < 10 :=
          Nat.digits_lt_base (by omega) (List.mem_reverse.1 (List.getElem_mem h2))
        have := congrArg Fin.val e
        simp only [Fin.ofNat] at this
        omega
      exact Nat.digits_inj_iff.1 hd

/-! #### Decoding the attributes of an operation -/

/-- What an attribute contributes to the hashed string after its name. -/
def shown (a : Attr) : Bytes := if a.isFunc then [] else a.serialized

theorem serializeAttrs_flatten : ∀ {l : List (Bytes × Attr)} {vs : List Bytes},
    serializeAttrs l = .ok vs → vs.flatten = (l.map (fun kv => kv.1 ++ shown kv.2)).flatten
  | [], vs, h => by cases h; rfl
  | (k, a) :: l, vs, h => by
    unfold serializeAttrs at h
    by_cases ha : a.listFunc = true
    · rw [if_pos ha] at h; cases h
    · rw [if_neg ha] at h
      obtain ⟨t, ht, h⟩ := bind_ok_iff.1 h
      cases h
      simp only [List.flatten_cons, List.map_cons, serializeAttrs_flatten ht, shown,
        List.append_assoc]

theorem attrs_decode (free : Bytes → Bytes → Prop) : ∀ {l l' : List (Bytes × Attr)},
    (∀ x y, free x y → ∀ s t, x ++ s = y ++ t → x = y) →
    l.map (fun kv => (kv.1, kv.2.isFunc)) = l'.map (fun kv => (kv.1, kv.2.isFunc)) →
    (∀ kv ∈ l, ∀ kv' ∈ l', kv.2.isFunc = false → kv'.2.isFunc = false →
      free kv.2.serialized kv'.2.serialized) →
    (l.map (fun kv => kv.1 ++ shown kv.2)).flatten =
      (l'.map (fun kv => kv.1 ++ shown kv.2)).flatten →
    List.Forall₂ (fun kv kv' => kv.1 = kv'.1 ∧ shown kv.2 = shown kv'.2) l l'
  | [], [], _, _, _, _ => .nil
  | [], _ :: _, _, h, _, _ => by simp at h
  | _ :: _, [], _, h, _, _ => by simp at h
  | (k, a) :: l, (k', a') :: l', hfree, hn, hall, h => by
    simp only [List.map_cons, List.cons.injEq, Prod.mk.injEq] at hn
    obtain ⟨⟨rfl, hfn⟩, hn⟩ := hn
    simp only [List.map_cons, List.flatten_cons, List.append_assoc] at h
    have h := List.append_cancel_left h
    have hsh : shown a = shown a' := by
      unfold shown at h ⊢
      by_cases hf : a.isFunc = true
      · rw [if_pos hf, if_pos (hfn ▸ hf)]
      · have hf' : ¬ a'.isFunc = true := hfn ▸ hf
        rw [if_neg hf, if_neg hf'] at h ⊢
        exact hfree _ _ (hall (k, a) (by simp) (k, a') (by simp) (by simpa using hf)
          (by simpa using hf')) _ _ h
    rw [hsh] at h
    exact .cons ⟨rfl, hsh⟩ (attrs_decode free hfree hn
      (fun kv h1 kv' h2 => hall kv (by simp [h1]) kv' (by simp [h2])) (List.append_cancel_left h))

theorem select_names {l l' : List (Bytes × Attr)}
    (h : (l.map (fun kv => (kv.1, kv.2.isFunc))).Perm (l'.map (fun kv => (kv.1, kv.2.isFunc))))
    (hn : (l.map Prod.fst).Nodup) :
    (selectAttrs l).map (fun kv => (kv.1, kv.2.isFunc)) =
      (selectAttrs l').map (fun kv => (kv.1, kv.2.isFunc)) := by
  let f : Bytes × Attr → Bytes × Bool := fun kv => (kv.1, kv.2.isFunc)
  have htot : Std.Total (fun a b : Bytes × Attr => a.1 ≤ b.1) := ⟨fun a b => le_total a.1 b.1⟩
  have htr : IsTrans (Bytes × Attr) (fun a b => a.1 ≤ b.1) := ⟨fun a b c => le_trans⟩
  have hsorted : (l.insertionSort (fun a b => a.1 ≤ b.1)).map f =
      (l'.insertionSort (fun a b => a.1 ≤ b.1)).map f := by
    have hp : ((l.insertionSort (fun a b => a.1 ≤ b.1)).map f).Perm
        ((l'.insertionSort (fun a b => a.1 ≤ b.1)).map f) :=
      ((List.perm_insertionSort _ l).map f).trans
        (h.trans ((List.perm_insertionSort _ l').map f).symm)
    refine hp.eq_of_pairwise (le := fun a b : Bytes × Bool => a.1 ≤ b.1) ?_ ?_ ?_
    · intro a b ha hb h1 h2
      have ha' : a ∈ l.map f := ((List.perm_insertionSort _ l).map f).mem_iff.1 ha
      have hb' : b ∈ l.map f :=
        h.mem_iff.2 (((List.perm_insertionSort _ l').map f).mem_iff.1 hb)
      have hn' : ((l.map f).map Prod.fst).Nodup := by
        rw [List.map_map]
        exact hn
      exact List.inj_on_of_nodup_map hn' ha' hb' (le_antisymm h1 h2)
    · exact List.pairwise_map.2 (List.pairwise_insertionSort _ l)
    · exact List.pairwise_map.2 (List.pairwise_insertionSort _ l')
  have hany : l.any (fun kv => kv.1 == keyF) = l'.any (fun kv => kv.1 == keyF) := by
    have e : ∀ m : List (Bytes × Attr), m.any (fun kv => kv.1 == keyF) =
        (m.map f).any (fun kv => kv.1 == keyF) := by
      intro m; rw [List.any_map]; rfl
    rw [e l, e l']
    exact h.any_eq
  unfold selectAttrs
  simp only [hany]
  split
  · have e : ∀ m : List (Bytes × Attr),
        (m.filter (fun kv => kv.1 == keyTin || kv.1 == keyTout)).map f =
        (m.map f).filter (fun kv => kv.1 == keyTin || kv.1 == keyTout) := by
      intro m; rw [List.filter_map]; rfl
    show (List.filter _ _).map f = (List.filter _ _).map f
    rw [e, e, hsorted]
  · exact hsorted

theorem mem_select {l : List (Bytes × Attr)} {kv : Bytes × Attr} : kv ∈ selectAttrs l ↔
    kv ∈ l ∧ ((∃ w, (keyF, w) ∈ l) → kv.1 = keyTin ∨ kv.1 = keyTout) := by
  unfold selectAttrs
  have hany : (l.any (fun kv => kv.1 == keyF) = true) ↔ ∃ w, (keyF, w) ∈ l := by
    rw [List.any_eq_true]
    constructor
    · rintro ⟨⟨k, w⟩, h1, h2⟩
      simp only [beq_iff_eq] at h2
      subst h2
      exact ⟨w, h1⟩
    · rintro ⟨w, h⟩
      exact ⟨_, h, by simp⟩
  simp only
  split
  · rename_i h
    rw [List.mem_filter, (List.perm_insertionSort _ l).mem_iff]
    simp only [Bool.or_eq_true, beq_iff_eq]
    constructor
    · rintro ⟨h1, h2⟩; exact ⟨h1, fun _ => h2⟩
    · rintro ⟨h1, h2⟩; exact ⟨h1, h2 (hany.1 h)⟩
  · rename_i h
    rw [(List.perm_insertionSort _ l).mem_iff]
    constructor
    · intro h1; exact ⟨h1, fun h2 => absurd (hany.2 h2) h⟩
    · exact fun h1 => h1.1

theorem same_attrs_of_flatten {nd nd' : NodeDef} {vs vs' : List Bytes}
    (h1 : serializeOpAttr nd.attrs = .ok vs) (h2 : serializeOpAttr nd'.attrs = .ok vs')
    (h : vs.flatten = vs'.flatten)
    (hnames : (nd.attrs.map (fun kv => (kv.1, kv.2.isFunc))).Perm
        (nd'.attrs.map (fun kv => (kv.1, kv.2.isFunc))))
    (hn : (nd.attrs.map Prod.fst).Nodup)
    (hfree : ∀ kv ∈ nd.attrs, ∀ kv' ∈ nd'.attrs, kv.2.isFunc = false → kv'.2.isFunc = false →
      ∀ s t, kv.2.serialized ++ s = kv'.2.serialized ++ t →
        kv.2.serialized = kv'.2.serialized) : SameAttrs nd nd' := by
  have hf := attrs_decode (fun x y => ∀ s t, x ++ s = y ++ t → x = y)
    (fun _ _ h => h) (select_names hnames hn)
    (fun kv hkv kv' hkv' => hfree kv (mem_select.1 hkv).1 kv' (mem_select.1 hkv').1)
    (by rw [← serializeAttrs_flatten h1, ← serializeAttrs_flatten h2, h])
  intro k v v' hv hv' hnf hsel
  have hsel1 : (k, v) ∈ selectAttrs nd.attrs := mem_select.2 ⟨hv, hsel⟩
  obtain ⟨kv', hkv', hk, hsh⟩ := forall₂_left hf (k, v) hsel1
  have hn' : (nd'.attrs.map Prod.fst).Nodup := by
    have e : (nd'.attrs.map (fun kv => (kv.1, kv.2.isFunc))).map Prod.fst =
        nd'.attrs.map Prod.fst := by rw [List.map_map]; rfl
    have e' : (nd.attrs.map (fun kv => (kv.1, kv.2.isFunc))).map Prod.fst =
        nd.attrs.map Prod.fst := by rw [List.map_map]; rfl
    rw [← e]
    rw [← e'] at hn
    exact (hnames.map Prod.fst).nodup_iff.1 hn
  have : kv' = (k, v') :=
    List.inj_on_of_nodup_map hn' (mem_select.1 hkv').1 hv' hk.symm
  subst this
  have hnf' : v'.isFunc = false := by
    have hm : (k, v.isFunc) ∈ nd'.attrs.map (fun kv => (kv.1, kv.2.isFunc)) :=
      hnames.mem_iff.1 (List.mem_map.2 ⟨(k, v), hv, rfl⟩)
    obtain ⟨kv, h3, h4⟩ := List.mem_map.1 hm
    simp only [Prod.mk.injEq] at h4
    have : kv = (k, v') := List.inj_on_of_nodup_map hn' h3 hv' h4.1
    rw [this] at h4
    rw [h4.2, hnf]
  simp only [shown, hnf, hnf'] at hsh
  simpa using hsh

/-! #### The induction -/

theorem describe_some {sha1 : Bytes → Bytes} {x : Described} {ps : List (Option Bytes)}
    {d : Bytes} (h : describe sha1 (some x) ps = .ok (some d)) :
    ∃ ds vs : List Bytes, ps = ds.map some ∧ ownValues x = .ok vs ∧ d = sha1 (vs.flatten ++ ds.flatten) := by
  unfold describe at h
  simp only at h
  split at h
  · cases h
  · rename_i hany
    obtain ⟨vs, hvs, h⟩ := bind_ok_iff.1 h
    cases h
    refine ⟨ps.filterMap id, vs, ?_, hvs, rfl⟩
    have : ∀ l : List (Option Bytes), ¬ (l.any (fun p => p.isNone) = true) →
        l = (l.filterMap id).map some := by
      intro l
      induction l with
      | nil => intro _; rfl
      | cons p l ih =>
        intro hl
        simp only [List.any_cons, Bool.or_eq_true, not_or] at hl
        cases p with
        | none => simp at hl
        | some x =>
          rw [List.filterMap_cons]
          simp only [id, List.map_cons]
          exact congrArg _ (ih hl.2)
    exact this ps hany

theorem value_some {N : Type} [DecidableEq N] {sha1 : Bytes → Bytes} {g : PathGraph N}
    (hnf : ∀ n rs, g.funcs n rs = .ok []) {n : N} {r : Result N Path} {d : Bytes}
    (h : Value (g.analyzer sha1) n r) (hd : r.path = .ok (some d)) :
    (∃ i s, g.source n = some i ∧ i.name = some s ∧ d = sha1 (g.asBytes s)) ∨
    (g.source n = none ∧ ∃ (ps : List N) (rs : List (Result N Path)) (ds vs : List Bytes),
      (g.analyzer sha1).getParents n = .ok ps ∧
      List.Forall₂ (Value (g.analyzer sha1)) ps rs ∧
      rs.map (fun r => r.path) = ds.map (fun d => .ok (some d)) ∧
      ownValues (g.content n) = .ok vs ∧ d = sha1 (vs.flatten ++ ds.flatten)) := by
  obtain ⟨ps, rs, hp, hall, hc⟩ := value_forall₂ h
  unfold Analyzer.compute at hc
  cases hs : g.source n with
  | some i =>
    left
    have e : (g.analyzer sha1).source n = some i := hs
    rw [e] at hc
    cases hc
    cases hi : i.name with
    | none => simp [PathGraph.analyzer, describe, hi] at hd
    | some s =>
      refine ⟨i, s, rfl, hi, ?_⟩
      simp [PathGraph.analyzer, describe, hi, ownValues, bind, Except.bind] at hd
      exact hd.symm
  | none =>
    right
    have e : (g.analyzer sha1).source n = none := hs
    rw [e] at hc
    obtain ⟨frs, hfrs, hc⟩ := bind_ok_iff.1 hc
    have : frs = [] := by
      have := hnf n rs
      have h' : g.funcs n rs = .ok frs := hfrs
      rw [this] at h'
      cases h'
      rfl
    subst this
    cases hc
    obtain ⟨qs, hqs, hd⟩ := bind_ok_iff.1 hd
    obtain ⟨ds, vs, rfl, hvs, he⟩ := describe_some hd
    refine ⟨rfl, ps, rs, ds, vs, hp, hall, ?_, hvs, he⟩
    have hf := (seqExcept_ok_iff _ _).1 hqs
    simp only [List.map_nil, List.append_nil] at hf
    rw [List.forall₂_map_right_iff] at hf
    have hgen : ∀ (l : List Path) (m : List Bytes),
        List.Forall₂ (fun x y => x = Except.ok (some y)) l m →
        l = m.map (fun d => .ok (some d)) := by
      intro l m hlm
      induction hlm with
      | nil => rfl
      | cons h1 _ ih => rw [List.map_cons, h1, ih]
    exact hgen _ _ hf

theorem value_digest_length {N : Type} [DecidableEq N] {sha1 : Bytes → Bytes} {g : PathGraph N}
    (hnf : ∀ n rs, g.funcs n rs = .ok []) {len : Nat} (hlen : ∀ x, (sha1 x).length = len) {n : N}
    {r : Result N Path} {d : Bytes} (h : Value (g.analyzer sha1) n r)
    (hd : r.path = .ok (some d)) : d.length = len := by
  rcases value_some hnf h hd with ⟨_, _, _, _, rfl⟩ | ⟨_, _, _, _, _, _, _, _, _, rfl⟩ <;>
    exact hlen _

/-- The serializations of attributes of both graphs are not prefixes of each other, unless they
are equal. (A serialized `AttrValue` is a single field with its tag and length.) -/
def PrefixFree (g₁ : PathGraph N₁) (g₂ : PathGraph N₂) : Prop :=
  ∀ a nd b nd', g₁.content a = .operation nd → g₂.content b = .operation nd' →
    ∀ kv ∈ nd.attrs, ∀ kv' ∈ nd'.attrs, kv.2.isFunc = false → kv'.2.isFunc = false →
      (kv.2.serialized <+: kv'.2.serialized ∨ kv'.2.serialized <+: kv.2.serialized) →
        kv.2.serialized = kv'.2.serialized

theorem value_path_determines {sha1 : Bytes → Bytes} {len : Nat}
    (hlen : ∀ x, (sha1 x).length = len) {g₁ : PathGraph N₁} {g₂ : PathGraph N₂}
    (hnf₁ : ∀ n rs, g₁.funcs n rs = .ok []) (hnf₂ : ∀ n rs, g₂.funcs n rs = .ok [])
    (hpf : PrefixFree g₁ g₂) {a : N₁} {b : N₂} (hshape : SameShape g₁ g₂ a b) :
    ∀ {r₁ : Result N₁ Path} {r₂ : Result N₂ Path} {d : Bytes}, Value (g₁.analyzer sha1) a r₁ →
    Value (g₂.analyzer sha1) b r₂ → r₁.path = .ok (some d) → r₂.path = .ok (some d) →
    (∀ x y, Hashed g₁ sha1 a x → Hashed g₂ sha1 b y → sha1 x = sha1 y → x = y) →
    SameUpToTypes g₁ g₂ a b := by
  -- the common part: equal strings of the node itself, and equal digests of the inputs
  have common : ∀ {a : N₁} {b : N₂} {r₁ : Result N₁ Path} {r₂ : Result N₂ Path} {d : Bytes}
      {ps : List N₁} {qs : List N₂}, g₁.source a = none → g₂.source b = none →
      (g₁.analyzer sha1).getParents a = .ok ps → (g₂.analyzer sha1).getParents b = .ok qs →
      ps.length = qs.length →
      Value (g₁.analyzer sha1) a r₁ →
      Value (g₂.analyzer sha1) b r₂ → r₁.path = .ok (some d) → r₂.path = .ok (some d) →
      (∀ x y, Hashed g₁ sha1 a x → Hashed g₂ sha1 b y → sha1 x = sha1 y → x = y) →
      (∃ vs vs', ownValues (g₁.content a) = .ok vs ∧ ownValues (g₂.content b) = .ok vs' ∧
        vs.flatten = vs'.flatten) ∧
      ∀ (i : Nat) p q, ps[i]? = some p → qs[i]? = some q → ∃ s₁ s₂ e,
        Value (g₁.analyzer sha1) p s₁ ∧ Value (g₂.analyzer sha1) q s₂ ∧
        s₁.path = .ok (some e) ∧ s₂.path = .ok (some e) ∧
        (∀ x y, Hashed g₁ sha1 p x → Hashed g₂ sha1 q y → sha1 x = sha1 y → x = y) := by
    intro a b r₁ r₂ d ps qs hs1 hs2 hp1 hp2 hl hv1 hv2 hd1 hd2 hinj
    rcases value_some hnf₁ hv1 hd1 with ⟨_, _, h, _⟩ | ⟨_, ps', rs, ds, vs, hp1', hf1, hm1, ho1, he1⟩
    · rw [hs1] at h; cases h
    rcases value_some hnf₂ hv2 hd2 with ⟨_, _, h, _⟩ | ⟨_, qs', ss, es, ws, hp2', hf2, hm2, ho2, he2⟩
    · rw [hs2] at h; cases h
    rw [hp1] at hp1'; cases hp1'
    rw [hp2] at hp2'; cases hp2'
    have hpre := hinj _ _ (.own hs1 hp1 hf1 hm1 ho1) (.own hs2 hp2 hf2 hm2 ho2) (by rw [← he1, ← he2])
    have hlen1 : ds.length = es.length := by
      have h1 := congrArg List.length hm1
      have h2 := congrArg List.length hm2
      simp only [List.length_map] at h1 h2
      rw [← h1, ← h2, ← hf1.length_eq, ← hf2.length_eq, hl]
    have hds : ∀ x ∈ ds, x.length = len := by
      intro x hx
      have : (Except.ok (some x) : Path) ∈ rs.map (fun r => r.path) := by
        rw [hm1]; exact List.mem_map.2 ⟨x, hx, rfl⟩
      obtain ⟨r, hr, hrp⟩ := List.mem_map.1 this
      obtain ⟨p, _, hpv⟩ := forall₂_right hf1 r hr
      exact value_digest_length hnf₁ hlen hpv hrp
    have hes : ∀ x ∈ es, x.length = len := by
      intro x hx
      have : (Except.ok (some x) : Path) ∈ ss.map (fun r => r.path) := by
        rw [hm2]; exact List.mem_map.2 ⟨x, hx, rfl⟩
      obtain ⟨r, hr, hrp⟩ := List.mem_map.1 this
      obtain ⟨p, _, hpv⟩ := forall₂_right hf2 r hr
      exact value_digest_length hnf₂ hlen hpv hrp
    have hflen : ds.flatten.length = es.flatten.length := by
      have h : ∀ l : List Bytes, (∀ x ∈ l, x.length = len) → l.flatten.length = l.length * len := by
        intro l
        induction l with
        | nil => intro _; simp
        | cons x l ih =>
          intro hl
          rw [List.flatten_cons, List.length_append, hl x (by simp),
            ih (fun y hy => hl y (by simp [hy])), List.length_cons]
          ring
      rw [h ds hds, h es hes, hlen1]
    obtain ⟨hvals, hflat⟩ := List.append_inj' hpre hflen
    have hde : ds = es := flatten_eq_of_lengths len ds es hds hes hlen1 hflat
    subst hde
    refine ⟨⟨vs, ws, ho1, ho2, hvals⟩, ?_⟩
    intro i p q hip hiq
    obtain ⟨b1, rfl⟩ := List.getElem?_eq_some_iff.1 hip
    obtain ⟨b2, rfl⟩ := List.getElem?_eq_some_iff.1 hiq
    have c1 : i < rs.length := by rw [← hf1.length_eq]; exact b1
    have c2 : i < ss.length := by rw [← hf2.length_eq]; exact b2
    have c3 : i < ds.length := by
      have h1 := congrArg List.length hm1
      simp only [List.length_map] at h1
      omega
    refine ⟨rs[i], ss[i], ds[i], List.Forall₂.get hf1 b1 c1, List.Forall₂.get hf2 b2 c2, ?_, ?_, ?_⟩
    · have := List.getElem_of_eq hm1 (i := i) (by simpa using c1)
      simpa using this
    · have := List.getElem_of_eq hm2 (i := i) (by simpa using c2)
      simpa using this
    · intro x y hx hy
      exact hinj x y (.input ((uses_iff _ _ _).2 ⟨ps, hp1, List.getElem_mem b1⟩) hx)
        (.input ((uses_iff _ _ _).2 ⟨qs, hp2, List.getElem_mem b2⟩) hy)
  induction hshape with
  | @source a b h1 h2 =>
    intro r₁ r₂ d hv1 hv2 hd1 hd2 hinj
    rcases value_some hnf₁ hv1 hd1 with ⟨i, s, hi, his, hdi⟩ | ⟨h, _⟩
    · rcases value_some hnf₂ hv2 hd2 with ⟨j, t, hj, hjt, hdj⟩ | ⟨h, _⟩
      · exact .source hi hj his hjt
          (hinj _ _ (.source hi his) (.source hj hjt) (by rw [← hdi, ← hdj]))
      · rw [h] at h2; cases h2
    · rw [h] at h1; cases h1
  | @tensor a b o o' i j hs1 hs2 hk1 hk2 hc1 hc2 _ ih =>
    intro r₁ r₂ d hv1 hv2 hd1 hd2 hinj
    have hp1 : (g₁.analyzer sha1).getParents a = .ok [o] := by
      have e : (g₁.analyzer sha1).source a = none := hs1
      have k : (g₁.analyzer sha1).kind a = .tensor o := hk1
      simp [Analyzer.getParents, e, k]
    have hp2 : (g₂.analyzer sha1).getParents b = .ok [o'] := by
      have e : (g₂.analyzer sha1).source b = none := hs2
      have k : (g₂.analyzer sha1).kind b = .tensor o' := hk2
      simp [Analyzer.getParents, e, k]
    obtain ⟨⟨vs, vs', ho1, ho2, hvs⟩, hin⟩ := common hs1 hs2 hp1 hp2 rfl hv1 hv2 hd1 hd2 hinj
    obtain ⟨s₁, s₂, e, w1, w2, w3, w4, w5⟩ := hin 0 o o' rfl rfl
    rw [hc1] at ho1
    rw [hc2] at ho2
    cases ho1; cases ho2
    have hij : i = j := decimal_injective (by simpa using hvs)
    subst hij
    exact .tensor hk1 hk2 hc1 hc2 (ih w1 w2 w3 w4 w5)
  | @op a b is cs is' cs' nd nd' hs1 hs2 hk1 hk2 hc1 hc2 hnames hnd hli hlc _ _ ihi ihc =>
    intro r₁ r₂ d hv1 hv2 hd1 hd2 hinj
    have hp1 : (g₁.analyzer sha1).getParents a = .ok (is ++ cs) := by
      have e : (g₁.analyzer sha1).source a = none := hs1
      have k : (g₁.analyzer sha1).kind a = .op is cs := hk1
      simp [Analyzer.getParents, e, k]
    have hp2 : (g₂.analyzer sha1).getParents b = .ok (is' ++ cs') := by
      have e : (g₂.analyzer sha1).source b = none := hs2
      have k : (g₂.analyzer sha1).kind b = .op is' cs' := hk2
      simp [Analyzer.getParents, e, k]
    obtain ⟨⟨vs, vs', ho1, ho2, hvs⟩, hin⟩ := common hs1 hs2 hp1 hp2
      (by rw [List.length_append, List.length_append, hli, hlc]) hv1 hv2 hd1 hd2 hinj
    rw [hc1] at ho1
    rw [hc2] at ho2
    have hattrs : SameAttrs nd nd' := by
      refine same_attrs_of_flatten ho1 ho2 hvs hnames hnd ?_
      intro kv hkv kv' hkv' hf hf' s t hst
      apply hpf a nd b nd' hc1 hc2 kv hkv kv' hkv' hf hf'
      rcases List.append_eq_append_iff.1 hst with ⟨x, h1, _⟩ | ⟨x, h1, _⟩
      · left; exact ⟨x, h1.symm⟩
      · right; exact ⟨x, h1.symm⟩
    refine .op hk1 hk2 hc1 hc2 hattrs hli hlc ?_ ?_
    · intro i p q hip hiq
      obtain ⟨b1, _⟩ := List.getElem?_eq_some_iff.1 hip
      obtain ⟨b2, _⟩ := List.getElem?_eq_some_iff.1 hiq
      obtain ⟨s₁, s₂, e, w1, w2, w3, w4, w5⟩ := hin i p q
        (by rw [List.getElem?_append_left b1]; exact hip)
        (by rw [List.getElem?_append_left b2]; exact hiq)
      exact ihi i p q hip hiq w1 w2 w3 w4 w5
    · intro i p q hip hiq
      obtain ⟨s₁, s₂, e, w1, w2, w3, w4, w5⟩ := hin (is.length + i) p q
        (by rw [List.getElem?_append_right (by omega)]; simpa using hip)
        (by rw [hli, List.getElem?_append_right (by omega)]; simpa using hiq)
      exact ihc i p q hip hiq w1 w2 w3 w4 w5

/-- **C59** (partial) Two tensors with the same path that see graphs of the same shape see the
same computation on the same inputs: the same outputs of operations with the same attributes,
applied in the same way, down to inputs of the same names. `hinj` says that no two of the strings
hashed for the two paths have the same digest. Missing: the types of the operations, which are not
part of the path (see `path_ignores_op_type`), and the shape. -/
theorem same_path_same_computation_partial [Fintype N₁] [Fintype N₂] (sha1 : Bytes → Bytes)
    (len : Nat) (hlen : ∀ x, (sha1 x).length = len) (g₁ : PathGraph N₁) (g₂ : PathGraph N₂)
    (hnf₁ : ∀ n rs, g₁.funcs n rs = .ok []) (hnf₂ : ∀ n rs, g₂.funcs n rs = .ok [])
    (hpf : PrefixFree g₁ g₂)
    (hac₁ : Acyclic (g₁.analyzer sha1)) (hac₂ : Acyclic (g₂.analyzer sha1))
    {hs₁ : List (N₁ × Result N₁ Path)} {memo₁ : Memo N₁ Path}
    (h₁ : (g₁.analyzer sha1).History hs₁ memo₁)
    {hs₂ : List (N₂ × Result N₂ Path)} {memo₂ : Memo N₂ Path}
    (h₂ : (g₂.analyzer sha1).History hs₂ memo₂)
    (a : N₁) (b : N₂) (hshape : SameShape g₁ g₂ a b) (r₁ : Result N₁ Path) (r₂ : Result N₂ Path)
    (hr₁ : (a, r₁) ∈ hs₁) (hr₂ : (b, r₂) ∈ hs₂) (d : Bytes) (hd₁ : r₁.path = .ok (some d))
    (hd₂ : r₂.path = .ok (some d))
    (hinj : ∀ x y, Hashed g₁ sha1 a x → Hashed g₂ sha1 b y → sha1 x = sha1 y → x = y) :
    SameUpToTypes g₁ g₂ a b :=
  value_path_determines hlen hnf₁ hnf₂ hpf hshape ((history_good hac₁ h₁).2 _ hr₁)
    ((history_good hac₂ h₂).2 _ hr₂) hd₁ hd₂ hinj

/-! ### What the path leaves out -/

/-- The graph with other types of operations. -/
def PathGraph.retype {N : Type} (g : PathGraph N) (types : N → String) : PathGraph N :=
  { g with content := fun n => match g.content n with
      | .operation nd => .operation ⟨types n, nd.attrs⟩
      | x => x }

/-- The negation of C59: the types of operations are not part of the path. Replacing any
operation by another one with the same attributes leaves every path as it was, for every `sha1`. -/
theorem path_ignores_op_type {N : Type} [DecidableEq N] [Fintype N] (sha1 : Bytes → Bytes)
    (g : PathGraph N) (types : N → String)
    (hnames : ∀ n nd, g.content n = .operation nd → (nd.attrs.map Prod.fst).Nodup)
    (hnf : ∀ n rs, g.funcs n rs = .ok [])
    (hac : Acyclic (g.analyzer sha1)) {hs₁ hs₂ : List (N × Result N Path)} {memo₁ memo₂ : Memo N Path}
    (h₁ : (g.analyzer sha1).History hs₁ memo₁)
    (h₂ : ((g.retype types).analyzer sha1).History hs₂ memo₂)
    (n : N) (r₁ r₂ : Result N Path) (hr₁ : (n, r₁) ∈ hs₁) (hr₂ : (n, r₂) ∈ hs₂) :
    r₁.path = r₂.path := by
  refine same_computation_same_path sha1 g (g.retype types) Eq ?_ hac ?_ h₁ h₂ n n rfl r₁ r₂ hr₁ hr₂
  · exact {
      asBytes := rfl
      source := by rintro a _ rfl; rfl
      kind := (matches_readiness g g.source (fun _ => rfl) hnames (by
        intro n rs₁ rs₂ _ frs₁ frs₂ e1 e2
        rw [hnf] at e1 e2
        cases e1; cases e2; rfl)).kind
      content := by
        rintro a _ rfl _
        show SameContent (g.content a) ((g.retype types).content a)
        cases hc : g.content a with
        | operation nd =>
          simp only [PathGraph.retype, hc]
          exact ⟨.refl _, hnames a nd hc⟩
        | tensor i => simp only [PathGraph.retype, hc]; rfl
        | source s => simp only [PathGraph.retype, hc]; rfl
      funcs := by
        rintro a _ rs₁ rs₂ rfl _ frs₁ frs₂ e1 e2
        have e2 : g.funcs a rs₂ = .ok frs₂ := e2
        rw [hnf] at e1 e2
        cases e1; cases e2; rfl }
  · exact hac

/-! ### Cache entry keys -/

/-- The attributes that describe an operation: those whose name does not start with an underscore
(byte 95) and which are not methods. -/
def Spec.publicMembers (op : OpDef) : List Member :=
  op.members.filter (fun m => decide (m.name.head? ≠ some 95) && !m.callable)

theorem public_eq (m : Member) :
    (!(isPrivate m.name || m.callable)) = (decide (m.name.head? ≠ some 95) && !m.callable) := by
  unfold isPrivate
  cases m.callable <;> by_cases h : m.name.head? = some 95 <;> simp [h]

/-- **C59** What describes an operation that reads one input: the class, then the public attributes
in the order of their names, then the fields. -/
theorem operation_description (op : OpDef) (hk : op.keys = none)
    (paths : String → Option (Option Bytes)) :
    ∃ ms : List Member, ms.Perm (publicMembers op) ∧ ms.Pairwise (fun a b => a.name ≤ b.name) ∧
      op.parts paths = .ok ((op.className :: (ms.map (fun m => m.text) ++ op.fields)).map some) := by
  have htot : Std.Total (fun a b : Member => a.name ≤ b.name) := ⟨fun a b => le_total a.name b.name⟩
  have htr : IsTrans Member (fun a b => a.name ≤ b.name) := ⟨fun a b c => le_trans⟩
  refine ⟨(op.members.insertionSort (fun a b => a.name ≤ b.name)).filter
      (fun m => !(isPrivate m.name || m.callable)), ?_, ?_, ?_⟩
  · unfold publicMembers
    rw [← funext public_eq]
    exact (List.perm_insertionSort _ _).filter _
  · exact (List.pairwise_insertionSort _ _).filter _
  · simp [OpDef.parts, hk, Function.comp_def]

/-- **C59** Operations of the same class with the same public attributes and fields (the order of
`dir` does not matter, nor do private attributes and methods), reading tensors with the same paths,
have the same key. -/
theorem same_operation_same_entry_key (sha1 : Bytes → Bytes) (version label : Bytes)
    (paths paths' : String → Option (Option Bytes)) (cls : Bytes) (ks ks' : List String)
    (hks : List.Forall₂ (fun k k' => paths k = paths' k') ks ks')
    (op op' : OpDef) (hc : op.className = op'.className) (hk : op.keys = none)
    (hk' : op'.keys = none) (hm : (publicMembers op).Perm (publicMembers op'))
    (hn : ((publicMembers op).map (fun m => m.name)).Nodup) (hf : op.fields = op'.fields) :
    entryKey sha1 version paths label [⟨cls, some ks, [], []⟩, op] =
      entryKey sha1 version paths' label [⟨cls, some ks', [], []⟩, op'] := by
  have htot : Std.Total (fun a b : Member => a.name ≤ b.name) := ⟨fun a b => le_total a.name b.name⟩
  have htr : IsTrans Member (fun a b => a.name ≤ b.name) := ⟨fun a b c => le_trans⟩
  have hpar : ∀ q q', op.parts q = op'.parts q' := by
    intro q q'
    obtain ⟨ms, h1, h2, h3⟩ := operation_description op hk q
    obtain ⟨ms', h1', h2', h3'⟩ := operation_description op' hk' q'
    have he : ms = ms' := by
      refine (h1.trans (hm.trans h1'.symm)).eq_of_pairwise ?_ h2 h2'
      intro a b ha hb l1 l2
      exact List.inj_on_of_nodup_map hn (h1.mem_iff.1 ha) (hm.mem_iff.2 (h1'.mem_iff.1 hb))
        (le_antisymm l1 l2)
    rw [h3, h3', he, hc, hf]
  have hex : ks.map (pathOf paths) = ks'.map (pathOf paths') := by
    induction hks with
    | nil => rfl
    | cons h _ ih => rw [List.map_cons, List.map_cons, pathOf, pathOf, h, ih]
  have hpar0 : (OpDef.mk cls (some ks) [] []).parts paths =
      (OpDef.mk cls (some ks') [] []).parts paths' := by
    simp only [OpDef.parts, hex]
  simp only [entryKey, chainPath, nextHashedPath, hpar0, hpar paths paths']

/-- **C59** The key of an operation that reads tensors with paths is computed without an
exception. -/
theorem entry_key_exists (sha1 : Bytes → Bytes) (version label : Bytes)
    (paths : String → Option (Option Bytes)) (cls : Bytes) (ks : List String)
    (hks : ∀ k ∈ ks, ∃ d, paths k = some (some d)) (op : OpDef) (hk : op.keys = none) :
    ∃ key, entryKey sha1 version paths label [⟨cls, some ks, [], []⟩, op] = .ok key := by
  have h1 : ∃ ds : List Bytes, (OpDef.mk cls (some ks) [] []).parts paths =
      .ok (ds.map some) := by
    have : ∃ ds : List Bytes, seqExcept (ks.map (pathOf paths)) = .ok (ds.map some) := by
      induction ks with
      | nil => exact ⟨[], rfl⟩
      | cons k ks ih =>
        obtain ⟨d, hd⟩ := hks k (by simp)
        obtain ⟨ds, hds⟩ := ih (fun k' hk' => hks k' (by simp [hk']))
        refine ⟨d :: ds, ?_⟩
        simp only [List.map_cons, pathOf, hd, seqExcept, hds, bind, Except.bind]
    obtain ⟨ds, hds⟩ := this
    refine ⟨cls :: ds, ?_⟩
    simp only [OpDef.parts, hds]
    rfl
  have h2 : ∃ ts : List Bytes, op.parts paths = .ok (ts.map some) := by
    refine ⟨op.className :: (((op.members.insertionSort (fun a b => a.name ≤ b.name)).filter
      (fun m => !(isPrivate m.name || m.callable))).map (fun m => m.text) ++ op.fields), ?_⟩
    simp [OpDef.parts, hk, Function.comp_def]
  have hnone : ∀ l : List Bytes, (l.map some).any (fun p => p.isNone) = false := by
    intro l; simp
  obtain ⟨ds, hds⟩ := h1
  obtain ⟨ts, hts⟩ := h2
  have h3 : ∀ (p : Bytes) (q : OpDef) (l : List Bytes), q.parts paths = .ok (l.map some) →
      nextHashedPath sha1 [some p] q paths = .ok (some (sha1 (p ++ l.flatten))) := by
    intro p q l hq
    simp only [nextHashedPath, hq, bind, Except.bind]
    rw [show [some p] ++ l.map some = (p :: l).map some from rfl, hnone]
    simp
  unfold entryKey
  simp only [chainPath, h3 _ _ _ hds, h3 _ _ _ hts, bind, Except.bind, cacheEntryKey]
  exact ⟨_, rfl⟩

theorem nextHashedPath_some {sha1 : Bytes → Bytes} {p : Option Bytes} {op : OpDef}
    {paths : String → Option (Option Bytes)} {d : Bytes}
    (h : nextHashedPath sha1 [p] op paths = .ok (some d)) :
    ∃ x ts, p = some x ∧ op.parts paths = .ok (List.map some ts) ∧ d = sha1 (x ++ ts.flatten) := by
  unfold nextHashedPath at h
  obtain ⟨parts, hp, h⟩ := bind_ok_iff.1 h
  simp only at h
  split at h
  · cases h
  · rename_i hany
    cases h
    have hgen : ∀ l : List (Option Bytes), ¬ (l.any (fun p => p.isNone) = true) →
        ∃ m : List Bytes, l = m.map some := by
      intro l
      induction l with
      | nil => intro _; exact ⟨[], rfl⟩
      | cons q l ih =>
        intro hl
        simp only [List.any_cons, Bool.or_eq_true, not_or] at hl
        obtain ⟨m, rfl⟩ := ih hl.2
        cases q with
        | none => simp at hl
        | some x => exact ⟨x :: m, rfl⟩
    obtain ⟨m, hm⟩ := hgen _ hany
    cases m with
    | nil => simp at hm
    | cons x ts =>
      simp only [List.cons_append, List.nil_append, List.map_cons, List.cons.injEq] at hm
      obtain ⟨rfl, rfl⟩ := hm
      refine ⟨x, ts, rfl, hp, ?_⟩
      simp

theorem parts_extract {cls : Bytes} {ks : List String} {paths : String → Option (Option Bytes)}
    {ts : List Bytes} (h : (OpDef.mk cls (some ks) [] []).parts paths = .ok (ts.map some)) :
    ∃ ds, ts = cls :: ds ∧ List.Forall₂ (fun k d => paths k = some (some d)) ks ds := by
  simp only [OpDef.parts] at h
  obtain ⟨ps, hps, he⟩ := bind_ok_iff.1 h
  cases ts with
  | nil => cases he
  | cons t ds =>
    simp only [List.map_cons, Except.ok.injEq, List.cons.injEq, Option.some.injEq] at he
    obtain ⟨rfl, rfl⟩ := he
    refine ⟨ds, rfl, ?_⟩
    have hf := (seqExcept_ok_iff _ _).1 hps
    rw [List.forall₂_map_left_iff, List.forall₂_map_right_iff] at hf
    refine hf.imp ?_
    intro k d hkd
    unfold pathOf at hkd
    cases hk : paths k with
    | none => rw [hk] at hkd; cases hkd
    | some p => rw [hk] at hkd; cases hkd; rfl

/-- The strings hashed for a cache entry key: those of the operation that extracts the tensors and
of the cacheable operation. -/
def Spec.KeyHashed (sha1 : Bytes → Bytes) (paths : String → Option (Option Bytes)) (cls : Bytes)
    (ks : List String) (op : OpDef) (x : Bytes) : Prop :=
  ∃ ds ts : List Bytes, List.Forall₂ (fun k d => paths k = some (some d)) ks ds ∧
    op.parts paths = .ok (ts.map some) ∧
    (x = applySavedModelPath ++ (cls ++ ds.flatten) ∨
      x = sha1 (applySavedModelPath ++ (cls ++ ds.flatten)) ++ ts.flatten)

/-- **C59** (partial) Two analyzers with the same cache entry key have the same label, read tensors
with the same paths, in the same order, and are operations with the same description (class, public
attributes and fields). `hinj` says that the strings hashed for the two keys do not collide.
Missing: the paths do not describe the types of TensorFlow operations (`path_ignores_op_type`); the
description of an operation is compared as one string; as many tensors are read. -/
theorem same_entry_key_same_operation_partial (sha1 : Bytes → Bytes) (len : Nat)
    (hlen : ∀ x, (sha1 x).length = len) (version label label' : Bytes)
    (paths paths' : String → Option (Option Bytes)) (cls : Bytes) (ks ks' : List String)
    (hkl : ks.length = ks'.length) (op op' : OpDef) (key : Bytes)
    (hpl : ∀ k d, paths k = some (some d) → d.length = len)
    (hpl' : ∀ k d, paths' k = some (some d) → d.length = len)
    (h : entryKey sha1 version paths label [⟨cls, some ks, [], []⟩, op] = .ok key)
    (h' : entryKey sha1 version paths' label' [⟨cls, some ks', [], []⟩, op'] = .ok key)
    (hinj : ∀ x y, KeyHashed sha1 paths cls ks op x → KeyHashed sha1 paths' cls ks' op' y →
      sha1 x = sha1 y → x = y) :
    label = label' ∧ List.Forall₂ (fun k k' => paths k = paths' k') ks ks' ∧
    ∃ ts ts' : List Bytes, op.parts paths = .ok (ts.map some) ∧
      op'.parts paths' = .ok (ts'.map some) ∧ ts.flatten = ts'.flatten := by
  have split : ∀ {label : Bytes} {paths : String → Option (Option Bytes)} {ks : List String}
      {op : OpDef}, entryKey sha1 version paths label [⟨cls, some ks, [], []⟩, op] = .ok key →
      ∃ ds ts : List Bytes, List.Forall₂ (fun k d => paths k = some (some d)) ks ds ∧
        op.parts paths = .ok (ts.map some) ∧ key = version ++ (label ++ [45] ++
          sha1 (sha1 (applySavedModelPath ++ (cls ++ ds.flatten)) ++ ts.flatten)) := by
    intro label paths ks op h
    unfold entryKey at h
    obtain ⟨p, hp, h⟩ := bind_ok_iff.1 h
    simp only [chainPath] at hp
    obtain ⟨q, hq, hp⟩ := bind_ok_iff.1 hp
    obtain ⟨q2, hq2, hp⟩ := bind_ok_iff.1 hp
    cases hp
    cases p with
    | none => cases h
    | some d =>
      cases h
      obtain ⟨x, ts, rfl, hts, rfl⟩ := nextHashedPath_some hq2
      obtain ⟨y, us, hy, hus, rfl⟩ := nextHashedPath_some hq
      cases hy
      obtain ⟨ds, rfl, hds⟩ := parts_extract hus
      exact ⟨ds, ts, hds, hts, by simp⟩
  obtain ⟨ds, ts, hds, hts, hkey⟩ := split h
  obtain ⟨es, us, hes, hus, hkey'⟩ := split h'
  rw [hkey] at hkey'
  have h1 := List.append_cancel_left hkey'
  obtain ⟨h2, h3⟩ := List.append_inj' h1 (by rw [hlen, hlen])
  obtain ⟨h4, _⟩ := List.append_inj' h2 rfl
  have h6 := hinj _ _ ⟨ds, ts, hds, hts, Or.inr rfl⟩ ⟨es, us, hes, hus, Or.inr rfl⟩ h3
  obtain ⟨h7, h8⟩ := List.append_inj h6 (by rw [hlen, hlen])
  have h9 := hinj _ _ ⟨ds, ts, hds, hts, Or.inl rfl⟩ ⟨es, us, hes, hus, Or.inl rfl⟩ h7
  have h10 := List.append_cancel_left (List.append_cancel_left h9)
  have hlds : ∀ x ∈ ds, x.length = len := by
    intro x hx
    obtain ⟨k, _, hk⟩ := forall₂_right hds x hx
    exact hpl k x hk
  have hles : ∀ x ∈ es, x.length = len := by
    intro x hx
    obtain ⟨k, _, hk⟩ := forall₂_right hes x hx
    exact hpl' k x hk
  have hde : ds = es := flatten_eq_of_lengths len ds es hlds hles
    (by rw [← hds.length_eq, ← hes.length_eq, hkl]) h10
  subst hde
  refine ⟨h4, ?_, ts, us, hts, hus, h8⟩
  rw [List.forall₂_iff_get]
  refine ⟨hkl, fun i b1 b2 => ?_⟩
  have c : i < ds.length := by rw [← hds.length_eq]; exact b1
  have e1 := List.Forall₂.get hds b1 c
  have e2 := List.Forall₂.get hes b2 c
  exact e1.trans e2.symm

/-! ### The hypotheses are met, and a stale cache is used -/

/-- The graph of `t(x)` for an operation of type `t` with the attribute `T = DT_FLOAT`. Node 0 is the
input, 1 the operation, 2 its output. (`asBytes` is only used for the one name.) -/
def opGraph (t : String) (ready : Bool) : PathGraph (Fin 3) where
  kind := ![.placeholder, .op [0] [], .tensor 1]
  content := ![.source [], .operation ⟨t, [([84], ⟨false, false, [48, 1]⟩)]⟩, .tensor 0]
  source := ![some ⟨ready, some "x$tensor"⟩, none, none]
  asBytes _ := [120, 36, 116, 101, 110, 115, 111, 114]
  funcs _ _ := .ok []

theorem opGraph_acyclic (t : String) (ready : Bool) (sha1 : Bytes → Bytes) :
    Acyclic ((opGraph t ready).analyzer sha1) := by
  have hdep : ∀ a b : Fin 3, Uses ((opGraph t ready).analyzer sha1) a b → b < a := by
    intro a b h
    rw [uses_iff] at h
    obtain ⟨ps, hps, hb⟩ := h
    fin_cases a
    · have : ps = [] := Except.ok.inj (hps.symm.trans
        (rfl : ((opGraph t ready).analyzer sha1).getParents 0 = .ok []))
      subst this; simp at hb
    · have : ps = [0] := Except.ok.inj (hps.symm.trans
        (rfl : ((opGraph t ready).analyzer sha1).getParents 1 = .ok [0]))
      subst this
      simp only [List.mem_singleton] at hb
      subst hb
      decide
    · have : ps = [1] := Except.ok.inj (hps.symm.trans
        (rfl : ((opGraph t ready).analyzer sha1).getParents 2 = .ok [1]))
      subst this
      simp only [List.mem_singleton] at hb
      subst hb
      decide
  have : ∀ a b : Fin 3, Relation.TransGen (Uses ((opGraph t ready).analyzer sha1)) a b → b < a := by
    intro a b h
    induction h with
    | single h => exact hdep _ _ h
    | tail _ h ih => exact lt_trans (hdep _ _ h) ih
  exact fun n h => lt_irrefl _ (this _ _ h)

/-- The path of `t(x)`. -/
def opPath (sha1 : Bytes → Bytes) : Bytes :=
  sha1 ([48] ++ sha1 ([84, 48, 1] ++ sha1 [120, 36, 116, 101, 110, 115, 111, 114]))

theorem opGraph_history (t : String) (sha1 : Bytes → Bytes) :
    ∃ memo, ((opGraph t true).analyzer sha1).History
      [(2, ⟨true, .ok (some (opPath sha1)), {0}⟩)] memo := by
  let g := (opGraph t true).analyzer sha1
  have h := Analyzer.History.snoc (g := g) .nil
    (runs_of_loop g (fun _ => none) 2 10 (endMemo (g.loop 10 [2] ∅ (fun _ => none))) rfl)
    (r := ⟨true, .ok (some (sha1 ([48] ++ (sha1 ([84, 48, 1] ++
      (sha1 [120, 36, 116, 101, 110, 115, 111, 114] ++ [])) ++ [])))), {0}⟩) rfl
  simp only [List.append_nil] at h
  exact ⟨_, h⟩

/-- `same_computation_same_path` applies to the graphs of two operations. -/
example : Matches (opGraph "Abs" true) (opGraph "Abs" false) Eq := by
  refine matches_readiness (opGraph "Abs" true) (opGraph "Abs" false).source ?_ ?_ ?_
  · intro n; fin_cases n <;> rfl
  · intro n nd h
    fin_cases n
    · cases h
    · cases h; simp
    · cases h
  · intro n rs₁ rs₂ _ frs₁ frs₂ h1 h2
    cases h1; cases h2; rfl

theorem opGraph_hashed (t : String) (sha1 : Bytes → Bytes) (x : Bytes) :
    ∀ n, Hashed (opGraph t true) sha1 n x →
      x = [120, 36, 116, 101, 110, 115, 111, 114] ∨
      x = [84, 48, 1] ++ sha1 [120, 36, 116, 101, 110, 115, 111, 114] ∨
      x = [48] ++ sha1 ([84, 48, 1] ++ sha1 [120, 36, 116, 101, 110, 115, 111, 114]) := by
  have hval : ∀ n r, Value ((opGraph t true).analyzer sha1) n r → n = 0 →
      r.path = .ok (some (sha1 [120, 36, 116, 101, 110, 115, 111, 114])) := by
    rintro n r h rfl
    obtain ⟨ps, rs, hp, hf, hc⟩ := value_forall₂ h
    cases hc
    rfl
  have hval1 : ∀ n r, Value ((opGraph t true).analyzer sha1) n r → n = 1 →
      r.path = .ok (some (sha1 ([84, 48, 1] ++ sha1 [120, 36, 116, 101, 110, 115, 111, 114]))) := by
    rintro n r h rfl
    obtain ⟨ps, rs, hp, hf, hc⟩ := value_forall₂ h
    have hps : ps = [0] := Except.ok.inj (hp.symm.trans
      (rfl : ((opGraph t true).analyzer sha1).getParents 1 = .ok [0]))
    subst hps
    cases hf with
    | cons h0 hf =>
      cases hf
      have e := hval _ _ h0 rfl
      cases hc
      simp only [PathGraph.analyzer, List.map_cons, List.map_nil, List.append_nil, e]
      have e2 : (do
          let ps ← seqExcept [Except.ok (some (sha1 [120, 36, 116, 101, 110, 115, 111, 114]))]
          describe sha1 (some ((opGraph t true).content 1)) ps) = Except.ok (some (sha1
            ([84, 48, 1] ++ (sha1 [120, 36, 116, 101, 110, 115, 111, 114] ++ [])))) := rfl
      rw [List.append_nil] at e2
      exact e2
  intro n h
  induction h with
  | @source n info s h1 h2 =>
    left
    fin_cases n
    · cases h1; cases h2; rfl
    · cases h1
    · cases h1
  | @own n ps rs ds vs h1 h2 h3 h4 h5 =>
    fin_cases n
    · cases h1
    · right; left
      have hps : ps = [0] := Except.ok.inj (h2.symm.trans
        (rfl : ((opGraph t true).analyzer sha1).getParents 1 = .ok [0]))
      subst hps
      cases h3 with
      | @cons _ r0 _ _ h0 hf =>
        cases hf
        have e := hval _ _ h0 rfl
        cases h5
        obtain ⟨d, rfl⟩ : ∃ d, ds = [d] :=
          List.length_eq_one_iff.1 (by simpa using (congrArg List.length h4).symm)
        simp only [List.map_cons, List.map_nil, e, List.cons.injEq, Except.ok.injEq,
          Option.some.injEq, and_true] at h4
        subst h4
        simp
    · right; right
      have hps : ps = [1] := Except.ok.inj (h2.symm.trans
        (rfl : ((opGraph t true).analyzer sha1).getParents 2 = .ok [1]))
      subst hps
      cases h3 with
      | @cons _ r0 _ _ h0 hf =>
        cases hf
        have e := hval1 _ _ h0 rfl
        cases h5
        obtain ⟨d, rfl⟩ : ∃ d, ds = [d] :=
          List.length_eq_one_iff.1 (by simpa using (congrArg List.length h4).symm)
        simp only [List.map_cons, List.map_nil, e, List.cons.injEq, Except.ok.injEq,
          Option.some.injEq, and_true] at h4
        subst h4
        simp [decimal]
  | input _ _ ih => exact ih

/-- `same_path_same_computation_partial` applies: with a hash of fixed length that does not collide
on the strings of these graphs, `Abs(x)` and `Square(x)` have the same path, see the same shape, and
are the same up to types. -/
example : SameUpToTypes (opGraph "Abs" true) (opGraph "Square" true) 2 2 := by
  let sha1 : Bytes → Bytes := fun x => [Fin.ofNat 256 x.length]
  obtain ⟨m₁, h₁⟩ := opGraph_history "Abs" sha1
  obtain ⟨m₂, h₂⟩ := opGraph_history "Square" sha1
  refine same_path_same_computation_partial sha1 1 (fun _ => rfl) _ _ (fun _ _ => rfl)
    (fun _ _ => rfl) ?_ (opGraph_acyclic _ _ _) (opGraph_acyclic _ _ _) h₁ h₂ 2 2 ?_ _ _
    (List.mem_singleton_self _) (List.mem_singleton_self _) (opPath sha1) rfl rfl ?_
  · intro a nd b nd' ha hb kv hkv kv' hkv' _ _ _
    fin_cases a <;> cases ha
    fin_cases b <;> cases hb
    simp only [List.mem_singleton] at hkv hkv'
    rw [hkv, hkv']
  · refine .tensor rfl rfl rfl rfl rfl rfl (.op rfl rfl rfl rfl rfl rfl (.refl _) (by simp) rfl rfl ?_ ?_)
    · intro i p q hp hq
      match i with
      | 0 => cases hp; cases hq; exact .source rfl rfl
      | i + 1 => cases hp
    · intro i p q hp
      cases hp
  · intro x y hx hy hxy
    rcases opGraph_hashed _ _ _ _ hx with rfl | rfl | rfl <;>
      rcases opGraph_hashed _ _ _ _ hy with rfl | rfl | rfl <;>
      first | rfl | (revert hxy; decide)

/-- The sum of numbers, as a combiner. -/
def intSum : Combiner Int Int Int where
  create := 0
  addInput a x := .ok (a + x)
  merge as := .ok as.sum
  extract a := .ok a

/-- The negation of C59, end to end: for every `sha1`, the tensors `abs(x)` and `square(x)` have the
same path, hence the analyzers `sum(abs(x))` and `sum(square(x))` the same cache entry key. The
dataset contains `x = -3`. A run of the first with an empty cache writes its entry, and a run of the
second with this cache returns 3, whereas without a cache it returns 9. -/
theorem stale_cache_is_used (sha1 : Bytes → Bytes) :
    let d : DatasetKey := ⟨"d", true⟩
    let coder : Option (CacheCoder Int Int) := some ⟨id, .ok⟩
    let run (f : Int → Int) (cache : CacheDict Int) := cachedAnalysis intSum coder cache [d]
      (fun _ => .add .create (f (-3))) (.add .create 0)
    (∃ m₁ m₂ p, ((opGraph "Abs" true).analyzer sha1).History [(2, ⟨true, p, {0}⟩)] m₁ ∧
      ((opGraph "Square" true).analyzer sha1).History [(2, ⟨true, p, {0}⟩)] m₂) ∧
    ∃ ws, (run (fun x => |x|) (fun _ => none)).toOption = some (3, ws) ∧
      (run (fun x => x * x) (updateCache (fun _ => none) ws)).toOption = some (3, []) ∧
      (run (fun x => x * x) (fun _ => none)).toOption.map Prod.fst = some 9 := by
  intro d coder run
  obtain ⟨m₁, h₁⟩ := opGraph_history "Abs" sha1
  obtain ⟨m₂, h₂⟩ := opGraph_history "Square" sha1
  refine ⟨⟨m₁, m₂, _, h₁, h₂⟩, [(d, [3])], ?_, ?_, ?_⟩ <;> decide +kernel

/-- An `ExtractFromDict` of one tensor, then an operation with a public attribute, a private one, a
method and a field. -/
example : ∃ key, entryKey (fun x => [Fin.ofNat 256 x.length]) [1]
    (fun k => if k = "x" then some (some [7]) else none) [76]
    [⟨[69], some ["x"], [], []⟩,
      ⟨[67], none, [⟨[95, 97], false, [1]⟩, ⟨[98], true, [2]⟩, ⟨[97], false, [3]⟩], [[4]]⟩] =
      .ok key :=
  entry_key_exists _ _ _ _ _ _ (by simp) _ rfl

/-- The hypotheses of `same_entry_key_same_operation_partial` are met by two equal analyzers. -/
example (label' : Bytes) (key : Bytes)
    (h : entryKey (fun x => [Fin.ofNat 256 x.length]) [1]
      (fun k => if k = "x" then some (some [7]) else none) [76]
      [⟨[69], some ["x"], [], []⟩, ⟨[67], none, [], [[4]]⟩] = .ok key)
    (h' : entryKey (fun x => [Fin.ofNat 256 x.length]) [1]
      (fun k => if k = "x" then some (some [7]) else none) label'
      [⟨[69], some ["x"], [], []⟩, ⟨[67], none, [], [[4]]⟩] = .ok key) : [76] = label' := by
  have hd : ∀ ds : List Bytes, List.Forall₂ (fun k d =>
      (if k = "x" then some (some ([7] : Bytes)) else none) = some (some d)) ["x"] ds →
      ds = [[7]] := by
    intro ds hf
    cases hf with
    | cons h1 h2 =>
      cases h2
      simp at h1
      rw [← h1]
  have ht : ∀ (ts : List Bytes) (paths : String → Option (Option Bytes)),
      (OpDef.mk [67] none [] [[4]]).parts paths = .ok (ts.map some) → ts = [[67], [4]] := by
    intro ts paths h
    have h : Except.ok ([[67], [4]].map some) = Except.ok (ts.map some) := h
    have := Except.ok.inj h
    exact ((List.map_injective_iff.2 (Option.some_injective _)) this).symm
  refine (same_entry_key_same_operation_partial _ 1 (fun _ => rfl) [1] [76] label' _ _ [69] ["x"]
    ["x"] rfl _ _ key ?_ ?_ h h' ?_).1
  · intro k d h
    split at h <;> cases h
    rfl
  · intro k d h
    split at h <;> cases h
    rfl
  · rintro x y ⟨ds, ts, h1, h2, h3⟩ ⟨es, us, h4, h5, h6⟩ hxy
    rw [hd ds h1, ht ts _ h2] at h3
    rw [hd es h4, ht us _ h5] at h6
    rcases h3 with rfl | rfl <;> rcases h6 with rfl | rfl <;>
      first | rfl | (revert hxy; decide)

/-- `first_phase_tensors_have_paths` applies to `abs(x)`. -/
example (sha1 : Bytes → Bytes) : (Except.ok (some (opPath sha1)) : Path) ≠ .ok none := by
  obtain ⟨m, h⟩ := opGraph_history "Abs" sha1
  refine (first_phase_tensors_have_paths sha1 (opGraph "Abs" true) (opGraph "Abs" true).source ?_
    (fun _ => rfl) ?_ ?_ ?_ ⟨fun _ _ _ _ => rfl, fun _ _ _ _ _ _ => ⟨[], rfl, by simp⟩⟩
    (opGraph_acyclic _ _ _) (opGraph_acyclic _ _ _) h h 2 _ _ (List.mem_singleton_self _)
    (List.mem_singleton_self _) rfl).2
  · intro n info h1 h2
    fin_cases n <;> cases h1
    cases h2
  · intro n nd h
    fin_cases n <;> cases h
    simp
  · intro n rs₁ rs₂ _ frs₁ frs₂ h1 h2
    cases h1; cases h2; rfl
  · intro n rs frs h1 fr hfr
    cases h1
    cases hfr

end TFT.Graph.CachePath
