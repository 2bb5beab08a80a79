import Verif.Saved.LoadLemmas
import Mathlib.Data.List.Nodup

/-!
# C87: a transform function is loaded as it was written
-/

namespace TFT.SavedLoad

/-! ## Signatures of old models -/

/-- The entries of a feature in the signature of an old model: one for a dense tensor and three for
a sparse one. -/
def legacyEntries (f : Str × Tensor) : InfoMap :=
  match f.2 with
  | .dense t => [(f.1 ++ "$dense_tensor".toList, .name t)]
  | .sparse i v s => [(f.1 ++ "$indices".toList, .name i), (f.1 ++ "$values".toList, .name v),
                      (f.1 ++ "$dense_shape".toList, .name s)]
  | .composite _ _ => []

/-- The name of a component of a tensor. -/
def comp : Tensor → Kind → Option Str
  | .dense t, .denseTensor => some t
  | .sparse i _ _, .indices => some i
  | .sparse _ v _, .values => some v
  | .sparse _ _ s, .denseShape => some s
  | _, _ => none

theorem mem_legacyEntries (f : Str × Tensor) (e : Str × Info) :
    e ∈ legacyEntries f ↔ ∃ k c, comp f.2 k = some c ∧ e = (f.1 ++ k.suffix, .name c) := by
  obtain ⟨n, t⟩ := f
  constructor
  · intro h
    cases t with
    | dense t =>
      simp only [legacyEntries, List.mem_singleton] at h
      exact ⟨.denseTensor, t, rfl, h⟩
    | sparse i v s =>
      simp only [legacyEntries, List.mem_cons, List.not_mem_nil, or_false] at h
      rcases h with h | h | h
      · exact ⟨.indices, i, rfl, h⟩
      · exact ⟨.values, v, rfl, h⟩
      · exact ⟨.denseShape, s, rfl, h⟩
    | composite a b => simp [legacyEntries] at h
  · rintro ⟨k, c, hc, rfl⟩
    cases t with
    | dense t =>
      cases k <;> simp only [comp, reduceCtorEq, Option.some.injEq] at hc
      subst hc
      exact List.mem_cons_self
    | sparse i v s =>
      cases k <;> simp only [comp, reduceCtorEq, Option.some.injEq] at hc <;> subst hc
      · exact List.mem_cons_self
      · exact List.mem_cons_of_mem _ List.mem_cons_self
      · exact List.mem_cons_of_mem _ (List.mem_cons_of_mem _ List.mem_cons_self)
    | composite a b => cases k <;> simp [comp] at hc

theorem suffix_inj {n n' : Str} {k k' : Kind} (hn : '\n' ∉ n) (hn' : '\n' ∉ n')
    (h : n ++ k.suffix = n' ++ k'.suffix) : n = n' ∧ k = k' := by
  have h1 := matchMangled_suffix n k hn
  have h2 := matchMangled_suffix n' k' hn'
  rw [h, h2] at h1
  injection h1 with h1
  injection h1 with h1 h3
  exact ⟨h1.symm, h3.symm⟩

theorem plain_ne_suffix {n n' : Str} (k : Kind) (hn : Plain n) : n ≠ n' ++ k.suffix := by
  intro h
  have := hn.2
  cases k
  · exact this "$indices" (by simp) ⟨n', h.symm⟩
  · exact this "$values" (by simp) ⟨n', h.symm⟩
  · exact this "$dense_shape" (by simp) ⟨n', h.symm⟩
  · exact this "$dense_tensor" (by simp) ⟨n', h.symm⟩

theorem legacy_keys_nodup (features : List (Str × Tensor)) (hn : (features.map Prod.fst).Nodup)
    (hp : ∀ f ∈ features, Plain f.1) :
    ((features.flatMap legacyEntries).map Prod.fst).Nodup := by
  induction features with
  | nil => simp
  | cons f fs ih =>
    rw [List.map_cons, List.nodup_cons] at hn
    rw [List.flatMap_cons, List.map_append, List.nodup_append]
    have hpf := hp f List.mem_cons_self
    refine ⟨?_, ih hn.2 (fun g hg => hp g (List.mem_cons_of_mem _ hg)), ?_⟩
    · obtain ⟨n, t⟩ := f
      cases t with
      | dense t => simp [legacyEntries]
      | sparse i v s =>
        simp only [legacyEntries, List.map_cons, List.map_nil, List.nodup_cons, List.mem_cons,
          List.not_mem_nil, or_false, not_or, List.append_cancel_left_eq, not_false_eq_true,
          List.nodup_nil, and_true]
        decide
      | composite a b => simp [legacyEntries]
    · intro a ha b hb hab
      subst hab
      rw [List.mem_map] at ha hb
      obtain ⟨e, he, rfl⟩ := ha
      obtain ⟨e', he', hee⟩ := hb
      rw [mem_legacyEntries] at he
      obtain ⟨k, c, -, rfl⟩ := he
      rw [List.mem_flatMap] at he'
      obtain ⟨g, hg, he'⟩ := he'
      rw [mem_legacyEntries] at he'
      obtain ⟨k', c', -, rfl⟩ := he'
      have := suffix_inj (hp g (List.mem_cons_of_mem _ hg)).1 hpf.1 hee
      apply hn.1
      rw [← this.1]
      exact List.mem_map_of_mem (f := Prod.fst) hg

/-- What has been collected about a feature when the entries `done` have been converted. -/
def part (done : List Str) (n : Str) : Tensor → Option Info
  | .dense t => if n ++ Kind.denseTensor.suffix ∈ done then some (.name t) else none
  | .sparse i v s =>
    if n ++ Kind.indices.suffix ∈ done ∨ n ++ Kind.values.suffix ∈ done
        ∨ n ++ Kind.denseShape.suffix ∈ done then
      some (.coo (if n ++ Kind.indices.suffix ∈ done then i else [])
        (if n ++ Kind.values.suffix ∈ done then v else [])
        (if n ++ Kind.denseShape.suffix ∈ done then s else []))
    else none
  | .composite _ _ => none

theorem part_sparse (done : List Str) (n i v s : Str) :
    part done n (.sparse i v s)
      = if n ++ Kind.indices.suffix ∈ done ∨ n ++ Kind.values.suffix ∈ done
          ∨ n ++ Kind.denseShape.suffix ∈ done then
        some (.coo (if n ++ Kind.indices.suffix ∈ done then i else [])
          (if n ++ Kind.values.suffix ∈ done then v else [])
          (if n ++ Kind.denseShape.suffix ∈ done then s else []))
      else none := rfl

theorem part_other {done : List Str} {n n' : Str} {k : Kind} (t : Tensor) (h : '\n' ∉ n)
    (h' : '\n' ∉ n') (hne : n ≠ n') : part (done ++ [n' ++ k.suffix]) n t = part done n t := by
  have hm : ∀ k' : Kind, (n ++ k'.suffix ∈ done ++ [n' ++ k.suffix]) ↔ n ++ k'.suffix ∈ done := by
    intro k'
    rw [List.mem_append, List.mem_singleton]
    constructor
    · rintro (h1 | h1)
      · exact h1
      · exact absurd (suffix_inj h h' h1).1 hne
    · exact Or.inl
  cases t <;> simp only [part, hm]

theorem legacy_loop (features : List (Str × Tensor)) (hn : (features.map Prod.fst).Nodup)
    (hp : ∀ f ∈ features, Plain f.1)
    (hd : ∀ i v s, ("dense_shape".toList, Tensor.sparse i v s) ∉ features)
    (m : InfoMap) (hm : m.Perm (features.flatMap legacyEntries)) :
    ∀ (todo done : List Str) (c : InfoMap), m.map Prod.fst = done ++ todo →
      (c.map Prod.fst).Nodup →
      (∀ k, find c k = if k ∈ todo then find m k else (find features k).bind (part done k)) →
      ∃ c', todo.foldlM updateEntry c = .ok c' ∧ (c'.map Prod.fst).Nodup ∧
        ∀ k, find c' k = (find features k).bind (part (m.map Prod.fst) k) := by
  have hmn : (m.map Prod.fst).Nodup :=
    (hm.map _).nodup_iff.2 (legacy_keys_nodup features hn hp)
  intro todo
  induction todo with
  | nil =>
    intro done c hk hc hf
    refine ⟨c, rfl, hc, fun k => ?_⟩
    rw [hf k, hk]
    simp
  | cons q todo ih =>
    intro done c hk hc hf
    have hq : q ∈ m.map Prod.fst := by rw [hk]; simp
    rw [hk] at hmn
    have hqd : q ∉ done := by
      intro h
      exact (List.nodup_append.1 hmn).2.2 q h q List.mem_cons_self rfl
    have hqt : q ∉ todo := (List.nodup_cons.1 (List.nodup_append.1 hmn).2.1).1
    -- the feature that the entry belongs to
    rw [List.mem_map] at hq
    obtain ⟨e, he, rfl⟩ := hq
    have he2 := hm.mem_iff.1 he
    rw [List.mem_flatMap] at he2
    obtain ⟨⟨n, t⟩, hft, he2⟩ := he2
    rw [mem_legacyEntries] at he2
    obtain ⟨k, cn, hcomp, rfl⟩ := he2
    simp only at hcomp hqd hqt ⊢
    have hpn : Plain n := hp _ hft
    have hkeyplain : ∀ x, Plain x → x ∉ m.map Prod.fst := by
      intro x hx hmem
      rw [List.mem_map] at hmem
      obtain ⟨e', he', rfl⟩ := hmem
      have he3 := hm.mem_iff.1 he'
      rw [List.mem_flatMap] at he3
      obtain ⟨g, hg, he3⟩ := he3
      rw [mem_legacyEntries] at he3
      obtain ⟨k', c', -, rfl⟩ := he3
      exact plain_ne_suffix k' hx rfl
    have hntodo : n ∉ (n ++ k.suffix) :: todo := by
      intro h
      apply hkeyplain n hpn
      rw [hk]
      exact List.mem_append_right _ h
    have hfn : find features n = some t := find_of_mem hn hft
    have hold : find c n = part done n t := by
      rw [hf n, if_neg hntodo, hfn]
      rfl
    have hfq : find c (n ++ k.suffix) = some (.name cn) := by
      rw [hf, if_pos List.mem_cons_self]
      exact find_of_mem (by rw [hk]; exact hmn) he
    have hqf : find features (n ++ k.suffix) = none := by
      rw [find_eq_none]
      intro h
      rw [List.mem_map] at h
      obtain ⟨g, hg, hg'⟩ := h
      exact plain_ne_suffix k (hp g hg) hg'
    have hmem : ∀ k' : Kind, (n ++ k'.suffix ∈ done ++ [n ++ k.suffix])
        ↔ (n ++ k'.suffix ∈ done ∨ k' = k) := by
      intro k'
      rw [List.mem_append, List.mem_singleton]
      constructor
      · rintro (h1 | h1)
        · exact Or.inl h1
        · exact Or.inr (suffix_inj hpn.1 hpn.1 h1).2
      · rintro (h1 | h1)
        · exact Or.inl h1
        · subst h1; exact Or.inr rfl
    -- one step
    obtain ⟨hallowed, hnew⟩ :
        (if n = "dense_shape".toList then (part done n t).isNone
          else (part done n t).all Info.isCoo) = true ∧
        part (done ++ [n ++ k.suffix]) n t
          = some (component k ((part done n t).getD .unset) (.name cn)) := by
      cases t with
      | dense t0 =>
        cases k <;> simp only [comp, reduceCtorEq, Option.some.injEq] at hcomp
        subst hcomp
        have hnone : part done n (.dense t0) = none := if_neg hqd
        rw [hnone]
        refine ⟨?_, ?_⟩
        · split <;> rfl
        · exact if_pos ((hmem .denseTensor).2 (Or.inr rfl))
      | sparse i v s =>
        have hne : n ≠ "dense_shape".toList := by
          intro h
          exact hd i v s (h ▸ hft)
        rw [if_neg hne]
        refine ⟨?_, ?_⟩
        · rw [part_sparse]
          split <;> rfl
        · rw [part_sparse, part_sparse]
          simp only [hmem]
          cases k <;> simp only [comp, reduceCtorEq, Option.some.injEq] at hcomp <;> subst hcomp
          · by_cases hv : n ++ Kind.values.suffix ∈ done <;>
              by_cases hs : n ++ Kind.denseShape.suffix ∈ done <;>
              simp only [hqd, hv, hs, or_false, false_or, or_true, true_or, if_true, if_false,
                reduceCtorEq, Option.getD_some, Option.getD_none] <;> rfl
          · by_cases hv : n ++ Kind.indices.suffix ∈ done <;>
              by_cases hs : n ++ Kind.denseShape.suffix ∈ done <;>
              simp only [hqd, hv, hs, or_false, false_or, or_true, true_or, if_true, if_false,
                reduceCtorEq, Option.getD_some, Option.getD_none] <;> rfl
          · by_cases hv : n ++ Kind.indices.suffix ∈ done <;>
              by_cases hs : n ++ Kind.values.suffix ∈ done <;>
              simp only [hqd, hv, hs, or_false, false_or, or_true, true_or, if_true, if_false,
                reduceCtorEq, Option.getD_some, Option.getD_none] <;> rfl
      | composite a b => cases k <;> simp [comp] at hcomp
    have hstep : updateEntry c (n ++ k.suffix)
        = .ok (erase (put c n (component k ((part done n t).getD .unset) (.name cn)))
            (n ++ k.suffix)) := by
      unfold updateEntry
      rw [matchMangled_suffix n k hpn.1]
      simp only [hold, hfq, Option.getD_some]
      rw [if_pos hallowed]
    rw [List.foldlM_cons, hstep]
    refine ih (done ++ [n ++ k.suffix]) _ ?_ ?_ ?_
    · rw [hk]; simp
    · exact keys_erase_nodup _ _ (keys_put_nodup _ _ _ hc)
    · intro k'
      rw [find_erase, find_put]
      by_cases h1 : k' = n ++ k.suffix
      · subst h1
        rw [if_pos rfl, if_neg hqt, hqf]
        rfl
      · rw [if_neg h1]
        by_cases h2 : k' = n
        · subst h2
          rw [if_pos rfl, if_neg (fun h => hntodo (List.mem_cons_of_mem _ h)), hfn]
          exact hnew.symm
        · rw [if_neg h2, hf k']
          have : (k' ∈ (n ++ k.suffix) :: todo) ↔ k' ∈ todo := by
            rw [List.mem_cons]; simp [h1]
          simp only [this]
          split
          · rfl
          · cases hfk : find features k' with
            | none => rfl
            | some t' =>
              have hp' := hp _ (find_mem hfk)
              exact (part_other t' hp'.1 hpn.1 h2).symm

/-- **C87**, old models, partial: whatever the order of the entries in the protobuf map, the
signature of an old model becomes the signature of its features: each dense or sparse feature under
its own name with its own tensors, and nothing else. Missing: sparse features called `dense_shape`
(`legacy_dense_shape_refused`). -/
theorem legacy_signature_partial (features : List (Str × Tensor))
    (hn : (features.map Prod.fst).Nodup) (hp : ∀ f ∈ features, Plain f.1)
    (hc : ∀ f ∈ features, ∀ spec cs, f.2 ≠ .composite spec cs)
    (hd : ∀ i v s, ("dense_shape".toList, Tensor.sparse i v s) ∉ features)
    (m : InfoMap) (hm : m.Perm (features.flatMap legacyEntries)) :
    ∃ m', updateMap m = .ok m' ∧ (m'.map Prod.fst).Nodup ∧
      ∀ name, find m' name = (find features name).map tensorInfo := by
  have hmn : (m.map Prod.fst).Nodup :=
    (hm.map _).nodup_iff.2 (legacy_keys_nodup features hn hp)
  obtain ⟨c', h1, h2, h3⟩ := legacy_loop features hn hp hd m hm (m.map Prod.fst) [] m rfl hmn (by
    intro k
    by_cases hk : k ∈ m.map Prod.fst
    · rw [if_pos hk]
    · rw [if_neg hk, (find_eq_none _ _).2 hk]
      cases find features k with
      | none => rfl
      | some t => cases t <;> simp [part])
  refine ⟨c', h1, h2, fun name => ?_⟩
  rw [h3]
  cases hf : find features name with
  | none => rfl
  | some t =>
    have hmem := find_mem hf
    have hall : ∀ k c, comp t k = some c → name ++ k.suffix ∈ m.map Prod.fst := by
      intro k c hkc
      refine List.mem_map.2 ⟨(name ++ k.suffix, .name c), hm.mem_iff.2 ?_, rfl⟩
      exact List.mem_flatMap.2 ⟨_, hmem, (mem_legacyEntries _ _).2 ⟨k, c, hkc, rfl⟩⟩
    cases t with
    | dense t => simp [part, tensorInfo, hall .denseTensor t rfl]
    | sparse i v s =>
      simp [part, tensorInfo, hall .indices i rfl, hall .values v rfl, hall .denseShape s rfl]
    | composite spec cs => exact absurd rfl (hc _ hmem spec cs)

/-! ## Importing the graph -/

/-- The names of the components of a tensor. -/
def comps : Tensor → List Str
  | .dense t => [t]
  | .sparse i v s => [i, v, s]
  | .composite _ cs => cs

/-- Tensors of the same kind: both dense, both sparse, or composite of the same type. -/
def Matches : Tensor → Tensor → Prop
  | .dense _, .dense _ => True
  | .sparse _ _ _, .sparse _ _ _ => True
  | .composite spec cs, .composite spec' cs' => spec = spec' ∧ cs.length = cs'.length
  | _, _ => False

/-- The components of the inputs that are given, with the tensors given for them. -/
def components (inputs logical : List (Str × Tensor)) : List (Str × Str) :=
  logical.flatMap (fun e =>
    match inputs.lookup e.1 with
    | some t => (comps t).zip (comps e.2)
    | none => [])

/-- The values with which the graph of the model must be run, for a run of the graph it was loaded
into, where `value` are the values of the tensors that were there before: replaced tensors, paths of
assets, and components of inputs have the given values, and everything else can be fed under its
name in the new scope. -/
def given {V : Type} (constant : Str → V) (value : Str → Option V) (feeds : Str → Option V)
    (scope : Str) (assets : List (Str × Str)) (inputs logical : List (Str × Tensor))
    (replacements : List (Str × Str)) (n : Str) : Option V :=
  match replacements.lookup n with
  | some t => value t
  | none =>
    match assets.lookup n with
    | some path => some (constant path)
    | none =>
      match (components inputs logical).lookup n with
      | some t => value t
      | none => feeds (scope ++ "/".toList ++ n)

/-- The names of the tensors of a graph. -/
def tensors {V : Type} (g : Graph V) : List Str := g.map Node.out

/-- A graph with distinct names, in an order in which it can be computed. -/
def Ordered {V : Type} (g : Graph V) : Prop :=
  (tensors g).Nodup ∧ ∀ pre n post, g = pre ++ n :: post → ∀ i ∈ n.ins, i ∈ tensors pre

/-- A model with features, and what it can be applied to in a graph. -/
structure Fits {V : Type} (host nodes : Graph V) (assets : List (Str × Str))
    (inputs outputs logical : List (Str × Tensor)) (replacements : List (Str × Str)) (scope : Str)
    (names : List Str) : Prop where
  ordered : Ordered nodes
  inputNames : (inputs.map Prod.fst).Nodup
  inputTensors : ∀ f ∈ inputs, ∀ c ∈ comps f.2, c ∈ tensors nodes
  inputComponents : (inputs.flatMap (fun f => comps f.2)).Nodup
  outputNames : (outputs.map Prod.fst).Nodup
  outputTensors : ∀ f ∈ outputs, ∀ c ∈ comps f.2, c ∈ tensors nodes
  assetNames : (assets.map Prod.fst).Nodup
  assetTensors : ∀ a ∈ assets, a.1 ∈ tensors nodes
  /-- The new scope is not used, and the new constants have new names. -/
  freshScope : ∀ n ∈ tensors host ++ names, ¬ (scope ++ "/".toList) <+: n
  constants : names.length = assets.length
  freshConstants : names.Nodup ∧ ∀ n ∈ names, n ∉ tensors host
  logicalNames : (logical.map Prod.fst).Nodup
  logicalTensors : ∀ e ∈ logical, ∃ t, (e.1, t) ∈ inputs ∧ Matches t e.2 ∧
    ∀ c ∈ comps e.2, c ∈ tensors host
  replacementNames : (replacements.map Prod.fst).Nodup
  replacementTensors : ∀ e ∈ replacements, e.1 ∈ tensors nodes ∧ e.2 ∈ tensors host

theorem find_eq_lookup {α : Type} (m : List (Str × α)) (k : Str) : find m k = m.lookup k := by
  induction m with
  | nil => rfl
  | cons e m ih =>
    rw [find_cons, ih]
    obtain ⟨a, b⟩ := e
    rw [List.lookup_cons]
    by_cases h : a = k
    · subst h; simp
    · have h2 : (k == a) = false := by
        rw [beq_eq_false_iff_ne]
        exact fun h' => h h'.symm
      simp [h, h2]

section runs

variable {V : Type}

/-- A run that continues with values computed before. -/
def runFrom (feeds : Str → Option V) (env : Str → Option V) (g : Graph V) : Str → Option V :=
  g.foldl (fun env n => Function.update env n.out (nodeValue feeds env n)) env

theorem run_append (g h : Graph V) (feeds : Str → Option V) :
    run (g ++ h) feeds = runFrom feeds (run g feeds) h := by
  unfold run runFrom
  rw [List.foldl_append]

theorem runFrom_cons (feeds env : Str → Option V) (n : Node V) (g : Graph V) :
    runFrom feeds env (n :: g)
      = runFrom feeds (Function.update env n.out (nodeValue feeds env n)) g := rfl

theorem runFrom_other (feeds env : Str → Option V) (g : Graph V) (t : Str)
    (h : t ∉ tensors g) : runFrom feeds env g t = env t := by
  induction g generalizing env with
  | nil => rfl
  | cons n g ih =>
    simp only [tensors, List.map_cons, List.mem_cons, not_or] at h
    rw [runFrom_cons, ih _ h.2, Function.update_of_ne h.1]

theorem run_assets (constant : Str → V) (feeds env : Str → Option V)
    (assets : List (Str × Str)) (names : List Str) (hl : names.length = assets.length)
    (hn : names.Nodup) (hf : ∀ n ∈ names, feeds n = none) :
    ∀ e ∈ assets.zip names,
      runFrom feeds env (assetNodes constant assets names) e.2 = some (constant e.1.2) := by
  induction assets generalizing names env with
  | nil => simp
  | cons a assets ih =>
    cases names with
    | nil => simp at hl
    | cons nm names =>
      rw [List.nodup_cons] at hn
      intro e he
      have hnodes : assetNodes constant (a :: assets) (nm :: names)
          = { out := nm, op := .compute (fun _ => constant a.2), ins := [] }
            :: assetNodes constant assets names := rfl
      rw [hnodes, runFrom_cons]
      rw [List.zip_cons_cons, List.mem_cons] at he
      rcases he with rfl | he
      · rw [runFrom_other]
        · simp only [Function.update_self]
          unfold nodeValue
          rw [hf nm List.mem_cons_self]
          rfl
        · intro h
          apply hn.1
          simp only [tensors, assetNodes, List.map_map, List.mem_map, Function.comp] at h
          obtain ⟨x, hx, rfl⟩ := h
          exact (List.of_mem_zip hx).2
      · exact ih _ _ (by simpa using hl) hn.2 (fun n h => hf n (List.mem_cons_of_mem _ h)) e he

/-- Running the copies of the nodes of a graph gives the values of a run of that graph. -/
theorem run_import (feeds giv env : Str → Option V) (scope : Str) (inputMap : List (Str × Str))
    (hmap : ∀ n t, find inputMap n = some t → ¬ scopedName scope [] <+: t)
    (hgiv : ∀ n t, find inputMap n = some t → giv n = env t ∧ (giv n).isSome)
    (hfeed : ∀ n, find inputMap n = none → giv n = feeds (scopedName scope n))
    (nodes : Graph V) (ho : Ordered nodes) :
    ∀ (pre post : Graph V), nodes = pre ++ post →
      ∀ n ∈ tensors pre,
        runFrom feeds env (pre.map (fun n => Node.mk (scopedName scope n.out) n.op
          (n.ins.map (remap scope inputMap)))) (remap scope inputMap n)
        = run pre giv n := by
  have hscoped : ∀ a b : Str, scopedName scope a = scopedName scope b → a = b := by
    intro a b h
    unfold scopedName at h
    have := List.append_cancel_left h
    injection this
  intro pre
  induction pre using List.reverseRecOn with
  | nil => intro post _ n hn; simp [tensors] at hn
  | append_singleton pre m ih =>
    intro post hp n hn
    have hp' : nodes = pre ++ (m :: post) := by rw [hp]; simp
    have hm : m.out ∉ tensors pre := by
      intro h
      have := ho.1
      rw [hp', tensors, List.map_append, List.map_cons] at this
      exact (List.nodup_append.1 this).2.2 _ h _ List.mem_cons_self rfl
    have hrun : run (pre ++ [m]) giv
        = Function.update (run pre giv) m.out (nodeValue giv (run pre giv) m) := by
      rw [run_append]; rfl
    rw [hrun, List.map_append]
    have hrun2 : runFrom feeds env (pre.map (fun n => Node.mk (scopedName scope n.out) n.op
          (n.ins.map (remap scope inputMap))) ++ [m].map (fun n => Node.mk (scopedName scope n.out)
            n.op (n.ins.map (remap scope inputMap))))
        = Function.update (runFrom feeds env (pre.map (fun n => Node.mk (scopedName scope n.out) n.op
            (n.ins.map (remap scope inputMap))))) (scopedName scope m.out)
          (nodeValue feeds (runFrom feeds env (pre.map (fun n => Node.mk (scopedName scope n.out) n.op
            (n.ins.map (remap scope inputMap))))) (Node.mk (scopedName scope m.out)
            m.op (m.ins.map (remap scope inputMap)))) := by
      unfold runFrom
      rw [List.foldl_append]
      rfl
    rw [hrun2]
    -- values of tensors of the host do not change
    have hhost : ∀ t, ¬ scopedName scope [] <+: t →
        runFrom feeds env (pre.map (fun n => Node.mk (scopedName scope n.out) n.op
          (n.ins.map (remap scope inputMap)))) t = env t := by
      intro t ht
      apply runFrom_other
      intro h
      simp only [tensors, List.map_map, List.mem_map, Function.comp] at h
      obtain ⟨x, -, rfl⟩ := h
      exact ht ⟨x.out, by simp [scopedName]⟩
    by_cases hnm : n = m.out
    · subst hnm
      rw [Function.update_self]
      cases hf : find inputMap m.out with
      | some t =>
        obtain ⟨hg, hs⟩ := hgiv _ _ hf
        have hr : remap scope inputMap m.out = t := by simp [remap, hf]
        have hne : t ≠ scopedName scope m.out := by
          intro h
          exact hmap _ _ hf ⟨m.out, by rw [h]; simp [scopedName]⟩
        rw [hr, Function.update_of_ne hne, hhost t (hmap _ _ hf), ← hg]
        unfold nodeValue
        cases hgm : giv m.out with
        | none => rw [hgm] at hs; simp at hs
        | some v => rfl
      | none =>
        have hr : remap scope inputMap m.out = scopedName scope m.out := by simp [remap, hf]
        rw [hr, Function.update_self]
        unfold nodeValue
        simp only
        rw [← hfeed _ hf]
        cases giv m.out with
        | some v => rfl
        | none =>
          simp only
          cases hop : m.op with
          | placeholder => rfl
          | compute f =>
            simp only
            congr 1
            rw [List.mapM_map]
            have hins : ∀ i ∈ m.ins, (runFrom feeds env (pre.map (fun n =>
                Node.mk (scopedName scope n.out) n.op
                (n.ins.map (remap scope inputMap)))) (remap scope inputMap i))
                = run pre giv i := by
              intro i hi
              exact ih (m :: post) hp' i (ho.2 pre m post hp' i hi)
            generalize m.ins = is at hins
            induction is with
            | nil => rfl
            | cons i is ih2 =>
              rw [List.mapM_cons, List.mapM_cons,
                ih2 (fun i hi => hins i (List.mem_cons_of_mem _ hi))]
              simp only [Function.comp]
              rw [hins i List.mem_cons_self]
    · have hnp : n ∈ tensors pre := by
        simp only [tensors, List.map_append, List.map_cons, List.map_nil, List.mem_append,
          List.mem_singleton] at hn
        rcases hn with hn | hn
        · exact hn
        · exact absurd hn hnm
      rw [Function.update_of_ne hnm]
      have hne : remap scope inputMap n ≠ scopedName scope m.out := by
        cases hf : find inputMap n with
        | some t =>
          intro h
          apply hmap _ _ hf
          have hr : remap scope inputMap n = t := by simp [remap, hf]
          rw [← hr, h]
          exact ⟨m.out, by simp [scopedName]⟩
        | none =>
          have hr : remap scope inputMap n = scopedName scope n := by simp [remap, hf]
          rw [hr]
          exact fun h => hnm (hscoped _ _ h)
      rw [Function.update_of_ne hne]
      exact ih (m :: post) hp' n hnp

end runs

section apply

variable {V : Type}

theorem expandOne_matches (t r : Tensor) (h : Matches t r) :
    expandOne (tensorInfo t) r = .ok ((comps t).zip (comps r)) := by
  cases t <;> cases r <;> first | rfl | exact absurd h (by simp [Matches])

theorem components_cons (inputs : List (Str × Tensor)) (e : Str × Tensor)
    (logical : List (Str × Tensor)) (t : Tensor) (h : find inputs e.1 = some t) :
    components inputs (e :: logical)
      = (comps t).zip (comps e.2) ++ components inputs logical := by
  unfold components
  rw [List.flatMap_cons, ← find_eq_lookup, h]

theorem expandInputMap_ok (m : InfoMap) (inputs : List (Str × Tensor))
    (hm : ∀ name, find m name = (find inputs name).map tensorInfo)
    (hn : (inputs.map Prod.fst).Nodup) (logical : List (Str × Tensor))
    (hl : ∀ e ∈ logical, ∃ t, (e.1, t) ∈ inputs ∧ Matches t e.2) :
    expandInputMap m logical = .ok (components inputs logical) := by
  induction logical with
  | nil => rfl
  | cons e logical ih =>
    obtain ⟨t, ht, hmt⟩ := hl e List.mem_cons_self
    have hf := find_of_mem hn ht
    rw [components_cons _ _ _ _ hf]
    unfold expandInputMap
    rw [hm, hf]
    simp only [Option.map_some]
    rw [expandOne_matches t e.2 hmt, ih (fun e he => hl e (List.mem_cons_of_mem _ he))]
    rfl

theorem mem_components {inputs logical : List (Str × Tensor)} {p : Str × Str}
    (h : p ∈ components inputs logical) :
    ∃ e ∈ logical, ∃ t, find inputs e.1 = some t ∧ p ∈ (comps t).zip (comps e.2) := by
  unfold components at h
  rw [List.mem_flatMap] at h
  obtain ⟨e, he, hp⟩ := h
  rw [← find_eq_lookup] at hp
  cases hf : find inputs e.1 with
  | none => rw [hf] at hp; simp at hp
  | some t =>
    rw [hf] at hp
    exact ⟨e, he, t, hf, hp⟩

theorem comps_disjoint {inputs : List (Str × Tensor)}
    (hc : (inputs.flatMap (fun f => comps f.2)).Nodup) {f g : Str × Tensor} (hf : f ∈ inputs)
    (hg : g ∈ inputs) (hne : f.1 ≠ g.1) {c : Str} (h1 : c ∈ comps f.2) (h2 : c ∈ comps g.2) :
    False := by
  induction inputs with
  | nil => cases hf
  | cons a inputs ih =>
    rw [List.flatMap_cons, List.nodup_append] at hc
    have key : ∀ x ∈ inputs, c ∈ comps a.2 → c ∈ comps x.2 → False := fun x hx ha hcx =>
      hc.2.2 c ha c (List.mem_flatMap.2 ⟨x, hx, hcx⟩) rfl
    rcases List.mem_cons.1 hf with rfl | hf'
    · rcases List.mem_cons.1 hg with rfl | hg
      · exact hne rfl
      · exact key g hg h1 h2
    · rcases List.mem_cons.1 hg with rfl | hg'
      · exact key f hf' h2 h1
      · exact ih hc.2.1 hf' hg'

theorem zip_sublist {α β : Type} (l : List α) (r : List β) :
    ((l.zip r).map Prod.fst).Sublist l := by
  induction l generalizing r with
  | nil => simp
  | cons a l ih =>
    cases r with
    | nil => simp
    | cons b r =>
      simp only [List.zip_cons_cons, List.map_cons]
      exact (ih r).cons_cons a

theorem components_nodup (inputs logical : List (Str × Tensor))
    (hc : (inputs.flatMap (fun f => comps f.2)).Nodup)
    (hl : (logical.map Prod.fst).Nodup) :
    ((components inputs logical).map Prod.fst).Nodup := by
  induction logical with
  | nil => simp [components]
  | cons e logical ih =>
    rw [List.map_cons, List.nodup_cons] at hl
    cases hf : find inputs e.1 with
    | none =>
      have : components inputs (e :: logical) = components inputs logical := by
        unfold components
        rw [List.flatMap_cons, ← find_eq_lookup, hf]
        rfl
      rw [this]
      exact ih hl.2
    | some t =>
      rw [components_cons _ _ _ _ hf, List.map_append, List.nodup_append]
      have hsub : (((comps t).zip (comps e.2)).map Prod.fst).Sublist (comps t) := by
        exact zip_sublist _ _
      refine ⟨?_, ih hl.2, ?_⟩
      · exact ((List.nodup_flatMap.1 hc).1 _ (find_mem hf)).sublist hsub
      · intro a ha b hb hab
        subst hab
        rw [List.mem_map] at hb
        obtain ⟨p, hp, rfl⟩ := hb
        obtain ⟨e', he', t', hf', hp'⟩ := mem_components hp
        refine comps_disjoint hc (find_mem hf) (find_mem hf') ?_ (hsub.subset ha)
          (List.of_mem_zip hp').1
        intro h
        apply hl.1
        rw [show e.1 = e'.1 from h]
        exact List.mem_map_of_mem (f := Prod.fst) he'

theorem find_zip {assets : List (Str × Str)} {names : List Str}
    (hl : names.length = assets.length) (n : Str) :
    (∀ t, find ((assets.map Prod.fst).zip names) n = some t →
      ∃ path, find assets n = some path ∧ ((n, path), t) ∈ assets.zip names) ∧
    (find ((assets.map Prod.fst).zip names) n = none → find assets n = none) := by
  induction assets generalizing names with
  | nil => simp [find_nil]
  | cons a assets ih =>
    cases names with
    | nil => simp at hl
    | cons nm names =>
      obtain ⟨i1, i2⟩ := ih (names := names) (by simpa using hl)
      rw [List.map_cons, List.zip_cons_cons, find_cons, find_cons]
      simp only
      by_cases h : a.1 = n
      · subst h
        simp only [if_true]
        refine ⟨?_, by simp⟩
        intro t ht
        injection ht with ht
        subst ht
        exact ⟨a.2, rfl, by simp⟩
      · simp only [if_neg h]
        refine ⟨?_, i2⟩
        intro t ht
        obtain ⟨path, h1, h2⟩ := i1 t ht
        exact ⟨path, h1, by rw [List.zip_cons_cons]; exact List.mem_cons_of_mem _ h2⟩

/-- The tensor described by an entry, where every component is replaced. -/
def remapInfo (r : Str → Str) : Info → Tensor
  | .name n => .dense (r n)
  | .coo i v s => .sparse (r i) (r v) (r s)
  | .composite spec cs => .composite spec (cs.map r)
  | .unset => .dense []

theorem matches_remapInfo (r : Str → Str) (t : Tensor) :
    Matches t (remapInfo r (tensorInfo t)) ∧
    (comps t).zip (comps (remapInfo r (tensorInfo t))) = (comps t).map (fun c => (c, r c)) := by
  have hz : ∀ cs : List Str, cs.zip (cs.map r) = cs.map (fun c => (c, r c)) := by
    intro cs
    induction cs with
    | nil => rfl
    | cons c cs ih => simp [ih]
  cases t with
  | dense t => exact ⟨trivial, rfl⟩
  | sparse i v s => exact ⟨trivial, rfl⟩
  | composite spec cs => exact ⟨⟨rfl, by simp⟩, hz cs⟩

theorem mapM_ok_of {α β : Type} (f : α → Except Err β) (g : α → β) (l : List α)
    (h : ∀ a ∈ l, f a = .ok (g a)) : l.mapM f = .ok (l.map g) := by
  induction l with
  | nil => rfl
  | cons a l ih =>
    rw [List.mapM_cons, h a List.mem_cons_self, ih (fun a ha => h a (List.mem_cons_of_mem _ ha))]
    rfl

theorem lookupTensor_ok (g : Graph V) (scope : Str) (inputMap : List (Str × Str)) (t : Tensor)
    (h : ∀ c ∈ comps t, lookupRemapped g scope inputMap c = .ok (remap scope inputMap c)) :
    lookupTensor g scope inputMap (tensorInfo t)
      = .ok (remapInfo (remap scope inputMap) (tensorInfo t)) := by
  cases t with
  | dense t =>
    simp only [tensorInfo, lookupTensor, h t (by simp [comps])]
    rfl
  | sparse i v s =>
    simp only [tensorInfo, lookupTensor, h i (by simp [comps]), h v (by simp [comps]),
      h s (by simp [comps])]
    rfl
  | composite spec cs =>
    simp only [tensorInfo, lookupTensor, mapM_ok_of _ _ cs h]
    rfl

theorem lookupEntries_ok (g : Graph V) (scope : Str) (inputMap : List (Str × Str)) (m : InfoMap)
    (h : ∀ e ∈ m, ∃ t, e.2 = tensorInfo t ∧
      ∀ c ∈ comps t, lookupRemapped g scope inputMap c = .ok (remap scope inputMap c)) :
    lookupEntries g scope inputMap m
      = .ok (m.map (fun e => (e.1, remapInfo (remap scope inputMap) e.2))) := by
  apply mapM_ok_of
  intro e he
  obtain ⟨t, ht, hc⟩ := h e he
  rw [ht, lookupTensor_ok g scope inputMap t hc]
  rfl

/-- What a user relies on when a model with the given features is loaded into a graph `w`. -/
structure AppliedTo (constant : Str → V) (w : World V) (nodes : Graph V)
    (assets : List (Str × Str)) (inputs outputs logical : List (Str × Tensor))
    (replacements : List (Str × Str)) (scope : Str) (names : List Str) (L : Loaded V) : Prop where
  /-- The tensors that were there keep their values. -/
  kept : ∀ feeds, ∀ t ∈ tensors w.graph, run L.world.graph feeds t = run w.graph feeds t
  /-- The assets of the model are added to those of the graph. -/
  assetFiles : L.world.assets = w.assets ++ names
  outputNames : (L.outputs.map Prod.fst).Nodup ∧
    ∀ name, name ∈ L.outputs.map Prod.fst ↔ name ∈ outputs.map Prod.fst
  /-- Every output is a tensor of the same kind as the output of the model, and in every run its
  components have the values that they have in a run of the graph of the model with the given
  values. -/
  outputs : ∀ f ∈ outputs, ∃ t, (f.1, t) ∈ L.outputs ∧ Matches f.2 t ∧
    ∀ p ∈ (comps f.2).zip (comps t), ∀ feeds,
      (∀ n ∈ names, feeds n = none) →
      (∀ s ∈ replacements.map Prod.snd ++ logical.flatMap (fun e => comps e.2),
        (run w.graph feeds s).isSome) →
      run L.world.graph feeds p.2
        = run nodes (given constant (run w.graph feeds) feeds scope assets inputs logical
            replacements) p.1
  unboundNames : (L.unbound.map Prod.fst).Nodup ∧
    ∀ name, name ∈ L.unbound.map Prod.fst ↔
      name ∈ inputs.map Prod.fst ∧ name ∉ logical.map Prod.fst
  /-- The inputs that are not given are returned, to be fed. -/
  unbound : ∀ f ∈ inputs, f.1 ∉ logical.map Prod.fst →
    ∃ t, (f.1, t) ∈ L.unbound ∧ Matches f.2 t ∧
      ∀ p ∈ (comps f.2).zip (comps t), p.1 ∉ assets.map Prod.fst →
        p.1 ∉ replacements.map Prod.fst → p.2 = scope ++ "/".toList ++ p.1

theorem applied (constant : Str → V) (w : World V) (savedModel : List (MetaGraph V))
    (mg : MetaGraph V) (sig : Signature) (hload : loadSavedModel savedModel = .ok (mg, sig))
    (htrain : mg.trainable = []) (inputs outputs logical : List (Str × Tensor))
    (hin : (sig.inputs.map Prod.fst).Nodup ∧
      ∀ name, find sig.inputs name = (find inputs name).map tensorInfo)
    (hout : (sig.outputs.map Prod.fst).Nodup ∧
      ∀ name, find sig.outputs name = (find outputs name).map tensorInfo)
    (replacements : List (Str × Str)) (scope : Str) (names : List Str)
    (hfit : Fits w.graph mg.nodes mg.assets inputs outputs logical replacements scope names) :
    ∃ L, partiallyApply constant w savedModel logical replacements scope names = .ok L ∧
      AppliedTo constant w mg.nodes mg.assets inputs outputs logical replacements scope names L := by
  have hslash : ∀ n : Str, scope ++ "/".toList ++ n = scopedName scope n := by
    intro n
    simp [scopedName]
  have hpre : scopedName scope [] = scope ++ "/".toList := rfl
  obtain ⟨hinN, hinF⟩ := hin
  obtain ⟨houtN, houtF⟩ := hout
  set pairs := components inputs logical with hpairs
  have hexp : expandInputMap sig.inputs logical = .ok pairs :=
    expandInputMap_ok _ inputs hinF hfit.inputNames logical (fun e he => by
      obtain ⟨t, h1, h2, -⟩ := hfit.logicalTensors e he
      exact ⟨t, h1, h2⟩)
  have hpn : (pairs.map Prod.fst).Nodup :=
    components_nodup inputs logical hfit.inputComponents hfit.logicalNames
  set inputMap := inputMapOf pairs mg.assets names replacements with hinputMap
  have hassetN : (((mg.assets.map Prod.fst).zip names).map Prod.fst).Nodup := by
    exact hfit.assetNames.sublist (zip_sublist _ _)
  have hfind : ∀ n, find inputMap n = (find replacements n).or
      ((find ((mg.assets.map Prod.fst).zip names) n).or (find pairs n)) := by
    intro n
    rw [hinputMap]
    unfold inputMapOf
    rw [find_putAll _ _ hfit.replacementNames, find_putAll _ _ hassetN, find_putAll _ _ hpn,
      find_nil, Option.or_none]
  -- where the tensors of the map come from
  have hpairsIn : ∀ p ∈ pairs, p.1 ∈ tensors mg.nodes ∧ p.2 ∈ tensors w.graph ∧
      p.2 ∈ logical.flatMap (fun e => comps e.2) := by
    intro p hp
    obtain ⟨e, he, t, hf, hp⟩ := mem_components hp
    obtain ⟨t', h1, -, h3⟩ := hfit.logicalTensors e he
    obtain ⟨hz1, hz2⟩ := List.of_mem_zip hp
    exact ⟨hfit.inputTensors _ (find_mem hf) _ hz1, h3 _ hz2, List.mem_flatMap.2 ⟨e, he, hz2⟩⟩
  have hmapcases : ∀ n t, find inputMap n = some t →
      (find replacements n = some t) ∨
      (find replacements n = none ∧ find ((mg.assets.map Prod.fst).zip names) n = some t) ∨
      (find replacements n = none ∧ find ((mg.assets.map Prod.fst).zip names) n = none
        ∧ find pairs n = some t) := by
    intro n t h
    rw [hfind] at h
    cases h1 : find replacements n with
    | some a => rw [h1] at h; left; simpa using h
    | none =>
      rw [h1] at h
      right
      cases h2 : find ((mg.assets.map Prod.fst).zip names) n with
      | some a => rw [h2] at h; left; exact ⟨rfl, by simpa using h⟩
      | none => rw [h2] at h; right; exact ⟨rfl, rfl, by simpa using h⟩
  have hkeyIn : ∀ n t, find inputMap n = some t → n ∈ tensors mg.nodes := by
    intro n t h
    rcases hmapcases n t h with h | ⟨-, h⟩ | ⟨-, -, h⟩
    · exact (hfit.replacementTensors _ (find_mem h)).1
    · obtain ⟨path, h1, -⟩ := (find_zip hfit.constants n).1 t h
      exact hfit.assetTensors _ (find_mem h1)
    · exact (hpairsIn _ (find_mem h)).1
  have hvalIn : ∀ n t, find inputMap n = some t → t ∈ tensors w.graph ++ names := by
    intro n t h
    rw [List.mem_append]
    rcases hmapcases n t h with h | ⟨-, h⟩ | ⟨-, -, h⟩
    · exact Or.inl (hfit.replacementTensors _ (find_mem h)).2
    · exact Or.inr (List.of_mem_zip (find_mem h)).2
    · exact Or.inl (hpairsIn _ (find_mem h)).2.1
  have hmap : ∀ n t, find inputMap n = some t → ¬ scopedName scope [] <+: t :=
    fun n t h => hfit.freshScope t (hvalIn n t h)
  -- the graph
  set host := w.graph ++ assetNodes constant mg.assets names with hhost
  set copies := mg.nodes.map (fun n => Node.mk (scopedName scope n.out) n.op
    (n.ins.map (remap scope inputMap))) with hcopies
  have hkeysNodup : ∀ e ∈ inputMap, ∃ t, find inputMap e.1 = some t := by
    intro e he
    cases h : find inputMap e.1 with
    | some t => exact ⟨t, rfl⟩
    | none =>
      rw [find_eq_none] at h
      exact absurd (List.mem_map_of_mem (f := Prod.fst) he) h
  have himport : importGraph host scope inputMap mg.nodes = .ok (host ++ copies) := by
    unfold importGraph
    rw [if_pos]
    rw [List.all_eq_true]
    intro e he
    obtain ⟨t, ht⟩ := hkeysNodup e he
    rw [List.contains_iff_mem]
    exact hkeyIn _ _ ht
  have hlookup : ∀ c ∈ tensors mg.nodes,
      lookupRemapped (host ++ copies) scope inputMap c = .ok (remap scope inputMap c) := by
    intro c hc
    unfold lookupRemapped remap
    cases h : find inputMap c with
    | some t => rfl
    | none =>
      simp only [Option.getD_none]
      rw [if_pos]
      rw [List.contains_iff_mem, List.map_append, List.mem_append]
      right
      obtain ⟨x, hx, rfl⟩ := List.mem_map.1 hc
      rw [hcopies, List.map_map]
      exact List.mem_map.2 ⟨x, hx, rfl⟩
  have hentry : ∀ (m : InfoMap) (fs : List (Str × Tensor)), (m.map Prod.fst).Nodup →
      (∀ name, find m name = (find fs name).map tensorInfo) → ∀ e ∈ m,
      ∃ t, (e.1, t) ∈ fs ∧ e.2 = tensorInfo t := by
    intro m fs hmn hmf e he
    have h1 := hmf e.1
    rw [find_of_mem hmn (v := e.2) he] at h1
    cases h2 : find fs e.1 with
    | none => rw [h2] at h1; simp at h1
    | some t =>
      rw [h2] at h1
      exact ⟨t, find_mem h2, by simpa using h1⟩
  have houtputs : lookupEntries (host ++ copies) scope inputMap sig.outputs
      = .ok (sig.outputs.map (fun e => (e.1, remapInfo (remap scope inputMap) e.2))) := by
    apply lookupEntries_ok
    intro e he
    obtain ⟨t, h1, h2⟩ := hentry _ _ houtN houtF e he
    exact ⟨t, h2, fun c hc => hlookup c (hfit.outputTensors _ h1 c hc)⟩
  set free := sig.inputs.filter (fun e => (find logical e.1).isNone) with hfree
  have hunbound : lookupEntries (host ++ copies) scope inputMap free
      = .ok (free.map (fun e => (e.1, remapInfo (remap scope inputMap) e.2))) := by
    apply lookupEntries_ok
    intro e he
    obtain ⟨t, h1, h2⟩ := hentry _ _ hinN hinF e (List.mem_of_mem_filter he)
    exact ⟨t, h2, fun c hc => hlookup c (hfit.inputTensors _ h1 c hc)⟩
  have hexpected : logical.any (fun e => (find sig.inputs e.1).isNone) = false := by
    rw [List.any_eq_false]
    intro e he
    obtain ⟨t, h1, -, -⟩ := hfit.logicalTensors e he
    rw [hinF, find_of_mem hfit.inputNames h1]
    simp
  refine ⟨{ world := { graph := host ++ copies
                       assets := w.assets ++ names.take mg.assets.length }
            unbound := free.map (fun e => (e.1, remapInfo (remap scope inputMap) e.2))
            outputs := sig.outputs.map (fun e => (e.1, remapInfo (remap scope inputMap) e.2)) },
    ?_, ?_⟩
  · unfold partiallyApply
    rw [hload]
    simp only [bind, Except.bind, hexpected, Bool.false_eq_true, if_false]
    rw [hexp]
    simp only [htrain, ne_eq, not_true_eq_false, if_false]
    rw [himport]
    simp only
    rw [houtputs]
    simp only
    rw [hunbound]
  · have hnotnames : ∀ t ∈ tensors w.graph, t ∉ tensors (assetNodes constant mg.assets names) := by
      intro t ht h
      simp only [tensors, assetNodes, List.map_map, List.mem_map, Function.comp] at h
      obtain ⟨x, hx, rfl⟩ := h
      exact hfit.freshConstants.2 _ (List.of_mem_zip hx).2 ht
    have hhostrun : ∀ feeds, ∀ t ∈ tensors w.graph, run host feeds t = run w.graph feeds t := by
      intro feeds t ht
      rw [hhost, run_append, runFrom_other _ _ _ _ (hnotnames t ht)]
    have hmemkeys : ∀ (m : InfoMap) (fs : List (Str × Tensor)),
        (∀ name, find m name = (find fs name).map tensorInfo) →
        ∀ name, name ∈ m.map Prod.fst ↔ name ∈ fs.map Prod.fst := by
      intro m fs hmf name
      have h1 := find_eq_none m name
      have h2 := find_eq_none fs name
      rw [hmf, Option.map_eq_none_iff, h2] at h1
      exact not_iff_not.1 h1.symm
    refine ⟨?_, ?_, ⟨?_, ?_⟩, ?_, ⟨?_, ?_⟩, ?_⟩
    · intro feeds t ht
      show run (host ++ copies) feeds t = _
      rw [run_append, runFrom_other, hhostrun feeds t ht]
      intro h
      rw [hcopies] at h
      simp only [tensors, List.map_map, List.mem_map, Function.comp] at h
      obtain ⟨x, -, rfl⟩ := h
      exact hfit.freshScope _ (List.mem_append_left _ ht) ⟨x.out, by simp [scopedName]⟩
    · show w.assets ++ names.take mg.assets.length = _
      rw [← hfit.constants, List.take_length]
    · show ((sig.outputs.map _).map Prod.fst).Nodup
      rw [List.map_map]
      exact houtN
    · intro name
      show name ∈ (sig.outputs.map _).map Prod.fst ↔ _
      rw [List.map_map]
      exact hmemkeys _ _ houtF name
    · intro f hf
      have h1 : find sig.outputs f.1 = some (tensorInfo f.2) := by
        rw [houtF, find_of_mem hfit.outputNames hf]
        rfl
      obtain ⟨hmat, hzip⟩ := matches_remapInfo (remap scope inputMap) f.2
      refine ⟨remapInfo (remap scope inputMap) (tensorInfo f.2), ?_, hmat, ?_⟩
      · exact List.mem_map.2 ⟨_, find_mem h1, rfl⟩
      · intro p hp feeds hf0 hdef
        rw [hzip, List.mem_map] at hp
        obtain ⟨c, hc, rfl⟩ := hp
        show run (host ++ copies) feeds (remap scope inputMap c) = _
        rw [run_append]
        refine run_import feeds _ (run host feeds) scope inputMap hmap ?_ ?_ mg.nodes hfit.ordered
          mg.nodes [] (by simp) c (hfit.outputTensors f hf c hc)
        · intro n t hnt
          unfold given
          rw [← find_eq_lookup, ← find_eq_lookup, ← find_eq_lookup]
          rcases hmapcases n t hnt with h | ⟨h0, h⟩ | ⟨h0, h00, h⟩
          · rw [h]
            simp only
            have hm := find_mem h
            exact ⟨(hhostrun feeds t (hfit.replacementTensors _ hm).2).symm,
              hdef t (List.mem_append_left _ (List.mem_map_of_mem (f := Prod.snd) hm))⟩
          · obtain ⟨path, h1, h2⟩ := (find_zip hfit.constants n).1 t h
            rw [h0, h1]
            simp only
            refine ⟨?_, rfl⟩
            rw [hhost, run_append]
            exact (run_assets constant feeds _ mg.assets names hfit.constants
              hfit.freshConstants.1 hf0 _ h2).symm
          · rw [h0, (find_zip hfit.constants n).2 h00, h]
            simp only
            have hm := hpairsIn _ (find_mem h)
            exact ⟨(hhostrun feeds t hm.2.1).symm, hdef t (List.mem_append_right _ hm.2.2)⟩
        · intro n hn0
          rw [hfind] at hn0
          simp only [Option.or_eq_none_iff] at hn0
          unfold given
          rw [← find_eq_lookup, ← find_eq_lookup, ← find_eq_lookup, hn0.1,
            (find_zip hfit.constants n).2 hn0.2.1, hn0.2.2, hslash]
    · show ((free.map _).map Prod.fst).Nodup
      rw [List.map_map]
      exact hinN.sublist ((List.filter_sublist).map _)
    · intro name
      show name ∈ (free.map _).map Prod.fst ↔ _
      rw [List.map_map]
      rw [← hmemkeys _ _ hinF name, List.mem_map]
      constructor
      · rintro ⟨e, he, rfl⟩
        rw [hfree, List.mem_filter, Option.isNone_iff_eq_none, find_eq_none] at he
        exact ⟨List.mem_map_of_mem (f := Prod.fst) he.1, he.2⟩
      · rintro ⟨h1, h2⟩
        obtain ⟨e, he, rfl⟩ := List.mem_map.1 h1
        refine ⟨e, ?_, rfl⟩
        rw [hfree, List.mem_filter, Option.isNone_iff_eq_none, find_eq_none]
        exact ⟨he, h2⟩
    · intro f hf hfl
      have h1 : find sig.inputs f.1 = some (tensorInfo f.2) := by
        rw [hinF, find_of_mem hfit.inputNames hf]
        rfl
      obtain ⟨hmat, hzip⟩ := matches_remapInfo (remap scope inputMap) f.2
      refine ⟨remapInfo (remap scope inputMap) (tensorInfo f.2), ?_, hmat, ?_⟩
      · refine List.mem_map.2 ⟨(f.1, tensorInfo f.2), ?_, rfl⟩
        rw [hfree, List.mem_filter, Option.isNone_iff_eq_none, find_eq_none]
        exact ⟨find_mem h1, hfl⟩
      · intro p hp ha hr
        rw [hzip, List.mem_map] at hp
        obtain ⟨c, hc, rfl⟩ := hp
        show remap scope inputMap c = _
        have hnone : find inputMap c = none := by
          cases h : find inputMap c with
          | none => rfl
          | some t =>
            exfalso
            rcases hmapcases c t h with h | ⟨-, h⟩ | ⟨-, -, h⟩
            · exact hr (List.mem_map.2 ⟨_, find_mem h, rfl⟩)
            · obtain ⟨path, h2, -⟩ := (find_zip hfit.constants c).1 t h
              exact ha (List.mem_map.2 ⟨_, find_mem h2, rfl⟩)
            · obtain ⟨e, he, t', hf', hp'⟩ := mem_components (find_mem h)
              refine comps_disjoint hfit.inputComponents hf (find_mem hf') ?_ hc
                (List.of_mem_zip hp').1
              intro hee
              exact hfl (List.mem_map.2 ⟨e, he, hee.symm⟩)
        unfold remap
        rw [hnone, hslash]
        rfl

end apply

/-! ## Models that were written -/

theorem updateMap_plain (m : InfoMap) (h : ∀ e ∈ m, Plain e.1) : updateMap m = .ok m := by
  unfold updateMap
  have : ∀ keys : List Str, (∀ k ∈ keys, Plain k) → keys.foldlM updateEntry m = .ok m := by
    intro keys
    induction keys with
    | nil => intro _; rfl
    | cons k keys ih =>
      intro hk
      rw [List.foldlM_cons]
      have : updateEntry m k = .ok m := by
        unfold updateEntry
        rw [matchMangled_plain (hk k List.mem_cons_self)]
      rw [this]
      exact ih (fun k h => hk k (List.mem_cons_of_mem _ h))
  apply this
  intro k hk
  obtain ⟨e, he, rfl⟩ := List.mem_map.1 hk
  exact h e he

theorem choose_written {V : Type} (pre post : List (MetaGraph V)) (mg : MetaGraph V)
    (htag : mg.tags ≠ [] ∧ ∀ t ∈ mg.tags, t = "transform".toList)
    (hpre : ∀ g ∈ pre, g.tags = [] ∨ ∃ t ∈ g.tags, t ≠ "transform".toList) :
    chooseMetaGraph (pre ++ mg :: post) = .ok mg := by
  unfold chooseMetaGraph
  have h1 : pre.find? (fun g => g.tags.all (fun t => t = transformTag)
      && g.tags.contains transformTag) = none := by
    rw [List.find?_eq_none]
    intro g hg h
    rw [Bool.and_eq_true, List.all_eq_true, List.contains_iff_mem] at h
    rcases hpre g hg with h0 | ⟨t, ht, hne⟩
    · rw [h0] at h; simp at h
    · have := h.1 t ht
      simp only [decide_eq_true_eq] at this
      exact hne this
  have h2 : (mg.tags.all (fun t => t = transformTag) && mg.tags.contains transformTag) = true := by
    rw [Bool.and_eq_true, List.all_eq_true, List.contains_iff_mem]
    refine ⟨fun t ht => decide_eq_true (htag.2 t ht), ?_⟩
    cases hl : mg.tags with
    | nil => exact absurd hl htag.1
    | cons a l =>
      have := htag.2 a (by rw [hl]; exact List.mem_cons_self)
      rw [show transformTag = a from this.symm]
      exact List.mem_cons_self
  rw [List.find?_append, h1, Option.none_or, List.find?_cons, h2]

def writtenSignature (inputs outputs : List (Str × Tensor)) : Signature :=
  { inputs := inputs.map (fun e => (e.1, tensorInfo e.2))
    outputs := outputs.map (fun e => (e.1, tensorInfo e.2)) }

theorem load_written {V : Type} (nodes : Graph V) (trainable : List Str)
    (assets : List (Str × Str)) (inputs outputs : List (Str × Tensor)) (hi : inputs ≠ [])
    (ho : outputs ≠ []) (hp : ∀ f ∈ inputs ++ outputs, Plain f.1) :
    ∃ savedModel mg, writeSavedTransform nodes trainable assets inputs outputs
        = .ok savedModel ∧
      loadSavedModel savedModel = .ok (mg, writtenSignature inputs outputs) ∧
      mg.trainable = trainable ∧ mg.nodes = nodes ∧ mg.assets = assets := by
  have key : ∀ mg : MetaGraph V, mg.tags = [transformTag] →
      mg.signatures = [(transformSignature, writtenSignature inputs outputs)] →
      loadSavedModel [mg] = .ok (mg, writtenSignature inputs outputs) := by
    intro mg h1 h2
    unfold loadSavedModel
    have hc := choose_written [] [] mg
      ⟨by rw [h1]; simp, fun t ht => by rw [h1] at ht; exact List.mem_singleton.1 ht⟩ (by simp)
    rw [List.nil_append] at hc
    rw [hc]
    show (updateLegacySignature ((find mg.signatures transformSignature).getD ⟨[], []⟩)).bind _ = _
    rw [h2, find_cons, if_pos rfl, Option.getD_some]
    unfold updateLegacySignature
    rw [updateMap_plain _ (by
      intro e he
      obtain ⟨f, hf, rfl⟩ := List.mem_map.1 he
      exact hp f (List.mem_append_left _ hf)), updateMap_plain _ (by
      intro e he
      obtain ⟨f, hf, rfl⟩ := List.mem_map.1 he
      exact hp f (List.mem_append_right _ hf))]
    rfl
  refine ⟨[MetaGraph.mk [transformTag] [(transformSignature, writtenSignature inputs outputs)] nodes
    trainable assets], _, ?_, key _ rfl rfl, rfl, rfl, rfl⟩
  unfold writeSavedTransform predictSignature
  rw [if_neg hi, if_neg ho]
  rfl

/-- **C87**, partial: the graph of a transform function is written, with any number of inputs and
outputs of any kind, and loaded into any graph, where some of its inputs are given, and tensors of
the model are replaced. Loading succeeds; the outputs and the inputs that are not given are those
that were written, under their names; the outputs are computed as in the graph that was written,
with the given inputs, the replaced tensors and the paths of the assets; and what was in the graph
stays as it was. Missing: features whose names end in `$indices`, `$values`, `$dense_shape` or
`$dense_tensor` (`renamed_on_load`, `lost_on_load`). -/
theorem written_transform_applied_partial {V : Type} (constant : Str → V) (w : World V)
    (nodes : Graph V) (assets : List (Str × Str)) (inputs outputs logical : List (Str × Tensor))
    (replacements : List (Str × Str)) (scope : Str) (names : List Str) (hi : inputs ≠ [])
    (ho : outputs ≠ []) (hp : ∀ f ∈ inputs ++ outputs, Plain f.1)
    (hfit : Fits w.graph nodes assets inputs outputs logical replacements scope names) :
    ∃ savedModel L, writeSavedTransform nodes [] assets inputs outputs = .ok savedModel ∧
      partiallyApply constant w savedModel logical replacements scope names = .ok L ∧
      AppliedTo constant w nodes assets inputs outputs logical replacements scope names L := by
  obtain ⟨sm, mg, hw, hload, htrain, rfl, rfl⟩ :=
    load_written nodes [] assets inputs outputs hi ho hp
  have hdesc : ∀ fs : List (Str × Tensor), (fs.map Prod.fst).Nodup →
      ((fs.map (fun e => (e.1, tensorInfo e.2))).map Prod.fst).Nodup ∧
      ∀ name, find (fs.map (fun e => (e.1, tensorInfo e.2))) name
        = (find fs name).map tensorInfo := by
    intro fs hn
    refine ⟨?_, find_map fs tensorInfo⟩
    rw [List.map_map]
    exact hn
  obtain ⟨L, h1, h2⟩ := applied constant w sm mg _ hload htrain inputs outputs logical
    (hdesc _ hfit.inputNames) (hdesc _ hfit.outputNames) replacements scope names hfit
  exact ⟨sm, L, hw, h1, h2⟩

/-- **C87**, old models, partial: a SavedModel of an older version, among whose graphs one has the
tag of transform functions and a signature with the components of dense and sparse features, in any
order. Missing: sparse features called `dense_shape`. -/
theorem legacy_transform_applied_partial {V : Type} (constant : Str → V) (w : World V)
    (pre post : List (MetaGraph V)) (mg : MetaGraph V)
    (htag : mg.tags ≠ [] ∧ ∀ t ∈ mg.tags, t = "transform".toList)
    (hpre : ∀ g ∈ pre, g.tags = [] ∨ ∃ t ∈ g.tags, t ≠ "transform".toList)
    (htrain : mg.trainable = [])
    (inputs outputs logical : List (Str × Tensor)) (sig : Signature)
    (hsig : mg.signatures.lookup "transform_signature".toList = some sig)
    (hin : sig.inputs.Perm (inputs.flatMap legacyEntries))
    (hout : sig.outputs.Perm (outputs.flatMap legacyEntries))
    (hp : ∀ f ∈ inputs ++ outputs, Plain f.1)
    (hc : ∀ f ∈ inputs ++ outputs, ∀ spec cs, f.2 ≠ .composite spec cs)
    (hd : ∀ i v s, ("dense_shape".toList, Tensor.sparse i v s) ∉ inputs ++ outputs)
    (replacements : List (Str × Str)) (scope : Str) (names : List Str)
    (hfit : Fits w.graph mg.nodes mg.assets inputs outputs logical replacements scope names) :
    ∃ L, partiallyApply constant w (pre ++ mg :: post) logical replacements scope names = .ok L ∧
      AppliedTo constant w mg.nodes mg.assets inputs outputs logical replacements scope names
        L := by
  obtain ⟨mi, hi1, hi2⟩ := legacy_signature_partial inputs hfit.inputNames
    (fun f hf => hp f (List.mem_append_left _ hf)) (fun f hf => hc f (List.mem_append_left _ hf))
    (fun i v s h => hd i v s (List.mem_append_left _ h)) sig.inputs hin
  obtain ⟨mo, ho1, ho2⟩ := legacy_signature_partial outputs hfit.outputNames
    (fun f hf => hp f (List.mem_append_right _ hf)) (fun f hf => hc f (List.mem_append_right _ hf))
    (fun i v s h => hd i v s (List.mem_append_right _ h)) sig.outputs hout
  have hload : loadSavedModel (pre ++ mg :: post)
      = .ok (mg, { inputs := mi, outputs := mo }) := by
    unfold loadSavedModel
    rw [choose_written pre post mg htag hpre]
    show (updateLegacySignature ((find mg.signatures transformSignature).getD ⟨[], []⟩)).bind _ = _
    rw [find_eq_lookup, show mg.signatures.lookup transformSignature = some sig from hsig]
    unfold updateLegacySignature
    simp only [Option.getD_some, hi1, ho1]
    rfl
  exact applied constant w _ mg _ hload htrain inputs outputs logical hi2 ho2 replacements scope
    names hfit

/-! ## What is refused -/

/-- **C87**: inputs that the transform function does not have are refused. -/
theorem unexpected_input_refused {V : Type} (constant : Str → V) (w : World V) (nodes : Graph V)
    (trainable : List Str) (assets : List (Str × Str)) (inputs outputs logical : List (Str × Tensor))
    (replacements : List (Str × Str)) (scope : Str) (names : List Str) (hi : inputs ≠ [])
    (ho : outputs ≠ []) (hp : ∀ f ∈ inputs ++ outputs, Plain f.1)
    (hx : ∃ e ∈ logical, e.1 ∉ inputs.map Prod.fst) :
    ∃ savedModel, writeSavedTransform nodes trainable assets inputs outputs = .ok savedModel ∧
      partiallyApply constant w savedModel logical replacements scope names
        = .error "ValueError: Unexpected inputs to transform" := by
  obtain ⟨sm, mg, h1, h2, -, -, -⟩ := load_written nodes trainable assets inputs outputs hi ho hp
  refine ⟨sm, h1, ?_⟩
  unfold partiallyApply
  rw [h2]
  have : logical.any (fun e => (find (writtenSignature inputs outputs).inputs e.1).isNone) = true := by
    rw [List.any_eq_true]
    obtain ⟨e, he, hne⟩ := hx
    refine ⟨e, he, ?_⟩
    rw [show (writtenSignature inputs outputs).inputs = inputs.map (fun e => (e.1, tensorInfo e.2))
      from rfl, find_map, Option.isNone_map, Option.isNone_iff_eq_none, find_eq_none]
    exact hne
  simp only [bind, Except.bind, this, if_true]

/-- **C87**: a dense tensor given for a sparse input, and a sparse tensor for a dense one, are
refused. -/
theorem wrong_kind_refused {V : Type} (constant : Str → V) (w : World V) (nodes : Graph V)
    (trainable : List Str) (assets : List (Str × Str)) (inputs outputs logical : List (Str × Tensor))
    (replacements : List (Str × Str)) (scope : Str) (names : List Str) (hi : inputs ≠ [])
    (ho : outputs ≠ []) (hp : ∀ f ∈ inputs ++ outputs, Plain f.1)
    (hn : (inputs.map Prod.fst).Nodup)
    (hx : ∃ e ∈ logical, (∃ i v s t, (e.1, Tensor.sparse i v s) ∈ inputs ∧ e.2 = .dense t) ∨
      (∃ i v s t, (e.1, Tensor.dense t) ∈ inputs ∧ e.2 = .sparse i v s)) :
    ∃ savedModel, writeSavedTransform nodes trainable assets inputs outputs = .ok savedModel ∧
      ∃ msg, partiallyApply constant w savedModel logical replacements scope names
        = .error msg := by
  obtain ⟨sm, mg, h1, h2, -, -, -⟩ := load_written nodes trainable assets inputs outputs hi ho hp
  refine ⟨sm, h1, ?_⟩
  unfold partiallyApply
  rw [h2]
  have hexp : ∃ msg, expandInputMap (writtenSignature inputs outputs).inputs logical = .error msg := by
    clear h1 h2
    induction logical with
    | nil => obtain ⟨e, he, -⟩ := hx; cases he
    | cons a logical ih =>
      unfold expandInputMap
      cases hf : find (writtenSignature inputs outputs).inputs a.1 with
      | none => exact ⟨_, rfl⟩
      | some info =>
        simp only
        cases he : expandOne info a.2 with
        | error msg => exact ⟨msg, rfl⟩
        | ok here =>
          obtain ⟨e, hm, hk⟩ := hx
          rcases List.mem_cons.1 hm with rfl | hm
          · exfalso
            rw [show (writtenSignature inputs outputs).inputs
              = inputs.map (fun e => (e.1, tensorInfo e.2)) from rfl, find_map] at hf
            rcases hk with ⟨i, v, s, t, h5, h6⟩ | ⟨i, v, s, t, h5, h6⟩ <;>
            · rw [find_of_mem hn h5] at hf
              injection hf with hf
              rw [← hf, h6] at he
              cases he
          · obtain ⟨msg, h7⟩ := ih ⟨e, hm, hk⟩
            exact ⟨msg, by rw [h7]; rfl⟩
  obtain ⟨msg, hexp⟩ := hexp
  simp only [bind, Except.bind]
  split
  · exact ⟨_, rfl⟩
  · rw [hexp]
    exact ⟨_, rfl⟩

/-- **C87**: a transform function with trainable variables is never loaded. -/
theorem trainable_refused {V : Type} (constant : Str → V) (w : World V) (nodes : Graph V)
    (trainable : List Str) (assets : List (Str × Str)) (inputs outputs logical : List (Str × Tensor))
    (replacements : List (Str × Str)) (scope : Str) (names : List Str) (hi : inputs ≠ [])
    (ho : outputs ≠ []) (hp : ∀ f ∈ inputs ++ outputs, Plain f.1) (ht : trainable ≠ []) :
    ∃ savedModel, writeSavedTransform nodes trainable assets inputs outputs = .ok savedModel ∧
      ∃ msg, partiallyApply constant w savedModel logical replacements scope names
        = .error msg := by
  obtain ⟨sm, mg, h1, h2, h3, -, -⟩ := load_written nodes trainable assets inputs outputs hi ho hp
  refine ⟨sm, h1, ?_⟩
  unfold partiallyApply
  rw [h2]
  simp only [bind, Except.bind]
  split
  · exact ⟨_, rfl⟩
  · cases expandInputMap (writtenSignature inputs outputs).inputs logical with
    | error msg => exact ⟨msg, rfl⟩
    | ok pairs =>
      simp only
      rw [if_pos (by rw [h3]; exact ht)]
      exact ⟨_, rfl⟩

/-- **C87**: a transform function without inputs or without outputs cannot be written. -/
theorem empty_refused {V : Type} (nodes : Graph V) (trainable : List Str)
    (assets : List (Str × Str)) (inputs outputs : List (Str × Tensor))
    (h : inputs = [] ∨ outputs = []) :
    ∃ msg, writeSavedTransform nodes trainable assets inputs outputs = .error msg := by
  unfold writeSavedTransform predictSignature
  by_cases hi : inputs = []
  · rw [if_pos hi]; exact ⟨_, rfl⟩
  · rw [if_neg hi, if_pos (h.resolve_left hi)]; exact ⟨_, rfl⟩

/-- **C87**: a SavedModel none of whose graphs has exactly the tag of transform functions is
refused. -/
theorem untagged_refused {V : Type} (constant : Str → V) (w : World V)
    (savedModel : List (MetaGraph V)) (logical : List (Str × Tensor))
    (replacements : List (Str × Str)) (scope : Str) (names : List Str)
    (h : ∀ g ∈ savedModel, g.tags = [] ∨ ∃ t ∈ g.tags, t ≠ "transform".toList) :
    partiallyApply constant w savedModel logical replacements scope names
      = .error "RuntimeError: MetaGraphDef associated with tags transform could not be found" := by
  have h1 : savedModel.find? (fun g => g.tags.all (fun t => t = transformTag)
      && g.tags.contains transformTag) = none := by
    rw [List.find?_eq_none]
    intro g hg h2
    rw [Bool.and_eq_true, List.all_eq_true, List.contains_iff_mem] at h2
    rcases h g hg with h0 | ⟨t, ht, hne⟩
    · rw [h0] at h2; simp at h2
    · have := h2.1 t ht
      simp only [decide_eq_true_eq] at this
      exact hne this
  unfold partiallyApply loadSavedModel chooseMetaGraph
  rw [h1]
  rfl

/-! ## What goes wrong -/

/-- **C87 fails**: every name that ends in `$dense_tensor` loses this ending when the function is
loaded. -/
theorem renamed_on_load (x t : Str) (hx : '\n' ∉ x) :
    updateMap [(x ++ "$dense_tensor".toList, tensorInfo (.dense t))]
      = .ok [(x, tensorInfo (.dense t))] := by
  have hne : x ≠ x ++ "$dense_tensor".toList := by
    intro h
    have := congrArg List.length h
    simp at this
  have hstep : updateEntry [(x ++ Kind.denseTensor.suffix, tensorInfo (.dense t))]
      (x ++ Kind.denseTensor.suffix) = .ok [(x, tensorInfo (.dense t))] := by
    unfold updateEntry
    rw [matchMangled_suffix x .denseTensor hx]
    have hne' : ¬ (x ++ Kind.denseTensor.suffix = x) := fun h => hne h.symm
    have h1 : ∀ v : Info, find [(x ++ Kind.denseTensor.suffix, v)] x = none := by
      intro v
      rw [find_cons, if_neg hne', find_nil]
    have h2 : ∀ v : Info, find [(x ++ Kind.denseTensor.suffix, v)] (x ++ Kind.denseTensor.suffix)
        = some v := by
      intro v
      rw [find_cons, if_pos rfl]
    have h3 : ∀ v : Info, erase (put [(x ++ Kind.denseTensor.suffix, v)] x v)
        (x ++ Kind.denseTensor.suffix) = [(x, v)] := by
      intro v
      unfold put erase
      rw [List.filter_append, List.filter_filter]
      rw [List.filter_cons_of_neg (by simp), List.filter_nil, List.nil_append,
        List.filter_cons]
      exact if_pos (decide_eq_true hne)
    simp only [h1, h2, Option.isNone_none, Option.all_none, Option.getD_some, ite_self, if_true,
      component, h3]
  show [x ++ Kind.denseTensor.suffix].foldlM updateEntry
    [(x ++ Kind.denseTensor.suffix, tensorInfo (.dense t))] = _
  rw [List.foldlM_cons, hstep]
  rfl

/-- A graph with one input that computes one output. -/
def exampleNodes : Graph Nat :=
  [{ out := "x".toList, op := .placeholder, ins := [] },
   { out := "y".toList, op := .compute List.sum, ins := ["x".toList, "x".toList] }]

/-- **C87 fails**: a function whose output is called `price$dense_tensor` is written, and the loaded
function has an output called `price` instead; one whose output is called `price$values` is
written, and cannot be loaded. -/
theorem lost_on_load :
    ((writeSavedTransform exampleNodes [] [] [("x".toList, .dense "x".toList)]
        [("price$dense_tensor".toList, .dense "y".toList)]).bind
      (fun m => (partiallyApply (fun s => s.length) ⟨[], []⟩ m [] [] "s".toList []).map
        Loaded.outputs))
      = .ok [("price".toList, .dense "s/y".toList)] ∧
    ((writeSavedTransform exampleNodes [] [] [("x".toList, .dense "x".toList)]
        [("price$values".toList, .dense "y".toList)]).bind
      (fun m => (partiallyApply (fun s => s.length) ⟨[], []⟩ m [] [] "s".toList []).map
        Loaded.outputs))
      = .error "KeyError: The name refers to a Tensor which does not exist" := by
  constructor <;> decide +kernel

/-- **C87 fails** for old models: a sparse feature called `dense_shape` is refused, because the test
whether its entry may be changed looks at the name of the feature and not at the component. -/
theorem legacy_dense_shape_refused (i v s : Str) :
    updateMap (legacyEntries ("dense_shape".toList, .sparse i v s)) = .error "AssertionError" := by
  rfl

/-- **C87 fails**: a SavedModel without the signature of transform functions is loaded as a function
that computes nothing. -/
theorem missing_signature_accepted :
    (partiallyApply (fun s => s.length) ⟨[], []⟩
        [{ tags := ["transform".toList], signatures := [], nodes := exampleNodes, trainable := [],
           assets := [] }] [] [] "s".toList []).map (fun L => (L.unbound, L.outputs))
      = .ok ([], []) := by
  decide +kernel

/-! ## Examples -/

/-- A model with a dense and a sparse input, an asset and two outputs. -/
def exampleModel : Graph Nat :=
  [{ out := "x".toList, op := .placeholder, ins := [] },
   { out := "i".toList, op := .placeholder, ins := [] },
   { out := "v".toList, op := .placeholder, ins := [] },
   { out := "s".toList, op := .placeholder, ins := [] },
   { out := "file".toList, op := .placeholder, ins := [] },
   { out := "y".toList, op := .compute List.sum, ins := ["x".toList, "v".toList, "file".toList] }]

def exampleHost : World Nat :=
  { graph := [{ out := "a".toList, op := .compute (fun _ => 5), ins := [] }], assets := [] }

def exampleInputs : List (Str × Tensor) :=
  [("dense".toList, .dense "x".toList), ("words".toList, .sparse "i".toList "v".toList "s".toList)]

def exampleOutputs : List (Str × Tensor) :=
  [("sum".toList, .dense "y".toList), ("words".toList, .sparse "i".toList "v".toList "s".toList)]

theorem example_fits : Fits exampleHost.graph exampleModel [("file".toList, "path".toList)]
    exampleInputs exampleOutputs [("dense".toList, .dense "a".toList)] [] "t".toList
    ["Const".toList] where
  ordered := by
    refine ⟨by decide, ?_⟩
    intro pre n post h i hi
    rcases pre with _ | ⟨a, _ | ⟨b, _ | ⟨c, _ | ⟨d, _ | ⟨e, _ | ⟨f, pre⟩⟩⟩⟩⟩⟩ <;>
      simp only [exampleModel, List.nil_append, List.cons_append, List.cons.injEq, List.nil_eq,
        List.append_eq_nil_iff, reduceCtorEq, and_false] at h
    · obtain ⟨rfl, -⟩ := h; simp at hi
    · obtain ⟨-, rfl, -⟩ := h; simp at hi
    · obtain ⟨-, -, rfl, -⟩ := h; simp at hi
    · obtain ⟨-, -, -, rfl, -⟩ := h; simp at hi
    · obtain ⟨-, -, -, -, rfl, -⟩ := h; simp at hi
    · obtain ⟨rfl, rfl, rfl, rfl, rfl, rfl, -⟩ := h
      revert hi
      revert i
      decide
  inputNames := by decide
  inputTensors := by decide
  inputComponents := by decide
  outputNames := by decide
  outputTensors := by decide
  assetNames := by decide
  assetTensors := by decide
  freshScope := by decide
  constants := by decide
  freshConstants := by decide
  logicalNames := by decide
  logicalTensors := by
    intro e he
    rw [List.mem_singleton] at he
    subst he
    exact ⟨.dense "x".toList, by decide, trivial, by decide⟩
  replacementNames := by decide
  replacementTensors := by decide

theorem example_plain : ∀ f ∈ exampleInputs ++ exampleOutputs, Plain f.1 := by
  unfold Plain
  decide

/-- The hypotheses can be met, and the loaded function computes 5 + 3 + 4 when it is fed. -/
example : (∀ f ∈ exampleInputs ++ exampleOutputs, Plain f.1) ∧
    Fits exampleHost.graph exampleModel [("file".toList, "path".toList)] exampleInputs
      exampleOutputs [("dense".toList, .dense "a".toList)] [] "t".toList ["Const".toList] ∧
    ((writeSavedTransform exampleModel [] [("file".toList, "path".toList)] exampleInputs
        exampleOutputs).bind
      (fun m => (partiallyApply (fun s => s.length) exampleHost m
        [("dense".toList, .dense "a".toList)] [] "t".toList ["Const".toList]).map
        (fun L => (L.unbound, L.outputs, run L.world.graph
          (fun n => if n = "t/v".toList then some 3 else none) "t/y".toList))))
      = .ok ([("words".toList, .sparse "t/i".toList "t/v".toList "t/s".toList)],
          [("sum".toList, .dense "t/y".toList),
           ("words".toList, .sparse "t/i".toList "t/v".toList "t/s".toList)], some 12) :=
  ⟨example_plain, example_fits, by decide +kernel⟩

/-- An old signature in another order than it was written. -/
example : updateMap [("w$values".toList, .name "v".toList), ("x$dense_tensor".toList, .name "x".toList),
      ("w$indices".toList, .name "i".toList), ("w$dense_shape".toList, .name "s".toList)]
    = .ok [("x".toList, .name "x".toList),
        ("w".toList, .coo "i".toList "v".toList "s".toList)] := by
  decide +kernel

end TFT.SavedLoad
