import Verif.Graph.OptimizeProps

/-!
# Labels of the optimized graph (C60)

Beam rejects a pipeline with two transforms of the same label, and the label of every operation of
the optimized graph becomes the label of a transform.
-/

namespace TFT.Graph.Optimize

open TFT.Graph.CachePath TFT.Graph.Spec
open TFT.Coders (Bytes)

variable {Op Coll : Type}

/-- The labels of operations: that of an operation of the original graph, `{label}`; with an infix
for a dataset, `{label}[AnalysisIndex{i}]`; `ExtractInputForSavedModel[AnalysisIndex{i}]`;
`FlattenCache[{label}]`; `DecodeCache[{label}][AnalysisIndex{i}]`;
`EncodeCache[{label}][AnalysisIndex{i}]`, `analysis_graph_builder.py:294-298,383-441`. Labels of the
original graph are unique and are represented by the operations. -/
inductive Label (Op : Type) where
  | op (o : Op) (dataset : Option Nat)
  | input (dataset : Nat)
  | flatten (o : Op)
  | decode (o : Op) (dataset : Nat)
  | encode (o : Op) (dataset : Nat)

@[inherit_doc Label]
def Node.label : Node Op → Label Op
  | .op o d _ _ => .op o d
  | .extractInput i _ => .input i
  | .flatten o _ => .flatten o
  | .decodeCache o i _ _ => .decode o i
  | .encodeCache o i _ => .encode o i

namespace Spec

/-- `s` is `t` or one of the value nodes that `t` depends on. -/
inductive Sub : Node Op → Node Op → Prop where
  | refl {n} : Sub n n
  | op {s o d ins i m} : m ∈ ins → Sub s m → Sub s (.op o d ins i)
  | flatten {s o ins m} : m ∈ ins → Sub s m → Sub s (.flatten o ins)
  | encode {s o i m} : Sub s m → Sub s (.encodeCache o i m)

/-- Two value nodes are outputs of the same operation: they differ at most in the output index. -/
def SameOperation (s t : Node Op) : Prop :=
  s = t ∨ ∃ o d ins i j, s = .op o d ins i ∧ t = .op o d ins j

end Spec
open Optimize.Spec

/-! ### One visit -/

/-- What one visit makes, whatever the graph. -/
structure Makes (c : Config Op Coll) (o : Op) (ins vs : List (View Op)) (ws : List (Write Op)) :
    Prop where
  flat : ∃ next : List (Node Op), (∀ v ∈ vs, ∃ i, v.flat = .op o none next i) ∧
    ((∀ m ∈ next, ∃ w ∈ ins, m = w.flat) ∨ ∃ l, next = [.flatten o l] ∧
      ∀ m ∈ l, ∃ w ∈ ins, ∃ f, w.fine = some f ∧ ∃ k, (k, m) ∈ f)
  fine : ∀ v ∈ vs, ∀ f, v.fine = some f → vs = [v] ∧ ∀ (j : Nat) k n, f[j]? = some (k, n) →
    (∃ key, n = .decodeCache o j k key) ∨ ∃ ns, n = .op o (some j) ns 0 ∧
      ∀ m ∈ ns, (∃ w ∈ ins, m = w.flat) ∨ (∃ w ∈ ins, ∃ f, w.fine = some f ∧ ∃ k, (k, m) ∈ f) ∨
        (m = .extractInput j k ∧ c.keys[j]? = some k)
  writes : ∀ w ∈ ws, ∃ v f, vs = [v] ∧ v.fine = some f ∧ ∃ (j : Nat) (k : DatasetKey) (n : Node Op),
    f[j]? = some (k, n) ∧ w.2 = .encodeCache o j n

theorem fineLoop_makes (c : Config Op Coll) (o : Op) (views : List (List (DatasetKey × Node Op)))
    (key : Bytes) : ∀ (ks : List DatasetKey) (idx : Nat) (fine : List (DatasetKey × Node Op))
    (ws : List (Write Op)), c.fineLoop o views key idx ks = .ok (fine, ws) →
    (∀ (j : Nat) k n, fine[j]? = some (k, n) →
      (∃ key, n = .decodeCache o (idx + j) k key) ∨ ∃ ns, n = .op o (some (idx + j)) ns 0 ∧
        ∀ m ∈ ns, ∃ f ∈ views, ∃ k, (k, m) ∈ f) ∧
    ∀ w ∈ ws, ∃ (j : Nat) (k : DatasetKey) (n : Node Op), fine[j]? = some (k, n) ∧
      w.2 = .encodeCache o (idx + j) n := by
  intro ks
  induction ks with
  | nil =>
    intro idx fine ws h
    cases h
    simp
  | cons k ks ih =>
    intro idx fine ws h
    unfold Config.fineLoop at h
    obtain ⟨⟨out, w⟩, h1, h⟩ := bind_ok_iff.1 h
    obtain ⟨⟨fine', ws'⟩, h2, h⟩ := bind_ok_iff.1 h
    cases h
    obtain ⟨h3, h4⟩ := ih _ _ _ h2
    have hstep : ((∃ key, out = .decodeCache o idx k key) ∨ ∃ ns, out = .op o (some idx) ns 0 ∧
        ∀ m ∈ ns, ∃ f ∈ views, ∃ k, (k, m) ∈ f) ∧ ∀ x ∈ w, x.2 = .encodeCache o idx out := by
      unfold Config.fineStep at h1
      by_cases hd : ((c.info o).hasCoder && c.hasEntry k key) = true
      · rw [if_pos hd] at h1
        cases h1
        exact ⟨Or.inl ⟨_, rfl⟩, by simp⟩
      · rw [if_neg hd] at h1
        obtain ⟨ns, hns, h1⟩ := bind_ok_iff.1 h1
        have hm : ∀ m ∈ ns, ∃ f ∈ views, ∃ k, (k, m) ∈ f := by
          intro m hm
          obtain ⟨x, hx, hxm⟩ := exists_left ((seqExcept_ok_iff _ _).1 hns) hm
          obtain ⟨f, hf, rfl⟩ := List.mem_map.1 hx
          refine ⟨f, hf, k, ?_⟩
          unfold lookupKey at hxm
          cases hl : f.lookup k with
          | none => rw [hl] at hxm; cases hxm
          | some n =>
            rw [hl] at hxm
            cases hxm
            exact lookup_mem hl
        by_cases hw : ((c.info o).hasCoder && k.isCached) = true
        · simp only [hw, if_true] at h1
          cases h1
          refine ⟨Or.inr ⟨ns, rfl, hm⟩, ?_⟩
          intro x hx
          cases hx
          rfl
        · simp only [hw] at h1
          cases h1
          exact ⟨Or.inr ⟨ns, rfl, hm⟩, by simp⟩
    constructor
    · intro j k' n hj
      cases j with
      | zero =>
        simp at hj
        obtain ⟨rfl, rfl⟩ := hj
        exact hstep.1
      | succ j =>
        have := h3 j k' n (by simpa using hj)
        rw [show idx + (j + 1) = idx + 1 + j by omega]
        exact this
    · intro x hx
      rcases List.mem_append.1 hx with hx | hx
      · exact ⟨0, k, out, rfl, hstep.2 x (by simpa using hx)⟩
      · obtain ⟨j, k', n, h5, h6⟩ := h4 x hx
        exact ⟨j + 1, k', n, by simpa using h5, by
          rw [show idx + (j + 1) = idx + 1 + j by omega]; exact h6⟩

theorem applyViews_makes (o : Op) (model : Node Op) : ∀ (ks : List DatasetKey) (idx j : Nat)
    (k : DatasetKey) (n : Node Op), (applyViews o model idx ks)[j]? = some (k, n) →
    ks[j]? = some k ∧ n = .op o (some (idx + j)) [model, .extractInput (idx + j) k] 0 := by
  intro ks
  induction ks with
  | nil => intro idx j k n h; simp [applyViews] at h
  | cons k ks ih =>
    intro idx j k' n h
    cases j with
    | zero =>
      simp [applyViews] at h
      obtain ⟨rfl, rfl⟩ := h
      simp
    | succ j =>
      have := ih (idx + 1) j k' n (by simpa [applyViews] using h)
      rw [show idx + (j + 1) = idx + 1 + j by omega]
      simpa using this

theorem visit_makes {c : Config Op Coll} {o : Op} {ins vs : List (View Op)} {ws : List (Write Op)}
    (h : c.visit o ins = .ok (vs, ws)) : Makes c o ins vs ws := by
  unfold Config.visit at h
  obtain ⟨_, hd, h⟩ := bind_ok_iff.1 h
  by_cases hk : (c.info o).kind = .applySavedModel 0
  · rw [if_pos hk] at h
    unfold Config.visitApply at h
    by_cases ht : ins.any (fun v => truthy v.fine) = true
    · rw [if_pos ht] at h; cases h
    · rw [if_neg ht] at h
      match ins, h with
      | [model, input], h =>
        cases h
        refine ⟨⟨[model.flat, input.flat], by simp, Or.inl (by simp)⟩, ?_, by simp⟩
        intro v hv f hf
        have hv' := List.mem_singleton.1 hv
        subst hv'
        cases hf
        refine ⟨rfl, ?_⟩
        intro j k n hj
        obtain ⟨h1, h2⟩ := applyViews_makes _ _ _ _ _ _ _ hj
        rw [Nat.zero_add] at h2
        refine Or.inr ⟨_, h2, ?_⟩
        intro m hm
        simp at hm
        rcases hm with rfl | rfl
        · exact Or.inl ⟨model, by simp, rfl⟩
        · exact Or.inr (Or.inr ⟨rfl, h1⟩)
  · rw [if_neg hk] at h
    by_cases hp : (c.cache.isSome && (c.info o).isPartitionable) = true
    · rw [if_pos hp] at h
      unfold Config.visitPartitionable at h
      obtain ⟨path, _, h⟩ := bind_ok_iff.1 h
      obtain ⟨⟨fines, ws'⟩, h1, h⟩ := bind_ok_iff.1 h
      simp only at h
      by_cases hl : fines.length ≠ (c.outputs o (ins.map (fun v => v.flat))).length
      · rw [if_pos hl] at h; cases h
      · rw [if_neg hl] at h
        obtain ⟨views, h2, h⟩ := bind_ok_iff.1 h
        simp only [Except.ok.injEq, Prod.mk.injEq] at h
        obtain ⟨rfl, rfl⟩ := h
        have hv : ∀ v ∈ views, ∃ i, v.flat = .op o none (ins.map (fun v => v.flat)) i ∧
            v.fine ∈ fines := by
          intro v hv
          obtain ⟨x, hx, hxv⟩ := exists_left ((seqExcept_ok_iff _ _).1 h2) hv
          obtain ⟨⟨n, f⟩, hp, rfl⟩ := List.mem_map.1 hx
          obtain ⟨hn, hf⟩ := List.of_mem_zip hp
          obtain ⟨i, hi⟩ := List.getElem?_of_mem hn
          unfold makeView View.make at hxv
          split at hxv
          · cases hxv
          · cases hxv
            exact ⟨i, (outputs_get hi).1, hf⟩
        have hlen : views.length = fines.length := by
          have := ((seqExcept_ok_iff _ _).1 h2).length_eq
          simp only [List.length_map, List.length_zip] at this
          omega
        refine ⟨⟨ins.map (fun v => v.flat), fun v h => ?_, Or.inl ?_⟩, ?_, ?_⟩
        · obtain ⟨i, hi, _⟩ := hv v h
          exact ⟨i, hi⟩
        · intro m hm
          obtain ⟨w, hw, rfl⟩ := List.mem_map.1 hm
          exact ⟨w, hw, rfl⟩
        all_goals
          by_cases ha : ins.all (fun v => truthy v.fine) = true
          · rw [if_pos ha] at h1
            obtain ⟨⟨fine, ws2⟩, h3, h1⟩ := bind_ok_iff.1 h1
            cases h1
            unfold Config.applyFine at h3
            obtain ⟨key, _, h3⟩ := bind_ok_iff.1 h3
            obtain ⟨h4, h5⟩ := fineLoop_makes _ _ _ _ _ _ _ _ h3
            obtain ⟨v0, rfl⟩ := List.length_eq_one_iff.1 hlen
            have hv0 : v0.fine = some fine := by
              obtain ⟨_, _, h⟩ := hv v0 (by simp)
              simpa using h
            first
            | intro v hv1 f hf
              have := List.mem_singleton.1 hv1
              subst this
              rw [hv0] at hf
              cases hf
              refine ⟨rfl, ?_⟩
              intro j k n hj
              have := h4 j k n hj
              rw [Nat.zero_add] at this
              refine this.imp_right ?_
              rintro ⟨ns, rfl, hns⟩
              refine ⟨ns, rfl, ?_⟩
              intro m hm
              obtain ⟨f, hf, k', hk'⟩ := hns m hm
              obtain ⟨w, hw, rfl⟩ := List.mem_map.1 hf
              refine Or.inr (Or.inl ⟨w, hw, ?_⟩)
              cases hwf : w.fine with
              | none => rw [hwf] at hk'; simp at hk'
              | some f => rw [hwf] at hk'; exact ⟨f, rfl, k', hk'⟩
            | intro w hw
              obtain ⟨j, k, n, h6, h7⟩ := h5 w hw
              rw [Nat.zero_add] at h7
              exact ⟨v0, fine, rfl, hv0, j, k, n, h6, h7⟩
          · rw [if_neg ha] at h1
            cases h1
            first
            | intro v hv1 f hf
              obtain ⟨_, _, h⟩ := hv v hv1
              rw [hf] at h
              simp at h
            | simp
    · rw [if_neg hp] at h
      obtain ⟨next, h1, h⟩ := bind_ok_iff.1 h
      cases h
      refine ⟨⟨next, ?_, ?_⟩, ?_, by simp⟩
      · intro v hv
        obtain ⟨n, hn, rfl⟩ := List.mem_map.1 hv
        obtain ⟨i, hi⟩ := List.getElem?_of_mem hn
        exact ⟨i, (outputs_get hi).1⟩
      · unfold nextInputs at h1
        by_cases ha : ins.any (fun v => truthy v.fine && v.prefer) = true
        · rw [if_pos ha] at h1
          obtain ⟨values, h2, h1⟩ := bind_ok_iff.1 h1
          cases h1
          refine Or.inr ⟨_, rfl, ?_⟩
          intro m hm
          obtain ⟨l, hl, hm⟩ := List.mem_flatten.1 hm
          obtain ⟨x, hx, hxl⟩ := exists_left ((seqExcept_ok_iff _ _).1 h2) hl
          obtain ⟨w, hw, rfl⟩ := List.mem_map.1 hx
          unfold fineValues at hxl
          cases hf : w.fine with
          | none => rw [hf] at hxl; cases hxl
          | some f =>
            rw [hf] at hxl
            cases hxl
            obtain ⟨⟨k, n⟩, hkn, rfl⟩ := List.mem_map.1 hm
            exact ⟨w, hw, f, hf, k, hkn⟩
        · rw [if_neg ha] at h1
          cases h1
          refine Or.inl ?_
          intro m hm
          obtain ⟨w, hw, rfl⟩ := List.mem_map.1 hm
          exact ⟨w, hw, rfl⟩
      · intro v hv f hf
        obtain ⟨n, hn, rfl⟩ := List.mem_map.1 hv
        cases hf

/-! ### All visits -/

/-- A node that was made by one of the calls. -/
inductive Made (c : Config Op Coll) (calls : List (Call Op (View Op))) : Node Op → Prop where
  | flat {call v next i} (j : Nat) : call ∈ calls → v ∈ call.outs → v.flat = .op call.op none next i →
      Made c calls (.op call.op none next j)
  | flatten {call v l i} : call ∈ calls → v ∈ call.outs →
      v.flat = .op call.op none [.flatten call.op l] i → Made c calls (.flatten call.op l)
  | decode {call v f} {j : Nat} {k k' key} : call ∈ calls → call.outs = [v] → v.fine = some f →
      f[j]? = some (k', .decodeCache call.op j k key) → Made c calls (.decodeCache call.op j k key)
  | step {call v f} {j : Nat} {k ns} : call ∈ calls → call.outs = [v] → v.fine = some f →
      f[j]? = some (k, .op call.op (some j) ns 0) → Made c calls (.op call.op (some j) ns 0)
  | encode {call v f} {j : Nat} {k n} : call ∈ calls → call.outs = [v] → v.fine = some f →
      f[j]? = some (k, n) → Made c calls (.encodeCache call.op j n)
  | input {j : Nat} {k} : c.keys[j]? = some k → Made c calls (.extractInput j k)

theorem Made.mono {c : Config Op Coll} {a b : List (Call Op (View Op))} {n : Node Op}
    (h : Made c a n) : Made c (a ++ b) n := by
  cases h with
  | flat j h1 h2 h3 => exact .flat j (List.mem_append_left _ h1) h2 h3
  | flatten h1 h2 h3 => exact .flatten (List.mem_append_left _ h1) h2 h3
  | decode h1 h2 h3 h4 => exact .decode (List.mem_append_left _ h1) h2 h3 h4
  | step h1 h2 h3 h4 => exact .step (List.mem_append_left _ h1) h2 h3 h4
  | encode h1 h2 h3 h4 => exact .encode (List.mem_append_left _ h1) h2 h3 h4
  | input h => exact .input h

/-- Every node below `n` was made by one of the calls. -/
def AllMade (c : Config Op Coll) (calls : List (Call Op (View Op))) (n : Node Op) : Prop :=
  ∀ s, Sub s n → Made c calls s

theorem visitor_visit {c : Config Op Coll} {calls : List (Call Op (View Op))} {o : Op}
    {ins outs : List (View Op)} (h : c.visitor.visit calls o ins = .ok outs) :
    ∃ ws, c.visit o ins = .ok (outs, ws) := by
  cases hv : c.visit o ins with
  | error e => simp [Config.visitor, hv, Except.map] at h
  | ok r =>
    obtain ⟨vs, ws⟩ := r
    simp only [Config.visitor, hv, Except.map, Except.ok.injEq] at h
    subst h
    exact ⟨ws, rfl⟩

theorem all_made {c : Config Op Coll} {g : OpGraph Op} {calls : List (Call Op (View Op))}
    (hp : Proper g c.visitor calls) : ∀ call ∈ calls, (∀ v ∈ call.outs, AllMade c calls v.flat ∧
      ∀ f, v.fine = some f → ∀ k n, (k, n) ∈ f → AllMade c calls n) ∧
      (∃ ws, c.visit call.op call.ins = .ok (call.outs, ws)) := by
  induction hp with
  | nil => simp
  | @snoc calls op ins outs _ _ hins hvisit _ ih =>
    intro call hcall
    rcases List.mem_append.1 hcall with hcall | hcall
    · obtain ⟨h1, h2⟩ := ih call hcall
      refine ⟨?_, h2⟩
      intro v hv
      exact ⟨fun s hs => ((h1 v hv).1 s hs).mono, fun f hf k n hn s hs =>
        ((h1 v hv).2 f hf k n hn s hs).mono⟩
    · have := List.mem_singleton.1 hcall
      subst this
      obtain ⟨ws, hw⟩ := visitor_visit hvisit
      refine ⟨?_, ws, hw⟩
      have hold : ∀ w ∈ ins, AllMade c (calls ++ [⟨op, ins, outs⟩]) w.flat ∧
          ∀ f, w.fine = some f → ∀ k n, (k, n) ∈ f → AllMade c (calls ++ [⟨op, ins, outs⟩]) n := by
        intro w hw
        obtain ⟨n, _, d, hd, _, h2⟩ := exists_left hins hw
        have := (ih d hd).1 w (List.mem_of_getElem? h2)
        exact ⟨fun s hs => (this.1 s hs).mono, fun f hf k n hn s hs => (this.2 f hf k n hn s hs).mono⟩
      have hmem : (⟨op, ins, outs⟩ : Call Op (View Op)) ∈ calls ++ [⟨op, ins, outs⟩] := by simp
      have hm := visit_makes hw
      obtain ⟨next, hnext, hch⟩ := hm.flat
      intro v hv
      obtain ⟨i, hi⟩ := hnext v hv
      constructor
      · rw [hi]
        intro s hs
        cases hs with
        | refl => exact .flat (call := ⟨op, ins, outs⟩) i hmem hv hi
        | op hmn hs =>
          rcases hch with hch | ⟨l, rfl, hl⟩
          · obtain ⟨w, hw, rfl⟩ := hch _ hmn
            exact (hold w hw).1 s hs
          · have := List.mem_singleton.1 hmn
            subst this
            cases hs with
            | refl => exact .flatten (call := ⟨op, ins, outs⟩) hmem hv hi
            | flatten hm' hs =>
              obtain ⟨w, hw, f, hf, k, hk⟩ := hl _ hm'
              exact (hold w hw).2 f hf k _ hk s hs
      · intro f hf k n hn s hs
        obtain ⟨h1, h2⟩ := hm.fine v hv f hf
        obtain ⟨j, hj⟩ := List.getElem?_of_mem hn
        rcases h2 j k n hj with ⟨key, rfl⟩ | ⟨ns, rfl, hns⟩
        · cases hs with
          | refl => exact .decode (call := ⟨op, ins, outs⟩) hmem h1 hf hj
        · cases hs with
          | refl => exact .step (call := ⟨op, ins, outs⟩) hmem h1 hf hj
          | op hm' hs =>
            rcases hns _ hm' with ⟨w, hw, rfl⟩ | ⟨w, hw, f', hf', k', hk'⟩ | ⟨rfl, hk⟩
            · exact (hold w hw).1 s hs
            · exact (hold w hw).2 f' hf' k' _ hk' s hs
            · cases hs with
              | refl => exact .input hk

theorem nodup_map_inj {α β : Type} {f : α → β} {l : List α} (h : (l.map f).Nodup) {a b : α}
    (ha : a ∈ l) (hb : b ∈ l) (hab : f a = f b) : a = b := by
  induction l with
  | nil => simp at ha
  | cons x l ih =>
    simp only [List.map_cons, List.nodup_cons] at h
    rcases List.mem_cons.1 ha with rfl | ha
    · rcases List.mem_cons.1 hb with rfl | hb
      · rfl
      · exact absurd (List.mem_map.2 ⟨b, hb, hab.symm⟩) h.1
    · rcases List.mem_cons.1 hb with hbx | hb
      · rw [← hbx] at h
        exact absurd (List.mem_map.2 ⟨a, ha, hab⟩) h.1
      · exact ih h.2 ha hb

theorem made_unique {c : Config Op Coll} {g : OpGraph Op} {calls : List (Call Op (View Op))}
    (hp : Proper g c.visitor calls) {s t : Node Op} (hs : Made c calls s) (ht : Made c calls t)
    (hl : s.label = t.label) : SameOperation s t := by
  have hone : ∀ {a b : Call Op (View Op)}, a ∈ calls → b ∈ calls → a.op = b.op → a = b :=
    fun ha hb h => nodup_map_inj hp.nodup ha hb h
  have hflat : ∀ call ∈ calls, ∃ next, ∀ v ∈ call.outs, ∃ i, v.flat = .op call.op none next i := by
    intro call hcall
    obtain ⟨ws, hw⟩ := (all_made hp call hcall).2
    obtain ⟨next, h, _⟩ := (visit_makes hw).flat
    exact ⟨next, h⟩
  cases hs with
  | @flat call v next i j h1 h2 h3 =>
    cases ht with
    | @flat call' v' next' i' j' h1' h2' h3' =>
      simp only [Node.label, Label.op.injEq, and_true] at hl
      have := hone h1 h1' hl
      subst this
      obtain ⟨nx, hnx⟩ := hflat call h1
      obtain ⟨a, ha⟩ := hnx v h2
      obtain ⟨b, hb⟩ := hnx v' h2'
      rw [h3] at ha
      rw [h3'] at hb
      cases ha
      cases hb
      exact Or.inr ⟨_, _, _, _, _, rfl, rfl⟩
    | step => simp [Node.label] at hl
    | _ => simp [Node.label] at hl
  | @flatten call v l i h1 h2 h3 =>
    cases ht with
    | @flatten call' v' l' i' h1' h2' h3' =>
      simp only [Node.label, Label.flatten.injEq] at hl
      have := hone h1 h1' hl
      subst this
      obtain ⟨nx, hnx⟩ := hflat call h1
      obtain ⟨a, ha⟩ := hnx v h2
      obtain ⟨b, hb⟩ := hnx v' h2'
      rw [h3] at ha
      rw [h3'] at hb
      cases ha
      cases hb
      exact Or.inl rfl
    | _ => simp [Node.label] at hl
  | @decode call v f j k k1 key h1 h2 h3 h4 =>
    cases ht with
    | @decode call' v' f' j' k' k1' key' h1' h2' h3' h4' =>
      simp only [Node.label, Label.decode.injEq] at hl
      obtain ⟨hl, rfl⟩ := hl
      have := hone h1 h1' hl
      subst this
      rw [h2] at h2'
      cases h2'
      rw [h3] at h3'
      cases h3'
      rw [h4] at h4'
      cases h4'
      exact Or.inl rfl
    | _ => simp [Node.label] at hl
  | @step call v f j k ns h1 h2 h3 h4 =>
    cases ht with
    | @step call' v' f' j' k' ns' h1' h2' h3' h4' =>
      simp only [Node.label, Label.op.injEq, Option.some.injEq] at hl
      obtain ⟨hl, rfl⟩ := hl
      have := hone h1 h1' hl
      subst this
      rw [h2] at h2'
      cases h2'
      rw [h3] at h3'
      cases h3'
      rw [h4] at h4'
      cases h4'
      exact Or.inl rfl
    | _ => simp [Node.label] at hl
  | @encode call v f j k n h1 h2 h3 h4 =>
    cases ht with
    | @encode call' v' f' j' k' n' h1' h2' h3' h4' =>
      simp only [Node.label, Label.encode.injEq] at hl
      obtain ⟨hl, rfl⟩ := hl
      have := hone h1 h1' hl
      subst this
      rw [h2] at h2'
      cases h2'
      rw [h3] at h3'
      cases h3'
      rw [h4] at h4'
      cases h4'
      exact Or.inl rfl
    | _ => simp [Node.label] at hl
  | @input j k h =>
    cases ht with
    | @input j' k' h' =>
      simp only [Node.label, Label.input.injEq] at hl
      subst hl
      rw [h] at h'
      cases h'
      exact Or.inl rfl
    | _ => simp [Node.label] at hl

/-- **C60.** In the optimized graph, together with the nodes for the output cache, two operations
with the same label are the same operation. -/
theorem labels_are_unique [DecidableEq Op] [Fintype Op] {c : Config Op Coll} {g : OpGraph Op}
    (hg : WellFormed g) {target : Op × Nat} (ht : target.2 < g.numOutputs target.1)
    {node : Node Op} {ws : List (Write Op)} (h : c.optimize g target = .ok (node, ws))
    {s t : Node Op} (hs : Sub s node ∨ ∃ w ∈ ws, Sub s w.2) (ht' : Sub t node ∨ ∃ w ∈ ws, Sub t w.2)
    (hl : s.label = t.label) : SameOperation s t := by
  unfold Config.optimize at h
  obtain ⟨⟨st, views⟩, h1, h⟩ := bind_ok_iff.1 h
  obtain ⟨hp, _, hprod⟩ := traverse_spec g hg c.visitor [target] (by simpa using ht) st _ h1
  have key : ∀ s, (Sub s node ∨ ∃ w ∈ ws, Sub s w.2) → Made c st.calls s := by
    intro s hs
    simp only at h
    split at h
    · cases h
      rcases hs with hs | ⟨w, hw, hs⟩
      · obtain ⟨v, hv, d, hd, _, h2⟩ := forall₂_one hprod
        cases hv
        exact ((all_made hp d hd).1 _ (List.mem_of_getElem? h2)).1 s hs
      · obtain ⟨call, hcall, hw⟩ := List.mem_flatMap.1 hw
        obtain ⟨h2, ws', h3⟩ := all_made hp call hcall
        simp only [Config.writesOf, h3] at hw
        obtain ⟨v, f, hv, hf, j, k, n, hj, hwn⟩ := (visit_makes h3).writes w hw
        rw [hwn] at hs
        cases hs with
        | refl => exact .encode hcall hv hf hj
        | encode hs => exact (h2 v (by rw [hv]; simp)).2 f hf k n (List.mem_of_getElem? hj) s hs
    · cases h
  exact made_unique hp (key s hs) (key t ht') hl

end TFT.Graph.Optimize
