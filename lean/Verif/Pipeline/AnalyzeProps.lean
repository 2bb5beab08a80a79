import Verif.Pipeline.Analyze
import Verif.Combine.PackedLemmas
import Verif.Combine.PerKeyLemmas

/-!
# The analysis of a dataset computes what the `preprocessing_fn` means (C66)

The specification does not mention phases, names of placeholders in other traces, or temporary
values: an assignment of values to analyzers is *the results* if every analyzer, applied to the
values that its inputs have under this assignment for every batch, gives the value assigned to it;
and the transform function must compute the outputs of the `preprocessing_fn` under the results.
-/

namespace TFT.Analyze

variable {V Op An : Type}

/-! ## Specification -/

mutual
/-- The value of a tensor for one batch when the analyzers have the results `σ`. -/
def Tensor.value (m : Meaning V Op An) (σ : String → V) (batch : List (String × V)) :
    Tensor Op → Except Err V
  | .input key => match batch.lookup key with
    | some v => .ok v
    | none => .error "KeyError"
  | .op o ins => (Tensor.values m σ batch ins).bind (m.op o)
  | .sink name => .ok (σ name)
def Tensor.values (m : Meaning V Op An) (σ : String → V) (batch : List (String × V)) :
    List (Tensor Op) → Except Err (List V)
  | [] => .ok []
  | t :: ts => (Tensor.value m σ batch t).bind fun v =>
      (Tensor.values m σ batch ts).bind fun vs => .ok (v :: vs)
end

mutual
/-- The analyzers whose results a tensor uses. -/
def Tensor.analyzers : Tensor Op → List String
  | .input _ => []
  | .op _ ins => Tensor.analyzersOf ins
  | .sink name => [name]
def Tensor.analyzersOf : List (Tensor Op) → List String
  | [] => []
  | t :: ts => t.analyzers ++ Tensor.analyzersOf ts
end

mutual
/-- The inputs of the `preprocessing_fn` that a tensor is computed from. -/
def Tensor.inputs : Tensor Op → List String
  | .input key => [key]
  | .op _ ins => Tensor.inputsOf ins
  | .sink _ => []
def Tensor.inputsOf : List (Tensor Op) → List String
  | [] => []
  | t :: ts => t.inputs ++ Tensor.inputsOf ts
end

/-- The tensor called `n` has the value `v` for a batch. -/
def HasValue (m : Meaning V Op An) (tr : Trace Op An) (σ : String → V) (batch : List (String × V))
    (n : String) (v : V) : Prop :=
  ∃ t, (n, t) ∈ tr.tensors ∧ t.value m σ batch = .ok v

/-- The analyzer `s`, applied to the values of its inputs for all batches, gives `v`. -/
def SinkResult (m : Meaning V Op An) (tr : Trace Op An) (batches : List (List (String × V)))
    (σ : String → V) (s : Sink An) (v : V) : Prop :=
  ∃ rows, List.Forall₂ (fun b row => List.Forall₂ (HasValue m tr σ b) s.ins row) batches rows ∧
    m.analyze s.analyzer rows = .ok v

/-- `σ` are the results of the analyzers of a `preprocessing_fn` on a dataset. -/
def Results (m : Meaning V Op An) (tr : Trace Op An) (batches : List (List (String × V)))
    (σ : String → V) : Prop :=
  ∀ s ∈ tr.sinks, SinkResult m tr batches σ s (σ s.name)

/-- `out` are the outputs of the `preprocessing_fn` for a batch under the results `σ`. -/
def OutputsAre (m : Meaning V Op An) (tr : Trace Op An) (σ : String → V)
    (batch : List (String × V)) (out : List (String × V)) : Prop :=
  List.Forall₂ (fun o kv => kv.1 = o.1 ∧ HasValue m tr σ batch o.2 kv.2) tr.outputs out

/-- What TensorFlow guarantees about a graph: names are unique, and an analyzer is created after
the analyzers that its inputs use. -/
structure WellFormed (tr : Trace Op An) : Prop where
  tensors : (tr.tensors.map Prod.fst).Nodup
  sinks : (tr.sinks.map Sink.name).Nodup
  ordered : ∀ pre s post, tr.sinks = pre ++ s :: post → ∀ n ∈ s.ins,
    ∃ t, (n, t) ∈ tr.tensors ∧ ∀ x ∈ t.analyzers, x ∈ pre.map Sink.name
  outputs : ∀ o ∈ tr.outputs,
    ∃ t, (o.2, t) ∈ tr.tensors ∧ ∀ x ∈ t.analyzers, x ∈ tr.sinks.map Sink.name

/-- Two traces differ at most in the order in which tensors and analyzers were created: every
tensor and every analyzer has the same name in both. -/
structure SameUpToOrder (first again : Trace Op An) : Prop where
  tensors : again.tensors.Perm first.tensors
  outputs : again.outputs = first.outputs
  sinks : again.sinks.Perm first.sinks

/-! ## Lemmas -/

theorem lookup_iff {β : Type} (l : List (String × β)) (h : (l.map Prod.fst).Nodup) (n : String)
    (v : β) : l.lookup n = some v ↔ (n, v) ∈ l := by
  induction l with
  | nil => simp
  | cons a l ih =>
    obtain ⟨k, w⟩ := a
    simp only [List.map_cons, List.nodup_cons] at h
    rw [List.lookup_cons]
    by_cases hk : n = k
    · subst hk
      simp only [beq_self_eq_true, if_true, List.mem_cons]
      constructor
      · intro e
        simp only [Option.some.injEq] at e
        simp [e]
      · rintro (e | e)
        · simp only [Prod.mk.injEq, true_and] at e
          simp [e]
        · exact absurd (List.mem_map_of_mem (f := Prod.fst) e) h.1
    · have : (n == k) = false := by simpa using hk
      simp only [this, List.mem_cons, Prod.mk.injEq, hk, false_and, false_or]
      exact ih h.2

theorem lookup_none {β : Type} (l : List (String × β)) (n : String) :
    l.lookup n = none ↔ n ∉ l.map Prod.fst := by
  induction l with
  | nil => simp
  | cons a l ih =>
    obtain ⟨k, w⟩ := a
    rw [List.lookup_cons]
    by_cases hk : n = k
    · subst hk; simp
    · have : (n == k) = false := by simpa using hk
      simp only [this, List.map_cons, List.mem_cons, hk, false_or]
      exact ih

theorem lookup_append_left {β : Type} (l r : List (String × β)) (n : String)
    (h : n ∈ l.map Prod.fst) : (l ++ r).lookup n = l.lookup n := by
  induction l with
  | nil => simp at h
  | cons a l ih =>
    obtain ⟨k, w⟩ := a
    rw [List.cons_append, List.lookup_cons, List.lookup_cons]
    by_cases hk : n = k
    · subst hk; simp
    · have : (n == k) = false := by simpa using hk
      simp only [this]
      simp only [List.map_cons, List.mem_cons, hk, false_or] at h
      exact ih h

mutual
theorem eval_eq (m : Meaning V Op An) (bound : List (String × V)) (σ : String → V)
    (b : List (String × V)) : (t : Tensor Op) →
    (∀ x ∈ t.analyzers, bound.lookup x = some (σ x)) → t.eval m bound b = t.value m σ b
  | .input key, _ => by
    simp only [Tensor.eval, Tensor.value]
    cases b.lookup key <;> rfl
  | .op o ins, h => by
    simp only [Tensor.eval, Tensor.value]
    rw [evals_eq m bound σ b ins (by simpa [Tensor.analyzers] using h)]
  | .sink name, h => by
    simp only [Tensor.eval, Tensor.value]
    rw [h name (by simp [Tensor.analyzers])]
theorem evals_eq (m : Meaning V Op An) (bound : List (String × V)) (σ : String → V)
    (b : List (String × V)) : (ts : List (Tensor Op)) →
    (∀ x ∈ Tensor.analyzersOf ts, bound.lookup x = some (σ x)) →
    Tensor.evals m bound b ts = Tensor.values m σ b ts
  | [], _ => by simp [Tensor.evals, Tensor.values]
  | t :: ts, h => by
    simp only [Tensor.evals, Tensor.values]
    rw [eval_eq m bound σ b t (fun x hx => h x (by simp [Tensor.analyzersOf, hx])),
      evals_eq m bound σ b ts (fun x hx => h x (by simp [Tensor.analyzersOf, hx]))]
end

mutual
theorem ready_iff (known : List String) : (t : Tensor Op) →
    (t.ready known = true ↔ ∀ x ∈ t.analyzers, x ∈ known)
  | .input _ => by simp [Tensor.ready, Tensor.analyzers]
  | .op _ ins => by
    simp only [Tensor.ready, Tensor.analyzers]
    exact readys_iff known ins
  | .sink name => by simp [Tensor.ready, Tensor.analyzers]
theorem readys_iff (known : List String) : (ts : List (Tensor Op)) →
    (Tensor.readys known ts = true ↔ ∀ x ∈ Tensor.analyzersOf ts, x ∈ known)
  | [] => by simp [Tensor.readys, Tensor.analyzersOf]
  | t :: ts => by
    simp only [Tensor.readys, Tensor.analyzersOf, Bool.and_eq_true, List.mem_append]
    rw [ready_iff known t, readys_iff known ts]
    constructor
    · rintro ⟨h1, h2⟩ x (hx | hx)
      · exact h1 x hx
      · exact h2 x hx
    · exact fun h => ⟨fun x hx => h x (.inl hx), fun x hx => h x (.inr hx)⟩
end

mutual
theorem reads_iff (key : String) : (t : Tensor Op) → (t.reads key = true ↔ key ∈ t.inputs)
  | .input k => by
    simp only [Tensor.reads, Tensor.inputs, beq_iff_eq, List.mem_singleton]
    exact eq_comm
  | .op _ ins => by
    simp only [Tensor.reads, Tensor.inputs]
    exact readsAny_iff key ins
  | .sink _ => by simp [Tensor.reads, Tensor.inputs]
theorem readsAny_iff (key : String) : (ts : List (Tensor Op)) →
    (Tensor.readsAny key ts = true ↔ key ∈ Tensor.inputsOf ts)
  | [] => by simp [Tensor.readsAny, Tensor.inputsOf]
  | t :: ts => by
    simp only [Tensor.readsAny, Tensor.inputsOf, Bool.or_eq_true, List.mem_append]
    rw [reads_iff key t, readsAny_iff key ts]
end

theorem validate_iff (base fp : List (String × List String)) :
    validate base fp = .ok () ↔ ∀ e ∈ fp, base.lookup e.1 = some e.2 := by
  induction fp with
  | nil => simp [validate]
  | cons e fp ih =>
    obtain ⟨n, s⟩ := e
    simp only [validate, List.mem_cons, forall_eq_or_imp]
    cases hl : base.lookup n with
    | none => simp
    | some s' =>
      by_cases hs : s' = s
      · simp [hs, ih]
      · simp [hs]

theorem tensor_same (first again : Trace Op An) (h : SameUpToOrder first again)
    (hw : (first.tensors.map Prod.fst).Nodup) (n : String) :
    again.tensors.lookup n = first.tensors.lookup n := by
  have hw' : (again.tensors.map Prod.fst).Nodup := (h.tensors.map _).nodup_iff.2 hw
  cases hl : first.tensors.lookup n with
  | none =>
    rw [lookup_none] at hl ⊢
    exact fun hc => hl ((h.tensors.map _).mem_iff.1 hc)
  | some t =>
    rw [lookup_iff _ hw] at hl
    rw [lookup_iff _ hw']
    exact h.tensors.mem_iff.2 hl

theorem seqExcept_map_iff {α β : Type} (l : List α) (f : α → Except Err β) (ys : List β) :
    seqExcept (l.map f) = .ok ys ↔ List.Forall₂ (fun x y => f x = .ok y) l ys := by
  rw [seqExcept_ok_iff, List.forall₂_map_left_iff]

theorem forall₂_congr_mem {α β : Type} {R S : α → β → Prop} {l : List α} {r : List β}
    (h : ∀ a ∈ l, ∀ b, R a b ↔ S a b) : List.Forall₂ R l r ↔ List.Forall₂ S l r := by
  induction l generalizing r with
  | nil => cases r <;> simp
  | cons a l ih =>
    cases r with
    | nil => simp
    | cons b r =>
      rw [List.forall₂_cons, List.forall₂_cons, h a (by simp) b,
        ih (fun x hx => h x (by simp [hx]))]

/-- Fetching a tensor whose analyzers are all bound gives its value. -/
theorem fetch_one (m : Meaning V Op An) (first again : Trace Op An)
    (hs : SameUpToOrder first again) (hw : WellFormed first) (bound : List (String × V))
    (σ : String → V) (hσ : ∀ x ∈ bound.map Prod.fst, bound.lookup x = some (σ x))
    (b : List (String × V)) (n : String) (t : Tensor Op) (ht : (n, t) ∈ first.tensors)
    (hr : ∀ x ∈ t.analyzers, x ∈ bound.map Prod.fst) (v : V) :
    ((again.tensor n).bind (Tensor.eval m bound b) = .ok v) ↔ HasValue m first σ b n v := by
  have hl := (lookup_iff _ hw.tensors n t).2 ht
  unfold Trace.tensor
  rw [tensor_same first again hs hw.tensors, hl]
  simp only [Except.bind]
  rw [eval_eq m bound σ b t (fun x hx => hσ x (hr x hx))]
  constructor
  · exact fun h => ⟨t, ht, h⟩
  · rintro ⟨t', ht', h⟩
    have hl' := (lookup_iff _ hw.tensors n t').2 ht'
    rw [hl] at hl'
    cases hl'
    exact h

theorem sinkReady_iff (tr : Trace Op An) (hw : WellFormed tr) (known : List String) (s : Sink An) :
    tr.sinkReady known s = true ↔
      ∀ n ∈ s.ins, ∃ t, (n, t) ∈ tr.tensors ∧ ∀ x ∈ t.analyzers, x ∈ known := by
  unfold Trace.sinkReady
  rw [List.all_eq_true]
  refine forall₂_congr fun n hn => ?_
  cases hl : tr.tensors.lookup n with
  | none =>
    rw [lookup_none] at hl
    constructor
    · intro h; simp at h
    · rintro ⟨t, ht, -⟩
      exact absurd (List.mem_map_of_mem (f := Prod.fst) ht) hl
  | some t =>
    simp only
    rw [ready_iff]
    constructor
    · exact fun h => ⟨t, (lookup_iff _ hw.tensors n t).1 hl, h⟩
    · rintro ⟨t', ht', h⟩
      have := (lookup_iff _ hw.tensors n t').2 ht'
      rw [hl] at this
      cases this
      exact h

/-- One analyzer of a phase gets the result that it should get. -/
theorem bindSink_iff (m : Meaning V Op An)
    (first again : Trace Op An) (hs : SameUpToOrder first again) (hw : WellFormed first)
    (bound : List (String × V)) (σ : String → V)
    (hσ : ∀ x ∈ bound.map Prod.fst, bound.lookup x = some (σ x))
    (data : List (List (String × V)))
    (hopen : ∃ s ∈ first.sinks, s.name ∉ bound.map Prod.fst)
    (s : Sink An) (hr : first.sinkReady (bound.map Prod.fst) s = true) (kv : String × V) :
    bindSink m again bound data s = .ok kv ↔
      kv.1 = s.name ∧ SinkResult m first data σ s kv.2 := by
  have hc : again.complete bound = false := by
    obtain ⟨s', hs', hn⟩ := hopen
    unfold Trace.complete
    rw [← Bool.not_eq_true, List.all_eq_true]
    intro hall
    have := hall s' (hs.sinks.mem_iff.2 hs')
    rw [List.contains_iff_mem] at this
    exact hn this
  have hf : ∀ (b : List (String × V)) (row : List V),
      intermediate m again bound b s.ins = .ok row ↔
        List.Forall₂ (HasValue m first σ b) s.ins row := by
    intro b row
    unfold intermediate
    rw [hc]
    simp only [Bool.false_eq_true, if_false]
    unfold Trace.fetch
    rw [seqExcept_map_iff]
    refine forall₂_congr_mem fun n hn v => ?_
    obtain ⟨t, ht, hx⟩ := (sinkReady_iff first hw _ s).1 hr n hn
    exact fetch_one m first again hs hw bound σ hσ b n t ht hx v
  have hrows : ∀ (d : List (List (String × V))) (rows : List (List V)),
      seqExcept (d.map fun b => intermediate m again bound b s.ins) = .ok rows ↔
        List.Forall₂ (fun b row => List.Forall₂ (HasValue m first σ b) s.ins row) d rows := by
    intro d rows
    rw [seqExcept_map_iff]
    exact forall₂_congr_mem fun b _ row => hf b row
  unfold bindSink SinkResult
  rw [show (Except.bind (seqExcept (data.map fun b => intermediate m again bound b s.ins)) fun rows =>
      Except.bind (m.analyze s.analyzer rows) fun v => Except.ok (s.name, v)) = (do
        let rows ← seqExcept (data.map fun b => intermediate m again bound b s.ins)
        let v ← m.analyze s.analyzer rows
        Except.ok (s.name, v)) from rfl]
  rw [bind_ok_iff]
  constructor
  · rintro ⟨rows, h1, h2⟩
    obtain ⟨v, h3, h4⟩ := bind_ok_iff.1 h2
    simp only [Except.ok.injEq] at h4
    subst h4
    refine ⟨rfl, ?_⟩
    exact ⟨rows, (hrows _ _).1 h1, h3⟩
  · rintro ⟨h0, rows, h1, h2⟩
    refine ⟨rows, (hrows _ _).2 h1, ?_⟩
    rw [h2]
    show Except.ok _ = _
    rw [← h0]

/-- An analyzer that does not depend on the order of the batches has the same result for every
order. -/
theorem sinkResult_perm (m : Meaning V Op An)
    (hperm : ∀ a xs ys, xs.Perm ys → m.analyze a xs = m.analyze a ys)
    (tr : Trace Op An) (data batches : List (List (String × V))) (hd : data.Perm batches)
    (σ : String → V) (s : Sink An) (v : V) :
    SinkResult m tr data σ s v ↔ SinkResult m tr batches σ s v := by
  constructor
  · rintro ⟨rows, h1, h2⟩
    obtain ⟨rows', hp, hr'⟩ := (List.perm_comp_forall₂ hd.symm h1)
    exact ⟨_, hp, by rw [← hperm _ _ _ hr'.symm]; exact h2⟩
  · rintro ⟨rows, h1, h2⟩
    obtain ⟨rows', hp, hr'⟩ := (List.perm_comp_forall₂ hd h1)
    exact ⟨_, hp, by rw [hperm _ _ _ hr', h2]⟩

theorem bindSink_name (m : Meaning V Op An) (again : Trace Op An) (bound : List (String × V))
    (data : List (List (String × V))) (s : Sink An) (kv : String × V)
    (h : bindSink m again bound data s = .ok kv) :
    kv.1 = s.name ∧ ∃ rows, m.analyze s.analyzer rows = .ok kv.2 := by
  unfold bindSink at h
  cases h1 : seqExcept (data.map fun b => intermediate m again bound b s.ins) with
  | error e => rw [h1] at h; simp [Except.bind] at h
  | ok rows =>
    rw [h1] at h
    simp only [Except.bind] at h
    cases h2 : m.analyze s.analyzer rows with
    | error e => rw [h2] at h; simp at h
    | ok v =>
      rw [h2] at h
      simp only [Except.ok.injEq] at h
      rw [← h]
      exact ⟨rfl, rows, h2⟩

theorem first_of {α : Type} (P : α → Prop) (l : List α) (h : ∃ x ∈ l, P x) :
    ∃ pre s post, l = pre ++ s :: post ∧ P s ∧ ∀ x ∈ pre, ¬ P x := by
  induction l with
  | nil => simp at h
  | cons a l ih =>
    by_cases ha : P a
    · exact ⟨[], a, l, rfl, ha, by simp⟩
    · obtain ⟨x, hx, hP⟩ := h
      rcases List.mem_cons.1 hx with rfl | hx
      · exact absurd hP ha
      · obtain ⟨pre, s, post, he, hs, hp⟩ := ih ⟨x, hx, hP⟩
        refine ⟨a :: pre, s, post, by rw [he]; rfl, hs, ?_⟩
        intro y hy
        rcases List.mem_cons.1 hy with rfl | hy
        · exact ha
        · exact hp y hy

/-- The invariant of the loop over phases. -/
structure Inv (first : Trace Op An) (todo : List (Sink An)) (bound : List (String × V)) : Prop where
  sub : todo.Sublist first.sinks
  keys : ∀ s ∈ first.sinks, s.name ∈ bound.map Prod.fst ↔ s ∉ todo
  only : ∀ x ∈ bound.map Prod.fst, x ∈ first.sinks.map Sink.name
  nodup : (bound.map Prod.fst).Nodup

theorem name_inj (tr : Trace Op An) (hw : WellFormed tr) (s s' : Sink An) (h : s ∈ tr.sinks)
    (h' : s' ∈ tr.sinks) (he : s.name = s'.name) : s = s' :=
  List.inj_on_of_nodup_map hw.sinks h h' he

theorem inv_open (first : Trace Op An) (todo : List (Sink An)) (bound : List (String × V))
    (hi : Inv first todo bound) (ht : todo ≠ []) :
    ∃ s ∈ first.sinks, s.name ∉ bound.map Prod.fst := by
  obtain ⟨s, hs⟩ := List.exists_mem_of_ne_nil _ ht
  exact ⟨s, hi.sub.subset hs, fun hc => (hi.keys s (hi.sub.subset hs)).1 hc hs⟩

theorem inv_progress (first : Trace Op An) (hw : WellFormed first) (todo : List (Sink An))
    (bound : List (String × V)) (hi : Inv first todo bound) (ht : todo ≠ []) :
    ¬ (first.ready bound todo).isEmpty = true := by
  obtain ⟨s0, hs0⟩ := List.exists_mem_of_ne_nil _ ht
  obtain ⟨pre, s, post, he, hs, hp⟩ := first_of (fun x => x ∈ todo) first.sinks
    ⟨s0, hi.sub.subset hs0, hs0⟩
  have hr : s ∈ first.ready bound todo := by
    unfold Trace.ready
    rw [List.mem_filter]
    refine ⟨hs, (sinkReady_iff first hw _ s).2 ?_⟩
    intro n hn
    obtain ⟨t, ht, hx⟩ := hw.ordered pre s post he n hn
    refine ⟨t, ht, fun x hxm => ?_⟩
    obtain ⟨s', hs', rfl⟩ := List.mem_map.1 (hx x hxm)
    exact (hi.keys s' (by rw [he]; simp [hs'])).2 (hp s' hs')
  intro hc
  rw [List.isEmpty_iff] at hc
  rw [hc] at hr
  simp at hr

theorem inv_step (first : Trace Op An) (hw : WellFormed first) (todo : List (Sink An))
    (bound new : List (String × V)) (hi : Inv first todo bound)
    (hn : new.map Prod.fst = (first.ready bound todo).map Sink.name) :
    Inv first (first.waiting bound todo) (bound ++ new) := by
  have hsubr : (first.ready bound todo).Sublist first.sinks :=
    List.filter_sublist.trans hi.sub
  have hmemr : ∀ s ∈ first.sinks, s.name ∈ (first.ready bound todo).map Sink.name ↔
      s ∈ first.ready bound todo := by
    intro s hs
    constructor
    · intro h
      obtain ⟨s', hs', he⟩ := List.mem_map.1 h
      rw [← name_inj first hw s' s (hsubr.subset hs') hs he]
      exact hs'
    · exact fun h => List.mem_map_of_mem h
  refine ⟨List.filter_sublist.trans hi.sub, ?_, ?_, ?_⟩
  · intro s hs
    rw [List.map_append, List.mem_append, hn, hmemr s hs, hi.keys s hs]
    unfold Trace.ready Trace.waiting
    rw [List.mem_filter, List.mem_filter]
    by_cases h1 : s ∈ todo <;> by_cases h2 : first.sinkReady (bound.map Prod.fst) s = true <;>
      simp [h1, h2]
  · intro x hx
    rw [List.map_append, List.mem_append, hn] at hx
    rcases hx with hx | hx
    · exact hi.only x hx
    · exact (hsubr.map Sink.name).subset hx
  · rw [List.map_append, hn, List.nodup_append]
    refine ⟨hi.nodup, (hsubr.map Sink.name).nodup hw.sinks, ?_⟩
    intro x hx y hy hxy
    subst hxy
    obtain ⟨s, hs, rfl⟩ := List.mem_map.1 hy
    have hst : s ∈ todo := List.mem_of_mem_filter hs
    exact (hi.keys s (hsubr.subset hs)).1 hx hst

theorem same_valid (first again : Trace Op An) (keys : List String) (hw : WellFormed first)
    (hs : SameUpToOrder first again) :
    validate (first.fingerprint keys) (again.fingerprint keys) = .ok () := by
  rw [validate_iff]
  intro e he
  obtain ⟨s, hs', rfl⟩ := List.mem_map.1 he
  have hkeys : (first.fingerprint keys).map Prod.fst = first.sinks.map Sink.name := by
    unfold Trace.fingerprint
    rw [List.map_map]
    rfl
  rw [lookup_iff _ (by rw [hkeys]; exact hw.sinks)]
  have : again.sourceKeys keys s = first.sourceKeys keys s := by
    unfold Trace.sourceKeys
    congr 1
    funext k
    congr 1
    funext n
    rw [tensor_same first again hs hw.tensors]
  rw [this]
  exact List.mem_map_of_mem (f := fun s => (s.name, first.sourceKeys keys s))
    (hs.sinks.mem_iff.1 hs')

theorem agree_append (bound new : List (String × V)) (σ : String → V)
    (h : ∀ x ∈ (bound ++ new).map Prod.fst, (bound ++ new).lookup x = some (σ x)) :
    ∀ x ∈ bound.map Prod.fst, bound.lookup x = some (σ x) := by
  intro x hx
  rw [← lookup_append_left bound new x hx]
  exact h x (by rw [List.map_append, List.mem_append]; exact .inl hx)

theorem phases_ok (m : Meaning V Op An)
    (keys : List String) (first : Trace Op An) (hw : WellFormed first)
    (retrace : Nat → Trace Op An) (hs : ∀ p, SameUpToOrder first (retrace p))
    (data : Nat → List (List (String × V))) (σ : String → V)
    (hσ : ∀ p, Results m first (data p) σ)
    (k : Nat) : ∀ (p : Nat) (todo : List (Sink An)) (bound : List (String × V)),
    todo.length ≤ k → Inv first todo bound →
    (∀ x ∈ bound.map Prod.fst, bound.lookup x = some (σ x)) →
    ∃ P bound', phases m keys first retrace data p todo bound = .ok (P, bound') ∧
      P ≤ p + todo.length ∧
      Inv first [] bound' ∧ ∀ x ∈ bound'.map Prod.fst, bound'.lookup x = some (σ x) := by
  induction k with
  | zero =>
    intro p todo bound hk hi ha
    have : todo = [] := List.length_eq_zero_iff.1 (Nat.le_zero.1 hk)
    subst this
    refine ⟨p, bound, ?_, by simp, hi, ha⟩
    rw [phases]
    simp
  | succ k ih =>
    intro p todo bound hk hi ha
    by_cases ht : todo = []
    · subst ht
      refine ⟨p, bound, ?_, by simp, hi, ha⟩
      rw [phases]
      simp
    · have hne := inv_progress first hw todo bound hi ht
      have hopen := inv_open first todo bound hi ht
      have hb : ∀ s ∈ first.ready bound todo,
          bindSink m (retrace p) bound (data p) s = .ok (s.name, σ s.name) := by
        intro s hsr
        have hst : s ∈ todo := List.mem_of_mem_filter hsr
        have hrd : first.sinkReady (bound.map Prod.fst) s = true := (List.mem_filter.1 hsr).2
        exact (bindSink_iff m first (retrace p) (hs p) hw bound σ ha (data p)
          hopen s hrd _).2 ⟨rfl, hσ p s (hi.sub.subset hst)⟩
      have hseq := seqExcept_ok_map (first.ready bound todo)
        (bindSink m (retrace p) bound (data p)) (fun s => (s.name, σ s.name)) hb
      have hi' := inv_step first hw todo bound
        ((first.ready bound todo).map fun s => (s.name, σ s.name)) hi (by
          rw [List.map_map]; rfl)
      have hlt := waiting_lt first bound todo hne
      obtain ⟨P, bound', h1, h2, h3, h4⟩ := ih (p + 1) (first.waiting bound todo)
        (bound ++ (first.ready bound todo).map fun s => (s.name, σ s.name)) (by omega) hi' (by
          intro x hx
          rw [lookup_iff _ hi'.nodup]
          rw [List.map_append, List.mem_append] at hx
          rw [List.mem_append]
          rcases hx with hx | hx
          · exact .inl ((lookup_iff _ hi.nodup _ _).1 (ha x hx))
          · rw [List.map_map] at hx
            obtain ⟨s, hs1, rfl⟩ := List.mem_map.1 hx
            exact .inr (List.mem_map_of_mem (f := fun s : Sink An => (s.name, σ s.name)) hs1))
      refine ⟨P, bound', ?_, by omega, h3, h4⟩
      rw [phases, if_neg (by simpa using ht), dif_neg hne, same_valid first _ keys hw (hs p), hseq]
      exact h1

theorem forall₂_mem_right {α β : Type} {R : α → β → Prop} {l : List α} {r : List β}
    (h : List.Forall₂ R l r) : ∀ b ∈ r, ∃ a ∈ l, R a b := by
  induction h with
  | nil => simp
  | @cons a b l r hab _ ih =>
    intro x hx
    rcases List.mem_cons.1 hx with rfl | hx
    · exact ⟨a, by simp, hab⟩
    · obtain ⟨a', ha', h'⟩ := ih x hx
      exact ⟨a', by simp [ha'], h'⟩

theorem names_of {l : List (Sink An)} {new : List (String × V)}
    (h : List.Forall₂ (fun (s : Sink An) (kv : String × V) => kv.1 = s.name) l new) :
    new.map Prod.fst = l.map Sink.name := by
  induction h with
  | nil => rfl
  | cons h _ ih => rw [List.map_cons, List.map_cons, h, ih]

theorem phases_sound (m : Meaning V Op An)
    (keys : List String) (first : Trace Op An) (hw : WellFormed first)
    (retrace : Nat → Trace Op An) (hs : ∀ p, SameUpToOrder first (retrace p))
    (data : Nat → List (List (String × V)))
    (k : Nat) : ∀ (p : Nat) (todo : List (Sink An)) (bound : List (String × V)) (P : Nat)
    (bound' : List (String × V)), todo.length ≤ k → Inv first todo bound →
    phases m keys first retrace data p todo bound = .ok (P, bound') →
    Inv first [] bound' ∧
    (∃ rest, bound' = bound ++ rest ∧ ∀ kv ∈ rest, ∃ a rows, m.analyze a rows = .ok kv.2) ∧
    ∀ σ : String → V, (∀ x ∈ bound'.map Prod.fst, bound'.lookup x = some (σ x)) →
      ∀ s ∈ todo, ∃ p, SinkResult m first (data p) σ s (σ s.name) := by
  induction k with
  | zero =>
    intro p todo bound P bound' hk hi hrun
    have : todo = [] := List.length_eq_zero_iff.1 (Nat.le_zero.1 hk)
    subst this
    rw [phases] at hrun
    simp only [List.isEmpty_nil, if_true, Except.ok.injEq, Prod.mk.injEq] at hrun
    obtain ⟨-, rfl⟩ := hrun
    exact ⟨hi, ⟨[], by simp, by simp⟩, by simp⟩
  | succ k ih =>
    intro p todo bound P bound' hk hi hrun
    by_cases ht : todo = []
    · subst ht
      rw [phases] at hrun
      simp only [List.isEmpty_nil, if_true, Except.ok.injEq, Prod.mk.injEq] at hrun
      obtain ⟨-, rfl⟩ := hrun
      exact ⟨hi, ⟨[], by simp, by simp⟩, by simp⟩
    · have hne := inv_progress first hw todo bound hi ht
      have hopen := inv_open first todo bound hi ht
      have hlt := waiting_lt first bound todo hne
      rw [phases, if_neg (by simpa using ht), dif_neg hne, same_valid first _ keys hw (hs p)] at hrun
      simp only [Except.bind] at hrun
      cases hseq : seqExcept ((first.ready bound todo).map
          (bindSink m (retrace p) bound (data p))) with
      | error e => rw [hseq] at hrun; simp at hrun
      | ok new =>
        rw [hseq] at hrun
        simp only at hrun
        rw [seqExcept_map_iff] at hseq
        have hnew : new.map Prod.fst = (first.ready bound todo).map Sink.name := by
          have hF : List.Forall₂ (fun (s : Sink An) (kv : String × V) => kv.1 = s.name)
              (first.ready bound todo) new := by
            exact hseq.imp fun s kv h => (bindSink_name m _ _ _ _ _ h).1
          exact names_of hF
        have hval : ∀ kv ∈ new, ∃ a rows, m.analyze a rows = .ok kv.2 := by
          intro kv hkv
          obtain ⟨s, -, h⟩ := forall₂_mem_right hseq kv hkv
          exact ⟨_, (bindSink_name m _ _ _ _ _ h).2⟩
        have hi' := inv_step first hw todo bound new hi hnew
        obtain ⟨h1, ⟨rest, h2, h2v⟩, h3⟩ := ih (p + 1) _ _ P bound' (by omega) hi' hrun
        refine ⟨h1, ⟨new ++ rest, by rw [h2, List.append_assoc], fun kv hkv => ?_⟩, ?_⟩
        · rcases List.mem_append.1 hkv with h | h
          · exact hval kv h
          · exact h2v kv h
        intro σ hσ s hst
        by_cases hrd : first.sinkReady (bound.map Prod.fst) s = true
        · have hsr : s ∈ first.ready bound todo := List.mem_filter.2 ⟨hst, hrd⟩
          have hab : ∀ x ∈ bound.map Prod.fst, bound.lookup x = some (σ x) := by
            refine agree_append bound (new ++ rest) σ ?_
            rw [← List.append_assoc, ← h2]
            exact hσ
          have : ∃ v, (s.name, v) ∈ new ∧ bindSink m (retrace p) bound (data p) s = .ok (s.name, v) := by
            clear hrun hi' hnew h2 h3 hab hval
            have : ∀ (l : List (Sink An)) (new : List (String × V)), List.Forall₂
                (fun s y => bindSink m (retrace p) bound (data p) s = .ok y) l new → s ∈ l →
                ∃ v, v ∈ new ∧ bindSink m (retrace p) bound (data p) s = .ok v := by
              intro l new hF hm
              induction hF with
              | nil => simp at hm
              | @cons a y l' n' h _ ih =>
                rcases List.mem_cons.1 hm with rfl | hm
                · exact ⟨y, by simp, h⟩
                · obtain ⟨v, hv, hb⟩ := ih hm
                  exact ⟨v, by simp [hv], hb⟩
            obtain ⟨kv, hkv, hb⟩ := this _ _ hseq hsr
            have hk := (bindSink_name m _ _ _ _ _ hb).1
            refine ⟨kv.2, ?_, ?_⟩
            · rw [← hk]; exact hkv
            · rw [hb, ← hk]
          obtain ⟨v, hv, hb⟩ := this
          have hval := ((bindSink_iff m first (retrace p) (hs p) hw bound σ hab (data p)
            hopen s hrd _).1 hb).2
          have hv' : (s.name, v) ∈ bound' := by rw [h2]; simp [hv]
          have hl := (lookup_iff _ h1.nodup _ _).2 hv'
          have hm := hσ s.name (List.mem_map_of_mem (f := Prod.fst) hv')
          rw [hl] at hm
          simp only [Option.some.injEq] at hm
          rw [← hm]
          exact ⟨p, hval⟩
        · refine h3 σ hσ s ?_
          unfold Trace.waiting
          rw [List.mem_filter]
          exact ⟨hst, by simpa using hrd⟩

theorem inv_start (first : Trace Op An) : Inv first first.sinks ([] : List (String × V)) :=
  ⟨List.Sublist.refl _, fun s hs => by simp [hs], by simp, by simp⟩

theorem final_iff (m : Meaning V Op An) (first again : Trace Op An) (hw : WellFormed first)
    (hs : SameUpToOrder first again) (bound : List (String × V)) (hi : Inv first [] bound)
    (σ : String → V) (hσ : ∀ x ∈ bound.map Prod.fst, bound.lookup x = some (σ x))
    (batch out : List (String × V)) :
    final m first again bound batch = .ok out ↔ OutputsAre m first σ batch out := by
  have hkeys : ∀ x ∈ first.sinks.map Sink.name, x ∈ bound.map Prod.fst := by
    intro x hx
    obtain ⟨s, hs, rfl⟩ := List.mem_map.1 hx
    exact (hi.keys s hs).2 (by simp)
  have hc : again.complete bound = true := by
    unfold Trace.complete
    rw [List.all_eq_true]
    intro s hsa
    rw [List.contains_iff_mem]
    exact hkeys _ (List.mem_map_of_mem (hs.sinks.mem_iff.1 hsa))
  unfold final OutputsAre
  rw [if_pos hc]
  unfold Trace.features
  rw [seqExcept_map_iff, hs.outputs]
  refine forall₂_congr_mem fun o ho kv => ?_
  obtain ⟨t, ht, hx⟩ := hw.outputs o ho
  have hf := fetch_one m first again hs hw bound σ hσ batch o.2 t ht
    (fun x hxm => hkeys x (hx x hxm))
  cases hv : (again.tensor o.2).bind (Tensor.eval m bound batch) with
  | error e =>
    simp only [Except.bind, reduceCtorEq, false_iff]
    rintro ⟨-, h⟩
    rw [← hf, hv] at h
    cases h
  | ok v =>
    simp only [Except.bind, Except.ok.injEq]
    constructor
    · rintro rfl
      exact ⟨rfl, (hf v).1 hv⟩
    · rintro ⟨h1, h2⟩
      rw [← hf, hv] at h2
      cases h2
      rw [← h1]

/-- If the analyzers have the same results in all phases, the analysis finds them. -/
theorem analysis_ok (m : Meaning V Op An)
    (keys : List String) (first : Trace Op An) (hw : WellFormed first)
    (retrace : Nat → Trace Op An) (hs : ∀ p, SameUpToOrder first (retrace p))
    (data : Nat → List (List (String × V))) (σ : String → V)
    (hσ : ∀ p, Results m first (data p) σ) :
    ∃ f, analyzeDataset m keys first retrace data = .ok f ∧
      ∀ batch out, f batch = .ok out ↔ OutputsAre m first σ batch out := by
  obtain ⟨P, bound, h1, -, h2, h3⟩ := phases_ok m keys first hw retrace hs data σ hσ
    first.sinks.length 0 first.sinks [] le_rfl (inv_start first) (by simp)
  refine ⟨final m first (retrace P) bound, ?_, fun batch out => ?_⟩
  · unfold analyzeDataset
    rw [h1]
    simp only [Except.bind]
    rw [same_valid first _ keys hw (hs P)]
  · exact final_iff m first (retrace P) hw (hs P) bound h2 σ h3 batch out

/-- What an analysis that succeeds has found: values, each returned by an analyzer, that are the
results in some phase. -/
theorem analysis_sound (m : Meaning V Op An)
    (keys : List String) (first : Trace Op An) (hw : WellFormed first)
    (retrace : Nat → Trace Op An) (hs : ∀ p, SameUpToOrder first (retrace p))
    (data : Nat → List (List (String × V)))
    (f : List (String × V) → Except Err (List (String × V)))
    (hf : analyzeDataset m keys first retrace data = .ok f) :
    ∃ bound : List (String × V), (∀ kv ∈ bound, ∃ a rows, m.analyze a rows = .ok kv.2) ∧
      ∀ σ : String → V, (∀ x ∈ bound.map Prod.fst, bound.lookup x = some (σ x)) →
        (∀ s ∈ first.sinks, ∃ p, SinkResult m first (data p) σ s (σ s.name)) ∧
        ∀ batch out, f batch = .ok out ↔ OutputsAre m first σ batch out := by
  unfold analyzeDataset at hf
  cases h : phases m keys first retrace data 0 first.sinks [] with
  | error e => rw [h] at hf; simp [Except.bind] at hf
  | ok r =>
    obtain ⟨P, bound⟩ := r
    rw [h] at hf
    simp only [Except.bind] at hf
    rw [same_valid first _ keys hw (hs P)] at hf
    simp only [Except.ok.injEq] at hf
    obtain ⟨h1, ⟨rest, h2, h2v⟩, h3⟩ := phases_sound m keys first hw retrace hs data
      first.sinks.length 0 first.sinks [] P bound le_rfl (inv_start first) h
    rw [List.nil_append] at h2
    refine ⟨bound, by rw [h2]; exact h2v, fun σ hσ => ⟨fun s hsm => h3 σ hσ s hsm, fun batch out => ?_⟩⟩
    rw [← hf]
    exact final_iff m first (retrace P) hw (hs P) bound h1 _ hσ batch out

/-! ## Theorems -/

/-- If the analyzers of a `preprocessing_fn` have results on a dataset, the analysis succeeds, and
the transform function computes for every batch, of this dataset or another, exactly the outputs of
the `preprocessing_fn` under these results; in particular no temporary value is ever used. -/
theorem analysis_computes_the_meaning (m : Meaning V Op An)
    (hperm : ∀ a xs ys, xs.Perm ys → m.analyze a xs = m.analyze a ys)
    (keys : List String) (first : Trace Op An) (hw : WellFormed first)
    (retrace : Nat → Trace Op An) (hs : ∀ p, SameUpToOrder first (retrace p))
    (data : Nat → List (List (String × V))) (batches : List (List (String × V)))
    (hd : ∀ p, (data p).Perm batches) (σ : String → V) (hσ : Results m first batches σ) :
    ∃ f, analyzeDataset m keys first retrace data = .ok f ∧
      ∀ batch out, f batch = .ok out ↔ OutputsAre m first σ batch out :=
  analysis_ok m keys first hw retrace hs data σ
    (fun p s h => (sinkResult_perm m hperm first _ _ (hd p) σ s _).2 (hσ s h))

/-- Conversely, an analysis that succeeds has found the results of the analyzers, and its transform
function computes the outputs of the `preprocessing_fn` under them. -/
theorem successful_analysis_found_the_results [Inhabited V] (m : Meaning V Op An)
    (hperm : ∀ a xs ys, xs.Perm ys → m.analyze a xs = m.analyze a ys)
    (keys : List String) (first : Trace Op An) (hw : WellFormed first)
    (retrace : Nat → Trace Op An) (hs : ∀ p, SameUpToOrder first (retrace p))
    (data : Nat → List (List (String × V))) (batches : List (List (String × V)))
    (hd : ∀ p, (data p).Perm batches)
    (f : List (String × V) → Except Err (List (String × V)))
    (hf : analyzeDataset m keys first retrace data = .ok f) :
    ∃ σ, Results m first batches σ ∧
      ∀ batch out, f batch = .ok out ↔ OutputsAre m first σ batch out := by
  obtain ⟨bound, -, h⟩ := analysis_sound m keys first hw retrace hs data f hf
  obtain ⟨h1, h2⟩ := h (fun x => (bound.lookup x).getD default) (by
    intro x hx
    cases hl : bound.lookup x with
    | none => exact absurd hx ((lookup_none _ _).1 hl)
    | some v => rfl)
  refine ⟨_, fun s hsm => ?_, h2⟩
  obtain ⟨p, h⟩ := h1 s hsm
  exact (sinkResult_perm m hperm first _ _ (hd p) _ s _).1 h

/-- The phases of an analysis that succeeds, and the checks made on the way. -/
theorem phases_checked (m : Meaning V Op An) (keys : List String) (first : Trace Op An)
    (retrace : Nat → Trace Op An) (data : Nat → List (List (String × V))) (k : Nat) :
    ∀ (p : Nat) (todo : List (Sink An)) (bound : List (String × V)) (P : Nat)
    (bound' : List (String × V)), todo.length ≤ k →
    phases m keys first retrace data p todo bound = .ok (P, bound') →
    P ≤ p + todo.length ∧ p ≤ P ∧ (todo ≠ [] → p < P) ∧
    ∀ q, p ≤ q → q < P →
      validate (first.fingerprint keys) ((retrace q).fingerprint keys) = .ok () := by
  induction k with
  | zero =>
    intro p todo bound P bound' hk hrun
    have : todo = [] := List.length_eq_zero_iff.1 (Nat.le_zero.1 hk)
    subst this
    rw [phases] at hrun
    simp only [List.isEmpty_nil, if_true, Except.ok.injEq, Prod.mk.injEq] at hrun
    obtain ⟨rfl, -⟩ := hrun
    exact ⟨by simp, le_rfl, by simp, fun q h1 h2 => by omega⟩
  | succ k ih =>
    intro p todo bound P bound' hk hrun
    rw [phases] at hrun
    by_cases ht : todo = []
    · subst ht
      simp only [List.isEmpty_nil, if_true, Except.ok.injEq, Prod.mk.injEq] at hrun
      obtain ⟨rfl, -⟩ := hrun
      exact ⟨by simp, le_rfl, by simp, fun q h1 h2 => by omega⟩
    · rw [if_neg (by simpa using ht)] at hrun
      by_cases hne : (first.ready bound todo).isEmpty = true
      · rw [dif_pos hne] at hrun; simp at hrun
      · rw [dif_neg hne] at hrun
        have hlt := waiting_lt first bound todo hne
        cases hv : validate (first.fingerprint keys) ((retrace p).fingerprint keys) with
        | error e => rw [hv] at hrun; simp [Except.bind] at hrun
        | ok u =>
          rw [hv] at hrun
          simp only [Except.bind] at hrun
          cases hseq : seqExcept ((first.ready bound todo).map
              (bindSink m (retrace p) bound (data p))) with
          | error e => rw [hseq] at hrun; simp at hrun
          | ok new =>
            rw [hseq] at hrun
            obtain ⟨h1, h2, -, h4⟩ := ih (p + 1) _ _ P bound' (by omega) hrun
            refine ⟨by omega, by omega, fun _ => by omega, fun q hq1 hq2 => ?_⟩
            rcases Nat.eq_or_lt_of_le hq1 with rfl | hlt'
            · exact hv
            · exact h4 q hlt' hq2

/-- Whatever the traces are: an analysis that succeeds has made at most as many phases as there are
analyzers, at least one if there is an analyzer, and in every trace that it used every analyzer has
the name of an analyzer of the first trace that reads the same inputs of the `preprocessing_fn`.
So a trace with an analyzer of a new name, or with other inputs, makes the analysis fail. -/
theorem used_traces_are_checked (m : Meaning V Op An) (keys : List String) (first : Trace Op An)
    (hw : WellFormed first) (retrace : Nat → Trace Op An)
    (hu : ∀ p, ((retrace p).tensors.map Prod.fst).Nodup)
    (data : Nat → List (List (String × V)))
    (f : List (String × V) → Except Err (List (String × V)))
    (hf : analyzeDataset m keys first retrace data = .ok f) :
    ∃ P, P ≤ first.sinks.length ∧ (first.sinks ≠ [] → 0 < P) ∧
      ∀ p ≤ P, ∀ s ∈ (retrace p).sinks, ∃ s0 ∈ first.sinks, s0.name = s.name ∧
        ∀ key ∈ keys,
          ((∃ n ∈ s.ins, ∃ t, (n, t) ∈ (retrace p).tensors ∧ key ∈ t.inputs) ↔
           (∃ n ∈ s0.ins, ∃ t, (n, t) ∈ first.tensors ∧ key ∈ t.inputs)) := by
  have hsrc : ∀ (tr : Trace Op An), (tr.tensors.map Prod.fst).Nodup → ∀ (s : Sink An),
      ∀ key ∈ keys, key ∈ tr.sourceKeys keys s ↔
        ∃ n ∈ s.ins, ∃ t, (n, t) ∈ tr.tensors ∧ key ∈ t.inputs := by
    intro tr hn s key hk
    unfold Trace.sourceKeys
    rw [List.mem_filter, List.any_eq_true]
    constructor
    · rintro ⟨-, n, h1, h2⟩
      refine ⟨n, h1, ?_⟩
      cases hl : tr.tensors.lookup n with
      | none => rw [hl] at h2; simp at h2
      | some t => rw [hl] at h2; exact ⟨t, (lookup_iff _ hn n t).1 hl, (reads_iff key t).1 h2⟩
    · rintro ⟨n, h1, t, h2, h3⟩
      refine ⟨hk, n, h1, ?_⟩
      rw [(lookup_iff _ hn n t).2 h2]
      exact (reads_iff key t).2 h3
  unfold analyzeDataset at hf
  cases h : phases m keys first retrace data 0 first.sinks [] with
  | error e => rw [h] at hf; simp [Except.bind] at hf
  | ok r =>
    obtain ⟨P, bound⟩ := r
    rw [h] at hf
    simp only [Except.bind] at hf
    obtain ⟨h1, -, h3, h4⟩ := phases_checked m keys first retrace data first.sinks.length 0 _ _ P bound
      le_rfl h
    have hv : ∀ p ≤ P,
        validate (first.fingerprint keys) ((retrace p).fingerprint keys) = .ok () := by
      intro p hp
      rcases Nat.eq_or_lt_of_le hp with rfl | hlt
      · cases hv : validate (first.fingerprint keys) ((retrace p).fingerprint keys) with
        | error e => rw [hv] at hf; simp at hf
        | ok u => rfl
      · exact h4 p (Nat.zero_le _) hlt
    refine ⟨P, by omega, h3, fun p hp s hs => ?_⟩
    have := (validate_iff _ _).1 (hv p hp) _
      (List.mem_map_of_mem (f := fun s => (s.name, (retrace p).sourceKeys keys s)) hs)
    have hkeys : (first.fingerprint keys).map Prod.fst = first.sinks.map Sink.name := by
      unfold Trace.fingerprint
      rw [List.map_map]
      rfl
    rw [lookup_iff _ (by rw [hkeys]; exact hw.sinks)] at this
    obtain ⟨s0, hs0, he⟩ := List.mem_map.1 this
    simp only [Prod.mk.injEq] at he
    refine ⟨s0, hs0, he.1, fun key hk => ?_⟩
    rw [← hsrc _ (hu p) s key hk, ← hsrc _ hw.tensors s0 key hk, he.2]

/-! ## A case: `x - mean(x)` is scaled by its maximum, in two phases -/

namespace Cases

/-- Operations on integers: difference, and a constant. -/
inductive O where
  | sub
  | double

/-- Analyzers: sum and largest value (of natural numbers). -/
inductive A where
  | total
  | largest

/-- Tensors hold integers; unknown results are `-7`. -/
def meaning : Meaning Int O A where
  op
    | .sub, [a, b] => .ok (a - b)
    | .double, [a] => .ok (2 * a)
    | _, _ => .error "TypeError"
  analyze
    | .total, rows => .ok (rows.flatten.foldr (· + ·) 0)
    | .largest, rows => .ok (rows.flatten.foldr max 0)
  temporary _ := .ok (-7)

theorem meaning_perm : ∀ a xs ys, xs.Perm ys → meaning.analyze a xs = meaning.analyze a ys := by
  intro a xs ys h
  have hf := h.flatten
  cases a with
  | total =>
    simp only [meaning]
    congr 1
    exact List.Perm.foldr_eq (lcomm := ⟨fun a b c => by omega⟩) hf 0
  | largest =>
    simp only [meaning]
    congr 1
    exact List.Perm.foldr_eq (lcomm := ⟨fun a b c => by omega⟩) hf 0

/-- `c = x - total(x)`, `y = double(x) - largest(c)`. -/
def trace : Trace O A where
  tensors := [("x", .input "x"),
    ("c", .op .sub [.input "x", .sink "total"]),
    ("y", .op .sub [.op .double [.input "x"], .sink "largest"])]
  outputs := [("y", "y")]
  sinks := [⟨"total", .total, ["x"]⟩, ⟨"largest", .largest, ["c"]⟩]
  composite := false

def batches : List (List (String × Int)) := [[("x", 4)], [("x", -9)]]

/-- The results: the sum is `-5`, and the largest value of `x + 5` is `9`. -/
def results (n : String) : Int := if n = "total" then -5 else 9

theorem trace_wellFormed : WellFormed trace := by
  refine ⟨by decide, by decide, ?_, ?_⟩
  · intro pre s post he n hn
    rcases pre with _ | ⟨a, _ | ⟨b, _ | ⟨c, pre⟩⟩⟩
    · simp only [trace, List.nil_append, List.cons.injEq] at he
      obtain ⟨rfl, -⟩ := he
      simp only [List.mem_singleton] at hn
      subst hn
      exact ⟨.input "x", by simp [trace], by simp [Tensor.analyzers]⟩
    · simp only [trace, List.cons_append, List.nil_append, List.cons.injEq] at he
      obtain ⟨rfl, rfl, -⟩ := he
      simp only [List.mem_singleton] at hn
      subst hn
      exact ⟨.op .sub [.input "x", .sink "total"], by simp [trace],
        by simp [Tensor.analyzers, Tensor.analyzersOf]⟩
    · simp [trace] at he
    · simp [trace] at he
  · intro o ho
    simp only [trace, List.mem_singleton] at ho
    subst ho
    exact ⟨.op .sub [.op .double [.input "x"], .sink "largest"], by simp [trace],
      by simp [Tensor.analyzers, Tensor.analyzersOf, trace]⟩

theorem trace_results : Results meaning trace batches results := by
  intro s hs
  simp only [trace, List.mem_cons, List.not_mem_nil, or_false] at hs
  rcases hs with rfl | rfl
  · refine ⟨[[4], [-9]], ?_, by decide⟩
    refine .cons (.cons ⟨.input "x", by simp [trace], rfl⟩ .nil)
      (.cons (.cons ⟨.input "x", by simp [trace], rfl⟩ .nil) .nil)
  · refine ⟨[[9], [-4]], ?_, by decide⟩
    refine .cons (.cons ⟨.op .sub [.input "x", .sink "total"], by simp [trace], by rfl⟩ .nil)
      (.cons (.cons ⟨.op .sub [.input "x", .sink "total"], by simp [trace], by rfl⟩ .nil) .nil)

/-- The hypotheses of the theorems are met by a `preprocessing_fn` whose second analyzer uses the
result of the first, with data read in another order in the second phase. -/
example : ∃ f, analyzeDataset meaning ["x"] trace (fun _ => trace)
      (fun p => if p = 0 then batches else batches.reverse) = .ok f ∧
    f [("x", 100)] = .ok [("y", 191)] := by
  obtain ⟨f, h1, h2⟩ := analysis_computes_the_meaning meaning meaning_perm ["x"] trace
    trace_wellFormed (fun _ => trace)
    (fun _ => ⟨List.Perm.refl _, rfl, List.Perm.refl _⟩)
    (fun p => if p = 0 then batches else batches.reverse) batches
    (fun p => by
      by_cases hp : p = 0
      · simp only [hp, if_true]; exact List.Perm.refl _
      · simp only [hp, if_false]; exact List.reverse_perm _)
    results trace_results
  refine ⟨f, h1, (h2 _ _).2 ?_⟩
  exact .cons ⟨rfl, .op .sub [.op .double [.input "x"], .sink "largest"], by simp [trace], by rfl⟩ .nil

/-! ### Two analyzers of the same input that are traced in another order -/

/-- `{"sum": total(x), "max": largest(x)}`, where the call of `total` is traced first; placeholders
are named by the order of the calls. -/
def swapFirst : Trace O A where
  tensors := [("x", .input "x"), ("analyzer", .sink "analyzer"), ("analyzer_1", .sink "analyzer_1")]
  outputs := [("max", "analyzer_1"), ("sum", "analyzer")]
  sinks := [⟨"analyzer", .total, ["x"]⟩, ⟨"analyzer_1", .largest, ["x"]⟩]
  composite := false

/-- The same `preprocessing_fn`, where the call of `largest` is traced first. -/
def swapAgain : Trace O A where
  tensors := [("x", .input "x"), ("analyzer", .sink "analyzer"), ("analyzer_1", .sink "analyzer_1")]
  outputs := [("max", "analyzer"), ("sum", "analyzer_1")]
  sinks := [⟨"analyzer", .largest, ["x"]⟩, ⟨"analyzer_1", .total, ["x"]⟩]
  composite := false

end Cases

/-- The check does not find every change of order: two analyzers of the same input that are traced
in another order the second time exchange their results.  Here the output called `sum` becomes the
largest value, `4`, and the output called `max` becomes the sum, `-5`, and the analysis succeeds.
When all traces have the same order, whichever it is, the outputs are right. -/
theorem swapped_analyzers_go_unnoticed :
    ((analyzeDataset Cases.meaning ["x"] Cases.swapFirst (fun _ => Cases.swapFirst)
      (fun _ => Cases.batches)).toOption.bind fun f => (f [("x", 0)]).toOption)
      = some [("max", 4), ("sum", -5)] ∧
    ((analyzeDataset Cases.meaning ["x"] Cases.swapAgain (fun _ => Cases.swapAgain)
      (fun _ => Cases.batches)).toOption.bind fun f => (f [("x", 0)]).toOption)
      = some [("max", 4), ("sum", -5)] ∧
    ((analyzeDataset Cases.meaning ["x"] Cases.swapFirst (fun _ => Cases.swapAgain)
      (fun _ => Cases.batches)).toOption.bind fun f => (f [("x", 0)]).toOption)
      = some [("max", -5), ("sum", 4)] := by
  refine ⟨?_, ?_, ?_⟩ <;> decide +kernel

end TFT.Analyze
