import Verif.Pipeline.VocabTables
import Verif.Pipeline.AnalyzeProps

/-!
# Lookups use the complete vocabulary (C90)

The specification knows neither traces nor phases: under the results `σ` of the analyzers, ids are looked up in,
and sizes are those of, the file `σ n` of the vocabulary `n`.
-/

namespace TFT.VocabTables

open TFT TFT.Analyze

variable {V Op An : Type}

/-! ## Specification -/

/-- The contents of the file under the results of the analyzers. -/
def Path.contents (σ : String → V) : Path V → V
  | .vocabulary n => σ n
  | .file c => c

mutual
/-- The value of a tensor for one batch when the analyzers have the results `σ`. -/
def Expr.value (w : World V Op An) (σ : String → V) (batch : List (String × V)) : Expr V Op → Except Err V
  | .input key => match batch.lookup key with
    | some v => .ok v
    | none => .error "KeyError"
  | .op o ins => (Expr.values w σ batch ins).bind (w.op o)
  | .result n => .ok (σ n)
  | .ids _ path x => (x.value w σ batch).bind (w.lookup (path.contents σ))
  | .size _ path => w.size (path.contents σ)
def Expr.values (w : World V Op An) (σ : String → V) (batch : List (String × V)) :
    List (Expr V Op) → Except Err (List V)
  | [] => .ok []
  | e :: es => (e.value w σ batch).bind fun v => (Expr.values w σ batch es).bind fun vs => .ok (v :: vs)
end

/-- The vocabulary of a path. -/
def Path.analyzers : Path V → List String
  | .vocabulary n => [n]
  | .file _ => []

mutual
/-- The analyzers whose results a tensor uses. -/
def Expr.analyzers : Expr V Op → List String
  | .input _ => []
  | .op _ ins => Expr.analyzersOf ins
  | .result n => [n]
  | .ids _ path x => x.analyzers ++ path.analyzers
  | .size _ path => path.analyzers
def Expr.analyzersOf : List (Expr V Op) → List String
  | [] => []
  | e :: es => e.analyzers ++ Expr.analyzersOf es
end

mutual
/-- The vocabularies with the sizes of whose tables a tensor is computed. -/
def Expr.sizes : Expr V Op → List String
  | .input _ => []
  | .op _ ins => Expr.sizesOf ins
  | .result _ => []
  | .ids _ _ x => x.sizes
  | .size _ path => path.analyzers
def Expr.sizesOf : List (Expr V Op) → List String
  | [] => []
  | e :: es => e.sizes ++ Expr.sizesOf es
end

mutual
/-- The analyzers whose results a tensor uses other than by the size of their table. -/
def Expr.waits : Expr V Op → List String
  | .input _ => []
  | .op _ ins => Expr.waitsOf ins
  | .result n => [n]
  | .ids _ path x => x.waits ++ path.analyzers
  | .size _ _ => []
def Expr.waitsOf : List (Expr V Op) → List String
  | [] => []
  | e :: es => e.waits ++ Expr.waitsOf es
end

mutual
/-- The uses of files in a tensor, with the analyzers called before. -/
def Expr.uses : Expr V Op → List (List String × Path V)
  | .input _ => []
  | .op _ ins => Expr.usesOf ins
  | .result _ => []
  | .ids before path x => x.uses ++ [(before, path)]
  | .size before path => [(before, path)]
def Expr.usesOf : List (Expr V Op) → List (List String × Path V)
  | [] => []
  | e :: es => e.uses ++ Expr.usesOf es
end

/-- The tensor called `n` has the value `v` for a batch. -/
def HasValue (w : World V Op An) (prog : Program V Op An) (σ : String → V) (batch : List (String × V))
    (n : String) (v : V) : Prop :=
  ∃ e, (n, e) ∈ prog.tensors ∧ e.value w σ batch = .ok v

/-- `σ` are the results of the analyzers on a dataset: each, applied to the values of its inputs for all batches,
gives its result. -/
def Results (w : World V Op An) (prog : Program V Op An) (batches : List (List (String × V)))
    (σ : String → V) : Prop :=
  ∀ s ∈ prog.sinks, ∃ rows,
    List.Forall₂ (fun b row => List.Forall₂ (HasValue w prog σ b) s.ins row) batches rows ∧
    w.analyze s.analyzer rows = .ok (σ s.name)

/-- `out` are the outputs for a batch under the results `σ`. -/
def OutputsAre (w : World V Op An) (prog : Program V Op An) (σ : String → V) (batch out : List (String × V)) :
    Prop :=
  List.Forall₂ (fun o kv => kv.1 = o.1 ∧ HasValue w prog σ batch o.2 kv.2) prog.outputs out

/-- Names are unique, an analyzer is called after those that its inputs use, and a vocabulary is called before
it is applied. -/
structure WellFormed (prog : Program V Op An) : Prop where
  tensors : (prog.tensors.map Prod.fst).Nodup
  sinks : (prog.sinks.map Sink.name).Nodup
  ordered : ∀ pre s post, prog.sinks = pre ++ s :: post → ∀ n ∈ s.ins,
    ∃ e, (n, e) ∈ prog.tensors ∧ ∀ x ∈ e.analyzers, x ∈ pre.map Sink.name
  outputs : ∀ o ∈ prog.outputs,
    ∃ e, (o.2, e) ∈ prog.tensors ∧ ∀ x ∈ e.analyzers, x ∈ prog.sinks.map Sink.name
  called : ∀ n e, (n, e) ∈ prog.tensors → ∀ before v, (before, .vocabulary v) ∈ e.uses → v ∈ before

/-- No file given by a string is used after a vocabulary was called. -/
def NoFileAfterVocabulary (prog : Program V Op An) : Prop :=
  ∀ n e, (n, e) ∈ prog.tensors → ∀ before c, (before, .file c) ∈ e.uses → before = []

/-- An analyzer that is applied to the size of a vocabulary is also applied to something else that uses the
vocabulary, such as its ids. -/
def SizesWaitedFor (prog : Program V Op An) : Prop :=
  ∀ s ∈ prog.sinks, ∀ n ∈ s.ins, ∀ e, (n, e) ∈ prog.tensors → ∀ v ∈ e.sizes,
    ∃ n' ∈ s.ins, ∃ e', (n', e') ∈ prog.tensors ∧ v ∈ e'.waits

/-! ## Lemmas: tensors -/

/-- What the trace has for a path with TF1 behaviour. -/
def idealIds (path : Path V) (t : Tensor (TOp V Op)) : Tensor (TOp V Op) :=
  match path with
  | .vocabulary n => .op .lookup [t, .sink n]
  | .file c => .op (.lookupIn c) [t]

def idealSize (path : Path V) : Tensor (TOp V Op) :=
  match path with
  | .vocabulary n => .op .size [.sink n]
  | .file c => .op (.sizeOf c) []

mutual
def Expr.ideal : Expr V Op → Tensor (TOp V Op)
  | .input key => .input key
  | .op o ins => .op (.user o) (Expr.ideals ins)
  | .result n => .sink n
  | .ids _ path x => idealIds path x.ideal
  | .size _ path => idealSize path
def Expr.ideals : List (Expr V Op) → List (Tensor (TOp V Op))
  | [] => []
  | e :: es => e.ideal :: Expr.ideals es
end

/-- The trace of a program with TF1 behaviour. -/
def Program.ideal (prog : Program V Op An) : Trace (TOp V Op) An where
  tensors := prog.tensors.map fun e => (e.1, e.2.ideal)
  outputs := prog.outputs
  sinks := prog.sinks
  composite := prog.composite

/-- What the trace has for a path with TF2 behaviour. -/
def eagerIds (w : World V Op An) (bound : List (String × V)) (path : Path V) (t : Tensor (TOp V Op)) :
    Tensor (TOp V Op) :=
  match path with
  | .file c => .op (.lookupIn c) [t]
  | .vocabulary n => match bound.lookup n with
    | some v => .op (.lookupIn v) [t]
    | none => .op (.lookupIn (w.temporary n)) [t, .sink n]

def eagerSize (w : World V Op An) (bound : List (String × V)) (path : Path V) : Tensor (TOp V Op) :=
  match path with
  | .file c => .op (.sizeOf c) []
  | .vocabulary n => match bound.lookup n with
    | some v => .op (.sizeOf v) []
    | none => .op (.sizeOf (w.temporary n)) []

mutual
def Expr.eager (w : World V Op An) (bound : List (String × V)) : Expr V Op → Tensor (TOp V Op)
  | .input key => .input key
  | .op o ins => .op (.user o) (Expr.eagers w bound ins)
  | .result n => .sink n
  | .ids _ path x => eagerIds w bound path (x.eager w bound)
  | .size _ path => eagerSize w bound path
def Expr.eagers (w : World V Op An) (bound : List (String × V)) : List (Expr V Op) → List (Tensor (TOp V Op))
  | [] => []
  | e :: es => e.eager w bound :: Expr.eagers w bound es
end

def Program.eager (w : World V Op An) (bound : List (String × V)) (prog : Program V Op An) :
    Trace (TOp V Op) An where
  tensors := prog.tensors.map fun e => (e.1, e.2.eager w bound)
  outputs := prog.outputs
  sinks := prog.sinks
  composite := prog.composite

theorem construct_tf1 (w : World V Op An) (bound : List (String × V)) (before : List String) (path : Path V)
    (t : Tensor (TOp V Op)) :
    constructAndLookup (trackedAfter w false bound before) (assetOf false bound path) t
      = .ok (idealIds path t, idealSize path) := by
  cases path <;> rfl

mutual
theorem traced_tf1 (w : World V Op An) (bound : List (String × V)) :
    (e : Expr V Op) → e.traced w false bound = .ok e.ideal
  | .input _ => rfl
  | .op o ins => by simp only [Expr.traced, tracedAll_tf1 w bound ins]; rfl
  | .result _ => rfl
  | .ids before path x => by
    simp only [Expr.traced, traced_tf1 w bound x, bind, Except.bind, construct_tf1]; rfl
  | .size before path => by simp only [Expr.traced, bind, Except.bind, construct_tf1]; rfl
theorem tracedAll_tf1 (w : World V Op An) (bound : List (String × V)) :
    (es : List (Expr V Op)) → Expr.tracedAll w false bound es = .ok (Expr.ideals es)
  | [] => rfl
  | e :: es => by
    simp only [Expr.tracedAll, traced_tf1 w bound e, tracedAll_tf1 w bound es]; rfl
end

theorem tracked_lookup (w : World V Op An) (bound : List (String × V)) (before : List String) (n : String)
    (hb : n ∈ before) (hn : bound.lookup n = none) :
    (trackedAfter w true bound before).lookup n = some (w.temporary n) := by
  have hn' : n ∉ bound.map Prod.fst := (lookup_none _ _).1 hn
  unfold trackedAfter
  rw [if_pos rfl]
  induction before with
  | nil => simp at hb
  | cons a before ih =>
    by_cases ha : n = a
    · subst ha
      rw [List.filter_cons_of_pos (by simpa using hn')]
      simp
    · have hb' : n ∈ before := by simpa [ha] using hb
      by_cases hc : a ∈ bound.map Prod.fst
      · rw [List.filter_cons_of_neg (by simpa using hc)]
        exact ih hb'
      · rw [List.filter_cons_of_pos (by simpa using hc), List.map_cons, List.lookup_cons]
        have : (n == a) = false := by simpa using ha
        rw [this]
        exact ih hb'

theorem construct_tf2 (w : World V Op An) (bound : List (String × V)) (before : List String) (path : Path V)
    (t : Tensor (TOp V Op)) (hc : ∀ n, path = .vocabulary n → n ∈ before)
    (hf : ∀ c, path = .file c → before = []) :
    constructAndLookup (trackedAfter w true bound before) (assetOf true bound path) t
      = .ok (eagerIds w bound path t, eagerSize w bound path) := by
  cases path with
  | file c =>
    rw [hf c rfl]
    rfl
  | vocabulary n =>
    unfold constructAndLookup assetOf eagerIds eagerSize
    cases hl : bound.lookup n with
    | some v =>
      simp only [if_true, hl]
      unfold resolve
      by_cases he : (trackedAfter w true bound before).isEmpty = true
      · rw [if_pos he]; rfl
      · rw [if_neg he]; rfl
    | none =>
      have h := tracked_lookup w bound before n (hc n rfl) hl
      have he : ¬ (trackedAfter w true bound before).isEmpty = true := by
        intro he
        rw [List.isEmpty_iff] at he
        rw [he] at h
        simp at h
      simp only [if_true, hl]
      unfold resolve
      rw [if_neg he]
      simp only [h]
      rfl

mutual
theorem traced_tf2 (w : World V Op An) (bound : List (String × V)) : (e : Expr V Op) →
    (∀ before v, (before, .vocabulary v) ∈ e.uses → v ∈ before) →
    (∀ before c, (before, .file c) ∈ e.uses → before = []) →
    e.traced w true bound = .ok (e.eager w bound)
  | .input _, _, _ => rfl
  | .op o ins, hc, hf => by
    simp only [Expr.traced, tracedAll_tf2 w bound ins (by simpa [Expr.uses] using hc)
      (by simpa [Expr.uses] using hf)]
    rfl
  | .result _, _, _ => rfl
  | .ids before path x, hc, hf => by
    simp only [Expr.traced, traced_tf2 w bound x (fun b v h => hc b v (by simp [Expr.uses, h]))
      (fun b v h => hf b v (by simp [Expr.uses, h])), bind, Except.bind]
    rw [construct_tf2 w bound before path _ (fun n h => hc before n (by simp [Expr.uses, h]))
      (fun c h => hf before c (by simp [Expr.uses, h]))]
    rfl
  | .size before path, hc, hf => by
    simp only [Expr.traced, bind, Except.bind]
    rw [construct_tf2 w bound before path _ (fun n h => hc before n (by simp [Expr.uses, h]))
      (fun c h => hf before c (by simp [Expr.uses, h]))]
    rfl
theorem tracedAll_tf2 (w : World V Op An) (bound : List (String × V)) : (es : List (Expr V Op)) →
    (∀ before v, (before, .vocabulary v) ∈ Expr.usesOf es → v ∈ before) →
    (∀ before c, (before, .file c) ∈ Expr.usesOf es → before = []) →
    Expr.tracedAll w true bound es = .ok (Expr.eagers w bound es)
  | [], _, _ => rfl
  | e :: es, hc, hf => by
    simp only [Expr.tracedAll, traced_tf2 w bound e (fun b v h => hc b v (by simp [Expr.usesOf, h]))
        (fun b v h => hf b v (by simp [Expr.usesOf, h])),
      tracedAll_tf2 w bound es (fun b v h => hc b v (by simp [Expr.usesOf, h]))
        (fun b v h => hf b v (by simp [Expr.usesOf, h]))]
    rfl
end

theorem seqExcept_ok_map {α β : Type} (l : List α) (f : α → Except Err β) (g : α → β)
    (h : ∀ x ∈ l, f x = .ok (g x)) : seqExcept (l.map f) = .ok (l.map g) := by
  induction l with
  | nil => rfl
  | cons a l ih =>
    simp only [List.map_cons, seqExcept, h a (by simp), ih (fun x hx => h x (by simp [hx]))]
    rfl

theorem trace_tf1 (w : World V Op An) (bound : List (String × V)) (prog : Program V Op An) :
    prog.trace w false bound = .ok prog.ideal := by
  unfold Program.trace
  rw [seqExcept_ok_map _ _ (fun e => (e.1, e.2.ideal))
    (fun e _ => by simp only [traced_tf1, Except.bind])]
  rfl

theorem trace_tf2 (w : World V Op An) (bound : List (String × V)) (prog : Program V Op An)
    (hw : WellFormed prog) (hf : NoFileAfterVocabulary prog) :
    prog.trace w true bound = .ok (prog.eager w bound) := by
  unfold Program.trace
  rw [seqExcept_ok_map _ _ (fun e => (e.1, e.2.eager w bound))
    (fun e he => by
      simp only [traced_tf2 w bound e.2 (hw.called e.1 e.2 he) (hf e.1 e.2 he), Except.bind])]
  rfl

/-! ## Lemmas: the ideal trace has the meaning of the program -/

mutual
theorem ideal_value (w : World V Op An) (tf2 : Bool) (σ : String → V) (b : List (String × V)) :
    (e : Expr V Op) → e.ideal.value (w.meaning tf2) σ b = e.value w σ b
  | .input _ => rfl
  | .op o ins => by
    simp only [Expr.ideal, Tensor.value, Expr.value, ideals_value w tf2 σ b ins]
    rfl
  | .result _ => rfl
  | .ids _ path x => by
    cases path <;>
    · simp only [Expr.ideal, idealIds, Tensor.value, Tensor.values, Expr.value, ideal_value w tf2 σ b x]
      cases x.value w σ b <;> rfl
  | .size _ path => by cases path <;> rfl
theorem ideals_value (w : World V Op An) (tf2 : Bool) (σ : String → V) (b : List (String × V)) :
    (es : List (Expr V Op)) → Tensor.values (w.meaning tf2) σ b (Expr.ideals es) = Expr.values w σ b es
  | [] => rfl
  | e :: es => by
    simp only [Expr.ideals, Tensor.values, Expr.values, ideal_value w tf2 σ b e, ideals_value w tf2 σ b es]
end

mutual
theorem ideal_analyzers : (e : Expr V Op) → e.ideal.analyzers = e.analyzers
  | .input _ => rfl
  | .op o ins => by simp only [Expr.ideal, Tensor.analyzers, Expr.analyzers, ideals_analyzers ins]
  | .result _ => rfl
  | .ids _ path x => by
    cases path <;>
      simp [Expr.ideal, idealIds, Tensor.analyzers, Tensor.analyzersOf, Expr.analyzers, Path.analyzers,
        ideal_analyzers x]
  | .size _ path => by
    cases path <;>
      simp [Expr.ideal, idealSize, Tensor.analyzers, Tensor.analyzersOf, Expr.analyzers, Path.analyzers]
theorem ideals_analyzers : (es : List (Expr V Op)) → Tensor.analyzersOf (Expr.ideals es) = Expr.analyzersOf es
  | [] => rfl
  | e :: es => by
    simp only [Expr.ideals, Tensor.analyzersOf, Expr.analyzersOf, ideal_analyzers e, ideals_analyzers es]
end

theorem mem_ideal {prog : Program V Op An} {n : String} {e : Expr V Op} (h : (n, e) ∈ prog.tensors) :
    (n, e.ideal) ∈ prog.ideal.tensors :=
  List.mem_map.2 ⟨(n, e), h, rfl⟩

theorem ideal_wellFormed {prog : Program V Op An} (hw : WellFormed prog) :
    Analyze.WellFormed prog.ideal where
  tensors := by simpa [Program.ideal, List.map_map, Function.comp_def] using hw.tensors
  sinks := hw.sinks
  ordered pre s post he n hn := by
    obtain ⟨e, h1, h2⟩ := hw.ordered pre s post he n hn
    exact ⟨e.ideal, mem_ideal h1, by rw [ideal_analyzers]; exact h2⟩
  outputs o ho := by
    obtain ⟨e, h1, h2⟩ := hw.outputs o ho
    exact ⟨e.ideal, mem_ideal h1, by rw [ideal_analyzers]; exact h2⟩

theorem ideal_hasValue (w : World V Op An) (tf2 : Bool) (prog : Program V Op An) (σ : String → V)
    (b : List (String × V)) (n : String) (v : V) :
    Analyze.HasValue (w.meaning tf2) prog.ideal σ b n v ↔ HasValue w prog σ b n v := by
  constructor
  · rintro ⟨t, h1, h2⟩
    obtain ⟨e, he, heq⟩ := List.mem_map.1 h1
    simp only [Prod.mk.injEq] at heq
    obtain ⟨rfl, rfl⟩ := heq
    exact ⟨e.2, he, by rw [← ideal_value w tf2]; exact h2⟩
  · rintro ⟨e, h1, h2⟩
    exact ⟨e.ideal, mem_ideal h1, by rw [ideal_value]; exact h2⟩

theorem ideal_results (w : World V Op An) (tf2 : Bool) (prog : Program V Op An)
    (batches : List (List (String × V))) (σ : String → V) :
    Analyze.Results (w.meaning tf2) prog.ideal batches σ ↔ Results w prog batches σ := by
  have h : Analyze.HasValue (w.meaning tf2) prog.ideal σ = HasValue w prog σ := by
    funext b n v; exact propext (ideal_hasValue w tf2 prog σ b n v)
  unfold Analyze.Results Results SinkResult
  rw [h]
  rfl

theorem ideal_outputs (w : World V Op An) (tf2 : Bool) (prog : Program V Op An) (σ : String → V)
    (batch out : List (String × V)) :
    Analyze.OutputsAre (w.meaning tf2) prog.ideal σ batch out ↔ OutputsAre w prog σ batch out := by
  have h : Analyze.HasValue (w.meaning tf2) prog.ideal σ = HasValue w prog σ := by
    funext b n v; exact propext (ideal_hasValue w tf2 prog σ b n v)
  unfold Analyze.OutputsAre OutputsAre
  rw [h]
  rfl

/-! ## Lemmas: the traces with TF2 behaviour agree with the ideal trace -/

mutual
theorem eager_reads (w : World V Op An) (bound : List (String × V)) (k : String) :
    (e : Expr V Op) → (e.eager w bound).reads k = e.ideal.reads k
  | .input _ => rfl
  | .op o ins => by simp only [Expr.eager, Expr.ideal, Tensor.reads, eagers_reads w bound k ins]
  | .result _ => rfl
  | .ids _ path x => by
    cases path with
    | file c => simp only [Expr.eager, Expr.ideal, eagerIds, idealIds, Tensor.reads, Tensor.readsAny,
        eager_reads w bound k x]
    | vocabulary n =>
      simp only [Expr.eager, Expr.ideal, eagerIds, idealIds]
      cases bound.lookup n <;>
        simp only [Tensor.reads, Tensor.readsAny, eager_reads w bound k x, Bool.or_false]
  | .size _ path => by
    cases path with
    | file c => rfl
    | vocabulary n =>
      simp only [Expr.eager, Expr.ideal, eagerSize, idealSize]
      cases bound.lookup n <;> simp [Tensor.reads, Tensor.readsAny]
theorem eagers_reads (w : World V Op An) (bound : List (String × V)) (k : String) :
    (es : List (Expr V Op)) →
    Tensor.readsAny k (Expr.eagers w bound es) = Tensor.readsAny k (Expr.ideals es)
  | [] => rfl
  | e :: es => by
    simp only [Expr.eagers, Expr.ideals, Tensor.readsAny, eager_reads w bound k e, eagers_reads w bound k es]
end

mutual
theorem eager_analyzers (w : World V Op An) : (e : Expr V Op) → (e.eager w []).analyzers = e.waits
  | .input _ => rfl
  | .op o ins => by simp only [Expr.eager, Tensor.analyzers, Expr.waits, eagers_analyzers w ins]
  | .result _ => rfl
  | .ids _ path x => by
    cases path <;>
      simp [Expr.eager, eagerIds, Tensor.analyzers, Tensor.analyzersOf, Expr.waits, Path.analyzers,
        eager_analyzers w x]
  | .size _ path => by
    cases path <;> simp [Expr.eager, eagerSize, Tensor.analyzers, Tensor.analyzersOf, Expr.waits]
theorem eagers_analyzers (w : World V Op An) : (es : List (Expr V Op)) →
    Tensor.analyzersOf (Expr.eagers w [] es) = Expr.waitsOf es
  | [] => rfl
  | e :: es => by
    simp only [Expr.eagers, Tensor.analyzersOf, Expr.waitsOf, eager_analyzers w e, eagers_analyzers w es]
end

mutual
theorem analyzers_iff : (e : Expr V Op) → ∀ n, n ∈ e.analyzers ↔ n ∈ e.waits ∨ n ∈ e.sizes
  | .input _ => by simp [Expr.sizes, Expr.waits, Expr.analyzers]
  | .op o ins => by
    intro n
    simp only [Expr.sizes, Expr.waits, Expr.analyzers]
    exact analyzersOf_iff ins n
  | .result _ => by simp [Expr.sizes, Expr.waits, Expr.analyzers]
  | .ids _ path x => by
    intro n
    simp only [Expr.sizes, Expr.waits, Expr.analyzers, List.mem_append, analyzers_iff x n]
    tauto
  | .size _ path => by simp [Expr.sizes, Expr.waits, Expr.analyzers]
theorem analyzersOf_iff : (es : List (Expr V Op)) →
    ∀ n, n ∈ Expr.analyzersOf es ↔ n ∈ Expr.waitsOf es ∨ n ∈ Expr.sizesOf es
  | [] => by simp [Expr.sizesOf, Expr.waitsOf, Expr.analyzersOf]
  | e :: es => by
    intro n
    simp only [Expr.sizesOf, Expr.waitsOf, Expr.analyzersOf, List.mem_append, analyzers_iff e n,
      analyzersOf_iff es n]
    tauto
end

mutual
theorem eager_eval (w : World V Op An) (bound : List (String × V)) (b : List (String × V)) :
    (e : Expr V Op) → (∀ n ∈ e.sizes, n ∈ bound.map Prod.fst) →
    (e.eager w bound).eval (w.meaning true) bound b = e.ideal.eval (w.meaning true) bound b
  | .input _, _ => rfl
  | .op o ins, h => by
    simp only [Expr.eager, Expr.ideal, Tensor.eval]
    rw [eagers_eval w bound b ins (by simpa [Expr.sizes] using h)]
  | .result _, _ => rfl
  | .ids _ path x, h => by
    have ih := eager_eval w bound b x (by simpa [Expr.sizes] using h)
    cases path with
    | file c => simp only [Expr.eager, Expr.ideal, eagerIds, idealIds, Tensor.eval, Tensor.evals, ih]
    | vocabulary n =>
      simp only [Expr.eager, Expr.ideal, eagerIds, idealIds]
      cases hl : bound.lookup n <;> simp only [Tensor.eval, Tensor.evals, ih, hl] <;>
        cases (x.ideal.eval (w.meaning true) bound b) <;> rfl
  | .size _ path, h => by
    cases path with
    | file c => rfl
    | vocabulary n =>
      simp only [Expr.eager, Expr.ideal, eagerSize, idealSize]
      cases hl : bound.lookup n with
      | none => exact absurd (h n (by simp [Expr.sizes, Path.analyzers])) ((lookup_none _ _).1 hl)
      | some v =>
        simp only [Tensor.eval, Tensor.evals, hl]
        rfl
theorem eagers_eval (w : World V Op An) (bound : List (String × V)) (b : List (String × V)) :
    (es : List (Expr V Op)) → (∀ n ∈ Expr.sizesOf es, n ∈ bound.map Prod.fst) →
    Tensor.evals (w.meaning true) bound b (Expr.eagers w bound es)
      = Tensor.evals (w.meaning true) bound b (Expr.ideals es)
  | [], _ => rfl
  | e :: es, h => by
    simp only [Expr.eagers, Expr.ideals, Tensor.evals]
    rw [eager_eval w bound b e (fun n hn => h n (by simp [Expr.sizesOf, hn])),
      eagers_eval w bound b es (fun n hn => h n (by simp [Expr.sizesOf, hn]))]
end

theorem lookup_map {α β : Type} (l : List (String × α)) (f : α → β) (n : String) :
    (l.map fun e => (e.1, f e.2)).lookup n = (l.lookup n).map f := by
  induction l with
  | nil => rfl
  | cons a l ih =>
    rw [List.map_cons, List.lookup_cons, List.lookup_cons]
    cases n == a.1 with
    | true => rfl
    | false => exact ih

theorem eager_fingerprint (w : World V Op An) (bound : List (String × V)) (prog : Program V Op An)
    (keys : List String) : (prog.eager w bound).fingerprint keys = prog.ideal.fingerprint keys := by
  unfold Trace.fingerprint Trace.sourceKeys Program.eager Program.ideal
  simp only [lookup_map]
  congr 1
  funext s
  congr 1
  congr 1
  funext k
  congr 1
  funext n
  cases prog.tensors.lookup n with
  | none => rfl
  | some e => exact eager_reads w bound k e

theorem sinkReady_iff (tr : Trace (TOp V Op) An) (known : List String) (s : Sink An) :
    tr.sinkReady known s = true ↔
      ∀ n ∈ s.ins, ∃ t, tr.tensors.lookup n = some t ∧ ∀ x ∈ t.analyzers, x ∈ known := by
  unfold Trace.sinkReady
  rw [List.all_eq_true]
  refine forall_congr' fun n => forall_congr' fun _ => ?_
  cases tr.tensors.lookup n with
  | none => simp
  | some t => simp [ready_iff]

theorem eager_sinkReady (w : World V Op An) (prog : Program V Op An) (hn : SizesWaitedFor prog)
    (hw : WellFormed prog) (known : List String) (s : Sink An) (hs : s ∈ prog.sinks) :
    (prog.eager w []).sinkReady known s = prog.ideal.sinkReady known s := by
  rw [Bool.eq_iff_iff, sinkReady_iff, sinkReady_iff]
  have he : ∀ n, (prog.eager w []).tensors.lookup n = (prog.tensors.lookup n).map (Expr.eager w []) :=
    lookup_map _ _
  have hi : ∀ n, prog.ideal.tensors.lookup n = (prog.tensors.lookup n).map Expr.ideal := lookup_map _ _
  simp only [he, hi, Option.map_eq_some_iff]
  constructor
  · intro h n hmem
    obtain ⟨_, ⟨e, hl, rfl⟩, h2⟩ := h n hmem
    refine ⟨e.ideal, ⟨e, hl, rfl⟩, fun x hx => ?_⟩
    rw [ideal_analyzers, analyzers_iff] at hx
    rcases hx with hx | hx
    · exact h2 x (by rw [eager_analyzers]; exact hx)
    · obtain ⟨n', hm', e', he', hx'⟩ := hn s hs n hmem e ((lookup_iff _ hw.tensors n e).1 hl) x hx
      obtain ⟨_, ⟨e'', hl', rfl⟩, h2'⟩ := h n' hm'
      rw [(lookup_iff _ hw.tensors n' e').2 he'] at hl'
      obtain rfl := Option.some.inj hl'
      exact h2' x (by rw [eager_analyzers]; exact hx')
  · intro h n hmem
    obtain ⟨_, ⟨e, hl, rfl⟩, h2⟩ := h n hmem
    refine ⟨e.eager w [], ⟨e, hl, rfl⟩, fun x hx => h2 x ?_⟩
    rw [eager_analyzers] at hx
    rw [ideal_analyzers, analyzers_iff]
    exact .inl hx

theorem eager_tensor_eval (w : World V Op An) (bound : List (String × V)) (prog : Program V Op An)
    (b : List (String × V)) (n : String)
    (h : ∀ e, prog.tensors.lookup n = some e → ∀ x ∈ e.sizes, x ∈ bound.map Prod.fst) :
    ((prog.eager w bound).tensor n).bind (Tensor.eval (w.meaning true) bound b)
      = (prog.ideal.tensor n).bind (Tensor.eval (w.meaning true) bound b) := by
  unfold Trace.tensor Program.eager Program.ideal
  simp only [lookup_map]
  cases hl : prog.tensors.lookup n with
  | none => rfl
  | some e =>
    simp only [Option.map_some, Except.bind]
    exact eager_eval w bound b e (h e hl)

theorem eager_features (w : World V Op An) (bound : List (String × V)) (prog : Program V Op An)
    (hw : WellFormed prog) (hc : prog.ideal.complete bound = true) (b : List (String × V)) :
    (prog.eager w bound).features (w.meaning true) bound b
      = prog.ideal.features (w.meaning true) bound b := by
  unfold Trace.features
  congr 1
  show prog.outputs.map _ = prog.outputs.map _
  apply List.map_congr_left
  intro o ho
  rw [eager_tensor_eval w bound prog b o.2]
  intro e he x hx
  obtain ⟨e', h1, h2⟩ := hw.outputs o ho
  have : e = e' := by
    have := (lookup_iff _ hw.tensors _ _).2 h1
    rw [he] at this
    exact Option.some.inj this
  subst this
  obtain ⟨s, hs, rfl⟩ := List.mem_map.1 (h2 x ((analyzers_iff e x).2 (.inr hx)))
  unfold Trace.complete at hc
  rw [List.all_eq_true] at hc
  simpa using hc s hs

theorem eager_complete (w : World V Op An) (bound bound' : List (String × V)) (prog : Program V Op An) :
    (prog.eager w bound').complete bound = prog.ideal.complete bound := rfl

theorem eager_bindSink (w : World V Op An) (bound : List (String × V)) (prog : Program V Op An)
    (hw : WellFormed prog) (batches : List (List (String × V)))
    (s : Sink An) (hr : prog.ideal.sinkReady (bound.map Prod.fst) s = true) :
    bindSink (w.meaning true) (prog.eager w bound) bound batches s
      = bindSink (w.meaning true) prog.ideal bound batches s := by
  unfold bindSink
  congr 2
  apply List.map_congr_left
  intro b _
  unfold intermediate
  rw [eager_complete]
  by_cases hc : prog.ideal.complete bound = true
  · rw [if_pos hc, if_pos hc, eager_features w bound prog hw hc]
  · rw [if_neg hc, if_neg hc]
    unfold Trace.fetch
    congr 1
    apply List.map_congr_left
    intro n hmem
    apply eager_tensor_eval
    intro e he x hx
    obtain ⟨t, hl, ht⟩ := (sinkReady_iff _ _ _).1 hr n hmem
    rw [show prog.ideal.tensors.lookup n = (prog.tensors.lookup n).map Expr.ideal from lookup_map _ _ _,
      he] at hl
    obtain rfl := Option.some.inj hl
    exact ht x (by rw [ideal_analyzers, analyzers_iff]; exact .inr hx)

/-- The phases are those of the analysis of the ideal trace. -/
theorem phases_eq (w : World V Op An) (tf2 : Bool) (keys : List String) (prog : Program V Op An)
    (first : Trace (TOp V Op) An) (again : List (String × V) → Trace (TOp V Op) An)
    (data : Nat → List (List (String × V)))
    (ha : ∀ bound, retrace w tf2 prog first bound = .ok (again bound))
    (hr : ∀ known, ∀ s ∈ prog.sinks, first.sinkReady known s = prog.ideal.sinkReady known s)
    (hf : first.fingerprint keys = prog.ideal.fingerprint keys)
    (hfa : ∀ bound, (again bound).fingerprint keys = prog.ideal.fingerprint keys)
    (hb : ∀ bound batches, ∀ s, prog.ideal.sinkReady (bound.map Prod.fst) s = true →
      bindSink (w.meaning tf2) (again bound) bound batches s
        = bindSink (w.meaning tf2) prog.ideal bound batches s)
    (k : Nat) : ∀ (p : Nat) (todo : List (Sink An)) (bound : List (String × V)), todo.length ≤ k →
    (∀ s ∈ todo, s ∈ prog.sinks) →
    phases w tf2 keys prog first data p todo bound
      = Analyze.phases (w.meaning tf2) keys prog.ideal (fun _ => prog.ideal) data p todo bound := by
  induction k with
  | zero =>
    intro p todo bound hk _
    have : todo = [] := List.length_eq_zero_iff.1 (Nat.le_zero.1 hk)
    subst this
    rw [phases, Analyze.phases]
    rfl
  | succ k ih =>
    intro p todo bound hk hsub
    have hready : first.ready bound todo = prog.ideal.ready bound todo :=
      List.filter_congr (fun s hs => hr _ s (hsub s hs))
    have hwait : first.waiting bound todo = prog.ideal.waiting bound todo :=
      List.filter_congr (fun s hs => by rw [hr _ s (hsub s hs)])
    rw [phases, Analyze.phases]
    by_cases ht : todo.isEmpty = true
    · rw [if_pos ht, if_pos ht]
    · rw [if_neg ht, if_neg ht]
      by_cases hne : (prog.ideal.ready bound todo).isEmpty = true
      · rw [dif_pos hne, dif_pos (by rw [hready]; exact hne)]
      · rw [dif_neg hne, dif_neg (by rw [hready]; exact hne)]
        simp only [ha, Except.bind, hf, hfa]
        have hlt := waiting_lt prog.ideal bound todo hne
        have hmap : (first.ready bound todo).map (bindSink (w.meaning tf2) (again bound) bound (data p))
            = (prog.ideal.ready bound todo).map (bindSink (w.meaning tf2) prog.ideal bound (data p)) := by
          rw [hready]
          apply List.map_congr_left
          intro s hs
          exact hb _ _ s (List.mem_filter.1 hs).2
        rw [hmap, hwait]
        have hih : ∀ new, phases w tf2 keys prog first data (p + 1) (prog.ideal.waiting bound todo) (bound ++ new)
            = Analyze.phases (w.meaning tf2) keys prog.ideal (fun _ => prog.ideal) data (p + 1)
              (prog.ideal.waiting bound todo) (bound ++ new) := fun new =>
          ih _ _ _ (by omega) (fun s hs => hsub s (List.mem_of_mem_filter hs))
        simp only [hih]

theorem same_refl (tr : Trace (TOp V Op) An) : SameUpToOrder tr tr :=
  ⟨List.Perm.refl _, rfl, List.Perm.refl _⟩

theorem analyze_tf1 (w : World V Op An) (keys : List String) (prog : Program V Op An)
    (data : Nat → List (List (String × V))) :
    analyze w false keys prog data
      = analyzeDataset (w.meaning false) keys prog.ideal (fun _ => prog.ideal) data := by
  unfold analyze analyzeDataset
  simp only [trace_tf1, Except.bind]
  rw [phases_eq w false keys prog prog.ideal (fun _ => prog.ideal) data (fun _ => rfl)
    (fun _ _ _ => rfl) rfl (fun _ => rfl) (fun _ _ _ _ => rfl) prog.sinks.length 0 prog.sinks [] le_rfl
    (fun _ h => h)]
  rfl

theorem analyze_tf2 (w : World V Op An) (keys : List String) (prog : Program V Op An) (hw : WellFormed prog)
    (hf : NoFileAfterVocabulary prog) (hn : SizesWaitedFor prog)
    (data : Nat → List (List (String × V))) :
    analyze w true keys prog data
      = analyzeDataset (w.meaning true) keys prog.ideal (fun _ => prog.ideal) data := by
  unfold analyze analyzeDataset
  have hre : ∀ first bound, retrace w true prog first bound = .ok (prog.eager w bound) := by
    intro first bound
    unfold retrace
    rw [if_pos rfl]
    exact trace_tf2 w bound prog hw hf
  simp only [trace_tf2 w [] prog hw hf, Except.bind, hre]
  rw [phases_eq w true keys prog (prog.eager w []) (prog.eager w) data (hre _)
    (fun known s hs => eager_sinkReady w prog hn hw known s hs) (eager_fingerprint w [] prog keys)
    (fun bound => eager_fingerprint w bound prog keys)
    (fun bound batches s hr => eager_bindSink w bound prog hw batches s hr)
    prog.sinks.length 0 prog.sinks [] le_rfl (fun _ h => h)]
  change _ = (Analyze.phases (w.meaning true) keys prog.ideal (fun _ => prog.ideal) data 0 prog.sinks []).bind _
  cases hp : Analyze.phases (w.meaning true) keys prog.ideal (fun _ => prog.ideal) data 0 prog.sinks [] with
  | error e => rfl
  | ok r =>
    obtain ⟨P, bound⟩ := r
    have hi := (phases_sound (w.meaning true) keys prog.ideal (ideal_wellFormed hw) (fun _ => prog.ideal)
      (fun _ => same_refl _) data prog.ideal.sinks.length 0 prog.ideal.sinks [] P bound le_rfl
      (inv_start _) hp).1
    have hc : prog.ideal.complete bound = true := by
      unfold Trace.complete
      rw [List.all_eq_true]
      intro s hs
      simpa using (hi.keys s hs).2 (by simp)
    simp only [eager_fingerprint]
    cases validate (prog.ideal.fingerprint keys) (prog.ideal.fingerprint keys) with
    | error e => rfl
    | ok u =>
      have : final (w.meaning true) (prog.eager w []) (prog.eager w bound) bound
          = final (w.meaning true) prog.ideal prog.ideal bound := by
        funext batch
        unfold final
        rw [eager_complete, if_pos hc, if_pos hc]
        exact eager_features w bound prog hw hc batch
      simp only [Except.bind, this]

theorem construct_refused (w : World V Op An) (before : List String) (c : V) (hb : before ≠ [])
    (t : Tensor (TOp V Op)) :
    constructAndLookup (trackedAfter w true [] before) (assetOf true [] (.file c)) t
      = .error "ValueError: Expected asset_filepath to be a tf.Tensor." := by
  have he : ¬ (trackedAfter w true [] before).isEmpty = true := by
    rw [List.isEmpty_iff]
    simpa [trackedAfter] using hb
  unfold constructAndLookup resolve
  rw [if_neg he]
  rfl

mutual
theorem traced_refused (w : World V Op An) (before : List String) (c : V) (hb : before ≠ []) :
    (e : Expr V Op) → (before, .file c) ∈ e.uses → ∃ err, e.traced w true [] = .error err
  | .input _, h => by simp [Expr.uses] at h
  | .op o ins, h => by
    obtain ⟨err, he⟩ := tracedAll_refused w before c hb ins (by simpa [Expr.uses] using h)
    exact ⟨err, by simp only [Expr.traced, he]; rfl⟩
  | .result _, h => by simp [Expr.uses] at h
  | .ids before' path x, h => by
    simp only [Expr.uses, List.mem_append, List.mem_singleton] at h
    rcases h with h | h
    · obtain ⟨err, he⟩ := traced_refused w before c hb x h
      exact ⟨err, by simp only [Expr.traced, he]; rfl⟩
    · simp only [Prod.mk.injEq] at h
      obtain ⟨rfl, rfl⟩ := h
      cases hx : x.traced w true [] with
      | error err => exact ⟨err, by simp only [Expr.traced, hx]; rfl⟩
      | ok t =>
        refine ⟨_, by
          simp only [Expr.traced, hx, bind, Except.bind]
          rw [construct_refused w before c hb t]⟩
  | .size before' path, h => by
    simp only [Expr.uses, List.mem_singleton, Prod.mk.injEq] at h
    obtain ⟨rfl, rfl⟩ := h
    exact ⟨_, by
      simp only [Expr.traced, bind, Except.bind]
      rw [construct_refused w before c hb _]⟩
theorem tracedAll_refused (w : World V Op An) (before : List String) (c : V) (hb : before ≠ []) :
    (es : List (Expr V Op)) → (before, .file c) ∈ Expr.usesOf es →
    ∃ err, Expr.tracedAll w true [] es = .error err
  | [], h => by simp [Expr.usesOf] at h
  | e :: es, h => by
    simp only [Expr.usesOf, List.mem_append] at h
    cases hx : e.traced w true [] with
    | error err => exact ⟨err, by simp only [Expr.tracedAll, hx]; rfl⟩
    | ok t =>
      rcases h with h | h
      · obtain ⟨err, he⟩ := traced_refused w before c hb e h
        rw [hx] at he
        cases he
      · obtain ⟨err, he⟩ := tracedAll_refused w before c hb es h
        exact ⟨err, by simp only [Expr.tracedAll, hx, he]; rfl⟩
end

theorem seqExcept_error {α β : Type} (l : List α) (f : α → Except Err β) (x : α) (hx : x ∈ l)
    (h : ∃ err, f x = .error err) : ∃ err, seqExcept (l.map f) = .error err := by
  induction l with
  | nil => simp at hx
  | cons a l ih =>
    cases ha : f a with
    | error err => exact ⟨err, by simp only [List.map_cons, seqExcept, ha]; rfl⟩
    | ok v =>
      rcases List.mem_cons.1 hx with rfl | hx
      · obtain ⟨err, he⟩ := h
        rw [ha] at he
        cases he
      · obtain ⟨err, he⟩ := ih hx
        exact ⟨err, by simp only [List.map_cons, seqExcept, ha, he]; rfl⟩

/-! ## Theorems -/

/-- With TF1 behaviour: if the analyzers have results, the analysis succeeds, and for every batch the transform
function computes the outputs with the complete vocabularies: every lookup is a lookup in, and every size is that
of, the file that the vocabulary's analyzer gives, also in the inputs of other analyzers. -/
theorem tf1_analysis_uses_complete_vocabularies (w : World V Op An)
    (hperm : ∀ a xs ys, xs.Perm ys → w.analyze a xs = w.analyze a ys)
    (keys : List String) (prog : Program V Op An) (hw : WellFormed prog)
    (data : Nat → List (List (String × V))) (batches : List (List (String × V)))
    (hd : ∀ p, (data p).Perm batches) (σ : String → V) (hσ : Results w prog batches σ) :
    ∃ f, analyze w false keys prog data = .ok f ∧
      ∀ batch out, f batch = .ok out ↔ OutputsAre w prog σ batch out := by
  obtain ⟨f, h1, h2⟩ := analysis_computes_the_meaning (w.meaning false) hperm keys prog.ideal
    (ideal_wellFormed hw) (fun _ => prog.ideal) (fun _ => same_refl _) data batches hd σ
    ((ideal_results w false prog batches σ).2 hσ)
  exact ⟨f, by rw [analyze_tf1]; exact h1, fun batch out => by rw [h2, ideal_outputs]⟩

/-- With TF2 behaviour the same holds, if analyzers that are applied to the size of a vocabulary are also applied to
its ids or file, and no file is given by a string after a vocabulary was called. (Missing: the other cases, for which
it is false; see below.) -/
theorem tf2_analysis_uses_complete_vocabularies_partial (w : World V Op An)
    (hperm : ∀ a xs ys, xs.Perm ys → w.analyze a xs = w.analyze a ys)
    (keys : List String) (prog : Program V Op An) (hw : WellFormed prog)
    (hf : NoFileAfterVocabulary prog) (hn : SizesWaitedFor prog)
    (data : Nat → List (List (String × V))) (batches : List (List (String × V)))
    (hd : ∀ p, (data p).Perm batches) (σ : String → V) (hσ : Results w prog batches σ) :
    ∃ f, analyze w true keys prog data = .ok f ∧
      ∀ batch out, f batch = .ok out ↔ OutputsAre w prog σ batch out := by
  obtain ⟨f, h1, h2⟩ := analysis_computes_the_meaning (w.meaning true) hperm keys prog.ideal
    (ideal_wellFormed hw) (fun _ => prog.ideal) (fun _ => same_refl _) data batches hd σ
    ((ideal_results w true prog batches σ).2 hσ)
  exact ⟨f, by rw [analyze_tf2 w keys prog hw hf hn]; exact h1, fun batch out => by rw [h2, ideal_outputs]⟩

/-- Conversely, an analysis that succeeds has found the results, and computes the outputs with the complete
vocabularies. -/
theorem tf1_successful_analysis_used_complete_vocabularies [Inhabited V] (w : World V Op An)
    (hperm : ∀ a xs ys, xs.Perm ys → w.analyze a xs = w.analyze a ys)
    (keys : List String) (prog : Program V Op An) (hw : WellFormed prog)
    (data : Nat → List (List (String × V))) (batches : List (List (String × V)))
    (hd : ∀ p, (data p).Perm batches) (f : List (String × V) → Except Err (List (String × V)))
    (ha : analyze w false keys prog data = .ok f) :
    ∃ σ, Results w prog batches σ ∧ ∀ batch out, f batch = .ok out ↔ OutputsAre w prog σ batch out := by
  rw [analyze_tf1] at ha
  obtain ⟨σ, h1, h2⟩ := successful_analysis_found_the_results (w.meaning false) hperm keys prog.ideal
    (ideal_wellFormed hw) (fun _ => prog.ideal) (fun _ => same_refl _) data batches hd f ha
  exact ⟨σ, (ideal_results w false prog batches σ).1 h1, fun batch out => by rw [h2, ideal_outputs]⟩

/-- The same with TF2 behaviour, under the conditions of `tf2_analysis_uses_complete_vocabularies_partial`. -/
theorem tf2_successful_analysis_used_complete_vocabularies_partial [Inhabited V] (w : World V Op An)
    (hperm : ∀ a xs ys, xs.Perm ys → w.analyze a xs = w.analyze a ys)
    (keys : List String) (prog : Program V Op An) (hw : WellFormed prog)
    (hf : NoFileAfterVocabulary prog) (hn : SizesWaitedFor prog)
    (data : Nat → List (List (String × V))) (batches : List (List (String × V)))
    (hd : ∀ p, (data p).Perm batches) (f : List (String × V) → Except Err (List (String × V)))
    (ha : analyze w true keys prog data = .ok f) :
    ∃ σ, Results w prog batches σ ∧ ∀ batch out, f batch = .ok out ↔ OutputsAre w prog σ batch out := by
  rw [analyze_tf2 w keys prog hw hf hn] at ha
  obtain ⟨σ, h1, h2⟩ := successful_analysis_found_the_results (w.meaning true) hperm keys prog.ideal
    (ideal_wellFormed hw) (fun _ => prog.ideal) (fun _ => same_refl _) data batches hd f ha
  exact ⟨σ, (ideal_results w true prog batches σ).1 h1, fun batch out => by rw [h2, ideal_outputs]⟩

/-- With TF2 behaviour a file given by a string is refused if any vocabulary was called before, whether or not the
two have to do with each other. With TF1 behaviour it is accepted
(`tf1_analysis_uses_complete_vocabularies`), and so it is before the call. -/
theorem tf2_string_path_refused_after_vocabulary (w : World V Op An) (keys : List String)
    (prog : Program V Op An) (data : Nat → List (List (String × V))) (n : String) (e : Expr V Op)
    (he : (n, e) ∈ prog.tensors) (before : List String) (hb : before ≠ []) (c : V)
    (hu : (before, .file c) ∈ e.uses) : ∃ err, analyze w true keys prog data = .error err := by
  obtain ⟨err, h⟩ := traced_refused w before c hb e hu
  obtain ⟨err', h'⟩ := seqExcept_error prog.tensors
    (fun e => (e.2.traced w true []).bind fun t => .ok (e.1, t)) (n, e) he ⟨err, by simp only [h]; rfl⟩
  refine ⟨err', ?_⟩
  have : prog.trace w true [] = .error err' := by
    unfold Program.trace
    rw [h']
    rfl
  unfold analyze
  rw [this]
  rfl

/-! ## Cases -/

namespace Cases

/-- Analyzers of lists of natural numbers: the vocabulary of the numbers up to the largest one, and the largest
number. -/
inductive A where
  | vocabulary
  | largest

def largestOf (rows : List (List (List Nat))) : Nat := rows.flatten.flatten.foldr max 0

/-- The operation of the user adds two lists; a temporary vocabulary has one entry. -/
def world : World (List Nat) Unit A where
  op
    | (), [a, b] => .ok (List.zipWith (· + ·) a b)
    | _, _ => .error "TypeError"
  analyze
    | .vocabulary, rows => .ok (List.range (largestOf rows + 1))
    | .largest, rows => .ok [largestOf rows]
  lookup file x := .ok (x.map file.idxOf)
  size file := .ok [file.length]
  temporary _ := [99]

theorem world_perm : ∀ a xs ys, xs.Perm ys → world.analyze a xs = world.analyze a ys := by
  intro a xs ys h
  have hl : largestOf xs = largestOf ys :=
    List.Perm.foldr_eq (lcomm := ⟨fun a b c => by omega⟩) h.flatten.flatten 0
  cases a <;> simp only [world, hl]

def ids : Expr (List Nat) Unit := .ids ["vocab"] (.vocabulary "vocab") (.input "x")

/-- The ids plus the number of buckets. -/
def raised : Expr (List Nat) Unit := .op () [ids, .size ["vocab"] (.vocabulary "vocab")]

/-- `ids = compute_and_apply_vocabulary(x)`, `y = ids + largest(ids + n)`, where `n` is the number of buckets. -/
def scaled : Program (List Nat) Unit A where
  tensors := [("x", .input "x"), ("raised", raised), ("y", .op () [ids, .result "largest"]),
    ("n", .size ["vocab"] (.vocabulary "vocab"))]
  outputs := [("y", "y"), ("n", "n")]
  sinks := [⟨"vocab", .vocabulary, ["x"]⟩, ⟨"largest", .largest, ["raised"]⟩]
  composite := false

def batches : List (List (String × List Nat)) := [[("x", [4])], [("x", [2])]]

def results (n : String) : List Nat := if n = "vocab" then [0, 1, 2, 3, 4] else [9]

theorem scaled_wellFormed : WellFormed scaled := by
  refine ⟨by decide, by decide, ?_, ?_, ?_⟩
  · intro pre s post he n hn
    rcases pre with _ | ⟨a, _ | ⟨b, pre⟩⟩
    · simp only [scaled, List.nil_append, List.cons.injEq] at he
      obtain ⟨rfl, -⟩ := he
      simp only [List.mem_singleton] at hn
      subst hn
      exact ⟨.input "x", by simp [scaled], by simp [Expr.analyzers]⟩
    · simp only [scaled, List.cons_append, List.nil_append, List.cons.injEq] at he
      obtain ⟨rfl, rfl, -⟩ := he
      simp only [List.mem_singleton] at hn
      subst hn
      exact ⟨raised, by simp [scaled], by simp [raised, ids, Expr.analyzers, Expr.analyzersOf, Path.analyzers]⟩
    · simp [scaled] at he
  · intro o ho
    simp only [scaled, List.mem_cons, List.not_mem_nil, or_false] at ho
    rcases ho with rfl | rfl
    · exact ⟨.op () [ids, .result "largest"], by simp [scaled],
        by simp [ids, scaled, Expr.analyzers, Expr.analyzersOf, Path.analyzers]⟩
    · exact ⟨.size ["vocab"] (.vocabulary "vocab"), by simp [scaled],
        by simp [scaled, Expr.analyzers, Path.analyzers]⟩
  · intro n e he before v hu
    simp only [scaled, List.mem_cons, Prod.mk.injEq, List.not_mem_nil, or_false] at he
    rcases he with ⟨-, rfl⟩ | ⟨-, rfl⟩ | ⟨-, rfl⟩ | ⟨-, rfl⟩ <;>
      simp [raised, ids, Expr.uses, Expr.usesOf] at hu <;> simp [hu]

theorem scaled_results : Results world scaled batches results := by
  intro s hs
  simp only [scaled, List.mem_cons, List.not_mem_nil, or_false] at hs
  rcases hs with rfl | rfl
  · refine ⟨[[[4]], [[2]]], ?_, by decide⟩
    exact .cons (.cons ⟨.input "x", by simp [scaled], rfl⟩ .nil)
      (.cons (.cons ⟨.input "x", by simp [scaled], rfl⟩ .nil) .nil)
  · refine ⟨[[[9]], [[7]]], ?_, by decide⟩
    exact .cons (.cons ⟨raised, by simp [scaled], by rfl⟩ .nil)
      (.cons (.cons ⟨raised, by simp [scaled], by rfl⟩ .nil) .nil)

theorem scaled_noFile : NoFileAfterVocabulary scaled := by
  intro n e he before v hu
  simp only [scaled, List.mem_cons, Prod.mk.injEq, List.not_mem_nil, or_false] at he
  rcases he with ⟨-, rfl⟩ | ⟨-, rfl⟩ | ⟨-, rfl⟩ | ⟨-, rfl⟩ <;>
    simp [raised, ids, Expr.uses, Expr.usesOf] at hu

theorem scaled_waits : SizesWaitedFor scaled := by
  intro s hs n hn e he v hv
  simp only [scaled, List.mem_cons, List.not_mem_nil, or_false] at hs
  rcases hs with rfl | rfl <;> simp only [List.mem_singleton] at hn <;> subst hn <;>
    simp [scaled] at he <;> subst he
  · simp [Expr.sizes] at hv
  · simp [raised, ids, Expr.sizes, Expr.sizesOf, Path.analyzers] at hv
    subst hv
    exact ⟨"raised", by simp, raised, by simp [scaled],
      by simp [raised, ids, Expr.waits, Expr.waitsOf, Path.analyzers]⟩

/-- An analyzer that is applied to ids and the number of buckets, in two phases with data in another order: the hypotheses are met. -/
example : ∃ f, analyze world true ["x"] scaled (fun p => if p = 0 then batches else batches.reverse) = .ok f ∧
    f [("x", [3])] = .ok [("y", [12]), ("n", [5])] := by
  obtain ⟨f, h1, h2⟩ := tf2_analysis_uses_complete_vocabularies_partial world world_perm ["x"] scaled
    scaled_wellFormed scaled_noFile scaled_waits
    (fun p => if p = 0 then batches else batches.reverse) batches
    (fun p => by
      by_cases hp : p = 0
      · simp only [hp, if_true]; exact List.Perm.refl _
      · simp only [hp, if_false]; exact List.reverse_perm _)
    results scaled_results
  refine ⟨f, h1, (h2 _ _).2 ?_⟩
  exact .cons ⟨rfl, .op () [ids, .result "largest"], by simp [scaled], by rfl⟩
    (.cons ⟨rfl, .size ["vocab"] (.vocabulary "vocab"), by simp [scaled], by rfl⟩ .nil)

/-- An analyzer is applied to the number of buckets only. -/
def sizeAnalyzed : Program (List Nat) Unit A where
  tensors := [("x", .input "x"), ("n", .size ["vocab"] (.vocabulary "vocab")), ("y", .result "largest")]
  outputs := [("y", "y"), ("n", "n")]
  sinks := [⟨"vocab", .vocabulary, ["x"]⟩, ⟨"largest", .largest, ["n"]⟩]
  composite := false

/-- A file given by a string, before or after the call of a vocabulary. -/
def withFile (before : List String) : Program (List Nat) Unit A where
  tensors := [("x", .input "x"), ("v", ids), ("f", .ids before (.file [7, 8, 9]) (.input "x"))]
  outputs := [("v", "v"), ("f", "f")]
  sinks := [⟨"vocab", .vocabulary, ["x"]⟩]
  composite := false

end Cases

/-- With TF2 behaviour an analyzer that is applied only to the size of a vocabulary is not evaluated after the
vocabulary but together with it, and gets the size of the temporary file: here `1` instead of `5`. The size
itself is right in the output. With TF1 behaviour the analyzer's result is right. -/
theorem size_of_temporary_vocabulary_analyzed :
    ((analyze Cases.world false ["x"] Cases.sizeAnalyzed (fun _ => Cases.batches)).toOption.bind
      fun f => (f [("x", [3])]).toOption) = some [("y", [5]), ("n", [5])] ∧
    ((analyze Cases.world true ["x"] Cases.sizeAnalyzed (fun _ => Cases.batches)).toOption.bind
      fun f => (f [("x", [3])]).toOption) = some [("y", [1]), ("n", [5])] := by
  refine ⟨?_, ?_⟩ <;> decide +kernel

/-- A file given by a string: accepted before the call of an unrelated vocabulary and with TF1 behaviour, refused
after it with TF2 behaviour. -/
theorem string_path_depends_on_order :
    ((analyze Cases.world true ["x"] (Cases.withFile []) (fun _ => Cases.batches)).toOption.bind
      fun f => (f [("x", [8])]).toOption) = some [("v", [5]), ("f", [1])] ∧
    ((analyze Cases.world false ["x"] (Cases.withFile ["vocab"]) (fun _ => Cases.batches)).toOption.bind
      fun f => (f [("x", [8])]).toOption) = some [("v", [5]), ("f", [1])] ∧
    (analyze Cases.world true ["x"] (Cases.withFile ["vocab"]) (fun _ => Cases.batches)).toOption.isNone := by
  refine ⟨?_, ?_, ?_⟩ <;> decide +kernel

/-! ## The number of buckets -/

theorem override_found (overrides later : Overrides) (t : String) (lo hi : Int) (hl : ∀ o ∈ later, o.1 ≠ t) :
    getOverride (setOverride overrides t lo hi ++ later) t = .ok (lo, hi) := by
  unfold getOverride setOverride
  have : ((overrides ++ [(t, lo, hi)] ++ later).reverse).lookup t = some (lo, hi) := by
    rw [List.reverse_append, List.reverse_append]
    simp only [List.reverse_singleton]
    have hn : later.reverse.lookup t = none := by
      rw [lookup_none]
      intro hc
      obtain ⟨o, ho, hot⟩ := List.mem_map.1 hc
      exact hl o (List.mem_reverse.1 ho) hot
    rw [List.lookup_append, hn]
    simp
  rw [this]

/-- `apply_vocabulary` with a table of `n` words (and `numOovBuckets` buckets, which the size of the table
includes): the number of buckets is that of the table, unless the default value lies above it; it does not depend on what is
annotated for other tensors later. -/
theorem num_buckets_of_ids (overrides later : Overrides) (t : String) (n : Nat) (d oov : Int)
    (hl : ∀ o ∈ later, o.1 ≠ t) :
    getNumBuckets (annotateIds overrides t (if 0 < oov then n + oov else n) d oov ++ later) t
      = .ok (if 0 < oov then n + oov else max n (d + 1)) := by
  have h := fun lo hi => override_found overrides later t lo hi hl
  unfold getNumBuckets annotateIds
  by_cases ho : 0 < oov
  · rw [if_neg (by omega), h]
    simp only [bind, Except.bind, if_pos ho]
    congr 1
    omega
  · rw [if_pos (by omega), h]
    simp only [bind, Except.bind, if_neg ho]
    congr 1
    omega

/-- The annotated range is the smallest one with all ids that `apply_vocabulary` may give: those of the `n ≥ 1` words,
and those of the buckets or the default value. -/
theorem range_of_ids (overrides later : Overrides) (t : String) (n : Nat) (hn : 0 < n) (d oov : Int)
    (hl : ∀ o ∈ later, o.1 ≠ t) :
    ∃ lo hi, getOverride (annotateIds overrides t (if 0 < oov then n + oov else n) d oov ++ later) t
        = .ok (lo, hi) ∧
      (∀ id : Int, ((0 ≤ id ∧ id < n) ∨ (0 < oov ∧ n ≤ id ∧ id < n + oov) ∨ (oov ≤ 0 ∧ id = d)) →
        lo ≤ id ∧ id ≤ hi) ∧
      (lo = 0 ∨ (oov ≤ 0 ∧ lo = d)) ∧ (hi = n - 1 ∨ (0 < oov ∧ hi = n + oov - 1) ∨ (oov ≤ 0 ∧ hi = d)) := by
  unfold annotateIds
  by_cases ho : 0 < oov
  · rw [if_neg (by omega), override_found overrides later t _ _ hl]
    exact ⟨_, _, rfl, fun id h => by rw [if_pos ho]; omega, .inl rfl, .inr (.inl ⟨ho, by rw [if_pos ho]⟩)⟩
  · rw [if_pos (by omega), override_found overrides later t _ _ hl, if_neg ho]
    exact ⟨_, _, rfl, fun id h => by omega, by omega, by omega⟩

/-- A tensor that is not annotated is refused. -/
theorem num_buckets_refused (overrides : Overrides) (t : String) (h : ∀ o ∈ overrides, o.1 ≠ t) :
    ∃ err, getNumBuckets overrides t = .error err := by
  have hn : overrides.reverse.lookup t = none := by
    rw [lookup_none]
    intro hc
    obtain ⟨o, ho, hot⟩ := List.mem_map.1 hc
    exact h o (List.mem_reverse.1 ho) hot
  refine ⟨_, by
    unfold getNumBuckets getOverride
    rw [hn]
    rfl⟩

/-- `apply_buckets` with `k` boundaries has `k + 1` buckets. -/
theorem num_buckets_of_buckets (overrides : Overrides) (t : String) (boundaries : List ℚ) :
    getNumBuckets (annotateBuckets overrides t boundaries) t = .ok (boundaries.length + 1) := by
  unfold getNumBuckets annotateBuckets getOverride setOverride
  rw [List.reverse_append]
  simp
  rfl

example : getNumBuckets (annotateIds [("z", 0, 9)] "ids" 5 (-1) 0 ++ [("b", 0, 3)]) "ids" = .ok 5 := by
  have := num_buckets_of_ids [("z", 0, 9)] [("b", 0, 3)] "ids" 5 (-1) 0 (by simp)
  simpa using this

end TFT.VocabTables
