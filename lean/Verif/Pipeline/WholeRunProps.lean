import Verif.Pipeline.WholeRun
import Verif.Pipeline.AnalyzeProps

/-!
# Every row is transformed with the results of the whole dataset (C81)

The specification is about rows and mentions neither batches nor phases.
-/

namespace TFT.WholeRun

open TFT.Analyze

variable {R Op An : Type}

/-! ## Specification -/

mutual
/-- The value that a tensor of the `preprocessing_fn` has for one row when the analyzers have the
results `σ`. -/
def rowValue (prog : Program R Op An) (σ : String → R) (row : String → R) :
    Tensor Op → Except Err R
  | .input key => .ok (row key)
  | .op o ins => (rowValues prog σ row ins).bind (prog.op o)
  | .sink name => .ok (σ name)
def rowValues (prog : Program R Op An) (σ : String → R) (row : String → R) :
    List (Tensor Op) → Except Err (List R)
  | [] => .ok []
  | t :: ts => (rowValue prog σ row t).bind fun v =>
      (rowValues prog σ row ts).bind fun vs => .ok (v :: vs)
end

/-- The tensor called `n` has the value `r` for a row. -/
def RowHas (prog : Program R Op An) (tr : Trace Op An) (σ : String → R) (row : String → R)
    (n : String) (r : R) : Prop :=
  ∃ t, (n, t) ∈ tr.tensors ∧ rowValue prog σ row t = .ok r

/-- `σ` are the results of the analyzers on the rows of a dataset: every analyzer, applied to the
values of its inputs for all rows, gives its result. -/
def RowResults (prog : Program R Op An) (tr : Trace Op An) (rows : List (String → R))
    (σ : String → R) : Prop :=
  ∀ s ∈ tr.sinks, ∃ values,
    List.Forall₂ (fun row vs => List.Forall₂ (RowHas prog tr σ row) s.ins vs) rows values ∧
      prog.analyze s.analyzer values = .ok (σ s.name)

/-- `out` is the transformed row: the outputs of the `preprocessing_fn`, by key. -/
def Transformed (prog : Program R Op An) (tr : Trace Op An) (σ : String → R) (row : String → R)
    (out : List (String × R)) : Prop :=
  List.Forall₂ (fun o kv => kv.1 = o.1 ∧ RowHas prog tr σ row o.2 kv.2) tr.outputs out

/-- The `preprocessing_fn` works on rows: its inputs are columns of the dataset, and each input of an
analyzer and each output is computed from at least one column. -/
structure OnRows (keys : List String) (tr : Trace Op An) : Prop where
  inputs : ∀ nt ∈ tr.tensors, ∀ k ∈ nt.2.inputs, k ∈ keys
  analyzed : ∀ s ∈ tr.sinks, s.ins ≠ [] ∧ ∀ n ∈ s.ins, ∀ t, (n, t) ∈ tr.tensors → t.inputs ≠ []
  some_output : tr.outputs ≠ []
  transformed : ∀ o ∈ tr.outputs, ∀ t, (o.2, t) ∈ tr.tensors → t.inputs ≠ []

/-- A way to cut rows into batches, none of which is empty, after putting them in some order. -/
def Batches (rows : List (String → R)) (batches : List (List (String → R))) : Prop :=
  batches.flatten.Perm rows ∧ ∀ b ∈ batches, b ≠ []

/-! ## Lemmas -/

/-- What the value of a tensor for a batch is. -/
def Is (prog : Program R Op An) (σ : String → R) (rows : List (String → R)) (t : Tensor Op)
    (v : Val R) : Prop :=
  (match v with
    | .fixed _ => t.inputs = []
    | .rows l => t.inputs ≠ [] ∧ l.length = rows.length) ∧
  ∀ (i : Nat) (row : String → R), rows[i]? = some row →
    ∃ r, v.at i = .ok r ∧ rowValue prog σ row t = .ok r

theorem forall₂_nil_iff {α β : Type} {P : α → β → Prop} (l : List β) :
    List.Forall₂ P [] l ↔ l = [] := by simp

mutual
theorem rowValue_const (prog : Program R Op An) (σ : String → R) (row row' : String → R) :
    (t : Tensor Op) → t.inputs = [] → rowValue prog σ row t = rowValue prog σ row' t
  | .input _, h => by rw [Tensor.inputs] at h; simp at h
  | .op o ins, h => by
    rw [Tensor.inputs] at h
    rw [rowValue, rowValue, rowValues_const prog σ row row' ins h]
  | .sink _, _ => by rw [rowValue, rowValue]
theorem rowValues_const (prog : Program R Op An) (σ : String → R) (row row' : String → R) :
    (ts : List (Tensor Op)) → Tensor.inputsOf ts = [] →
      rowValues prog σ row ts = rowValues prog σ row' ts
  | [], _ => by rw [rowValues, rowValues]
  | t :: ts, h => by
    rw [Tensor.inputsOf, List.append_eq_nil_iff] at h
    rw [rowValues, rowValues, rowValue_const prog σ row row' t h.1,
      rowValues_const prog σ row row' ts h.2]
end

theorem rowValues_iff (prog : Program R Op An) (σ : String → R) (row : String → R) :
    (ts : List (Tensor Op)) → (vs : List R) → (rowValues prog σ row ts = .ok vs ↔
      List.Forall₂ (fun t v => rowValue prog σ row t = .ok v) ts vs)
  | [], vs => by rw [rowValues, forall₂_nil_iff, Except.ok.injEq, eq_comm]
  | t :: ts, vs => by
    rw [rowValues]
    cases h : rowValue prog σ row t with
    | error e =>
      simp only [Except.bind, reduceCtorEq, false_iff]
      intro hF
      cases hF with
      | cons h1 _ => rw [h] at h1; cases h1
    | ok v =>
      simp only [Except.bind]
      cases h' : rowValues prog σ row ts with
      | error e =>
        simp only [reduceCtorEq, false_iff]
        intro hF
        cases hF with
        | cons _ h2 => rw [← rowValues_iff prog σ row ts, h'] at h2; cases h2
      | ok vs' =>
        simp only [Except.ok.injEq]
        constructor
        · rintro rfl
          exact .cons h ((rowValues_iff prog σ row ts vs').1 h')
        · intro hF
          cases hF with
          | cons h1 h2 =>
            rw [h, Except.ok.injEq] at h1
            rw [← rowValues_iff prog σ row ts, h', Except.ok.injEq] at h2
            rw [h1, h2]

/-- The values of a row, read off the values of a batch. -/
theorem values_at (prog : Program R Op An) (σ : String → R) (rows : List (String → R))
    (ts : List (Tensor Op)) (vs : List (Val R)) (h : List.Forall₂ (Is prog σ rows) ts vs)
    (i : Nat) (row : String → R) (hi : rows[i]? = some row) :
    ∃ args, seqExcept (vs.map (Val.at i)) = .ok args ∧ rowValues prog σ row ts = .ok args := by
  induction h with
  | nil => exact ⟨[], rfl, by rw [rowValues]⟩
  | @cons t v ts vs h _ ih =>
    obtain ⟨args, h1, h2⟩ := ih
    obtain ⟨r, h3, h4⟩ := h.2 i row hi
    refine ⟨r :: args, ?_, ?_⟩
    · rw [seqExcept_map_iff] at h1 ⊢
      exact .cons h3 h1
    · rw [rowValues, h4, h2]
      rfl

theorem same_size (prog : Program R Op An) (σ : String → R) (rows : List (String → R))
    (ts : List (Tensor Op)) (vs : List (Val R)) (h : List.Forall₂ (Is prog σ rows) ts vs) :
    sameSize rows.length vs = true := by
  unfold sameSize
  rw [List.all_eq_true]
  intro v hv
  obtain ⟨t, -, ht⟩ := forall₂_mem_right h v hv
  cases v with
  | fixed r => rfl
  | rows l =>
    simp only [beq_iff_eq]
    exact ht.1.2

theorem batch_size (prog : Program R Op An) (σ : String → R) (rows : List (String → R))
    (ts : List (Tensor Op)) (vs : List (Val R)) (h : List.Forall₂ (Is prog σ rows) ts vs) :
    (Tensor.inputsOf ts = [] → batchSize vs = none) ∧
      (Tensor.inputsOf ts ≠ [] → batchSize vs = some rows.length) := by
  induction h with
  | nil => exact ⟨fun _ => rfl, fun h => absurd (by rw [Tensor.inputsOf]) h⟩
  | @cons t v ts vs h _ ih =>
    rw [Tensor.inputsOf]
    cases v with
    | fixed r =>
      have ht : t.inputs = [] := h.1
      rw [ht, List.nil_append, batchSize]
      exact ih
    | rows l =>
      have ht : t.inputs ≠ [] ∧ l.length = rows.length := h.1
      refine ⟨fun he => absurd (List.append_eq_nil_iff.1 he).1 ht.1, fun _ => ?_⟩
      rw [batchSize, ht.2]

/-- What an operation or an analyzer sees of a batch. -/
theorem tuples_rows (prog : Program R Op An) (σ : String → R) (rows : List (String → R))
    (ts : List (Tensor Op)) (vs : List (Val R)) (h : List.Forall₂ (Is prog σ rows) ts vs)
    (hts : Tensor.inputsOf ts ≠ []) (out : List (List R)) :
    tuples vs = .ok out ↔ List.Forall₂ (fun row a => rowValues prog σ row ts = .ok a) rows out := by
  unfold tuples
  rw [(batch_size prog σ rows ts vs h).2 hts]
  simp only [same_size prog σ rows ts vs h, if_true]
  rw [seqExcept_map_iff, List.forall₂_iff_get, List.forall₂_iff_get]
  simp only [List.length_range, List.get_eq_getElem, List.getElem_range]
  refine and_congr_right fun hl => forall_congr' fun i => ?_
  constructor
  · intro hh h1 h2
    obtain ⟨args, h3, h4⟩ := values_at prog σ rows ts vs h i rows[i] (List.getElem?_eq_getElem h1)
    rw [h4, ← h3]
    exact hh h1 h2
  · intro hh h1 h2
    obtain ⟨args, h3, h4⟩ := values_at prog σ rows ts vs h i rows[i] (List.getElem?_eq_getElem h1)
    rw [h3, ← h4]
    exact hh h1 h2

theorem tuples_fixed (prog : Program R Op An) (σ : String → R) (row : String → R)
    (rows : List (String → R))
    (ts : List (Tensor Op)) (vs : List (Val R)) (h : List.Forall₂ (Is prog σ (row :: rows)) ts vs)
    (hts : Tensor.inputsOf ts = []) (out : List (List R)) :
    tuples vs = .ok out ↔ ∃ a, out = [a] ∧ rowValues prog σ row ts = .ok a := by
  unfold tuples
  rw [(batch_size prog σ _ ts vs h).1 hts]
  obtain ⟨args, h3, h4⟩ := values_at prog σ _ ts vs h 0 row rfl
  simp only [h3, h4, Except.bind, Except.ok.injEq]
  constructor
  · intro h; exact ⟨args, h.symm, rfl⟩
  · rintro ⟨a, rfl, rfl⟩; rfl

/-- A tensor that has a value for every row has a value for the batch. -/
theorem is_exists (prog : Program R Op An) (σ : String → R) (row : String → R)
    (rows : List (String → R)) (t : Tensor Op)
    (h : ∀ x ∈ row :: rows, ∃ r, rowValue prog σ x t = .ok r) :
    ∃ v, Is prog σ (row :: rows) t v := by
  by_cases ht : t.inputs = []
  · obtain ⟨r, hr⟩ := h row (by simp)
    refine ⟨.fixed r, ht, fun i x hi => ⟨r, rfl, ?_⟩⟩
    rw [rowValue_const prog σ x row t ht, hr]
  · obtain ⟨rs, hrs⟩ : ∃ rs, List.Forall₂ (fun x r => rowValue prog σ x t = .ok r) (row :: rows) rs := by
      generalize row :: rows = l at h
      induction l with
      | nil => exact ⟨[], .nil⟩
      | cons a l ih =>
        obtain ⟨r, hr⟩ := h a (by simp)
        obtain ⟨rs, hrs⟩ := ih fun x hx => h x (by simp [hx])
        exact ⟨r :: rs, .cons hr hrs⟩
    refine ⟨.rows rs, ⟨ht, hrs.length_eq.symm⟩, fun i x hi => ?_⟩
    rw [List.forall₂_iff_get] at hrs
    obtain ⟨hlt, he⟩ := List.getElem?_eq_some_iff.1 hi
    have h2 : i < rs.length := by rw [← hrs.1]; exact hlt
    refine ⟨rs[i], ?_, ?_⟩
    · simp only [Val.at, List.getElem?_eq_getElem h2]
    · have := hrs.2 i hlt h2
      simp only [List.get_eq_getElem] at this
      rw [← he]
      exact this

theorem is_exists_all (prog : Program R Op An) (σ : String → R) (row : String → R)
    (rows : List (String → R)) (ts : List (Tensor Op))
    (h : ∀ x ∈ row :: rows, ∃ r, rowValues prog σ x ts = .ok r) :
    ∃ vs, List.Forall₂ (Is prog σ (row :: rows)) ts vs := by
  induction ts with
  | nil => exact ⟨[], .nil⟩
  | cons t ts ih =>
    have h1 : ∀ x ∈ row :: rows, ∃ r, rowValue prog σ x t = .ok r := by
      intro x hx
      obtain ⟨r, hr⟩ := h x hx
      rw [rowValues_iff] at hr
      cases hr with
      | cons h1 _ => exact ⟨_, h1⟩
    have h2 : ∀ x ∈ row :: rows, ∃ r, rowValues prog σ x ts = .ok r := by
      intro x hx
      obtain ⟨r, hr⟩ := h x hx
      rw [rowValues_iff] at hr
      cases hr with
      | cons _ h2 => exact ⟨_, (rowValues_iff _ _ _ _ _).2 h2⟩
    obtain ⟨v, hv⟩ := is_exists prog σ row rows t h1
    obtain ⟨vs, hvs⟩ := ih h2
    exact ⟨v :: vs, .cons hv hvs⟩

/-- The value of an operation for a batch. -/
theorem op_iff (prog : Program R Op An) (σ : String → R) (row : String → R)
    (rows : List (String → R)) (o : Op) (ts : List (Tensor Op)) (vs : List (Val R))
    (h : List.Forall₂ (Is prog σ (row :: rows)) ts vs) (v : Val R) :
    onBatch (prog.op o) vs = .ok v ↔ Is prog σ (row :: rows) (.op o ts) v := by
  unfold onBatch
  by_cases hts : Tensor.inputsOf ts = []
  · obtain ⟨args, h3, h4⟩ := values_at prog σ _ ts vs h 0 row rfl
    rw [(tuples_fixed prog σ row rows ts vs h hts [args]).2 ⟨args, rfl, h4⟩,
      (batch_size prog σ _ ts vs h).1 hts]
    simp only [Except.bind, List.map_cons, List.map_nil]
    have key : ∀ x, rowValue prog σ x (.op o ts) = prog.op o args := by
      intro x
      rw [rowValue, rowValues_const prog σ x row ts hts, h4]
      rfl
    cases hop : prog.op o args with
    | error e =>
      constructor
      · intro hh
        have : seqExcept [(.error e : Except Err R)] = .error e := rfl
        rw [this] at hh
        simp at hh
      · rintro ⟨-, hh⟩
        obtain ⟨r, -, hr⟩ := hh 0 row rfl
        rw [key, hop] at hr
        cases hr
    | ok r =>
      have : seqExcept [(.ok r : Except Err R)] = .ok [r] := rfl
      rw [this]
      simp only [Except.ok.injEq]
      constructor
      · rintro rfl
        refine ⟨by rw [Tensor.inputs]; exact hts, fun i x _ => ⟨r, rfl, ?_⟩⟩
        rw [key, hop]
      · rintro ⟨h1, hh⟩
        cases v with
        | rows l =>
          have h1' : Tensor.inputs (Tensor.op o ts) ≠ [] := h1.1
          rw [Tensor.inputs] at h1'
          exact absurd hts h1'
        | fixed r' =>
          obtain ⟨r'', h5, h6⟩ := hh 0 row rfl
          rw [key, hop, Except.ok.injEq] at h6
          simp only [Val.at, Except.ok.injEq] at h5
          rw [h5, h6]
  · obtain ⟨out, hout⟩ : ∃ out, tuples vs = .ok out := by
      obtain ⟨out, ho⟩ : ∃ out, List.Forall₂ (fun x a => rowValues prog σ x ts = .ok a)
          (row :: rows) out := by
        have : ∀ x ∈ row :: rows, ∃ a, rowValues prog σ x ts = .ok a := by
          intro x hx
          obtain ⟨i, hi⟩ := List.getElem?_of_mem hx
          obtain ⟨a, -, ha⟩ := values_at prog σ _ ts vs h i x hi
          exact ⟨a, ha⟩
        revert this
        generalize row :: rows = l
        intro hl
        induction l with
        | nil => exact ⟨[], .nil⟩
        | cons a l ih =>
          obtain ⟨r, hr⟩ := hl a (by simp)
          obtain ⟨rs, hrs⟩ := ih fun x hx => hl x (by simp [hx])
          exact ⟨r :: rs, .cons hr hrs⟩
      exact ⟨out, (tuples_rows prog σ _ ts vs h hts out).2 ho⟩
    have ho := (tuples_rows prog σ _ ts vs h hts out).1 hout
    rw [hout, (batch_size prog σ _ ts vs h).2 hts]
    simp only [Except.bind]
    have hrow : ∀ rs : List R, seqExcept (out.map (prog.op o)) = .ok rs ↔
        List.Forall₂ (fun x r => rowValue prog σ x (.op o ts) = .ok r) (row :: rows) rs := by
      intro rs
      rw [seqExcept_map_iff, List.forall₂_iff_get, List.forall₂_iff_get]
      refine and_congr (by rw [ho.length_eq]) (forall_congr' fun i => ?_)
      rw [List.forall₂_iff_get] at ho
      constructor
      · intro hh h1 h2
        have h1' : i < out.length := by rw [← ho.1]; exact h1
        rw [rowValue, ho.2 i h1 h1']
        exact hh h1' h2
      · intro hh h1 h2
        have h1' : i < (row :: rows).length := by rw [ho.1]; exact h1
        have := hh h1' h2
        rw [rowValue, ho.2 i h1' h1] at this
        exact this
    constructor
    · intro hh
      cases hs : seqExcept (out.map (prog.op o)) with
      | error e => rw [hs] at hh; simp at hh
      | ok rs =>
        rw [hs] at hh
        simp only [Except.ok.injEq] at hh
        subst hh
        have hF := (hrow rs).1 hs
        refine ⟨⟨by rw [Tensor.inputs]; exact hts, hF.length_eq.symm⟩, fun i x hi => ?_⟩
        rw [List.forall₂_iff_get] at hF
        obtain ⟨hlt, he⟩ := List.getElem?_eq_some_iff.1 hi
        have h2 : i < rs.length := by rw [← hF.1]; exact hlt
        refine ⟨rs[i], by simp only [Val.at, List.getElem?_eq_getElem h2], ?_⟩
        have := hF.2 i hlt h2
        simp only [List.get_eq_getElem] at this
        rw [← he]
        exact this
    · rintro ⟨h1, hh⟩
      cases v with
      | fixed r =>
        have h1' : Tensor.inputs (Tensor.op o ts) = [] := h1
        rw [Tensor.inputs] at h1'
        exact absurd h1' hts
      | rows rs =>
        have hl : rs.length = (row :: rows).length := h1.2
        have : seqExcept (out.map (prog.op o)) = .ok rs := by
          rw [hrow, List.forall₂_iff_get]
          refine ⟨hl.symm, fun i h1 h2 => ?_⟩
          obtain ⟨r, h5, h6⟩ := hh i _ (List.getElem?_eq_getElem h1)
          simp only [Val.at, List.getElem?_eq_getElem h2, Except.ok.injEq] at h5
          simp only [List.get_eq_getElem]
          rw [h5]
          exact h6
        rw [this]

theorem lookup_batchOf (keys : List String) (rows : List (String → R)) (k : String) (h : k ∈ keys) :
    (batchOf keys rows).lookup k = some (.rows (rows.map fun row => row k)) := by
  unfold batchOf
  induction keys with
  | nil => simp at h
  | cons a keys ih =>
    rw [List.map_cons, List.lookup_cons]
    by_cases he : k = a
    · subst he; simp
    · have : (k == a) = false := by simpa using he
      rw [this]
      exact ih (by simpa [he] using h)

mutual
/-- The value of a tensor for a batch consists of its values for the rows. -/
theorem value_iff (prog : Program R Op An) (temporary : String → Except Err (Val R))
    (keys : List String) (σ : String → R) (row : String → R) (rows : List (String → R)) :
    (t : Tensor Op) → (∀ k ∈ t.inputs, k ∈ keys) → (v : Val R) →
      (t.value (prog.meaning temporary) (fun x => .fixed (σ x)) (batchOf keys (row :: rows)) = .ok v ↔
        Is prog σ (row :: rows) t v)
  | .input k, hk, v => by
    rw [Tensor.value, lookup_batchOf keys _ k (hk k (by rw [Tensor.inputs]; simp))]
    simp only [Except.ok.injEq]
    constructor
    · rintro rfl
      refine ⟨⟨by rw [Tensor.inputs]; simp, by simp⟩, fun i x hi => ⟨x k, ?_, by rw [rowValue]⟩⟩
      simp only [Val.at, List.getElem?_map, hi, Option.map_some]
    · rintro ⟨h1, hh⟩
      cases v with
      | fixed r =>
        have h1' : Tensor.inputs (Tensor.input (Op := Op) k) = [] := h1
        rw [Tensor.inputs] at h1'
        simp at h1'
      | rows l =>
        have hl : l.length = (row :: rows).length := h1.2
        congr 1
        refine List.ext_getElem (by simp [hl]) fun i h2 h3 => ?_
        have h4 : i < (row :: rows).length := by rw [← hl]; exact h3
        obtain ⟨r, h5, h6⟩ := hh i _ (List.getElem?_eq_getElem h4)
        rw [rowValue, Except.ok.injEq] at h6
        simp only [Val.at, List.getElem?_eq_getElem h3, Except.ok.injEq] at h5
        rw [h5, ← h6, List.getElem_map]
  | .op o ins, hk, v => by
    rw [Tensor.value]
    have hk' : ∀ k ∈ Tensor.inputsOf ins, k ∈ keys := by
      intro k h
      exact hk k (by rw [Tensor.inputs]; exact h)
    constructor
    · intro hh
      cases hv : Tensor.values (prog.meaning temporary) (fun x => .fixed (σ x))
          (batchOf keys (row :: rows)) ins with
      | error e => rw [hv] at hh; simp [Except.bind] at hh
      | ok vs =>
        rw [hv] at hh
        exact (op_iff prog σ row rows o ins vs
          ((values_iff prog temporary keys σ row rows ins hk' vs).1 hv) v).1 hh
    · intro hh
      obtain ⟨vs, hvs⟩ := is_exists_all prog σ row rows ins (by
        intro x hx
        obtain ⟨i, hi⟩ := List.getElem?_of_mem hx
        obtain ⟨r, -, hr⟩ := hh.2 i x hi
        rw [rowValue] at hr
        cases hv : rowValues prog σ x ins with
        | error e => rw [hv] at hr; simp [Except.bind] at hr
        | ok a => exact ⟨a, rfl⟩)
      rw [(values_iff prog temporary keys σ row rows ins hk' vs).2 hvs]
      exact (op_iff prog σ row rows o ins vs hvs v).2 hh
  | .sink n, _, v => by
    rw [Tensor.value, Except.ok.injEq]
    constructor
    · rintro rfl
      exact ⟨by rw [Tensor.inputs], fun i x _ => ⟨σ n, rfl, by rw [rowValue]⟩⟩
    · rintro ⟨h1, hh⟩
      cases v with
      | rows l =>
        have h1' : Tensor.inputs (Tensor.sink (Op := Op) n) ≠ [] := h1.1
        exact absurd (by rw [Tensor.inputs]) h1'
      | fixed r =>
        obtain ⟨r', h5, h6⟩ := hh 0 row rfl
        rw [rowValue, Except.ok.injEq] at h6
        simp only [Val.at, Except.ok.injEq] at h5
        rw [h5, h6]
theorem values_iff (prog : Program R Op An) (temporary : String → Except Err (Val R))
    (keys : List String) (σ : String → R) (row : String → R) (rows : List (String → R)) :
    (ts : List (Tensor Op)) → (∀ k ∈ Tensor.inputsOf ts, k ∈ keys) → (vs : List (Val R)) →
      (Tensor.values (prog.meaning temporary) (fun x => .fixed (σ x)) (batchOf keys (row :: rows)) ts
        = .ok vs ↔ List.Forall₂ (Is prog σ (row :: rows)) ts vs)
  | [], _, vs => by rw [Tensor.values, forall₂_nil_iff, Except.ok.injEq, eq_comm]
  | t :: ts, hk, vs => by
    rw [Tensor.values]
    have hk1 : ∀ k ∈ t.inputs, k ∈ keys := fun k h => hk k (by rw [Tensor.inputsOf]; simp [h])
    have hk2 : ∀ k ∈ Tensor.inputsOf ts, k ∈ keys := fun k h => hk k (by
      rw [Tensor.inputsOf]; simp [h])
    constructor
    · intro hh
      cases hv : t.value (prog.meaning temporary) (fun x => .fixed (σ x))
          (batchOf keys (row :: rows)) with
      | error e => rw [hv] at hh; simp [Except.bind] at hh
      | ok v =>
        cases hw : Tensor.values (prog.meaning temporary) (fun x => .fixed (σ x))
            (batchOf keys (row :: rows)) ts with
        | error e => rw [hv, hw] at hh; simp [Except.bind] at hh
        | ok ws =>
          rw [hv, hw] at hh
          simp only [Except.bind, Except.ok.injEq] at hh
          rw [← hh]
          exact .cons ((value_iff prog temporary keys σ row rows t hk1 v).1 hv)
            ((values_iff prog temporary keys σ row rows ts hk2 ws).1 hw)
    · intro hh
      cases hh with
      | @cons _ v _ ws h1 h2 =>
        rw [(value_iff prog temporary keys σ row rows t hk1 v).2 h1,
          (values_iff prog temporary keys σ row rows ts hk2 ws).2 h2]
        rfl
end

/-- Names stand for tensors. -/
theorem named_iff {β : Type} (tensors : List (String × Tensor Op))
    (hn : (tensors.map Prod.fst).Nodup) (Q : Tensor Op → β → Prop) (ns : List String)
    (ts : List (Tensor Op)) (h : List.Forall₂ (fun n t => (n, t) ∈ tensors) ns ts) (vs : List β) :
    List.Forall₂ (fun n v => ∃ t, (n, t) ∈ tensors ∧ Q t v) ns vs ↔ List.Forall₂ Q ts vs := by
  induction h generalizing vs with
  | nil => simp
  | @cons n t ns ts h _ ih =>
    constructor
    · intro hF
      cases hF with
      | cons h1 h2 =>
        obtain ⟨t', ht', hq⟩ := h1
        have : (n, t') = (n, t) := List.inj_on_of_nodup_map hn ht' h rfl
        rw [Prod.mk.injEq] at this
        rw [← this.2]
        refine .cons hq ?_
        rw [this.2] at *
        exact (ih _).1 h2
    · intro hF
      cases hF with
      | cons h1 h2 => exact .cons ⟨t, h, h1⟩ ((ih _).2 h2)

theorem forall₂_split {α β : Type} {Q : α → β → Prop} (l m : List α) (out : List β)
    (h : List.Forall₂ Q (l ++ m) out) :
    ∃ a b, out = a ++ b ∧ List.Forall₂ Q l a ∧ List.Forall₂ Q m b := by
  induction l generalizing out with
  | nil => exact ⟨[], out, rfl, .nil, h⟩
  | cons x l ih =>
    rw [List.cons_append] at h
    cases h with
    | @cons _ y _ out h1 h2 =>
      obtain ⟨a, b, rfl, h3, h4⟩ := ih out h2
      exact ⟨y :: a, b, rfl, .cons h1 h3, h4⟩

theorem forall₂_flatten {α β : Type} {Q : α → β → Prop} (ls : List (List α)) (out : List β) :
    List.Forall₂ Q ls.flatten out ↔ ∃ rs, List.Forall₂ (List.Forall₂ Q) ls rs ∧ rs.flatten = out := by
  induction ls generalizing out with
  | nil =>
    rw [List.flatten_nil, forall₂_nil_iff]
    constructor
    · rintro rfl; exact ⟨[], .nil, rfl⟩
    · rintro ⟨rs, h, rfl⟩
      rw [forall₂_nil_iff] at h
      rw [h]; rfl
  | cons l ls ih =>
    rw [List.flatten_cons]
    constructor
    · intro h
      obtain ⟨a, b, rfl, h2, h3⟩ := forall₂_split _ _ _ h
      obtain ⟨rs, h4, rfl⟩ := (ih b).1 h3
      exact ⟨a :: rs, .cons h2 h4, rfl⟩
    · rintro ⟨rs, h, rfl⟩
      cases h with
      | cons h1 h2 =>
        rw [List.flatten_cons]
        exact List.rel_append h1 ((ih _).2 ⟨_, h2, rfl⟩)

/-- Two lists related through a third. -/
theorem forall₂_comp {α β γ : Type} {P : α → β → Prop} {Q : β → γ → Prop} (l : List α) (n : List γ) :
    (∃ m, List.Forall₂ P l m ∧ List.Forall₂ Q m n) ↔ List.Forall₂ (fun a c => ∃ b, P a b ∧ Q b c) l n := by
  constructor
  · rintro ⟨m, h1, h2⟩
    induction h1 generalizing n with
    | nil => cases h2; exact .nil
    | cons h _ ih =>
      cases h2 with
      | cons h3 h4 => exact .cons ⟨_, h, h3⟩ (ih _ h4)
  · intro h
    induction h with
    | nil => exact ⟨[], .nil, .nil⟩
    | cons h _ ih =>
      obtain ⟨b, h1, h2⟩ := h
      obtain ⟨m, h3, h4⟩ := ih
      exact ⟨b :: m, .cons h1 h3, .cons h2 h4⟩

theorem names_tensors (tr : Trace Op An) (ns : List String)
    (h : ∀ n ∈ ns, ∃ t, (n, t) ∈ tr.tensors) :
    ∃ ts, List.Forall₂ (fun n t => (n, t) ∈ tr.tensors) ns ts := by
  induction ns with
  | nil => exact ⟨[], .nil⟩
  | cons n ns ih =>
    obtain ⟨t, ht⟩ := h n (by simp)
    obtain ⟨ts, hts⟩ := ih fun n hn => h n (by simp [hn])
    exact ⟨t :: ts, .cons ht hts⟩

theorem mem_inputsOf (ts : List (Tensor Op)) (k : String) :
    k ∈ Tensor.inputsOf ts ↔ ∃ t ∈ ts, k ∈ t.inputs := by
  induction ts with
  | nil => rw [Tensor.inputsOf]; simp
  | cons t ts ih => rw [Tensor.inputsOf, List.mem_append, ih]; simp

/-- The values that an analyzer sees of one batch. -/
theorem batch_tuples (prog : Program R Op An) (temporary : String → Except Err (Val R))
    (keys : List String) (tr : Trace Op An) (hw : WellFormed tr) (hr : OnRows keys tr)
    (σ : String → R) (s : Sink An) (hs : s ∈ tr.sinks) (b : List (String → R)) (hb : b ≠ [])
    (out : List (List R)) :
    (∃ vals, List.Forall₂ (HasValue (prog.meaning temporary) tr (fun x => .fixed (σ x))
      (batchOf keys b)) s.ins vals ∧ tuples vals = .ok out) ↔
    List.Forall₂ (fun row vs => List.Forall₂ (RowHas prog tr σ row) s.ins vs) b out := by
  obtain ⟨row, rows, rfl⟩ := List.exists_cons_of_ne_nil hb
  have hex : ∀ n ∈ s.ins, ∃ t, (n, t) ∈ tr.tensors := by
    intro n hn
    obtain ⟨pre, post, he⟩ := List.append_of_mem hs
    obtain ⟨t, ht, -⟩ := hw.ordered pre s post he n hn
    exact ⟨t, ht⟩
  obtain ⟨ts, hts⟩ := names_tensors tr s.ins hex
  have hin : ∀ k ∈ Tensor.inputsOf ts, k ∈ keys := by
    intro k hk
    obtain ⟨t, ht, hk⟩ := (mem_inputsOf ts k).1 hk
    obtain ⟨n, -, hn⟩ := forall₂_mem_right hts t ht
    exact hr.inputs _ hn k hk
  have hne : Tensor.inputsOf ts ≠ [] := by
    obtain ⟨h0, h1⟩ := hr.analyzed s hs
    obtain ⟨n, hn⟩ := List.exists_mem_of_ne_nil _ h0
    obtain ⟨t, ht, hnt⟩ := forall₂_mem_right hts.flip n hn
    obtain ⟨k, hk⟩ := List.exists_mem_of_ne_nil _ (h1 n hn t hnt)
    exact List.ne_nil_of_mem ((mem_inputsOf ts k).2 ⟨t, ht, hk⟩)
  have hH : ∀ vals, List.Forall₂ (HasValue (prog.meaning temporary) tr (fun x => .fixed (σ x))
      (batchOf keys (row :: rows))) s.ins vals ↔ List.Forall₂ (Is prog σ (row :: rows)) ts vals := by
    intro vals
    refine (named_iff tr.tensors hw.tensors _ s.ins ts hts vals).trans
      (forall₂_congr_mem fun t ht v => value_iff prog temporary keys σ row rows t ?_ v)
    intro k hk
    exact hin k ((mem_inputsOf ts k).2 ⟨t, ht, hk⟩)
  have hR : ∀ x vs, List.Forall₂ (RowHas prog tr σ x) s.ins vs ↔ rowValues prog σ x ts = .ok vs := by
    intro x vs
    rw [rowValues_iff]
    exact named_iff tr.tensors hw.tensors (fun t v => rowValue prog σ x t = .ok v) s.ins ts hts vs
  constructor
  · rintro ⟨vals, h1, h2⟩
    rw [hH] at h1
    exact ((tuples_rows prog σ _ ts vals h1 hne out).1 h2).imp fun x a h => (hR x a).2 h
  · intro h
    have h' := h.imp fun x a h => (hR x a).1 h
    obtain ⟨vals, hv⟩ := is_exists_all prog σ row rows ts (by
      intro x hx
      obtain ⟨a, -, ha⟩ := forall₂_mem_right h'.flip x hx
      exact ⟨a, ha⟩)
    exact ⟨vals, (hH vals).2 hv, (tuples_rows prog σ _ ts vals hv hne out).2 h'⟩

/-- The result of an analyzer on batches is its result on the rows. -/
theorem sink_rows (prog : Program R Op An) (temporary : String → Except Err (Val R))
    (keys : List String) (tr : Trace Op An) (hw : WellFormed tr) (hr : OnRows keys tr)
    (σ : String → R) (s : Sink An) (hs : s ∈ tr.sinks) (batches : List (List (String → R)))
    (hb : ∀ b ∈ batches, b ≠ []) (v : Val R) :
    SinkResult (prog.meaning temporary) tr (batches.map (batchOf keys)) (fun x => .fixed (σ x)) s v ↔
    ∃ values, List.Forall₂ (fun row vs => List.Forall₂ (RowHas prog tr σ row) s.ins vs)
      batches.flatten values ∧ ∃ r, prog.analyze s.analyzer values = .ok r ∧ v = .fixed r := by
  unfold SinkResult
  have h1 : ∀ vals, (prog.meaning temporary).analyze s.analyzer vals = .ok v ↔
      ∃ ts, List.Forall₂ (fun b t => tuples b = .ok t) vals ts ∧
        ∃ r, prog.analyze s.analyzer ts.flatten = .ok r ∧ v = .fixed r := by
    intro vals
    show onBatches (prog.analyze s.analyzer) vals = .ok v ↔ _
    unfold onBatches
    constructor
    · intro h
      cases ht : seqExcept (vals.map tuples) with
      | error e => rw [ht] at h; simp [Except.bind] at h
      | ok ts =>
        rw [ht] at h
        simp only [Except.bind] at h
        cases hp : prog.analyze s.analyzer ts.flatten with
        | error e => rw [hp] at h; simp at h
        | ok r =>
          rw [hp] at h
          simp only [Except.ok.injEq] at h
          exact ⟨ts, (seqExcept_map_iff _ _ _).1 ht, r, hp, h.symm⟩
    · rintro ⟨ts, ht, r, hp, rfl⟩
      rw [(seqExcept_map_iff _ _ _).2 ht]
      simp only [Except.bind, hp]
  have h2 : ∀ ts, (∃ vals, List.Forall₂ (fun b row => List.Forall₂
        (HasValue (prog.meaning temporary) tr (fun x => .fixed (σ x)) b) s.ins row)
        (batches.map (batchOf keys)) vals ∧ List.Forall₂ (fun b t => tuples b = .ok t) vals ts) ↔
      List.Forall₂ (List.Forall₂ (fun row vs => List.Forall₂ (RowHas prog tr σ row) s.ins vs))
        batches ts := by
    intro ts
    rw [forall₂_comp, List.forall₂_map_left_iff]
    exact forall₂_congr_mem fun b hbm out => batch_tuples prog temporary keys tr hw hr σ s hs b
      (hb b hbm) out
  constructor
  · rintro ⟨vals, h3, h4⟩
    obtain ⟨ts, h5, h6⟩ := (h1 vals).1 h4
    exact ⟨ts.flatten, (forall₂_flatten _ _).2 ⟨ts, (h2 ts).1 ⟨vals, h3, h5⟩, rfl⟩, h6⟩
  · rintro ⟨values, h3, h4⟩
    obtain ⟨ts, h5, rfl⟩ := (forall₂_flatten _ _).1 h3
    obtain ⟨vals, h6, h7⟩ := (h2 ts).2 h5
    exact ⟨vals, h6, (h1 vals).2 ⟨ts, h7, h4⟩⟩

/-- Results do not depend on the way in which rows are cut into batches. -/
theorem results_rows (prog : Program R Op An)
    (hperm : ∀ a xs ys, xs.Perm ys → prog.analyze a xs = prog.analyze a ys)
    (temporary : String → Except Err (Val R))
    (keys : List String) (tr : Trace Op An) (hw : WellFormed tr) (hr : OnRows keys tr)
    (σ : String → R) (s : Sink An) (hs : s ∈ tr.sinks) (rows : List (String → R))
    (batches : List (List (String → R))) (hb : Batches rows batches) :
    SinkResult (prog.meaning temporary) tr (batches.map (batchOf keys)) (fun x => .fixed (σ x)) s
      (.fixed (σ s.name)) ↔
    ∃ values, List.Forall₂ (fun row vs => List.Forall₂ (RowHas prog tr σ row) s.ins vs)
      rows values ∧ prog.analyze s.analyzer values = .ok (σ s.name) := by
  rw [sink_rows prog temporary keys tr hw hr σ s hs batches hb.2]
  constructor
  · rintro ⟨values, h1, r, h2, h3⟩
    simp only [Val.fixed.injEq] at h3
    obtain ⟨values', h4, h5⟩ := List.perm_comp_forall₂ hb.1.symm h1
    exact ⟨values', h4, by rw [hperm _ _ _ h5, h2, h3]⟩
  · rintro ⟨values, h1, h2⟩
    obtain ⟨values', h4, h5⟩ := List.perm_comp_forall₂ hb.1 h1
    exact ⟨values', h4, _, by rw [hperm _ _ _ h5, h2], rfl⟩

theorem transformed_unique (prog : Program R Op An) (tr : Trace Op An) (hw : WellFormed tr)
    (σ : String → R) (row : String → R) (a b : List (String × R)) (ha : Transformed prog tr σ row a)
    (hb : Transformed prog tr σ row b) : a = b := by
  unfold Transformed at ha hb
  generalize tr.outputs = os at ha hb
  induction ha generalizing b with
  | nil => rw [forall₂_nil_iff] at hb; exact hb.symm
  | @cons o kv os out h _ ih =>
    cases hb with
    | @cons _ kv' _ out' h' h2 =>
      rw [ih out' h2]
      congr 1
      obtain ⟨h3, t, ht, h4⟩ := h
      obtain ⟨h3', t', ht', h4'⟩ := h'
      have : (o.2, t') = (o.2, t) := List.inj_on_of_nodup_map hw.tensors ht' ht rfl
      rw [Prod.mk.injEq] at this
      rw [this.2, h4, Except.ok.injEq] at h4'
      exact Prod.ext (h3.trans h3'.symm) h4'

/-- The outputs of a batch, as columns. -/
theorem outputs_columns (prog : Program R Op An) (temporary : String → Except Err (Val R))
    (keys : List String) (tr : Trace Op An) (hr : OnRows keys tr) (σ : String → R)
    (row : String → R) (rows : List (String → R)) (os : List (String × String))
    (hos : ∀ o ∈ os, o ∈ tr.outputs)
    (out : List (String × Val R))
    (h : List.Forall₂ (fun o kv => kv.1 = o.1 ∧ HasValue (prog.meaning temporary) tr
      (fun x => .fixed (σ x)) (batchOf keys (row :: rows)) o.2 kv.2) os out) :
    ∃ cols : List (String × List R), seqExcept (out.map column) = .ok cols ∧
      List.Forall₂ (fun o d => d.1 = o.1 ∧ d.2.length = (row :: rows).length ∧
        ∀ (i : Nat) (x : String → R), (row :: rows)[i]? = some x → ∃ r, d.2[i]? = some r ∧ RowHas prog tr σ x o.2 r)
        os cols := by
  induction h with
  | nil => exact ⟨[], rfl, .nil⟩
  | @cons o kv os out h _ ih =>
    obtain ⟨cols, h1, h2⟩ := ih fun o ho => hos o (by simp [ho])
    obtain ⟨hk, t, ht, hv⟩ := h
    have hin := hr.transformed o (hos o (by simp)) t ht
    rw [value_iff prog temporary keys σ row rows t (hr.inputs _ ht)] at hv
    obtain ⟨k, v⟩ := kv
    cases v with
    | fixed r => exact absurd hv.1 hin
    | rows l =>
      refine ⟨(k, l) :: cols, ?_, .cons ⟨hk, hv.1.2, fun i x hi => ?_⟩ h2⟩
      · rw [seqExcept_map_iff] at h1 ⊢
        exact .cons rfl h1
      · obtain ⟨r, h3, h4⟩ := hv.2 i x hi
        simp only [Val.at] at h3
        cases hl : l[i]? with
        | none => rw [hl] at h3; simp at h3
        | some r' =>
          rw [hl] at h3
          simp only [Except.ok.injEq] at h3
          exact ⟨r', rfl, t, ht, by rw [h4, h3]⟩

theorem instance_row (prog : Program R Op An) (tr : Trace Op An) (σ : String → R)
    (b : List (String → R)) (os : List (String × String)) (cols : List (String × List R))
    (h : List.Forall₂ (fun o d => d.1 = o.1 ∧ d.2.length = b.length ∧
        ∀ (i : Nat) (x : String → R), b[i]? = some x → ∃ r, d.2[i]? = some r ∧ RowHas prog tr σ x o.2 r) os cols)
    (i : Nat) (x : String → R) (hi : b[i]? = some x) :
    List.Forall₂ (fun o kv => kv.1 = o.1 ∧ RowHas prog tr σ x o.2 kv.2) os
      (cols.filterMap fun d => d.2[i]?.map fun r => (d.1, r)) := by
  induction h with
  | nil => exact .nil
  | @cons o d os cols h _ ih =>
    obtain ⟨r, h1, h2⟩ := h.2.2 i x hi
    rw [List.filterMap_cons, h1]
    exact .cons ⟨h.1, h2⟩ ih

/-- A transformed batch becomes its transformed rows. -/
theorem batch_instances (prog : Program R Op An) (temporary : String → Except Err (Val R))
    (keys : List String) (tr : Trace Op An) (hw : WellFormed tr) (hr : OnRows keys tr)
    (σ : String → R) (b : List (String → R)) (hb : b ≠ []) (insts : List (List (String × R))) :
    (∃ out, OutputsAre (prog.meaning temporary) tr (fun x => .fixed (σ x)) (batchOf keys b) out ∧
      toInstances out = .ok insts) ↔ List.Forall₂ (Transformed prog tr σ) b insts := by
  obtain ⟨row, rows, rfl⟩ := List.exists_cons_of_ne_nil hb
  have fwd : ∀ out, OutputsAre (prog.meaning temporary) tr (fun x => .fixed (σ x))
      (batchOf keys (row :: rows)) out → ∃ insts', toInstances out = .ok insts' ∧
        List.Forall₂ (Transformed prog tr σ) (row :: rows) insts' := by
    intro out hout
    obtain ⟨cols, h1, h2⟩ := outputs_columns prog temporary keys tr hr σ row rows tr.outputs
      (fun _ h => h) out hout
    have hl : ∀ d ∈ cols, d.2.length = (row :: rows).length := by
      intro d hd
      obtain ⟨o, -, ho⟩ := forall₂_mem_right h2 d hd
      exact ho.2.1
    unfold toInstances
    rw [h1]
    simp only [Except.bind]
    cases hc : cols with
    | nil =>
      rw [hc] at h2
      have := h2.length_eq
      exact absurd (List.length_eq_zero_iff.1 this) hr.some_output
    | cons c cs =>
      have hall : ((c :: cs).all fun d => d.2.length == c.2.length) = true := by
        rw [List.all_eq_true]
        intro d hd
        rw [beq_iff_eq, hl d (by rw [hc]; exact hd), hl c (by rw [hc]; simp)]
      simp only [hall, if_true]
      refine ⟨_, rfl, ?_⟩
      rw [List.forall₂_iff_get]
      have hcl := hl c (by rw [hc]; simp)
      refine ⟨by simp [hcl], fun i h3 h4 => ?_⟩
      simp only [List.get_eq_getElem, List.getElem_map, List.getElem_range]
      rw [← hc]
      exact instance_row prog tr σ _ tr.outputs cols h2 i _ (List.getElem?_eq_getElem h3)
  constructor
  · rintro ⟨out, h1, h2⟩
    obtain ⟨insts', h3, h4⟩ := fwd out h1
    rw [h2, Except.ok.injEq] at h3
    rw [h3]
    exact h4
  · intro h
    obtain ⟨out, hout⟩ : ∃ out, OutputsAre (prog.meaning temporary) tr (fun x => .fixed (σ x))
        (batchOf keys (row :: rows)) out := by
      unfold OutputsAre
      have hcell : ∀ o ∈ tr.outputs, ∀ x ∈ row :: rows, ∃ r, RowHas prog tr σ x o.2 r := by
        intro o ho x hx
        obtain ⟨inst, -, hi⟩ := forall₂_mem_right h.flip x hx
        obtain ⟨kv, -, hkv⟩ := forall₂_mem_right hi.flip o ho
        exact ⟨_, hkv.2⟩
      revert hcell
      generalize tr.outputs = os
      intro hcell
      induction os with
      | nil => exact ⟨[], .nil⟩
      | cons o os ih =>
        obtain ⟨out, hout⟩ := ih fun o ho => hcell o (by simp [ho])
        obtain ⟨r, t, ht, -⟩ := hcell o (by simp) row (by simp)
        obtain ⟨v, hv⟩ := is_exists prog σ row rows t (by
          intro x hx
          obtain ⟨r', t', ht', hr'⟩ := hcell o (by simp) x hx
          have : (o.2, t') = (o.2, t) := List.inj_on_of_nodup_map hw.tensors ht' ht rfl
          rw [Prod.mk.injEq] at this
          exact ⟨r', by rw [← this.2]; exact hr'⟩)
        refine ⟨(o.1, v) :: out, .cons ⟨rfl, t, ht, ?_⟩ hout⟩
        exact (value_iff prog temporary keys σ row rows t (hr.inputs _ ht) v).2 hv
    obtain ⟨insts', h3, h4⟩ := fwd out hout
    refine ⟨out, hout, ?_⟩
    rw [h3, Except.ok.injEq]
    clear h3 fwd hout
    generalize row :: rows = l at h h4
    induction h generalizing insts' with
    | nil => rw [forall₂_nil_iff] at h4; exact h4
    | cons h5 _ ih =>
      cases h4 with
      | cons h6 h7 => rw [ih _ h7, transformed_unique prog tr hw σ _ _ _ h6 h5]

mutual
theorem rowValue_agree (prog : Program R Op An) (σ σ' : String → R) (row : String → R) :
    (t : Tensor Op) → (∀ x ∈ t.analyzers, σ x = σ' x) → rowValue prog σ row t = rowValue prog σ' row t
  | .input _, _ => by rw [rowValue, rowValue]
  | .op o ins, h => by
    rw [rowValue, rowValue, rowValues_agree prog σ σ' row ins
      (fun x hx => h x (by rw [Tensor.analyzers]; exact hx))]
  | .sink n, h => by rw [rowValue, rowValue, h n (by rw [Tensor.analyzers]; simp)]
theorem rowValues_agree (prog : Program R Op An) (σ σ' : String → R) (row : String → R) :
    (ts : List (Tensor Op)) → (∀ x ∈ Tensor.analyzersOf ts, σ x = σ' x) →
      rowValues prog σ row ts = rowValues prog σ' row ts
  | [], _ => by rw [rowValues, rowValues]
  | t :: ts, h => by
    rw [rowValues, rowValues, rowValue_agree prog σ σ' row t
      (fun x hx => h x (by rw [Tensor.analyzersOf]; simp [hx])),
      rowValues_agree prog σ σ' row ts (fun x hx => h x (by rw [Tensor.analyzersOf]; simp [hx]))]
end

/-! ## Theorems -/

/-- A run of `AnalyzeAndTransformDataset` succeeds with certain instances if and only if the analyzers
have results on the rows of the dataset, and the instances are the rows, each transformed with these
results, in the order of the last pass. It does not matter how the rows are ordered and cut into batches
in each of the passes over the data, or what is held by the placeholders of unknown results. -/
theorem every_row_is_transformed_with_the_results [Inhabited R] (prog : Program R Op An)
    (hperm : ∀ a xs ys, xs.Perm ys → prog.analyze a xs = prog.analyze a ys)
    (temporary : String → Except Err (Val R))
    (keys : List String) (first : Trace Op An) (hw : WellFormed first) (hr : OnRows keys first)
    (retrace : Nat → Trace Op An) (hs : ∀ p, SameUpToOrder first (retrace p))
    (rows : List (String → R)) (data : Nat → List (List (String → R)))
    (hd : ∀ p, Batches rows (data p))
    (last : List (List (String → R))) (hl : ∀ b ∈ last, b ≠ [])
    (insts : List (List (String × R))) :
    analyzeAndTransform (prog.meaning temporary) keys first retrace
        (fun p => (data p).map (batchOf keys)) (last.map (batchOf keys)) = .ok insts ↔
      ∃ σ, RowResults prog first rows σ ∧
        List.Forall₂ (Transformed prog first σ) last.flatten insts := by
  have hlast : ∀ (σ : String → R)
      (f : List (String × Val R) → Except Err (List (String × Val R))),
      (∀ batch out, f batch = .ok out ↔
        OutputsAre (prog.meaning temporary) first (fun x => .fixed (σ x)) batch out) →
      ((seqExcept ((last.map (batchOf keys)).map fun b => (f b).bind toInstances)).bind
          (fun l => .ok l.flatten) = .ok insts ↔
        List.Forall₂ (Transformed prog first σ) last.flatten insts) := by
    intro σ f hf
    have h1 : ∀ l, seqExcept ((last.map (batchOf keys)).map fun b => (f b).bind toInstances) = .ok l ↔
        List.Forall₂ (List.Forall₂ (Transformed prog first σ)) last l := by
      intro l
      rw [seqExcept_map_iff, List.forall₂_map_left_iff]
      refine forall₂_congr_mem fun b hb out => ?_
      rw [← batch_instances prog temporary keys first hw hr σ b (hl b hb) out]
      constructor
      · intro h
        cases hfb : f (batchOf keys b) with
        | error e => rw [hfb] at h; simp [Except.bind] at h
        | ok o =>
          rw [hfb] at h
          exact ⟨o, (hf _ _).1 hfb, h⟩
      · rintro ⟨o, ho, h⟩
        rw [(hf _ _).2 ho]
        exact h
    rw [forall₂_flatten]
    constructor
    · intro h
      cases hq : seqExcept ((last.map (batchOf keys)).map fun b => (f b).bind toInstances) with
      | error e => rw [hq] at h; simp [Except.bind] at h
      | ok l =>
        rw [hq] at h
        simp only [Except.bind, Except.ok.injEq] at h
        exact ⟨l, (h1 l).1 hq, h⟩
    · rintro ⟨l, h2, h3⟩
      rw [(h1 l).2 h2]
      simp only [Except.bind, Except.ok.injEq]
      exact h3
  unfold analyzeAndTransform
  constructor
  · intro h
    cases hf : analyzeDataset (prog.meaning temporary) keys first retrace
        (fun p => (data p).map (batchOf keys)) with
    | error e => rw [hf] at h; simp [Except.bind] at h
    | ok f =>
      rw [hf] at h
      obtain ⟨bound, hb, hσ⟩ := analysis_sound _ keys first hw retrace hs _ f hf
      let σ : String → R := fun x => match bound.lookup x with
        | some (.fixed r) => r
        | _ => default
      obtain ⟨h1, h2⟩ := hσ (fun x => .fixed (σ x)) (by
        intro x hx
        cases hlk : bound.lookup x with
        | none => exact absurd hx ((lookup_none _ _).1 hlk)
        | some v =>
          have hm : (x, v) ∈ bound := by
            clear hb hσ hx
            induction bound with
            | nil => simp at hlk
            | cons kv bound ih =>
              rw [List.lookup_cons] at hlk
              by_cases he : x = kv.1
              · subst he
                simp only [beq_self_eq_true, Option.some.injEq] at hlk
                rw [← hlk]
                simp
              · have : (x == kv.1) = false := by simpa using he
                rw [this] at hlk
                exact List.mem_cons_of_mem _ (ih hlk)
          obtain ⟨a, rs, ha⟩ := hb _ hm
          have : ∃ r, v = .fixed r := by
            have ha' : onBatches (prog.analyze a) rs = .ok v := ha
            unfold onBatches at ha'
            cases h3 : seqExcept (rs.map tuples) with
            | error e => rw [h3] at ha'; simp [Except.bind] at ha'
            | ok ts =>
              rw [h3] at ha'
              simp only [Except.bind] at ha'
              cases h4 : prog.analyze a ts.flatten with
              | error e => rw [h4] at ha'; simp at ha'
              | ok r =>
                rw [h4] at ha'
                simp only [Except.ok.injEq] at ha'
                exact ⟨r, ha'.symm⟩
          obtain ⟨r, rfl⟩ := this
          simp only [σ, hlk])
      refine ⟨σ, fun s hsm => ?_, (hlast σ f h2).1 h⟩
      obtain ⟨p, h3⟩ := h1 s hsm
      exact (results_rows prog hperm temporary keys first hw hr σ s hsm rows (data p) (hd p)).1 h3
  · rintro ⟨σ, h1, h2⟩
    obtain ⟨f, hf, hout⟩ := analysis_ok (prog.meaning temporary) keys first hw retrace hs
      (fun p => (data p).map (batchOf keys)) (fun x => .fixed (σ x)) (fun p s hsm =>
        (results_rows prog hperm temporary keys first hw hr σ s hsm rows (data p) (hd p)).2 (h1 s hsm))
    rw [hf]
    exact (hlast σ f hout).2 h2

/-- The results of the analyzers are determined by the dataset, up to the order of its rows. -/
theorem results_are_unique (prog : Program R Op An)
    (hperm : ∀ a xs ys, xs.Perm ys → prog.analyze a xs = prog.analyze a ys)
    (tr : Trace Op An) (hw : WellFormed tr) (rows rows' : List (String → R)) (hrows : rows.Perm rows')
    (σ σ' : String → R) (h : RowResults prog tr rows σ) (h' : RowResults prog tr rows' σ') :
    ∀ s ∈ tr.sinks, σ s.name = σ' s.name := by
  have key : ∀ pre post, tr.sinks = pre ++ post → ∀ s ∈ pre, σ s.name = σ' s.name := by
    intro pre
    induction pre using List.reverseRecOn with
    | nil => simp
    | append_singleton pre s ih =>
      intro post he x hx
      have he' : tr.sinks = pre ++ s :: post := by rw [he]; simp
      rcases List.mem_append.1 hx with hx | hx
      · exact ih (s :: post) he' x hx
      · rw [List.mem_singleton] at hx
        subst hx
        have hpre := ih (x :: post) he'
        have hsm : x ∈ tr.sinks := by rw [he']; simp
        obtain ⟨vs, h1, h2⟩ := h x hsm
        obtain ⟨vs', h1', h2'⟩ := h' x hsm
        obtain ⟨vs'', h3, h4⟩ := List.perm_comp_forall₂ hrows h1'
        have hone : ∀ (row : String → R) (n : String) (r r' : R), n ∈ x.ins →
            RowHas prog tr σ row n r → RowHas prog tr σ' row n r' → r = r' := by
          rintro row n r r' hn ⟨t, ht, hv⟩ ⟨t', ht', hv'⟩
          obtain ⟨t0, ht0, ha⟩ := hw.ordered pre x post he' n hn
          have e1 : (n, t) = (n, t0) := List.inj_on_of_nodup_map hw.tensors ht ht0 rfl
          have e2 : (n, t') = (n, t0) := List.inj_on_of_nodup_map hw.tensors ht' ht0 rfl
          rw [Prod.mk.injEq] at e1 e2
          rw [e1.2] at hv
          rw [e2.2] at hv'
          rw [rowValue_agree prog σ σ' row t0 (fun y hy => by
            obtain ⟨s', hs', rfl⟩ := List.mem_map.1 (ha y hy)
            exact hpre s' hs'), hv', Except.ok.injEq] at hv
          exact hv.symm
        have hall : ∀ (row : String → R) (ns : List String) (v v' : List R), (∀ n ∈ ns, n ∈ x.ins) →
            List.Forall₂ (RowHas prog tr σ row) ns v → List.Forall₂ (RowHas prog tr σ' row) ns v' →
            v = v' := by
          intro row ns v v' hns hv hv'
          induction hv generalizing v' with
          | nil => rw [forall₂_nil_iff] at hv'; exact hv'.symm
          | @cons n r ns v h5 _ ih2 =>
            cases hv' with
            | cons h6 h7 =>
              rw [hone row n _ _ (hns n (by simp)) h5 h6, ih2 _ (fun n hn => hns n (by simp [hn])) h7]
        have : vs = vs'' := by
          clear h2 h2' h4 h1' h h' hrows
          induction h1 generalizing vs'' with
          | nil => rw [forall₂_nil_iff] at h3; exact h3.symm
          | @cons row v rows vs h5 _ ih2 =>
            cases h3 with
            | cons h6 h7 => rw [hall row x.ins _ _ (fun _ h => h) h5 h6, ih2 _ h7]
        rw [← hperm _ _ _ h4, ← this, h2, Except.ok.injEq] at h2'
        exact h2'
  intro s hsm
  exact key tr.sinks [] (by simp) s hsm

/-- Two runs on the same dataset give the same instances, however the rows are ordered and cut into
batches in each of their passes: if one of them succeeds, so does the other. -/
theorem batches_do_not_matter [Inhabited R] (prog : Program R Op An)
    (hperm : ∀ a xs ys, xs.Perm ys → prog.analyze a xs = prog.analyze a ys)
    (keys : List String) (first : Trace Op An) (hw : WellFormed first) (hr : OnRows keys first)
    (rows : List (String → R))
    (temporary temporary' : String → Except Err (Val R))
    (retrace retrace' : Nat → Trace Op An) (hs : ∀ p, SameUpToOrder first (retrace p))
    (hs' : ∀ p, SameUpToOrder first (retrace' p))
    (data data' : Nat → List (List (String → R))) (last last' : List (List (String → R)))
    (hd : ∀ p, Batches rows (data p)) (hd' : ∀ p, Batches rows (data' p))
    (hl : Batches rows last) (hl' : Batches rows last')
    (insts : List (List (String × R)))
    (hrun : analyzeAndTransform (prog.meaning temporary) keys first retrace
      (fun p => (data p).map (batchOf keys)) (last.map (batchOf keys)) = .ok insts) :
    ∃ insts', analyzeAndTransform (prog.meaning temporary') keys first retrace'
      (fun p => (data' p).map (batchOf keys)) (last'.map (batchOf keys)) = .ok insts' ∧
      insts'.Perm insts := by
  obtain ⟨σ, h1, h2⟩ := (every_row_is_transformed_with_the_results prog hperm temporary keys first hw hr
    retrace hs rows data hd last hl.2 insts).1 hrun
  obtain ⟨insts', h3, h4⟩ := List.perm_comp_forall₂ (hl'.1.trans hl.1.symm) h2
  exact ⟨insts', (every_row_is_transformed_with_the_results prog hperm temporary' keys first hw hr
    retrace' hs' rows data' hd' last' hl'.2 insts').2 ⟨σ, h1, h3⟩, h4⟩

/-- A transform function treats equal rows equally, whatever else is in their batches: in two
transformations with the results of the same dataset, of that dataset or of others, equal rows become
equal instances. -/
theorem equal_rows_become_equal_instances [Inhabited R] (prog : Program R Op An)
    (hperm : ∀ a xs ys, xs.Perm ys → prog.analyze a xs = prog.analyze a ys)
    (keys : List String) (first : Trace Op An) (hw : WellFormed first) (hr : OnRows keys first)
    (rows rows' : List (String → R)) (hrows : rows.Perm rows')
    (temporary temporary' : String → Except Err (Val R))
    (retrace retrace' : Nat → Trace Op An) (hs : ∀ p, SameUpToOrder first (retrace p))
    (hs' : ∀ p, SameUpToOrder first (retrace' p))
    (data data' : Nat → List (List (String → R))) (last last' : List (List (String → R)))
    (hd : ∀ p, Batches rows (data p)) (hd' : ∀ p, Batches rows' (data' p))
    (hl : ∀ b ∈ last, b ≠ []) (hl' : ∀ b ∈ last', b ≠ [])
    (insts insts' : List (List (String × R)))
    (hrun : analyzeAndTransform (prog.meaning temporary) keys first retrace
      (fun p => (data p).map (batchOf keys)) (last.map (batchOf keys)) = .ok insts)
    (hrun' : analyzeAndTransform (prog.meaning temporary') keys first retrace'
      (fun p => (data' p).map (batchOf keys)) (last'.map (batchOf keys)) = .ok insts')
    (i j : Nat) (row : String → R) (hi : last.flatten[i]? = some row)
    (hj : last'.flatten[j]? = some row) :
    ∃ inst, insts[i]? = some inst ∧ insts'[j]? = some inst := by
  obtain ⟨σ, h1, h2⟩ := (every_row_is_transformed_with_the_results prog hperm temporary keys first hw hr
    retrace hs rows data hd last hl insts).1 hrun
  obtain ⟨σ', h1', h2'⟩ := (every_row_is_transformed_with_the_results prog hperm temporary' keys first hw
    hr retrace' hs' rows' data' hd' last' hl' insts').1 hrun'
  have hσ := results_are_unique prog hperm first hw rows rows' hrows σ σ' h1 h1'
  obtain ⟨hi1, hi2⟩ := List.getElem?_eq_some_iff.1 hi
  obtain ⟨hj1, hj2⟩ := List.getElem?_eq_some_iff.1 hj
  rw [List.forall₂_iff_get] at h2 h2'
  have ki : i < insts.length := by rw [← h2.1]; exact hi1
  have kj : j < insts'.length := by rw [← h2'.1]; exact hj1
  have t1 := h2.2 i hi1 ki
  have t2 := h2'.2 j hj1 kj
  simp only [List.get_eq_getElem] at t1 t2
  rw [hi2] at t1
  rw [hj2] at t2
  refine ⟨insts[i], List.getElem?_eq_getElem ki, ?_⟩
  rw [List.getElem?_eq_getElem kj, Option.some.injEq]
  refine transformed_unique prog first hw σ row _ _ ?_ t1
  unfold Transformed at t2 ⊢
  refine (forall₂_congr_mem fun o ho kv => ?_).1 t2
  refine and_congr_right fun _ => ?_
  unfold RowHas
  refine exists_congr fun t => and_congr_right fun ht => ?_
  obtain ⟨t0, ht0, ha⟩ := hw.outputs o ho
  have e : (o.2, t) = (o.2, t0) := List.inj_on_of_nodup_map hw.tensors ht ht0 rfl
  rw [Prod.mk.injEq] at e
  rw [e.2, rowValue_agree prog σ σ' row t0 (fun y hy => by
    obtain ⟨s, hsm, rfl⟩ := List.mem_map.1 (ha y hy)
    exact hσ s hsm)]

/-! ## Cases -/

namespace Cases

open TFT.Analyze.Cases (O A trace trace_wellFormed)

/-- Differences and doubles of integers; sums and largest values. -/
def prog : Program Int O A where
  op
    | .sub, [a, b] => .ok (a - b)
    | .double, [a] => .ok (2 * a)
    | _, _ => .error "TypeError"
  analyze
    | .total, rows => .ok (rows.flatten.foldr (· + ·) 0)
    | .largest, rows => .ok (rows.flatten.foldr max 0)

theorem prog_perm : ∀ a xs ys, xs.Perm ys → prog.analyze a xs = prog.analyze a ys := by
  intro a xs ys h
  have hf := h.flatten
  cases a with
  | total =>
    simp only [prog]
    congr 1
    exact List.Perm.foldr_eq (lcomm := ⟨fun a b c => by omega⟩) hf 0
  | largest =>
    simp only [prog]
    congr 1
    exact List.Perm.foldr_eq (lcomm := ⟨fun a b c => by omega⟩) hf 0

theorem trace_onRows : OnRows ["x"] trace := by
  refine ⟨?_, ?_, by simp [trace], ?_⟩
  · intro nt hnt k hk
    simp only [trace, List.mem_cons, List.not_mem_nil, or_false] at hnt
    rcases hnt with rfl | rfl | rfl <;>
      simpa [Tensor.inputs, Tensor.inputsOf] using hk
  · intro s hs
    simp only [trace, List.mem_cons, List.not_mem_nil, or_false] at hs
    rcases hs with rfl | rfl
    · refine ⟨by simp, fun n hn t ht => ?_⟩
      simp only [List.mem_singleton] at hn
      subst hn
      simp [trace] at ht
      subst ht
      simp [Tensor.inputs]
    · refine ⟨by simp, fun n hn t ht => ?_⟩
      simp only [List.mem_singleton] at hn
      subst hn
      simp [trace] at ht
      subst ht
      simp [Tensor.inputs, Tensor.inputsOf]
  · intro o ho t ht
    simp only [trace, List.mem_singleton] at ho
    subst ho
    simp [trace] at ht
    subst ht
    simp [Tensor.inputs, Tensor.inputsOf]

/-- Rows with the values 4, -9 and 7. -/
def a : String → Int := fun _ => 4
def b : String → Int := fun _ => -9
def c : String → Int := fun _ => 7

/-- The hypotheses of the theorems are met by a run in which every pass sees other batches. -/
example : ∃ insts', analyzeAndTransform (prog.meaning fun _ => .ok (.fixed 0)) ["x"] trace
      (fun _ => trace) (fun p => (if p = 0 then [[a, b], [c]] else [[c], [a], [b]]).map (batchOf ["x"]))
      ([[b], [c, a]].map (batchOf ["x"])) = .ok insts' ∧
      insts'.Perm [[("y", 3)], [("y", -23)], [("y", 9)]] := by
  refine batches_do_not_matter prog prog_perm ["x"] trace trace_wellFormed trace_onRows [a, b, c]
    (fun _ => .error "not fed") _ (fun _ => trace) _
    (fun _ => ⟨.refl _, rfl, .refl _⟩) (fun _ => ⟨.refl _, rfl, .refl _⟩)
    (fun _ => [[a, b, c]]) _ [[a, b, c]] _ ?_ ?_ ?_ ?_ _ ?_
  · exact fun p => ⟨.refl _, by simp⟩
  · intro p
    by_cases hp : p = 0
    · simp only [hp, if_true]
      exact ⟨.refl _, by simp⟩
    · simp only [hp, if_false]
      refine ⟨?_, by simp⟩
      show [c, a, b].Perm [a, b, c]
      exact (List.Perm.swap _ _ _).trans (.cons _ (.swap _ _ _))
  · exact ⟨.refl _, by simp⟩
  · refine ⟨?_, by simp⟩
    show [b, c, a].Perm [a, b, c]
    exact (List.Perm.cons _ (.swap _ _ _)).trans (.swap _ _ _)
  · have : (analyzeAndTransform (prog.meaning fun _ => .error "not fed") ["x"] trace (fun _ => trace)
        (fun _ => [[a, b, c]].map (batchOf ["x"])) ([[a, b, c]].map (batchOf ["x"]))).toOption
          = some [[("y", 3)], [("y", -23)], [("y", 9)]] := by decide +kernel
    revert this
    cases analyzeAndTransform (prog.meaning fun _ => .error "not fed") ["x"] trace (fun _ => trace)
        (fun _ => [[a, b, c]].map (batchOf ["x"])) ([[a, b, c]].map (batchOf ["x"])) with
    | error e => intro h; simp [Except.toOption] at h
    | ok v => intro h; simp only [Except.toOption, Option.some.injEq] at h; rw [h]

/-- The operations `1`, without inputs, and `+`. -/
def counting : Program Int Bool Unit where
  op
    | true, [] => .ok 1
    | false, [a, b] => .ok (a + b)
    | _, _ => .error "TypeError"
  analyze _ rows := .ok (rows.flatten.foldr (· + ·) 0)

/-- `{"y": x + sum(1)}`. -/
def countingTrace : Trace Bool Unit where
  tensors := [("x", .input "x"), ("one", .op true []), ("y", .op false [.input "x", .sink "sum"])]
  outputs := [("y", "y")]
  sinks := [⟨"sum", (), ["one"]⟩]
  composite := false

end Cases

/-- The condition that the inputs of analyzers are computed from columns cannot be left out: a value
without a batch dimension is analyzed once per batch, so that the result depends on how the rows are cut
into batches. -/
theorem constants_are_analyzed_once_per_batch :
    (analyzeAndTransform (Cases.counting.meaning fun _ => .ok (.fixed 0)) ["x"] Cases.countingTrace
      (fun _ => Cases.countingTrace) (fun _ => [[Cases.a, Cases.b]].map (batchOf ["x"]))
      ([[Cases.a, Cases.b]].map (batchOf ["x"]))).toOption = some [[("y", 5)], [("y", -8)]] ∧
    (analyzeAndTransform (Cases.counting.meaning fun _ => .ok (.fixed 0)) ["x"] Cases.countingTrace
      (fun _ => Cases.countingTrace) (fun _ => [[Cases.a], [Cases.b]].map (batchOf ["x"]))
      ([[Cases.a], [Cases.b]].map (batchOf ["x"]))).toOption = some [[("y", 6)], [("y", -7)]] := by
  constructor <;> decide +kernel

end TFT.WholeRun
