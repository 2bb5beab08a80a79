import Verif.Pipeline.Columns
import Verif.Pipeline.AnalyzeProps

/-!
# The required columns are those that matter (C68)
-/

namespace TFT.Analyze

variable {V Op An : Type}

/-! ## Specification -/

/-- Two batches have the same values in some columns; a column may be absent from both. -/
def AgreeOn (cols : List String) (b b' : List (String × V)) : Prop :=
  ∀ k ∈ cols, b.lookup k = b'.lookup k

/-- Some analyzer reads a tensor that is computed from the column. -/
def AnalyzerReads (tr : Trace Op An) (k : String) : Prop :=
  ∃ s ∈ tr.sinks, ∃ n ∈ s.ins, ∃ t, (n, t) ∈ tr.tensors ∧ k ∈ t.inputs

/-- Some output is computed from the column (without analyzers between them). -/
def OutputReads (tr : Trace Op An) (k : String) : Prop :=
  ∃ o ∈ tr.outputs, ∃ t, (o.2, t) ∈ tr.tensors ∧ k ∈ t.inputs

/-- The inputs of the graph are the columns `keys`. -/
def InputsAre (tr : Trace Op An) (keys : List String) : Prop :=
  ∀ nt ∈ tr.tensors, ∀ k ∈ nt.2.inputs, k ∈ keys

/-! ## Lemmas -/

theorem mem_dependentInputs (tr : Trace Op An) (hn : (tr.tensors.map Prod.fst).Nodup)
    (keys names : List String) (k : String) :
    k ∈ tr.dependentInputs keys names ↔
      k ∈ keys ∧ ∃ n ∈ names, ∃ t, (n, t) ∈ tr.tensors ∧ k ∈ t.inputs := by
  unfold Trace.dependentInputs
  rw [List.mem_filter, List.any_eq_true]
  refine and_congr_right fun _ => exists_congr fun n => and_congr_right fun _ => ?_
  cases hl : tr.tensors.lookup n with
  | none =>
    simp only [Bool.false_eq_true, false_iff]
    rintro ⟨t, ht, -⟩
    exact (lookup_none _ _).1 hl (List.mem_map.2 ⟨_, ht, rfl⟩)
  | some t =>
    simp only
    rw [reads_iff]
    have hm := (lookup_iff _ hn n t).1 hl
    constructor
    · exact fun h => ⟨t, hm, h⟩
    · rintro ⟨t', ht', h⟩
      have := (lookup_iff _ hn n t').2 ht'
      rw [hl] at this
      rw [Option.some.inj this]
      exact h

mutual
theorem value_agree (m : Meaning V Op An) (σ : String → V) (b b' : List (String × V)) :
    (t : Tensor Op) → AgreeOn t.inputs b b' → t.value m σ b = t.value m σ b'
  | .input key, h => by
    simp only [Tensor.value]
    rw [h key (by simp [Tensor.inputs])]
  | .sink n, _ => by simp [Tensor.value]
  | .op o ins, h => by
    simp only [Tensor.value]
    rw [values_agree m σ b b' ins (by simpa [Tensor.inputs] using h)]
theorem values_agree (m : Meaning V Op An) (σ : String → V) (b b' : List (String × V)) :
    (ts : List (Tensor Op)) → AgreeOn (Tensor.inputsOf ts) b b' →
    Tensor.values m σ b ts = Tensor.values m σ b' ts
  | [], _ => by simp [Tensor.values]
  | t :: ts, h => by
    simp only [Tensor.values]
    rw [value_agree m σ b b' t (fun k hk => h k (by simp [Tensor.inputsOf, hk])),
      values_agree m σ b b' ts (fun k hk => h k (by simp [Tensor.inputsOf, hk]))]
end

theorem results_agree (m : Meaning V Op An) (tr : Trace Op An) (cols : List String)
    (hc : ∀ k, AnalyzerReads tr k → k ∈ cols) (batches batches' : List (List (String × V)))
    (hb : List.Forall₂ (AgreeOn cols) batches batches') (σ : String → V)
    (h : Results m tr batches σ) : Results m tr batches' σ := by
  intro s hs
  obtain ⟨rows, hr, ha⟩ := h s hs
  refine ⟨rows, ?_, ha⟩
  clear ha h
  induction hb generalizing rows with
  | nil => cases hr; exact .nil
  | @cons b b' bs bs' h1 _ ih =>
    cases hr with
    | @cons _ row _ rest hrow hrest =>
      refine .cons ?_ (ih rest hrest)
      refine (forall₂_congr_mem fun n hn v => ?_).1 hrow
      unfold HasValue
      refine exists_congr fun t => and_congr_right fun ht => ?_
      rw [value_agree m σ b b' t (fun k hk => h1 k (hc k ⟨s, hs, n, hn, t, ht, hk⟩))]

theorem outputs_agree (m : Meaning V Op An) (tr : Trace Op An) (cols : List String)
    (hc : ∀ k, OutputReads tr k → k ∈ cols) (b b' : List (String × V)) (hb : AgreeOn cols b b')
    (σ : String → V) (out : List (String × V)) :
    OutputsAre m tr σ b out ↔ OutputsAre m tr σ b' out := by
  unfold OutputsAre
  refine forall₂_congr_mem fun o ho kv => and_congr_right fun _ => ?_
  unfold HasValue
  refine exists_congr fun t => and_congr_right fun ht => ?_
  rw [value_agree m σ b b' t (fun k hk => hb k (hc k ⟨o, ho, t, ht, hk⟩))]

/-! ## The property -/

/-- The columns that are listed for the analysis are those that some analyzer reads, or a control
dependency. -/
theorem analyze_columns_exact (tr : Trace Op An) (hw : WellFormed tr) (keys controls : List String)
    (k : String) :
    k ∈ tr.analyzeColumns keys controls ↔ k ∈ keys ∧
      (AnalyzerReads tr k ∨ ∃ n ∈ controls, ∃ t, (n, t) ∈ tr.tensors ∧ k ∈ t.inputs) := by
  unfold Trace.analyzeColumns
  rw [mem_dependentInputs tr hw.tensors]
  refine and_congr_right fun _ => ?_
  constructor
  · rintro ⟨n, hn, h⟩
    rcases List.mem_append.1 hn with hn | hn
    · obtain ⟨s, hs, hn⟩ := List.mem_flatMap.1 hn
      exact .inl ⟨s, hs, n, hn, h⟩
    · exact .inr ⟨n, hn, h⟩
  · rintro (⟨s, hs, n, hn, h⟩ | ⟨n, hn, h⟩)
    · exact ⟨n, List.mem_append_left _ (List.mem_flatMap.2 ⟨s, hs, hn⟩), h⟩
    · exact ⟨n, List.mem_append_right _ hn, h⟩

/-- The columns that are listed for transforming are those that some output is computed from. -/
theorem transform_columns_exact (tr : Trace Op An) (hw : WellFormed tr) (keys : List String)
    (k : String) : k ∈ tr.transformColumns keys ↔ k ∈ keys ∧ OutputReads tr k := by
  unfold Trace.transformColumns
  rw [mem_dependentInputs tr hw.tensors]
  refine and_congr_right fun _ => ?_
  constructor
  · rintro ⟨n, hn, h⟩
    obtain ⟨o, ho, rfl⟩ := List.mem_map.1 hn
    exact ⟨o, ho, h⟩
  · rintro ⟨o, ho, h⟩
    exact ⟨o.2, List.mem_map_of_mem ho, h⟩

/-- Columns that are not listed do not matter: if an analysis succeeds, then so does that of a dataset
which has the same values in the columns listed for the analysis (and other values, or no such
columns, elsewhere), and the two transform functions give the same results even on batches that
only agree in the columns listed for transforming. -/
theorem other_columns_do_not_matter [Inhabited V] (m : Meaning V Op An)
    (hperm : ∀ a xs ys, xs.Perm ys → m.analyze a xs = m.analyze a ys)
    (keys controls : List String) (first : Trace Op An) (hw : WellFormed first)
    (hk : InputsAre first keys)
    (retrace retrace' : Nat → Trace Op An) (hs : ∀ p, SameUpToOrder first (retrace p))
    (hs' : ∀ p, SameUpToOrder first (retrace' p))
    (data data' : Nat → List (List (String × V))) (batches batches' : List (List (String × V)))
    (hd : ∀ p, (data p).Perm batches) (hd' : ∀ p, (data' p).Perm batches')
    (hb : List.Forall₂ (AgreeOn (first.analyzeColumns keys controls)) batches batches')
    (f : List (String × V) → Except Err (List (String × V)))
    (hf : analyzeDataset m keys first retrace data = .ok f) :
    ∃ f', analyzeDataset m keys first retrace' data' = .ok f' ∧
      ∀ b b', AgreeOn (first.transformColumns keys) b b' →
        ∀ out, f b = .ok out ↔ f' b' = .ok out := by
  obtain ⟨σ, hσ, hout⟩ := successful_analysis_found_the_results m hperm keys first hw retrace hs data
    batches hd f hf
  have hσ' := results_agree m first _ (fun k hr => (analyze_columns_exact first hw keys controls k).2
    ⟨by obtain ⟨s, _, n, _, t, ht, hki⟩ := hr; exact hk _ ht k hki, .inl hr⟩) batches batches' hb σ hσ
  obtain ⟨f', hf', hout'⟩ := analysis_computes_the_meaning m hperm keys first hw retrace' hs' data'
    batches' hd' σ hσ'
  refine ⟨f', hf', fun b b' hbb out => ?_⟩
  rw [hout, hout']
  exact outputs_agree m first _ (fun k hr => (transform_columns_exact first hw keys k).2
    ⟨by obtain ⟨o, _, t, ht, hki⟩ := hr; exact hk _ ht k hki, hr⟩) b b' hbb σ out

/-! ## Listed columns do matter -/

/-- Values that remember how they were computed. -/
inductive Term where
  | leaf (n : Nat)
  | node (l : List Term)

instance : Inhabited Term := ⟨.leaf 0⟩

/-- Operations that remember their inputs; analyzers that remember the batch if there is one. -/
def remembering : Meaning Term Op An :=
  { op := fun _ vs => .ok (.node vs)
    analyze := fun _ rows => match rows with
      | [row] => .ok (.node row)
      | _ => .ok (.node [])
    temporary := fun _ => .ok (.leaf 0) }

theorem remembering_perm (a : An) (xs ys : List (List Term)) (h : xs.Perm ys) :
    (remembering (Op := Op)).analyze a xs = (remembering (Op := Op)).analyze a ys := by
  match xs, h with
  | [], h => rw [List.nil_perm.1 h]
  | [x], h => rw [List.singleton_perm.1 h]
  | x :: x' :: xs, h =>
    have := h.length_eq
    match ys, this with
    | y :: y' :: ys, _ => rfl

/-- All columns have the value 0, or `n` for the column `k`. -/
def probe (keys : List String) (k : String) (n : Nat) : List (String × Term) :=
  keys.map fun x => (x, .leaf (if x = k then n else 0))

theorem probe_lookup (keys : List String) (k : String) (n : Nat) (x : String) (hx : x ∈ keys) :
    (probe keys k n).lookup x = some (.leaf (if x = k then n else 0)) := by
  unfold probe
  induction keys with
  | nil => simp at hx
  | cons y ys ih =>
    rw [List.map_cons, List.lookup_cons]
    by_cases he : x = y
    · subst he; simp
    · have : (x == y) = false := by simpa using he
      simp only [this]
      exact ih ((List.mem_cons.1 hx).resolve_left he)

theorem probe_lookup_none (keys : List String) (k : String) (n : Nat) (x : String) (hx : x ∉ keys) :
    (probe keys k n).lookup x = none := by
  rw [lookup_none]
  unfold probe
  rw [List.map_map]
  simpa using hx

mutual
theorem value_total (keys : List String) (k : String) (n : Nat) (σ : String → Term) :
    (t : Tensor Op) → (∀ x ∈ t.inputs, x ∈ keys) →
    ∃ v, t.value (remembering (An := An)) σ (probe keys k n) = .ok v
  | .input key, h => by
    simp only [Tensor.value]
    rw [probe_lookup keys k n key (h key (by simp [Tensor.inputs]))]
    exact ⟨_, rfl⟩
  | .sink _, _ => ⟨_, rfl⟩
  | .op o ins, h => by
    obtain ⟨vs, hv⟩ := values_total keys k n σ ins (by simpa [Tensor.inputs] using h)
    exact ⟨.node vs, by simp only [Tensor.value]; rw [hv]; rfl⟩
theorem values_total (keys : List String) (k : String) (n : Nat) (σ : String → Term) :
    (ts : List (Tensor Op)) → (∀ x ∈ Tensor.inputsOf ts, x ∈ keys) →
    ∃ vs, Tensor.values (remembering (An := An)) σ (probe keys k n) ts = .ok vs
  | [], _ => ⟨[], rfl⟩
  | t :: ts, h => by
    obtain ⟨v, hv⟩ := value_total keys k n σ t (fun x hx => h x (by simp [Tensor.inputsOf, hx]))
    obtain ⟨vs, hvs⟩ := values_total keys k n σ ts (fun x hx => h x (by simp [Tensor.inputsOf, hx]))
    exact ⟨v :: vs, by simp only [Tensor.values]; rw [hv, hvs]; rfl⟩
end

mutual
theorem value_ne (keys : List String) (k : String) (hk : k ∈ keys) (σ σ' : String → Term) :
    (t : Tensor Op) → k ∈ t.inputs → ∀ v v',
      t.value (remembering (An := An)) σ (probe keys k 1) = .ok v →
      t.value (remembering (An := An)) σ' (probe keys k 2) = .ok v' → v ≠ v'
  | .input key, h => by
    intro v v' hv hv'
    have : k = key := by simpa [Tensor.inputs] using h
    subst this
    simp only [Tensor.value] at hv hv'
    rw [probe_lookup keys k _ k hk] at hv hv'
    simp only [if_true, Except.ok.injEq] at hv hv'
    subst hv hv'
    simp
  | .sink _, h => by simp [Tensor.inputs] at h
  | .op o ins, h => by
    intro v v' hv hv'
    simp only [Tensor.value] at hv hv'
    cases h1 : Tensor.values (remembering (An := An)) σ (probe keys k 1) ins with
    | error e => rw [h1] at hv; simp [Except.bind] at hv
    | ok vs =>
      cases h2 : Tensor.values (remembering (An := An)) σ' (probe keys k 2) ins with
      | error e => rw [h2] at hv'; simp [Except.bind] at hv'
      | ok vs' =>
        rw [h1] at hv
        rw [h2] at hv'
        simp only [Except.bind, remembering, Except.ok.injEq] at hv hv'
        subst hv hv'
        intro he
        exact values_ne keys k hk σ σ' ins (by simpa [Tensor.inputs] using h) vs vs' h1 h2
          (Term.node.inj he)
theorem values_ne (keys : List String) (k : String) (hk : k ∈ keys) (σ σ' : String → Term) :
    (ts : List (Tensor Op)) → k ∈ Tensor.inputsOf ts → ∀ vs vs',
      Tensor.values (remembering (An := An)) σ (probe keys k 1) ts = .ok vs →
      Tensor.values (remembering (An := An)) σ' (probe keys k 2) ts = .ok vs' → vs ≠ vs'
  | [], h => by simp [Tensor.inputsOf] at h
  | t :: ts, h => by
    intro vs vs' hv hv'
    simp only [Tensor.values] at hv hv'
    cases h1 : Tensor.value (remembering (An := An)) σ (probe keys k 1) t with
    | error e => rw [h1] at hv; simp [Except.bind] at hv
    | ok w =>
      cases h2 : Tensor.value (remembering (An := An)) σ' (probe keys k 2) t with
      | error e => rw [h2] at hv'; simp [Except.bind] at hv'
      | ok w' =>
        cases h3 : Tensor.values (remembering (An := An)) σ (probe keys k 1) ts with
        | error e => rw [h1, h3] at hv; simp [Except.bind] at hv
        | ok ws =>
          cases h4 : Tensor.values (remembering (An := An)) σ' (probe keys k 2) ts with
          | error e => rw [h2, h4] at hv'; simp [Except.bind] at hv'
          | ok ws' =>
            rw [h1, h3] at hv
            rw [h2, h4] at hv'
            simp only [Except.bind, Except.ok.injEq] at hv hv'
            subst hv hv'
            intro he
            simp only [List.cons.injEq] at he
            rcases List.mem_append.1 (by simpa [Tensor.inputsOf] using h) with h | h
            · exact value_ne keys k hk σ σ' t h w w' h1 h2 he.1
            · exact values_ne keys k hk σ σ' ts h ws ws' h3 h4 he.2
end

mutual
theorem value_sigma (m : Meaning V Op An) (σ σ' : String → V) (b : List (String × V)) :
    (t : Tensor Op) → (∀ x ∈ t.analyzers, σ x = σ' x) → t.value m σ b = t.value m σ' b
  | .input key, _ => by simp [Tensor.value]
  | .sink n, h => by
    simp only [Tensor.value]
    rw [h n (by simp [Tensor.analyzers])]
  | .op o ins, h => by
    simp only [Tensor.value]
    rw [values_sigma m σ σ' b ins (by simpa [Tensor.analyzers] using h)]
theorem values_sigma (m : Meaning V Op An) (σ σ' : String → V) (b : List (String × V)) :
    (ts : List (Tensor Op)) → (∀ x ∈ Tensor.analyzersOf ts, σ x = σ' x) →
    Tensor.values m σ b ts = Tensor.values m σ' b ts
  | [], _ => by simp [Tensor.values]
  | t :: ts, h => by
    simp only [Tensor.values]
    rw [value_sigma m σ σ' b t (fun k hk => h k (by simp [Tensor.analyzersOf, hk])),
      values_sigma m σ σ' b ts (fun k hk => h k (by simp [Tensor.analyzersOf, hk]))]
end

/-- With operations that remember, every analysis of one batch has results. -/
theorem results_exist (tr : Trace Op An) (hw : WellFormed tr) (keys : List String)
    (hk : InputsAre tr keys) (k : String) (n : Nat) :
    ∃ σ, Results (remembering (Op := Op) (An := An)) tr [probe keys k n] σ := by
  suffices h : ∀ pre post, tr.sinks = pre ++ post → ∃ σ, ∀ s ∈ pre,
      SinkResult (remembering (Op := Op) (An := An)) tr [probe keys k n] σ s (σ s.name) by
    obtain ⟨σ, hσ⟩ := h tr.sinks [] (by simp)
    exact ⟨σ, hσ⟩
  intro pre
  induction pre using List.reverseRecOn with
  | nil => exact fun _ _ => ⟨fun _ => .leaf 0, by simp⟩
  | append_singleton pre s ih =>
    intro post hp
    obtain ⟨σ, hσ⟩ := ih (s :: post) (by rw [hp]; simp)
    -- values of the inputs of `s`
    have hrow : ∃ row, List.Forall₂ (HasValue (remembering (Op := Op) (An := An)) tr σ
        (probe keys k n)) s.ins row := by
      have hall : ∀ x ∈ s.ins, ∃ v, HasValue (remembering (Op := Op) (An := An)) tr σ
          (probe keys k n) x v := by
        intro x hx
        obtain ⟨t, ht, -⟩ := hw.ordered pre s post (by rw [hp]; simp) x hx
        obtain ⟨v, hv⟩ := value_total (An := An) keys k n σ t (hk _ ht)
        exact ⟨v, t, ht, hv⟩
      generalize s.ins = l at hall
      induction l with
      | nil => exact ⟨[], .nil⟩
      | cons x xs ih =>
        obtain ⟨v, hv⟩ := hall x (by simp)
        obtain ⟨row, hr⟩ := ih (fun y hy => hall y (by simp [hy]))
        exact ⟨v :: row, .cons hv hr⟩
    obtain ⟨row, hrow⟩ := hrow
    have hnd : (tr.sinks.map Sink.name).Nodup := hw.sinks
    rw [hp] at hnd
    simp only [List.map_append, List.map_cons, List.map_nil, List.append_assoc] at hnd
    have hsn : s.name ∉ pre.map Sink.name := by
      intro hc
      exact (List.disjoint_of_nodup_append hnd) hc (by simp)
    let σ' : String → Term := fun x => if x = s.name then .node row else σ x
    have hkeep : ∀ q pre' post', tr.sinks = pre' ++ q :: post' → (∀ y ∈ pre'.map Sink.name,
        y ∈ pre.map Sink.name) → ∀ x v, x ∈ q.ins →
        (HasValue (remembering (Op := Op) (An := An)) tr σ (probe keys k n) x v ↔
          HasValue (remembering (Op := Op) (An := An)) tr σ' (probe keys k n) x v) := by
      intro q pre' post' hq hsub x v hx
      obtain ⟨t0, ht0, ha⟩ := hw.ordered pre' q post' hq x hx
      unfold HasValue
      refine exists_congr fun t => and_congr_right fun ht => ?_
      have : t = t0 := by
        have h1 := (lookup_iff _ hw.tensors x t).2 ht
        have h2 := (lookup_iff _ hw.tensors x t0).2 ht0
        rw [h1] at h2
        exact Option.some.inj h2
      subst this
      rw [value_sigma _ σ σ' _ t]
      intro y hy
      have : y ≠ s.name := fun he => hsn (by rw [← he]; exact hsub y (ha y hy))
      simp only [σ', this, if_false]
    refine ⟨σ', fun q hq => ?_⟩
    rcases List.mem_append.1 hq with hq | hq
    · obtain ⟨rows, hr, ha⟩ := hσ q hq
      obtain ⟨p1, p2, hpp⟩ := List.append_of_mem hq
      have hne : q.name ≠ s.name := fun he => hsn (by rw [← he]; exact List.mem_map_of_mem hq)
      refine ⟨rows, ?_, by simp only [σ', hne, if_false]; exact ha⟩
      cases hr with
      | cons h1 h2 =>
        cases h2
        refine .cons ((forall₂_congr_mem fun x hx v => hkeep q p1 (p2 ++ s :: post)
          (by rw [hp, hpp]; simp) (fun y hy => ?_) x v hx).1 h1) .nil
        rw [hpp, List.map_append]
        exact List.mem_append_left _ hy
    · have hqs : q = s := by simpa using hq
      subst hqs
      refine ⟨[row], .cons ?_ .nil, by simp only [σ', if_true]; rfl⟩
      exact (forall₂_congr_mem fun x hx v => hkeep q pre post (by rw [hp]; simp) (fun _ h => h) x v hx).1
        hrow

/-- Every column that is listed because of an analyzer matters for some operations and analyzers: there
are datasets that differ only in this column for which an analyzer has different results. -/
theorem listed_analyze_columns_matter (tr : Trace Op An) (hw : WellFormed tr) (keys : List String)
    (hk : InputsAre tr keys) (k : String) (h : k ∈ tr.analyzeColumns keys []) :
    ∃ (m : Meaning Term Op An) (b b' : List (String × Term)) (σ σ' : String → Term),
      (∀ a xs ys, xs.Perm ys → m.analyze a xs = m.analyze a ys) ∧
      (∀ x, x ≠ k → b.lookup x = b'.lookup x) ∧
      Results m tr [b] σ ∧ Results m tr [b'] σ' ∧ ∃ s ∈ tr.sinks, σ s.name ≠ σ' s.name := by
  obtain ⟨hkk, hr⟩ := (analyze_columns_exact tr hw keys [] k).1 h
  simp only [List.not_mem_nil, false_and, exists_false, or_false] at hr
  obtain ⟨s, hs, n, hn, t, ht, hki⟩ := hr
  obtain ⟨σ, hσ⟩ := results_exist tr hw keys hk k 1
  obtain ⟨σ', hσ'⟩ := results_exist tr hw keys hk k 2
  refine ⟨remembering, probe keys k 1, probe keys k 2, σ, σ', remembering_perm, ?_, hσ, hσ', s, hs, ?_⟩
  · intro x hx
    by_cases hxk : x ∈ keys
    · rw [probe_lookup _ _ _ _ hxk, probe_lookup _ _ _ _ hxk, if_neg hx, if_neg hx]
    · rw [probe_lookup_none _ _ _ _ hxk, probe_lookup_none _ _ _ _ hxk]
  · obtain ⟨rows, hr, ha⟩ := hσ s hs
    obtain ⟨rows', hr', ha'⟩ := hσ' s hs
    cases hr with
    | @cons _ row _ _ h1 h2 =>
      cases h2
      cases hr' with
      | @cons _ row' _ _ h1' h2' =>
        cases h2'
        simp only [remembering, Except.ok.injEq] at ha ha'
        rw [← ha, ← ha']
        intro he
        have he' := Term.node.inj he
        clear he
        subst he'
        clear ha ha'
        generalize s.ins = l at hn h1 h1'
        induction l generalizing row with
        | nil => simp at hn
        | cons x xs ih =>
          cases h1 with
          | @cons _ v _ row hv h1 =>
            cases h1' with
            | cons hv' h1' =>
              rcases List.mem_cons.1 hn with rfl | hn
              · obtain ⟨t1, ht1, e1⟩ := hv
                obtain ⟨t2, ht2, e2⟩ := hv'
                have g := (lookup_iff _ hw.tensors n t).2 ht
                have g1 := (lookup_iff _ hw.tensors n t1).2 ht1
                have g2 := (lookup_iff _ hw.tensors n t2).2 ht2
                rw [g] at g1 g2
                rw [← Option.some.inj g1] at e1
                rw [← Option.some.inj g2] at e2
                exact value_ne (An := An) keys k hkk σ σ' t hki v v e1 e2 rfl
              · exact ih hn h1 h1'

/-- Every column that is listed for transforming matters for some operations: there are batches that
differ only in this column which are transformed differently, whatever the analyzers' results. -/
theorem listed_transform_columns_matter (tr : Trace Op An) (hw : WellFormed tr) (keys : List String)
    (hk : InputsAre tr keys) (k : String) (h : k ∈ tr.transformColumns keys) (σ : String → Term) :
    ∃ (m : Meaning Term Op An) (b b' : List (String × Term)) (out out' : List (String × Term)),
      (∀ x, x ≠ k → b.lookup x = b'.lookup x) ∧
      OutputsAre m tr σ b out ∧ OutputsAre m tr σ b' out' ∧ out ≠ out' := by
  obtain ⟨hkk, o, ho, t, ht, hki⟩ := (transform_columns_exact tr hw keys k).1 h
  have hex : ∀ n, ∃ out, OutputsAre (remembering (An := An)) tr σ (probe keys k n) out := by
    intro n
    have hall : ∀ o ∈ tr.outputs, ∃ v, HasValue (remembering (An := An)) tr σ (probe keys k n) o.2 v := by
      intro o ho
      obtain ⟨t, ht, -⟩ := hw.outputs o ho
      obtain ⟨v, hv⟩ := value_total (An := An) keys k n σ t (hk _ ht)
      exact ⟨v, t, ht, hv⟩
    unfold OutputsAre
    generalize tr.outputs = l at hall
    induction l with
    | nil => exact ⟨[], .nil⟩
    | cons x xs ih =>
      obtain ⟨v, hv⟩ := hall x (by simp)
      obtain ⟨row, hr⟩ := ih (fun y hy => hall y (by simp [hy]))
      exact ⟨(x.1, v) :: row, .cons ⟨rfl, hv⟩ hr⟩
  obtain ⟨out, h1⟩ := hex 1
  obtain ⟨out', h2⟩ := hex 2
  refine ⟨remembering, probe keys k 1, probe keys k 2, out, out', ?_, h1, h2, ?_⟩
  · intro x hx
    by_cases hxk : x ∈ keys
    · rw [probe_lookup _ _ _ _ hxk, probe_lookup _ _ _ _ hxk, if_neg hx, if_neg hx]
    · rw [probe_lookup_none _ _ _ _ hxk, probe_lookup_none _ _ _ _ hxk]
  · rintro rfl
    unfold OutputsAre at h1 h2
    generalize tr.outputs = l at ho h1 h2
    induction l generalizing out with
    | nil => simp at ho
    | cons x xs ih =>
      cases h1 with
      | @cons _ v _ row hv h1 =>
        cases h2 with
        | cons hv' h1' =>
          rcases List.mem_cons.1 ho with rfl | ho
          · obtain ⟨-, t1, ht1, e1⟩ := hv
            obtain ⟨-, t2, ht2, e2⟩ := hv'
            have g := (lookup_iff _ hw.tensors _ t).2 ht
            have g1 := (lookup_iff _ hw.tensors _ t1).2 ht1
            have g2 := (lookup_iff _ hw.tensors _ t2).2 ht2
            rw [g] at g1 g2
            rw [← Option.some.inj g1] at e1
            rw [← Option.some.inj g2] at e2
            exact value_ne (An := An) keys k hkk σ σ t hki _ _ e1 e2 rfl
          · exact ih row ho h1 h1'

/-! ## An example

`x` is read by an analyzer and centered, `y` is read by a second analyzer in the next phase together
with the result of the first, `z` is copied, and nothing reads `w`. -/

namespace ColumnsExample

def trace : Trace String String :=
  { tensors := [("x", .input "x"), ("mean", .sink "mean"), ("y", .input "y"),
      ("y-mean", .op "sub" [.input "y", .sink "mean"]), ("max", .sink "max"), ("z", .input "z"),
      ("x/max", .op "div" [.input "x", .sink "max"])]
    outputs := [("a", "x/max"), ("b", "z")]
    sinks := [⟨"mean", "mean", ["x"]⟩, ⟨"max", "max", ["y-mean"]⟩]
    composite := false }

example : trace.analyzeColumns ["w", "x", "y", "z"] [] = ["x", "y"] ∧
    trace.transformColumns ["w", "x", "y", "z"] = ["x", "z"] := ⟨rfl, rfl⟩

example : WellFormed trace := by
  refine ⟨by decide, by decide, ?_, ?_⟩
  · intro pre s post h n hn
    match pre, h with
    | [], h =>
      simp only [trace, List.nil_append, List.cons.injEq] at h
      obtain ⟨rfl, -⟩ := h
      simp only [List.mem_cons, List.not_mem_nil, or_false] at hn
      subst hn
      exact ⟨.input "x", by simp [trace], by simp [Tensor.analyzers]⟩
    | [p], h =>
      simp only [trace, List.cons_append, List.nil_append, List.cons.injEq] at h
      obtain ⟨rfl, rfl, -⟩ := h
      simp only [List.mem_cons, List.not_mem_nil, or_false] at hn
      subst hn
      exact ⟨.op "sub" [.input "y", .sink "mean"], by simp [trace],
        by simp [Tensor.analyzers, Tensor.analyzersOf]⟩
    | p :: q :: r, h => simp [trace] at h
  · intro o ho
    simp only [trace, List.mem_cons, List.not_mem_nil, or_false] at ho
    rcases ho with rfl | rfl
    · exact ⟨.op "div" [.input "x", .sink "max"], by simp [trace],
        by simp [Tensor.analyzers, Tensor.analyzersOf, trace]⟩
    · exact ⟨.input "z", by simp [trace], by simp [Tensor.analyzers]⟩

example : InputsAre trace ["w", "x", "y", "z"] := by
  intro nt hnt k hk
  simp only [trace, List.mem_cons, List.not_mem_nil, or_false] at hnt
  rcases hnt with rfl | rfl | rfl | rfl | rfl | rfl | rfl <;>
    simp_all [Tensor.inputs, Tensor.inputsOf]

end ColumnsExample

end TFT.Analyze
