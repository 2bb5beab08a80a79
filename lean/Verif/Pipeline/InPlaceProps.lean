import Verif.Pipeline.InPlace
import Verif.Pipeline.AnalyzeProps

/-!
# `analyze_in_place` gives what an analysis would give, for functions without analyzers (C91)
-/

namespace TFT.InPlace

open TFT.Analyze

variable {V Op An M : Type}

/-! ## Specification -/

/-- `f` computes the outputs of the `preprocessing_fn`, whatever values analyzers might have. -/
def Computes (m : Meaning V Op An) (tr : Trace Op An) (f : Fn V) : Prop :=
  ∀ (σ : String → V) batch out, f batch = .ok out ↔ OutputsAre m tr σ batch out

/-- The directory holds the output of an analysis of the `preprocessing_fn`. -/
def HoldsOutput (m : Meaning V Op An) (tr : Trace Op An) (md : M) (dir : Dir V M) : Prop :=
  (∃ f, dir.transformFn = some f ∧ Computes m tr f) ∧ dir.metadata = some md

/-! ## Lemmas -/

theorem complete_iff (tr : Trace Op An) : tr.complete ([] : List (String × V)) = true ↔ tr.sinks = [] := by
  unfold Trace.complete
  cases tr.sinks <;> simp

theorem assertNoAnalyzers_ok (tr : Trace Op An) (h : tr.sinks = []) : assertNoAnalyzers (V := V) tr = .ok () := by
  unfold assertNoAnalyzers
  rw [if_pos ((complete_iff tr).2 h)]

theorem assertNoAnalyzers_error (tr : Trace Op An) (h : tr.sinks ≠ []) :
    ∃ e, assertNoAnalyzers (V := V) tr = .error e := by
  unfold assertNoAnalyzers
  rw [if_neg (fun hc => h ((complete_iff tr).1 hc))]
  exact ⟨_, rfl⟩

theorem SameUpToOrder.rfl' (tr : Trace Op An) : SameUpToOrder tr tr := ⟨.refl _, rfl, .refl _⟩

theorem written_computes (m : Meaning V Op An) (tr : Trace Op An) (hw : WellFormed tr) (h : tr.sinks = []) :
    Computes m tr (written m tr) := by
  intro σ batch out
  rw [← final_iff m tr tr hw (SameUpToOrder.rfl' tr) [] (by have := inv_start (V := V) tr; rwa [h] at this) σ
    (by simp) batch out]
  unfold final written
  rw [if_pos ((complete_iff tr).2 h)]

mutual
theorem eval_temporary (m : Meaning V Op An) (temporary : String → V)
    (ht : ∀ n, m.temporary n = .ok (temporary n)) (b : List (String × V)) :
    (t : Tensor Op) → t.eval m [] b = t.value m temporary b
  | .input key => by
    simp only [Tensor.eval, Tensor.value]
    cases b.lookup key <;> rfl
  | .op o ins => by
    simp only [Tensor.eval, Tensor.value]
    rw [evals_temporary m temporary ht b ins]
  | .sink name => by
    simp only [Tensor.eval, Tensor.value, List.lookup_nil]
    exact ht name
theorem evals_temporary (m : Meaning V Op An) (temporary : String → V)
    (ht : ∀ n, m.temporary n = .ok (temporary n)) (b : List (String × V)) :
    (ts : List (Tensor Op)) → Tensor.evals m [] b ts = Tensor.values m temporary b ts
  | [] => by simp [Tensor.evals, Tensor.values]
  | t :: ts => by
    simp only [Tensor.evals, Tensor.values]
    rw [eval_temporary m temporary ht b t, evals_temporary m temporary ht b ts]
end

/-! ## Property C91 -/

/-- For a `preprocessing_fn` without analyzers `analyze_in_place` succeeds, in a directory without an older output,
with both behaviours, and the directory then holds the output. -/
theorem analyze_in_place_result (m : Meaning V Op An) (infer : Trace Op An → Except Err M) (tf1 : Bool)
    (t : Traced Op An) (hw : WellFormed t.trace) (hn : t.trace.sinks = []) (md : M)
    (h1 : infer t.trace = .ok md) (h2 : infer t.again = .ok md) (dir : Dir V M) (hd : dir.transformFn = none) :
    (analyzeInPlace m infer (.ok ()) tf1 t dir).result = .ok () ∧
      HoldsOutput m t.trace md ((analyzeInPlace m infer (.ok ()) tf1 t dir).final dir) := by
  unfold analyzeInPlace
  cases tf1
  · simp only [Bool.false_eq_true, if_false, inPlaceV2, assertNoAnalyzers_ok t.trace hn, h2, finish, Run.after,
      Run.final]
    exact ⟨trivial, ⟨_, rfl, written_computes m t.trace hw hn⟩, rfl⟩
  · simp only [if_true, inPlaceV1, assertNoAnalyzers_ok t.trace hn, h1, finish, Run.after, Run.final, hd,
      Option.isSome_none, Bool.false_eq_true, if_false]
    exact ⟨trivial, ⟨_, rfl, written_computes m t.trace hw hn⟩, rfl⟩

/-- The function written is the one that `AnalyzeDataset` gives, for whatever dataset. -/
theorem analyze_in_place_agrees_with_analysis (m : Meaning V Op An) (keys : List String)
    (infer : Trace Op An → Except Err M) (init : Except Err Unit) (tf1 : Bool)
    (t : Traced Op An) (hw : WellFormed t.trace) (retrace : Nat → Trace Op An)
    (hs : ∀ p, SameUpToOrder t.trace (retrace p)) (data : Nat → List (List (String × V)))
    (dir : Dir V M) (hr : (analyzeInPlace m infer init tf1 t dir).result = .ok ()) :
    ∃ f g, ((analyzeInPlace m infer init tf1 t dir).final dir).transformFn = some f ∧
      analyzeDataset m keys t.trace retrace data = .ok g ∧ ∀ batch out, f batch = .ok out ↔ g batch = .ok out := by
  have key : t.trace.sinks = [] ∧
      ((analyzeInPlace m infer init tf1 t dir).final dir).transformFn = some (written m t.trace) := by
    by_cases hn : t.trace.sinks = []
    · refine ⟨hn, ?_⟩
      unfold analyzeInPlace at hr ⊢
      cases tf1
      · simp only [Bool.false_eq_true, if_false, inPlaceV2, assertNoAnalyzers_ok t.trace hn, finish, Run.after,
          Run.final] at hr ⊢
        cases h : infer t.again with
        | error e => rw [h] at hr; simp at hr
        | ok md => rfl
      · simp only [if_true, inPlaceV1, assertNoAnalyzers_ok t.trace hn, finish, Run.after, Run.final] at hr ⊢
        cases init with
        | error e => simp at hr
        | ok _ =>
          by_cases hd : dir.transformFn.isSome = true
          · simp [hd] at hr
          · simp only [hd, Bool.false_eq_true, if_false] at hr ⊢
            cases h : infer t.trace with
            | error e => rw [h] at hr; simp at hr
            | ok md => rfl
    · obtain ⟨e, he⟩ := assertNoAnalyzers_error (V := V) t.trace hn
      unfold analyzeInPlace at hr
      cases tf1
      · simp [inPlaceV2, he] at hr
      · simp [inPlaceV1, he] at hr
  obtain ⟨hn, hf⟩ := key
  obtain ⟨g, hg, hgo⟩ : ∃ g, analyzeDataset m keys t.trace retrace data = .ok g ∧
      ∀ batch out, g batch = .ok out ↔ written m t.trace batch = .ok out := by
    have hi : Inv t.trace [] ([] : List (String × V)) := by
      have := inv_start (V := V) t.trace
      rwa [hn] at this
    refine ⟨final m t.trace (retrace 0) [], ?_, fun batch out => ?_⟩
    · unfold analyzeDataset phases
      simp only [hn, List.isEmpty_nil, if_true, Except.bind]
      rw [same_valid t.trace (retrace 0) keys hw (hs 0)]
    · by_cases hV : Nonempty V
      · obtain ⟨v⟩ := hV
        rw [final_iff m t.trace (retrace 0) hw (hs 0) [] hi (fun _ => v) (by simp) batch out,
          written_computes m t.trace hw hn (fun _ => v) batch out]
      · have hs0 : (retrace 0).sinks = [] := by
          have := (hs 0).sinks
          rw [hn] at this
          exact List.Perm.eq_nil this
        unfold final written
        rw [if_pos ((complete_iff (retrace 0)).2 hs0)]
        unfold Trace.features
        rw [(hs 0).outputs]
        unfold Trace.tensor
        simp only [tensor_same t.trace (retrace 0) (hs 0) hw.tensors]
  exact ⟨_, g, hf, hg, fun batch out => (hgo batch out).symm⟩

/-- A `preprocessing_fn` with analyzers is refused, and no metadata is written. -/
theorem analyzers_refused (m : Meaning V Op An) (infer : Trace Op An → Except Err M) (init : Except Err Unit)
    (tf1 : Bool) (t : Traced Op An) (hn : t.trace.sinks ≠ []) (dir : Dir V M) :
    (∃ e, (analyzeInPlace m infer init tf1 t dir).result = .error e) ∧
      ∀ d ∈ (analyzeInPlace m infer init tf1 t dir).states, d.metadata = dir.metadata := by
  obtain ⟨e, he⟩ := assertNoAnalyzers_error (V := V) t.trace hn
  unfold analyzeInPlace
  cases tf1
  · simp only [Bool.false_eq_true, if_false, inPlaceV2, he]
    refine ⟨⟨e, rfl⟩, fun d hd => ?_⟩
    rw [List.mem_singleton] at hd
    rw [hd]
  · simp only [if_true, inPlaceV1, he]
    exact ⟨⟨e, rfl⟩, by simp⟩

/-- With TF1 behaviour, a call that is refused because of analyzers, because its tables cannot be initialized, or
because there is an older output writes nothing.  (With TF2 behaviour this is false; see below.) -/
theorem tf1_refused_writes_nothing_partial (m : Meaning V Op An) (infer : Trace Op An → Except Err M)
    (init : Except Err Unit) (t : Traced Op An) (dir : Dir V M)
    (h : t.trace.sinks ≠ [] ∨ (∃ e, init = .error e) ∨ dir.transformFn ≠ none) :
    (∃ e, (analyzeInPlace m infer init true t dir).result = .error e) ∧
      (analyzeInPlace m infer init true t dir).states = [] := by
  unfold analyzeInPlace
  simp only [if_true, inPlaceV1]
  by_cases hn : t.trace.sinks = []
  · rw [assertNoAnalyzers_ok t.trace hn]
    cases init with
    | error e => exact ⟨⟨e, rfl⟩, rfl⟩
    | ok _ =>
      rcases h with h | ⟨e, h⟩ | h
      · exact absurd hn h
      · cases h
      · have : dir.transformFn.isSome = true := Option.isSome_iff_ne_none.2 h
        simp only [this, if_true]
        exact ⟨⟨_, rfl⟩, trivial⟩
  · obtain ⟨e, he⟩ := assertNoAnalyzers_error (V := V) t.trace hn
    rw [he]
    exact ⟨⟨e, rfl⟩, rfl⟩

/-- With TF2 behaviour a call that is refused because of analyzers leaves a transform function, in which analyzers have
temporary values; it replaces an older one. -/
theorem tf2_refused_leaves_transform_fn (m : Meaning V Op An) (infer : Trace Op An → Except Err M)
    (init : Except Err Unit) (t : Traced Op An) (hw : WellFormed t.trace) (hn : t.trace.sinks ≠ [])
    (temporary : String → V) (ht : ∀ n, m.temporary n = .ok (temporary n)) (dir : Dir V M) :
    (∃ e, (analyzeInPlace m infer init false t dir).result = .error e) ∧
      ∃ f, ((analyzeInPlace m infer init false t dir).final dir).transformFn = some f ∧
        ∀ batch out, f batch = .ok out ↔ OutputsAre m t.trace temporary batch out := by
  obtain ⟨e, he⟩ := assertNoAnalyzers_error (V := V) t.trace hn
  unfold analyzeInPlace
  simp only [Bool.false_eq_true, if_false, inPlaceV2, he]
  refine ⟨⟨e, rfl⟩, written m t.trace, rfl, fun batch out => ?_⟩
  have hev : (∀ tt : Tensor Op, tt.eval m [] batch = tt.value m temporary batch) := by
    intro tt
    exact eval_temporary m temporary ht batch tt
  unfold written Trace.features OutputsAre
  rw [seqExcept_map_iff]
  refine forall₂_congr_mem fun o ho kv => ?_
  unfold HasValue Trace.tensor
  cases hl : t.trace.tensors.lookup o.2 with
  | none =>
    have hno := (lookup_none _ _).1 hl
    simp only [Except.bind]
    constructor
    · intro hc; cases hc
    · rintro ⟨-, tt, htt, -⟩
      exact absurd (List.mem_map_of_mem (f := Prod.fst) htt) hno
  | some tt =>
    simp only [Except.bind, hev]
    have hm := (lookup_iff _ hw.tensors o.2 tt).1 hl
    constructor
    · intro hc
      cases hv : tt.value m temporary batch with
      | error e => rw [hv] at hc; cases hc
      | ok v =>
        rw [hv] at hc
        simp only [Except.ok.injEq] at hc
        subst hc
        exact ⟨rfl, tt, hm, hv⟩
    · rintro ⟨h1, t', ht', hv⟩
      have := (lookup_iff _ hw.tensors o.2 t').2 ht'
      rw [hl] at this
      obtain rfl := Option.some.inj this
      rw [hv]
      simp only [← h1]

/-- A call that dies after any of its writes, in a directory without an older output, leaves metadata only next to the
transform function of the `preprocessing_fn`. -/
theorem metadata_is_written_last (m : Meaning V Op An) (infer : Trace Op An → Except Err M)
    (init : Except Err Unit) (tf1 : Bool) (t : Traced Op An) (hw : WellFormed t.trace) (dir : Dir V M)
    (hd : dir.metadata = none) :
    ∀ d ∈ (analyzeInPlace m infer init tf1 t dir).states, ∀ md, d.metadata = some md →
      t.trace.sinks = [] ∧ HoldsOutput m t.trace md d ∧ (infer t.trace = .ok md ∨ infer t.again = .ok md) := by
  have hfin : ∀ (d0 : Dir V M) (tr : Trace Op An), d0.metadata = none →
      d0.transformFn = some (written m t.trace) → t.trace.sinks = [] →
      (infer tr = infer t.trace ∨ infer tr = infer t.again) →
      ∀ d ∈ ((finish d0 (infer tr)).after d0).states, ∀ md, d.metadata = some md →
        t.trace.sinks = [] ∧ HoldsOutput m t.trace md d ∧ (infer t.trace = .ok md ∨ infer t.again = .ok md) := by
    intro d0 tr h0 hf hn hi d hd md hmd
    unfold finish Run.after at hd
    cases h : infer tr with
    | error e =>
      rw [h] at hd
      simp only [List.mem_singleton] at hd
      rw [hd, h0] at hmd
      cases hmd
    | ok md' =>
      rw [h] at hd
      simp only [List.mem_cons, List.not_mem_nil, or_false] at hd
      rcases hd with rfl | rfl
      · rw [h0] at hmd
        cases hmd
      · simp only [Option.some.injEq] at hmd
        subst hmd
        refine ⟨hn, ⟨⟨_, hf, written_computes m t.trace hw hn⟩, rfl⟩, ?_⟩
        rw [h] at hi
        exact hi.imp Eq.symm Eq.symm
  intro d hmem md hmd
  unfold analyzeInPlace at hmem
  by_cases hn : t.trace.sinks = []
  · cases tf1
    · simp only [Bool.false_eq_true, if_false, inPlaceV2, assertNoAnalyzers_ok t.trace hn] at hmem
      exact hfin _ t.again (by exact hd) rfl hn (.inr rfl) d hmem md hmd
    · simp only [if_true, inPlaceV1, assertNoAnalyzers_ok t.trace hn] at hmem
      cases init with
      | error e => simp at hmem
      | ok _ =>
        by_cases hs : dir.transformFn.isSome = true
        · simp [hs] at hmem
        · simp only [hs, Bool.false_eq_true, if_false] at hmem
          exact hfin _ t.trace (by exact hd) rfl hn (.inl rfl) d hmem md hmd
  · obtain ⟨e, he⟩ := assertNoAnalyzers_error (V := V) t.trace hn
    cases tf1
    · simp only [Bool.false_eq_true, if_false, inPlaceV2, he, List.mem_singleton] at hmem
      rw [hmem] at hmd
      simp only [hd] at hmd
      cases hmd
    · simp [inPlaceV1, he] at hmem

/-! ## Cases -/

namespace Cases

/-- Numbers; the operation is the sum, and so is the analyzer. -/
def meaning : Meaning Int Unit Unit where
  op := fun _ vs => .ok vs.sum
  analyze := fun _ rows => .ok rows.flatten.sum
  temporary := fun _ => .ok 0

/-- `y = x + x`. -/
def double : Trace Unit Unit where
  tensors := [("x", .input "x"), ("y", .op () [.input "x", .input "x"])]
  outputs := [("y", "y")]
  sinks := []
  composite := false

/-- `y = x + sum(x)`. -/
def shifted : Trace Unit Unit where
  tensors := [("x", .input "x"), ("y", .op () [.input "x", .sink "sum"])]
  outputs := [("y", "y")]
  sinks := [⟨"sum", (), ["x"]⟩]
  composite := false

/-- The number of outputs. -/
def infer (tr : Trace Unit Unit) : Except Err Nat := .ok tr.outputs.length

def empty : Dir Int Nat := ⟨none, none⟩

theorem double_wellFormed : WellFormed double := by
  refine ⟨by decide, by decide, ?_, ?_⟩
  · intro pre s post he
    cases pre <;> simp [double] at he
  · intro o ho
    simp only [double, List.mem_singleton] at ho
    subst ho
    exact ⟨.op () [.input "x", .input "x"], by simp [double], by simp [Tensor.analyzers, Tensor.analyzersOf]⟩

theorem shifted_wellFormed : WellFormed shifted := by
  refine ⟨by decide, by decide, ?_, ?_⟩
  · intro pre s post he n hn
    cases pre with
    | cons a pre => simp [shifted] at he
    | nil =>
      simp only [shifted, List.nil_append, List.cons.injEq] at he
      obtain ⟨rfl, -⟩ := he
      simp only [List.mem_singleton] at hn
      subst hn
      exact ⟨.input "x", by simp [shifted], by simp [Tensor.analyzers]⟩
  · intro o ho
    simp only [shifted, List.mem_singleton] at ho
    subst ho
    exact ⟨.op () [.input "x", .sink "sum"], by simp [shifted],
      by simp [Tensor.analyzers, Tensor.analyzersOf, shifted]⟩

/-- A function without analyzers, with both behaviours. -/
example (tf1 : Bool) :
    (analyzeInPlace meaning infer (.ok ()) tf1 ⟨double, double⟩ empty).result = .ok () ∧
      HoldsOutput meaning double 1
        ((analyzeInPlace meaning infer (.ok ()) tf1 ⟨double, double⟩ empty).final empty) :=
  analyze_in_place_result meaning infer tf1 ⟨double, double⟩ double_wellFormed rfl 1 rfl rfl empty rfl

example : (((analyzeInPlace meaning infer (.ok ()) false ⟨double, double⟩ empty).final empty).transformFn.map
    fun f => f [("x", 3)]) = some (.ok [("y", 6)]) := by decide +kernel

/-- The function with an analyzer is refused with TF2 behaviour, and the directory then holds a transform function that
adds the temporary value 0.  On the data `[4], [7]` the analysis gives a transform function that adds 11. -/
theorem tf2_leaves_temporary_values :
    (∃ e, (analyzeInPlace meaning infer (.ok ()) false ⟨shifted, shifted⟩ empty).result = .error e) ∧
    (((analyzeInPlace meaning infer (.ok ()) false ⟨shifted, shifted⟩ empty).final empty).transformFn.map
      fun f => f [("x", 3)]) = some (.ok [("y", 3)]) ∧
    OutputsAre meaning shifted (fun _ => 11) [("x", 3)] [("y", 14)] ∧
    Results meaning shifted [[("x", 4)], [("x", 7)]] (fun _ => 11) := by
  refine ⟨(analyzers_refused meaning infer (.ok ()) false ⟨shifted, shifted⟩ (by simp [shifted]) empty).1,
    by decide +kernel, ?_, ?_⟩
  · exact .cons ⟨rfl, .op () [.input "x", .sink "sum"], by simp [shifted], by rfl⟩ .nil
  · intro s hs
    simp only [shifted, List.mem_singleton] at hs
    subst hs
    refine ⟨[[4], [7]], ?_, by rfl⟩
    exact .cons (.cons ⟨.input "x", by simp [shifted], by rfl⟩ .nil)
      (.cons (.cons ⟨.input "x", by simp [shifted], by rfl⟩ .nil) .nil)

example : (∃ e, (analyzeInPlace meaning infer (.ok ()) true ⟨shifted, shifted⟩ empty).result = .error e) ∧
    (analyzeInPlace meaning infer (.ok ()) true ⟨shifted, shifted⟩ empty).states = [] :=
  tf1_refused_writes_nothing_partial meaning infer (.ok ()) ⟨shifted, shifted⟩ empty (.inl (by simp [shifted]))

/-- A call in the directory of an older output, with TF2 behaviour, that dies between its two writes leaves the new
function next to the old metadata. -/
theorem tf2_dies_over_older_output :
    ∃ d ∈ (analyzeInPlace meaning infer (.ok ()) false ⟨double, double⟩ ⟨some (fun _ => .ok []), some 0⟩).states,
      (d.transformFn.map fun f => f [("x", 3)]) = some (.ok [("y", 6)]) ∧ d.metadata = some 0 := by
  refine ⟨⟨some (written meaning double), some 0⟩, ?_, by decide +kernel, rfl⟩
  unfold analyzeInPlace
  simp only [Bool.false_eq_true, if_false, inPlaceV2, assertNoAnalyzers_ok double rfl, infer, finish, Run.after]
  simp

end Cases

end TFT.InPlace
