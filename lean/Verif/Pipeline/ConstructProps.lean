import Verif.Pipeline.Construct
import Verif.Graph.TraverseProps

/-!
# C83: the pipeline is built from the registered implementations
-/

set_option linter.unusedSectionVars false

namespace TFT.Construct

open TFT TFT.Graph TFT.Graph.Spec

variable {C I Op V : Type} [DecidableEq C]

/-! ## Specification -/

/-- A use of the decorator registers an implementation for this class of operations and this tag; without
tags it registers a general implementation. -/
def Registers (r : Registration C I) (cls : C) (tag : Tag) : Prop :=
  r.cls = cls ∧ ((r.tags = none ∧ tag = .general) ∨ ∃ tags, r.tags = some tags ∧ tag ∈ tags)

/-- The last implementation that was registered for a class and a tag. -/
def LastFor (history : List (Registration C I)) (cls : C) (tag : Tag) (impl : I) : Prop :=
  ∃ before r after, history = before ++ r :: after ∧ Registers r cls tag ∧ r.candidate.impl = impl ∧
    ∀ r' ∈ after, ¬ Registers r' cls tag

/-- Nothing was registered for a class and a tag. -/
def NoneFor (history : List (Registration C I)) (cls : C) (tag : Tag) : Prop :=
  ∀ r ∈ history, ¬ Registers r cls tag

/-- The implementation of a class of operations in an environment, and the tag that is added to the
labels: the last one that was registered for the environment, otherwise the last general one. -/
inductive Chosen (history : List (Registration C I)) (cls : C) (env : Env) : I → Option String → Prop
  | tagged (impl : I) (h : LastFor history cls (.env env) impl) : Chosen history cls env impl (some env.value)
  | general (impl : I) (h : NoneFor history cls (.env env)) (h' : LastFor history cls .general impl) :
      Chosen history cls env impl none

/-- The label of a stage. -/
def stageLabel (label : String) : Option String → String
  | none => label
  | some tag => label ++ "[" ++ tag ++ "]"

/-- What an implementation returned, as a list of values. -/
inductive Returned : Result V → List V → Prop
  | single (x : V) : Returned (.single x) [x]
  | tuple (xs : List V) : Returned (.tuple xs) xs

/-- What an implementation is given: the beginning of the pipeline if the operation has no inputs. -/
inductive Given : List V → Source V → Prop
  | begin : Given [] .begin
  | inputs (x : V) (xs : List V) : Given (x :: xs) (.inputs (x :: xs))

/-! ## The registry -/

theorem registerAll_append (reg : Registry C I) (a b : List (Registration C I)) :
    registerAll reg (a ++ b) = (registerAll reg a >>= fun reg => registerAll reg b) := by
  induction a generalizing reg with
  | nil => rfl
  | cons r a ih =>
    simp only [List.cons_append, registerAll, bind, Except.bind]
    cases register reg r.cls r.tags r.candidate with
    | error e => rfl
    | ok reg' => exact ih reg'

theorem register_ok {reg reg' : Registry C I} {r : Registration C I}
    (h : register reg r.cls r.tags r.candidate = .ok reg') (cls : C) (tag : Tag) :
    (Registers r cls tag → reg' cls tag = some r.candidate.impl) ∧
      (¬ Registers r cls tag → reg' cls tag = reg cls tag) := by
  unfold register at h
  split at h
  · cases h
  · split at h
    · cases h
    · cases h
      simp only
      by_cases hc : cls = r.cls
      · rw [if_pos hc]
        unfold addPtransform Registers
        cases ht : r.tags with
        | none =>
          simp only [Option.getD_none, List.mem_singleton]
          constructor
          · rintro ⟨_, ⟨_, h⟩ | ⟨_, h, _⟩⟩
            · rw [if_pos h]
            · cases h
          · intro h
            rw [if_neg]
            intro hg
            exact h ⟨hc.symm, Or.inl ⟨trivial, hg⟩⟩
        | some tags =>
          simp only [Option.getD_some]
          constructor
          · rintro ⟨_, ⟨h, _⟩ | ⟨tags', h, h'⟩⟩
            · cases h
            · cases h; rw [if_pos h']
          · intro h
            rw [if_neg]
            intro hg
            exact h ⟨hc.symm, Or.inr ⟨tags, rfl, hg⟩⟩
      · rw [if_neg hc]
        exact ⟨fun h => absurd h.1.symm hc, fun _ => rfl⟩

theorem registry_spec (history : List (Registration C I)) (reg : Registry C I)
    (h : registerAll (fun _ _ => none) history = .ok reg) (cls : C) (tag : Tag) :
    (∀ impl, LastFor history cls tag impl → reg cls tag = some impl) ∧
      (NoneFor history cls tag → reg cls tag = none) ∧
      ((∃ impl, LastFor history cls tag impl) ∨ NoneFor history cls tag) := by
  induction history using List.reverseRecOn generalizing reg with
  | nil =>
    cases h
    refine ⟨?_, fun _ => rfl, Or.inr (by simp [NoneFor])⟩
    rintro impl ⟨b, r, a, h, _⟩
    simp at h
  | append_singleton rs r ih =>
    rw [registerAll_append] at h
    cases h1 : registerAll (fun _ _ => none) rs with
    | error e => rw [h1] at h; cases h
    | ok reg1 =>
      rw [h1] at h
      simp only [registerAll, bind, Except.bind] at h
      cases h2 : register reg1 r.cls r.tags r.candidate with
      | error e => rw [h2] at h; cases h
      | ok reg2 =>
        rw [h2] at h
        cases h
        obtain ⟨k1, k2⟩ := register_ok h2 cls tag
        obtain ⟨i1, i2, i3⟩ := ih reg1 h1
        by_cases hr : Registers r cls tag
        · refine ⟨?_, fun hn => absurd hr (hn r (by simp)),
            Or.inl ⟨r.candidate.impl, rs, r, [], rfl, hr, rfl, by simp⟩⟩
          rintro impl ⟨b, r', a, he, hr', rfl, hno⟩
          rcases List.eq_nil_or_concat a with rfl | ⟨a', x, rfl⟩
          · have := List.append_inj' he (by simp)
            obtain ⟨_, hh⟩ := this
            cases hh
            exact k1 hr
          · rw [List.concat_eq_append] at he hno
            have he' : rs ++ [r] = (b ++ r' :: a') ++ [x] := by simpa using he
            have := List.append_inj' he' (by simp)
            obtain ⟨_, hh⟩ := this
            cases hh
            exact absurd hr (hno r (by simp))
        · rw [k2 hr]
          refine ⟨?_, fun hn => i2 (fun r' hr' => hn r' (by simp [hr'])), ?_⟩
          · rintro impl ⟨b, r', a, he, hr', hi, hno⟩
            rcases List.eq_nil_or_concat a with rfl | ⟨a', x, rfl⟩
            · have := List.append_inj' he (by simp)
              obtain ⟨_, hh⟩ := this
              cases hh
              exact absurd hr' hr
            · rw [List.concat_eq_append] at he hno
              have he' : rs ++ [r] = (b ++ r' :: a') ++ [x] := by simpa using he
              have := List.append_inj' he' (by simp)
              obtain ⟨hh1, _⟩ := this
              exact i1 impl ⟨b, r', a', hh1, hr', hi, fun y hy => hno y (by simp [hy])⟩
          · rcases i3 with ⟨impl, b, r', a, he, hr', hi, hno⟩ | hn
            · left
              refine ⟨impl, b, r', a ++ [r], by rw [he]; simp, hr', hi, ?_⟩
              intro y hy
              rcases List.mem_append.1 hy with hy | hy
              · exact hno y hy
              · rw [List.mem_singleton.1 hy]; exact hr
            · right
              intro y hy
              rcases List.mem_append.1 hy with hy | hy
              · exact hn y hy
              · rw [List.mem_singleton.1 hy]; exact hr

/-- **C83** the implementation that a pipeline uses for an operation is the last one that was registered
for its class and the environment, otherwise the last one that was registered without tags; if there is
neither, the lookup fails. -/
theorem implementation_is_the_last_registered (history : List (Registration C I)) (reg : Registry C I)
    (h : registerAll (fun _ _ => none) history = .ok reg) (defs : OpDefs Op C) (env : Env) (op : Op) :
    (∀ impl tag, implementation defs reg env op = .ok (impl, tag) ↔ Chosen history (defs.cls op) env impl tag) ∧
      ((∃ e, implementation defs reg env op = .error e) ↔
        NoneFor history (defs.cls op) (.env env) ∧ NoneFor history (defs.cls op) .general) := by
  obtain ⟨a1, a2, a3⟩ := registry_spec history reg h (defs.cls op) (.env env)
  obtain ⟨b1, b2, b3⟩ := registry_spec history reg h (defs.cls op) .general
  have hnot : ∀ tag impl, LastFor history (defs.cls op) tag impl → ¬ NoneFor history (defs.cls op) tag := by
    rintro tag impl ⟨b, r, a, rfl, hr, _⟩ hn
    exact hn r (by simp) hr
  unfold implementation getPtransform
  rcases a3 with ⟨i, hi⟩ | hn
  · rw [a1 i hi]
    simp only
    refine ⟨?_, ⟨by rintro ⟨e, h⟩; simp at h, fun hh => absurd hh.1 (hnot _ _ hi)⟩⟩
    intro impl tag
    constructor
    · intro hh
      cases hh
      exact .tagged _ hi
    · intro hh
      cases hh with
      | tagged h1 =>
        have := (a1 _ h1).symm.trans (a1 i hi)
        cases this; rfl
      | general h1 _ => exact absurd h1 (hnot _ _ hi)
  · rw [a2 hn]
    simp only
    rcases b3 with ⟨i, hi⟩ | hn'
    · rw [b1 i hi]
      simp only
      refine ⟨?_, ⟨by rintro ⟨e, h⟩; simp at h, fun hh => absurd hh.2 (hnot _ _ hi)⟩⟩
      intro impl tag
      constructor
      · intro hh
        cases hh
        exact .general _ hn hi
      · intro hh
        cases hh with
        | tagged h1 => exact absurd hn (hnot _ _ h1)
        | general _ h2 =>
          have := (b1 _ h2).symm.trans (b1 i hi)
          cases this; rfl
    · rw [b2 hn']
      simp only
      refine ⟨?_, ⟨fun _ => ⟨hn, hn'⟩, fun _ => ⟨_, rfl⟩⟩⟩
      intro impl tag
      constructor
      · intro hh; cases hh
      · intro hh
        cases hh with
        | tagged h1 => exact absurd hn (hnot _ _ h1)
        | general _ h2 => exact absurd hn' (hnot _ _ h2)

/-- **C83** registering subclasses of `beam.PTransform` always succeeds, and nothing else does. -/
theorem registration_outcome (history : List (Registration C I)) :
    (∃ reg, registerAll (fun _ _ => none) history = .ok reg) ↔
      ∀ r ∈ history, r.candidate.isClass = true ∧ r.candidate.isPTransform = true := by
  generalize (fun _ _ => none : Registry C I) = reg0
  induction history generalizing reg0 with
  | nil => simp [registerAll]
  | cons r rs ih =>
    simp only [registerAll, List.forall_mem_cons, register]
    by_cases h1 : r.candidate.isClass = true
    · by_cases h2 : r.candidate.isPTransform = true
      · simp only [h1, h2, Bool.not_true, Bool.false_eq_true, if_false, and_self, true_and, bind, Except.bind]
        exact ih _
      · simp [h1, h2, bind, Except.bind]
    · simp [h1, bind, Except.bind]

/-- **C83** the order in which modules register implementations does not matter, when nothing is
registered twice. -/
theorem registration_order_does_not_matter (history history' : List (Registration C I))
    (hp : history.Perm history')
    (honce : history.Pairwise (fun r r' => ∀ cls tag, ¬ (Registers r cls tag ∧ Registers r' cls tag)))
    (reg reg' : Registry C I) (h : registerAll (fun _ _ => none) history = .ok reg)
    (h' : registerAll (fun _ _ => none) history' = .ok reg') : reg = reg' := by
  have hsym : ∀ {r r' : Registration C I}, (∀ cls tag, ¬ (Registers r cls tag ∧ Registers r' cls tag)) →
      ∀ cls tag, ¬ (Registers r' cls tag ∧ Registers r cls tag) := fun h cls tag hh => h cls tag hh.symm
  have honce' := hp.pairwise honce hsym
  have hlast : ∀ (hist : List (Registration C I)),
      hist.Pairwise (fun r r' => ∀ cls tag, ¬ (Registers r cls tag ∧ Registers r' cls tag)) →
      ∀ r ∈ hist, ∀ cls tag, Registers r cls tag → LastFor hist cls tag r.candidate.impl := by
    intro hist hpw r hr cls tag hreg
    obtain ⟨b, a, rfl⟩ := List.append_of_mem hr
    refine ⟨b, r, a, rfl, hreg, rfl, ?_⟩
    intro r' hr' hreg'
    have := (List.pairwise_append.1 hpw).2.1
    exact (List.pairwise_cons.1 this).1 r' hr' cls tag ⟨hreg, hreg'⟩
  funext cls tag
  obtain ⟨a1, a2, a3⟩ := registry_spec history reg h cls tag
  obtain ⟨b1, b2, _⟩ := registry_spec history' reg' h' cls tag
  rcases a3 with ⟨i, hi⟩ | hn
  · rw [a1 i hi]
    obtain ⟨b, r, a, he, hr, rfl, _⟩ := hi
    have hm : r ∈ history := by rw [he]; simp
    exact (b1 _ (hlast history' honce' r (hp.mem_iff.1 hm) cls tag hr)).symm
  · rw [a2 hn, b2 (fun r hr => hn r (hp.mem_iff.2 hr))]

/-! ## The pipeline -/

variable [DecidableEq Op] [Fintype Op]

theorem visitOp_ok {defs : OpDefs Op C} {reg : Registry C (Impl Op V)} {env : Env} {earlier : List Op}
    {op : Op} {ins outs : List V} (h : visitOp defs reg env earlier op ins = .ok outs) :
    ∃ impl tag result source, implementation defs reg env op = .ok (impl, tag) ∧ Given ins source ∧
      impl op source = .ok result ∧ Returned result outs ∧
      ∀ o ∈ earlier, ∀ impl' tag', implementation defs reg env o = .ok (impl', tag') →
        stageLabel (defs.label o) tag' ≠ stageLabel (defs.label op) tag := by
  unfold visitOp at h
  cases hi : implementation defs reg env op with
  | error e => rw [hi] at h; cases h
  | ok p =>
    obtain ⟨impl, tag⟩ := p
    rw [hi] at h
    simp only [bind, Except.bind] at h
    split at h
    · cases h
    · rename_i hu
      cases hr : impl op (sourceOf ins) with
      | error e => rw [hr] at h; cases h
      | ok result =>
        rw [hr] at h
        refine ⟨impl, tag, result, sourceOf ins, rfl, ?_, hr, ?_, ?_⟩
        · cases ins with
          | nil => exact .begin
          | cons x xs => exact .inputs x xs
        · cases result with
          | single x => cases h; exact .single x
          | tuple xs => cases h; exact .tuple _
          | other => cases h
        · intro o ho impl' tag' hi' he
          apply hu
          rw [List.mem_filterMap]
          refine ⟨o, ho, ?_⟩
          rw [hi']
          have e : ∀ l t, taggedLabel l t = stageLabel l t := by intro l t; cases t <;> rfl
          simp only [Option.some.injEq]
          rw [e, e, he]

/-- One stage for every operation that a request depends on, after the stages of its inputs: the chosen
implementation was applied to the values of the inputs, and its label is new. -/
structure Built (g : OpGraph Op) (defs : OpDefs Op C) (history : List (Registration C (Impl Op V)))
    (isPCollection : V → Bool) (env : Env) (before : List (Call Op V)) (c : Call Op V) : Prop where
  once : ∀ b ∈ before, b.op ≠ c.op
  inputs : List.Forall₂ (Produced before) (g.inputs c.op) c.ins
  outputs : c.outs.length = g.numOutputs c.op
  collections : ∀ x ∈ c.outs, isPCollection x = true
  applied : ∃ impl tag result source, Chosen history (defs.cls c.op) env impl tag ∧ Given c.ins source ∧
    impl c.op source = .ok result ∧ Returned result c.outs ∧
    ∀ b ∈ before, ∀ impl' tag', Chosen history (defs.cls b.op) env impl' tag' →
      stageLabel (defs.label b.op) tag' ≠ stageLabel (defs.label c.op) tag

theorem proper_split {g : OpGraph Op} {v : Visitor Op V} {calls : List (Call Op V)}
    (h : Proper g v calls) : ∀ before c after, calls = before ++ c :: after →
      (∀ b ∈ before, b.op ≠ c.op) ∧ List.Forall₂ (Produced before) (g.inputs c.op) c.ins ∧
      v.visit before c.op c.ins = .ok c.outs ∧ c.outs.length = g.numOutputs c.op := by
  induction h with
  | nil => intro b c a h; simp at h
  | @snoc calls op ins outs hp hnew hins hvis hlen ih =>
    intro before c after he
    rcases List.eq_nil_or_concat after with rfl | ⟨after', last, rfl⟩
    · obtain ⟨h1, h2⟩ := List.append_inj' he (by simp)
      cases h2
      subst h1
      exact ⟨hnew, hins, hvis, hlen⟩
    · rw [List.concat_eq_append] at he
      have he' : calls ++ [⟨op, ins, outs⟩] = (before ++ c :: after') ++ [last] := by simpa using he
      obtain ⟨h1, _⟩ := List.append_inj' he' (by simp)
      exact ih before c after' h1

/-- The environment that `use_tf_compat_v1` stands for. -/
def environment : Bool → Env
  | true => .tfCompatV1
  | false => .tfV2Only

/-- **C83** a pipeline that is built has exactly one stage for every operation that the requests depend
on. Every stage is the implementation chosen for its operation, applied to the values of the inputs, under
a label of its own; and the requests get the values that the stages of their operations returned. -/
theorem pipeline_is_built_from_the_registered_implementations (g : OpGraph Op) (hg : WellFormed g)
    (defs : OpDefs Op C) (history : List (Registration C (Impl Op V))) (reg : Registry C (Impl Op V))
    (hreg : registerAll (fun _ _ => none) history = .ok reg) (isPCollection : V → Bool) (compat : Bool)
    (requests : List (Op × Nat)) (hr : ∀ r ∈ requests, r.2 < g.numOutputs r.1) (st : St Op V)
    (values : List V) (h : buildPipeline g defs reg isPCollection compat requests = .ok (st, values)) :
    (∀ op, (∃ c ∈ st.calls, c.op = op) ↔ ∃ r ∈ requests, Reach g r.1 op) ∧
    (∀ before c after, st.calls = before ++ c :: after →
      Built g defs history isPCollection (environment compat) before c) ∧
    List.Forall₂ (Produced st.calls) requests values := by
  have henv : (if compat then Env.tfCompatV1 else .tfV2Only) = environment compat := by
    cases compat <;> rfl
  rw [buildPipeline, henv] at h
  obtain ⟨h1, h2, h3⟩ := traverse_spec g hg _ requests hr st values h
  refine ⟨h2, ?_, h3⟩
  intro before c after he
  obtain ⟨k1, k2, k3, k4⟩ := proper_split h1 before c after he
  obtain ⟨impl, tag, result, source, m1, m2, m3, m4, m5⟩ := visitOp_ok k3
  have hch := fun op => (implementation_is_the_last_registered history reg hreg defs
    (environment compat) (Op := Op) op).1
  have hval : ∀ x ∈ c.outs, isPCollection x = true := by
    intro x hx
    have := traverse_validates g _ requests st values h c (by rw [he]; simp) x hx
    simp only [beamVisitor] at this
    by_contra hn
    rw [if_neg hn] at this
    cases this
  refine ⟨k1, k2, k4, hval, impl, tag, result, source, (hch _ _ _).1 m1, m2, m3, m4, ?_⟩
  intro b hb impl' tag' hc
  exact m5 b.op (List.mem_map_of_mem hb) impl' tag' ((hch _ _ _).2 hc)

/-- Every operation has an implementation, which turns `PCollection`s for its inputs into as many
`PCollection`s as it has outputs; and no two operations have the same label. -/
structure Implemented (g : OpGraph Op) (defs : OpDefs Op C) (history : List (Registration C (Impl Op V)))
    (isPCollection : V → Bool) (env : Env) : Prop where
  impl : ∀ op, ∃ impl tag, Chosen history (defs.cls op) env impl tag ∧
    ∀ ins source, ins.length = (g.inputs op).length → (∀ x ∈ ins, isPCollection x = true) →
      Given ins source → ∃ result outs, impl op source = .ok result ∧ Returned result outs ∧
        outs.length = g.numOutputs op ∧ ∀ x ∈ outs, isPCollection x = true
  labels : ∀ op op' impl tag impl' tag', Chosen history (defs.cls op) env impl tag →
    Chosen history (defs.cls op') env impl' tag' →
    stageLabel (defs.label op) tag = stageLabel (defs.label op') tag' → op = op'

theorem given_sourceOf (ins : List V) : Given ins (sourceOf ins) := by
  cases ins with
  | nil => exact .begin
  | cons x xs => exact .inputs x xs

theorem given_unique {ins : List V} {s : Source V} (h : Given ins s) : s = sourceOf ins := by
  cases h <;> rfl

theorem returned_unique {result : Result V} {a b : List V} (h : Returned result a) (h' : Returned result b) :
    a = b := by
  cases h <;> cases h' <;> rfl

theorem chosen_unique {history : List (Registration C I)} {reg : Registry C I}
    (h : registerAll (fun _ _ => none) history = .ok reg) (cls : C) (env : Env) {i j : I} {t u : Option String}
    (h1 : Chosen history cls env i t) (h2 : Chosen history cls env j u) : i = j ∧ t = u := by
  have hc := (implementation_is_the_last_registered history reg h (⟨fun _ => cls, fun _ => ""⟩ : OpDefs Unit C)
    env ()).1
  have := ((hc i t).2 h1).symm.trans ((hc j u).2 h2)
  cases this
  exact ⟨rfl, rfl⟩

/-- **C83** if every operation has an implementation that gives the right number of `PCollection`s, and no
two have the same label, the pipeline is built unless a request depends on a cycle. -/
theorem pipeline_is_built_iff (g : OpGraph Op) (hg : WellFormed g)
    (defs : OpDefs Op C) (history : List (Registration C (Impl Op V))) (reg : Registry C (Impl Op V))
    (hreg : registerAll (fun _ _ => none) history = .ok reg) (isPCollection : V → Bool) (compat : Bool)
    (himpl : Implemented g defs history isPCollection (environment compat))
    (requests : List (Op × Nat)) (hr : ∀ r ∈ requests, r.2 < g.numOutputs r.1) :
    (∃ st values, buildPipeline g defs reg isPCollection compat requests = .ok (st, values)) ↔
      ∀ r ∈ requests, ∀ o, Reach g r.1 o → ¬ OnCycle g o := by
  have henv : (if compat then Env.tfCompatV1 else .tfV2Only) = environment compat := by
    cases compat <;> rfl
  have hch := fun op => (implementation_is_the_last_registered history reg hreg defs
    (environment compat) (Op := Op) op).1
  have hcoll : ∀ calls, Proper g (beamVisitor defs reg isPCollection (environment compat)) calls →
      ∀ c ∈ calls, ∀ x ∈ c.outs, isPCollection x = true := by
    intro calls hp
    induction hp with
    | nil => simp
    | @snoc calls op ins outs hp hnew hins hvis hlen ih =>
      intro c hc
      rcases List.mem_append.1 hc with hc | hc
      · exact ih c hc
      · rw [List.mem_singleton.1 hc]
        obtain ⟨impl, tag, result, source, m1, m2, m3, m4, _⟩ := visitOp_ok hvis
        obtain ⟨impl', tag', h1, h2⟩ := himpl.impl op
        obtain ⟨rfl, rfl⟩ := chosen_unique hreg _ _ h1 ((hch _ _ _).1 m1)
        obtain ⟨result', outs', k1, k2, _, k4⟩ := h2 ins source hins.length_eq.symm (by
          intro x hx
          obtain ⟨n, _, d, hd, _, hdx⟩ := exists_of_forall₂ hins.flip hx
          exact ih d hd x (List.mem_of_getElem? hdx)) m2
        rw [m3] at k1
        cases k1
        rw [returned_unique m4 k2]
        exact k4
  have hv : NeverFails g (beamVisitor defs reg isPCollection (environment compat)) := by
    constructor
    intro calls op ins hp hnew hins
    obtain ⟨impl, tag, h1, h2⟩ := himpl.impl op
    obtain ⟨result, outs, k1, k2, k3, k4⟩ := h2 ins (sourceOf ins) hins.length_eq.symm (by
      intro x hx
      obtain ⟨n, _, d, hd, _, hdx⟩ := exists_of_forall₂ hins.flip hx
      exact hcoll calls hp d hd x (List.mem_of_getElem? hdx)) (given_sourceOf ins)
    refine ⟨outs, ?_, k3, ?_⟩
    · simp only [beamVisitor, visitOp, (hch _ _ _).2 h1, bind, Except.bind]
      rw [if_neg]
      · rw [k1]
        cases k2 <;> rfl
      · intro hm
        obtain ⟨o, ho, hl⟩ := List.mem_filterMap.1 hm
        obtain ⟨c, hc, rfl⟩ := List.mem_map.1 ho
        cases hi : implementation defs reg (environment compat) c.op with
        | error e => rw [hi] at hl; cases hl
        | ok p =>
          obtain ⟨impl', tag'⟩ := p
          rw [hi] at hl
          simp only [Option.some.injEq] at hl
          have e : ∀ l t, taggedLabel l t = stageLabel l t := by intro l t; cases t <;> rfl
          rw [e, e] at hl
          exact hnew c hc (himpl.labels _ _ _ _ _ _ ((hch _ _ _).1 hi) h1 hl)
    · intro x hx
      simp only [beamVisitor, k4 x hx, if_true]
  have := (traverse_outcome g hg _ hv requests hr).1
  rw [buildPipeline, henv, ← this]
  constructor
  · rintro ⟨st, values, h⟩; exact ⟨_, h⟩
  · rintro ⟨⟨st, values⟩, h⟩; exact ⟨st, values, h⟩

/-- **C83** a pipeline is not built if a request depends on an operation without an implementation. -/
theorem missing_implementation_is_rejected (g : OpGraph Op) (hg : WellFormed g)
    (defs : OpDefs Op C) (history : List (Registration C (Impl Op V))) (reg : Registry C (Impl Op V))
    (hreg : registerAll (fun _ _ => none) history = .ok reg) (isPCollection : V → Bool) (compat : Bool)
    (requests : List (Op × Nat)) (hr : ∀ r ∈ requests, r.2 < g.numOutputs r.1) (op : Op)
    (hop : ∃ r ∈ requests, Reach g r.1 op)
    (h1 : NoneFor history (defs.cls op) (.env (environment compat))) (h2 : NoneFor history (defs.cls op) .general) :
    ∃ e, buildPipeline g defs reg isPCollection compat requests = .error e := by
  cases h : buildPipeline g defs reg isPCollection compat requests with
  | error e => exact ⟨e, rfl⟩
  | ok p =>
    obtain ⟨st, values⟩ := p
    obtain ⟨k1, k2, _⟩ := pipeline_is_built_from_the_registered_implementations g hg defs history reg hreg
      isPCollection compat requests hr st values h
    obtain ⟨c, hc, rfl⟩ := (k1 op).2 hop
    obtain ⟨before, after, he⟩ := List.append_of_mem hc
    obtain ⟨impl, tag, _, _, hch, _⟩ := (k2 before c after he).applied
    obtain ⟨e, he⟩ := ((implementation_is_the_last_registered history reg hreg defs
      (environment compat) (Op := Op) c.op).2).2 ⟨h1, h2⟩
    rw [((implementation_is_the_last_registered history reg hreg defs
      (environment compat) (Op := Op) c.op).1 _ _).2 hch] at he
    cases he

/-! ## Where the code does not do what it says -/

/-- The implementations below are named by numbers; all are `beam.PTransform` classes. -/
def registration (tags : Option (List Tag)) (impl : Nat) : Registration Unit Nat :=
  ⟨(), tags, ⟨true, true, impl⟩⟩

/-- **C83** a second implementation for the same class and the same environments is not rejected
("each ptransform_class should be registered only once", with an assertion that can never fail): it
replaces the first, and the order of imports decides which is used. -/
theorem duplicate_registrations_are_not_rejected :
    ∃ history history' : List (Registration Unit Nat), history.Perm history' ∧
      ∃ reg reg', registerAll (fun _ _ => none) history = .ok reg ∧
        registerAll (fun _ _ => none) history' = .ok reg' ∧
        reg () .general = some 2 ∧ reg' () .general = some 1 :=
  ⟨[registration none 1, registration none 2], [registration none 2, registration none 1],
    List.Perm.swap _ _ _, _, _, rfl, rfl, rfl, rfl⟩

/-- **C83** an implementation that is registered with the tags that the documentation asks for, the
strings of the environments, is accepted and never used: with it alone there is no implementation. -/
theorem string_tags_are_never_found (env env' : Env) (impl : Nat) :
    ∃ reg, registerAll (fun _ _ => none) [registration (some [.string env.value]) impl] = .ok reg ∧
      ∃ e, implementation (⟨fun _ => (), fun _ => "analyzer"⟩ : OpDefs Unit Unit) reg env' () = .error e := by
  refine ⟨_, rfl, ?_⟩
  rw [(implementation_is_the_last_registered [registration (some [.string env.value]) impl] _ rfl (⟨fun _ => (), fun _ => "analyzer"⟩ : OpDefs Unit Unit)
    env' ()).2]
  constructor
  · intro r hr
    rw [List.mem_singleton.1 hr]
    rintro ⟨_, ⟨h, _⟩ | ⟨tags, h, h'⟩⟩
    · cases h
    · cases h; simp at h'
  · intro r hr
    rw [List.mem_singleton.1 hr]
    rintro ⟨_, ⟨h, _⟩ | ⟨tags, h, h'⟩⟩
    · cases h
    · cases h; simp at h'

/-- **C83** a function instead of a `PTransform` class, which the documentation allows, is rejected. -/
theorem functions_are_rejected (impl : Nat) (tags : Option (List Tag)) :
    ¬ ∃ reg, registerAll (fun _ _ => none) [(⟨(), tags, ⟨false, false, impl⟩⟩ : Registration Unit Nat)] = .ok reg := by
  rw [registration_outcome]
  intro h
  have := (h _ (List.mem_singleton.2 rfl)).1
  cases this

/-! ## The hypotheses are met -/

/-- An implementation that returns one collection per output, named by the operation and its inputs. -/
def demoImpl (name : Nat) (outputs : Fin 4 → Nat) : Impl (Fin 4) (List Nat) := fun op source =>
  match source with
  | .begin => .ok (.tuple (List.replicate (outputs op) [name, op.val]))
  | .inputs xs => .ok (.tuple (List.replicate (outputs op) (name :: op.val :: xs.flatten)))

/-- A general implementation and one for pure TF 2. -/
def demoHistory : List (Registration Unit (Impl (Fin 4) (List Nat))) :=
  [⟨(), none, ⟨true, true, demoImpl 7 diamond.numOutputs⟩⟩,
   ⟨(), some [.env .tfV2Only], ⟨true, true, demoImpl 8 diamond.numOutputs⟩⟩]

/-- Labels for the operations of the diamond. -/
def demoDefs : OpDefs (Fin 4) Unit := ⟨fun _ => (), ![ "a", "b", "c", "d" ]⟩

theorem demo_chosen (compat : Bool) : ∃ name tag, Chosen demoHistory () (environment compat)
    (demoImpl name diamond.numOutputs) tag := by
  cases compat
  · refine ⟨8, _, .tagged _ ⟨[_], _, [], rfl, ⟨rfl, Or.inr ⟨_, rfl, by simp [environment]⟩⟩, rfl, by simp⟩⟩
  · refine ⟨7, _, .general _ ?_ ⟨[], _, [_], rfl, ⟨rfl, Or.inl ⟨rfl, rfl⟩⟩, rfl, ?_⟩⟩
    · intro r hr
      simp only [demoHistory, List.mem_cons, List.not_mem_nil, or_false] at hr
      rcases hr with rfl | rfl
      · rintro ⟨_, ⟨_, h⟩ | ⟨_, h, _⟩⟩ <;> cases h
      · rintro ⟨_, ⟨h, _⟩ | ⟨_, h, h'⟩⟩
        · cases h
        · cases h; simp [environment] at h'
    · intro r hr
      rw [List.mem_singleton.1 hr]
      rintro ⟨_, ⟨h, _⟩ | ⟨_, h, h'⟩⟩
      · cases h
      · cases h; simp at h'

theorem demo_registered : ∃ reg, registerAll (fun _ _ => none) demoHistory = .ok reg := ⟨_, rfl⟩

theorem demo_implemented (compat : Bool) :
    Implemented diamond demoDefs demoHistory (fun x => !x.isEmpty) (environment compat) := by
  obtain ⟨reg, hreg⟩ := demo_registered
  obtain ⟨name, tag, hch⟩ := demo_chosen compat
  constructor
  · intro op
    refine ⟨_, tag, hch, ?_⟩
    intro ins source hlen hins hgiv
    cases hgiv with
    | begin =>
      refine ⟨_, _, rfl, .tuple _, by simp, ?_⟩
      intro x hx
      rw [List.eq_of_mem_replicate hx]; rfl
    | inputs x xs =>
      refine ⟨_, _, rfl, .tuple _, by simp, ?_⟩
      intro x hx
      rw [List.eq_of_mem_replicate hx]; rfl
  · intro op op' impl t impl' t' h1 h2 hl
    obtain ⟨_, ht⟩ := chosen_unique hreg _ _ h1 h2
    subst ht
    have hinj : ∀ a b : Fin 4, demoDefs.label a = demoDefs.label b → a = b := by decide +kernel
    apply hinj
    cases t with
    | none => exact hl
    | some t =>
      simp only [stageLabel, String.append_assoc] at hl
      have := congrArg String.toList hl
      simp only [String.toList_append] at this
      exact String.toList_inj.1 (List.append_cancel_right this)

example (compat : Bool) (reg) (hreg : registerAll (fun _ _ => none) demoHistory = .ok reg) :
    ∃ st values, buildPipeline diamond demoDefs reg (fun x => !x.isEmpty) compat [(3, 0), (1, 1)] = .ok (st, values) :=
  (pipeline_is_built_iff diamond diamond_wf demoDefs demoHistory reg hreg _ compat (demo_implemented compat)
    _ (by decide)).2 (fun _ _ o _ => diamond_acyclic o)

/-- An operation without an implementation, and a failing pipeline. -/
example : ∃ e, buildPipeline diamond demoDefs (fun _ _ => none : Registry Unit (Impl (Fin 4) (List Nat)))
    (fun x => !x.isEmpty) true [(3, 0)] = .error e :=
  missing_implementation_is_rejected diamond diamond_wf demoDefs [] _ rfl _ true _ (by decide) 3
    ⟨(3, 0), by simp, .refl⟩ (by simp [NoneFor]) (by simp [NoneFor])

/-- Two registrations for different environments may come in either order. -/
example (reg reg' : Registry Unit Nat)
    (h : registerAll (fun _ _ => none) [registration none 1, registration (some [.env .tfV2Only]) 2] = .ok reg)
    (h' : registerAll (fun _ _ => none) [registration (some [.env .tfV2Only]) 2, registration none 1] = .ok reg') :
    reg = reg' := by
  refine registration_order_does_not_matter _ _ (List.Perm.swap _ _ _) ?_ reg reg' h h'
  simp only [List.pairwise_cons, List.mem_singleton, List.not_mem_nil, false_implies, implies_true,
    List.Pairwise.nil, and_true, forall_eq]
  rintro cls tag ⟨⟨_, ⟨_, h1⟩ | ⟨_, h1, _⟩⟩, ⟨_, ⟨h2, _⟩ | ⟨_, h2, h3⟩⟩⟩
  · cases h2
  · cases h2; subst h1; simp at h3
  · cases h1
  · cases h1

end TFT.Construct
