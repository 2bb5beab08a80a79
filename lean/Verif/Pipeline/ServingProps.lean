import Mathlib.Data.List.Nodup
import Mathlib.Data.List.Range
import Verif.Pipeline.Serving
import Verif.Combine.PackedLemmas
import Verif.Combine.PerKeyLemmas

/-!
# Missing inputs do not influence what a transform function returns (C67)
-/

namespace TFT.Serving

variable {V Op : Type}

/-! ## Specification -/

mutual
/-- The value of a tensor when all inputs are known: `full key i` is component `i` of an input. -/
def Tensor.value (m : Meaning V Op) (full : String → Nat → V) : Tensor Op → Except Err V
  | .feed key i => .ok (full key i)
  | .capture n => .ok (m.captured n)
  | .op o ins => (Tensor.values m full ins).bind (m.op o)
def Tensor.values (m : Meaning V Op) (full : String → Nat → V) :
    List (Tensor Op) → Except Err (List V)
  | [] => .ok []
  | t :: ts => (Tensor.value m full t).bind fun v =>
      (Tensor.values m full ts).bind fun vs => .ok (v :: vs)
end

mutual
/-- The inputs that a tensor is computed from. -/
def Tensor.uses : Tensor Op → List String
  | .feed key _ => [key]
  | .capture _ => []
  | .op _ ins => Tensor.usesOf ins
def Tensor.usesOf : List (Tensor Op) → List String
  | [] => []
  | t :: ts => t.uses ++ Tensor.usesOf ts
end

mutual
/-- All components of inputs that occur in a tensor are components of the function's inputs. -/
def Tensor.Within (inputs : List (String × Nat)) : Tensor Op → Prop
  | .feed key i => ∃ n, (key, n) ∈ inputs ∧ i < n
  | .capture _ => True
  | .op _ ins => Tensor.WithinAll inputs ins
def Tensor.WithinAll (inputs : List (String × Nat)) : List (Tensor Op) → Prop
  | [] => True
  | t :: ts => t.Within inputs ∧ Tensor.WithinAll inputs ts
end

/-- Dictionaries have different keys, and the function has no other inputs than its own. -/
structure WellFormed (f : Function Op) : Prop where
  inputs : (f.inputs.map Prod.fst).Nodup
  outputs : (f.outputs.map Prod.fst).Nodup
  within : ∀ o ∈ f.outputs, Tensor.WithinAll f.inputs o.2

/-- What a user passes: some of the inputs, each with its number of components and with compatible
shapes. -/
structure Conforms (m : Meaning V Op) (f : Function Op) (given : List (String × List V)) : Prop where
  nodup : (given.map Prod.fst).Nodup
  components : ∀ g ∈ given, (g.1, g.2.length) ∈ f.inputs
  shapes : ∀ g ∈ given, ∀ i v, g.2[i]? = some v → m.compatible g.1 i v = true

/-- `full` has the given inputs, and anything for the others. -/
def Completes (given : List (String × List V)) (full : String → Nat → V) : Prop :=
  ∀ g ∈ given, ∀ i v, g.2[i]? = some v → full g.1 i = v

/-- `out` are the given outputs of the function, in order, with the values they have under `full`. -/
def ValuesOf (m : Meaning V Op) (full : String → Nat → V)
    (outputs : List (String × List (Tensor Op))) (out : List (String × List V)) : Prop :=
  List.Forall₂ (fun o r => r.1 = o.1 ∧ List.Forall₂ (fun t v => t.value m full = .ok v) o.2 r.2)
    outputs out

/-- The outputs that are computed from the inputs with these keys only. -/
def computable (f : Function Op) (keys : List String) : List (String × List (Tensor Op)) :=
  f.outputs.filter fun o => decide (∀ k ∈ Tensor.usesOf o.2, k ∈ keys)

/-! ## Lemmas -/

theorem lookup_iff {κ β : Type} [BEq κ] [LawfulBEq κ] (l : List (κ × β)) (h : (l.map Prod.fst).Nodup)
    (n : κ) (v : β) : l.lookup n = some v ↔ (n, v) ∈ l := by
  induction l with
  | nil => simp
  | cons a l ih =>
    obtain ⟨k, w⟩ := a
    simp only [List.map_cons, List.nodup_cons] at h
    rw [List.lookup_cons]
    by_cases hk : n = k
    · subst hk
      simp only [beq_self_eq_true, if_true, List.mem_cons]
      constructor
      · intro e
        simp only [Option.some.injEq] at e
        simp [e]
      · rintro (e | e)
        · simp only [Prod.mk.injEq, true_and] at e
          simp [e]
        · exact absurd (List.mem_map_of_mem (f := Prod.fst) e) h.1
    · have : (n == k) = false := by simpa using hk
      simp only [this, List.mem_cons, Prod.mk.injEq, hk, false_and, false_or]
      exact ih h.2

theorem lookup_none {κ β : Type} [BEq κ] [LawfulBEq κ] (l : List (κ × β)) (n : κ) :
    l.lookup n = none ↔ n ∉ l.map Prod.fst := by
  induction l with
  | nil => simp
  | cons a l ih =>
    obtain ⟨k, w⟩ := a
    rw [List.lookup_cons]
    by_cases hk : n = k
    · subst hk; simp
    · have : (n == k) = false := by simpa using hk
      simp only [this, List.map_cons, List.mem_cons, hk, false_or]
      exact ih

theorem seqExcept_map_iff {α β : Type} (l : List α) (f : α → Except Err β) (ys : List β) :
    seqExcept (l.map f) = .ok ys ↔ List.Forall₂ (fun x y => f x = .ok y) l ys := by
  rw [seqExcept_ok_iff, List.forall₂_map_left_iff]

theorem forall₂_congr_mem {α β : Type} {R S : α → β → Prop} {l : List α} {r : List β}
    (h : ∀ a ∈ l, ∀ b, R a b ↔ S a b) : List.Forall₂ R l r ↔ List.Forall₂ S l r := by
  induction l generalizing r with
  | nil => cases r <;> simp
  | cons a l ih =>
    cases r with
    | nil => simp
    | cons b r =>
      rw [List.forall₂_cons, List.forall₂_cons, h a (by simp) b,
        ih (fun x hx => h x (by simp [hx]))]

mutual
theorem eval_eq (m : Meaning V Op) (env : String × Nat → Option V) (full : String → Nat → V) :
    (t : Tensor Op) → (∀ c ∈ t.sources, env c = some (full c.1 c.2)) →
    t.eval m env = t.value m full
  | .feed key i, h => by
    simp only [Tensor.eval, Tensor.value]
    rw [h (key, i) (by simp [Tensor.sources])]
  | .capture n, _ => by simp [Tensor.eval, Tensor.value]
  | .op o ins, h => by
    simp only [Tensor.eval, Tensor.value]
    rw [evals_eq m env full ins (by simpa [Tensor.sources] using h)]
theorem evals_eq (m : Meaning V Op) (env : String × Nat → Option V) (full : String → Nat → V) :
    (ts : List (Tensor Op)) → (∀ c ∈ Tensor.sourcesOf ts, env c = some (full c.1 c.2)) →
    Tensor.evals m env ts = Tensor.values m full ts
  | [], _ => by simp [Tensor.evals, Tensor.values]
  | t :: ts, h => by
    simp only [Tensor.evals, Tensor.values]
    rw [eval_eq m env full t (fun c hc => h c (by simp [Tensor.sourcesOf, hc])),
      evals_eq m env full ts (fun c hc => h c (by simp [Tensor.sourcesOf, hc]))]
end

mutual
theorem value_congr (m : Meaning V Op) (full full' : String → Nat → V) :
    (t : Tensor Op) → (∀ c ∈ t.sources, full c.1 c.2 = full' c.1 c.2) →
    t.value m full = t.value m full'
  | .feed key i, h => by
    simp only [Tensor.value]
    rw [h (key, i) (by simp [Tensor.sources])]
  | .capture n, _ => by simp [Tensor.value]
  | .op o ins, h => by
    simp only [Tensor.value]
    rw [values_congr m full full' ins (by simpa [Tensor.sources] using h)]
theorem values_congr (m : Meaning V Op) (full full' : String → Nat → V) :
    (ts : List (Tensor Op)) → (∀ c ∈ Tensor.sourcesOf ts, full c.1 c.2 = full' c.1 c.2) →
    Tensor.values m full ts = Tensor.values m full' ts
  | [], _ => by simp [Tensor.values]
  | t :: ts, h => by
    simp only [Tensor.values]
    rw [value_congr m full full' t (fun c hc => h c (by simp [Tensor.sourcesOf, hc])),
      values_congr m full full' ts (fun c hc => h c (by simp [Tensor.sourcesOf, hc]))]
end

mutual
theorem uses_eq : (t : Tensor Op) → t.uses = t.sources.map Prod.fst
  | .feed key i => by simp [Tensor.uses, Tensor.sources]
  | .capture n => by simp [Tensor.uses, Tensor.sources]
  | .op o ins => by
    simp only [Tensor.uses, Tensor.sources]
    exact usesOf_eq ins
theorem usesOf_eq : (ts : List (Tensor Op)) →
    Tensor.usesOf ts = (Tensor.sourcesOf ts).map Prod.fst
  | [] => by simp [Tensor.usesOf, Tensor.sourcesOf]
  | t :: ts => by
    simp only [Tensor.usesOf, Tensor.sourcesOf, List.map_append]
    rw [uses_eq t, usesOf_eq ts]
end

mutual
theorem within_iff (inputs : List (String × Nat)) : (t : Tensor Op) →
    (t.Within inputs ↔ ∀ c ∈ t.sources, ∃ n, (c.1, n) ∈ inputs ∧ c.2 < n)
  | .feed key i => by simp [Tensor.Within, Tensor.sources]
  | .capture n => by simp [Tensor.Within, Tensor.sources]
  | .op o ins => by
    simp only [Tensor.Within, Tensor.sources]
    exact withinAll_iff inputs ins
theorem withinAll_iff (inputs : List (String × Nat)) : (ts : List (Tensor Op)) →
    (Tensor.WithinAll inputs ts ↔ ∀ c ∈ Tensor.sourcesOf ts, ∃ n, (c.1, n) ∈ inputs ∧ c.2 < n)
  | [] => by simp [Tensor.WithinAll, Tensor.sourcesOf]
  | t :: ts => by
    simp only [Tensor.WithinAll, Tensor.sourcesOf, List.mem_append]
    rw [within_iff inputs t, withinAll_iff inputs ts]
    constructor
    · rintro ⟨h1, h2⟩ c (hc | hc)
      · exact h1 c hc
      · exact h2 c hc
    · exact fun h => ⟨fun c hc => h c (.inl hc), fun c hc => h c (.inr hc)⟩
end

theorem values_iff (m : Meaning V Op) (full : String → Nat → V) (ts : List (Tensor Op))
    (vs : List V) : Tensor.values m full ts = .ok vs ↔
      List.Forall₂ (fun t v => t.value m full = .ok v) ts vs := by
  induction ts generalizing vs with
  | nil =>
    simp only [Tensor.values, Except.ok.injEq]
    constructor
    · rintro rfl; exact .nil
    · intro h; cases h; rfl
  | cons t ts ih =>
    simp only [Tensor.values]
    constructor
    · intro h
      cases h1 : Tensor.value m full t with
      | error e => rw [h1] at h; simp [Except.bind] at h
      | ok v =>
        cases h2 : Tensor.values m full ts with
        | error e => rw [h1, h2] at h; simp [Except.bind] at h
        | ok vs' =>
          rw [h1, h2] at h
          simp only [Except.bind, Except.ok.injEq] at h
          subst h
          exact .cons h1 ((ih vs').1 h2)
    · intro h
      cases h with
      | cons h1 h2 =>
        rw [h1, (ih _).2 h2]
        rfl

/-- Evaluating outputs whose sources have the right values. -/
theorem evalOutputs_iff (m : Meaning V Op) (env : String × Nat → Option V)
    (full : String → Nat → V) (outputs : List (String × List (Tensor Op)))
    (h : ∀ o ∈ outputs, ∀ c ∈ Tensor.sourcesOf o.2, env c = some (full c.1 c.2))
    (out : List (String × List V)) :
    evalOutputs m env outputs = .ok out ↔ ValuesOf m full outputs out := by
  unfold evalOutputs ValuesOf
  rw [seqExcept_map_iff]
  refine forall₂_congr_mem fun o ho r => ?_
  rw [evals_eq m env full o.2 (h o ho), ← values_iff]
  cases hv : Tensor.values m full o.2 with
  | error e => simp [Except.bind]
  | ok vs =>
    simp only [Except.bind, Except.ok.injEq]
    constructor
    · rintro rfl; exact ⟨rfl, rfl⟩
    · rintro ⟨h1, h2⟩; rw [h2, ← h1]

theorem mem_graphInputs (f : Function Op) (c : String × Nat) :
    c ∈ f.graphInputs ↔ ∃ n, (c.1, n) ∈ f.inputs ∧ c.2 < n := by
  unfold Function.graphInputs
  rw [List.mem_flatMap]
  constructor
  · rintro ⟨s, hs, h⟩
    obtain ⟨i, hi, rfl⟩ := List.mem_map.1 h
    exact ⟨s.2, hs, List.mem_range.1 hi⟩
  · rintro ⟨n, hn, hi⟩
    exact ⟨(c.1, n), hn, List.mem_map.2 ⟨c.2, List.mem_range.2 hi, rfl⟩⟩

theorem graphInputs_nodup (inputs : List (String × Nat)) (h : (inputs.map Prod.fst).Nodup) :
    (inputs.flatMap fun s => (List.range s.2).map fun i : Nat => (s.1, i)).Nodup := by
  induction inputs with
  | nil => simp
  | cons s inputs ih =>
    simp only [List.map_cons, List.nodup_cons] at h
    rw [List.flatMap_cons, List.nodup_append]
    refine ⟨?_, ih h.2, ?_⟩
    · exact (List.nodup_range).map (fun a b hab => by simpa using hab)
    · intro a ha b hb hab
      subst hab
      obtain ⟨i, -, rfl⟩ := List.mem_map.1 ha
      obtain ⟨s', hs', hm⟩ := List.mem_flatMap.1 hb
      obtain ⟨j, -, hj⟩ := List.mem_map.1 hm
      simp only [Prod.mk.injEq] at hj
      exact h.1 (by rw [← hj.1]; exact List.mem_map_of_mem hs')

/-- The components of the inputs, after flattening, are paired with their own placeholders. -/
theorem zip_flatMap (inputs : List (String × Nat)) (comps : String × Nat → List V)
    (hl : ∀ s ∈ inputs, (comps s).length = s.2) :
    (inputs.flatMap fun s => (List.range s.2).map fun i : Nat => (s.1, i)).zip
        (inputs.flatMap comps)
      = (inputs.flatMap fun s =>
        ((List.range s.2).map fun i : Nat => (s.1, i)).zip (comps s)) ∧
    (inputs.flatMap comps).length
      = (inputs.flatMap fun s => (List.range s.2).map fun i : Nat => (s.1, i)).length := by
  induction inputs with
  | nil => simp
  | cons s inputs ih =>
    obtain ⟨h1, h2⟩ := ih (fun s' hs' => hl s' (by simp [hs']))
    simp only [List.flatMap_cons]
    rw [List.zip_append (by simp [hl s (by simp)]), h1]
    refine ⟨rfl, ?_⟩
    rw [List.length_append, List.length_append, h2, hl s (by simp)]
    simp

theorem flatten_comps (m : Meaning V Op) (f : Function Op) (hW : WellFormed f) (b : Nat)
    (given : List (String × List V)) (hC : Conforms m f given) (s : String × Nat)
    (hs : s ∈ f.inputs) :
    (supply m b given s).length = s.2 := by
  unfold supply
  cases hl : given.lookup s.1 with
  | none => simp
  | some vs =>
    simp only
    have hm := (lookup_iff given hC.nodup s.1 vs).1 hl
    have hc := hC.components _ hm
    have h1 := (lookup_iff f.inputs hW.inputs s.1 vs.length).2 hc
    have h2 := (lookup_iff f.inputs hW.inputs s.1 s.2).2 hs
    rw [h1] at h2
    exact Option.some.inj h2

theorem bindArgs_ok (m : Meaning V Op) (f : Function Op) (hW : WellFormed f) (b : Nat)
    (given : List (String × List V)) (hC : Conforms m f given) :
    f.bindArgs (f.flatten m b given)
      = .ok fun c => (f.graphInputs.zip (f.flatten m b given)).lookup c := by
  have h := (zip_flatMap f.inputs (supply m b given)
    (fun s hs => flatten_comps m f hW b given hC s hs)).2
  unfold Function.bindArgs
  rw [if_neg (by rw [not_not]; exact h)]

theorem mem_zip_flatten (m : Meaning V Op) (f : Function Op) (hW : WellFormed f) (b : Nat)
    (given : List (String × List V)) (hC : Conforms m f given) (c : String × Nat) (v : V) :
    (c, v) ∈ f.graphInputs.zip (f.flatten m b given) ↔
      ∃ s ∈ f.inputs, s.1 = c.1 ∧ c.2 < s.2 ∧
        (supply m b given s)[c.2]? = some v := by
  have h := (zip_flatMap f.inputs (supply m b given)
    (fun s hs => flatten_comps m f hW b given hC s hs)).1
  unfold Function.graphInputs Function.flatten
  rw [h, List.mem_flatMap]
  constructor
  · rintro ⟨s, hs, hm⟩
    obtain ⟨i, hi⟩ := List.mem_iff_getElem?.1 hm
    rw [List.getElem?_zip_eq_some] at hi
    obtain ⟨h1, h2⟩ := hi
    rw [List.getElem?_map] at h1
    by_cases hlt : i < s.2
    · rw [List.getElem?_range hlt] at h1
      simp only [Option.map_some, Option.some.injEq] at h1
      subst h1
      exact ⟨s, hs, rfl, hlt, h2⟩
    · rw [List.getElem?_eq_none (by simpa using hlt)] at h1
      simp at h1
  · rintro ⟨s, hs, h1, h2, h3⟩
    refine ⟨s, hs, List.mem_iff_getElem?.2 ⟨c.2, ?_⟩⟩
    rw [List.getElem?_zip_eq_some]
    refine ⟨?_, h3⟩
    rw [List.getElem?_map, List.getElem?_range h2, Option.map_some, h1]

theorem zip_fst_sublist {α β : Type} (l : List α) (r : List β) :
    ((l.zip r).map Prod.fst).Sublist l := by
  induction l generalizing r with
  | nil => simp
  | cons a l ih =>
    cases r with
    | nil => simp
    | cons b r => simpa using ih r

/-- What the placeholders hold when the function is called. -/
theorem env_eq (m : Meaning V Op) (f : Function Op) (hW : WellFormed f) (b : Nat)
    (given : List (String × List V)) (hC : Conforms m f given) (full : String → Nat → V)
    (hF : Completes given full) (c : String × Nat) (hin : ∃ n, (c.1, n) ∈ f.inputs ∧ c.2 < n)
    (hc : c.1 ∈ given.map Prod.fst ∨ full c.1 c.2 = m.madeUp b c.1 c.2) :
    (f.graphInputs.zip (f.flatten m b given)).lookup c = some (full c.1 c.2) := by
  have hnd : ((f.graphInputs.zip (f.flatten m b given)).map Prod.fst).Nodup :=
    (zip_fst_sublist _ _).nodup (graphInputs_nodup f.inputs hW.inputs)
  rw [lookup_iff _ hnd, mem_zip_flatten m f hW b given hC]
  obtain ⟨n, hn, hi⟩ := hin
  refine ⟨(c.1, n), hn, rfl, hi, ?_⟩
  have hlen := flatten_comps m f hW b given hC (c.1, n) hn
  unfold supply at hlen ⊢
  cases hl : given.lookup c.1 with
  | none =>
    simp only [hl]
    rw [List.getElem?_map, List.getElem?_range hi]
    simp only [Option.map_some, Option.some.injEq]
    rcases hc with hc | hc
    · exact absurd hc ((lookup_none _ _).1 hl)
    · exact hc.symm
  | some vs =>
    simp only [hl] at hlen ⊢
    have hm := (lookup_iff given hC.nodup c.1 vs).1 hl
    rw [List.getElem?_eq_getElem (by omega)]
    have hlt : c.2 < vs.length := by omega
    rw [hF _ hm c.2 _ (List.getElem?_eq_getElem (l := vs) hlt)]

theorem fetches_of (f : Function Op) (hW : WellFormed f) (keys : List String)
    (feeds : List (String × Nat))
    (hf : ∀ c, (∃ n, (c.1, n) ∈ f.inputs ∧ c.2 < n) → (c ∈ feeds ↔ c.1 ∈ keys)) :
    f.fetches feeds = computable f keys := by
  unfold Function.fetches computable
  refine List.filter_congr fun o ho => ?_
  rw [← Bool.coe_iff_coe, List.all_eq_true, decide_eq_true_iff, usesOf_eq]
  have hwi := (withinAll_iff f.inputs o.2).1 (hW.within o ho)
  constructor
  · intro h k hk
    obtain ⟨c, hc, rfl⟩ := List.mem_map.1 hk
    exact (hf c (hwi c hc)).1 (List.contains_iff_mem.1 (h c hc))
  · intro h c hc
    exact List.contains_iff_mem.2 ((hf c (hwi c hc)).2 (h c.1 (List.mem_map_of_mem hc)))

theorem fetches_eq (f : Function Op) (hW : WellFormed f) (keys : List String) :
    f.fetches (f.feeds (f.unfed keys)) = computable f keys := by
  refine fetches_of f hW keys _ fun c hc => ?_
  have hg : c ∈ f.graphInputs := (mem_graphInputs f c).2 hc
  have hk : c.1 ∈ f.inputs.map Prod.fst := by
    obtain ⟨n, hn, -⟩ := hc
    exact List.mem_map.2 ⟨_, hn, rfl⟩
  unfold Function.feeds Function.unfed
  rw [List.mem_filter]
  simp only [hg, true_and, Bool.not_eq_true', ← Bool.not_eq_true, List.contains_iff_mem,
    List.mem_filter, hk, not_not]

theorem filter_graphInputs (inputs : List (String × Nat)) (h : (inputs.map Prod.fst).Nodup)
    (k : String) (n : Nat) (hk : (k, n) ∈ inputs) :
    ((inputs.flatMap fun s => (List.range s.2).map fun i : Nat => (s.1, i)).filter
      fun c => c.1 == k) = (List.range n).map fun i : Nat => (k, i) := by
  have none : ∀ l : List (String × Nat), k ∉ l.map Prod.fst →
      ((l.flatMap fun s => (List.range s.2).map fun i : Nat => (s.1, i)).filter
        fun c => c.1 == k) = [] := by
    intro l hl
    rw [List.filter_eq_nil_iff]
    intro c hc hck
    obtain ⟨s, hs, hm⟩ := List.mem_flatMap.1 hc
    obtain ⟨i, -, rfl⟩ := List.mem_map.1 hm
    simp only [beq_iff_eq] at hck
    exact hl (by rw [← hck]; exact List.mem_map_of_mem hs)
  induction inputs with
  | nil => simp at hk
  | cons s inputs ih =>
    simp only [List.map_cons, List.nodup_cons] at h
    rw [List.flatMap_cons, List.filter_append]
    rcases List.mem_cons.1 hk with e | e
    · subst e
      rw [none inputs h.1, List.append_nil, List.filter_eq_self]
      intro c hc
      obtain ⟨i, -, rfl⟩ := List.mem_map.1 hc
      simp
    · rw [ih h.2 e]
      have : ((List.range s.2).map fun i : Nat => (s.1, i)).filter (fun c => c.1 == k) = [] := by
        rw [List.filter_eq_nil_iff]
        intro c hc hck
        obtain ⟨i, -, rfl⟩ := List.mem_map.1 hc
        simp only [beq_iff_eq] at hck
        exact h.1 (by rw [hck]; exact List.mem_map.2 ⟨_, e, rfl⟩)
      rw [this, List.nil_append]

theorem expand_eq (f : Function Op) (hW : WellFormed f) (given : List (String × List V))
    (hg : ∀ g ∈ given, (g.1, g.2.length) ∈ f.inputs) :
    f.expand given = given.flatMap fun g =>
      ((List.range g.2.length).map fun i : Nat => (g.1, i)).zip g.2 := by
  unfold Function.expand
  rw [List.flatMap_def, List.flatMap_def]
  congr 1
  refine List.map_congr_left fun g h => ?_
  unfold Function.graphInputs
  rw [filter_graphInputs f.inputs hW.inputs g.1 _ (hg g h)]

theorem expand_nodup (f : Function Op) (hW : WellFormed f) (given : List (String × List V))
    (hn : (given.map Prod.fst).Nodup) (hg : ∀ g ∈ given, (g.1, g.2.length) ∈ f.inputs) :
    ((f.expand given).map Prod.fst).Nodup := by
  rw [expand_eq f hW given hg]
  have := graphInputs_nodup (given.map fun g => (g.1, g.2.length)) (by
    rw [List.map_map]; exact hn)
  rw [List.flatMap_map] at this
  rw [List.map_flatMap]
  convert this using 2
  funext g
  rw [List.map_fst_zip]
  simp

theorem mem_expand (f : Function Op) (hW : WellFormed f) (given : List (String × List V))
    (hg : ∀ g ∈ given, (g.1, g.2.length) ∈ f.inputs) (c : String × Nat) (v : V) :
    (c, v) ∈ f.expand given ↔ ∃ g ∈ given, g.1 = c.1 ∧ g.2[c.2]? = some v := by
  rw [expand_eq f hW given hg, List.mem_flatMap]
  constructor
  · rintro ⟨g, h, hm⟩
    obtain ⟨i, hi⟩ := List.mem_iff_getElem?.1 hm
    rw [List.getElem?_zip_eq_some, List.getElem?_map] at hi
    obtain ⟨h1, h2⟩ := hi
    have hlt := (List.getElem?_eq_some_iff.1 h2).1
    rw [List.getElem?_range hlt] at h1
    simp only [Option.map_some, Option.some.injEq] at h1
    subst h1
    exact ⟨g, h, rfl, h2⟩
  · rintro ⟨g, h, h1, h2⟩
    refine ⟨g, h, List.mem_iff_getElem?.2 ⟨c.2, ?_⟩⟩
    have hlt := (List.getElem?_eq_some_iff.1 h2).1
    rw [List.getElem?_zip_eq_some, List.getElem?_map, List.getElem?_range hlt, Option.map_some, h1]
    exact ⟨rfl, h2⟩

theorem expand_lookup (f : Function Op) (hW : WellFormed f) (given : List (String × List V))
    (hn : (given.map Prod.fst).Nodup) (hg : ∀ g ∈ given, (g.1, g.2.length) ∈ f.inputs)
    (full : String → Nat → V) (hF : Completes given full) (c : String × Nat)
    (hin : ∃ n, (c.1, n) ∈ f.inputs ∧ c.2 < n) (hc : c.1 ∈ given.map Prod.fst) :
    (f.expand given).lookup c = some (full c.1 c.2) := by
  rw [lookup_iff _ (expand_nodup f hW given hn hg), mem_expand f hW given hg]
  obtain ⟨g, h, he⟩ := List.mem_map.1 hc
  obtain ⟨n, hm, hi⟩ := hin
  have h1 := (lookup_iff f.inputs hW.inputs c.1 n).2 hm
  have h2 := (lookup_iff f.inputs hW.inputs g.1 g.2.length).2 (hg g h)
  rw [he, h1] at h2
  have hlt : c.2 < g.2.length := by have := Option.some.inj h2; omega
  refine ⟨g, h, he, ?_⟩
  rw [← he, hF g h c.2 _ (List.getElem?_eq_getElem hlt), List.getElem?_eq_getElem hlt]

theorem expand_keys (f : Function Op) (hW : WellFormed f) (given : List (String × List V))
    (hn : (given.map Prod.fst).Nodup) (hg : ∀ g ∈ given, (g.1, g.2.length) ∈ f.inputs)
    (c : String × Nat) (hin : ∃ n, (c.1, n) ∈ f.inputs ∧ c.2 < n) :
    c ∈ (f.expand given).map Prod.fst ↔ c.1 ∈ given.map Prod.fst := by
  constructor
  · intro h
    obtain ⟨⟨c', v⟩, hm, rfl⟩ := List.mem_map.1 h
    obtain ⟨g, hg', he, -⟩ := (mem_expand f hW given hg c' v).1 hm
    exact List.mem_map.2 ⟨g, hg', he⟩
  · intro h
    obtain ⟨g, hg', he⟩ := List.mem_map.1 h
    obtain ⟨n, hm, hi⟩ := hin
    have h1 := (lookup_iff f.inputs hW.inputs c.1 n).2 hm
    have h2 := (lookup_iff f.inputs hW.inputs g.1 g.2.length).2 (hg g hg')
    rw [he, h1] at h2
    have hlt : c.2 < g.2.length := by have := Option.some.inj h2; omega
    exact List.mem_map.2 ⟨(c, g.2[c.2]), (mem_expand f hW given hg _ _).2
      ⟨g, hg', he, List.getElem?_eq_getElem hlt⟩, rfl⟩

theorem unexpected_false (m : Meaning V Op) (f : Function Op) (given : List (String × List V))
    (hC : Conforms m f given) : f.unexpected given = false := by
  unfold Function.unexpected
  rw [← Bool.not_eq_true, List.any_eq_true]
  rintro ⟨g, hg, h⟩
  simp only [Bool.not_eq_true', ← Bool.not_eq_true, List.contains_iff_mem] at h
  exact h (List.mem_map_of_mem (f := Prod.fst) (hC.components g hg))

theorem valuesOf_congr (m : Meaning V Op) (full full' : String → Nat → V)
    (outputs : List (String × List (Tensor Op)))
    (h : ∀ o ∈ outputs, ∀ c ∈ Tensor.sourcesOf o.2, full c.1 c.2 = full' c.1 c.2)
    (out : List (String × List V)) : ValuesOf m full outputs out ↔ ValuesOf m full' outputs out := by
  unfold ValuesOf
  refine forall₂_congr_mem fun o ho r => ?_
  rw [← values_iff, ← values_iff, values_congr m full full' o.2 (h o ho)]

theorem within_given (m : Meaning V Op) (f : Function Op) (hW : WellFormed f)
    (given : List (String × List V)) (hC : Conforms m f given) (full full' : String → Nat → V)
    (hF : Completes given full) (hF' : Completes given full') :
    ∀ o ∈ computable f (given.map Prod.fst), ∀ c ∈ Tensor.sourcesOf o.2,
      full c.1 c.2 = full' c.1 c.2 := by
  intro o ho c hc
  unfold computable at ho
  rw [List.mem_filter, decide_eq_true_iff] at ho
  have hk := ho.2 c.1 (by rw [usesOf_eq]; exact List.mem_map_of_mem hc)
  obtain ⟨g, hg, he⟩ := List.mem_map.1 hk
  obtain ⟨n, hn, hi⟩ := (withinAll_iff f.inputs o.2).1 (hW.within o ho.1) c hc
  have h1 := (lookup_iff f.inputs hW.inputs c.1 n).2 hn
  have h2 := (lookup_iff f.inputs hW.inputs g.1 g.2.length).2 (hC.components g hg)
  rw [he, h1] at h2
  have : n = g.2.length := Option.some.inj h2
  rw [← he, hF g hg c.2 _ (List.getElem?_eq_getElem (by omega)),
    hF' g hg c.2 _ (List.getElem?_eq_getElem (by omega))]

/-- Given inputs with anything for the others complete themselves. -/
theorem completes_self (m : Meaning V Op) (f : Function Op) (given : List (String × List V))
    (hC : Conforms m f given) (rest : String → Nat → V) :
    Completes given (fun k i => ((given.lookup k).bind fun vs => vs[i]?).getD (rest k i)) := by
  intro g hg i v hv
  have := (lookup_iff given hC.nodup g.1 g.2).2 hg
  simp only [this, Option.bind_some, hv, Option.getD_some]

theorem filter_valuesOf (m : Meaning V Op) (full : String → Nat → V)
    (outputs : List (String × List (Tensor Op))) (out : List (String × List V))
    (h : ValuesOf m full outputs out) (p : String → Bool) :
    ValuesOf m full (outputs.filter fun o => p o.1) (out.filter fun o => p o.1) := by
  unfold ValuesOf at h ⊢
  induction h with
  | nil => exact .nil
  | @cons o r os rs h1 _ ih =>
    rw [List.filter_cons, List.filter_cons, h1.1]
    by_cases hp : p o.1 = true
    · rw [if_pos hp, if_pos hp]
      exact .cons h1 ih
    · rw [if_neg hp, if_neg hp]
      exact ih

theorem contains_computable (f : Function Op) (hW : WellFormed f) (keys : List String) :
    (f.outputs.filter fun o => ((computable f keys).map Prod.fst).contains o.1)
      = computable f keys := by
  unfold computable
  refine List.filter_congr fun o ho => ?_
  rw [← Bool.coe_iff_coe, List.contains_iff_mem, List.mem_map, decide_eq_true_iff]
  constructor
  · rintro ⟨o', ho', he⟩
    rw [List.mem_filter, decide_eq_true_iff] at ho'
    have : o' = o := List.inj_on_of_nodup_map hW.outputs ho'.1 ho he
    rw [← this]
    exact ho'.2
  · intro h
    exact ⟨o, List.mem_filter.2 ⟨ho, by simpa using h⟩, rfl⟩

/-! ## The property -/

/-- With TF2 behaviour, what is returned for the given inputs are the outputs that are computed from
them, and their values: whatever the other inputs are taken to be. -/
theorem made_up_inputs_have_no_influence (m : Meaning V Op) (f : Function Op) (hW : WellFormed f)
    (given : List (String × List V)) (hC : Conforms m f given) (out : List (String × List V))
    (h : applyV2 m f given = .ok out) (full : String → Nat → V) (hF : Completes given full) :
    ValuesOf m full (computable f (given.map Prod.fst)) out := by
  unfold applyV2 at h
  rw [unexpected_false m f given hC] at h
  simp only [Bool.false_eq_true, if_false] at h
  split at h
  · simp at h
  rw [bindArgs_ok m f hW _ given hC] at h
  simp only [Except.bind] at h
  let mu : String → Nat → V := fun k i =>
    ((given.lookup k).bind fun vs => vs[i]?).getD (m.madeUp (batchSizeOf m given) k i)
  have hmu : Completes given mu := completes_self m f given hC _
  cases he : evalOutputs m (fun c =>
      (f.graphInputs.zip (f.flatten m (batchSizeOf m given) given)).lookup c) f.outputs with
  | error e => rw [he] at h; simp at h
  | ok features =>
    rw [he] at h
    simp only [Except.ok.injEq] at h
    have hv : ValuesOf m mu f.outputs features := by
      rw [← evalOutputs_iff m _ mu f.outputs _ features]
      · exact he
      · intro o ho c hc
        refine env_eq m f hW _ given hC mu hmu c
          ((withinAll_iff f.inputs o.2).1 (hW.within o ho) c hc) ?_
        by_cases hk : c.1 ∈ given.map Prod.fst
        · exact .inl hk
        · right
          have hno : given.lookup c.1 = none := (lookup_none given c.1).2 hk
          show ((given.lookup c.1).bind fun vs => vs[c.2]?).getD _ = _
          rw [hno]
          rfl
    rw [fetches_eq f hW] at h
    have hv' := filter_valuesOf m mu f.outputs features hv
      (fun k => ((computable f (given.map Prod.fst)).map Prod.fst).contains k)
    rw [contains_computable f hW, h] at hv'
    exact (valuesOf_congr m mu full _ (within_given m f hW given hC mu full hmu hF) out).1 hv'

/-- With TF2 behaviour a batch is accepted if the made-up inputs of the size of the batch (1 without
any input) have compatible shapes and all outputs have values with them. -/
theorem accepted_if_made_up_inputs_are (m : Meaning V Op) (f : Function Op) (hW : WellFormed f)
    (given : List (String × List V)) (hC : Conforms m f given) (full : String → Nat → V)
    (hF : Completes given full) (b : Nat) (hb : ∀ g ∈ given, m.batchSize g.2 = b)
    (hb1 : given = [] → b = 1)
    (hmade : ∀ k, k ∉ given.map Prod.fst → ∀ i,
      full k i = m.madeUp b k i ∧ m.compatible k i (full k i) = true)
    (hall : ∀ o ∈ f.outputs, ∀ t ∈ o.2, ∃ v, t.value m full = .ok v) :
    ∃ out, applyV2 m f given = .ok out := by
  have hbs : b = batchSizeOf m given := by
    cases given with
    | nil => exact hb1 rfl
    | cons g _ => exact (hb g (by simp)).symm
  subst hbs
  have hval : ∃ features, ValuesOf m full f.outputs features := by
    unfold ValuesOf
    have one : ∀ ts : List (Tensor Op), (∀ t ∈ ts, ∃ v, t.value m full = .ok v) →
        ∃ vs, List.Forall₂ (fun t v => t.value m full = .ok v) ts vs := by
      intro ts
      induction ts with
      | nil => exact fun _ => ⟨[], .nil⟩
      | cons t ts ih =>
        intro h
        obtain ⟨v, hv⟩ := h t (by simp)
        obtain ⟨vs, hvs⟩ := ih (fun t' ht' => h t' (by simp [ht']))
        exact ⟨v :: vs, .cons hv hvs⟩
    generalize f.outputs = os at hall
    induction os with
    | nil => exact ⟨[], .nil⟩
    | cons o os ih =>
      obtain ⟨vs, hvs⟩ := one o.2 (hall o (by simp))
      obtain ⟨rs, hrs⟩ := ih (fun o' ho' => hall o' (by simp [ho']))
      exact ⟨(o.1, vs) :: rs, .cons ⟨rfl, hvs⟩ hrs⟩
  obtain ⟨features, hv⟩ := hval
  unfold applyV2
  rw [unexpected_false m f given hC]
  simp only [Bool.false_eq_true, if_false]
  rw [if_neg, bindArgs_ok m f hW _ given hC]
  · simp only [Except.bind]
    rw [(evalOutputs_iff m _ full f.outputs _ features).2 hv]
    · exact ⟨_, rfl⟩
    · intro o ho c hc
      refine env_eq m f hW _ given hC full hF c
        ((withinAll_iff f.inputs o.2).1 (hW.within o ho) c hc) ?_
      by_cases hk : c.1 ∈ given.map Prod.fst
      · exact .inl hk
      · exact .inr (hmade c.1 hk c.2).1
  · rw [List.any_eq_true]
    rintro ⟨⟨c, v⟩, hm, hbad⟩
    obtain ⟨s, hs, h1, h2, h3⟩ := (mem_zip_flatten m f hW _ given hC c v).1 hm
    unfold supply at h3
    cases hl : given.lookup s.1 with
    | none =>
      rw [hl] at h3
      simp only at h3
      rw [List.getElem?_map, List.getElem?_range h2] at h3
      simp only [Option.map_some, Option.some.injEq] at h3
      have := hmade s.1 ((lookup_none _ _).1 hl) c.2
      rw [this.1, h3, h1] at this
      simp [this.2] at hbad
    | some vs =>
      rw [hl] at h3
      simp only at h3
      have := hC.shapes _ ((lookup_iff given hC.nodup s.1 vs).1 hl) c.2 v h3
      simp only [h1] at this
      simp [this] at hbad

/-- With a TF1 SavedModel the same outputs are returned, and nothing else is needed than that these
have values. -/
theorem pruned_application_returns_the_computable_outputs (m : Meaning V Op) (f : Function Op)
    (hW : WellFormed f) (given : List (String × List V)) (hC : Conforms m f given)
    (full : String → Nat → V) (hF : Completes given full) (out : List (String × List V)) :
    applyV1InV2 m f given = .ok out ↔
      ValuesOf m full (computable f (given.map Prod.fst)) out := by
  have hfet : f.fetches ((f.expand given).map Prod.fst) = computable f (given.map Prod.fst) :=
    fetches_of f hW _ _ fun c hc => expand_keys f hW given hC.nodup hC.components c hc
  unfold applyV1InV2
  rw [unexpected_false m f given hC]
  simp only [Bool.false_eq_true, if_false]
  rw [if_neg, hfet]
  · apply evalOutputs_iff
    intro o ho c hc
    unfold computable at ho
    rw [List.mem_filter, decide_eq_true_iff] at ho
    exact expand_lookup f hW given hC.nodup hC.components full hF c
      ((withinAll_iff f.inputs o.2).1 (hW.within o ho.1) c hc)
      (ho.2 c.1 (by rw [usesOf_eq]; exact List.mem_map_of_mem hc))
  · rw [List.any_eq_true]
    rintro ⟨⟨c, v⟩, hm, hbad⟩
    obtain ⟨g, hg, he, h3⟩ := (mem_expand f hW given hC.components c v).1 hm
    have := hC.shapes g hg c.2 v h3
    simp only [he] at this
    simp [this] at hbad

/-- The requested outputs, in the order of the request, with their values under `full`. -/
def Requested (m : Meaning V Op) (full : String → Nat → V) (f : Function Op)
    (keys : List String) (out : List (String × List V)) : Prop :=
  List.Forall₂ (fun k r => r.1 = k ∧ ∃ ts, (k, ts) ∈ f.outputs ∧
    List.Forall₂ (fun t v => t.value m full = .ok v) ts r.2) keys out

theorem exists_valuesOf (m : Meaning V Op) (full : String → Nat → V)
    (os : List (String × List (Tensor Op)))
    (h : ∀ o ∈ os, ∃ vs, List.Forall₂ (fun t v => t.value m full = .ok v) o.2 vs) :
    ∃ features, ValuesOf m full os features := by
  unfold ValuesOf
  induction os with
  | nil => exact ⟨[], .nil⟩
  | cons o os ih =>
    obtain ⟨vs, hvs⟩ := h o (by simp)
    obtain ⟨rs, hrs⟩ := ih (fun o' ho' => h o' (by simp [ho']))
    exact ⟨(o.1, vs) :: rs, .cons ⟨rfl, hvs⟩ hrs⟩

theorem valuesOf_keys (m : Meaning V Op) (full : String → Nat → V)
    (os : List (String × List (Tensor Op))) (features : List (String × List V))
    (h : ValuesOf m full os features) : features.map Prod.fst = os.map Prod.fst := by
  unfold ValuesOf at h
  induction h with
  | nil => rfl
  | cons h1 _ ih => rw [List.map_cons, List.map_cons, ih, h1.1]

theorem valuesOf_mem (m : Meaning V Op) (full : String → Nat → V)
    (os : List (String × List (Tensor Op))) (features : List (String × List V))
    (h : ValuesOf m full os features) :
    (∀ r ∈ features, ∃ ts, (r.1, ts) ∈ os ∧
      List.Forall₂ (fun t v => t.value m full = .ok v) ts r.2) ∧
    (∀ o ∈ os, ∃ vs, (o.1, vs) ∈ features ∧
      List.Forall₂ (fun t v => t.value m full = .ok v) o.2 vs) := by
  unfold ValuesOf at h
  induction h with
  | nil => simp
  | @cons o r os rs h1 _ ih =>
    constructor
    · intro r' hr'
      rcases List.mem_cons.1 hr' with rfl | hr'
      · exact ⟨o.2, by rw [h1.1]; simp, h1.2⟩
      · obtain ⟨ts, ht, hv⟩ := ih.1 r' hr'
        exact ⟨ts, List.mem_cons_of_mem _ ht, hv⟩
    · intro o' ho'
      rcases List.mem_cons.1 ho' with rfl | ho'
      · exact ⟨r.2, by rw [← h1.1]; simp, h1.2⟩
      · obtain ⟨vs, ht, hv⟩ := ih.2 o' ho'
        exact ⟨vs, List.mem_cons_of_mem _ ht, hv⟩

theorem pick_iff (features : List (String × List V)) (h : (features.map Prod.fst).Nodup)
    (keys : List String) (out : List (String × List V)) :
    pick features keys = .ok out ↔
      List.Forall₂ (fun k r => r.1 = k ∧ (k, r.2) ∈ features) keys out := by
  unfold pick
  rw [seqExcept_map_iff]
  refine forall₂_congr_mem fun k _ r => ?_
  obtain ⟨r1, r2⟩ := r
  cases hl : features.lookup k with
  | none =>
    have := (lookup_none features k).1 hl
    simp only [reduceCtorEq, false_iff, not_and]
    exact fun _ hm => this (List.mem_map.2 ⟨_, hm, rfl⟩)
  | some vs =>
    have hm := (lookup_iff features h k vs).1 hl
    simp only [Except.ok.injEq, Prod.mk.injEq]
    constructor
    · rintro ⟨rfl, rfl⟩; exact ⟨rfl, hm⟩
    · rintro ⟨rfl, hm'⟩
      have := (lookup_iff features h r1 r2).2 hm'
      rw [hl] at this
      exact ⟨rfl, Option.some.inj this⟩

theorem requested_mem (m : Meaning V Op) (full : String → Nat → V) (f : Function Op)
    (keys : List String) (out : List (String × List V)) (h : Requested m full f keys out)
    (k : String) (hk : k ∈ keys) : ∃ r ∈ out, r.1 = k ∧ ∃ ts, (k, ts) ∈ f.outputs ∧
      List.Forall₂ (fun t v => t.value m full = .ok v) ts r.2 := by
  unfold Requested at h
  induction h with
  | nil => simp at hk
  | @cons k' r ks rs h1 _ ih =>
    rcases List.mem_cons.1 hk with e | e
    · subst e
      exact ⟨r, by simp, h1⟩
    · obtain ⟨r', hr', h'⟩ := ih e
      exact ⟨r', List.mem_cons_of_mem _ hr', h'⟩

theorem picked (batch : List (String × List V)) (keys : List String)
    (feed : List (String × List V))
    (h : List.Forall₂ (fun k r => r.1 = k ∧ (k, r.2) ∈ batch) keys feed) :
    feed.map Prod.fst = keys ∧ ∀ r ∈ feed, r ∈ batch := by
  induction h with
  | nil => simp
  | @cons k r ks rs h1 _ ih =>
    refine ⟨by rw [List.map_cons, h1.1, ih.1], ?_⟩
    intro r' hr'
    rcases List.mem_cons.1 hr' with rfl | hr'
    · rw [← h1.1] at h1
      exact h1.2
    · exact ih.2 r' hr'

theorem exists_picked (batch : List (String × List V)) (keys : List String)
    (h : ∀ k ∈ keys, ∃ vs, (k, vs) ∈ batch) :
    ∃ feed, List.Forall₂ (fun k (r : String × List V) => r.1 = k ∧ (k, r.2) ∈ batch) keys feed := by
  induction keys with
  | nil => exact ⟨[], .nil⟩
  | cons k ks ih =>
    obtain ⟨vs, hv⟩ := h k (by simp)
    obtain ⟨feed, hf⟩ := ih (fun k' hk' => h k' (by simp [hk']))
    exact ⟨(k, vs) :: feed, .cons ⟨rfl, hv⟩ hf⟩

/-- `finalize` accepts a request if and only if all requested outputs are computed from the inputs
that will be given. -/
theorem finalize_accepts_the_computable_outputs (f : Function Op) (hW : WellFormed f)
    (inputKeys outputKeys : List String) :
    (∃ fin, f.finalize inputKeys outputKeys = .ok fin) ↔
      ∀ k ∈ outputKeys, ∃ ts, (k, ts) ∈ f.outputs ∧ ∀ i ∈ Tensor.usesOf ts, i ∈ inputKeys := by
  unfold Function.finalize
  rw [fetches_eq f hW]
  by_cases hb : outputKeys.any (fun k => !((computable f inputKeys).map Prod.fst).contains k) = true
  · rw [if_pos hb]
    simp only [reduceCtorEq, exists_false, false_iff]
    intro hall
    obtain ⟨k, hk, hbad⟩ := List.any_eq_true.1 hb
    simp only [Bool.not_eq_true', ← Bool.not_eq_true, List.contains_iff_mem] at hbad
    obtain ⟨ts, ht, hu⟩ := hall k hk
    refine hbad (List.mem_map.2 ⟨(k, ts), ?_, rfl⟩)
    unfold computable
    rw [List.mem_filter, decide_eq_true_iff]
    exact ⟨ht, hu⟩
  · rw [if_neg hb]
    simp only [Except.ok.injEq, exists_eq', true_iff]
    intro k hk
    by_contra hne
    refine hb (List.any_eq_true.2 ⟨k, hk, ?_⟩)
    simp only [Bool.not_eq_true', ← Bool.not_eq_true, List.contains_iff_mem]
    intro hm
    obtain ⟨o, ho, rfl⟩ := List.mem_map.1 hm
    unfold computable at ho
    rw [List.mem_filter, decide_eq_true_iff] at ho
    exact hne ⟨o.2, ho.1, ho.2⟩

theorem unfed_congr (f : Function Op) (ks ks' : List String) (h : ∀ k, k ∈ ks ↔ k ∈ ks') :
    f.unfed ks = f.unfed ks' := by
  unfold Function.unfed
  refine List.filter_congr fun k _ => ?_
  congr 1
  rw [← Bool.coe_iff_coe, List.contains_iff_mem, List.contains_iff_mem, h]

theorem finalized_call (strict : Bool) (m : Meaning V Op) (f : Function Op) (hW : WellFormed f)
    (inputKeys outputKeys : List String) (fin : Finalized)
    (hfin : f.finalize inputKeys outputKeys = .ok fin)
    (given : List (String × List V)) (hC : Conforms m f given)
    (hk : ∀ k, k ∈ inputKeys ↔ k ∈ given.map Prod.fst) :
    fin.outputs = outputKeys ∧ applyFinalized strict m f fin given =
      (evalOutputs m (fun c => (f.graphInputs.zip (f.flatten m 1 given)).lookup c)
        (if strict then f.outputs else
          f.outputs.filter fun o => outputKeys.contains o.1)).bind fun features =>
          pick features outputKeys := by
  have hf : fin = ⟨f.unfed inputKeys, outputKeys⟩ := by
    unfold Function.finalize at hfin
    split at hfin
    · simp at hfin
    · simpa using hfin.symm
  subst hf
  refine ⟨rfl, ?_⟩
  unfold applyFinalized
  rw [unexpected_false m f given hC]
  simp only [Bool.false_eq_true, if_false]
  rw [if_neg (by rw [not_not]; exact unfed_congr f _ _ fun k => (hk k).symm), if_neg,
    bindArgs_ok m f hW _ given hC]
  · rfl
  · rw [List.any_eq_true]
    rintro ⟨⟨c, v⟩, hm, hbad⟩
    obtain ⟨s, hs, h1, h2, h3⟩ := (mem_zip_flatten m f hW _ given hC c v).1 hm
    simp only [Bool.and_eq_true, Bool.not_eq_true', ← Bool.not_eq_true, List.contains_iff_mem] at hbad
    have hgk : c.1 ∈ given.map Prod.fst := by
      by_contra hno
      refine hbad.1 ?_
      unfold Function.unfed
      rw [List.mem_filter]
      refine ⟨List.mem_map.2 ⟨s, hs, h1⟩, ?_⟩
      simp only [Bool.not_eq_true', ← Bool.not_eq_true, List.contains_iff_mem]
      exact fun hh => hno ((hk c.1).1 hh)
    unfold supply at h3
    cases hl : given.lookup s.1 with
    | none => exact (lookup_none _ _).1 hl (by rw [h1]; exact hgk)
    | some vs =>
      rw [hl] at h3
      simp only at h3
      have := hC.shapes _ ((lookup_iff given hC.nodup s.1 vs).1 hl) c.2 v h3
      simp only [h1] at this
      exact hbad.2 this

/-- After `finalize`, every batch with the announced inputs gives the requested outputs, with the
values that they have whatever the missing inputs are taken to be. -/
theorem finalized_application_returns_the_request (strict : Bool) (m : Meaning V Op)
    (f : Function Op) (hW : WellFormed f)
    (inputKeys outputKeys : List String) (fin : Finalized)
    (hfin : f.finalize inputKeys outputKeys = .ok fin)
    (given : List (String × List V)) (hC : Conforms m f given)
    (hk : ∀ k, k ∈ inputKeys ↔ k ∈ given.map Prod.fst) (full : String → Nat → V)
    (hF : Completes given full) (out : List (String × List V)) :
    (applyFinalized strict m f fin given = .ok out → Requested m full f outputKeys out) ∧
    (strict = false → Requested m full f outputKeys out →
      applyFinalized strict m f fin given = .ok out) := by
  have hreq := (finalize_accepts_the_computable_outputs f hW inputKeys outputKeys).1 ⟨fin, hfin⟩
  rw [(finalized_call strict m f hW inputKeys outputKeys fin hfin given hC hk).2]
  let mu : String → Nat → V := fun k i =>
    ((given.lookup k).bind fun vs => vs[i]?).getD (m.madeUp 1 k i)
  have hmu : Completes given mu := completes_self m f given hC _
  -- requested outputs are given inputs' outputs
  have hsame : ∀ k ∈ outputKeys, ∀ ts, (k, ts) ∈ f.outputs →
      (k, ts) ∈ computable f (given.map Prod.fst) := by
    intro k hko ts ht
    obtain ⟨ts', ht', hu⟩ := hreq k hko
    have : (k, ts') = (k, ts) := List.inj_on_of_nodup_map hW.outputs ht' ht rfl
    unfold computable
    rw [List.mem_filter, decide_eq_true_iff]
    rw [← this]
    exact ⟨ht', fun i hi => (hk i).1 (hu i hi)⟩
  have hvals : ∀ k ∈ outputKeys, ∀ ts, (k, ts) ∈ f.outputs → ∀ vs,
      List.Forall₂ (fun t v => t.value m mu = .ok v) ts vs ↔
        List.Forall₂ (fun t v => t.value m full = .ok v) ts vs := by
    intro k hko ts ht vs
    rw [← values_iff, ← values_iff, values_congr m mu full ts
      (within_given m f hW given hC mu full hmu hF _ (hsame k hko ts ht))]
  set os := (if strict then f.outputs else f.outputs.filter fun o => outputKeys.contains o.1)
    with hos
  have hsub : os.Sublist f.outputs := by
    rw [hos]
    cases strict
    · simp
    · simp
  have hkeep : ∀ k ∈ outputKeys, ∀ ts, (k, ts) ∈ f.outputs → (k, ts) ∈ os := by
    intro k hko ts ht
    rw [hos]
    cases strict
    · simp only [Bool.false_eq_true, if_false]
      rw [List.mem_filter]
      exact ⟨ht, List.contains_iff_mem.2 hko⟩
    · simpa using ht
  have hev : ∀ features, evalOutputs m (fun c =>
      (f.graphInputs.zip (f.flatten m 1 given)).lookup c) os = .ok features ↔
      ValuesOf m mu os features := by
    intro features
    apply evalOutputs_iff
    intro o ho c hc
    refine env_eq m f hW _ given hC mu hmu c
      ((withinAll_iff f.inputs o.2).1 (hW.within o (hsub.subset ho)) c hc) ?_
    by_cases hk : c.1 ∈ given.map Prod.fst
    · exact .inl hk
    · right
      have hno : given.lookup c.1 = none := (lookup_none given c.1).2 hk
      show ((given.lookup c.1).bind fun vs => vs[c.2]?).getD _ = _
      rw [hno]
      rfl
  have hnd : ∀ features, ValuesOf m mu os features → (features.map Prod.fst).Nodup := by
    intro features hv
    rw [valuesOf_keys m mu os features hv]
    exact (hsub.map Prod.fst).nodup hW.outputs
  have hpick : ∀ features, ValuesOf m mu os features →
      (pick features outputKeys = .ok out ↔ Requested m full f outputKeys out) := by
    intro features hv
    obtain ⟨hm1, hm2⟩ := valuesOf_mem m mu os features hv
    rw [pick_iff features (hnd features hv)]
    unfold Requested
    refine forall₂_congr_mem fun k hko r => and_congr_right fun hr => ?_
    constructor
    · intro hmem
      obtain ⟨ts, ht, hvv⟩ := hm1 _ hmem
      exact ⟨ts, hsub.subset ht, (hvals k hko ts (hsub.subset ht) _).1 hvv⟩
    · rintro ⟨ts, ht, hvv⟩
      obtain ⟨vs, hmem, hvs⟩ := hm2 _ (hkeep k hko ts ht)
      have h1 := (hvals k hko ts ht _).2 hvv
      rw [← values_iff] at h1 hvs
      rw [hvs] at h1
      rw [← Except.ok.inj h1]
      exact hmem
  constructor
  · intro h
    cases he : evalOutputs m (fun c =>
        (f.graphInputs.zip (f.flatten m 1 given)).lookup c) os with
    | error e => rw [he] at h; simp [Except.bind] at h
    | ok features =>
      rw [he] at h
      exact (hpick features ((hev features).1 he)).1 h
  · intro hs h
    obtain ⟨features, hv⟩ := exists_valuesOf m mu os (by
      intro o ho
      rw [hos, hs] at ho
      simp only [Bool.false_eq_true, if_false] at ho
      rw [List.mem_filter, List.contains_iff_mem] at ho
      have := requested_mem m full f outputKeys out h o.1 ho.2
      obtain ⟨r, -, -, ts, ht, hvv⟩ := this
      have heq : (o.1, ts) = o := List.inj_on_of_nodup_map hW.outputs ht ho.1 rfl
      refine ⟨r.2, ?_⟩
      have := (hvals o.1 ho.2 ts ht r.2).2 hvv
      rw [← heq]
      exact this)
    rw [(hev features).2 hv]
    exact (hpick features hv).2 h

/-- The outputs of a function that are not excluded. -/
def kept (f : Function Op) (exclude : List String) : List (String × List (Tensor Op)) :=
  f.outputs.filter fun o => decide (o.1 ∉ exclude)

theorem requested_kept (m : Meaning V Op) (full : String → Nat → V) (f : Function Op)
    (hW : WellFormed f) (os : List (String × List (Tensor Op))) (hs : os.Sublist f.outputs)
    (out : List (String × List V)) :
    Requested m full f (os.map Prod.fst) out ↔ ValuesOf m full os out := by
  unfold Requested ValuesOf
  rw [List.forall₂_map_left_iff]
  refine forall₂_congr_mem fun o ho r => and_congr_right fun _ => ?_
  constructor
  · rintro ⟨ts, ht, hv⟩
    have : (o.1, ts) = o := List.inj_on_of_nodup_map hW.outputs ht (hs.subset ho) rfl
    rw [← this]
    exact hv
  · exact fun h => ⟨o.2, hs.subset ho, h⟩

theorem filter_kept (f : Function Op) (exclude : List String) :
    (f.outputs.filter fun o => !exclude.contains o.1) = kept f exclude := by
  unfold kept
  refine List.filter_congr fun o _ => ?_
  rw [← Bool.coe_iff_coe]
  simp only [Bool.not_eq_true', ← Bool.not_eq_true, List.contains_iff_mem, decide_eq_true_iff]

theorem kept_keys (f : Function Op) (exclude : List String) :
    ((f.outputs.map Prod.fst).filter fun k => !exclude.contains k)
      = (kept f exclude).map Prod.fst := by
  rw [← filter_kept, List.filter_map]
  rfl

/-- `TransformDataset` with TF2 behaviour: the data has the inputs `names`. -/
theorem transformed_v2_iff (m : Meaning V Op) (f : Function Op) (hW : WellFormed f)
    (names exclude : List String) (batch : List (String × List V)) (hC : Conforms m f batch)
    (hk : ∀ k, k ∈ names ↔ k ∈ batch.map Prod.fst) (full : String → Nat → V)
    (hF : Completes batch full) (out : List (String × List V)) :
    (transformV2 false m f names exclude batch = .ok out ↔
      (∀ o ∈ kept f exclude, ∀ i ∈ Tensor.usesOf o.2, i ∈ names) ∧
      ValuesOf m full (kept f exclude) out) ∧
    (transformV2 true m f names exclude batch = .ok out →
      transformV2 false m f names exclude batch = .ok out) := by
  have hsub : (kept f exclude).Sublist f.outputs := List.filter_sublist
  have hacc := finalize_accepts_the_computable_outputs f hW names ((kept f exclude).map Prod.fst)
  have huses : (∀ k ∈ (kept f exclude).map Prod.fst, ∃ ts, (k, ts) ∈ f.outputs ∧
      ∀ i ∈ Tensor.usesOf ts, i ∈ names) ↔
      ∀ o ∈ kept f exclude, ∀ i ∈ Tensor.usesOf o.2, i ∈ names := by
    constructor
    · intro h o ho i hi
      obtain ⟨ts, ht, hu⟩ := h o.1 (List.mem_map_of_mem ho)
      have : (o.1, ts) = o := List.inj_on_of_nodup_map hW.outputs ht (hsub.subset ho) rfl
      rw [← this] at hi
      exact hu i hi
    · intro h k hk
      obtain ⟨o, ho, rfl⟩ := List.mem_map.1 hk
      exact ⟨o.2, hsub.subset ho, h o ho⟩
  rw [huses] at hacc
  unfold transformV2
  rw [kept_keys]
  cases hfin : f.finalize names ((kept f exclude).map Prod.fst) with
  | error e =>
    have hno : ¬ ∀ o ∈ kept f exclude, ∀ i ∈ Tensor.usesOf o.2, i ∈ names := by
      rw [← hacc, hfin]
      simp
    simp only [Except.bind, reduceCtorEq, false_iff, false_imp_iff, and_true]
    exact fun h => hno h.1
  | ok fin =>
    have hyes := hacc.1 ⟨fin, hfin⟩
    have hA := finalized_application_returns_the_request false m f hW names _ fin hfin batch hC hk
      full hF out
    have hB := finalized_application_returns_the_request true m f hW names _ fin hfin batch hC hk
      full hF out
    simp only [Except.bind]
    rw [requested_kept m full f hW _ hsub] at hA hB
    exact ⟨⟨fun h => ⟨hyes, hA.1 h⟩, fun h => hA.2 rfl h.2⟩, fun h => hA.2 rfl (hB.1 h)⟩

/-- `TransformDataset` with TF1 behaviour. -/
theorem transformed_v1_iff (m : Meaning V Op) (f : Function Op) (hW : WellFormed f)
    (names exclude : List String) (batch : List (String × List V)) (hC : Conforms m f batch)
    (hk : ∀ k, k ∈ names ↔ k ∈ batch.map Prod.fst) (full : String → Nat → V)
    (hF : Completes batch full) (out : List (String × List V)) :
    transformV1 m f names exclude batch = .ok out ↔
      (∀ k ∈ exclude, k ∈ f.outputs.map Prod.fst) ∧
      (∀ o ∈ kept f exclude, ∀ i ∈ Tensor.usesOf o.2, i ∈ names) ∧
      ValuesOf m full (kept f exclude) out := by
  have hnames : ¬ (names.any fun n => !(f.inputs.map Prod.fst).contains n) = true := by
    rw [List.any_eq_true]
    rintro ⟨n, hn, hbad⟩
    simp only [Bool.not_eq_true', ← Bool.not_eq_true, List.contains_iff_mem] at hbad
    obtain ⟨g, hg, rfl⟩ := List.mem_map.1 ((hk n).1 hn)
    exact hbad (List.mem_map.2 ⟨_, hC.components g hg, rfl⟩)
  unfold transformV1
  rw [if_neg hnames]
  by_cases hex : (exclude.any fun n => !(f.outputs.map Prod.fst).contains n) = true
  · rw [if_pos hex]
    simp only [reduceCtorEq, false_iff]
    rintro ⟨h, -⟩
    obtain ⟨n, hn, hbad⟩ := List.any_eq_true.1 hex
    simp only [Bool.not_eq_true', ← Bool.not_eq_true, List.contains_iff_mem] at hbad
    exact hbad (h n hn)
  rw [if_neg hex]
  have hex' : ∀ k ∈ exclude, k ∈ f.outputs.map Prod.fst := by
    intro k hko
    by_contra hno
    refine hex (List.any_eq_true.2 ⟨k, hko, ?_⟩)
    simp only [Bool.not_eq_true', ← Bool.not_eq_true, List.contains_iff_mem]
    exact hno
  rw [and_iff_right hex']
  rw [filter_kept]
  set needed := (f.inputs.map Prod.fst).filter fun k =>
    (kept f exclude).any fun o => (Tensor.sourcesOf o.2).any fun c => c.1 == k with hneeded
  have hmemn : ∀ k, k ∈ needed ↔ ∃ o ∈ kept f exclude, k ∈ Tensor.usesOf o.2 := by
    intro k
    rw [hneeded, List.mem_filter, List.any_eq_true]
    constructor
    · rintro ⟨-, o, ho, h⟩
      obtain ⟨c, hc, he⟩ := List.any_eq_true.1 h
      refine ⟨o, ho, ?_⟩
      rw [usesOf_eq]
      exact List.mem_map.2 ⟨c, hc, by simpa using he⟩
    · rintro ⟨o, ho, h⟩
      rw [usesOf_eq] at h
      obtain ⟨c, hc, rfl⟩ := List.mem_map.1 h
      refine ⟨?_, o, ho, List.any_eq_true.2 ⟨c, hc, by simp⟩⟩
      obtain ⟨n, hn, -⟩ := (withinAll_iff f.inputs o.2).1
        (hW.within o (List.mem_of_mem_filter ho)) c hc
      exact List.mem_map.2 ⟨_, hn, rfl⟩
  have hpick : ∀ feed, pick batch needed = .ok feed ↔
      List.Forall₂ (fun k r => r.1 = k ∧ (k, r.2) ∈ batch) needed feed :=
    fun feed => pick_iff batch hC.nodup needed feed
  change (pick batch needed).bind (fun feed =>
    evalOutputs m (fun c => (f.expand feed).lookup c) (kept f exclude)) = .ok out ↔ _
  constructor
  · intro h
    cases hp : pick batch needed with
    | error e => rw [hp] at h; simp [Except.bind] at h
    | ok feed =>
      rw [hp] at h
      simp only [Except.bind] at h
      have hfe := (hpick feed).1 hp
      obtain ⟨hkeys, hin⟩ := picked batch needed feed hfe
      have hnd : (feed.map Prod.fst).Nodup := by
        rw [hkeys, hneeded]
        exact hW.inputs.filter _
      have hcomp : ∀ g ∈ feed, (g.1, g.2.length) ∈ f.inputs := fun g hg =>
        hC.components g (hin g hg)
      have hFf : Completes feed full := fun g hg => hF g (hin g hg)
      refine ⟨?_, ?_⟩
      · intro o ho i hi
        have : i ∈ feed.map Prod.fst := by rw [hkeys]; exact (hmemn i).2 ⟨o, ho, hi⟩
        obtain ⟨g, hg, rfl⟩ := List.mem_map.1 this
        exact (hk _).2 (List.mem_map_of_mem (hin g hg))
      · refine (evalOutputs_iff m _ full _ ?_ out).1 h
        intro o ho c hc
        refine expand_lookup f hW feed hnd hcomp full hFf c
          ((withinAll_iff f.inputs o.2).1 (hW.within o (List.mem_of_mem_filter ho)) c hc) ?_
        rw [hkeys]
        exact (hmemn c.1).2 ⟨o, ho, by rw [usesOf_eq]; exact List.mem_map_of_mem hc⟩
  · rintro ⟨hu, hv⟩
    have hex2 : ∃ feed, List.Forall₂
        (fun k (r : String × List V) => r.1 = k ∧ (k, r.2) ∈ batch) needed feed := by
      have : ∀ k ∈ needed, ∃ vs, (k, vs) ∈ batch := by
        intro k hkn
        obtain ⟨o, ho, hi⟩ := (hmemn k).1 hkn
        obtain ⟨g, hg, rfl⟩ := List.mem_map.1 ((hk k).1 (hu o ho k hi))
        exact ⟨g.2, hg⟩
      exact exists_picked batch needed this
    obtain ⟨feed, hfe⟩ := hex2
    rw [(hpick feed).2 hfe]
    simp only [Except.bind]
    obtain ⟨hkeys, hin⟩ := picked batch needed feed hfe
    have hnd : (feed.map Prod.fst).Nodup := by
      rw [hkeys, hneeded]
      exact hW.inputs.filter _
    refine (evalOutputs_iff m _ full _ ?_ out).2 hv
    intro o ho c hc
    refine expand_lookup f hW feed hnd (fun g hg => hC.components g (hin g hg)) full
      (fun g hg => hF g (hin g hg)) c
      ((withinAll_iff f.inputs o.2).1 (hW.within o (List.mem_of_mem_filter ho)) c hc) ?_
    rw [hkeys]
    exact (hmemn c.1).2 ⟨o, ho, by rw [usesOf_eq]; exact List.mem_map_of_mem hc⟩

/-- `TransformDataset` gives the same results with TF1 and TF2 behaviour, except that unknown
`exclude_outputs` are rejected with TF1 behaviour only. -/
theorem transform_is_the_same_in_v1_and_v2 (m : Meaning V Op) (f : Function Op) (hW : WellFormed f)
    (names exclude : List String) (batch : List (String × List V)) (hC : Conforms m f batch)
    (hk : ∀ k, k ∈ names ↔ k ∈ batch.map Prod.fst) (out : List (String × List V)) (default : V) :
    transformV1 m f names exclude batch = .ok out ↔
      (∀ k ∈ exclude, k ∈ f.outputs.map Prod.fst) ∧
      transformV2 false m f names exclude batch = .ok out := by
  have hF := completes_self m f batch hC (fun _ _ => default)
  rw [transformed_v1_iff m f hW names exclude batch hC hk _ hF,
    (transformed_v2_iff m f hW names exclude batch hC hk _ hF out).1]

/-! ## Made-up inputs are well formed -/

/-- A shape agrees with a static shape. -/
def ShapeOk (static : List (Option Nat)) (shape : List Nat) : Prop :=
  List.Forall₂ (fun d n => ∀ k, d = some k → n = k) static shape

/-- Made-up dense inputs have shapes that the static shape allows, and the size of the batch where
this is not fixed. -/
theorem missing_shape_fits (batchSize : Nat) (d : Option Nat) (ds : List (Option Nat))
    (hd : d ≠ some 0) :
    ShapeOk (d :: ds) (missingShape batchSize (some (d :: ds))) ∧
    (d = none → (missingShape batchSize (some (d :: ds))).head? = some batchSize) := by
  have tail : ShapeOk ds (ds.map fun d => d.getD 1) := by
    unfold ShapeOk
    induction ds with
    | nil => exact .nil
    | cons d ds ih =>
      refine .cons ?_ ih
      rintro k rfl
      rfl
  rcases d with - | (- | n)
  · exact ⟨.cons (by simp) tail, fun _ => rfl⟩
  · exact absurd rfl hd
  · refine ⟨.cons ?_ tail, by simp⟩
    intro k hk
    exact Option.some.inj hk

/-- A dimension that is statically 0 is replaced by the batch size: the made-up tensor does not fit
the static shape, and the batch is rejected. -/
theorem static_zero_is_replaced : missingShape 5 (some [some 0]) = [5] ∧
    ¬ ShapeOk [some 0] (missingShape 5 (some [some 0])) := by
  refine ⟨rfl, ?_⟩
  intro h
  cases h with
  | cons h1 _ => exact absurd (h1 0 rfl) (by decide)

/-- A well-formed sparse tensor: as many values as indices, indices of the rank of the dense shape,
within it, and in order (compared as lists). -/
def SparseZeros.Ok (s : SparseZeros) : Prop :=
  s.indices.length = s.values ∧
  (∀ i ∈ s.indices, List.Forall₂ (· < ·) i s.denseShape) ∧
  s.indices.Pairwise (fun a b => a < b)

theorem missing_sparse_is_well_formed (n rank : Nat) (hr : 0 < rank) :
    (missingSparse n rank).Ok ∧ (missingSparse n rank).denseShape.length = rank ∧
    (missingSparse n rank).denseShape.head? = some n := by
  refine ⟨⟨?_, ?_, ?_⟩, ?_, rfl⟩
  · simp [missingSparse]
  · intro i hi
    unfold missingSparse at hi
    obtain ⟨j, hj, rfl⟩ := List.mem_map.1 hi
    refine .cons (List.mem_range.1 hj) ?_
    generalize rank - 1 = k
    induction k with
    | zero => exact .nil
    | succ k ih => exact .cons (by decide) ih
  · unfold missingSparse
    rw [List.pairwise_map]
    refine List.pairwise_lt_range.imp ?_
    intro a b hab
    exact List.Lex.rel hab
  · simp only [missingSparse, List.length_cons, List.length_replicate]
    omega

/-- Well-formed row splits over `inner` rows: every level starts at 0, does not decrease and ends at
the number of rows of the next level; `outer` is the number of rows of the outermost level. -/
inductive SplitsOk : Nat → List (List Nat) → Nat → Prop
  | flat (inner : Nat) : SplitsOk inner [] inner
  | level (outer rows inner : Nat) (splits : List Nat) (rest : List (List Nat)) :
      splits.length = outer + 1 → splits.head? = some 0 → splits.Pairwise (· ≤ ·) →
      splits.getLast? = some rows → SplitsOk rows rest inner →
      SplitsOk outer (splits :: rest) inner

theorem missingSplits_ok (k rows inner : Nat) (acc : List (List Nat)) (h : SplitsOk rows acc inner) :
    SplitsOk rows (missingSplits k rows acc) inner ∧
    (missingSplits k rows acc).length = k + acc.length := by
  induction k generalizing acc with
  | zero => exact ⟨h, by simp [missingSplits]⟩
  | succ k ih =>
    unfold missingSplits
    simp only [List.length_range, Nat.add_sub_cancel]
    have := ih (List.range (rows + 1) :: acc) (.level rows rows inner _ acc (by simp)
      (by simp [List.range_succ_eq_map]) (List.pairwise_lt_range.imp Nat.le_of_lt)
      (by simp [List.range_succ]) h)
    refine ⟨this.1, ?_⟩
    rw [this.2, List.length_cons]
    omega

/-- Made-up ragged inputs have well-formed row splits, as many as the ragged rank, over the rows of
the flat values, and the size of the batch where this is not fixed. -/
theorem missing_ragged_is_well_formed (batchSize raggedRank : Nat) (d : Option Nat)
    (ds : List (Option Nat)) :
    ∃ rows, (missingRagged batchSize raggedRank (d :: ds)).flat.head? = some rows ∧
      (missingRagged batchSize raggedRank (d :: ds)).rowSplits.length = raggedRank ∧
      SplitsOk rows (missingRagged batchSize raggedRank (d :: ds)).rowSplits rows ∧
      (d = none → rows = batchSize) := by
  unfold missingRagged
  have h := fun rows => missingSplits_ok raggedRank rows rows [] (.flat rows)
  refine ⟨_, rfl, ?_, ?_, ?_⟩
  · rw [(h _).2]; simp
  · exact (h _).1
  · rintro rfl; rfl

/-! ## A function with a label -/

namespace Example

/-- Operations: parsing a number, and adding. Values: strings, numbers. -/
inductive Val where
  | str (s : String)
  | num (n : Nat)
  deriving DecidableEq

inductive Oper where
  | parse
  | add

/-- Parsing fails on the empty string, which is what is made up for a missing string input. -/
def meaning : Meaning Val Oper :=
  { op := fun o vs => match o, vs with
      | .parse, [.str s] => if s = "" then .error "InvalidArgumentError" else .ok (.num s.length)
      | .add, [.num a, .num b] => .ok (.num (a + b))
      | _, _ => .error "TypeError"
    captured := fun n => .num (10 * n)
    compatible := fun _ _ _ => true
    madeUp := fun _ k _ => if k = "label" then .str "" else .num 0
    batchSize := fun vs => vs.length }

/-- `x_scaled` is computed from `x`; `y` from the label, a string that is parsed, and from `x`. -/
def function : Function Oper :=
  { inputs := [("label", 1), ("x", 1)]
    outputs := [("x_scaled", [.op .add [.feed "x" 0, .capture 1]]),
      ("y", [.op .add [.op .parse [.feed "label" 0], .feed "x" 0]])] }

theorem function_wf : WellFormed function := by
  refine ⟨by decide, by decide, ?_⟩
  intro o ho
  rcases List.mem_cons.1 ho with rfl | ho
  · exact ⟨⟨⟨1, by simp [function], by decide⟩, trivial, trivial⟩, trivial⟩
  · rcases List.mem_cons.1 ho with rfl | ho
    · exact ⟨⟨⟨⟨1, by simp [function], by decide⟩, trivial⟩, ⟨1, by simp [function], by decide⟩,
        trivial⟩, trivial⟩
    · simp at ho

theorem serving_conforms : Conforms meaning function [("x", [Val.num 3])] :=
  ⟨by decide, by simp [function], fun _ _ _ _ _ => rfl⟩

theorem both_conforms : Conforms meaning function [("x", [Val.num 3]), ("label", [Val.str "ab"])] :=
  ⟨by decide, by simp [function], fun _ _ _ _ _ => rfl⟩

/-- Only `x_scaled` is computed from `x`. -/
theorem computable_from_x : computable function ["x"]
    = [("x_scaled", [.op .add [.feed "x" 0, .capture 1]])] := rfl

end Example

/-- The made-up inputs do have an influence on whether there is a result: without the label, which
only the output `y` needs, and which is not returned, the TF2 function fails where the TF1 function
and the finalized one succeed, because the made-up label cannot be parsed. -/
theorem made_up_input_fails_the_batch :
    WellFormed Example.function ∧
    Conforms Example.meaning Example.function [("x", [Example.Val.num 3])] ∧
    applyV1InV2 Example.meaning Example.function [("x", [.num 3])]
      = .ok [("x_scaled", [.num 13])] ∧
    transformV2 false Example.meaning Example.function ["x"] ["y"] [("x", [.num 3])]
      = .ok [("x_scaled", [.num 13])] ∧
    applyV2 Example.meaning Example.function [("x", [.num 3])] = .error "InvalidArgumentError" :=
  ⟨Example.function_wf, Example.serving_conforms, rfl, rfl, rfl⟩

/-- An output that does not exist is excluded without complaint in TF2, and rejected in TF1. -/
theorem unknown_exclude_outputs :
    transformV1 Example.meaning Example.function ["x", "label"] ["z"]
      [("x", [.num 3]), ("label", [.str "ab"])]
        = .error "ValueError: excluded outputs contained keys not in graph" ∧
    transformV2 false Example.meaning Example.function ["x", "label"] ["z"]
      [("x", [.num 3]), ("label", [.str "ab"])]
        = .ok [("x_scaled", [.num 13]), ("y", [.num 5])] :=
  ⟨rfl, rfl⟩

example : applyV2 Example.meaning Example.function [("x", [.num 3]), ("label", [.str "ab"])]
    = .ok [("x_scaled", [.num 13]), ("y", [.num 5])] := rfl

/-- With a meaning whose parsing never fails, the label may be missing. -/
example : applyV2 { Example.meaning with madeUp := fun _ _ _ => .str "0" } Example.function
    [("label", [.str "ab"])] = .error "TypeError" ∧
    applyV2 { Example.meaning with madeUp := fun _ _ _ => .str "0" } Example.function
    [("x", [.num 3])] = .ok [("x_scaled", [.num 13])] := ⟨rfl, rfl⟩

example : ∃ fin, Example.function.finalize ["x"] ["x_scaled"] = .ok fin := ⟨_, rfl⟩

example : transformV1 Example.meaning Example.function ["x"] ["y"] [("x", [.num 3])]
    = .ok [("x_scaled", [.num 13])] := rfl

example : (missingSparse 3 2).indices = [[0, 0], [1, 0], [2, 0]] ∧
    (missingSparse 3 2).denseShape = [3, 1] := ⟨rfl, rfl⟩

example : missingRagged 2 2 [none, some 4] = ⟨[[0, 1, 2], [0, 1, 2]], [2, 4]⟩ := rfl

end TFT.Serving
