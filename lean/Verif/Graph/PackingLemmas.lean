import Verif.Graph.PackingSpec
import Mathlib.Data.List.Nodup
import Mathlib.Data.List.Induction
import Mathlib.Data.List.Perm.Basic

/-!
# Combiner packing: lemmas

Each traversal computes a function of the tree, and a state that depends on the order of visits.
-/

namespace TFT.Graph.Packing

variable {C : Type}

@[simp] theorem Node.oper_mk (d : Def C) (ins : List (Node C)) (i : Nat) :
    (Node.mk d ins i).oper = (d, ins) := rfl

@[simp] theorem Node.d_mk (d : Def C) (ins : List (Node C)) (i : Nat) : (Node.mk d ins i).d = d := rfl

@[simp] theorem Node.ins_mk (d : Def C) (ins : List (Node C)) (i : Nat) :
    (Node.mk d ins i).ins = ins := rfl

@[simp] theorem Node.index_mk (d : Def C) (ins : List (Node C)) (i : Nat) :
    (Node.mk d ins i).index = i := rfl

theorem mem_opersList (ns : List (Node C)) (o : Oper C) :
    o ∈ opersList ns ↔ ∃ n ∈ ns, o ∈ n.opers := by
  induction ns with
  | nil => simp [opersList]
  | cons n ns ih => simp [opersList, ih]

theorem Node.opers_eq (n : Node C) : n.opers = n.oper :: opersList n.ins := by
  cases n; simp [Node.opers]

theorem oper_mem (n : Node C) : n.oper ∈ n.opers := by rw [Node.opers_eq]; simp

/-- Induction over nodes. -/
theorem Node.induct {P : Node C → Prop} (h : ∀ n : Node C, (∀ x ∈ n.ins, P x) → P n) : ∀ n, P n := by
  intro n
  exact Node.rec (motive_1 := P) (motive_2 := fun ns => ∀ x ∈ ns, P x)
    (fun d ins i ih => h (.mk d ins i) ih) (by simp)
    (fun n ns h1 h2 x hx => by
      rcases List.mem_cons.1 hx with rfl | hx
      · exact h1
      · exact h2 x hx) n

/-- The operations of the inputs of an operation of a node are operations of the node. -/
theorem opers_closed (n : Node C) : ∀ o ∈ n.opers, ∀ x ∈ o.2, x.opers ⊆ n.opers := by
  induction n using Node.induct with
  | h n ih =>
    intro o ho x hx
    rw [Node.opers_eq] at ho
    rw [Node.opers_eq n]
    rcases List.mem_cons.1 ho with rfl | ho
    · intro q hq
      exact List.mem_cons_of_mem _ ((mem_opersList _ _).2 ⟨x, hx, hq⟩)
    · obtain ⟨y, hy, hoy⟩ := (mem_opersList _ _).1 ho
      intro q hq
      exact List.mem_cons_of_mem _ ((mem_opersList _ _).2 ⟨y, hy, ih y hy o hoy x hx hq⟩)

theorem opersList_closed (ns : List (Node C)) :
    ∀ o ∈ opersList ns, ∀ x ∈ o.2, x.opers ⊆ opersList ns := by
  intro o ho x hx q hq
  obtain ⟨n, hn, hon⟩ := (mem_opersList _ _).1 ho
  exact (mem_opersList _ _).2 ⟨n, hn, opers_closed n o hon x hx hq⟩

/-! ### The order of visits -/

set_option linter.unusedSectionVars false

section
variable [DecidableEq C]

mutual
/-- The operations visited so far after a visit of a node. -/
def post : Node C → List (Oper C) → List (Oper C)
  | .mk d ins _, order => if (d, ins) ∈ order then order else postList ins order ++ [(d, ins)]

@[inherit_doc post]
def postList : List (Node C) → List (Oper C) → List (Oper C)
  | [], order => order
  | n :: ns, order => postList ns (post n order)
end

theorem postList_cons (n : Node C) (ns : List (Node C)) (order : List (Oper C)) :
    postList (n :: ns) order = postList ns (post n order) := by simp [postList]

theorem postList_append (ns ms : List (Node C)) (order : List (Oper C)) :
    postList (ns ++ ms) order = postList ms (postList ns order) := by
  induction ns generalizing order with
  | nil => simp [postList]
  | cons n ns ih => simp only [List.cons_append, postList_cons, ih]

theorem prefix_post (n : Node C) : ∀ order, order <+: post n order := by
  induction n using Node.induct with
  | h n ih =>
    intro order
    have hl : ∀ (ns : List (Node C)), (∀ x ∈ ns, x ∈ n.ins) → ∀ order, order <+: postList ns order := by
      intro ns
      induction ns with
      | nil => intro _ order; simp [postList]
      | cons x xs ihx =>
        intro hm order
        rw [postList_cons]
        exact (ih x (hm x (by simp)) order).trans (ihx (fun y hy => hm y (by simp [hy])) _)
    cases n with
    | mk d ins i =>
      unfold post
      by_cases h : (d, ins) ∈ order
      · rw [if_pos h]; exact List.prefix_rfl
      · rw [if_neg h]
        exact (hl ins (fun x hx => hx) order).trans (List.prefix_append _ _)

theorem prefix_postList (ns : List (Node C)) (order : List (Oper C)) : order <+: postList ns order := by
  induction ns generalizing order with
  | nil => simp [postList]
  | cons n ns ih => rw [postList_cons]; exact (prefix_post n order).trans (ih _)

/-- With an operation, the operations of its inputs were visited. -/
def Closed (order : List (Oper C)) : Prop := ∀ o ∈ order, ∀ x ∈ o.2, x.opers ⊆ order

theorem mem_post (n : Node C) : ∀ order, Closed order →
    (∀ o, o ∈ post n order ↔ o ∈ order ∨ o ∈ n.opers) ∧ Closed (post n order) := by
  induction n using Node.induct with
  | h n ih =>
    have hl : ∀ (ns : List (Node C)), (∀ x ∈ ns, x ∈ n.ins) → ∀ order, Closed order →
        (∀ o, o ∈ postList ns order ↔ o ∈ order ∨ o ∈ opersList ns) ∧ Closed (postList ns order) := by
      intro ns
      induction ns with
      | nil => intro _ order hc; simpa [postList, opersList] using hc
      | cons x xs ihx =>
        intro hm order hc
        obtain ⟨i1, i2⟩ := ih x (hm x (by simp)) order hc
        obtain ⟨j1, j2⟩ := ihx (fun y hy => hm y (by simp [hy])) _ i2
        rw [postList_cons]
        refine ⟨fun o => ?_, j2⟩
        rw [j1, i1]
        simp [opersList, or_assoc]
    intro order hc
    cases n with
    | mk d ins i =>
      unfold post
      by_cases h : (d, ins) ∈ order
      · rw [if_pos h]
        refine ⟨fun o => ⟨Or.inl, ?_⟩, hc⟩
        rintro (ho | ho)
        · exact ho
        · rw [Node.opers_eq] at ho
          rcases List.mem_cons.1 ho with rfl | ho
          · exact h
          · obtain ⟨x, hx, hox⟩ := (mem_opersList _ _).1 ho
            exact hc _ h x hx hox
      · rw [if_neg h]
        obtain ⟨j1, j2⟩ := hl ins (fun x hx => hx) order hc
        constructor
        · intro o
          rw [List.mem_append, j1, List.mem_singleton, Node.opers_eq, List.mem_cons]
          simp only [Node.oper_mk, Node.ins_mk]
          tauto
        · intro o ho x hx q hq
          rw [List.mem_append] at ho ⊢
          rcases ho with ho | ho
          · exact Or.inl (j2 o ho x hx hq)
          · rw [List.mem_singleton] at ho
            subst ho
            exact Or.inl ((j1 q).2 (Or.inr ((mem_opersList _ _).2 ⟨x, hx, hq⟩)))

theorem mem_postList (ns : List (Node C)) : ∀ order, Closed order →
    (∀ o, o ∈ postList ns order ↔ o ∈ order ∨ o ∈ opersList ns) ∧ Closed (postList ns order) := by
  induction ns with
  | nil => intro order hc; simpa [postList, opersList] using hc
  | cons x xs ihx =>
    intro order hc
    obtain ⟨i1, i2⟩ := mem_post x order hc
    obtain ⟨j1, j2⟩ := ihx _ i2
    rw [postList_cons]
    refine ⟨fun o => ?_, j2⟩
    rw [j1, i1]
    simp [opersList, or_assoc]

theorem closed_nil : Closed ([] : List (Oper C)) := fun _ h => by cases h

theorem mem_order (ns : List (Node C)) (o : Oper C) : o ∈ postList ns [] ↔ o ∈ opersList ns := by
  rw [(mem_postList ns [] closed_nil).1]; simp

theorem nodeSize_lt (d : Def C) (ins : List (Node C)) (i : Nat) : ∀ x ∈ ins, sizeOf x < sizeOf (Node.mk d ins i) := by
  intro x hx
  have := List.sizeOf_lt_of_mem hx
  simp only [Node.mk.sizeOf_spec]
  omega

theorem opers_size (n : Node C) : ∀ o ∈ n.opers, sizeOf o.2 < sizeOf n := by
  induction n using Node.induct with
  | h n ih =>
    intro o ho
    rw [Node.opers_eq] at ho
    cases n with
    | mk d ins i =>
      rcases List.mem_cons.1 ho with rfl | ho
      · simp only [Node.oper_mk, Node.mk.sizeOf_spec]; omega
      · obtain ⟨x, hx, hox⟩ := (mem_opersList _ _).1 ho
        have h1 := ih x hx o hox
        have h2 := nodeSize_lt d ins i x hx
        omega

/-- An operation is not among those that its inputs depend on. -/
theorem not_mem_own (d : Def C) (ins : List (Node C)) : (d, ins) ∉ opersList ins := by
  intro h
  obtain ⟨x, hx, ho⟩ := (mem_opersList _ _).1 h
  have h1 := opers_size x _ ho
  have h2 := List.sizeOf_lt_of_mem hx
  simp only at h1
  omega

theorem nodup_post (n : Node C) : ∀ order, Closed order → order.Nodup → (post n order).Nodup := by
  induction n using Node.induct with
  | h n ih =>
    have hl : ∀ (ns : List (Node C)), (∀ x ∈ ns, x ∈ n.ins) → ∀ order, Closed order → order.Nodup →
        (postList ns order).Nodup := by
      intro ns
      induction ns with
      | nil => intro _ order _ hn; simpa [postList] using hn
      | cons x xs ihx =>
        intro hm order hc hn
        rw [postList_cons]
        exact ihx (fun y hy => hm y (by simp [hy])) _ (mem_post x order hc).2
          (ih x (hm x (by simp)) order hc hn)
    intro order hc hn
    cases n with
    | mk d ins i =>
      unfold post
      by_cases h : (d, ins) ∈ order
      · rw [if_pos h]; exact hn
      · rw [if_neg h, List.nodup_append]
        refine ⟨hl ins (fun x hx => hx) order hc hn, by simp, ?_⟩
        intro a ha b hb
        rw [List.mem_singleton] at hb
        subst hb
        rintro rfl
        rcases ((mem_postList ins order hc).1 _).1 ha with ha | ha
        · exact h ha
        · exact not_mem_own d ins ha

theorem nodup_order (ns : List (Node C)) : (postList ns []).Nodup := by
  have : ∀ order : List (Oper C), Closed order → order.Nodup → (postList ns order).Nodup := by
    induction ns with
    | nil => intro order _ hn; simpa [postList] using hn
    | cons x xs ih =>
      intro order hc hn
      rw [postList_cons]
      exact ih _ (mem_post x order hc).2 (nodup_post x order hc hn)
  exact this [] closed_nil List.nodup_nil

/-! ### Traversals -/

/-- The outputs of an operation after a rewriting. -/
def outsOf (φ : Node C → Node C) (o : Oper C) : List (Node C) :=
  (List.range o.1.numOutputs).map (fun i : Nat => φ (.mk o.1 o.2 i))

/-- The state of a traverser after visits in this order. -/
structure Inv {σ : Type} (φ : Node C → Node C) (I : List (Oper C) → σ → Prop)
    (order : List (Oper C)) (t : Trav C σ) : Prop where
  cache : t.cache = order.reverse.map (fun o => (o, outsOf φ o))
  labels : t.labels = order.reverse.map (fun o => o.1.label)
  state : I order t.state

theorem lookup_map_self {α β : Type} [BEq α] [LawfulBEq α] (l : List α) (f : α → β) (a : α) :
    (a ∈ l → (l.map (fun x => (x, f x))).lookup a = some (f a)) ∧
    (a ∉ l → (l.map (fun x => (x, f x))).lookup a = none) := by
  induction l with
  | nil => simp
  | cons x xs ih =>
    constructor
    · intro h
      rw [List.map_cons, List.lookup_cons]
      by_cases hx : a = x
      · simp [hx]
      · rw [beq_false_of_ne hx]
        exact ih.1 ((List.mem_cons.1 h).resolve_left hx)
    · intro h
      rw [List.map_cons, List.lookup_cons, beq_false_of_ne (fun hx => h (by simp [hx]))]
      exact ih.2 (fun hx => h (by simp [hx]))

theorem pick_outsOf (φ : Node C → Node C) (d : Def C) (ins : List (Node C)) (i : Nat)
    (h : i < d.numOutputs) : pick (outsOf φ (d, ins)) i = .ok (φ (.mk d ins i)) := by
  unfold pick outsOf
  simp [List.getElem?_map, List.getElem?_range, h]

variable {σ : Type}

theorem visit_pure (step : Step C σ) (φ : Node C → Node C) (I : List (Oper C) → σ → Prop)
    (U total : List (Oper C)) (hu : UniqueLabels U) (hi : Indexed U)
    (hstep : ∀ order s o, o ∈ U → o ∉ order → order ++ [o] <+: total → I order s →
      ∃ s', step s o.1 (o.2.map φ) = .ok (s', outsOf φ o) ∧ I (order ++ [o]) s') :
    ∀ (n : Node C) (order : List (Oper C)) (t : Trav C σ), n.opers ⊆ U → n.index < n.d.numOutputs →
      order ⊆ U → Closed order → post n order <+: total → Inv φ I order t →
      ∃ t', visitNode step n t = .ok (t', φ n) ∧ Inv φ I (post n order) t' := by
  intro n
  induction n using Node.induct with
  | h n ih =>
    have hl : ∀ (ns : List (Node C)), (∀ x ∈ ns, x ∈ n.ins) → n.opers ⊆ U →
        ∀ order t, order ⊆ U → Closed order → postList ns order <+: total → Inv φ I order t →
        ∃ t', visitNodes step ns t = .ok (t', ns.map φ) ∧ Inv φ I (postList ns order) t' := by
      intro ns
      induction ns with
      | nil => intro _ _ order t _ _ _ hinv; exact ⟨t, by simp [visitNodes], by simpa [postList] using hinv⟩
      | cons x xs ihx =>
        intro hm hsub order t hou hc hp hinv
        rw [postList_cons] at hp ⊢
        have hxU : x.opers ⊆ U := by
          intro q hq
          apply hsub
          rw [Node.opers_eq]
          exact List.mem_cons_of_mem _ ((mem_opersList _ _).2 ⟨x, hm x (by simp), hq⟩)
        obtain ⟨t1, e1, i1⟩ := ih x (hm x (by simp)) order t hxU
          (hi n.oper (hsub (oper_mem n)) x (hm x (by simp))) hou hc
          ((prefix_postList xs _).trans hp) hinv
        have hou1 : post x order ⊆ U := by
          intro q hq
          rcases ((mem_post x order hc).1 q).1 hq with h | h
          · exact hou h
          · exact hxU h
        obtain ⟨t2, e2, i2⟩ := ihx (fun y hy => hm y (by simp [hy])) hsub _ t1 hou1
          (mem_post x order hc).2 hp i1
        refine ⟨t2, ?_, i2⟩
        simp only [visitNodes, e1, e2, bind, Except.bind, List.map_cons]
    intro order t hsub hidx hou hc hp hinv
    cases n with
    | mk d ins i =>
      simp only [Node.d_mk, Node.index_mk] at hidx
      unfold visitNode
      rw [hinv.cache]
      unfold post at hp ⊢
      by_cases h : (d, ins) ∈ order
      · rw [(lookup_map_self order.reverse (outsOf φ) (d, ins)).1 (by simpa using h)]
        simp only [if_pos h, pick_outsOf φ d ins i hidx, bind, Except.bind]
        exact ⟨t, rfl, hinv⟩
      · rw [(lookup_map_self order.reverse (outsOf φ) (d, ins)).2 (by simpa using h)]
        rw [if_neg h] at hp ⊢
        obtain ⟨t1, e1, i1⟩ := hl ins (fun x hx => hx) hsub order t hou hc
          ((List.prefix_append _ _).trans hp) hinv
        have hmp := mem_postList ins order hc
        have hnot : (d, ins) ∉ postList ins order := by
          intro hm
          rcases (hmp.1 _).1 hm with hm | hm
          · exact h hm
          · exact not_mem_own d ins hm
        have hdU : (d, ins) ∈ U := hsub (oper_mem (.mk d ins i))
        have hlab : d.label ∉ t1.labels := by
          rw [i1.labels]
          intro hm
          obtain ⟨o, ho, hol⟩ := List.mem_map.1 hm
          rw [List.mem_reverse] at ho
          have hoU : o ∈ U := by
            rcases (hmp.1 _).1 ho with ho | ho
            · exact hou ho
            · apply hsub
              rw [Node.opers_eq]
              exact List.mem_cons_of_mem _ ho
          have := hu o hoU (d, ins) hdU hol
          rw [this] at ho
          exact hnot ho
        obtain ⟨s', e2, i2⟩ := hstep _ t1.state (d, ins) hdU hnot hp i1.state
        simp only at e2
        have hlen : (outsOf φ (d, ins)).length = d.numOutputs := by simp [outsOf]
        refine ⟨⟨((d, ins), outsOf φ (d, ins)) :: t1.cache, d.label :: t1.labels, s'⟩, ?_, ?_⟩
        · simp only [e1, bind, Except.bind, visitOper, if_neg hlab, e2, hlen, ne_eq, not_true_eq_false,
            if_false, pick_outsOf φ d ins i hidx]
        · refine ⟨?_, ?_, i2⟩
          · simp [i1.cache]
          · simp [i1.labels]

theorem visits_pure (step : Step C σ) (φ : Node C → Node C) (I : List (Oper C) → σ → Prop)
    (U total : List (Oper C)) (hu : UniqueLabels U) (hi : Indexed U)
    (hstep : ∀ order s o, o ∈ U → o ∉ order → order ++ [o] <+: total → I order s →
      ∃ s', step s o.1 (o.2.map φ) = .ok (s', outsOf φ o) ∧ I (order ++ [o]) s') :
    ∀ (ns : List (Node C)) (order : List (Oper C)) (t : Trav C σ), opersList ns ⊆ U →
      (∀ n ∈ ns, n.index < n.d.numOutputs) → order ⊆ U → Closed order → postList ns order <+: total →
      Inv φ I order t →
      ∃ t', visitNodes step ns t = .ok (t', ns.map φ) ∧ Inv φ I (postList ns order) t' := by
  intro ns
  induction ns with
  | nil => intro order t _ _ _ _ _ hinv; exact ⟨t, by simp [visitNodes], by simpa [postList] using hinv⟩
  | cons x xs ih =>
    intro order t hsub hidx hou hc hp hinv
    rw [postList_cons] at hp ⊢
    have hx : x.opers ⊆ U := fun q hq => hsub ((mem_opersList _ _).2 ⟨x, by simp, hq⟩)
    obtain ⟨t1, e1, i1⟩ := visit_pure step φ I U total hu hi hstep x order t hx (hidx x (by simp)) hou hc
      ((prefix_postList xs _).trans hp) hinv
    obtain ⟨t2, e2, i2⟩ := ih _ t1
      (fun q hq => by
        obtain ⟨y, hy, hqy⟩ := (mem_opersList _ _).1 hq
        exact hsub ((mem_opersList _ _).2 ⟨y, by simp [hy], hqy⟩))
      (fun y hy => hidx y (by simp [hy]))
      (fun q hq => by
        rcases ((mem_post x order hc).1 q).1 hq with h | h
        · exact hou h
        · exact hx h) (mem_post x order hc).2 hp i1
    refine ⟨t2, ?_, i2⟩
    simp only [visitNodes, e1, e2, bind, Except.bind, List.map_cons]

/-- A traversal of a graph computes a function `φ` of its nodes and a state that depends on the order
of visits, if each visit does. -/
theorem traverse_pure (step : Step C σ) (s : σ) (φ : Node C → Node C) (I : List (Oper C) → σ → Prop)
    (target : Node C) (cache : List (Node C))
    (hu : UniqueLabels (opersList (target :: cache))) (hi : Indexed (opersList (target :: cache)))
    (hix : ∀ n ∈ target :: cache, n.index < n.d.numOutputs) (hs : I [] s)
    (hstep : ∀ order s o, o ∈ opersList (target :: cache) → o ∉ order →
      order ++ [o] <+: postList (target :: cache) [] → I order s →
      ∃ s', step s o.1 (o.2.map φ) = .ok (s', outsOf φ o) ∧ I (order ++ [o]) s') :
    ∃ s', traverse step s target cache = .ok (s', φ target, cache.map φ) ∧
      I (postList (target :: cache) []) s' := by
  have h0 : Inv φ I [] (⟨[], [], s⟩ : Trav C σ) := ⟨rfl, rfl, hs⟩
  have htU : target.opers ⊆ opersList (target :: cache) :=
    fun q hq => (mem_opersList _ _).2 ⟨target, by simp, hq⟩
  obtain ⟨t1, e1, i1⟩ := visit_pure step φ I _ (postList (target :: cache) []) hu hi hstep target [] _
    htU (hix target (by simp)) (by simp) closed_nil
    (by rw [postList_cons]; exact prefix_postList _ _) h0
  obtain ⟨t2, e2, i2⟩ := visits_pure step φ I _ (postList (target :: cache) []) hu hi hstep cache _ t1
    (fun q hq => by
      obtain ⟨y, hy, hqy⟩ := (mem_opersList _ _).1 hq
      exact (mem_opersList _ _).2 ⟨y, by simp [hy], hqy⟩)
    (fun y hy => hix y (by simp [hy]))
    (fun q hq => by
      rcases ((mem_post target [] closed_nil).1 q).1 hq with h | h
      · cases h
      · exact htU h) (mem_post target [] closed_nil).2 (by rw [postList_cons]; exact List.prefix_rfl) i1
  refine ⟨t2.state, ?_, ?_⟩
  · simp only [traverse, e1, e2, bind, Except.bind]
  · rw [postList_cons]; exact i2.state

end

/-! ### Packing of accumulators -/

/-- The candidate that an operation is for packing: the label of the `ApplySavedModel` and what is
packed. -/
def cand (o : Oper C) : Option (String × Wrapper C) :=
  match o.1.kind with
  | .accumulate c =>
    match o.2 with
    | [.mk pd pins _] =>
      match pd.kind with
      | .extractFromDict keys =>
        match pins with
        | [.mk gd _ _] =>
          match gd.kind with
          | .applySavedModel => some (gd.label, ⟨c, keys, o.1.label⟩)
          | _ => none
        | _ => none
      | _ => none
    | _ => none
  | _ => none

theorem cand_some (o : Oper C) (g : String) (w : Wrapper C) (h : cand o = some (g, w)) :
    ∃ c keys pd gp j, o.1.kind = .accumulate c ∧ o.2 = [.mk pd [gp] j] ∧
      pd.kind = .extractFromDict keys ∧ gp.d.kind = .applySavedModel ∧ g = gp.d.label ∧
      w = ⟨c, keys, o.1.label⟩ := by
  unfold cand at h
  split at h
  · rename_i c hc
    split at h
    · rename_i pd pins j ho
      split at h
      · rename_i keys hk
        split at h
        · rename_i gd gi gj
          split at h
          · rename_i hg
            simp only [Option.some.injEq, Prod.mk.injEq] at h
            exact ⟨c, keys, pd, .mk gd gi gj, j, hc, ho, hk, hg, h.1.symm, h.2.symm⟩
          · cases h
        · cases h
      · cases h
    · cases h
  · cases h

/-- `packable_combines` after visits in this order. -/
def groupsOf (order : List (Oper C)) : List (String × List (Wrapper C)) :=
  order.foldl (fun s o => match cand o with | some (g, w) => appendTo g w s | none => s) []

/-- The candidates with one grandparent. -/
def members (g : String) (order : List (Oper C)) : List (Wrapper C) :=
  order.filterMap (fun o => (cand o).bind (fun p => if p.1 = g then some p.2 else none))

theorem appendTo_lookup {α : Type} (k g : String) (x : α) (l : List (String × List α)) :
    (appendTo k x l).lookup g =
      if g = k then some ((l.lookup g).getD [] ++ [x]) else l.lookup g := by
  induction l with
  | nil =>
    unfold appendTo
    by_cases h : g = k
    · simp [h]
    · simp [List.lookup_cons, h, beq_false_of_ne h]
  | cons p l ih =>
    obtain ⟨k', xs⟩ := p
    unfold appendTo
    by_cases hk : k' = k
    · subst hk
      rw [if_pos rfl]
      by_cases h : g = k'
      · simp [h]
      · simp [List.lookup_cons, h, beq_false_of_ne h]
    · rw [if_neg hk]
      rw [List.lookup_cons, List.lookup_cons]
      by_cases h : g = k'
      · subst h
        simp [hk]
      · rw [beq_false_of_ne h]
        exact ih

theorem appendTo_keys {α : Type} (k : String) (x : α) (l : List (String × List α)) :
    (appendTo k x l).map Prod.fst = if k ∈ l.map Prod.fst then l.map Prod.fst else l.map Prod.fst ++ [k] := by
  induction l with
  | nil => simp [appendTo]
  | cons p l ih =>
    obtain ⟨k', xs⟩ := p
    unfold appendTo
    by_cases hk : k' = k
    · subst hk; simp
    · rw [if_neg hk]
      simp only [List.map_cons, ih]
      have hk' : ¬ k = k' := fun h => hk h.symm
      by_cases hm : k ∈ l.map Prod.fst
      · rw [if_pos hm, if_pos (List.mem_cons_of_mem _ hm)]
      · rw [if_neg hm, if_neg (by simp only [List.mem_cons, not_or]; exact ⟨hk', hm⟩)]
        simp

theorem groupsOf_append (order : List (Oper C)) (o : Oper C) :
    groupsOf (order ++ [o]) =
      match cand o with | some (g, w) => appendTo g w (groupsOf order) | none => groupsOf order := by
  simp [groupsOf, List.foldl_append]

theorem groupsOf_keys (order : List (Oper C)) : ((groupsOf order).map Prod.fst).Nodup := by
  induction order using List.reverseRecOn with
  | nil => simp [groupsOf]
  | append_singleton l o ih =>
    rw [groupsOf_append]
    cases h : cand o with
    | none => exact ih
    | some p =>
      simp only [appendTo_keys]
      by_cases hm : p.1 ∈ (groupsOf l).map Prod.fst
      · rw [if_pos hm]; exact ih
      · rw [if_neg hm, List.nodup_append]
        refine ⟨ih, by simp, ?_⟩
        intro a ha b hb
        rw [List.mem_singleton] at hb
        subst hb
        rintro rfl
        exact hm ha

theorem groupsOf_lookup (order : List (Oper C)) (g : String) :
    (groupsOf order).lookup g = if members g order = [] then none else some (members g order) := by
  induction order using List.reverseRecOn with
  | nil => simp [groupsOf, members]
  | append_singleton l o ih =>
    rw [groupsOf_append]
    have hm : members g (l ++ [o]) = members g l ++ members g [o] := by
      simp [members, List.filterMap_append]
    rw [hm]
    cases h : cand o with
    | none =>
      have h0 : members g [o] = [] := by simp [members, h]
      simp only [h0, List.append_nil]
      exact ih
    | some p =>
      obtain ⟨k, w⟩ := p
      simp only [appendTo_lookup, ih]
      by_cases hk : k = g
      · subst hk
        have h0 : members k [o] = [w] := by simp [members, h]
        rw [h0]
        by_cases hn : members k l = []
        · simp [hn]
        · simp [hn]
      · have h0 : members g [o] = [] := by simp [members, h, hk]
        rw [h0, if_neg (fun e => hk e.symm), List.append_nil]

theorem mem_iff_lookup {α : Type} (l : List (String × α)) (h : (l.map Prod.fst).Nodup) (k : String) (x : α) :
    (k, x) ∈ l ↔ l.lookup k = some x := by
  induction l with
  | nil => simp
  | cons p l ih =>
    obtain ⟨k', x'⟩ := p
    simp only [List.map_cons, List.nodup_cons] at h
    rw [List.lookup_cons]
    by_cases hk : k = k'
    · subst hk
      simp only [List.mem_cons, Prod.mk.injEq, true_and, BEq.rfl, Option.some.injEq]
      constructor
      · rintro (h1 | h1)
        · exact h1.symm
        · exact absurd (List.mem_map.2 ⟨_, h1, rfl⟩) h.1
      · intro h1; exact Or.inl h1.symm
    · rw [beq_false_of_ne hk]
      simp only [List.mem_cons, Prod.mk.injEq, hk, false_and, false_or]
      exact ih h.2

/-- The groups that are packed. -/
def bigGroups (order : List (Oper C)) : List (String × List (Wrapper C)) :=
  (groupsOf order).filter (fun g => 1 < g.2.length)

theorem bigGroups_mem (order : List (Oper C)) (g : String) (ws : List (Wrapper C)) :
    (g, ws) ∈ bigGroups order ↔ ws = members g order ∧ 1 < ws.length := by
  unfold bigGroups
  rw [List.mem_filter, mem_iff_lookup _ (groupsOf_keys order), groupsOf_lookup]
  by_cases h : members g order = []
  · rw [if_pos h]
    constructor
    · rintro ⟨h1, _⟩; cases h1
    · rintro ⟨h1, h2⟩
      rw [h1, h] at h2
      simp at h2
  · rw [if_neg h]
    simp only [Option.some.injEq, decide_eq_true_eq]
    constructor
    · rintro ⟨h1, h2⟩; exact ⟨h1.symm, h2⟩
    · rintro ⟨h1, h2⟩; exact ⟨h1.symm, h2⟩

theorem bigGroups_lookup (order : List (Oper C)) (g : String) (ws : List (Wrapper C))
    (h : (g, ws) ∈ bigGroups order) : (bigGroups order).lookup g = some ws := by
  apply (mem_iff_lookup _ ?_ g ws).1 h
  exact (groupsOf_keys order).sublist (List.Sublist.map _ List.filter_sublist)

theorem mem_members (g : String) (order : List (Oper C)) (w : Wrapper C) :
    w ∈ members g order ↔ ∃ o ∈ order, cand o = some (g, w) := by
  unfold members
  rw [List.mem_filterMap]
  constructor
  · rintro ⟨o, ho, h⟩
    refine ⟨o, ho, ?_⟩
    cases hc : cand o with
    | none => rw [hc] at h; cases h
    | some p =>
      rw [hc] at h
      obtain ⟨k, w'⟩ := p
      simp only [Option.bind_some] at h
      by_cases hk : k = g
      · rw [if_pos hk] at h
        simp only [Option.some.injEq] at h
        rw [hk, h]
      · rw [if_neg hk] at h; cases h
  · rintro ⟨o, ho, h⟩
    exact ⟨o, ho, by simp [h]⟩

theorem lookup_mem {α : Type} (l : List (String × α)) (k : String) (x : α) (h : l.lookup k = some x) :
    (k, x) ∈ l := by
  induction l with
  | nil => cases h
  | cons p l ih =>
    obtain ⟨k', x'⟩ := p
    rw [List.lookup_cons] at h
    by_cases hk : k = k'
    · subst hk
      simp only [BEq.rfl, Option.some.injEq] at h
      rw [h]; simp
    · rw [beq_false_of_ne hk] at h
      exact List.mem_cons_of_mem _ (ih h)

theorem lookup_none_of {α : Type} (l : List (String × α)) (k : String) (h : l.lookup k = none) (x : α) :
    (k, x) ∉ l := by
  intro hm
  induction l with
  | nil => cases hm
  | cons p l ih =>
    obtain ⟨k', x'⟩ := p
    rw [List.lookup_cons] at h
    by_cases hk : k = k'
    · subst hk
      simp at h
    · rw [beq_false_of_ne hk] at h
      rcases List.mem_cons.1 hm with h1 | h1
      · exact hk (Prod.mk.inj h1).1
      · exact ih h h1

section
variable [DecidableEq C]

theorem outsOf_id (o : Oper C) : outsOf (fun n => n) o = outputs o.1 o.2 := rfl

/-- The first traversal changes nothing and finds the groups. -/
theorem inspectAccumulate_spec (target : Node C) (hu : UniqueLabels target.opers)
    (hi : Indexed target.opers) (hix : target.index < target.d.numOutputs) (ha : AccShape target.opers) :
    traverse inspectAccumulate [] target [] = .ok (groupsOf (post target []), target, []) := by
  have e : opersList [target] = target.opers := by simp [opersList]
  obtain ⟨s', h1, h2⟩ := traverse_pure inspectAccumulate [] (fun n : Node C => n)
    (fun order s => s = groupsOf order) target []
    (by rw [e]; exact hu) (by rw [e]; exact hi) (by simpa using hix) rfl (by
      intro order s o ho _ _ hs
      rw [e] at ho
      subst hs
      refine ⟨_, ?_, rfl⟩
      rw [outsOf_id, groupsOf_append]
      obtain ⟨d, ins⟩ := o
      simp only [List.map_id']
      unfold inspectAccumulate cand
      cases hk : d.kind with
      | accumulate c =>
        obtain ⟨x, hx, hx2⟩ := ha _ ho c hk
        simp only at hx
        subst hx
        cases x with
        | mk pd pins j =>
          simp only
          cases hpk : pd.kind with
          | extractFromDict keys =>
            obtain ⟨g, hg, hg2⟩ := hx2 keys hpk
            simp only [Node.ins_mk] at hg
            subst hg
            cases g with
            | mk gd gi gj =>
              simp only [Node.d_mk] at hg2
              simp [hg2]
          | _ => simp
      | _ => simp)
  rw [h1, h2]
  simp [postList]

/-- `PackedCombineAccumulate` of a group. -/
def packedNode (groups : List (String × List (Wrapper C))) (g : String) (gp : Node C) : Node C :=
  apply ⟨packedAccumulateLabel g, .packedAccumulate ((groups.lookup g).getD [])⟩ [gp]

mutual
/-- What the second traversal makes of a node. -/
def phi (groups : List (String × List (Wrapper C))) : Node C → Node C
  | .mk d ins i =>
    match (combineToGrandParent groups).lookup d.label with
    | some g =>
      match phiList groups ins with
      | [.mk _ [gp] _] => extractAccumulator d (packedNode groups g gp)
      | vs => .mk d vs i
    | none => .mk d (phiList groups ins) i

@[inherit_doc phi]
def phiList (groups : List (String × List (Wrapper C))) : List (Node C) → List (Node C)
  | [] => []
  | n :: ns => phi groups n :: phiList groups ns
end

theorem phiList_eq (groups : List (String × List (Wrapper C))) (ns : List (Node C)) :
    phiList groups ns = ns.map (phi groups) := by
  induction ns with
  | nil => rfl
  | cons n ns ih => simp [phiList, ih]

/-- Groups as they are found in a part `T` of the operations `U`. -/
structure Packs (U : List (Oper C)) (groups : List (String × List (Wrapper C))) : Prop where
  cand : ∀ o ∈ U, ∀ g, (combineToGrandParent groups).lookup o.1.label = some g →
    ∃ w ws, TFT.Graph.Packing.cand o = some (g, w) ∧ w ∈ ws ∧ groups.lookup g = some ws
  all : ∀ g ws, groups.lookup g = some ws → (ws.map Wrapper.label).Nodup ∧
    ∀ w ∈ ws, ∃ o ∈ U, TFT.Graph.Packing.cand o = some (g, w)

theorem members_labels (U order : List (Oper C)) (g : String) (hu : UniqueLabels U) (hs : order ⊆ U)
    (hn : order.Nodup) : ((members g order).map Wrapper.label).Nodup := by
  induction order with
  | nil => simp [members]
  | cons o l ih =>
    have ih' := ih (fun x hx => hs (List.mem_cons_of_mem _ hx)) (List.nodup_cons.1 hn).2
    have hm : members g (o :: l) = members g [o] ++ members g l := by
      simp only [members]
      rw [← List.filterMap_append]; rfl
    rw [hm]
    cases hc : TFT.Graph.Packing.cand o with
    | none =>
      have h0 : members g [o] = [] := by simp [members, hc]
      rw [h0]; exact ih'
    | some p =>
      obtain ⟨k, w⟩ := p
      by_cases hk : k = g
      · subst hk
        have h0 : members k [o] = [w] := by simp [members, hc]
        rw [h0, List.singleton_append, List.map_cons, List.nodup_cons]
        refine ⟨?_, ih'⟩
        intro hmem
        obtain ⟨w', hw', hl⟩ := List.mem_map.1 hmem
        obtain ⟨o', ho', hc'⟩ := (mem_members k l w').1 hw'
        obtain ⟨_, _, _, _, _, _, _, _, _, _, e1⟩ := cand_some o k w hc
        obtain ⟨_, _, _, _, _, _, _, _, _, _, e2⟩ := cand_some o' k w' hc'
        have : o' = o := hu o' (hs (List.mem_cons_of_mem _ ho')) o (hs (by simp)) (by
          rw [e1, e2] at hl; exact hl)
        rw [this] at ho'
        exact (List.nodup_cons.1 hn).1 ho'
      · have h0 : members g [o] = [] := by simp [members, hc, hk]
        rw [h0]; exact ih'

theorem bigGroups_packs (U order : List (Oper C)) (hu : UniqueLabels U) (hs : order ⊆ U)
    (hn : order.Nodup) : Packs U (bigGroups order) := by
  constructor
  · intro o ho g hg
    have := lookup_mem _ _ _ hg
    unfold combineToGrandParent at this
    obtain ⟨⟨g', ws⟩, hgm, hw0⟩ := List.mem_flatMap.1 this
    obtain ⟨w, hw, he⟩ := List.mem_map.1 hw0
    simp only [Prod.mk.injEq] at he
    obtain ⟨e1, e2⟩ := he
    subst e2
    have hgm' := (bigGroups_mem order g' ws).1 hgm
    have hw' : w ∈ members g' order := by rw [← hgm'.1]; exact hw
    obtain ⟨o', ho', hc⟩ := (mem_members g' order w).1 hw'
    obtain ⟨_, _, _, _, _, _, _, _, _, _, e3⟩ := cand_some o' g' w hc
    have : o' = o := hu o' (hs ho') o ho (by rw [← e1, e3])
    rw [this] at hc
    exact ⟨w, ws, hc, hw, bigGroups_lookup order g' ws hgm⟩
  · intro g ws h
    have hm := (bigGroups_mem order g ws).1 (lookup_mem _ _ _ h)
    rw [hm.1]
    refine ⟨members_labels U order g hu hs hn, ?_⟩
    intro w hw
    obtain ⟨o, ho, hc⟩ := (mem_members g order w).1 hw
    exact ⟨o, hs ho, hc⟩

theorem phi_keep (U : List (Oper C)) (groups : List (String × List (Wrapper C))) (hp : Packs U groups)
    (d : Def C) (ins : List (Node C)) (i : Nat) (h : (d, ins) ∈ U)
    (hk : ∀ c, d.kind ≠ .accumulate c) :
    phi groups (.mk d ins i) = .mk d (ins.map (phi groups)) i ∧
      (combineToGrandParent groups).lookup d.label = none := by
  have : (combineToGrandParent groups).lookup d.label = none := by
    cases hl : (combineToGrandParent groups).lookup d.label with
    | none => rfl
    | some g =>
      obtain ⟨w, ws, hc, _⟩ := hp.cand (d, ins) h g hl
      obtain ⟨c, _, _, _, _, hck, _⟩ := cand_some _ _ _ hc
      exact absurd hck (hk c)
  refine ⟨?_, this⟩
  unfold phi
  rw [this, phiList_eq]

theorem phi_none (groups : List (String × List (Wrapper C)))
    (d : Def C) (ins : List (Node C)) (i : Nat)
    (hl : (combineToGrandParent groups).lookup d.label = none) :
    phi groups (.mk d ins i) = .mk d (ins.map (phi groups)) i := by
  unfold phi
  rw [hl, phiList_eq]

theorem phi_some (groups : List (String × List (Wrapper C)))
    (d pd : Def C) (ins : List (Node C)) (gp : Node C) (i j : Nat) (g : String)
    (hl : (combineToGrandParent groups).lookup d.label = some g)
    (he : ins.map (phi groups) = [.mk pd [gp] j]) :
    phi groups (.mk d ins i) = extractAccumulator d (packedNode groups g gp) := by
  rw [← phiList_eq] at he
  unfold phi
  rw [hl]
  simp only [he]

/-- What the second traversal makes of an accumulate that is packed. -/
theorem phi_packed (U : List (Oper C)) (hcl : ∀ o ∈ U, ∀ x ∈ o.2, x.opers ⊆ U) (hi : Indexed U)
    (groups : List (String × List (Wrapper C))) (hp : Packs U groups)
    (d : Def C) (ins : List (Node C)) (h : (d, ins) ∈ U) (g : String)
    (hl : (combineToGrandParent groups).lookup d.label = some g) :
    ∃ c keys pd gp j w ws, d.kind = .accumulate c ∧ ins = [.mk pd [gp] j] ∧
      pd.kind = .extractFromDict keys ∧ gp.d.kind = .applySavedModel ∧ g = gp.d.label ∧
      w = ⟨c, keys, d.label⟩ ∧ w ∈ ws ∧ groups.lookup g = some ws ∧ gp.oper ∈ U ∧ gp.opers ⊆ U ∧
      gp.index = 0 ∧ j = 0 ∧
      ins.map (phi groups) = [.mk pd [phi groups gp] j] ∧ (phi groups gp).d = gp.d ∧
      ∀ i, phi groups (.mk d ins i) = extractAccumulator d (packedNode groups g (phi groups gp)) := by
  obtain ⟨w, ws, hc, hw, hgl⟩ := hp.cand (d, ins) h g hl
  obtain ⟨c, keys, pd, gp, j, h1, h2, h3, h4, h5, h6⟩ := cand_some _ _ _ hc
  simp only at h1 h2 h6
  subst h2
  have hx : (Node.mk pd [gp] j).opers ⊆ U := hcl _ h _ (by simp)
  have hxo : (pd, [gp]) ∈ U := hx (oper_mem (.mk pd [gp] j))
  have hgs : gp.opers ⊆ U := hcl _ hxo gp (by simp)
  have hgo : gp.oper ∈ U := hgs (oper_mem gp)
  have hgi : gp.index = 0 := by
    have := hi _ hxo gp (by simp)
    simp only [Def.numOutputs, h4] at this
    omega
  have hji : j = 0 := by
    have := hi _ h (.mk pd [gp] j) (by simp)
    simp only [Node.d_mk, Node.index_mk, Def.numOutputs, h3] at this
    omega
  have e1 : phi groups (.mk pd [gp] j) = .mk pd [phi groups gp] j := by
    have := (phi_keep U groups hp pd [gp] j hxo (by rw [h3]; intro c hc; cases hc)).1
    exact this
  have e2 : (phi groups gp).d = gp.d := by
    cases gp with
    | mk gd gi gj =>
      rw [(phi_keep U groups hp gd gi gj hgo (by
        simp only [Node.d_mk] at h4
        rw [h4]; intro c hc; cases hc)).1]
      rfl
  have e3 : [Node.mk pd [gp] j].map (phi groups) = [.mk pd [phi groups gp] j] := by simp [e1]
  refine ⟨c, keys, pd, gp, j, w, ws, h1, rfl, h3, h4, h5, h6, hw, hgl, hgo, hgs, hgi, hji, e3, e2, ?_⟩
  intro i
  exact phi_some groups d pd _ _ i j g hl e3

/-- The second traversal. -/
theorem packAccumulate_spec (target : Node C) (cache : List (Node C))
    (groups : List (String × List (Wrapper C)))
    (hu : UniqueLabels (opersList (target :: cache))) (hi : Indexed (opersList (target :: cache)))
    (hix : ∀ n ∈ target :: cache, n.index < n.d.numOutputs)
    (hp : Packs (opersList (target :: cache)) groups) :
    ∃ s, traverse (packAccumulate groups) [] target cache =
      .ok (s, phi groups target, cache.map (phi groups)) := by
  have hcl := opersList_closed (target :: cache)
  generalize hU : opersList (target :: cache) = U at *
  obtain ⟨s', h1, _⟩ := traverse_pure (packAccumulate groups) [] (phi groups)
    (fun _ s => ∀ g p, s.lookup g = some p → ∃ gp : Node C, gp.oper ∈ U ∧ gp.index = 0 ∧
      gp.d.label = g ∧ p = packedNode groups g (phi groups gp)) target cache
    (by rw [hU]; exact hu) (by rw [hU]; exact hi) hix (by intro g p h; cases h) (by
      intro order s o ho _ _ hs
      rw [hU] at ho
      obtain ⟨d, ins⟩ := o
      simp only
      cases hl : (combineToGrandParent groups).lookup d.label with
      | none =>
        refine ⟨s, ?_, hs⟩
        unfold packAccumulate
        rw [hl]
        simp only [outputs, outsOf]
        congr 2
        apply List.map_congr_left
        intro i _
        rw [phi_none groups d ins i hl]
      | some g =>
        obtain ⟨c, keys, pd, gp, j, w, ws, h1, h2, h3, h4, h5, h6, h7, h8, h9, h10, h11, h12, h13, h14, h15⟩ :=
          phi_packed U hcl hi groups hp d ins ho g hl
        have hnum : d.numOutputs = 1 := by simp [Def.numOutputs, h1]
        have houts : outsOf (phi groups) (d, ins) =
            [extractAccumulator d (packedNode groups g (phi groups gp))] := by
          unfold outsOf
          simp only [hnum, List.range_one, List.map_cons, List.map_nil, h15]
        unfold packAccumulate
        rw [hl, houts, h13]
        cases hsl : s.lookup g with
        | some p =>
          obtain ⟨gp', q1, q2, q3, q4⟩ := hs g p hsl
          have : gp'.oper = gp.oper := hu _ q1 _ h9 (by
            change gp'.d.label = gp.d.label
            rw [q3, h5])
          have hgg : gp' = gp := by
            cases gp'; cases gp
            simp only [Node.oper_mk, Prod.mk.injEq, Node.index_mk] at this q2 h11
            rw [this.1, this.2, q2, h11]
          refine ⟨s, ?_, hs⟩
          simp only [hsl, q4, hgg]
        | none =>
          refine ⟨(g, packedNode groups g (phi groups gp)) :: s, ?_, ?_⟩
          · simp only [hsl, h3, h14, ← h5, ne_eq, not_true_eq_false, if_false, packedNode]
          · intro g' p' hl'
            rw [List.lookup_cons] at hl'
            by_cases hg : g' = g
            · subst hg
              simp only [BEq.rfl, Option.some.injEq] at hl'
              exact ⟨gp, h9, h11, h5.symm, hl'.symm⟩
            · rw [beq_false_of_ne hg] at hl'
              exact hs g' p' hl')
  exact ⟨s', h1⟩

end

/-! ### Evaluation -/

section
variable {Coll : Type} (m : Meaning C Coll)

theorem eval_mk (d : Def C) (ins : List (Node C)) (i : Nat) :
    (Node.mk d ins i).eval m =
      (evalList m ins >>= fun xs => m.run d xs >>= fun outs => pick outs i) := by
  simp [Node.eval]

theorem evalList_cons (n : Node C) (ns : List (Node C)) :
    evalList m (n :: ns) = (n.eval m >>= fun x => evalList m ns >>= fun xs => .ok (x :: xs)) := by
  simp [evalList]

theorem evalList_one (n : Node C) : evalList m [n] = (n.eval m >>= fun x => .ok [x]) := by
  simp only [evalList_cons, evalList, bind, Except.bind]

theorem ok_bind {α β : Type} (a : α) (f : α → Except Err β) : (Except.ok a >>= f) = f a := rfl

theorem bind_ok {α β : Type} (x : Except Err α) (f : α → Except Err β) (b : β) :
    (x >>= f) = .ok b ↔ ∃ a, x = .ok a ∧ f a = .ok b := by
  cases x with
  | error e => simp [bind, Except.bind]
  | ok a => simp [bind, Except.bind]

theorem evalList_map (f : Node C → Node C) (ns : List (Node C)) (h : ∀ n ∈ ns, (f n).eval m = n.eval m) :
    evalList m (ns.map f) = evalList m ns := by
  induction ns with
  | nil => rfl
  | cons n ns ih =>
    rw [List.map_cons, evalList_cons, evalList_cons, h n (by simp), ih (fun x hx => h x (by simp [hx]))]

theorem evalList_ok (ns : List (Node C)) (xs : List Coll) :
    evalList m ns = .ok xs ↔ List.Forall₂ (fun n x => n.eval m = .ok x) ns xs := by
  induction ns generalizing xs with
  | nil => simp [evalList, eq_comm]
  | cons n ns ih =>
    rw [evalList_cons, bind_ok, List.forall₂_cons_left_iff]
    constructor
    · rintro ⟨x, h1, h2⟩
      obtain ⟨ys, h3, h4⟩ := (bind_ok _ _ _).1 h2
      exact ⟨x, ys, h1, (ih ys).1 h3, (Except.ok.inj h4).symm⟩
    · rintro ⟨x, ys, h1, h2, h3⟩
      exact ⟨x, h1, (bind_ok _ _ _).2 ⟨ys, (ih ys).2 h2, by rw [h3]⟩⟩

/-- An operation runs on the results of its inputs. -/
def Runs (o : Oper C) : Prop := ∃ xs outs, evalList m o.2 = .ok xs ∧ m.run o.1 xs = .ok outs

/-- If a node can be computed, all that it depends on can be. -/
theorem runs_of_eval (n : Node C) : ∀ x, n.eval m = .ok x → ∀ o ∈ n.opers, Runs m o := by
  induction n using Node.induct with
  | h n ih =>
    intro x hx o ho
    cases n with
    | mk d ins i =>
      rw [eval_mk, bind_ok] at hx
      obtain ⟨xs, h1, h2⟩ := hx
      obtain ⟨outs, h3, _⟩ := (bind_ok _ _ _).1 h2
      rw [Node.opers_eq] at ho
      rcases List.mem_cons.1 ho with rfl | ho
      · exact ⟨xs, outs, h1, h3⟩
      · obtain ⟨y, hy, hoy⟩ := (mem_opersList _ _).1 ho
        have := (evalList_ok m _ _).1 h1
        change y ∈ ins at hy
        obtain ⟨i, hi⟩ := List.mem_iff_getElem?.1 hy
        obtain ⟨hlen, hall⟩ := List.forall₂_iff_get.1 this
        have hil := (List.getElem?_eq_some_iff.1 hi).1
        have hyi : ins[i] = y := (List.getElem?_eq_some_iff.1 hi).2
        have := hall i hil (by rw [← hlen]; exact hil)
        simp only [List.get_eq_getElem, hyi] at this
        exact ih y hy _ this o hoy

end

section
variable [DecidableEq C] {Coll : Type} (m : Meaning C Coll)

/-- The second traversal keeps what the nodes compute. -/
theorem eval_phi (hm : m.Lawful) (U : List (Oper C)) (hu : UniqueLabels U)
    (hcl : ∀ o ∈ U, ∀ x ∈ o.2, x.opers ⊆ U) (hi : Indexed U)
    (groups : List (String × List (Wrapper C))) (hp : Packs U groups)
    (hr : ∀ g ws, groups.lookup g = some ws → ∀ w ∈ ws, ∃ o ∈ U, cand o = some (g, w) ∧ Runs m o) :
    ∀ n : Node C, n.opers ⊆ U → n.index < n.d.numOutputs → (phi groups n).eval m = n.eval m
  | .mk d ins i => fun hn hix => by
    have ho : (d, ins) ∈ U := hn (oper_mem (.mk d ins i))
    cases hl : (combineToGrandParent groups).lookup d.label with
    | none =>
      rw [phi_none groups d ins i hl, eval_mk, eval_mk, evalList_map]
      intro x hx
      have : sizeOf x < sizeOf (Node.mk d ins i) := nodeSize_lt d ins i x hx
      exact eval_phi hm U hu hcl hi groups hp hr x (hcl _ ho x hx) (hi _ ho x hx)
    | some g =>
      obtain ⟨c, keys, pd, gp, j, w, ws, h1, h2, h3, h4, h5, h6, h7, h8, h9, h10, h11, h12, h13, h14, h15⟩ :=
        phi_packed U hcl hi groups hp d ins ho g hl
      have hi0 : i = 0 := by
        simp only [Node.index_mk, Node.d_mk, Def.numOutputs, h1] at hix
        omega
      subst hi0
      -- every operation of the group reads the same node
      have hsame : ∀ w' ∈ ws, ∃ X Y, gp.eval m = .ok X ∧ m.alone w' X = .ok Y := by
        intro w' hw'
        obtain ⟨o', ho', hc', xs, outs, hx1, hx2⟩ := hr g ws h8 w' hw'
        obtain ⟨c', keys', pd', gp', j', q1, q2, q3, q4, q5, q6⟩ := cand_some _ _ _ hc'
        have hx' : (Node.mk pd' [gp'] j').opers ⊆ U := hcl _ ho' _ (by rw [q2]; simp)
        have hxo : (pd', [gp']) ∈ U := hx' (oper_mem (.mk pd' [gp'] j'))
        have hgo : gp'.oper ∈ U := hcl _ hxo gp' (by simp) (oper_mem gp')
        have hgi : gp'.index = 0 := by
          have := hi _ hxo gp' (by simp)
          simp only [Def.numOutputs, q4] at this
          omega
        have hji : j' = 0 := by
          have := hi _ ho' (.mk pd' [gp'] j') (by rw [q2]; simp)
          simp only [Node.d_mk, Node.index_mk, Def.numOutputs, q3] at this
          omega
        have hoper : gp'.oper = gp.oper := hu _ hgo _ h9 (by
          change gp'.d.label = gp.d.label
          rw [← q5, h5])
        have hgg : gp' = gp := by
          cases gp'; cases gp
          simp only [Node.oper_mk, Prod.mk.injEq, Node.index_mk] at hoper hgi h11
          rw [hoper.1, hoper.2, hgi, h11]
        subst hji
        rw [q2, hgg, evalList_one, eval_mk, evalList_one] at hx1
        obtain ⟨Z, e1, e2⟩ := (bind_ok _ _ _).1 hx1
        obtain ⟨Xs, e3, e4⟩ := (bind_ok _ _ _).1 e1
        obtain ⟨X, e5, e6⟩ := (bind_ok _ _ _).1 e3
        cases e6
        cases e2
        obtain ⟨Ys, e7, e8⟩ := (bind_ok _ _ _).1 e4
        simp only [Meaning.run, q3, one, ok_bind] at e7
        obtain ⟨Y, e9, e10⟩ := (bind_ok _ _ _).1 e7
        cases e10
        simp only [pick, List.getElem?_cons_zero, Except.ok.injEq] at e8
        subst e8
        simp only [Meaning.run, q1, one, ok_bind] at hx2
        obtain ⟨W, e11, _⟩ := (bind_ok _ _ _).1 hx2
        refine ⟨X, W, e5, ?_⟩
        simp only [Meaning.alone, q6, e9, ok_bind, e11]
      obtain ⟨X, Y, hX, hY⟩ := hsame w h7
      obtain ⟨p, hp1, hp2⟩ := hm.accumulate ws X (List.ne_nil_of_mem h7) (hp.all g ws h8).1 (by
        intro w' hw'
        obtain ⟨X', Y', hX', hY'⟩ := hsame w' hw'
        rw [hX] at hX'
        cases hX'
        exact ⟨Y', hY'⟩)
      have hgp : (phi groups gp).eval m = gp.eval m := by
        have : sizeOf gp < sizeOf (Node.mk d ins 0) := by
          rw [h2]
          have a1 := nodeSize_lt d [Node.mk pd [gp] j] 0 (.mk pd [gp] j) (by simp)
          have a2 := nodeSize_lt pd [gp] j gp (by simp)
          omega
        refine eval_phi hm U hu hcl hi groups hp hr gp h10 ?_
        rw [h11]
        simp [Def.numOutputs, h4]
      have hpn : (packedNode groups g (phi groups gp)).eval m = .ok p := by
        unfold packedNode apply
        rw [eval_mk, evalList_one, hgp, hX]
        simp only [ok_bind, Meaning.run, h8, Option.getD_some, one, hp1, pick, List.getElem?_cons_zero]
      have hY2 := hY
      unfold Meaning.alone at hY2
      obtain ⟨Z, hZ, hZ2⟩ := (bind_ok _ _ _).1 hY2
      rw [h15]
      unfold extractAccumulator apply
      rw [eval_mk, evalList_one, hpn]
      have hw := hp2 w h7
      rw [h6] at hw hZ hZ2 hY
      simp only at hw hZ hZ2
      rw [hY] at hw
      rw [eval_mk, h2, evalList_one, eval_mk, evalList_one, hX, h12]
      simp only [ok_bind, Meaning.run, one, h1, h3, hw, hZ, hZ2, pick, List.getElem?_cons_zero]
termination_by n => sizeOf n

end

end TFT.Graph.Packing
