import Verif.Saved.PretrainedSpec
import Verif.Saved.LoadProps

/-!
# Lemmas for C89
-/

namespace TFT.Pretrained

open TFT.SavedLoad

variable {V : Type}

@[simp] theorem asNode_out (vars : Str → Option V) (n : PNode V) : (asNode vars n).out = n.out := by
  cases n <;> rfl

@[simp] theorem asNode_ins (vars : Str → Option V) (n : PNode V) : (asNode vars n).ins = n.ins := by
  cases n <;> rfl

theorem tensors_map (vars : Str → Option V) (nodes : List (PNode V)) :
    tensors (nodes.map (asNode vars)) = nodes.map PNode.out := by
  simp [tensors, Function.comp_def]

theorem pruneRev_sublist (r : List (PNode V)) (need : List Str) :
    (pruneRev r need).Sublist r.reverse := by
  induction r generalizing need with
  | nil => exact List.Sublist.refl _
  | cons n r ih =>
    unfold pruneRev
    rw [List.reverse_cons]
    split
    · exact (ih _).append (List.Sublist.refl _)
    · exact (ih _).trans (List.sublist_append_left _ _)

theorem mem_pruneRev (r : List (PNode V)) (need : List Str) (t : Str) (ht : t ∈ need)
    (hr : t ∈ r.map PNode.out) : t ∈ (pruneRev r need).map PNode.out := by
  induction r generalizing need with
  | nil => cases hr
  | cons n r ih =>
    unfold pruneRev
    rw [List.map_cons, List.mem_cons] at hr
    split
    · rw [List.map_append, List.mem_append]
      rcases hr with rfl | hr
      · right; simp
      · left
        exact ih _ (List.mem_append_left _ ht) hr
    · rename_i hn
      rcases hr with rfl | hr
      · exact absurd (List.contains_iff_mem.2 ht) hn
      · exact ih _ ht hr

/-- Every node comes after its inputs, for the nodes in reverse order. -/
def RevOrdered : List (PNode V) → Prop
  | [] => True
  | n :: r => n.out ∉ r.map PNode.out ∧ (∀ i ∈ n.ins, i ∈ r.map PNode.out) ∧ RevOrdered r

theorem revOrdered_of (vars : Str → Option V) (r : List (PNode V))
    (h : Ordered (r.reverse.map (asNode vars))) : RevOrdered r := by
  induction r with
  | nil => trivial
  | cons n r ih =>
    rw [List.reverse_cons, List.map_append, List.map_cons, List.map_nil] at h
    obtain ⟨h1, h2⟩ := h
    have ht : tensors (r.reverse.map (asNode vars)) = (r.map PNode.out).reverse := by
      rw [tensors_map, List.map_reverse]
    refine ⟨?_, ?_, ih ⟨?_, ?_⟩⟩
    · intro hm
      rw [tensors, List.map_append, List.map_cons] at h1
      refine (List.nodup_append.1 h1).2.2 n.out ?_ _ List.mem_cons_self (asNode_out _ _).symm
      show n.out ∈ tensors _
      rw [ht]
      simpa using hm
    · intro i hi
      have := h2 _ _ [] rfl i (by simpa using hi)
      rw [ht] at this
      simpa using this
    · rw [tensors, List.map_append] at h1
      exact (List.nodup_append.1 h1).1
    · intro pre m post he i hi
      exact h2 pre m (post ++ [asNode vars n]) (by rw [he]; simp) i hi

theorem ordered_append (g : Graph V) (n : Node V) (hg : Ordered g) (hn : n.out ∉ tensors g)
    (hi : ∀ i ∈ n.ins, i ∈ tensors g) : Ordered (g ++ [n]) := by
  refine ⟨?_, ?_⟩
  · rw [tensors, List.map_append, List.nodup_append]
    refine ⟨hg.1, by simp, ?_⟩
    intro a ha b hb hab
    simp only [List.map_cons, List.map_nil, List.mem_singleton] at hb
    subst hb
    subst hab
    exact hn ha
  · intro pre m post he i him
    rcases List.eq_nil_or_concat post with rfl | ⟨post', x, rfl⟩
    · have := List.append_inj' he (by simp)
      obtain ⟨rfl, h2⟩ := this
      injection h2 with h2
      subst h2
      exact hi i him
    · rw [List.concat_eq_append, ← List.cons_append, ← List.append_assoc] at he
      obtain ⟨h1, -⟩ := List.append_inj' he (by simp)
      exact hg.2 pre m post' h1 i him

theorem pruneRev_ordered (vars : Str → Option V) (r : List (PNode V)) (hr : RevOrdered r)
    (need : List Str) : Ordered ((pruneRev r need).map (asNode vars)) := by
  induction r generalizing need with
  | nil => exact ⟨by simp [pruneRev, tensors], by intro pre n post h; simp [pruneRev] at h⟩
  | cons n r ih =>
    unfold pruneRev
    split
    · rw [List.map_append, List.map_cons, List.map_nil]
      refine ordered_append _ _ (ih hr.2.2 _) ?_ ?_
      · rw [tensors_map, asNode_out]
        intro h
        apply hr.1
        have := ((pruneRev_sublist r (need ++ n.ins)).map PNode.out).subset h
        simpa using this
      · intro i hi
        rw [asNode_ins] at hi
        rw [tensors_map]
        exact mem_pruneRev _ _ _ (List.mem_append_right _ hi) (hr.2.1 i hi)
    · exact ih hr.2.2 _

theorem run_snoc (g : Graph V) (n : Node V) (feeds : Str → Option V) :
    run (g ++ [n]) feeds = Function.update (run g feeds) n.out (nodeValue feeds (run g feeds) n) := by
  rw [run_append]; rfl

theorem nodeValue_congr (feeds env env' : Str → Option V) (n : Node V)
    (h : ∀ i ∈ n.ins, env i = env' i) : nodeValue feeds env n = nodeValue feeds env' n := by
  unfold nodeValue
  cases feeds n.out with
  | some v => rfl
  | none =>
    cases n.op with
    | placeholder => rfl
    | compute f =>
      simp only
      congr 1
      generalize n.ins = is at h
      induction is with
      | nil => rfl
      | cons i is ih =>
        rw [List.mapM_cons, List.mapM_cons, h i List.mem_cons_self,
          ih (fun i hi => h i (List.mem_cons_of_mem _ hi))]

/-- What is needed has the same values without the nodes that are not needed. -/
theorem run_pruneRev (vars : Str → Option V) (feeds : Str → Option V) (r : List (PNode V))
    (need : List Str) (t : Str) (ht : t ∈ need) :
    run ((pruneRev r need).map (asNode vars)) feeds t
      = run (r.reverse.map (asNode vars)) feeds t := by
  induction r generalizing need t with
  | nil => rfl
  | cons n r ih =>
    unfold pruneRev
    rw [List.reverse_cons, List.map_append, List.map_cons, List.map_nil, run_snoc, asNode_out]
    split
    · rw [List.map_append, List.map_cons, List.map_nil, run_snoc, asNode_out]
      by_cases h : t = n.out
      · subst h
        rw [Function.update_self, Function.update_self]
        refine nodeValue_congr _ _ _ _ (fun i hi => ?_)
        rw [asNode_ins] at hi
        exact ih _ _ (List.mem_append_right _ hi)
      · rw [Function.update_of_ne h, Function.update_of_ne h]
        exact ih _ _ (List.mem_append_left _ ht)
    · rename_i hn
      have h : t ≠ n.out := by
        rintro rfl
        exact hn (List.contains_iff_mem.2 ht)
      rw [Function.update_of_ne h]
      exact ih _ _ ht

theorem run_prune (vars : Str → Option V) (feeds : Str → Option V) (nodes : List (PNode V))
    (need : List Str) (t : Str) (ht : t ∈ need) :
    run ((prune nodes need).map (asNode vars)) feeds t = run (nodes.map (asNode vars)) feeds t := by
  unfold prune
  rw [run_pruneRev _ _ _ _ _ ht, List.reverse_reverse]

theorem prune_sublist (nodes : List (PNode V)) (need : List Str) :
    (prune nodes need).Sublist nodes := by
  have := pruneRev_sublist nodes.reverse need
  rwa [List.reverse_reverse] at this

theorem prune_ordered (vars : Str → Option V) (nodes : List (PNode V)) (need : List Str)
    (h : Ordered (nodes.map (asNode vars))) :
    Ordered ((prune nodes need).map (asNode vars)) := by
  refine pruneRev_ordered vars _ (revOrdered_of vars _ ?_) need
  rwa [List.reverse_reverse]

theorem mem_prune (nodes : List (PNode V)) (need : List Str) (t : Str) (ht : t ∈ need)
    (hn : t ∈ nodes.map PNode.out) : t ∈ (prune nodes need).map PNode.out :=
  mem_pruneRev _ _ _ ht (by simpa using hn)

/-- Exactly what is needed is kept. -/
theorem mem_prune_of_needs (vars : Str → Option V) (nodes : List (PNode V)) (need : List Str)
    (h : Ordered (nodes.map (asNode vars))) (t : Str) (ht : Needs nodes need t)
    (hn : t ∈ nodes.map PNode.out) : t ∈ (prune nodes need).map PNode.out := by
  have ho := prune_ordered vars nodes need h
  induction ht with
  | out hm => exact mem_prune _ _ _ hm hn
  | @step n t hnode _ hins ih =>
    have h1 := ih (List.mem_map_of_mem hnode)
    rw [List.mem_map] at h1
    obtain ⟨m, hm, hmo⟩ := h1
    have hnd : (nodes.map PNode.out).Nodup := by
      have := h.1
      rwa [tensors_map] at this
    have hmn : m = n :=
      List.inj_on_of_nodup_map hnd ((prune_sublist nodes need).subset hm) hnode hmo
    subst hmn
    obtain ⟨pre, post, hpp⟩ := List.append_of_mem hm
    have h2 := ho.2 (pre.map (asNode vars)) (asNode vars m) (post.map (asNode vars))
      (by rw [hpp]; simp) t (by simpa using hins)
    rw [tensors_map] at h2
    rw [hpp, List.map_append]
    exact List.mem_append_left _ h2

theorem needs_of_mem_pruneRev (nodes r : List (PNode V)) (need outs : List Str)
    (hr : ∀ n ∈ r, n ∈ nodes) (hneed : ∀ t ∈ need, Needs nodes outs t) :
    ∀ n ∈ pruneRev r need, Needs nodes outs n.out := by
  induction r generalizing need with
  | nil => intro n hn; cases hn
  | cons m r ih =>
    intro n hn
    unfold pruneRev at hn
    have hr' := fun n hn => hr n (List.mem_cons_of_mem _ hn)
    split at hn
    · rename_i hc
      have hm : Needs nodes outs m.out := hneed _ (List.contains_iff_mem.1 hc)
      rw [List.mem_append, List.mem_singleton] at hn
      rcases hn with hn | rfl
      · refine ih _ hr' (fun t ht => ?_) n hn
        rcases List.mem_append.1 ht with ht | ht
        · exact hneed t ht
        · exact .step (hr m List.mem_cons_self) hm ht
      · exact hm
    · exact ih _ hr' hneed n hn

theorem needs_of_mem_prune (nodes : List (PNode V)) (need : List Str) :
    ∀ n ∈ prune nodes need, Needs nodes need n.out :=
  needs_of_mem_pruneRev nodes _ need need (by simp) (fun _ h => .out h)

/-- The variables that are needed have values. -/
theorem toConstants_ok (vars session : Str → Option V) (nodes : List (PNode V)) (need : List Str)
    (h : ∀ o x, PNode.readVar o x ∈ nodes → Needs nodes need o →
      session x = vars x ∧ (vars x).isSome) :
    toConstants session nodes need = .ok ((prune nodes need).map (asNode vars)) := by
  unfold toConstants
  apply mapM_ok_of
  intro n hn
  cases n with
  | placeholder o => rfl
  | compute o f is => rfl
  | readVar o x =>
    obtain ⟨h1, h2⟩ := h o x ((prune_sublist _ _).subset hn) (needs_of_mem_prune _ _ _ hn)
    obtain ⟨v, hv⟩ := Option.isSome_iff_exists.1 h2
    simp only [freezeNode, asNode, h1, hv]

/-- What is imported computes what it computed in the graph it comes from. -/
theorem import_ok (vars : Str → Option V) (host : Graph V) (nodes : List (PNode V))
    (need : List Str) (scope : Str) (inputMap : List (Str × Str))
    (ho : Ordered (nodes.map (asNode vars)))
    (hneed : ∀ t ∈ need, t ∈ nodes.map PNode.out)
    (hkeys : ∀ e ∈ inputMap, e.1 ∈ nodes.map PNode.out ∧ Needs nodes need e.1 ∧ e.2 ∈ tensors host)
    (hfresh : ∀ n ∈ tensors host, ¬ (scope ++ "/".toList) <+: n) :
    ∃ graph, importElements host scope inputMap ((prune nodes need).map (asNode vars)) need
        = .ok (graph, need.map (remap scope inputMap)) ∧
      (∀ feeds, ∀ t ∈ tensors host, run graph feeds t = run host feeds t) ∧
      ∀ feeds, (∀ e ∈ inputMap, (run host feeds e.2).isSome) → ∀ t ∈ need,
        run graph feeds (remap scope inputMap t)
          = run (nodes.map (asNode vars)) (fun n =>
              match find inputMap n with
              | some s => run host feeds s
              | none => feeds (scope ++ "/".toList ++ n)) t := by
  set kept := (prune nodes need).map (asNode vars) with hkept
  have hko : Ordered kept := prune_ordered vars nodes need ho
  set copies := kept.map (fun n => Node.mk (scopedName scope n.out) n.op
    (n.ins.map (remap scope inputMap))) with hcopies
  have htk : tensors kept = (prune nodes need).map PNode.out := tensors_map vars _
  have himport : importGraph host scope inputMap kept = .ok (host ++ copies) := by
    unfold importGraph
    rw [if_pos]
    rw [List.all_eq_true]
    intro e he
    rw [List.contains_iff_mem]
    obtain ⟨h1, h2, -⟩ := hkeys e he
    show e.1 ∈ tensors kept
    rw [htk]
    exact mem_prune_of_needs vars nodes need ho _ h2 h1
  have hmem : ∀ t ∈ need, t ∈ tensors kept := by
    intro t ht
    rw [htk]
    exact mem_prune _ _ _ ht (hneed t ht)
  have hslash : scopedName scope [] = scope ++ "/".toList := rfl
  refine ⟨host ++ copies, ?_, ?_, ?_⟩
  · unfold importElements
    rw [himport]
    simp only [bind, Except.bind]
    rw [mapM_ok_of _ (remap scope inputMap) need]
    intro t ht
    unfold lookupRemapped remap
    cases h : find inputMap t with
    | some s => rfl
    | none =>
      simp only [Option.getD_none]
      rw [if_pos]
      rw [List.contains_iff_mem, List.map_append, List.mem_append]
      right
      obtain ⟨x, hx, rfl⟩ := List.mem_map.1 (hmem t ht)
      rw [hcopies, List.map_map]
      exact List.mem_map.2 ⟨x, hx, rfl⟩
  · intro feeds t ht
    rw [run_append]
    apply runFrom_other
    intro h
    simp only [tensors, hcopies, List.map_map, List.mem_map, Function.comp] at h
    obtain ⟨x, -, rfl⟩ := h
    exact hfresh _ ht ⟨x.out, by simp [scopedName]⟩
  · intro feeds hsome t ht
    rw [run_append, ← run_prune vars _ nodes need t ht]
    refine run_import feeds _ (run host feeds) scope inputMap ?_ ?_ ?_ kept hko kept [] (by simp) t
      (hmem t ht)
    · intro n s h
      rw [hslash]
      exact hfresh s (hkeys _ (find_mem h)).2.2
    · intro n s h
      refine ⟨by simp only [h], ?_⟩
      simp only [h]
      exact hsome _ (find_mem h)
    · intro n h
      simp only [h]
      congr 1
      simp [scopedName]

end TFT.Pretrained
