import Verif.Graph.PackingShape

/-!
# Combiner packing: merges
-/

namespace TFT.Graph.Packing

variable {C : Type}

/-- The merge that an operation is for packing, if it is one that extracts the outputs of a merge. -/
def mcand (o : Oper C) : Option (Wrapper C) :=
  match o.1.kind with
  | .extractOutputs _ =>
    match o.2 with
    | [] => none
    | .mk pd pins _ :: _ =>
      match pd.kind with
      | .merge c =>
        match pins with
        | [g] => if g.d.kind.isCombineParent then some ⟨c, .tuple [pd.label], pd.label⟩ else none
        | _ => none
      | _ => none
  | _ => none

/-- The requirement on the outputs of merges. -/
def OutShape (U : List (Oper C)) : Prop :=
  ∀ o ∈ U, ∀ n, o.1.kind = .extractOutputs n → ∃ x, o.2 = [x] ∧ NoOutputs x ∧
    ∀ c, x.d.kind = .merge c → ∃ y, x.ins = [y]

theorem mcand_some (o : Oper C) (w : Wrapper C) (h : mcand o = some w) :
    ∃ n c pd g j rest, o.1.kind = .extractOutputs n ∧ o.2 = .mk pd [g] j :: rest ∧ pd.kind = .merge c ∧
      w = ⟨c, .tuple [pd.label], pd.label⟩ := by
  unfold mcand at h
  split at h
  · rename_i n hn
    split at h
    · cases h
    · rename_i pd pins j rest ho
      split at h
      · rename_i c hc
        split at h
        · rename_i g
          by_cases hg : g.d.kind.isCombineParent = true
          · rw [if_pos hg] at h
            exact ⟨n, c, pd, g, j, rest, hn, ho, hc, (Option.some.inj h).symm⟩
          · rw [if_neg hg] at h; cases h
        · cases h
      · cases h
  · cases h

/-- A merge that is packed. -/
theorem mcand_shape (U : List (Oper C)) (hs : OutShape U) (o : Oper C) (ho : o ∈ U) (w : Wrapper C)
    (h : mcand o = some w) :
    ∃ n c pd y j, o.1.kind = .extractOutputs n ∧ o.2 = [.mk pd [y] j] ∧ pd.kind = .merge c ∧
      w = ⟨c, .tuple [pd.label], pd.label⟩ ∧ NoOutputs (.mk pd [y] j) := by
  obtain ⟨n, c, pd, g, j, rest, h1, h2, h3, h4⟩ := mcand_some o w h
  obtain ⟨x, hx, hx2, _⟩ := hs o ho n h1
  rw [h2] at hx
  simp only [List.cons.injEq] at hx
  obtain ⟨e1, e2⟩ := hx
  subst e2
  exact ⟨n, c, pd, g, j, h1, h2, h3, h4, by rw [e1]; exact hx2⟩

/-- The entries of `packable_combine_extract_outputs`. -/
def entries (order : List (Oper C)) : List (String × Wrapper C) :=
  order.filterMap (fun o => (mcand o).map (fun w => (o.1.label, w)))

theorem entries_append (a b : List (Oper C)) : entries (a ++ b) = entries a ++ entries b := by
  simp [entries]

set_option linter.unusedSectionVars false

section
variable [DecidableEq C]

/-- The third traversal changes nothing and finds the merges. -/
theorem inspectMerge_spec (target : Node C) (hu : UniqueLabels target.opers)
    (hi : Indexed target.opers) (hix : target.index < target.d.numOutputs) (ha : OutShape target.opers) :
    traverse inspectMerge [] target [] = .ok (entries (post target []), target, []) := by
  have e : opersList [target] = target.opers := by simp [opersList]
  obtain ⟨s', h1, h2⟩ := traverse_pure inspectMerge [] (fun n : Node C => n)
    (fun order s => s = entries order) target []
    (by rw [e]; exact hu) (by rw [e]; exact hi) (by simpa using hix) rfl (by
      intro order s o ho _ _ hs
      rw [e] at ho
      subst hs
      refine ⟨_, ?_, rfl⟩
      rw [outsOf_id, entries_append]
      obtain ⟨d, ins⟩ := o
      simp only [List.map_id', entries, List.filterMap_cons, List.filterMap_nil]
      unfold inspectMerge mcand
      cases hk : d.kind with
      | extractOutputs n =>
        obtain ⟨x, hx, _, hx2⟩ := ha _ ho n hk
        simp only at hx
        subst hx
        cases x with
        | mk pd pins j =>
          simp only
          cases hpk : pd.kind with
          | merge c =>
            obtain ⟨g, hg⟩ := hx2 c hpk
            simp only [Node.ins_mk] at hg
            subst hg
            simp only
            by_cases hg : g.d.kind.isCombineParent = true
            · simp [hg]
            · simp [hg]
          | _ => simp
      | _ => simp)
  rw [h1, h2]
  simp [postList]

/-! ### The rewriting of merges -/

/-- The keyed input of a merge. -/
def keyedOf (o : Oper C) : List (Node C) :=
  match o.2 with
  | .mk pd pins _ :: _ => pins.map (keyed pd)
  | [] => []

/-- The keyed inputs of the packed merges among some operations. -/
def keyedAll (order : List (Oper C)) : List (Node C) :=
  (order.filter (fun o => (mcand o).isSome)).flatMap keyedOf

theorem keyedAll_append (a b : List (Oper C)) : keyedAll (a ++ b) = keyedAll a ++ keyedAll b := by
  simp [keyedAll, List.filter_append, List.flatMap_append]

/-- The outputs of a merge taken from a packed merge. -/
def extracted (o : Oper C) (packed : Node C) (i : Nat) : Node C :=
  match o.2 with
  | .mk pd _ _ :: _ =>
    .mk ⟨"ExtractPackedCombineMergeOutputs[" ++ pd.label ++ "]", .extractPackedOutputs o.1.numOutputs⟩
      [apply ⟨"ExtractFromDict[" ++ pd.label ++ "]", .extractFromDict (.single pd.label)⟩ [packed]] i
  | [] => packed

mutual
/-- The outputs of each packed merge `o` are taken from the packed merge `q o`. -/
def psi (q : Oper C → Node C) : Node C → Node C
  | .mk d ins i =>
    if (mcand (d, ins)).isSome then extracted (d, ins) (q (d, ins)) i else .mk d (psiList q ins) i

@[inherit_doc psi]
def psiList (q : Oper C → Node C) : List (Node C) → List (Node C)
  | [] => []
  | n :: ns => psi q n :: psiList q ns
end

theorem psiList_eq (q : Oper C → Node C) (ns : List (Node C)) : psiList q ns = ns.map (psi q) := by
  induction ns with
  | nil => rfl
  | cons n ns ih => simp [psiList, ih]

theorem psi_keep (q : Oper C → Node C) (d : Def C) (ins : List (Node C)) (i : Nat)
    (h : mcand (d, ins) = none) : psi q (.mk d ins i) = .mk d (ins.map (psi q)) i := by
  unfold psi
  rw [h, psiList_eq]; rfl

theorem psi_packed (q : Oper C → Node C) (d : Def C) (ins : List (Node C)) (i : Nat) (w : Wrapper C)
    (h : mcand (d, ins) = some w) : psi q (.mk d ins i) = extracted (d, ins) (q (d, ins)) i := by
  unfold psi
  rw [h]; rfl

theorem mcand_none_of (o : Oper C) (h : ∀ k, o.1.kind ≠ .extractOutputs k) : mcand o = none := by
  cases hc : mcand o with
  | none => rfl
  | some w =>
    obtain ⟨n, _, _, _, _, _, h1, _⟩ := mcand_some o w hc
    exact absurd h1 (h n)

theorem psi_noOutputs (q : Oper C → Node C) (n : Node C) (h : NoOutputs n) : psi q n = n := by
  induction n using Node.induct with
  | h n ih =>
    cases n with
    | mk d ins i =>
      rw [psi_keep q d ins i (mcand_none_of _ (h (d, ins) (oper_mem (.mk d ins i))))]
      congr 1
      conv_rhs => rw [← List.map_id ins]
      apply List.map_congr_left
      intro x hx
      exact ih x hx (fun o ho => h o (opers_closed (.mk d ins i) (d, ins) (oper_mem _) x hx ho))

/-- The packed merge of the merges seen up to `o`. -/
def upTo (ws : List (Wrapper C)) (total : List (Oper C)) (o : Oper C) : Node C :=
  packedMergeOf ws (keyedAll (total.takeWhile (· ≠ o) ++ [o]))

theorem takeWhile_prefix (order total : List (Oper C)) (o : Oper C) (h : o ∉ order)
    (hp : order ++ [o] <+: total) : total.takeWhile (· ≠ o) = order := by
  obtain ⟨r, rfl⟩ := hp
  rw [List.append_assoc, List.takeWhile_append_of_pos (by
    intro a ha
    simp only [ne_eq, decide_not, Bool.not_eq_eq_eq_not, Bool.not_true, decide_eq_false_iff_not]
    rintro rfl
    exact h ha)]
  simp

theorem lookup_isSome {α : Type} (l : List (String × α)) (k : String) :
    (l.lookup k).isSome = true ↔ ∃ x, (k, x) ∈ l := by
  constructor
  · intro h
    obtain ⟨x, hx⟩ := Option.isSome_iff_exists.1 h
    exact ⟨x, lookup_mem l k x hx⟩
  · rintro ⟨x, hx⟩
    cases h : l.lookup k with
    | some y => rfl
    | none => exact absurd hx (lookup_none_of l k h x)

theorem mem_entries (order : List (Oper C)) (l : String) (w : Wrapper C) :
    (l, w) ∈ entries order ↔ ∃ o ∈ order, o.1.label = l ∧ mcand o = some w := by
  unfold entries
  rw [List.mem_filterMap]
  constructor
  · rintro ⟨o, ho, h⟩
    cases hc : mcand o with
    | none => rw [hc] at h; cases h
    | some w' =>
      rw [hc] at h
      simp only [Option.map_some, Option.some.injEq, Prod.mk.injEq] at h
      exact ⟨o, ho, h.1, by rw [← h.2]; exact hc⟩
  · rintro ⟨o, ho, h1, h2⟩
    exact ⟨o, ho, by simp [h1, h2]⟩

/-- In this graph the outputs of merges come last. -/
theorem outShape_of (target : Node C) (cache : List (Node C)) (h1 : OnePhase target cache) :
    OutShape (opersList (target :: cache)) := by
  intro o ho n hk
  obtain ⟨x, hx, hx2⟩ := h1.merges o ho n hk
  refine ⟨x, hx, ?_, hx2⟩
  obtain ⟨r, hr, hor⟩ := (mem_opersList _ _).1 ho
  rcases List.mem_cons.1 hr with rfl | hr
  · rw [Node.opers_eq] at hor
    rcases List.mem_cons.1 hor with rfl | hor
    · have := h1.savedModel
      change r.d.kind = _ at hk
      rw [this] at hk; cases hk
    · obtain ⟨b, hb, hob⟩ := (mem_opersList _ _).1 hor
      rcases (h1.bindings b hb).2 with h | ⟨k, hk3, h⟩
      · exact absurd hk (h o hob n)
      · clear hk3 hb hor hr ho
        induction h with
        | outputs d y i n' hd hy =>
          rw [Node.opers_eq] at hob
          rcases List.mem_cons.1 hob with rfl | hob
          · simp only [Node.oper_mk, List.cons.injEq, and_true] at hx
            rw [← hx]; exact hy
          · simp only [Node.ins_mk, opersList, List.append_nil] at hob
            exact absurd hk (hy o hob n)
        | step k d y hd hy ih =>
          rw [Node.opers_eq] at hob
          rcases List.mem_cons.1 hob with rfl | hob
          · simp only [Node.oper_mk] at hk
            rcases hd with h | h <;> rw [h] at hk <;> cases hk
          · simp only [Node.ins_mk, opersList, List.append_nil] at hob
            exact ih hob
  · exact absurd hk (h1.cached r hr o hor n)

theorem mcand_in_target (target : Node C) (cache : List (Node C)) (h1 : OnePhase target cache)
    (o : Oper C) (ho : o ∈ opersList (target :: cache)) (w : Wrapper C) (h : mcand o = some w) :
    o ∈ target.opers := by
  obtain ⟨n, _, _, _, _, _, hk, _⟩ := mcand_some o w h
  obtain ⟨r, hr, hor⟩ := (mem_opersList _ _).1 ho
  rcases List.mem_cons.1 hr with rfl | hr
  · exact hor
  · exact absurd hk (h1.cached r hr o hor n)

/-- The fourth traversal. -/
theorem packMerge_spec (target : Node C) (cache : List (Node C)) (hr : Ready target cache)
    (h1 : OnePhase target cache) :
    ∃ s, traverse (packMerge (entries (post target []))) ⟨[], none⟩ target cache =
      .ok (s, psi (upTo ((entries (post target [])).map Prod.snd) (postList (target :: cache) [])) target,
        cache) ∧
      s.finalLabel = (if keyedAll (postList (target :: cache) []) = [] then none
        else some (packedMergeLabel (keyedAll (postList (target :: cache) [])).length)) := by
  have hcl := opersList_closed (target :: cache)
  have hs := outShape_of target cache h1
  have htp : ∀ o, o ∈ post target [] ↔ o ∈ target.opers := by
    intro o; rw [(mem_post target [] closed_nil).1]; simp
  set ws := (entries (post target [])).map Prod.snd with hws
  set total := postList (target :: cache) [] with htotal
  obtain ⟨s', e1, e2⟩ := traverse_pure (packMerge (entries (post target []))) ⟨[], none⟩
    (psi (upTo ws total))
    (fun order s => s.flattenInputs = keyedAll order ∧ s.finalLabel =
      (if keyedAll order = [] then none else some (packedMergeLabel (keyedAll order).length)))
    target cache hr.labels hr.indices hr.indexed (by simp [keyedAll]) (by
      intro order s o ho hno hpre hst
      obtain ⟨d, ins⟩ := o
      cases hc : mcand (d, ins) with
      | none =>
        have hl : ¬ (((entries (post target [])).lookup d.label).isSome = true) := by
          intro h
          obtain ⟨w, hw⟩ := (lookup_isSome _ _).1 h
          obtain ⟨o', ho', hl', hc'⟩ := (mem_entries _ _ _).1 hw
          have := hr.labels o' ((mem_opersList _ _).2 ⟨target, by simp, (htp o').1 ho'⟩) _ ho hl'
          rw [this, hc] at hc'
          cases hc'
        refine ⟨s, ?_, ?_⟩
        · unfold packMerge
          rw [if_neg hl]
          simp only [outputs, outsOf]
          congr 2
          apply List.map_congr_left
          intro i _
          rw [psi_keep _ d ins i hc]
        · have : keyedAll (order ++ [(d, ins)]) = keyedAll order := by
            rw [keyedAll_append]
            simp [keyedAll, hc]
          rw [this]
          exact hst
      | some w =>
        obtain ⟨n, c, pd, y, j, q1, q2, q3, q4, q5⟩ := mcand_shape _ hs _ ho w hc
        simp only at q1 q2
        subst q2
        have hl : ((entries (post target [])).lookup d.label).isSome = true := by
          rw [lookup_isSome]
          exact ⟨w, (mem_entries _ _ _).2 ⟨_, (htp _).2 (mcand_in_target target cache h1 _ ho w hc), rfl, hc⟩⟩
        have hk : keyedAll (order ++ [(d, [.mk pd [y] j])]) = keyedAll order ++ [keyed pd y] := by
          rw [keyedAll_append]
          simp [keyedAll, hc, keyedOf]
        refine ⟨⟨keyedAll order ++ [keyed pd y],
          some (packedMergeLabel (keyedAll order ++ [keyed pd y]).length)⟩, ?_, ?_⟩
        · have hv : [Node.mk pd [y] j].map (psi (upTo ws total)) = [.mk pd [y] j] := by
            simp only [List.map_cons, List.map_nil, psi_noOutputs _ _ q5]
          simp only [hv]
          unfold packMerge
          rw [if_pos hl]
          simp only [q1, q3, hst.1, List.map_cons, List.map_nil]
          have hn : d.numOutputs = n := by simp [Def.numOutputs, q1]
          have hup : upTo ws total (d, [.mk pd [y] j]) = packedMergeOf ws (keyedAll order ++ [keyed pd y]) := by
            unfold upTo
            rw [takeWhile_prefix order total _ hno hpre, hk]
          congr 2
          have hn2 : Def.numOutputs (⟨"ExtractPackedCombineMergeOutputs[" ++ pd.label ++ "]",
              .extractPackedOutputs n⟩ : Def C) = n := rfl
          simp only [outsOf, hn, extractMerged, outputs, hn2]
          apply List.map_congr_left
          intro i _
          rw [psi_packed _ _ _ _ w hc, hup]
          simp only [extracted, hn]
          rfl
        · rw [hk]
          simp)
  refine ⟨s', ?_, e2.2⟩
  rw [e1]
  congr 3
  conv_rhs => rw [← List.map_id cache]
  apply List.map_congr_left
  intro n hn
  exact psi_noOutputs _ n (h1.cached n hn)

end

end TFT.Graph.Packing
