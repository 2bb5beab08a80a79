import Verif.Graph.PackingEnd

/-!
# Combiner packing: what the packed merges compute
-/

namespace TFT.Graph.Packing

variable {C : Type}

set_option linter.unusedSectionVars false

section
variable [DecidableEq C] {Coll : Type}

variable {target : Node C} {cache : List (Node C)}

/-- A merge `o` with the value `x` of its input. -/
def MergeOf (m : Meaning C Coll) (o : Oper C) (x : Coll) : Prop :=
  ∃ n c pd y, o.1.kind = .extractOutputs n ∧ o.2 = [.mk pd [y] 0] ∧ pd.kind = .merge c ∧
    mcand o = some ⟨c, .tuple [pd.label], pd.label⟩ ∧ y.eval m = .ok x ∧ ∃ z, m.merge c x = .ok z

theorem one_ok {α : Type} (xs : List α) (x : α) (h : one xs = .ok x) : xs = [x] := by
  unfold one at h
  split at h
  · cases h; rfl
  · cases h

theorem pick_one {α : Type} (x : α) : pick [x] 0 = .ok x := rfl

theorem eval_one (m : Meaning C Coll) (d : Def C) (y : Node C) (i : Nat) :
    (Node.mk d [y] i).eval m = (y.eval m >>= fun x => m.run d [x] >>= fun outs => pick outs i) := by
  rw [eval_mk, evalList_one]
  cases y.eval m <;> rfl

theorem run_dict (m : Meaning C Coll) (pd : Def C) (x : Coll) :
    m.run (dictDef pd) [x] = (m.extract (.single pd.label) x >>= fun y => .ok [y]) := rfl

theorem run_outs (m : Meaning C Coll) (pd : Def C) (n : Nat) (x : Coll) :
    m.run (outsDef pd n) [x] = m.outputs n x := rfl

theorem run_merge (m : Meaning C Coll) (d : Def C) (c : C) (hd : d.kind = .merge c) (x : Coll) :
    m.run d [x] = (m.merge c x >>= fun y => .ok [y]) := by
  simp [Meaning.run, hd, one, ok_bind]

theorem run_outputs (m : Meaning C Coll) (d : Def C) (n : Nat) (hd : d.kind = .extractOutputs n) (x : Coll) :
    m.run d [x] = m.outputs n x := by
  simp [Meaning.run, hd, one, ok_bind]

theorem mergeOf_exists (m : Meaning C Coll) (h : Setting target cache) (o : Oper C)
    (ho : o ∈ opersList (target :: cache)) (w : Wrapper C) (hw : mcand o = some w) (hr : Runs m o) :
    ∃ x, MergeOf m o x := by
  obtain ⟨n, c, pd, y, j, q1, q2, q3, q4, q5⟩ := h.shape o ho w hw
  obtain ⟨xs, outs, r1, r2⟩ := hr
  have hj : j = 0 := by
    have := h.ready.indices o ho (.mk pd [y] j) (by rw [q2]; simp)
    simp only [Node.index_mk, Node.d_mk, Def.numOutputs, q3] at this
    omega
  subst hj
  rw [q2, evalList_one, bind_ok] at r1
  obtain ⟨v, hv, _⟩ := r1
  rw [eval_one, bind_ok] at hv
  obtain ⟨x, hx, hv⟩ := hv
  rw [bind_ok] at hv
  obtain ⟨outs', hv, _⟩ := hv
  simp only [Meaning.run, q3, one, ok_bind] at hv
  rw [bind_ok] at hv
  obtain ⟨z, hz, _⟩ := hv
  exact ⟨x, n, c, pd, y, q1, q2, q3, by rw [hw, q4], hx, z, hz⟩

theorem merges_exist (m : Meaning C Coll) (h : Setting target cache) (P : List (Oper C))
    (hP : ∀ o ∈ P, o ∈ opersList (target :: cache) ∧ (mcand o).isSome = true ∧ Runs m o) :
    ∃ xs, List.Forall₂ (MergeOf m) P xs := by
  induction P with
  | nil => exact ⟨[], .nil⟩
  | cons o P ih =>
    obtain ⟨xs, hxs⟩ := ih (fun p hp => hP p (by simp [hp]))
    obtain ⟨h1, h2, h3⟩ := hP o (by simp)
    obtain ⟨w, hw⟩ := Option.isSome_iff_exists.1 h2
    obtain ⟨x, hx⟩ := mergeOf_exists m h o h1 w hw h3
    exact ⟨x :: xs, .cons hx hxs⟩

theorem wrappers_length (m : Meaning C Coll) (P : List (Oper C)) (xs : List Coll)
    (h : List.Forall₂ (MergeOf m) P xs) : (P.filterMap mcand).length = xs.length := by
  induction h with
  | nil => rfl
  | cons h1 _ ih =>
    obtain ⟨n, c, pd, y, q1, q2, q3, q4, q5, q6⟩ := h1
    simp [List.filterMap_cons, q4, ih]

theorem wrappers_keys (P : List (Oper C)) : ∀ w ∈ P.filterMap mcand, w.keys = .tuple [w.label] := by
  intro w hw
  obtain ⟨o, _, ho⟩ := List.mem_filterMap.1 hw
  obtain ⟨n, c, pd, g, j, rest, _, _, _, h4⟩ := mcand_some o w ho
  rw [h4]

theorem wrappers_nodup (h : Setting target cache) (P : List (Oper C)) (hs : P ⊆ opersList (target :: cache))
    (hn : P.Nodup) : ((P.filterMap mcand).map Wrapper.label).Nodup := by
  induction P with
  | nil => simp
  | cons o P ih =>
    have ih' := ih (fun x hx => hs (List.mem_cons_of_mem _ hx)) (List.nodup_cons.1 hn).2
    cases hc : mcand o with
    | none => simpa [List.filterMap_cons, hc] using ih'
    | some w =>
      rw [List.filterMap_cons, hc]
      simp only [List.map_cons, List.nodup_cons]
      refine ⟨?_, ih'⟩
      intro hm
      obtain ⟨w', hw', hl⟩ := List.mem_map.1 hm
      obtain ⟨o', ho', hc'⟩ := List.mem_filterMap.1 hw'
      obtain ⟨n, c, pd, g, j, rest, _, a2, _, a4⟩ := mcand_some o w hc
      obtain ⟨n', c', pd', g', j', rest', _, b2, _, b4⟩ := mcand_some o' w' hc'
      have : o = o' := packed_unique h o o' (hs (by simp)) (hs (by simp [ho'])) w w' hc hc'
        (.mk pd [g] j) (.mk pd' [g'] j') (by rw [a2]; simp) (by rw [b2]; simp) (by
          rw [a4, b4] at hl
          exact hl.symm)
      subst this
      exact (List.nodup_cons.1 hn).1 ho'

theorem keyed_eval (m : Meaning C Coll) (P : List (Oper C)) (xs ks : List Coll)
    (h : List.Forall₂ (MergeOf m) P xs)
    (hk : List.Forall₂ (fun (e : Wrapper C × Coll) k => m.addKey e.1.label e.2 = .ok k)
      ((P.filterMap mcand).zip xs) ks) : evalList m (P.flatMap keyedOf) = .ok ks := by
  induction h generalizing ks with
  | nil =>
    simp only [List.filterMap_nil, List.zip_nil_left] at hk
    cases hk
    rfl
  | @cons o x P xs h1 hr ih =>
    obtain ⟨n, c, pd, y, q1, q2, q3, q4, q5, q6⟩ := h1
    rw [List.filterMap_cons, q4] at hk
    simp only [List.zip_cons_cons] at hk
    cases hk with
    | @cons _ k _ ks' a b =>
      have e : keyedOf o = [keyed pd y] := by unfold keyedOf; rw [q2]; rfl
      rw [List.flatMap_cons, e, List.singleton_append, evalList_cons]
      have : (keyed pd y).eval m = .ok k := by
        unfold keyed apply
        rw [eval_one, q5, ok_bind]
        simp only [Meaning.run, one, ok_bind]
        simp only at a
        rw [a]
        rfl
      rw [this, ok_bind, ih _ b]
      rfl

theorem mem_zip_of (m : Meaning C Coll) (P : List (Oper C)) (xs : List Coll)
    (h : List.Forall₂ (MergeOf m) P xs) :
    (∀ e ∈ (P.filterMap mcand).zip xs, ∃ z, m.merge e.1.combiner e.2 = .ok z) ∧
    ∀ o ∈ P, ∃ x, MergeOf m o x ∧ ∀ w, mcand o = some w → (w, x) ∈ (P.filterMap mcand).zip xs := by
  induction h with
  | nil => exact ⟨by simp, by simp⟩
  | @cons o x P xs h1 hr ih =>
    have h1' := h1
    obtain ⟨n, c, pd, y, q1, q2, q3, q4, q5, z, hz⟩ := h1
    rw [List.filterMap_cons, q4]
    simp only [List.zip_cons_cons]
    constructor
    · intro e he
      rcases List.mem_cons.1 he with rfl | he
      · exact ⟨z, hz⟩
      · exact ih.1 e he
    · intro p hp
      rcases List.mem_cons.1 hp with rfl | hp
      · refine ⟨x, h1', ?_⟩
        intro w hw
        rw [q4] at hw
        cases hw
        simp
      · obtain ⟨x', a, b⟩ := ih.2 p hp
        exact ⟨x', a, fun w hw => List.mem_cons_of_mem _ (b w hw)⟩

/-- With one packed merge every node computes what it did. -/
theorem eval_psi (m : Meaning C Coll) (hm : m.Lawful) (h : Setting target cache)
    (hr : ∀ o ∈ opersList (target :: cache), (mcand o).isSome = true → Runs m o) (n : Node C) :
    n.opers ⊆ opersList (target :: cache) →
    (psi (fun _ => packedMergeOf ((entries (post target [])).map Prod.snd)
      (keyedAll (postList (target :: cache) []))) n).eval m = n.eval m := by
  have hcl := opersList_closed (target :: cache)
  have hpU : ∀ o ∈ post target [], o ∈ opersList (target :: cache) := by
    intro o ho
    rw [(mem_post target [] closed_nil).1] at ho
    rcases ho with ho | ho
    · cases ho
    · exact (mem_opersList _ _).2 ⟨target, by simp, ho⟩
  set P := (post target []).filter (fun o => (mcand o).isSome) with hPdef
  have hws : (entries (post target [])).map Prod.snd = P.filterMap mcand := by
    rw [hPdef]
    generalize post target [] = l
    induction l with
    | nil => rfl
    | cons o l ih =>
      cases hc : mcand o with
      | none => simpa [entries, List.filterMap_cons, List.filter_cons, hc] using ih
      | some w => simpa [entries, List.filterMap_cons, List.filter_cons, hc] using ih
  have hK : keyedAll (postList (target :: cache) []) = P.flatMap keyedOf := by
    obtain ⟨rest, e1, e2⟩ := total_eq h
    rw [e1, keyedAll_append, keyedAll_none rest e2, List.append_nil]
    rfl
  have hPm : ∀ o ∈ P, o ∈ opersList (target :: cache) ∧ (mcand o).isSome = true := by
    intro o ho
    obtain ⟨a, b⟩ := List.mem_filter.1 ho
    exact ⟨hpU o a, b⟩
  have hPn : P.Nodup := by
    have := nodup_post target [] closed_nil List.nodup_nil
    exact this.filter _
  obtain ⟨xs, hxs⟩ := merges_exist m h P (fun o ho => ⟨(hPm o ho).1, (hPm o ho).2, hr o (hPm o ho).1 (hPm o ho).2⟩)
  obtain ⟨z1, z2⟩ := mem_zip_of m P xs hxs
  obtain ⟨ks, p, k1, k2, k3⟩ := hm.merge (P.filterMap mcand) xs (wrappers_length m P xs hxs)
    (wrappers_nodup h P (fun o ho => (hPm o ho).1) hPn) (wrappers_keys P) z1
  have hQ : (packedMergeOf (P.filterMap mcand) (P.flatMap keyedOf)).eval m = .ok p := by
    unfold packedMergeOf apply
    rw [eval_one, eval_mk, keyed_eval m P xs ks hxs k1]
    simp only [ok_bind, Meaning.run, pick_one, one, k2]
  rw [hws, hK]
  induction n using Node.induct with
  | h n ih =>
    intro hn
    cases n with
    | mk d ins i =>
      have hd : (d, ins) ∈ opersList (target :: cache) := hn (oper_mem (.mk d ins i))
      cases hc : mcand (d, ins) with
      | none =>
        rw [psi_keep _ d ins i hc, eval_mk, eval_mk, evalList_map]
        intro x hx
        exact ih x hx (hcl _ hd x hx)
      | some w =>
        have hdP : (d, ins) ∈ P := by
          rw [hPdef, List.mem_filter, (mem_post target [] closed_nil).1]
          exact ⟨Or.inr (mcand_in_target target cache h.phase _ hd w hc), by rw [hc]; rfl⟩
        obtain ⟨x, hx, hxz⟩ := z2 (d, ins) hdP
        have hz := k3 _ (hxz w hc)
        obtain ⟨n, c, pd, y, q1, q2, q3, q4, q5, z, hmz⟩ := hx
        rw [q4] at hc
        simp only [Option.some.injEq] at hc
        simp only at q1 q2
        rw [psi_packed _ d ins i w (by rw [q4, hc]), extracted_eq (d, ins) pd [y] [] 0 q2, eval_one, eval_one,
          hQ, ok_bind, q2, eval_one, eval_one, q5, ok_bind]
        rw [← hc] at hz
        simp only at hz
        have hn2 : d.numOutputs = n := by simp [Def.numOutputs, q1]
        rw [run_dict, hz, hmz, ok_bind, ok_bind, pick_one, ok_bind, run_outs, hn2, run_merge m pd c q3, hmz,
          ok_bind, ok_bind, pick_one, ok_bind, run_outputs m d n q1]

end

end TFT.Graph.Packing
