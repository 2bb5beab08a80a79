import Verif.Graph.PackingItems

/-!
# Combiner packing: the last traversal
-/

namespace TFT.Graph.Packing

variable {C : Type}

set_option linter.unusedSectionVars false

section
variable [DecidableEq C]

variable {target : Node C} {cache : List (Node C)}

/-- The packed merges that `q` gives are packed merges of the first few of the inputs `K`. -/
def QOk (target : Node C) (cache : List (Node C)) (ws : List (Wrapper C)) (K : List (Node C))
    (q : Oper C → Node C) : Prop :=
  ∀ o ∈ opersList (target :: cache), (mcand o).isSome = true → ∃ ks, ks <+: K ∧ q o = packedMergeOf ws ks

theorem qOk_const (ws : List (Wrapper C)) (K : List (Node C)) :
    QOk target cache ws K (fun _ => packedMergeOf ws K) :=
  fun _ _ _ => ⟨K, List.prefix_rfl, rfl⟩

theorem keyedOk_prefix {K ks : List (Node C)} (hK : KeyedOk target cache K) (h : ks <+: K) :
    KeyedOk target cache ks := fun k hk => hK k (h.subset hk)

theorem Red.Good.merge {r : Red C} (h : Setting target cache) (hg : r.Good target cache)
    (ws : List (Wrapper C)) (K : List (Node C)) (hK : KeyedOk target cache K) (q : Oper C → Node C)
    (hq : QOk target cache ws K q) :
    (q r.o).isPackedMerge = true ∧ (q r.o).isPostProcessing = false ∧
      ((q r.o).d.label = packedMergeLabel K.length → q r.o = packedMergeOf ws K) := by
  obtain ⟨w, hw⟩ := hg.packed
  obtain ⟨ks, h1, h2⟩ := hq r.o hg.mem (by rw [hw]; rfl)
  rw [h2]
  refine ⟨rfl, packed_notPost h.ready.fresh ws ks (keyedOk_prefix hK h1), ?_⟩
  intro hl
  rw [prefix_eq_of_length h1 List.prefix_rfl (number_inj "PackedCombineMerge[" _ _ hl)]

/-- Whether a binding is taken from the final packed merge already. -/
def Red.fin (K : List (Node C)) (q : Oper C → Node C) (r : Red C) : Bool :=
  decide ((q r.o).d.label = packedMergeLabel K.length)

theorem finalBindings_eq (h : Setting target cache) (ws : List (Wrapper C)) (K : List (Node C))
    (hK : KeyedOk target cache K) (q : Oper C → Node C) (hq : QOk target cache ws K q)
    (rs : List (Red C)) (hg : ∀ r ∈ rs, r.Good target cache) (acc : Option (Node C) × List (Node C)) :
    finalBindings (some (packedMergeLabel K.length)) (rs.map (Red.under q)) acc =
      .ok (if rs.any (Red.fin K q) then some (packedMergeOf ws K) else acc.1,
        acc.2 ++ (rs.filter (Red.fin K q)).map (Red.under q)) := by
  induction rs generalizing acc with
  | nil => simp [finalBindings]
  | cons r rs ih =>
    have hr := hg r (by simp)
    obtain ⟨m1, m2, m3⟩ := hr.merge h ws K hK q hq
    have ih' := fun acc => ih (fun x hx => hg x (by simp [hx])) acc
    rw [List.map_cons, finalBindings, (Red.end_eq h hr q m1 m2).2]
    simp only [m1, true_and, Option.some.injEq]
    by_cases hl : (q r.o).d.label = packedMergeLabel K.length
    · have hf : Red.fin K q r = true := by simp [Red.fin, hl]
      rw [if_pos hl, ih', List.any_cons, hf, List.filter_cons, if_pos hf, m3 hl]
      simp
    · have hf : Red.fin K q r = false := by simp [Red.fin, hl]
      rw [if_neg hl, ih']
      simp [hf]

theorem toBeCreated_eq (h : Setting target cache) (ws : List (Wrapper C)) (K : List (Node C))
    (hK : KeyedOk target cache K) (q : Oper C → Node C) (hq : QOk target cache ws K q)
    (rs : List (Red C)) (hg : ∀ r ∈ rs, r.Good target cache) :
    toBeCreated (some (packedMergeLabel K.length)) (rs.map (Red.under q)) =
      .ok ((rs.filter (fun r => !Red.fin K q r)).map Red.info) := by
  induction rs with
  | nil => simp [toBeCreated]
  | cons r rs ih =>
    have hr := hg r (by simp)
    obtain ⟨m1, m2, m3⟩ := hr.merge h ws K hK q hq
    rw [List.map_cons, toBeCreated, Red.infoOf_eq h hr q m1 m2, ok_bind, (Red.end_eq h hr q m1 m2).1,
      ih (fun x hx => hg x (by simp [hx]))]
    simp only [ok_bind, Option.some.injEq, ne_eq]
    by_cases hl : (q r.o).d.label = packedMergeLabel K.length
    · have hf : Red.fin K q r = true := by simp [Red.fin, hl]
      simp [hl, hf]
    · have hf : Red.fin K q r = false := by simp [Red.fin, hl]
      simp [hl, hf]

/-! ### Bindings that are created again -/

/-- What `labels_to_new_nodes` holds. -/
def MadeOk (target : Node C) (cache : List (Node C)) (ws : List (Wrapper C)) (K : List (Node C))
    (made : List (String × List (Node C))) : Prop :=
  ∀ l outs, made.lookup l = some outs → ∃ o, Img target cache ws K (fun _ => packedMergeOf ws K) o ∧
    o.1.label = l ∧ outs = outputs o.1 o.2

theorem maybeCreate_eq (h : Setting target cache) (ws : List (Wrapper C)) (K : List (Node C))
    (d : Def C) (ins : List (Node C)) (made : List (String × List (Node C)))
    (hmd : MadeOk target cache ws K made)
    (hi : Img target cache ws K (fun _ => packedMergeOf ws K) (d, ins)) :
    (maybeCreate d ins made).2 = outputs d ins ∧ MadeOk target cache ws K (maybeCreate d ins made).1 := by
  unfold maybeCreate
  cases hl : made.lookup d.label with
  | some outs =>
    obtain ⟨o, h1, h2, h3⟩ := hmd _ _ hl
    have := img_labels h ws K _ o (d, ins) h1 hi h2
    subst this
    exact ⟨h3, hmd⟩
  | none =>
    refine ⟨rfl, ?_⟩
    intro l outs ho
    rw [List.lookup_cons] at ho
    by_cases hk : l = d.label
    · subst hk
      simp only [beq_self_eq_true, Option.some.injEq] at ho
      exact ⟨(d, ins), hi, rfl, ho.symm⟩
    · have : (l == d.label) = false := by simp [hk]
      rw [this] at ho
      exact hmd l outs ho

theorem simple_outputs {d : Def C} (hd : Simple d) (ins : List (Node C)) : outputs d ins = [.mk d ins 0] := by
  have : d.numOutputs = 1 := by
    rcases hd with h | h <;> simp [Def.numOutputs, h]
  simp [outputs, this, List.range_succ]

theorem rebuild_simple (idx : Option Nat) {d : Def C} (hd : Simple d) (ds : List (Def C))
    (ns : List (Node C)) (made : List (String × List (Node C))) :
    rebuild idx (d :: ds) ns made = rebuild idx ds (maybeCreate d ns made).2 (maybeCreate d ns made).1 := by
  rw [rebuild.eq_def]
  simp only
  rcases hd with h | h <;> simp only [h]

theorem rebuild_dict (idx : Option Nat) {d : Def C} (k : Keys) (hd : d.kind = .extractFromDict k)
    (ds : List (Def C)) (ns : List (Node C)) (made : List (String × List (Node C))) :
    rebuild idx (d :: ds) ns made = rebuild idx ds (maybeCreate d ns made).2 (maybeCreate d ns made).1 := by
  rw [rebuild.eq_def]
  simp only [hd]

theorem rebuild_outs (i : Nat) {d : Def C} (n : Nat) (hd : d.kind = .extractPackedOutputs n)
    (ds : List (Def C)) (ns : List (Node C)) (made : List (String × List (Node C))) :
    rebuild (some i) (d :: ds) ns made = (pick (maybeCreate d ns made).2 i >>= fun x =>
      rebuild (some i) ds [x] (maybeCreate d ns made).1) := by
  rw [rebuild.eq_def]
  simp only [hd]

theorem rebuild_wrap (h : Setting target cache) (ws : List (Wrapper C)) (K : List (Node C))
    (idx : Option Nat) (o : Oper C) (i : Nat) (w : Wrapper C) (hw : mcand o = some w)
    (ds : List (Def C)) (hds : ∀ e ∈ ds, Simple e) :
    ∀ rest made, MadeOk target cache ws K made →
      (wrap ds (.mk o.1 o.2 i)).opers ⊆ opersList (target :: cache) →
      ∃ made', MadeOk target cache ws K made' ∧
        rebuild idx (ds.reverse ++ rest) [extracted o (packedMergeOf ws K) i] made =
          rebuild idx rest [wrap ds (extracted o (packedMergeOf ws K) i)] made' := by
  induction ds with
  | nil => intro rest made hmd _; exact ⟨made, hmd, rfl⟩
  | cons d ds ih =>
    intro rest made hmd hin
    have hin2 : (wrap ds (.mk o.1 o.2 i)).opers ⊆ opersList (target :: cache) := by
      intro a ha
      apply hin
      simp only [wrap]
      rw [Node.opers_eq]
      apply List.mem_cons_of_mem
      simpa only [Node.ins_mk, opersList, List.append_nil] using ha
    obtain ⟨made', hmd', e⟩ := ih (fun x hx => hds x (by simp [hx])) (d :: rest) made hmd hin2
    have hd := hds d (by simp)
    have hi : Img target cache ws K (fun _ => packedMergeOf ws K)
        (d, [wrap ds (extracted o (packedMergeOf ws K) i)]) := by
      have := Img.keep (ws := ws) (K := K) (q := fun _ => packedMergeOf ws K)
        (d, [wrap ds (.mk o.1 o.2 i)]) (hin (oper_mem (wrap (d :: ds) (.mk o.1 o.2 i))))
        (simple_mcand d hd _)
      simp only [List.map_cons, List.map_nil] at this
      rw [psi_wrap _ ds (fun x hx => hds x (by simp [hx])), psi_packed _ _ _ _ w hw] at this
      exact this
    obtain ⟨e2, e3⟩ := maybeCreate_eq h ws K d _ made' hmd' hi
    refine ⟨_, e3, ?_⟩
    rw [List.reverse_cons, List.append_assoc, List.singleton_append, e, rebuild_simple idx hd, e2,
      simple_outputs hd]
    rfl

theorem rebuild_red (h : Setting target cache) (ws : List (Wrapper C)) (K : List (Node C))
    (r : Red C) (hg : r.Good target cache) (made : List (String × List (Node C)))
    (hmd : MadeOk target cache ws K made) :
    ∃ made', MadeOk target cache ws K made' ∧
      rebuild r.info.outputIndex r.info.defs.reverse [packedMergeOf ws K] made =
        .ok (made', [r.under (fun _ => packedMergeOf ws K)]) := by
  obtain ⟨w, hw⟩ := hg.packed
  obtain ⟨n, c, pd, y, j, q1, q2, q3, q4, q5⟩ := h.shape r.o hg.mem w hw
  have epd : pdOf r.o = pd := by unfold pdOf; rw [q2]; rfl
  simp only [Red.info, List.reverse_append, List.reverse_cons, List.reverse_nil, List.nil_append,
    List.cons_append, epd]
  obtain ⟨a1, a2⟩ := maybeCreate_eq h ws K (dictDef pd) [packedMergeOf ws K] made hmd
    (.dict r.o w pd y j hg.mem hw q2)
  rw [rebuild_dict _ (.single pd.label) rfl, a1]
  have e1 : outputs (dictDef pd) [packedMergeOf ws K] = [.mk (dictDef pd) [packedMergeOf ws K] 0] := rfl
  rw [e1]
  generalize (maybeCreate (dictDef pd) [packedMergeOf ws K] made).1 = made1 at a2
  obtain ⟨b1, b2⟩ := maybeCreate_eq h ws K (outsDef pd r.o.1.numOutputs)
    [.mk (dictDef pd) [packedMergeOf ws K] 0] made1 a2 (.outs r.o w pd y j hg.mem hw q2)
  rw [rebuild_outs _ r.o.1.numOutputs rfl, b1]
  have e2 : pick (outputs (outsDef pd r.o.1.numOutputs) [.mk (dictDef pd) [packedMergeOf ws K] 0]) r.i =
      .ok (extracted r.o (packedMergeOf ws K) r.i) := by
    have hlt : r.i < (outsDef pd r.o.1.numOutputs).numOutputs := hg.index
    rw [extracted_eq r.o pd [y] [] j q2]
    simp [pick, outputs, hlt]
  rw [e2, ok_bind]
  generalize (maybeCreate (outsDef pd r.o.1.numOutputs) [.mk (dictDef pd) [packedMergeOf ws K] 0]
    made1).1 = made2 at b2
  obtain ⟨made', c1, c2⟩ := rebuild_wrap h ws K (some r.i) r.o r.i w hw r.ds hg.simple [] made2 b2 hg.inside
  rw [List.append_nil] at c2
  exact ⟨made', c1, by rw [c2]; rfl⟩

theorem red_isBinding {r : Red C} (hg : r.Good target cache) (q : Oper C → Node C) :
    (r.under q).isBinding = true := by
  obtain ⟨d, ds, h1, h2⟩ := hg.top
  rw [isBinding_iff]
  unfold Red.under
  rw [h1]
  exact h2

theorem createLoop_eq (h : Setting target cache) (ws : List (Wrapper C)) (K : List (Node C))
    (rs : List (Red C)) (hg : ∀ r ∈ rs, r.Good target cache) :
    ∀ made, MadeOk target cache ws K made →
      createLoop (packedMergeOf ws K) (rs.map Red.info) made =
        .ok (rs.map (Red.under (fun _ => packedMergeOf ws K))) := by
  induction rs with
  | nil => intro made _; rfl
  | cons r rs ih =>
    intro made hmd
    have hr := hg r (by simp)
    obtain ⟨made', h1, h2⟩ := rebuild_red h ws K r hr made hmd
    rw [List.map_cons, createLoop, h2, ok_bind]
    simp only [red_isBinding hr, if_true]
    rw [ih (fun x hx => hg x (by simp [hx])) made' h1]
    rfl

/-! ### The new inputs of the saved model -/

/-- The bindings of packed merges. -/
def redsOf : List (Item C) → List (Red C)
  | [] => []
  | .non _ :: its => redsOf its
  | .red r :: its => r :: redsOf its

/-- The other bindings. -/
def nonsOf : List (Item C) → List (Node C)
  | [] => []
  | .non b :: its => b :: nonsOf its
  | .red _ :: its => nonsOf its

theorem redsOf_good (items : List (Item C)) (hg : ∀ it ∈ items, it.Good target cache) :
    ∀ r ∈ redsOf items, r.Good target cache := by
  induction items with
  | nil => intro r hr; cases hr
  | cons it its ih =>
    intro r hr
    have ih' := ih (fun x hx => hg x (by simp [hx]))
    cases it with
    | non b => exact ih' r hr
    | red r' =>
      rcases List.mem_cons.1 hr with rfl | hr
      · exact hg (.red r) (by simp)
      · exact ih' r hr

theorem mem_redsOf (items : List (Item C)) (r : Red C) (h : Item.red r ∈ items) : r ∈ redsOf items := by
  induction items with
  | nil => cases h
  | cons it its ih =>
    rcases List.mem_cons.1 h with rfl | h'
    · simp [redsOf]
    · cases it with
      | non b => exact ih h'
      | red r' => exact List.mem_cons_of_mem _ (ih h')

theorem items_filter (h : Setting target cache) (ws : List (Wrapper C)) (K : List (Node C))
    (hK : KeyedOk target cache K) (q : Oper C → Node C) (hq : QOk target cache ws K q)
    (items : List (Item C)) (hg : ∀ it ∈ items, it.Good target cache) :
    (items.map (Item.under q)).filter Node.isPostProcessing = (redsOf items).map (Red.under q) ∧
    (items.map (Item.under q)).filter (fun v => !v.isPostProcessing) = nonsOf items ∧
    (items.map (Item.under q)).any (fun v => !v.isBinding) = false := by
  induction items with
  | nil => exact ⟨rfl, rfl, rfl⟩
  | cons it its ih =>
    obtain ⟨i1, i2, i3⟩ := ih (fun x hx => hg x (by simp [hx]))
    have hit := hg it (by simp)
    cases it with
    | non b =>
      have hp := non_notPost h.ready.fresh b hit.2.1
      simp only [List.map_cons, Item.under, redsOf, nonsOf]
      refine ⟨?_, ?_, ?_⟩
      · rw [List.filter_cons, if_neg (by simp [hp]), i1]
      · rw [List.filter_cons, if_pos (by simp [hp]), i2]
      · rw [List.any_cons, i3, hit.1]; rfl
    | red r =>
      have hr : r.Good target cache := hit
      obtain ⟨m1, m2, m3⟩ := hr.merge h ws K hK q hq
      have hp := Red.under_post h hr q m1
      simp only [List.map_cons, Item.under, redsOf, nonsOf]
      refine ⟨?_, ?_, ?_⟩
      · rw [List.filter_cons, if_pos hp, i1]
      · rw [List.filter_cons, if_neg (by simp [hp]), i2]
      · rw [List.any_cons, i3, red_isBinding hr]; rfl

theorem items_perm (q : Oper C → Node C) (items : List (Item C)) :
    List.Perm (items.map (Item.under q)) ((redsOf items).map (Red.under q) ++ nonsOf items) := by
  induction items with
  | nil => exact .refl _
  | cons it its ih =>
    cases it with
    | non b =>
      simp only [List.map_cons, Item.under, redsOf, nonsOf]
      exact (List.Perm.cons b ih).trans List.perm_middle.symm
    | red r =>
      simp only [List.map_cons, Item.under, redsOf, nonsOf]
      exact List.Perm.cons _ ih

/-- The saved model gets its inputs from one packed merge. -/
theorem removeFrom_eq (h : Setting target cache) (ws : List (Wrapper C)) (K : List (Node C))
    (hK : KeyedOk target cache K) (q : Oper C → Node C) (hq : QOk target cache ws K q)
    (items : List (Item C)) (hg : ∀ it ∈ items, it.Good target cache)
    (hfin : ∃ r ∈ redsOf items, Red.fin K q r = true) (d : Def C) :
    ∃ new, removeFrom (some (packedMergeLabel K.length)) d (items.map (Item.under q)) = .ok (outputs d new) ∧
      List.Perm (items.map (Item.under (fun _ => packedMergeOf ws K))) new := by
  obtain ⟨f1, f2, f3⟩ := items_filter h ws K hK q hq items hg
  have hgr := redsOf_good items hg
  have hany : (redsOf items).any (Red.fin K q) = true := by rw [List.any_eq_true]; exact hfin
  have hcb : createBindings (some (packedMergeOf ws K))
      (((redsOf items).filter (fun r => !Red.fin K q r)).map Red.info) =
      .ok (((redsOf items).filter (fun r => !Red.fin K q r)).map (Red.under (fun _ => packedMergeOf ws K))) := by
    have hl := createLoop_eq h ws K ((redsOf items).filter (fun r => !Red.fin K q r))
      (fun r hr => hgr r (List.mem_filter.1 hr).1) [] (by intro l outs ho; cases ho)
    cases hc : (redsOf items).filter (fun r => !Red.fin K q r) with
    | nil => rfl
    | cons r rs =>
      rw [hc] at hl
      rw [List.map_cons] at hl ⊢
      exact hl
  have hfb : ((redsOf items).filter (Red.fin K q)).map (Red.under q) =
      ((redsOf items).filter (Red.fin K q)).map (Red.under (fun _ => packedMergeOf ws K)) := by
    apply List.map_congr_left
    intro r hr
    obtain ⟨hr1, hr2⟩ := List.mem_filter.1 hr
    obtain ⟨m1, m2, m3⟩ := (hgr r hr1).merge h ws K hK q hq
    unfold Red.under
    rw [m3 (of_decide_eq_true hr2)]
  have hperm : List.Perm (items.map (Item.under (fun _ => packedMergeOf ws K)))
      (((redsOf items).filter (Red.fin K q)).map (Red.under (fun _ => packedMergeOf ws K)) ++ nonsOf items ++
        ((redsOf items).filter (fun r => !Red.fin K q r)).map (Red.under (fun _ => packedMergeOf ws K))) := by
    refine (items_perm _ items).trans ?_
    have h1 : List.Perm ((redsOf items).map (Red.under (fun _ => packedMergeOf ws K)))
        (((redsOf items).filter (Red.fin K q)).map (Red.under (fun _ => packedMergeOf ws K)) ++
          ((redsOf items).filter (fun r => !Red.fin K q r)).map (Red.under (fun _ => packedMergeOf ws K))) := by
      rw [← List.map_append]
      exact (List.filter_append_perm (Red.fin K q) (redsOf items)).symm.map _
    refine (h1.append_right _).trans ?_
    rw [List.append_assoc, List.append_assoc]
    exact List.Perm.append_left _ List.perm_append_comm
  refine ⟨_, ?_, hperm⟩
  unfold removeFrom
  rw [f3, f1, f2]
  simp only [Bool.false_eq_true, if_false]
  rw [finalBindings_eq h ws K hK q hq _ hgr, ok_bind, toBeCreated_eq h ws K hK q hq _ hgr, ok_bind]
  simp only [hany, if_true, List.nil_append]
  rw [hcb, ok_bind, hfb, if_neg]
  rw [not_not]
  have hlen := hperm.length_eq
  simp only [List.length_map] at hlen ⊢
  exact hlen

end

end TFT.Graph.Packing
