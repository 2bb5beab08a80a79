import Verif.Graph.PackingRemove

/-!
# Combiner packing: the inputs of the saved model
-/

namespace TFT.Graph.Packing

variable {C : Type}

set_option linter.unusedSectionVars false

section
variable [DecidableEq C]

variable {target : Node C} {cache : List (Node C)}

/-- A binding of the outputs of a packed merge: the operations behind them, the operation that
extracts them, and which output it is. -/
structure Red (C : Type) where
  ds : List (Def C)
  o : Oper C
  i : Nat

/-- An input of the saved model. -/
inductive Item (C : Type)
  | non (b : Node C)
  | red (r : Red C)

/-- The binding if the outputs are taken from `q o`. -/
def Red.under (q : Oper C → Node C) (r : Red C) : Node C := wrap r.ds (extracted r.o (q r.o) r.i)

/-- The binding in the graph before packing. -/
def Red.before (r : Red C) : Node C := wrap r.ds (.mk r.o.1 r.o.2 r.i)

@[inherit_doc Red.under]
def Item.under (q : Oper C → Node C) : Item C → Node C
  | .non b => b
  | .red r => r.under q

@[inherit_doc Red.before]
def Item.before : Item C → Node C
  | .non b => b
  | .red r => r.before

/-- What is known of such a binding. -/
structure Red.Good (target : Node C) (cache : List (Node C)) (r : Red C) : Prop where
  top : ∃ d ds, r.ds = d :: ds ∧ d.kind = .createTensorBinding
  short : r.ds.length ≤ 3
  simple : ∀ e ∈ r.ds, Simple e
  mem : r.o ∈ opersList (target :: cache)
  packed : ∃ w, mcand r.o = some w
  index : r.i < r.o.1.numOutputs
  inside : r.before.opers ⊆ opersList (target :: cache)

/-- What is known of an input of the saved model. -/
def Item.Good (target : Node C) (cache : List (Node C)) : Item C → Prop
  | .non b => b.isBinding = true ∧ b.opers ⊆ opersList (target :: cache) ∧ ∀ o ∈ b.opers, mcand o = none
  | .red r => r.Good target cache

theorem psi_id (q : Oper C → Node C) (n : Node C) (h : ∀ o ∈ n.opers, mcand o = none) : psi q n = n := by
  induction n using Node.induct with
  | h n ih =>
    cases n with
    | mk d ins i =>
      rw [psi_keep q d ins i (h (d, ins) (oper_mem (.mk d ins i)))]
      congr 1
      conv_rhs => rw [← List.map_id ins]
      apply List.map_congr_left
      intro x hx
      exact ih x hx (fun o ho => h o (opers_closed (.mk d ins i) (d, ins) (oper_mem _) x hx ho))

theorem isBinding_iff (n : Node C) : n.isBinding = true ↔ n.d.kind = .createTensorBinding := by
  unfold Node.isBinding
  constructor
  · intro h
    split at h
    · assumption
    · cases h
  · intro h
    rw [h]

theorem opers_wrap (ds : List (Def C)) (hds : ∀ e ∈ ds, Simple e) (n : Node C) (o : Oper C)
    (ho : o ∈ (wrap ds n).opers) : mcand o = none ∨ o ∈ n.opers := by
  induction ds with
  | nil => exact Or.inr ho
  | cons d ds ih =>
    simp only [wrap] at ho
    rw [Node.opers_eq] at ho
    rcases List.mem_cons.1 ho with rfl | ho
    · exact Or.inl (simple_mcand d (hds d (by simp)) _)
    · simp only [Node.ins_mk, opersList, List.append_nil] at ho
      exact ih (fun e he => hds e (by simp [he])) ho

theorem wrap_inside (ds : List (Def C)) (n : Node C) : n.opers ⊆ (wrap ds n).opers := by
  induction ds with
  | nil => exact fun a ha => ha
  | cons d ds ih =>
    intro a ha
    simp only [wrap]
    rw [Node.opers_eq]
    apply List.mem_cons_of_mem
    simp only [Node.ins_mk, opersList, List.append_nil]
    exact ih ha

theorem items_exist (h : Setting target cache) :
    ∃ items : List (Item C), target.ins = items.map Item.before ∧
      ∀ it ∈ items, it.Good target cache := by
  have hcl := opersList_closed (target :: cache)
  have htU : target.oper ∈ opersList (target :: cache) :=
    (mem_opersList _ _).2 ⟨target, by simp, oper_mem target⟩
  have key : ∀ b ∈ target.ins, ∃ it : Item C, b = it.before ∧ it.Good target cache := by
    intro b hb
    have hbU : b.opers ⊆ opersList (target :: cache) := hcl _ htU b hb
    obtain ⟨hk, hp⟩ := h.phase.bindings b hb
    rcases hp with hp | ⟨k, hk3, hp⟩
    · exact ⟨.non b, rfl, (isBinding_iff b).2 hk, hbU, fun o ho => mcand_none_of o (hp o ho)⟩
    · obtain ⟨ds, d, x, i, n, h1, h2, h3, h4, h5⟩ := post_wrap k b hp
      have hdU : (d, [x]) ∈ opersList (target :: cache) := by
        apply hbU
        rw [h3]
        exact wrap_inside ds _ (oper_mem (.mk d [x] i))
      cases hc : mcand (d, [x]) with
      | none =>
        refine ⟨.non b, rfl, (isBinding_iff b).2 hk, hbU, ?_⟩
        intro o ho
        rw [h3] at ho
        rcases opers_wrap ds h2 _ o ho with ho | ho
        · exact ho
        · rw [Node.opers_eq] at ho
          rcases List.mem_cons.1 ho with rfl | ho
          · exact hc
          · simp only [Node.ins_mk, opersList, List.append_nil] at ho
            exact mcand_none_of o (h5 o ho)
      | some w =>
        refine ⟨.red ⟨ds, (d, [x]), i⟩, h3, ?_⟩
        refine ⟨?_, by simp only; omega, h2, hdU, ⟨w, hc⟩, ?_, by rw [Red.before]; rw [← h3]; exact hbU⟩
        · cases ds with
          | nil =>
            rw [h3] at hk
            simp only [wrap, Node.d_mk] at hk
            rw [h4] at hk
            cases hk
          | cons e es =>
            refine ⟨e, es, rfl, ?_⟩
            rw [h3] at hk
            exact hk
        · simp only
          have hlast : ∀ (ds : List (Def C)) (a : Node C), a.index < a.d.numOutputs ∨ True → True := fun _ _ _ => trivial
          cases ds with
          | nil =>
            have := h.ready.indices _ htU b hb
            rw [h3] at this
            exact this
          | cons e es =>
            have hin : ∀ (e : Def C) (es : List (Def C)),
                (wrap (e :: es) (.mk d [x] i)).opers ⊆ opersList (target :: cache) → i < d.numOutputs := by
              intro e es
              induction es generalizing e with
              | nil =>
                intro hs
                exact h.ready.indices (e, [.mk d [x] i]) (hs (oper_mem (.mk e [.mk d [x] i] 0)))
                  (.mk d [x] i) (by simp)
              | cons e' es ih =>
                intro hs
                apply ih e'
                intro a ha
                apply hs
                simp only [wrap] at ha ⊢
                rw [Node.opers_eq]
                apply List.mem_cons_of_mem
                simp only [Node.ins_mk, opersList, List.append_nil]
                exact ha
            apply hin e es
            rw [← h3]
            exact hbU
  have hall : ∀ bs : List (Node C), (∀ b ∈ bs, b ∈ target.ins) →
      ∃ items : List (Item C), bs = items.map Item.before ∧ ∀ it ∈ items, it.Good target cache := by
    intro bs
    induction bs with
    | nil => intro _; exact ⟨[], rfl, by simp⟩
    | cons b bs ih =>
      intro hm
      obtain ⟨items, e1, e2⟩ := ih (fun x hx => hm x (by simp [hx]))
      obtain ⟨it, e3, e4⟩ := key b (hm b (by simp))
      refine ⟨it :: items, by simp [← e1, ← e3], ?_⟩
      intro y hy
      rcases List.mem_cons.1 hy with rfl | hy
      · exact e4
      · exact e2 y hy
  exact hall target.ins (fun b hb => hb)

theorem psi_item (q : Oper C → Node C) (it : Item C) (hg : it.Good target cache) :
    psi q it.before = it.under q := by
  cases it with
  | non b => exact psi_id q b hg.2.2
  | red r =>
    obtain ⟨w, hw⟩ := hg.packed
    simp only [Item.before, Red.before, Item.under, Red.under]
    rw [psi_wrap q r.ds hg.simple, psi_packed q r.o.1 r.o.2 r.i w hw]

/-! ### Chains of packed bindings -/

theorem chain_notMerge (hf : FreshMerges (opersList (target :: cache))) (n : Node C)
    (hn : n.opers ⊆ opersList (target :: cache)) : ∀ x ∈ n.chain, x.isPackedMerge = false := by
  intro x hx
  have := hf.packedMerge x.oper (hn (chain_opers n x hx (oper_mem x)))
  unfold Node.isPackedMerge
  split
  · rename_i ws hws
    exact absurd hws (this ws)
  · rfl

theorem non_notPost (hf : FreshMerges (opersList (target :: cache))) (n : Node C)
    (hn : n.opers ⊆ opersList (target :: cache)) : n.isPostProcessing = false := by
  unfold Node.isPostProcessing
  rw [List.any_eq_false]
  intro x hx
  have : x ∈ n.chain := by
    rw [chain_cons]
    exact List.mem_cons_of_mem _ (List.mem_of_mem_take hx)
  simp [chain_notMerge hf n hn x this]

theorem packed_notPost (hf : FreshMerges (opersList (target :: cache))) (ws : List (Wrapper C))
    (ks : List (Node C)) (hk : KeyedOk target cache ks) :
    (packedMergeOf ws ks).isPostProcessing = false := by
  have hcl := opersList_closed (target :: cache)
  unfold Node.isPostProcessing
  rw [List.any_eq_false]
  intro x hx
  have hx := List.mem_of_mem_take hx
  simp only [packedMergeOf, apply, Node.ins_mk, chainList] at hx
  rw [chain_cons] at hx
  rcases List.mem_cons.1 hx with rfl | hx
  · simp [Node.isPackedMerge]
  · simp only [Node.ins_mk] at hx
    cases ks with
    | nil => simp [chainList] at hx
    | cons k ks =>
      simp only [chainList] at hx
      obtain ⟨o, w, pd, y, j, ho, hc, h2, rfl⟩ := hk k (by simp)
      rw [chain_cons] at hx
      rcases List.mem_cons.1 hx with rfl | hx
      · simp [Node.isPackedMerge, keyed, apply]
      · simp only [keyed, apply, Node.ins_mk, chainList] at hx
        have hp : (Node.mk pd [y] j).opers ⊆ opersList (target :: cache) := hcl o ho _ (by rw [h2]; simp)
        have hy : y.opers ⊆ opersList (target :: cache) :=
          fun a ha => hp (opers_closed (.mk pd [y] j) (pd, [y]) (oper_mem _) y (by simp) ha)
        simp [chain_notMerge hf y hy x hx]

/-- The merge whose outputs are extracted. -/
def pdOf (o : Oper C) : Def C :=
  match o.2 with
  | x :: _ => x.d
  | [] => o.1

theorem Red.Good.eq {r : Red C} (h : Setting target cache) (hg : r.Good target cache) (p : Node C) :
    extracted r.o p r.i = .mk (outsDef (pdOf r.o) r.o.1.numOutputs) [.mk (dictDef (pdOf r.o)) [p] 0] r.i := by
  obtain ⟨w, hw⟩ := hg.packed
  obtain ⟨n, c, pd, y, j, q1, q2, q3, q4, q5⟩ := h.shape r.o hg.mem w hw
  have e : pdOf r.o = pd := by unfold pdOf; rw [q2]; rfl
  rw [e]
  exact extracted_eq r.o pd [y] [] j q2 p r.i

/-- The nodes before the packed merge. -/
def Red.pre (r : Red C) (p : Node C) : List (Node C) :=
  wraps r.ds (.mk (outsDef (pdOf r.o) r.o.1.numOutputs) [.mk (dictDef (pdOf r.o)) [p] 0] r.i) ++
    [.mk (outsDef (pdOf r.o) r.o.1.numOutputs) [.mk (dictDef (pdOf r.o)) [p] 0] r.i,
     .mk (dictDef (pdOf r.o)) [p] 0]

theorem Red.chain_eq {r : Red C} (h : Setting target cache) (hg : r.Good target cache)
    (q : Oper C → Node C) :
    (r.under q).chain = r.pre (q r.o) ++ (q r.o) :: chainList (q r.o).ins := by
  unfold Red.under Red.pre
  rw [hg.eq h, chain_wrap]
  simp [Node.chain, chainList, chain_cons (q r.o)]

theorem Red.pre_post {r : Red C} (hg : r.Good target cache) (p : Node C)
    (hp : p.isPackedMerge = true) : ∀ x ∈ r.pre p, x.isPostProcessing = true := by
  have hw : ∀ (ds : List (Def C)) (E F : Node C), E.chain = E :: [F] ++ p :: chainList p.ins →
      ds.length ≤ 3 → ∀ x ∈ wraps ds E, x.isPostProcessing = true := by
    intro ds E F hE
    induction ds with
    | nil => intro _ x hx; cases hx
    | cons d ds ih =>
      intro hl x hx
      simp only [List.length_cons] at hl
      rcases List.mem_cons.1 hx with rfl | hx
      · apply isPost_of _ p (wraps ds E ++ [E, F]) (chainList p.ins) ?_ hp
        · simp [wraps_length]; omega
        · rw [chain_wrap, hE]
          simp [wraps]
      · exact ih (by omega) x hx
  have hE : ∀ (d1 d2 : Def C) (i : Nat), (Node.mk d1 [.mk d2 [p] 0] i).chain =
      (Node.mk d1 [.mk d2 [p] 0] i) :: [.mk d2 [p] 0] ++ p :: chainList p.ins := by
    intro d1 d2 i
    simp [Node.chain, chainList, chain_cons p]
  intro x hx
  unfold Red.pre at hx
  rw [List.mem_append] at hx
  rcases hx with hx | hx
  · exact hw _ _ _ (hE _ _ _) hg.short x hx
  · simp only [List.mem_cons, List.not_mem_nil, or_false] at hx
    rcases hx with rfl | rfl
    · exact isPost_of _ p [_] (chainList p.ins) (hE _ _ _) hp (by simp)
    · exact isPost_of _ p [] (chainList p.ins) (by simp [Node.chain, chainList, chain_cons p]) hp (by simp)

theorem endOf_append (pre : List (Node C)) (p : Node C) (rest : List (Node C))
    (h : ∀ x ∈ pre, x.isPostProcessing = true) (hp : p.isPostProcessing = false) :
    endOf (pre ++ p :: rest) = some p := by
  induction pre with
  | nil => simp [endOf, hp]
  | cons x xs ih =>
    unfold endOf at ih ⊢
    rw [List.cons_append, List.find?_cons_of_neg (by simp [h x (by simp)])]
    exact ih (fun y hy => h y (by simp [hy]))

/-- The record of a binding that is created again. -/
def Red.info (r : Red C) : BindingInfo C :=
  ⟨r.ds ++ [outsDef (pdOf r.o) r.o.1.numOutputs, dictDef (pdOf r.o)], some r.i⟩

theorem simple_kind {d : Def C} (h : Simple d) (n : Nat) : d.kind ≠ .extractPackedOutputs n := by
  intro hk
  rcases h with h | h <;> rw [h] at hk <;> cases hk

theorem infoOf_wraps (ds : List (Def C)) (hds : ∀ e ∈ ds, Simple e) (E : Node C) (rest : List (Node C))
    (acc : BindingInfo C) (h : ∀ x ∈ wraps ds E, x.isPostProcessing = true) :
    infoOf (wraps ds E ++ rest) acc = infoOf rest ⟨acc.defs ++ ds, acc.outputIndex⟩ := by
  induction ds generalizing acc with
  | nil => simp [wraps]
  | cons d ds ih =>
    simp only [wraps, List.cons_append]
    rw [infoOf, if_pos (h _ (by simp [wraps]))]
    have hd : (wrap (d :: ds) E).d = d := rfl
    rw [hd]
    have hk := simple_kind (hds d (by simp))
    split
    · rename_i n hn
      exact absurd hn (hk n)
    · rw [ih (fun e he => hds e (by simp [he])) _ (fun x hx => h x (by simp [wraps, hx]))]
      simp

theorem infoOf_outs (E : Node C) (rest : List (Node C)) (ds : List (Def C)) (n : Nat)
    (hE : E.d.kind = .extractPackedOutputs n) (hp : E.isPostProcessing = true) :
    infoOf (E :: rest) ⟨ds, none⟩ = infoOf rest ⟨ds ++ [E.d], some E.index⟩ := by
  rw [infoOf, if_pos hp, hE]
  simp

theorem infoOf_dict (F : Node C) (rest : List (Node C)) (acc : BindingInfo C) (k : Keys)
    (hF : F.d.kind = .extractFromDict k) (hp : F.isPostProcessing = true) :
    infoOf (F :: rest) acc = infoOf rest ⟨acc.defs ++ [F.d], acc.outputIndex⟩ := by
  rw [infoOf, if_pos hp, hF]

theorem infoOf_end (p : Node C) (rest : List (Node C)) (acc : BindingInfo C)
    (hp : p.isPostProcessing = false) : infoOf (p :: rest) acc = .ok acc := by
  rw [infoOf, hp]
  rfl

theorem Red.infoOf_eq {r : Red C} (h : Setting target cache) (hg : r.Good target cache)
    (q : Oper C → Node C) (hm : (q r.o).isPackedMerge = true)
    (hn : (q r.o).isPostProcessing = false) :
    infoOf (r.under q).chain ⟨[], none⟩ = .ok r.info := by
  have hp := Red.pre_post hg (q r.o) hm
  rw [Red.chain_eq h hg]
  unfold Red.pre at hp ⊢
  have h1 := fun x hx => hp x (List.mem_append_left _ hx)
  have h2 := hp _ (List.mem_append_right _ List.mem_cons_self)
  have h3 := hp _ (List.mem_append_right _ (List.mem_cons_of_mem _ List.mem_cons_self))
  rw [List.append_assoc, infoOf_wraps r.ds hg.simple _ _ _ h1]
  simp only [List.cons_append, List.nil_append]
  rw [infoOf_outs _ _ _ r.o.1.numOutputs rfl h2, infoOf_dict _ _ _ (.single (pdOf r.o).label) rfl h3,
    infoOf_end _ _ _ hn]
  simp [Red.info, Node.d, Node.index]

theorem Red.end_eq {r : Red C} (h : Setting target cache) (hg : r.Good target cache)
    (q : Oper C → Node C) (hm : (q r.o).isPackedMerge = true)
    (hn : (q r.o).isPostProcessing = false) :
    endOf (r.under q).chain = some (q r.o) ∧ endOf (chainList (r.under q).ins) = some (q r.o) := by
  have hp := Red.pre_post hg (q r.o) hm
  have hc := Red.chain_eq h hg q
  constructor
  · rw [hc]; exact endOf_append _ _ _ hp hn
  · rw [chain_cons] at hc
    cases hpre : r.pre (q r.o) with
    | nil =>
      unfold Red.pre at hpre
      simp at hpre
    | cons x xs =>
      rw [hpre] at hc hp
      simp only [List.cons_append, List.cons.injEq] at hc
      rw [hc.2]
      exact endOf_append _ _ _ (fun y hy => hp y (by simp [hy])) hn

theorem Red.under_post {r : Red C} (h : Setting target cache) (hg : r.Good target cache)
    (q : Oper C → Node C) (hm : (q r.o).isPackedMerge = true) :
    (r.under q).isPostProcessing = true := by
  have hp := Red.pre_post hg (q r.o) hm
  have hc := Red.chain_eq h hg q
  rw [chain_cons] at hc
  cases hpre : r.pre (q r.o) with
  | nil =>
    unfold Red.pre at hpre
    simp at hpre
  | cons x xs =>
    rw [hpre] at hc hp
    simp only [List.cons_append, List.cons.injEq] at hc
    rw [hc.1]
    exact hp x (by simp)

end

end TFT.Graph.Packing
