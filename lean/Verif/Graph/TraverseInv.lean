import Verif.Graph.TraverseProps

/-!
# Traversals that keep an invariant

A visitor that succeeds whenever its inputs satisfy an invariant, and then gives outputs that
satisfy it, makes the traversal succeed.
-/

namespace TFT.Graph

open Spec

variable {Op V : Type}

/-- What a visitor has to do for every operation that is needed: given inputs with the invariant,
it returns the right number of outputs, which pass `validate_value` and have the invariant. -/
def Keeps (g : OpGraph Op) (v : Visitor Op V) (Need : Op → Prop) (P : Op × Nat → V → Prop) : Prop :=
  ∀ calls op ins, Need op → List.Forall₂ P (g.inputs op) ins →
    ∃ outs, v.visit calls op ins = .ok outs ∧ outs.length = g.numOutputs op ∧
      ∀ i x, outs[i]? = some x → P (op, i) x ∧ v.validate x = .ok ()

theorem forall₂_imp_mem {α β : Type} {R S : α → β → Prop} {l : List α} {m : List β}
    (h : List.Forall₂ R l m) (H : ∀ a ∈ l, ∀ b, R a b → S a b) : List.Forall₂ S l m := by
  induction h with
  | nil => exact .nil
  | cons hab _ ih =>
    exact .cons (H _ (by simp) _ hab) (ih (fun a ha b => H a (by simp [ha]) b))

/-- Everything that was produced by calls of needed operations has the invariant. -/
theorem produced_keeps {g : OpGraph Op} {v : Visitor Op V} {Need : Op → Prop}
    {P : Op × Nat → V → Prop} (closed : ∀ a b, Need a → Dep g a b → Need b)
    (H : Keeps g v Need P) {calls : List (Call Op V)} (hp : Proper g v calls) :
    ∀ c ∈ calls, Need c.op → List.Forall₂ P (g.inputs c.op) c.ins ∧
      ∀ i x, c.outs[i]? = some x → P (c.op, i) x := by
  induction hp with
  | nil => simp
  | @snoc calls op ins outs _ _ hins hvisit _ ih =>
    intro c hc hneed
    rcases List.mem_append.1 hc with hc | hc
    · exact ih c hc hneed
    · have := List.mem_singleton.1 hc
      subst this
      have hP : List.Forall₂ P (g.inputs op) ins := by
        refine forall₂_imp_mem hins ?_
        rintro n hn x ⟨d, hd, h1, h2⟩
        have := (ih d hd (h1 ▸ closed _ _ hneed ⟨n.2, hn⟩)).2 n.2 x h2
        rw [h1] at this
        exact this
      refine ⟨hP, ?_⟩
      obtain ⟨outs', h1, _, h3⟩ := H calls op ins hneed hP
      rw [hvisit] at h1
      cases h1
      exact fun i x hx => (h3 i x hx).1

theorem storeOutputs_valid [DecidableEq Op] {v : Visitor Op V} (op : Op) (xs : List V) :
    ∀ (i : Nat) (cache : Op × Nat → Option V), (∀ x ∈ xs, v.validate x = .ok ()) →
    ∃ c, storeOutputs v op i xs cache = .ok c := by
  induction xs with
  | nil => intro i cache _; exact ⟨_, rfl⟩
  | cons x xs ih =>
    intro i cache h
    simp only [storeOutputs, h x (by simp), bind, Except.bind]
    exact ih _ _ (fun y hy => h y (by simp [hy]))

variable [DecidableEq Op] [Fintype Op]

theorem visit_keeps {g : OpGraph Op} (hg : WellFormed g) {v : Visitor Op V} {Need : Op → Prop}
    {P : Op × Nat → V → Prop} (closed : ∀ a b, Need a → Dep g a b → Need b)
    (H : Keeps g v Need P) : ∀ k, ∀ stack : List Op,
    (Finset.univ.filter (fun o => o ∉ stack)).card = k →
    ∀ op st, Need op → Inv g v st → (∀ c ∈ st.calls, c.op ≠ op) →
      (∃ st', visitOperation g v stack op st = .ok st') ∨
        ∃ o, Reach g op o ∧ (o ∈ stack ∨ OnCycle g o) := by
  intro k
  induction k using Nat.strong_induction_on with
  | _ k ih =>
    intro stack hk op st hneed hi hnc
    rw [visitOperation]
    by_cases hop : op ∈ stack
    · exact Or.inr ⟨op, .refl, Or.inl hop⟩
    · rw [dif_neg hop]
      have hlt := hk ▸ notIn_card_lt stack op hop
      have IH := ih _ hlt (stack ++ [op]) rfl
      -- the inputs
      have nodes : ∀ ns st, (∀ n ∈ ns, Need n.1) → Inv g v st →
          (∀ n ∈ ns, n.2 < g.numOutputs n.1) →
          (∃ p, visitValueNodes g v (stack ++ [op]) ns st = .ok p) ∨
          ∃ n ∈ ns, ∃ o, Reach g n.1 o ∧ (o ∈ stack ++ [op] ∨ OnCycle g o) := by
        intro ns
        induction ns with
        | nil => intro st _ _ _; left; rw [visitValueNodes]; exact ⟨_, rfl⟩
        | cons n ns ihn =>
          intro st hneedn hi hvn
          have hn := hvn n (by simp)
          have tail : ∀ st1 y, Inv g v st1 →
              (if (st.cache n).isSome then .ok st
                else visitOperation g v (stack ++ [op]) n.1 st) = .ok st1 →
              st1.cache n = some y →
              ((∃ p, visitValueNodes g v (stack ++ [op]) (n :: ns) st = .ok p) ∨
              ∃ m ∈ n :: ns, ∃ o, Reach g m.1 o ∧ (o ∈ stack ++ [op] ∨ OnCycle g o)) := by
            intro st1 y hi1 h1 hy
            rw [nodes_cons g v _ n ns st st1 y h1 hy]
            rcases ihn st1 (fun m hm => hneedn m (by simp [hm])) hi1
              (fun m hm => hvn m (by simp [hm])) with ⟨p, hp⟩ | ⟨m, hm, o, h1, h2⟩
            · left; rw [hp]; exact ⟨_, rfl⟩
            · right; exact ⟨m, by simp [hm], o, h1, h2⟩
          cases hc : st.cache n with
          | some y => exact tail st y hi (by simp [hc]) hc
          | none =>
            rcases IH n.1 st (hneedn n (by simp)) hi (not_called hi hn hc) with
              ⟨st1, h1⟩ | ⟨o, h1, h2⟩
            · obtain ⟨hi1, new, hcalls, _, c, hcn, hco⟩ :=
                opPost hg v _ _ rfl n.1 st st1 h1 hi (not_called hi hn hc)
              have hcm : c ∈ st1.calls := by rw [hcalls]; simp [hcn]
              have hlen := hi1.proper.outs_length c hcm
              rw [hco] at hlen
              exact tail st1 (c.outs[n.2]'(by omega)) hi1 (by simpa [hc] using h1)
                ((hi1.cache _ _).2 ⟨c, hcm, hco, List.getElem?_eq_getElem _⟩)
            · exact Or.inr ⟨n, by simp, o, h1, h2⟩
      rcases nodes (g.inputs op) st (fun n hn => closed _ _ hneed ⟨n.2, hn⟩) hi (hg op) with
        ⟨p, hp⟩ | ⟨n, hn, o, h1, h2⟩
      · left
        obtain ⟨st1, ins⟩ := p
        obtain ⟨hi1, _, _, _, hall⟩ := nodesPost_of_opPost (opPost hg v _ _ rfl) _ _ _ _ hp hi (hg op)
        have hP : List.Forall₂ P (g.inputs op) ins := by
          refine forall₂_imp_mem hall ?_
          rintro n hn x ⟨d, hd, h1, h2⟩
          have := (produced_keeps closed H hi1.proper d hd
            (h1 ▸ closed _ _ hneed ⟨n.2, hn⟩)).2 n.2 x h2
          rw [h1] at this
          exact this
        obtain ⟨outs, houts, hlen, hout⟩ := H st1.calls op ins hneed hP
        obtain ⟨c, hcache⟩ := storeOutputs_valid (v := v) op outs 0 st1.cache (by
          intro x hx
          obtain ⟨i, hi⟩ := List.getElem?_of_mem hx
          exact (hout i x hi).2)
        refine ⟨⟨c, st1.calls ++ [⟨op, ins, outs⟩]⟩, ?_⟩
        simp only [bind, Except.bind, hp, houts, hlen, ne_eq, not_true, if_false, hcache]
      · right
        have hdep : Dep g op n.1 := ⟨n.2, hn⟩
        rcases h2 with h2 | h2
        · rcases List.mem_append.1 h2 with h2 | h2
          · exact ⟨o, .head hdep h1, Or.inl h2⟩
          · have := List.mem_singleton.1 h2
            subst this
            exact ⟨o, .refl, Or.inr (Relation.TransGen.head' hdep h1)⟩
        · exact ⟨o, .head hdep h1, Or.inr h2⟩

/-- A traversal for one request with a visitor that keeps an invariant succeeds, and its result
has the invariant. -/
theorem traverse_keeps {g : OpGraph Op} (hg : WellFormed g) {v : Visitor Op V} {Need : Op → Prop}
    {P : Op × Nat → V → Prop} (closed : ∀ a b, Need a → Dep g a b → Need b)
    (acyclic : ∀ o, Need o → ¬ OnCycle g o) (H : Keeps g v Need P)
    (r : Op × Nat) (hr : r.2 < g.numOutputs r.1) (hneed : Need r.1) :
    ∃ st x, traverse g v [r] = .ok (st, [x]) ∧ P r x ∧
      ∀ c ∈ st.calls, Need c.op ∧ List.Forall₂ P (g.inputs c.op) c.ins ∧
        ∀ i x, c.outs[i]? = some x → P (c.op, i) x := by
  have hreach : ∀ o, Reach g r.1 o → Need o := by
    intro o h
    induction h with
    | refl => exact hneed
    | tail _ h ih => exact closed _ _ ih h
  have hcache : (⟨fun _ => none, []⟩ : St Op V).cache r = none := rfl
  rcases visit_keeps hg closed H _ [] rfl r.1 ⟨fun _ => none, []⟩ hneed (inv_init g v) (by simp)
    with ⟨st1, h1⟩ | ⟨o, h1, h2⟩
  · obtain ⟨hi1, new, hcalls, _, c, hcn, hco⟩ :=
      opPost hg v _ [] rfl r.1 _ st1 h1 (inv_init g v) (by simp)
    have hcm : c ∈ st1.calls := by rw [hcalls]; simp [hcn]
    have hlen := hi1.proper.outs_length c hcm
    rw [hco] at hlen
    have hx : st1.cache r = some (c.outs[r.2]'(by omega)) :=
      (hi1.cache _ _).2 ⟨c, hcm, hco, List.getElem?_eq_getElem _⟩
    have ht : traverse g v [r] = .ok (st1, [c.outs[r.2]'(by omega)]) := by
      unfold traverse
      rw [nodes_cons g v [] r [] _ st1 _ (by simpa using h1) hx, visitValueNodes]
      rfl
    obtain ⟨_, hs2, _⟩ := traverse_spec g hg v [r] (by simpa using hr) st1 _ ht
    have hall : ∀ c ∈ st1.calls, Need c.op ∧ List.Forall₂ P (g.inputs c.op) c.ins ∧
        ∀ i x, c.outs[i]? = some x → P (c.op, i) x := by
      intro d hd
      obtain ⟨r', hr', hr''⟩ := (hs2 d.op).1 ⟨d, hd, rfl⟩
      have : r' = r := by simpa using hr'
      subst this
      have hn := hreach _ hr''
      exact ⟨hn, produced_keeps closed H hi1.proper d hd hn⟩
    refine ⟨st1, _, ht, ?_, hall⟩
    have := (hall c hcm).2.2 r.2 _ (List.getElem?_eq_getElem (by omega))
    rw [hco] at this
    exact this
  · rcases h2 with h2 | h2
    · simp at h2
    · exact absurd h2 (acyclic o (hreach o h1))

end TFT.Graph
