import Verif.Graph.Traverse
import Mathlib.Data.Fin.VecNotation

/-!
# Properties of graph traversal (C31)
-/

set_option linter.unusedSectionVars false

namespace TFT.Graph

variable {Op V : Type}

namespace Spec

/-- Operation `a` has a direct input produced by `b`. -/
def Dep (g : OpGraph Op) (a b : Op) : Prop := ∃ i, (b, i) ∈ g.inputs a

/-- `b` is `a` or something `a` depends on. -/
def Reach (g : OpGraph Op) : Op → Op → Prop := Relation.ReflTransGen (Dep g)

/-- `o` depends on itself. -/
def OnCycle (g : OpGraph Op) (o : Op) : Prop := Relation.TransGen (Dep g) o o

/-- Every `ValueNode` in the graph passed the check of its constructor. -/
def WellFormed (g : OpGraph Op) : Prop := ∀ o, ∀ n ∈ g.inputs o, n.2 < g.numOutputs n.1

/-- The call of `n`'s operation produced `x` at `n`'s index. -/
def Produced (calls : List (Call Op V)) (n : Op × Nat) (x : V) : Prop :=
  ∃ c ∈ calls, c.op = n.1 ∧ c.outs[n.2]? = some x

/-- A list of visitor calls, in order of time, in which every operation is evaluated at most
once, after all its inputs, with the values that were produced for them, and gave as many values
as it has outputs. -/
inductive Proper (g : OpGraph Op) (v : Visitor Op V) : List (Call Op V) → Prop where
  | nil : Proper g v []
  | snoc {calls op ins outs} : Proper g v calls → (∀ c ∈ calls, c.op ≠ op) →
      List.Forall₂ (Produced calls) (g.inputs op) ins → v.visit calls op ins = .ok outs →
      outs.length = g.numOutputs op → Proper g v (calls ++ [⟨op, ins, outs⟩])

/-- A visitor that raises no exception and returns as many valid values as the operation has outputs,
when it is asked to evaluate a new operation with the values that were produced for its inputs. -/
structure NeverFails (g : OpGraph Op) (v : Visitor Op V) : Prop where
  visit : ∀ calls op ins, Proper g v calls → (∀ c ∈ calls, c.op ≠ op) →
    List.Forall₂ (Produced calls) (g.inputs op) ins → ∃ outs, v.visit calls op ins = .ok outs ∧
      outs.length = g.numOutputs op ∧ ∀ x ∈ outs, v.validate x = .ok ()

end Spec
open Spec

theorem Spec.Produced.mono {a b : List (Call Op V)} {n : Op × Nat} {x : V} (h : Produced a n x) :
    Produced (a ++ b) n x := by
  obtain ⟨c, hc, h1, h2⟩ := h
  exact ⟨c, List.mem_append_left _ hc, h1, h2⟩

theorem Spec.Proper.outs_length {g : OpGraph Op} {v : Visitor Op V} {calls : List (Call Op V)}
    (h : Proper g v calls) : ∀ c ∈ calls, c.outs.length = g.numOutputs c.op := by
  induction h with
  | nil => simp
  | snoc _ _ _ _ hlen ih =>
    intro c hc
    rcases List.mem_append.1 hc with hc | hc
    · exact ih c hc
    · have := List.mem_singleton.1 hc
      subst this
      exact hlen

theorem Spec.Proper.nodup {g : OpGraph Op} {v : Visitor Op V} {calls : List (Call Op V)}
    (h : Proper g v calls) : (calls.map (fun c => c.op)).Nodup := by
  induction h with
  | nil => simp
  | snoc _ hnew _ _ _ ih =>
    rw [List.map_append, List.nodup_append]
    refine ⟨ih, by simp, ?_⟩
    intro a ha b hb hab
    obtain ⟨c, hc, rfl⟩ := List.mem_map.1 ha
    simp only [List.map_cons, List.map_nil, List.mem_singleton] at hb
    exact hnew c hc (hab.trans hb)

theorem exists_of_forall₂ {α β : Type} {R : α → β → Prop} {l : List α} {m : List β}
    (h : List.Forall₂ R l m) {a : α} (ha : a ∈ l) : ∃ b ∈ m, R a b := by
  induction h with
  | nil => simp at ha
  | cons hab _ ih =>
    rcases List.mem_cons.1 ha with rfl | ha
    · exact ⟨_, by simp, hab⟩
    · obtain ⟨b, hb, h⟩ := ih ha
      exact ⟨b, by simp [hb], h⟩

theorem Spec.Proper.closed {g : OpGraph Op} {v : Visitor Op V} {calls : List (Call Op V)}
    (h : Proper g v calls) : ∀ c ∈ calls, ∀ b, Dep g c.op b → ∃ d ∈ calls, d.op = b := by
  induction h with
  | nil => simp
  | snoc _ _ hins _ _ ih =>
    intro c hc b hb
    rcases List.mem_append.1 hc with hc | hc
    · obtain ⟨d, hd, h⟩ := ih c hc b hb
      exact ⟨d, List.mem_append_left _ hd, h⟩
    · have := List.mem_singleton.1 hc
      subst this
      obtain ⟨i, hi⟩ := hb
      obtain ⟨x, _, d, hd, h, _⟩ := exists_of_forall₂ hins hi
      exact ⟨d, List.mem_append_left _ hd, h⟩

theorem Spec.Proper.reach {g : OpGraph Op} {v : Visitor Op V} {calls : List (Call Op V)}
    (h : Proper g v calls) {a b : Op} (hab : Reach g a b) (ha : ∃ c ∈ calls, c.op = a) :
    ∃ d ∈ calls, d.op = b := by
  induction hab with
  | refl => exact ha
  | tail _ hbc ih =>
    obtain ⟨d, hd, rfl⟩ := ih
    exact h.closed d hd _ hbc

/-- An operation that was evaluated does not depend on itself. -/
theorem Spec.Proper.no_cycle {g : OpGraph Op} {v : Visitor Op V} {calls : List (Call Op V)}
    (h : Proper g v calls) : ∀ c ∈ calls, ¬ OnCycle g c.op := by
  -- everything that an evaluated operation depends on was evaluated before it
  have key : ∀ {calls : List (Call Op V)}, Proper g v calls → ∀ (pre : List (Call Op V)) c post,
      calls = pre ++ c :: post → ∀ b, Relation.TransGen (Dep g) c.op b → ∃ d ∈ pre, d.op = b := by
    intro calls h
    induction h with
    | nil => intro pre c post h; simp at h
    | @snoc calls op ins outs hp _ hins _ _ ih =>
      intro pre c post heq b hb
      rcases List.eq_nil_or_concat post with rfl | ⟨post', last, rfl⟩
      · have h1 : pre = calls ∧ c = ⟨op, ins, outs⟩ := by
          have := List.append_inj' heq.symm (by simp)
          simpa using this
        obtain ⟨rfl, rfl⟩ := h1
        obtain ⟨a, ⟨i, hi⟩, hab⟩ := Relation.TransGen.head'_iff.1 hb
        obtain ⟨x, _, d, hd, h, _⟩ := exists_of_forall₂ hins hi
        exact hp.reach hab ⟨d, hd, h⟩
      · have h1 : calls = pre ++ c :: post' := by
          have : calls ++ [⟨op, ins, outs⟩] = (pre ++ c :: post') ++ [last] := by simpa using heq
          exact (List.append_inj' this (by simp)).1
        exact ih pre c post' h1 b hb
  intro c hc hcyc
  obtain ⟨pre, post, rfl⟩ := List.append_of_mem hc
  obtain ⟨d, hd, hdc⟩ := key h pre c post rfl _ hcyc
  have := h.nodup
  rw [List.map_append, List.map_cons, List.nodup_append] at this
  exact this.2.2 d.op (List.mem_map_of_mem hd) c.op (by simp) hdc

/-- The state of the traverser agrees with the calls made. -/
structure Inv (g : OpGraph Op) (v : Visitor Op V) (st : St Op V) : Prop where
  proper : Proper g v st.calls
  cache : ∀ n x, st.cache n = some x ↔ Produced st.calls n x

theorem storeOutputs_ok [DecidableEq Op] {v : Visitor Op V} {op : Op} {i : Nat} {xs : List V}
    {cache cache' : Op × Nat → Option V} (h : storeOutputs v op i xs cache = .ok cache') :
    ∀ n, cache' n = if n.1 = op ∧ i ≤ n.2 ∧ n.2 < i + xs.length then xs[n.2 - i]? else cache n := by
  induction xs generalizing i cache with
  | nil =>
    intro n
    simp only [storeOutputs, Except.ok.injEq] at h
    subst h
    rw [if_neg (by simp)]
  | cons x xs ih =>
    intro n
    simp only [storeOutputs, bind, Except.bind] at h
    split at h
    · cases h
    · have := ih h n
      rw [this]
      obtain ⟨o, j⟩ := n
      simp only [List.length_cons, Prod.mk.injEq]
      by_cases ho : o = op
      · subst ho
        by_cases hj : j = i
        · subst hj
          rw [if_neg (by omega), if_pos (by simp), if_pos ⟨rfl, by omega, by omega⟩]
          simp
        · by_cases h2 : i + 1 ≤ j ∧ j < i + 1 + xs.length
          · rw [if_pos ⟨rfl, h2.1, h2.2⟩, if_pos ⟨rfl, by omega, by omega⟩]
            rw [show j - i = (j - (i + 1)) + 1 by omega, List.getElem?_cons_succ]
          · rw [if_neg (by omega), if_neg (by simpa using hj), if_neg (by omega)]
      · rw [if_neg (by simp [ho]), if_neg (by simp [ho]), if_neg (by simp [ho])]

variable [DecidableEq Op] [Fintype Op]

/-- What a successful visit of one operation does. -/
def OpPost (g : OpGraph Op) (v : Visitor Op V) (stack : List Op) : Prop :=
  ∀ op st st', visitOperation g v stack op st = .ok st' → Inv g v st →
    (∀ c ∈ st.calls, c.op ≠ op) →
    Inv g v st' ∧ ∃ new, st'.calls = st.calls ++ new ∧
      (∀ c ∈ new, c.op ∉ stack ∧ Reach g op c.op) ∧ ∃ c ∈ new, c.op = op

/-- What a successful visit of value nodes does. -/
def NodesPost (g : OpGraph Op) (v : Visitor Op V) (stack : List Op) : Prop :=
  ∀ ns st st' xs, visitValueNodes g v stack ns st = .ok (st', xs) → Inv g v st →
    (∀ n ∈ ns, n.2 < g.numOutputs n.1) →
    Inv g v st' ∧ ∃ new, st'.calls = st.calls ++ new ∧
      (∀ c ∈ new, c.op ∉ stack ∧ ∃ n ∈ ns, Reach g n.1 c.op) ∧
      List.Forall₂ (Produced st'.calls) ns xs

theorem not_called {g : OpGraph Op} {v : Visitor Op V} {st : St Op V} (h : Inv g v st)
    {n : Op × Nat} (hn : n.2 < g.numOutputs n.1) (hc : st.cache n = none) :
    ∀ c ∈ st.calls, c.op ≠ n.1 := by
  intro c hcm he
  have hlen := h.proper.outs_length c hcm
  rw [he] at hlen
  have : st.cache n = some (c.outs[n.2]'(by omega)) := by
    rw [h.cache]
    exact ⟨c, hcm, he, List.getElem?_eq_getElem _⟩
  rw [hc] at this
  cases this

theorem nodes_cons (g : OpGraph Op) (v : Visitor Op V) (stack : List Op) (n : Op × Nat)
    (ns : List (Op × Nat)) (st st1 : St Op V) (y : V)
    (h1 : (if (st.cache n).isSome then .ok st else visitOperation g v stack n.1 st) = .ok st1) (hy : st1.cache n = some y) :
    visitValueNodes g v stack (n :: ns) st
      = (visitValueNodes g v stack ns st1).map (fun p => (p.1, y :: p.2)) := by
  rw [visitValueNodes, h1]
  simp only [bind, Except.bind, hy]
  cases visitValueNodes g v stack ns st1 <;> rfl

theorem nodes_cons_ok {g : OpGraph Op} {v : Visitor Op V} {stack : List Op} {n : Op × Nat}
    {ns : List (Op × Nat)} {st : St Op V} {p : St Op V × List V}
    (h : visitValueNodes g v stack (n :: ns) st = .ok p) :
    ∃ st1 y ys, (if (st.cache n).isSome then .ok st else visitOperation g v stack n.1 st) = .ok st1 ∧ st1.cache n = some y ∧
      visitValueNodes g v stack ns st1 = .ok (p.1, ys) ∧ p.2 = y :: ys := by
  cases h1 : (if (st.cache n).isSome then .ok st else visitOperation g v stack n.1 st : Except Err (St Op V)) with
  | error e => rw [visitValueNodes, h1] at h; cases h
  | ok st1 =>
    cases hy : st1.cache n with
    | none =>
      rw [visitValueNodes, h1] at h
      simp only [bind, Except.bind, hy] at h
      cases h
    | some y =>
      rw [nodes_cons g v stack n ns st st1 y h1 hy] at h
      cases h2 : visitValueNodes g v stack ns st1 with
      | error e => rw [h2] at h; cases h
      | ok q =>
        rw [h2] at h
        simp only [Except.map, Except.ok.injEq] at h
        subst h
        exact ⟨st1, y, q.2, rfl, hy, h2, rfl⟩

theorem nodesPost_of_opPost {g : OpGraph Op} {v : Visitor Op V} {stack : List Op}
    (H : OpPost g v stack) : NodesPost g v stack := by
  intro ns
  induction ns with
  | nil =>
    intro st st' xs h hi _
    rw [visitValueNodes] at h
    simp only [Except.ok.injEq, Prod.mk.injEq] at h
    obtain ⟨rfl, rfl⟩ := h
    exact ⟨hi, [], by simp, by simp, .nil⟩
  | cons n ns ih =>
    intro st st' xs h hi hv
    obtain ⟨st1, y, ys, hst1, hy, hp, rfl⟩ := nodes_cons_ok h
    have hn := hv n (by simp)
    -- the first node
    have hfirst : Inv g v st1 ∧ ∃ new, st1.calls = st.calls ++ new ∧
        (∀ c ∈ new, c.op ∉ stack ∧ Reach g n.1 c.op) := by
      cases hc : st.cache n with
      | some y =>
        rw [hc] at hst1
        simp only [Option.isSome_some, if_true, Except.ok.injEq] at hst1
        subst hst1
        exact ⟨hi, [], by simp, by simp⟩
      | none =>
        rw [hc] at hst1
        simp only [Option.isSome_none, Bool.false_eq_true, if_false] at hst1
        obtain ⟨h1, new, h2, h3, _⟩ := H n.1 st st1 hst1 hi (not_called hi hn hc)
        exact ⟨h1, new, h2, h3⟩
    obtain ⟨hi1, new1, hcalls1, hnew1⟩ := hfirst
    obtain ⟨hi2, new2, hcalls2, hnew2, hall⟩ := ih st1 st' ys hp hi1
      (fun m hm => hv m (by simp [hm]))
    refine ⟨hi2, new1 ++ new2, by rw [hcalls2, hcalls1, List.append_assoc], ?_, ?_⟩
    · intro c hc
      rcases List.mem_append.1 hc with hc | hc
      · exact ⟨(hnew1 c hc).1, n, by simp, (hnew1 c hc).2⟩
      · obtain ⟨h1, m, hm, h2⟩ := hnew2 c hc
        exact ⟨h1, m, by simp [hm], h2⟩
    · refine .cons ?_ hall
      rw [hcalls2]
      exact ((hi1.cache n y).1 hy).mono

theorem opPost {g : OpGraph Op} (hg : WellFormed g) (v : Visitor Op V) :
    ∀ k, ∀ stack : List Op, (Finset.univ.filter (fun o => o ∉ stack)).card = k →
      OpPost g v stack := by
  intro k
  induction k using Nat.strong_induction_on with
  | _ k ih =>
    intro stack hk op st st' h hi hnc
    rw [visitOperation] at h
    split at h
    · cases h
    · rename_i hop
      have hN : NodesPost g v (stack ++ [op]) := nodesPost_of_opPost
        (ih _ (hk ▸ notIn_card_lt stack op hop) _ rfl)
      simp only [bind, Except.bind] at h
      split at h
      · cases h
      · rename_i p hp
        obtain ⟨st1, ins⟩ := p
        obtain ⟨hi1, new, hcalls, hnew, hall⟩ := hN _ _ _ _ hp hi (hg op)
        simp only at h
        split at h
        · cases h
        · rename_i outs houts
          split at h
          · cases h
          · rename_i hlen
            split at h
            · cases h
            · rename_i cache' hcache
              simp only [Except.ok.injEq] at h
              subst h
              have hlen' : outs.length = g.numOutputs op := not_not.1 hlen
              have hop1 : ∀ c ∈ st1.calls, c.op ≠ op := by
                intro c hc
                rw [hcalls] at hc
                rcases List.mem_append.1 hc with hc | hc
                · exact hnc c hc
                · have := (hnew c hc).1
                  simp at this
                  exact this.2
              refine ⟨⟨.snoc hi1.proper hop1 hall houts hlen', ?_⟩,
                new ++ [⟨op, ins, outs⟩], by rw [hcalls, List.append_assoc], ?_, ?_⟩
              · intro n x
                simp only
                rw [storeOutputs_ok hcache n]
                by_cases hn : n.1 = op
                · by_cases hl : n.2 < outs.length
                  · rw [if_pos (by simp [hn, hl]), Nat.sub_zero]
                    constructor
                    · intro hx
                      exact ⟨⟨op, ins, outs⟩, by simp, hn.symm, hx⟩
                    · rintro ⟨c, hc, h1, h2⟩
                      rcases List.mem_append.1 hc with hc | hc
                      · exact absurd (h1.trans hn) (hop1 c hc)
                      · have := List.mem_singleton.1 hc
                        subst this
                        exact h2
                  · rw [if_neg (by omega), hi1.cache]
                    constructor
                    · exact fun h => h.mono
                    · rintro ⟨c, hc, h1, h2⟩
                      rcases List.mem_append.1 hc with hc | hc
                      · exact ⟨c, hc, h1, h2⟩
                      · have := List.mem_singleton.1 hc
                        subst this
                        rw [List.getElem?_eq_none (by simpa using hl)] at h2
                        cases h2
                · rw [if_neg (by simp [hn]), hi1.cache]
                  constructor
                  · exact fun h => h.mono
                  · rintro ⟨c, hc, h1, h2⟩
                    rcases List.mem_append.1 hc with hc | hc
                    · exact ⟨c, hc, h1, h2⟩
                    · have := List.mem_singleton.1 hc
                      subst this
                      exact absurd h1.symm hn
              · intro c hc
                rcases List.mem_append.1 hc with hc | hc
                · obtain ⟨h1, n, hn, h2⟩ := hnew c hc
                  simp at h1
                  exact ⟨h1.1, Relation.ReflTransGen.head ⟨n.2, hn⟩ h2⟩
                · have := List.mem_singleton.1 hc
                  subst this
                  exact ⟨hop, .refl⟩
              · exact ⟨⟨op, ins, outs⟩, by simp, rfl⟩

theorem inv_init (g : OpGraph Op) (v : Visitor Op V) : Inv g v ⟨fun _ => none, []⟩ where
  proper := .nil
  cache := by
    intro n x
    constructor
    · intro h; cases h
    · rintro ⟨c, hc, _⟩; simp at hc

/-- **C31** After any sequence of requests to one traverser that ends without an exception:
every operation was evaluated at most once, after its inputs and with the values produced for
them (`Proper`); the operations evaluated are exactly those on which a request depends; and every
request got the value that its operation produced. -/
theorem traverse_spec (g : OpGraph Op) (hg : WellFormed g) (v : Visitor Op V)
    (requests : List (Op × Nat)) (hr : ∀ r ∈ requests, r.2 < g.numOutputs r.1)
    (st : St Op V) (values : List V) (h : traverse g v requests = .ok (st, values)) :
    Proper g v st.calls ∧
    (∀ op, (∃ c ∈ st.calls, c.op = op) ↔ ∃ r ∈ requests, Reach g r.1 op) ∧
    List.Forall₂ (Produced st.calls) requests values := by
  obtain ⟨hi, new, hc, hnew, hall⟩ := nodesPost_of_opPost (opPost hg v _ [] rfl) _ _ _ _ h
    (inv_init g v) hr
  refine ⟨hi.proper, ?_, hall⟩
  intro op
  constructor
  · rintro ⟨c, hcm, rfl⟩
    rw [hc] at hcm
    exact (hnew c (by simpa using hcm)).2
  · rintro ⟨r, hrm, hreach⟩
    obtain ⟨x, _, c, hcm, hco, _⟩ := exists_of_forall₂ hall hrm
    exact hi.proper.reach hreach ⟨c, hcm, hco⟩

/-- **C31** every operation that was needed was evaluated exactly once. -/
theorem traverse_exactly_once (g : OpGraph Op) (hg : WellFormed g) (v : Visitor Op V)
    (requests : List (Op × Nat)) (hr : ∀ r ∈ requests, r.2 < g.numOutputs r.1)
    (st : St Op V) (values : List V) (h : traverse g v requests = .ok (st, values))
    (op : Op) (r : Op × Nat) (hrm : r ∈ requests) (hd : Reach g r.1 op) :
    (st.calls.map (fun c => c.op)).count op = 1 := by
  obtain ⟨h1, h2, _⟩ := traverse_spec g hg v requests hr st values h
  obtain ⟨c, hc, rfl⟩ := (h2 op).2 ⟨r, hrm, hd⟩
  exact List.count_eq_one_of_mem h1.nodup (List.mem_map_of_mem hc)

theorem storeOutputs_validated {v : Visitor Op V} {op : Op} {i : Nat} {xs : List V}
    {cache cache' : Op × Nat → Option V} (h : storeOutputs v op i xs cache = .ok cache') :
    ∀ x ∈ xs, v.validate x = .ok () := by
  induction xs generalizing i cache with
  | nil => simp
  | cons x xs ih =>
    simp only [storeOutputs, bind, Except.bind] at h
    split at h
    · cases h
    · rename_i u hu
      intro y hy
      rcases List.mem_cons.1 hy with rfl | hy
      · exact hu
      · exact ih h y hy

theorem nodes_valid {g : OpGraph Op} {v : Visitor Op V} {stack : List Op}
    (H : ∀ op st st', visitOperation g v stack op st = .ok st' →
      (∀ c ∈ st.calls, ∀ x ∈ c.outs, v.validate x = .ok ()) →
      ∀ c ∈ st'.calls, ∀ x ∈ c.outs, v.validate x = .ok ()) :
    ∀ ns st p, visitValueNodes g v stack ns st = .ok p →
      (∀ c ∈ st.calls, ∀ x ∈ c.outs, v.validate x = .ok ()) →
      ∀ c ∈ p.1.calls, ∀ x ∈ c.outs, v.validate x = .ok () := by
  intro ns
  induction ns with
  | nil =>
    intro st p h hs
    rw [visitValueNodes] at h
    simp only [Except.ok.injEq] at h
    subst h
    exact hs
  | cons n ns ih =>
    intro st p h hs
    obtain ⟨st1, y, ys, hst1, _, hp, _⟩ := nodes_cons_ok h
    refine ih st1 (p.1, ys) hp ?_
    split at hst1
    · cases hst1; exact hs
    · exact H _ _ _ hst1 hs

theorem op_valid (g : OpGraph Op) (v : Visitor Op V) :
    ∀ k, ∀ stack : List Op, (Finset.univ.filter (fun o => o ∉ stack)).card = k →
      ∀ op st st', visitOperation g v stack op st = .ok st' →
        (∀ c ∈ st.calls, ∀ x ∈ c.outs, v.validate x = .ok ()) →
        ∀ c ∈ st'.calls, ∀ x ∈ c.outs, v.validate x = .ok () := by
  intro k
  induction k using Nat.strong_induction_on with
  | _ k ih =>
    intro stack hk op st st' h hs
    rw [visitOperation] at h
    split at h
    · cases h
    · rename_i hop
      have hN := nodes_valid (ih _ (hk ▸ notIn_card_lt stack op hop) _ rfl)
      simp only [bind, Except.bind] at h
      split at h
      · cases h
      · rename_i p hp
        have hp' := hN _ _ _ hp hs
        split at h
        · cases h
        · rename_i outs houts
          split at h
          · cases h
          · split at h
            · cases h
            · rename_i cache' hcache
              simp only [Except.ok.injEq] at h
              subst h
              intro c hc
              rcases List.mem_append.1 hc with hc | hc
              · exact hp' c hc
              · rw [List.mem_singleton.1 hc]
                exact storeOutputs_validated hcache

/-- **C31** a traversal that succeeds accepted no value that the visitor rejects: every value that an
operation gave passed the visitor's validation. -/
theorem traverse_validates (g : OpGraph Op) (v : Visitor Op V) (requests : List (Op × Nat))
    (st : St Op V) (values : List V) (h : traverse g v requests = .ok (st, values)) :
    ∀ c ∈ st.calls, ∀ x ∈ c.outs, v.validate x = .ok () :=
  nodes_valid (op_valid g v _ [] rfl) _ _ _ h (by simp)

theorem storeOutputs_total {v : Visitor Op V} (op : Op)
    (i : Nat) (xs : List V) (hxs : ∀ x ∈ xs, v.validate x = .ok ()) (cache : Op × Nat → Option V) :
    ∃ c, storeOutputs v op i xs cache = .ok c := by
  induction xs generalizing i cache with
  | nil => exact ⟨_, rfl⟩
  | cons x xs ih =>
    simp only [storeOutputs, hxs x (by simp), bind, Except.bind]
    exact ih _ (fun y hy => hxs y (by simp [hy])) _

/-- The outcome of a visit of value nodes, given the outcome of visits of operations: without
failures of the visitor the only failure is the cycle error, and it is raised only if some
operation on which the argument depends is on a cycle or on the stack. -/
theorem nodes_outcome {g : OpGraph Op} (hg : WellFormed g) {v : Visitor Op V} {stack : List Op}
    (H : ∀ op st, Inv g v st → (∀ c ∈ st.calls, c.op ≠ op) →
      (∃ st', visitOperation g v stack op st = .ok st') ∨
      (visitOperation g v stack op st = .error "AssertionError: Cycle detected" ∧
        ∃ o, Reach g op o ∧ (o ∈ stack ∨ OnCycle g o))) :
    ∀ ns st, Inv g v st → (∀ n ∈ ns, n.2 < g.numOutputs n.1) →
      (∃ p, visitValueNodes g v stack ns st = .ok p) ∨
      (visitValueNodes g v stack ns st = .error "AssertionError: Cycle detected" ∧
        ∃ n ∈ ns, ∃ o, Reach g n.1 o ∧ (o ∈ stack ∨ OnCycle g o)) := by
  intro ns
  induction ns with
  | nil => intro st _ _; left; rw [visitValueNodes]; exact ⟨_, rfl⟩
  | cons n ns ihn =>
    intro st hi hvn
    have hn := hvn n (by simp)
    have hrest := fun m (hm : m ∈ ns) => hvn m (by simp [hm])
    -- after the first node
    have tail : ∀ st1 y, Inv g v st1 → (if (st.cache n).isSome then .ok st else visitOperation g v stack n.1 st) = .ok st1 → st1.cache n = some y →
        ((∃ p, visitValueNodes g v stack (n :: ns) st = .ok p) ∨
        (visitValueNodes g v stack (n :: ns) st = .error "AssertionError: Cycle detected" ∧
          ∃ m ∈ n :: ns, ∃ o, Reach g m.1 o ∧ (o ∈ stack ∨ OnCycle g o))) := by
      intro st1 y hi1 h1 hy
      rw [nodes_cons g v stack n ns st st1 y h1 hy]
      rcases ihn st1 hi1 hrest with ⟨p, hp⟩ | ⟨he, m, hm, o, h1, h2⟩
      · left; rw [hp]; exact ⟨_, rfl⟩
      · right; rw [he]; exact ⟨rfl, m, by simp [hm], o, h1, h2⟩
    cases hc : st.cache n with
    | some y => exact tail st y hi (by simp [hc]) hc
    | none =>
      rcases H n.1 st hi (not_called hi hn hc) with ⟨st1, h1⟩ | ⟨he, o, h1, h2⟩
      · obtain ⟨hi1, new, hcalls, _, c, hcn, hco⟩ :=
          opPost hg v _ stack rfl n.1 st st1 h1 hi (not_called hi hn hc)
        have hcm : c ∈ st1.calls := by rw [hcalls]; simp [hcn]
        have hlen := hi1.proper.outs_length c hcm
        rw [hco] at hlen
        exact tail st1 (c.outs[n.2]'(by omega)) hi1 (by simpa [hc] using h1) ((hi1.cache _ _).2
          ⟨c, hcm, hco, List.getElem?_eq_getElem _⟩)
      · right
        rw [visitValueNodes, hc]
        simp only [bind, Except.bind, he, Option.isSome_none, Bool.false_eq_true, if_false]
        exact ⟨trivial, n, by simp, o, h1, h2⟩

theorem visit_outcome {g : OpGraph Op} (hg : WellFormed g) {v : Visitor Op V}
    (hv : NeverFails g v) : ∀ k, ∀ stack : List Op,
    (Finset.univ.filter (fun o => o ∉ stack)).card = k →
    ∀ op st, Inv g v st → (∀ c ∈ st.calls, c.op ≠ op) →
      (∃ st', visitOperation g v stack op st = .ok st') ∨
      (visitOperation g v stack op st = .error "AssertionError: Cycle detected" ∧
        ∃ o, Reach g op o ∧ (o ∈ stack ∨ OnCycle g o)) := by
  intro k
  induction k using Nat.strong_induction_on with
  | _ k ih =>
    intro stack hk op st hi hnc
    rw [visitOperation]
    by_cases hop : op ∈ stack
    · right
      rw [dif_pos hop]
      exact ⟨rfl, op, .refl, Or.inl hop⟩
    · rw [dif_neg hop]
      have hlt := hk ▸ notIn_card_lt stack op hop
      have nodes := nodes_outcome hg (ih _ hlt _ rfl)
      rcases nodes (g.inputs op) st hi (hg op) with ⟨p, hp⟩ | ⟨he, n, hn, o, h1, h2⟩
      · left
        obtain ⟨st1, ins⟩ := p
        obtain ⟨hi1, new, hcalls, hnew, hall⟩ := nodesPost_of_opPost
          (opPost hg v _ (stack ++ [op]) rfl) _ _ _ _ hp hi (hg op)
        have hop1 : ∀ c ∈ st1.calls, c.op ≠ op := by
          intro c hc
          rw [hcalls] at hc
          rcases List.mem_append.1 hc with hc | hc
          · exact hnc c hc
          · have := (hnew c hc).1
            simp at this
            exact this.2
        obtain ⟨outs, houts, hlen, hval⟩ := hv.visit st1.calls op ins hi1.proper hop1 hall
        obtain ⟨c, hcache⟩ := storeOutputs_total op 0 outs hval st1.cache
        refine ⟨⟨c, st1.calls ++ [⟨op, ins, outs⟩]⟩, ?_⟩
        simp only [bind, Except.bind, hp, houts, hlen, ne_eq, not_true, if_false, hcache]
      · right
        simp only [bind, Except.bind, he]
        refine ⟨trivial, ?_⟩
        have hdep : Dep g op n.1 := ⟨n.2, hn⟩
        rcases h2 with h2 | h2
        · rcases List.mem_append.1 h2 with h2 | h2
          · exact ⟨o, .head hdep h1, Or.inl h2⟩
          · have := List.mem_singleton.1 h2
            subst this
            exact ⟨o, .refl, Or.inr (Relation.TransGen.head' hdep h1)⟩
        · exact ⟨o, .head hdep h1, Or.inr h2⟩

/-- **C31** A cycle is always reported, never followed forever: if a request depends on an
operation that depends on itself, the traversal raises an exception, whatever the visitor does. -/
theorem traverse_rejects_cycles (g : OpGraph Op) (hg : WellFormed g) (v : Visitor Op V)
    (requests : List (Op × Nat)) (hr : ∀ r ∈ requests, r.2 < g.numOutputs r.1)
    (r : Op × Nat) (hrm : r ∈ requests) (o : Op) (ho : Reach g r.1 o) (hcyc : OnCycle g o) :
    ∃ e, traverse g v requests = .error e := by
  cases h : traverse g v requests with
  | error e => exact ⟨e, rfl⟩
  | ok p =>
    obtain ⟨st, values⟩ := p
    obtain ⟨h1, h2, _⟩ := traverse_spec g hg v requests hr st values h
    obtain ⟨c, hc, rfl⟩ := (h2 o).2 ⟨r, hrm, ho⟩
    exact absurd hcyc (h1.no_cycle c hc)

/-- **C31** With a visitor that never fails, the traversal succeeds exactly if no request depends
on a cycle, and otherwise it raises the cycle error. -/
theorem traverse_outcome (g : OpGraph Op) (hg : WellFormed g) (v : Visitor Op V)
    (hv : NeverFails g v) (requests : List (Op × Nat))
    (hr : ∀ r ∈ requests, r.2 < g.numOutputs r.1) :
    ((∃ p, traverse g v requests = .ok p) ↔
      ∀ r ∈ requests, ∀ o, Reach g r.1 o → ¬ OnCycle g o) ∧
    ((∃ r ∈ requests, ∃ o, Reach g r.1 o ∧ OnCycle g o) →
      traverse g v requests = .error "AssertionError: Cycle detected") := by
  have nodes : ∀ ns st, Inv g v st → (∀ n ∈ ns, n.2 < g.numOutputs n.1) →
      (∃ p, visitValueNodes g v [] ns st = .ok p) ∨
      (visitValueNodes g v [] ns st = .error "AssertionError: Cycle detected" ∧
        ∃ n ∈ ns, ∃ o, Reach g n.1 o ∧ OnCycle g o) := by
    intro ns st h1 h2
    simpa using nodes_outcome hg (visit_outcome hg hv _ [] rfl) ns st h1 h2
  have hmain := nodes requests _ (inv_init g v) hr
  have hrej : ∀ r ∈ requests, ∀ o, Reach g r.1 o → OnCycle g o →
      traverse g v requests = .error "AssertionError: Cycle detected" := by
    intro r hrm o h1 h2
    rcases hmain with ⟨p, hp⟩ | ⟨he, _⟩
    · obtain ⟨e, he⟩ := traverse_rejects_cycles g hg v requests hr r hrm o h1 h2
      unfold traverse at he
      rw [hp] at he; cases he
    · exact he
  refine ⟨⟨?_, ?_⟩, ?_⟩
  · rintro ⟨p, hp⟩ r hrm o h1 h2
    rw [hrej r hrm o h1 h2] at hp; cases hp
  · intro h
    rcases hmain with hp | ⟨_, n, hn, o, h1, h2⟩
    · exact hp
    · exact absurd h2 (h n hn o h1)
  · rintro ⟨r, hrm, o, h1, h2⟩
    exact hrej r hrm o h1 h2

/-- **C31** A value node with an index that is not an output of its operation cannot be built, so
the graphs and the requests above are well formed. -/
theorem valueNode_ok_iff (g : OpGraph Op) (op : Op) (index : Int) (n : Op × Nat) :
    g.valueNode op index = .ok n ↔
      n.1 = op ∧ (n.2 : Int) = index ∧ n.2 < g.numOutputs n.1 := by
  unfold OpGraph.valueNode
  split
  · rename_i h
    obtain ⟨o, i⟩ := n
    simp only [Except.ok.injEq, Prod.mk.injEq]
    constructor
    · rintro ⟨rfl, rfl⟩
      exact ⟨rfl, by omega, by omega⟩
    · rintro ⟨rfl, h2, _⟩
      exact ⟨rfl, by omega⟩
  · rename_i h
    constructor
    · intro h; cases h
    · rintro ⟨rfl, h2, h3⟩
      exact absurd ⟨by omega, by omega⟩ h

/-! ### The hypotheses are met -/

/-- A diamond: 3 depends on both outputs of 1 and on 2; 1 and 2 depend on 0. -/
def diamond : OpGraph (Fin 4) where
  inputs := ![[], [(0, 0)], [(0, 0)], [(1, 0), (2, 0), (1, 1)]]
  numOutputs := ![1, 2, 1, 1]

/-- Two operations that depend on each other. -/
def loop : OpGraph (Fin 2) where
  inputs := ![[(1, 0)], [(0, 0)]]
  numOutputs := ![1, 1]

/-- A visitor that gives its operation and the sum of its inputs for every output. -/
def sumVisitor {n : Nat} (g : OpGraph (Fin n)) : Visitor (Fin n) Nat where
  visit _ op ins := .ok (List.replicate (g.numOutputs op) (op.val + ins.sum + 1))
  validate _ := .ok ()

theorem sumVisitor_neverFails {n : Nat} (g : OpGraph (Fin n)) : NeverFails g (sumVisitor g) where
  visit _ op ins _ _ _ := ⟨_, rfl, by simp, fun _ _ => rfl⟩

theorem diamond_wf : WellFormed diamond := by unfold WellFormed; decide

theorem diamond_acyclic (o : Fin 4) : ¬ OnCycle diamond o := by
  have hdep : ∀ a b, Dep diamond a b → b < a := by
    rintro a b ⟨i, hi⟩
    revert a
    have : ∀ a : Fin 4, ∀ n ∈ diamond.inputs a, n.1 < a := by decide
    exact fun a h => this a _ h
  have : ∀ a b, Relation.TransGen (Dep diamond) a b → b < a := by
    intro a b h
    induction h with
    | single h => exact hdep _ _ h
    | tail _ h ih => exact lt_trans (hdep _ _ h) ih
  exact fun h => lt_irrefl _ (this _ _ h)

example : ∃ st values,
    traverse diamond (sumVisitor diamond) [(3, 0), (1, 1)] = .ok (st, values) ∧
    (st.calls.map (fun c => c.op)).count (0 : Fin 4) = 1 := by
  obtain ⟨⟨st, values⟩, h⟩ := ((traverse_outcome diamond diamond_wf _ (sumVisitor_neverFails _)
    [(3, 0), (1, 1)] (by decide)).1).2 (fun _ _ o _ => diamond_acyclic o)
  refine ⟨st, values, h, traverse_exactly_once diamond diamond_wf _ _ (by decide) st values h 0
    (3, 0) (by simp) ?_⟩
  exact .head (b := 1) ⟨0, by decide⟩ (.single ⟨0, by decide⟩)

example : traverse loop (sumVisitor loop) [(0, 0)] = .error "AssertionError: Cycle detected" :=
  (traverse_outcome loop (by unfold WellFormed; decide) _ (sumVisitor_neverFails _) [(0, 0)] (by decide)).2
    ⟨(0, 0), by simp, 0, .refl, .tail (b := 1) (.single ⟨0, by decide⟩) ⟨0, by decide⟩⟩

example : diamond.valueNode 1 1 = .ok (1, 1) ∧
    diamond.valueNode 1 2 = .error "ValueError: value_index out of range" := by
  constructor <;> rfl

end TFT.Graph
