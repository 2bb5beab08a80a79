import Verif.Pipeline.ApiUse
import Verif.Cache.OutputProps

/-!
# What the counters of the use of the API say (C101)
-/

namespace TFT.ApiUse

open TFT.OutputCache

namespace Spec

mutual
/-- The calls that are made, each with the number of decorated functions it is made in, and whether
an exception is raised. -/
def calls (depth : Nat) : Stmt → List (Nat × Collection × String) × Bool
  | .call c name body => ((depth, c, name) :: (callsAll (depth + 1) body).1,
      (callsAll (depth + 1) body).2)
  | .raise => ([], true)
  | .attempt body handler =>
    if (callsAll depth body).2 then
      ((callsAll depth body).1 ++ (callsAll depth handler).1, (callsAll depth handler).2)
    else ((callsAll depth body).1, false)

@[inherit_doc calls]
def callsAll (depth : Nat) : List Stmt → List (Nat × Collection × String) × Bool
  | [] => ([], false)
  | x :: xs =>
    if (calls depth x).2 then ((calls depth x).1, true)
    else ((calls depth x).1 ++ (callsAll depth xs).1, (callsAll depth xs).2)
end

end Spec
open Spec

mutual
theorem calls_deep (d : Nat) (x : Stmt) : ∀ t ∈ (calls d x).1, d ≤ t.1 := by
  cases x with
  | call c name body =>
    intro t ht
    simp only [calls, List.mem_cons] at ht
    rcases ht with rfl | ht
    · exact Nat.le_refl _
    · exact Nat.le_of_succ_le (callsAll_deep (d + 1) body t ht)
  | raise => simp [calls]
  | attempt body handler =>
    intro t ht
    simp only [calls] at ht
    split at ht
    · rcases List.mem_append.1 ht with ht | ht
      · exact callsAll_deep d body t ht
      · exact callsAll_deep d handler t ht
    · exact callsAll_deep d body t ht

theorem callsAll_deep (d : Nat) (xs : List Stmt) : ∀ t ∈ (callsAll d xs).1, d ≤ t.1 := by
  cases xs with
  | nil => simp [callsAll]
  | cons x xs =>
    intro t ht
    simp only [callsAll] at ht
    split at ht
    · exact calls_deep d x t ht
    · rcases List.mem_append.1 ht with ht | ht
      · exact calls_deep d x t ht
      · exact callsAll_deep d xs t ht
end

mutual
theorem run_inside (d : Nat) (s : State) (hs : s.inContext = true) (x : Stmt) :
    x.run s = (s, (calls d x).2) := by
  cases x with
  | call c name body =>
    simp only [Stmt.run, hs, if_true, calls]
    exact runAll_inside (d + 1) s hs body
  | raise => simp [Stmt.run, calls]
  | attempt body handler =>
    simp only [Stmt.run, calls, runAll_inside d s hs body, runAll_inside d s hs handler]
    split
    · rfl
    · next h => simpa using h

theorem runAll_inside (d : Nat) (s : State) (hs : s.inContext = true) (xs : List Stmt) :
    runAll s xs = (s, (callsAll d xs).2) := by
  cases xs with
  | nil => simp [runAll, callsAll]
  | cons x xs =>
    simp only [runAll, callsAll, run_inside d s hs x, runAll_inside d s hs xs]
    split
    · next h => simpa using h
    · rfl
end

/-- The counters of `s'` are those of `s` plus the outermost calls in `l`. -/
structure Counted (s s' : State) (l : List (Nat × Collection × String)) : Prop where
  inContext : s'.inContext = false
  nodup : (∀ c, ((s.counters c).map Prod.fst).Nodup) → ∀ c, ((s'.counters c).map Prod.fst).Nodup
  count : ∀ c n, ((s'.counters c).lookup n).getD 0
    = ((s.counters c).lookup n).getD 0 + l.count (0, c, n)

theorem Counted.trans {s s' s'' : State} {l l' : List (Nat × Collection × String)}
    (h : Counted s s' l) (h' : Counted s' s'' l') : Counted s s'' (l ++ l') :=
  ⟨h'.inContext, fun hn => h'.nodup (h.nodup hn), fun c n => by
    rw [h'.count, h.count, List.count_append, Nat.add_assoc]⟩

theorem counted_call (s : State) (c : Collection) (name : String)
    (l : List (Nat × Collection × String)) (hl : ∀ t ∈ l, 1 ≤ t.1) :
    Counted s { { s with inContext := true }.count c name with inContext := false }
      ((0, c, name) :: l) := by
  refine ⟨rfl, ?_, ?_⟩
  · intro hn c'
    simp only [State.count]
    split
    · exact put_nodup (hn c) _ _
    · exact hn c'
  · intro c' n
    have h0 : l.count (0, c', n) = 0 := List.count_eq_zero.2 fun hm => by
      have := hl _ hm
      simp at this
    rw [List.count_cons, h0]
    simp only [State.count]
    by_cases hc : c' = c
    · subst hc
      simp only [if_true, lookup_put]
      by_cases hn : n = name
      · subst hn; simp
      · simp [hn, Ne.symm hn]
    · simp [hc, Ne.symm hc]

mutual
theorem run_outside (s : State) (hs : s.inContext = false) (x : Stmt) :
    Counted s (x.run s).1 (calls 0 x).1 ∧ (x.run s).2 = (calls 0 x).2 := by
  cases x with
  | call c name body =>
    have hr := runAll_inside 1 ({ s with inContext := true }.count c name) rfl body
    simp only [Stmt.run, hs, Bool.false_eq_true, if_false, calls]
    rw [show ({ s with inContext := true } : State) = ⟨true, s.counters⟩ from rfl] at hr
    simp only [hr]
    exact ⟨counted_call s c name _ (callsAll_deep 1 body), trivial⟩
  | raise => exact ⟨⟨hs, fun h => h, fun c n => by simp [Stmt.run, calls]⟩, rfl⟩
  | attempt body handler =>
    obtain ⟨h1, h2⟩ := runAll_outside s hs body
    simp only [Stmt.run, calls, h2]
    split
    · next h =>
      obtain ⟨h3, h4⟩ := runAll_outside (runAll s body).1 h1.inContext handler
      exact ⟨h1.trans h3, h4⟩
    · next h => exact ⟨h1, by rw [h2]; simpa using h⟩

theorem runAll_outside (s : State) (hs : s.inContext = false) (xs : List Stmt) :
    Counted s (runAll s xs).1 (callsAll 0 xs).1 ∧ (runAll s xs).2 = (callsAll 0 xs).2 := by
  cases xs with
  | nil => exact ⟨⟨hs, fun h => h, fun c n => by simp [runAll, callsAll]⟩, rfl⟩
  | cons x xs =>
    obtain ⟨h1, h2⟩ := run_outside s hs x
    simp only [runAll, callsAll, h2]
    split
    · next h => exact ⟨h1, by rw [h2]; exact h⟩
    · next h =>
      obtain ⟨h3, h4⟩ := runAll_outside (x.run s).1 h1.inContext xs
      exact ⟨h1.trans h3, h4⟩
end

theorem metric_counter {d : List (String × Nat)} (hd : (d.map Prod.fst).Nodup)
    (pre : List Char) (n : String) :
    metric (d.map fun p => (pre ++ p.1.toList, p.2)) (pre ++ n.toList) = (d.lookup n).getD 0 := by
  induction d with
  | nil => simp [metric]
  | cons p d ih =>
    obtain ⟨x, y⟩ := p
    simp only [List.map_cons, List.nodup_cons] at hd
    have ih := ih hd.2
    rw [List.lookup_cons]
    simp only [metric, List.map_cons, List.filter_cons, List.append_cancel_left_eq,
      String.toList_inj] at ih ⊢
    by_cases hx : n = x
    · subst hx
      have h0 : d.lookup n = none := (lookup_none_iff d n).2 hd.1
      rw [h0] at ih
      simp only [decide_true, if_true, List.map_cons, List.sum_cons, beq_self_eq_true,
        Option.getD_some]
      rw [ih]; rfl
    · have : (n == x) = false := by simpa using hx
      simp only [this, decide_eq_true_eq, Ne.symm hx, if_false]
      exact ih

theorem prefix_ne {c c' : Collection} (h : c ≠ c') (a b : List Char) :
    c'.prefix ++ a ≠ c.prefix ++ b := by
  intro he
  have := congrArg (fun l => l[4]?) he
  cases c <;> cases c' <;> simp [Collection.prefix] at this h

theorem metric_other {c c' : Collection} (h : c ≠ c') (d : List (String × Nat)) (n : List Char) :
    metric (d.map fun p => (c'.prefix ++ p.1.toList, p.2)) (c.prefix ++ n) = 0 := by
  have : (d.map fun p => (c'.prefix ++ p.1.toList, p.2)).filter (fun p => p.1 = c.prefix ++ n)
      = [] := by
    rw [List.filter_eq_nil_iff]
    intro p hp
    obtain ⟨q, _, rfl⟩ := List.mem_map.1 hp
    simpa using prefix_ne h _ _
  rw [metric, this]; rfl

/-- **C101.** After a function was traced in a new graph, the metric of a function of the API counts
the calls of it that were made, whether or not they failed, other than those that functions of the
API make themselves. The counts do not depend on what was traced before: the next function is traced
outside of a logging context again, also after an exception. -/
theorem outermost_calls_are_counted (f : List Stmt) :
    (runAll (newGraph false) f).1.inContext = false ∧
    (runAll (newGraph false) f).2 = (callsAll 0 f).2 ∧
    ∀ c name, metric (increments (runAll (newGraph false) f).1) (c.prefix ++ name.toList)
      = (callsAll 0 f).1.count (0, c, name) := by
  obtain ⟨h, hr⟩ := runAll_outside (newGraph false) rfl f
  refine ⟨h.inContext, hr, fun c name => ?_⟩
  have hn := h.nodup (fun _ => by simp [newGraph])
  have hc := h.count c name
  simp only [newGraph, List.lookup_nil, Option.getD_none, Nat.zero_add] at hc
  rw [← hc]
  have happ : ∀ (a b : List (List Char × Nat)) (x : List Char),
      metric (a ++ b) x = metric a x + metric b x := by
    intro a b x; simp [metric]
  simp only [increments, List.flatMap_cons, List.flatMap_nil, List.append_nil]
  rw [happ]
  cases c
  · rw [metric_other (c := .analyzer) (c' := .mapper) (by decide)]
    exact metric_counter (hn .analyzer) _ _
  · rw [metric_other (c := .mapper) (c' := .analyzer) (by decide), Nat.zero_add]
    exact metric_counter (hn .mapper) _ _

/-- A function that calls `scale_to_0_1` twice, which calls `min`, and `min` once, in a `try` whose
body then fails. -/
def exampleFunction : List Stmt :=
  let scale := Stmt.call .mapper "scale_to_0_1" [.call .analyzer "min" []]
  [scale, .attempt [.call .analyzer "min" [.raise], scale] [scale]]

example :
    metric (increments (runAll (newGraph false) exampleFunction).1)
      (Collection.prefix .mapper ++ "scale_to_0_1".toList) = 2 ∧
    metric (increments (runAll (newGraph false) exampleFunction).1)
      (Collection.prefix .analyzer ++ "min".toList) = 1 := by
  rw [(outermost_calls_are_counted exampleFunction).2.2, (outermost_calls_are_counted exampleFunction).2.2]
  simp [exampleFunction, callsAll, calls]

end TFT.ApiUse
