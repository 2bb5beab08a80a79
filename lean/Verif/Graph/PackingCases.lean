import Verif.Graph.PackingBeam
import Mathlib.Algebra.BigOperators.Group.List.Basic

/-!
# Combiner packing: cases
-/

namespace TFT.Graph.Packing

/-- **C64**, for the packed combiners of `Combine/Packed` and any combiners: packing does not change
the saved model or the cache. Same restriction as `packing_keeps_results_partial`. -/
theorem packing_keeps_analyses_partial {C Val Acc Out : Type} [DecidableEq C]
    (comb : C → Combiner Acc (List Val) Out) (component : Nat → Out → Except Err Out)
    (other : Def C → List (Coll Val Acc Out) → Except Err (List (Coll Val Acc Out)))
    (ho : ∀ d xs ys, d.kind = .createSavedModel → List.Perm xs ys → other d xs = other d ys)
    (target : Node C) (cache : List (Node C)) (hb : Built target cache) (phases : Nat)
    (h1 : phases ≤ 1 → OnePhase target cache) (v : Coll Val Acc Out)
    (hv : target.eval (beam comb component other) = .ok v) :
    ∃ target' cache', pack target cache phases = .ok (target', cache') ∧
      target'.eval (beam comb component other) = .ok v ∧
      List.Forall₂ (fun n n' : Node C => n'.eval (beam comb component other) = n.eval (beam comb component other))
        cache cache' :=
  packing_keeps_results_partial _ (beam_lawful comb component other ho) target cache hb phases h1 v hv

namespace Cases

/-! Two analyzers, a sum of `x` and a number of batches of `v`, whose result goes through two more
operations, as those of `tft.experimental.approximate_vocabulary` do. -/

/-- The combiners: a sum and a count. -/
def comb (c : Bool) : Combiner Int (List Int) Int where
  create := 0
  addInput := fun a vs => .ok (if c then a + vs.sum else a + 1)
  merge := fun as => .ok as.sum
  extract := fun a => .ok a

/-- The outputs of a collection. -/
def toOuts : Coll Int Int Int → List Int
  | .outs os => os
  | _ => []

/-- The other operations: two batches; bindings; the saved model as the sum of what is bound; the
reserved tokens; and operations that put their inputs together. -/
def other (d : Def Bool) (xs : List (Coll Int Int Int)) : Except Err (List (Coll Int Int Int)) :=
  match d.kind with
  | .applySavedModel => .ok [.dicts [[("x", 3), ("v", 5)], [("x", 4), ("v", 6)]]]
  | .createSavedModel => .ok [.outs [(xs.map (fun x => (toOuts x).sum)).sum]]
  | _ => if xs = [] then .ok [.outs [100]] else .ok [.outs (xs.flatMap toOuts)]

theorem other_perm : ∀ d xs ys, d.kind = .createSavedModel → List.Perm xs ys → other d xs = other d ys := by
  intro d xs ys hd hp
  unfold other
  simp only [hd]
  rw [(hp.map (fun x => (toOuts x).sum)).sum_eq]

/-- What the operations compute. -/
def meaning : Meaning Bool (Coll Int Int Int) := beam comb (fun _ x => .ok x) other

def applied : Node Bool := .mk ⟨"Apply", .applySavedModel⟩ [] 0
def x : Node Bool := .mk ⟨"x", .extractFromDict (.tuple ["x"])⟩ [applied] 0
def v : Node Bool := .mk ⟨"v", .extractFromDict (.tuple ["v"])⟩ [applied] 0
def accX : Node Bool := .mk ⟨"accumulate x", .accumulate true⟩ [x] 0
def accV : Node Bool := .mk ⟨"accumulate v", .accumulate false⟩ [v] 0
def outX : Node Bool := .mk ⟨"outputs x", .extractOutputs 1⟩ [.mk ⟨"merge x", .merge true⟩ [accX] 0] 0
def outV : Node Bool := .mk ⟨"outputs v", .extractOutputs 1⟩ [.mk ⟨"merge v", .merge false⟩ [accV] 0] 0
def lists : Node Bool := .mk ⟨"lists", .other 1⟩ [outV] 0
/-- The reserved tokens, `analyzer_nodes.py:1100-1110`. -/
def reserved : Node Bool := .mk ⟨"reserved", .other 1⟩ [] 0
def bindX : Node Bool := .mk ⟨"bind x", .createTensorBinding⟩ [outX] 0
def bindV : Node Bool := .mk ⟨"bind v", .createTensorBinding⟩ [.mk ⟨"write", .other 1⟩ [lists] 0] 0
def bindReserved : Node Bool :=
  .mk ⟨"bind v", .createTensorBinding⟩ [.mk ⟨"write", .other 1⟩ [lists, reserved] 0] 0
/-- Without reserved tokens. -/
def plain : Node Bool := .mk ⟨"model", .createSavedModel⟩ [bindV, bindX] 0
/-- With reserved tokens. -/
def withReserved : Node Bool := .mk ⟨"model", .createSavedModel⟩ [bindReserved, bindX] 0
/-- The accumulators of `x` for the cache. -/
def encoded : Node Bool := .mk ⟨"encode", .other 1⟩ [accX] 0

theorem not_prefixed (p s : String) (h : p.toList.isPrefixOf s.toList = false) (l : String) :
    s ≠ p ++ l ++ "]" := by
  rintro rfl
  rw [String.toList_append, String.toList_append, List.append_assoc] at h
  rw [List.isPrefixOf_iff_prefix.2 (List.prefix_append _ _)] at h
  cases h

/-- No label starts in a way that packing uses. -/
def freshLabel (s : String) : Bool :=
  ["PackedCombineAccumulate[", "AddKey[", "FlattenInputForPackedCombineMerge[", "PackedCombineMerge[",
    "ExtractFromDict[", "ExtractPackedCombineMergeOutputs["].all (fun p => !p.toList.isPrefixOf s.toList)

theorem fresh_of (U : List (Oper Bool)) (h : ∀ o ∈ U, freshLabel o.1.label = true)
    (hk : ∀ o ∈ U, ∀ ws, o.1.kind ≠ .packedMerge ws) : Fresh U := by
  have key : ∀ p ∈ ["PackedCombineAccumulate[", "AddKey[", "FlattenInputForPackedCombineMerge[",
      "PackedCombineMerge[", "ExtractFromDict[", "ExtractPackedCombineMergeOutputs["],
      ∀ o ∈ U, ∀ l, o.1.label ≠ p ++ l ++ "]" := by
    intro p hp o ho l
    have := h o ho
    unfold freshLabel at this
    rw [List.all_eq_true] at this
    exact not_prefixed p _ (by simpa using this p hp) l
  refine ⟨key _ (by simp), ⟨key _ (by simp), key _ (by simp), key _ (by simp), key _ (by simp),
    key _ (by simp), hk⟩⟩

/-- `Built` from checks on the operations. -/
theorem built_of (target : Node Bool) (cache : List (Node Bool))
    (h1 : UniqueLabels (opersList (target :: cache))) (h2 : Indexed (opersList (target :: cache)))
    (h3 : ∀ n ∈ target :: cache, n.index < n.d.numOutputs)
    (h4 : ∀ o ∈ opersList (target :: cache), freshLabel o.1.label = true)
    (h5 : ∀ o ∈ opersList (target :: cache), match o.1.kind with
      | .packedMerge _ => False
      | .accumulate _ => o.2 = [x] ∨ o.2 = [v]
      | _ => True) : Built target cache := by
  refine ⟨h1, h2, h3, ?_, fresh_of _ h4 ?_⟩
  · intro o ho c hc
    have := h5 o ho
    rw [hc] at this
    rcases this with h | h
    · exact ⟨x, h, fun keys _ => ⟨applied, rfl, rfl⟩⟩
    · exact ⟨v, h, fun keys _ => ⟨applied, rfl, rfl⟩⟩
  · intro o ho ws hk
    have := h5 o ho
    rw [hk] at this
    exact this

theorem plain_built : Built plain [encoded] := by
  refine built_of _ _ (by unfold UniqueLabels; decide +kernel) (by unfold Indexed; decide +kernel)
    (by decide +kernel) (by decide +kernel) ?_
  intro o ho
  simp [plain, encoded, bindV, bindX, lists, outX, outV, accX, accV, x, v, applied, opersList, Node.opers] at ho
  rcases ho with rfl | rfl | rfl | rfl | rfl | rfl | rfl | rfl | rfl | rfl | rfl | rfl | rfl | rfl | rfl | rfl | rfl | rfl | rfl | rfl | rfl <;>
    simp [x, v, applied]

theorem withReserved_built : Built withReserved [encoded] := by
  refine built_of _ _ (by unfold UniqueLabels; decide +kernel) (by unfold Indexed; decide +kernel)
    (by decide +kernel) (by decide +kernel) ?_
  intro o ho
  simp [withReserved, reserved, encoded, bindReserved, bindX, lists, outX, outV, accX, accV, x, v, applied, opersList, Node.opers] at ho
  rcases ho with rfl | rfl | rfl | rfl | rfl | rfl | rfl | rfl | rfl | rfl | rfl | rfl | rfl | rfl | rfl | rfl | rfl | rfl | rfl | rfl | rfl | rfl <;>
    simp [x, v, applied]

theorem noOutputs_merge (n : Node Bool) (h : n = .mk ⟨"merge x", .merge true⟩ [accX] 0 ∨
    n = .mk ⟨"merge v", .merge false⟩ [accV] 0 ∨ n = encoded) : NoOutputs n := by
  intro o ho k
  rcases h with rfl | rfl | rfl <;>
    simp [encoded, accX, accV, x, v, applied, opersList, Node.opers] at ho <;>
    rcases ho with rfl | rfl | rfl | rfl <;> simp

theorem plain_onePhase : OnePhase plain [encoded] where
  merges := by
    intro o ho n hk
    simp [plain, encoded, bindV, bindX, lists, outX, outV, accX, accV, x, v, applied, opersList, Node.opers] at ho
    rcases ho with rfl | rfl | rfl | rfl | rfl | rfl | rfl | rfl | rfl | rfl | rfl | rfl | rfl | rfl | rfl | rfl | rfl | rfl | rfl | rfl | rfl <;>
      first
      | (simp at hk; done)
      | exact ⟨_, rfl, fun c _ => ⟨_, rfl⟩⟩
  single := by
    have h : ∀ o ∈ opersList (plain :: [encoded]), ∀ o' ∈ opersList (plain :: [encoded]),
        ∀ x ∈ o.2, ∀ x' ∈ o'.2, x.oper = x'.oper → x.oper.1.kind = .merge true ∨ x.oper.1.kind = .merge false →
        o = o' := by
      decide +kernel
    have h2 : ∀ o ∈ opersList (plain :: [encoded]), match o.1.kind with
        | .extractOutputs _ => ∀ x ∈ o.2, x.oper.1.kind = .merge true ∨ x.oper.1.kind = .merge false
        | _ => True := by
      intro o ho
      simp [plain, encoded, bindV, bindX, lists, outX, outV, accX, accV, x, v, applied, opersList, Node.opers] at ho
      rcases ho with rfl | rfl | rfl | rfl | rfl | rfl | rfl | rfl | rfl | rfl | rfl | rfl | rfl | rfl | rfl | rfl | rfl | rfl | rfl | rfl | rfl <;>
        simp [Node.oper]
    intro o ho o' ho' n n' hk hk' x hx x' hx' he
    have := h2 o ho
    rw [hk] at this
    exact h o ho o' ho' x hx x' hx' he (this x hx)
  savedModel := rfl
  others := by
    intro o ho hk hne
    simp [plain, encoded, bindV, bindX, lists, outX, outV, accX, accV, x, v, applied, opersList, Node.opers] at ho
    rcases ho with rfl | rfl | rfl | rfl | rfl | rfl | rfl | rfl | rfl | rfl | rfl | rfl | rfl | rfl | rfl | rfl | rfl | rfl | rfl | rfl | rfl <;>
      first
      | (simp at hk; done)
      | exact absurd rfl hne
  bindings := by
    intro b hb
    have : b = bindV ∨ b = bindX := by simpa [plain, Node.ins] using hb
    rcases this with rfl | rfl
    · exact ⟨rfl, Or.inr ⟨3, by omega, .step 2 _ _ (Or.inl rfl) (.step 1 _ _ (Or.inr rfl)
        (.step 0 _ _ (Or.inr rfl) (.outputs _ _ _ 1 rfl (noOutputs_merge _ (by simp)))))⟩⟩
    · exact ⟨rfl, Or.inr ⟨1, by omega, .step 0 _ _ (Or.inl rfl)
        (.outputs _ _ _ 1 rfl (noOutputs_merge _ (by simp)))⟩⟩
  cached := by
    intro n hn
    rw [List.mem_singleton] at hn
    exact noOutputs_merge n (by simp [hn])

theorem ok_of_toOption {α : Type} (e : Except Err α) (a : α) (h : e.toOption = some a) : e = .ok a := by
  cases e with
  | error _ => cases h
  | ok b => exact congrArg Except.ok (Option.some.inj h)

theorem plain_eval : plain.eval meaning = .ok (.outs [9]) := ok_of_toOption _ _ (by decide +kernel)

/-- Non-vacuity of the theorems about packing: a graph with two analyzers, one of them used by the
cache, for one phase (accumulators and merges are packed) and for two (accumulators only). -/
example : ∃ t c, pack plain [encoded] 1 = .ok (t, c) ∧ t.eval meaning = .ok (.outs [9]) ∧
    List.Forall₂ (fun n n' : Node Bool => n'.eval meaning = n.eval meaning) [encoded] c ∧
    UniqueLabels (opersList (t :: c)) ∧ t ≠ plain := by
  obtain ⟨t, c, h1, h2, h3⟩ := packing_keeps_analyses_partial comb (fun _ x => .ok x) other other_perm plain
    [encoded] plain_built 1 (fun _ => plain_onePhase) _ plain_eval
  refine ⟨t, c, h1, h2, h3, packed_labels_are_unique plain [encoded] plain_built 1
    (fun _ => plain_onePhase) t c h1, ?_⟩
  rintro rfl
  have : ((pack plain [encoded] 1).toOption.map Prod.fst) ≠ some plain := by decide +kernel
  apply this
  rw [h1]
  rfl

example : ∃ t c, pack plain [encoded] 2 = .ok (t, c) ∧ t.eval meaning = .ok (.outs [9]) :=
  let ⟨t, c, h1, h2, _⟩ := packing_keeps_analyses_partial comb (fun _ x => .ok x) other other_perm plain
    [encoded] plain_built 2 (fun h => absurd h (by omega)) _ plain_eval
  ⟨t, c, h1, h2⟩

/-- Non-vacuity of `one_packed_merge`: there is a packed merge. -/
example : ((pack plain [encoded] 1).toOption.map (fun r => (r.1.opers.filter (fun o =>
    match o.1.kind with
    | .packedMerge ws => ws.length == 2
    | _ => false)).eraseDups.length)) = some 1 := by decide +kernel

/-- **C64** fails for `tft.experimental.approximate_vocabulary(reserved_tokens=...)` beside another
analyzer with a global combine, in a `preprocessing_fn` of one phase: the operation that writes the
vocabulary is rebuilt with its first input only, without the reserved tokens. Here the saved model gets a
vocabulary without them: the total is 9 instead of 109. -/
theorem reserved_tokens_are_lost :
    Built withReserved [encoded] ∧ withReserved.eval meaning = .ok (.outs [109]) ∧
      ∃ t c, pack withReserved [encoded] 1 = .ok (t, c) ∧ t.eval meaning = .ok (.outs [9]) := by
  refine ⟨withReserved_built, ok_of_toOption _ _ (by decide +kernel), ?_⟩
  have h : ((pack withReserved [encoded] 1).toOption.bind (fun r => (r.1.eval meaning).toOption)) =
      some (.outs [9]) := by decide +kernel
  cases hp : pack withReserved [encoded] 1 with
  | error e => rw [hp] at h; cases h
  | ok r =>
    rw [hp] at h
    exact ⟨r.1, r.2, rfl, ok_of_toOption _ _ h⟩

end Cases

end TFT.Graph.Packing
