import Verif.Graph.PackingProps
import Verif.Combine.PackedProps

/-!
# Combiner packing: the operations of Beam

The assumptions `Meaning.Lawful` hold of the packed combiners as they are modelled in
`Combine/Packed`, for any combiners, when each `CombineGlobally` adds its inputs in order.
(`packed_equals_separate` is about any other way to run them.)
-/

namespace TFT.Graph.Packing

/-- A PCollection: batches of named arrays, tuples of arrays, accumulators, dicts of accumulators,
accumulators with keys, outputs, and dicts of outputs. `other` is anything else. -/
inductive Coll (Val Acc Out : Type) where
  | dicts (ds : List (Dict Val))
  | tuples (ts : List (List Val))
  | accs (as : List Acc)
  | accDicts (ds : List (Dict Acc))
  | keyed (ks : List (String × Acc))
  | outs (os : List Out)
  | outDicts (ds : List (Dict Out))
  | other (x : List Val)
  deriving DecidableEq

variable {C Val Acc Out : Type}

/-- The inputs are added one after the other. -/
def inOrder {α : Type} (xs : List α) : Sched α := xs.foldl Sched.add .create

/-- `ExtractFromDict`, `beam/impl.py:887-910`. -/
def extractOf : Keys → Coll Val Acc Out → Except Err (Coll Val Acc Out)
  | .tuple ks, .dicts ds => do
    let ts ← seqExcept (ds.map (extractKeys ks))
    .ok (.tuples ts)
  | .single k, .accDicts ds => do
    let as ← seqExcept (ds.map (fun d => dictGet d k))
    .ok (.accs as)
  | .single k, .outDicts ds => do
    let os ← seqExcept (ds.map (fun d => dictGet d k))
    .ok (.outs os)
  | _, _ => .error "TypeError"

/-- The combiner with its keys. -/
def opOf (comb : C → Combiner Acc (List Val) Out) (w : Wrapper C) : PackedOp Acc Val Out where
  combiner := comb w.combiner
  keys := match w.keys with
    | .tuple ks => ks
    | .single k => [k]
  label := w.label

/-- `CacheableCombineAccumulate`, `beam/analyzer_impls.py:1342-1356`. -/
def accumulateOf (c : Combiner Acc (List Val) Out) : Coll Val Acc Out → Except Err (Coll Val Acc Out)
  | .tuples ts => do
    let a ← (inOrder ts).run c.accumulateStage
    let a ← c.accumulateStage.extract a
    .ok (.accs [a])
  | _ => .error "TypeError"

/-- `CacheableCombineMerge`, `beam/analyzer_impls.py:1359-1372`. -/
def mergeOf (c : Combiner Acc (List Val) Out) : Coll Val Acc Out → Except Err (Coll Val Acc Out)
  | .accs as => do
    let a ← (inOrder (as.map some)).run c.mergeStage
    let o ← c.mergeStage.extract a
    .ok (.outs [o])
  | _ => .error "TypeError"

/-- `PackedCombineAccumulate`, `beam/analyzer_impls.py:1295-1317`. -/
def packedAccumulateOf (ops : List (PackedOp Acc Val Out)) :
    Coll Val Acc Out → Except Err (Coll Val Acc Out)
  | .dicts ds => do
    let a ← (inOrder ds).run (packedAccumulate ops)
    let d ← (packedAccumulate ops).extract a
    .ok (.accDicts [d])
  | _ => .error "TypeError"

/-- `PackedCombineMerge`, `beam/analyzer_impls.py:1320-1339`. -/
def packedMergeRun (ops : List (PackedOp Acc Val Out)) :
    Coll Val Acc Out → Except Err (Coll Val Acc Out)
  | .keyed ks => do
    let a ← (inOrder (ks.map (fun p => (p.1, some p.2)))).run (packedMerge ops)
    let d ← (packedMerge ops).extract a
    .ok (.outDicts [d])
  | _ => .error "TypeError"

/-- `AddKey`, `beam/analyzer_impls.py:1549-1564`. -/
def addKeyOf (k : String) : Coll Val Acc Out → Except Err (Coll Val Acc Out)
  | .accs as => .ok (.keyed (as.map (Prod.mk k)))
  | _ => .error "TypeError"

/-- The accumulators of a collection. -/
def Coll.toAccs : Coll Val Acc Out → List Acc
  | .accs as => as
  | _ => []

/-- The accumulators with keys of a collection. -/
def Coll.toKeyed : Coll Val Acc Out → List (String × Acc)
  | .keyed ks => ks
  | _ => []

/-- `Flatten`, `beam/impl.py` and `beam/beam_nodes.py:207-219`: of accumulators, with or without
keys. -/
def flattenOf (cs : List (Coll Val Acc Out)) : Coll Val Acc Out :=
  match cs with
  | .accs as :: rest => .accs (as ++ rest.flatMap Coll.toAccs)
  | _ => .keyed (cs.flatMap Coll.toKeyed)

/-- `ExtractCombineMergeOutputs`, `beam/analyzer_impls.py:1580-1604`, with `component` for
`lambda outputs, i=i: outputs[i]`. -/
def outputsOf (component : Nat → Out → Except Err Out) (n : Nat) :
    Coll Val Acc Out → Except Err (List (Coll Val Acc Out))
  | .outs os => seqExcept ((List.range n).map (fun i : Nat => do
      let xs ← seqExcept (os.map (component i))
      .ok (.outs xs)))
  | _ => .error "TypeError"

/-- What the operations compute. -/
def beam (comb : C → Combiner Acc (List Val) Out) (component : Nat → Out → Except Err Out)
    (other : Def C → List (Coll Val Acc Out) → Except Err (List (Coll Val Acc Out))) :
    Meaning C (Coll Val Acc Out) where
  extract := extractOf
  accumulate := fun c => accumulateOf (comb c)
  merge := fun c => mergeOf (comb c)
  outputs := outputsOf component
  flatten := flattenOf
  packedAccumulate := fun ws => packedAccumulateOf (ws.map (opOf comb))
  packedMerge := fun ws => packedMergeRun (ws.map (opOf comb))
  addKey := addKeyOf
  other := other

/-! ### Sequential runs -/

theorem inOrder_aux {α : Type} (xs : List α) (s : Sched α) (hs : s.MergesSome) :
    (xs.foldl Sched.add s).MergesSome ∧ (xs.foldl Sched.add s).inputs = s.inputs ++ xs := by
  induction xs generalizing s with
  | nil => exact ⟨hs, by simp⟩
  | cons x xs ih =>
    obtain ⟨h1, h2⟩ := ih (.add s x) (.add hs)
    exact ⟨h1, by rw [List.foldl_cons, h2]; simp [Sched.inputs]⟩

theorem inOrder_merges {α : Type} (xs : List α) : (inOrder xs).MergesSome :=
  (inOrder_aux xs .create .create).1

theorem inOrder_inputs {α : Type} (xs : List α) : (inOrder xs).inputs = xs := by
  rw [inOrder, (inOrder_aux xs .create .create).2]; simp [Sched.inputs]

/-- A sequential run from an accumulator. -/
def runFrom {A I O : Type} (c : Combiner A I O) (a : A) : List I → Except Err A
  | [] => .ok a
  | x :: xs => do
    let a ← c.addInput a x
    runFrom c a xs

theorem run_inOrder_aux {A I O : Type} (c : Combiner A I O) (xs : List I) (s : Sched I) :
    (xs.foldl Sched.add s).run c = (s.run c >>= fun a => runFrom c a xs) := by
  induction xs generalizing s with
  | nil =>
    simp only [List.foldl_nil, runFrom]
    cases s.run c <;> rfl
  | cons x xs ih =>
    rw [List.foldl_cons, ih]
    simp only [Sched.run, runFrom]
    cases s.run c <;> rfl

theorem run_inOrder {A I O : Type} (c : Combiner A I O) (xs : List I) :
    (inOrder xs).run c = runFrom c c.create xs := by
  rw [inOrder, run_inOrder_aux]
  simp [Sched.run, ok_bind]

/-- Extraction of the keys before or during the run. -/
theorem alone_run (o : PackedOp Acc Val Out) (ds : List (Dict Val)) (ts : List (List Val))
    (h : seqExcept (ds.map (extractKeys o.keys)) = .ok ts) (a : Acc) :
    runFrom o.alone.accumulateStage a ds = runFrom o.combiner.accumulateStage a ts := by
  rw [seqExcept_ok_iff] at h
  induction ds generalizing ts a with
  | nil => cases h; rfl
  | cons d ds ih =>
    rw [List.map_cons] at h
    cases h with
    | cons h1 h2 =>
      simp only [runFrom, PackedOp.alone, Combiner.accumulateStage, h1, ok_bind]
      cases o.combiner.addInput a _ with
      | error e => rfl
      | ok a' =>
        rw [ok_bind, ok_bind]
        exact ih _ h2 a'

/-- An analyzer takes its own accumulators only. -/
theorem own_run (o : PackedOp Acc Val Out) (ks : List (String × Acc)) (a : Acc) :
    runFrom o.ownMerge a (ks.map (fun p => (p.1, some p.2))) =
      runFrom o.combiner.mergeStage a ((ks.filterMap (fun p => if p.1 = o.label then some p.2 else none)).map some) := by
  induction ks generalizing a with
  | nil => rfl
  | cons p ks ih =>
    obtain ⟨k, x⟩ := p
    rw [List.map_cons, List.filterMap_cons]
    simp only [runFrom, PackedOp.ownMerge]
    by_cases hk : k = o.label
    · simp only [hk, if_true, List.map_cons, runFrom]
      have : (o.alone.mergeStage.addInput a (some x)) = o.combiner.mergeStage.addInput a (some x) := rfl
      rw [this]
      cases o.combiner.mergeStage.addInput a (some x) with
      | error e => rfl
      | ok a' => exact ih a'
    · simp only [hk, if_false]
      exact ih a

theorem own_keyed (ws : List (Wrapper C)) (xss : List (List Acc)) (hl : ws.length = xss.length)
    (hn : (ws.map Wrapper.label).Nodup) (w : Wrapper C) (xs : List Acc) (hm : (w, xs) ∈ ws.zip xss) :
    ((ws.zip xss).flatMap (fun e => e.2.map (Prod.mk e.1.label))).filterMap
      (fun p => if p.1 = w.label then some p.2 else none) = xs := by
  have hsame : ∀ ys : List Acc, (ys.map (Prod.mk w.label)).filterMap
      (fun p => if p.1 = w.label then some p.2 else none) = ys := by
    intro ys
    induction ys with
    | nil => rfl
    | cons y ys ih => simp [List.filterMap_cons] at ih ⊢
  have hdiff : ∀ (l : String), l ≠ w.label → ∀ ys : List Acc, (ys.map (Prod.mk l)).filterMap
      (fun p => if p.1 = w.label then some p.2 else none) = [] := by
    intro l hl ys
    induction ys with
    | nil => rfl
    | cons y ys ih => simp [List.filterMap_cons, hl]
  have hnone : ∀ (ws : List (Wrapper C)) (xss : List (List Acc)), w.label ∉ ws.map Wrapper.label →
      ((ws.zip xss).flatMap (fun e => e.2.map (Prod.mk e.1.label))).filterMap
        (fun p => if p.1 = w.label then some p.2 else none) = [] := by
    intro ws
    induction ws with
    | nil => intro xss _; rfl
    | cons v ws ih =>
      intro xss hnm
      cases xss with
      | nil => rfl
      | cons ys yss =>
        simp only [List.map_cons, List.mem_cons, not_or] at hnm
        rw [List.zip_cons_cons, List.flatMap_cons, List.filterMap_append, ih yss hnm.2,
          hdiff v.label (fun e => hnm.1 e.symm)]
        rfl
  induction ws generalizing xss with
  | nil => cases hm
  | cons v ws ih =>
    cases xss with
    | nil => cases hm
    | cons ys yss =>
      rw [List.zip_cons_cons] at hm ⊢
      rw [List.flatMap_cons, List.filterMap_append]
      simp only [List.map_cons, List.nodup_cons] at hn
      simp only [List.length_cons, Nat.add_right_cancel_iff] at hl
      rcases List.mem_cons.1 hm with e | hm
      · simp only [Prod.mk.injEq] at e
        obtain ⟨e1, e2⟩ := e
        subst e1; subst e2
        rw [hsame, hnone ws yss hn.1, List.append_nil]
      · have hne : v.label ≠ w.label := by
          intro e
          apply hn.1
          rw [e]
          exact List.mem_map.2 ⟨w, (List.of_mem_zip hm).1, rfl⟩
        rw [hdiff _ hne, ih yss hl hn.2 hm]
        rfl

theorem forall₂_getElem {α β : Type} {R : α → β → Prop} {l : List α} {m : List β} (h : List.Forall₂ R l m)
    (a : α) (ha : a ∈ l) : ∃ (i : Nat) (b : β), l[i]? = some a ∧ m[i]? = some b ∧ R a b := by
  obtain ⟨i, hi⟩ := List.mem_iff_getElem?.1 ha
  rw [forall₂_iff_getElem?] at h
  have hlt : i < m.length := by rw [← h.1]; exact (List.getElem?_eq_some_iff.1 hi).1
  exact ⟨i, m[i], hi, List.getElem?_eq_getElem hlt, h.2 i a _ hi (List.getElem?_eq_getElem hlt)⟩

/-- The packed combiners of `Combine/Packed` are lawful. -/
theorem beam_lawful (comb : C → Combiner Acc (List Val) Out) (component : Nat → Out → Except Err Out)
    (other : Def C → List (Coll Val Acc Out) → Except Err (List (Coll Val Acc Out)))
    (ho : ∀ d xs ys, d.kind = .createSavedModel → List.Perm xs ys → other d xs = other d ys) :
    (beam comb component other).Lawful where
  accumulate := by
    intro ws x hne hn hr
    -- the input is a collection of dicts
    obtain ⟨ds, rfl⟩ : ∃ ds, x = .dicts ds := by
      obtain ⟨w, hw⟩ := List.exists_mem_of_ne_nil ws hne
      obtain ⟨y, hy⟩ := hr w hw
      rw [Meaning.alone, bind_ok] at hy
      obtain ⟨t, h1, h2⟩ := hy
      cases x with
      | dicts ds => exact ⟨ds, rfl⟩
      | accDicts ds =>
        cases hk : w.keys with
        | tuple ks => rw [hk] at h1; cases h1
        | single k =>
          rw [hk] at h1
          simp only [beam, extractOf] at h1
          rw [bind_ok] at h1
          obtain ⟨as, _, e⟩ := h1
          cases e
          cases h2
      | outDicts ds =>
        cases hk : w.keys with
        | tuple ks => rw [hk] at h1; cases h1
        | single k =>
          rw [hk] at h1
          simp only [beam, extractOf] at h1
          rw [bind_ok] at h1
          obtain ⟨as, _, e⟩ := h1
          cases e
          cases h2
      | _ => cases hk : w.keys <;> rw [hk] at h1 <;> cases h1
    -- each combiner on its own
    have halone : ∀ w ∈ ws, ∃ a, runFrom (opOf comb w).alone.accumulateStage (opOf comb w).alone.accumulateStage.create ds = .ok a ∧
        (beam comb component other).alone w (.dicts ds) = .ok (.accs [a]) := by
      intro w hw
      obtain ⟨y, hy⟩ := hr w hw
      have hy' := hy
      rw [Meaning.alone, bind_ok] at hy
      obtain ⟨t, h1, h2⟩ := hy
      cases hk : w.keys with
      | single k => rw [hk] at h1; cases h1
      | tuple ks =>
        rw [hk] at h1
        simp only [beam, extractOf] at h1
        rw [bind_ok] at h1
        obtain ⟨ts, h3, e⟩ := h1
        cases e
        simp only [beam, accumulateOf] at h2
        rw [bind_ok] at h2
        obtain ⟨a, h4, h5⟩ := h2
        simp only [Combiner.accumulateStage, ok_bind] at h5
        cases h5
        refine ⟨a, ?_, hy'⟩
        have hkeys : (opOf comb w).keys = ks := by simp [opOf, hk]
        rw [alone_run (opOf comb w) ds ts (by rw [hkeys]; exact h3)]
        rw [run_inOrder] at h4
        exact h4
    obtain ⟨as, has⟩ := forall₂_exists (R := fun w a => runFrom (opOf comb w).alone.accumulateStage
      (opOf comb w).alone.accumulateStage.create ds = .ok a ∧
        (beam comb component other).alone w (.dicts ds) = .ok (.accs [a])) halone
    have hrun : (inOrder ds).run (packedAccumulate (ws.map (opOf comb))) = .ok as := by
      rw [(packedAccumulate_isTuple (ws.map (opOf comb))).run_iff _ (inOrder_merges ds) (fun _ _ => trivial),
        List.map_map, List.forall₂_map_left_iff]
      refine has.imp ?_
      intro w a h
      simp only [Function.comp]
      rw [run_inOrder]
      exact h.1
    have hex : (packedAccumulate (ws.map (opOf comb))).extract as =
        .ok ((ws.map Wrapper.label).zip as) := by
      simp only [packedAccumulate]
      rw [bind_ok]
      refine ⟨as, ?_, ?_⟩
      · rw [seqExcept_ok_iff]
        have hl := has.length_eq
        rw [forall₂_iff_getElem?]
        refine ⟨by simp [hl], ?_⟩
        intro i x b hx hb
        rw [List.getElem?_zipWith, hb] at hx
        simp only [Combiner.accumulateStage] at hx
        cases ho : (ws.map (opOf comb))[i]? with
        | none => rw [ho] at hx; simp at hx
        | some o => rw [ho] at hx; simpa using hx.symm
      · simp [List.map_map, Function.comp_def, opOf]
    refine ⟨.accDicts [(ws.map Wrapper.label).zip as], ?_, ?_⟩
    · simp only [beam, packedAccumulateOf, hrun, ok_bind, hex]
    · intro w hw
      obtain ⟨i, a, h1, h2, h3⟩ := forall₂_getElem has w hw
      rw [h3.2]
      simp only [beam, extractOf, List.map_cons, List.map_nil, seqExcept]
      rw [lookup_zip_nodup (ws.map Wrapper.label) as (by simp [has.length_eq]) hn i w.label a (by simp [h1]) h2]
      rfl
  merge := by
    intro ws xs hl hn hk hr
    -- the inputs are accumulators
    obtain ⟨xss, rfl⟩ : ∃ xss : List (List Acc), xs = xss.map Coll.accs := by
      clear hn hk
      induction ws generalizing xs with
      | nil =>
        cases xs with
        | nil => exact ⟨[], rfl⟩
        | cons x xs => simp at hl
      | cons w ws ih =>
        cases xs with
        | nil => simp at hl
        | cons x xs =>
          simp only [List.length_cons, Nat.add_right_cancel_iff] at hl
          rw [List.zip_cons_cons] at hr
          obtain ⟨xss, e⟩ := ih xs hl (fun e he => hr e (List.mem_cons_of_mem _ he))
          obtain ⟨z, hz⟩ := hr (w, x) (by simp)
          cases x with
          | accs as => exact ⟨as :: xss, by rw [e]; rfl⟩
          | _ => cases hz
    rw [List.length_map] at hl
    have hzip : ws.zip (xss.map (Coll.accs (Val := Val) (Out := Out))) = (ws.zip xss).map (fun e => (e.1, Coll.accs e.2)) := by
      rw [List.zip_map_right]
      rfl
    have hone : ∀ e ∈ ws.zip xss, ∃ a o, runFrom (comb e.1.combiner).mergeStage (comb e.1.combiner).mergeStage.create
        (e.2.map some) = .ok a ∧ (comb e.1.combiner).extract a = .ok o ∧
        mergeOf (comb e.1.combiner) (.accs e.2) = .ok (.outs [o]) := by
      intro e he
      obtain ⟨z, hz⟩ := hr (e.1, .accs e.2) (by rw [hzip]; exact List.mem_map.2 ⟨e, he, rfl⟩)
      have hz' := hz
      simp only [beam, mergeOf] at hz
      rw [bind_ok] at hz
      obtain ⟨a, h1, h2⟩ := hz
      rw [bind_ok] at h2
      obtain ⟨o, h3, h4⟩ := h2
      cases h4
      rw [run_inOrder] at h1
      exact ⟨a, o, h1, h3, hz'⟩
    obtain ⟨aos, haos⟩ := forall₂_exists (R := fun (e : Wrapper C × List Acc) (p : Acc × Out) =>
      runFrom (comb e.1.combiner).mergeStage (comb e.1.combiner).mergeStage.create
        (e.2.map some) = .ok p.1 ∧ (comb e.1.combiner).extract p.1 = .ok p.2 ∧
        mergeOf (Val := Val) (comb e.1.combiner) (.accs e.2) = .ok (.outs [p.2])) (l := ws.zip xss) (by
          intro e he
          obtain ⟨a, o, h1, h2, h3⟩ := hone e he
          exact ⟨(a, o), h1, h2, h3⟩)
    have hws : ws = (ws.zip xss).map Prod.fst := by rw [List.map_fst_zip (by omega)]
    set keyedAll := (ws.zip xss).flatMap (fun e => e.2.map (Prod.mk e.1.label)) with hka
    have hops : List.Forall₂ (fun w (p : Acc × Out) => ∃ xs, (w, xs) ∈ ws.zip xss ∧
        runFrom (comb w.combiner).mergeStage (comb w.combiner).mergeStage.create (xs.map some) = .ok p.1 ∧
        (comb w.combiner).extract p.1 = .ok p.2 ∧
        mergeOf (Val := Val) (comb w.combiner) (.accs xs) = .ok (.outs [p.2])) ws aos := by
      conv => arg 2; rw [hws]
      rw [List.forall₂_map_left_iff]
      have hself : List.Forall₂ (fun e (_ : Acc × Out) => e ∈ ws.zip xss) (ws.zip xss) aos := by
        rw [forall₂_iff_getElem?]
        exact ⟨haos.length_eq, fun i a b ha _ => List.mem_of_getElem? ha⟩
      have := haos
      rw [forall₂_iff_getElem?] at this hself ⊢
      refine ⟨this.1, ?_⟩
      intro i e p he hp
      obtain ⟨h1, h2, h3⟩ := this.2 i e p he hp
      exact ⟨e.2, hself.2 i e p he hp, h1, h2, h3⟩
    have hrun : (inOrder (keyedAll.map (fun p => (p.1, some p.2)))).run (packedMerge (ws.map (opOf comb))) =
        .ok (aos.map Prod.fst) := by
      have hlab : (ws.map (opOf comb)).map PackedOp.label = ws.map Wrapper.label := by
        simp [List.map_map, Function.comp_def, opOf]
      rw [(packedMerge_isTuple (ws.map (opOf comb)) (by rw [hlab]; exact hn)).run_iff _ (inOrder_merges _) (by
        intro e he
        rw [inOrder_inputs] at he
        obtain ⟨p, hp, rfl⟩ := List.mem_map.1 he
        obtain ⟨e', he', hp'⟩ := List.mem_flatMap.1 hp
        obtain ⟨x, _, rfl⟩ := List.mem_map.1 hp'
        rw [hlab]
        exact List.mem_map.2 ⟨e'.1, (List.of_mem_zip he').1, rfl⟩),
        List.map_map, List.forall₂_map_left_iff, List.forall₂_map_right_iff]
      refine hops.imp ?_
      rintro w p ⟨xs, hm, h1, h2, h3⟩
      simp only [Function.comp]
      rw [run_inOrder, own_run, hka]
      have : (opOf comb w).label = w.label := rfl
      rw [this, own_keyed ws xss hl hn w xs hm]
      exact h1
    have hex : (packedMerge (ws.map (opOf comb))).extract (aos.map Prod.fst) =
        .ok ((ws.map Wrapper.label).zip (aos.map Prod.snd)) := by
      simp only [packedMerge]
      rw [bind_ok]
      refine ⟨aos.map Prod.snd, ?_, ?_⟩
      · rw [seqExcept_ok_iff, forall₂_iff_getElem?]
        have hlen := hops.length_eq
        refine ⟨by simp [hlen], ?_⟩
        intro i x b hx hb
        rw [forall₂_iff_getElem?] at hops
        rw [List.getElem?_map] at hb
        cases hp : aos[i]? with
        | none => rw [hp] at hb; cases hb
        | some p =>
          rw [hp] at hb
          simp only [Option.map_some, Option.some.injEq] at hb
          rw [List.getElem?_zipWith, List.getElem?_map, List.getElem?_map, hp] at hx
          cases hw : ws[i]? with
          | none => rw [hw] at hx; simp at hx
          | some w =>
            rw [hw] at hx
            simp only [Option.map_some, Option.some.injEq] at hx
            obtain ⟨xs, _, _, h2, _⟩ := hops.2 i w p hw hp
            rw [← hx, ← hb]
            exact h2
      · simp [List.map_map, Function.comp_def, opOf]
    refine ⟨(ws.zip xss).map (fun e => Coll.keyed (e.2.map (Prod.mk e.1.label))),
      .outDicts [(ws.map Wrapper.label).zip (aos.map Prod.snd)], ?_, ?_, ?_⟩
    · rw [hzip, List.forall₂_map_left_iff, List.forall₂_map_right_iff]
      exact List.forall₂_same.2 (fun e _ => rfl)
    · have hf : flattenOf ((ws.zip xss).map (fun e => Coll.keyed (Val := Val) (Out := Out) (e.2.map (Prod.mk e.1.label)))) =
          .keyed keyedAll := by
        have hg : ∀ l : List (Wrapper C × List Acc), (l.map (fun e => Coll.keyed (Val := Val) (Out := Out)
            (e.2.map (Prod.mk e.1.label)))).flatMap Coll.toKeyed = l.flatMap (fun e => e.2.map (Prod.mk e.1.label)) := by
          intro l
          rw [List.flatMap_map]
          rfl
        rw [hka, ← hg]
        cases ws.zip xss with
        | nil => rfl
        | cons e es => rfl
      simp only [beam]
      rw [hf]
      simp only [packedMergeRun, hrun, ok_bind, hex]
    · intro e he
      rw [hzip] at he
      obtain ⟨⟨w, xs⟩, hm, rfl⟩ := List.mem_map.1 he
      obtain ⟨i, hi⟩ := List.mem_iff_getElem?.1 hm
      have h := haos
      rw [forall₂_iff_getElem?] at h
      have hlt : i < aos.length := by rw [← h.1]; exact (List.getElem?_eq_some_iff.1 hi).1
      have hp := List.getElem?_eq_getElem hlt
      obtain ⟨h1, h2, h3⟩ := h.2 i _ _ hi hp
      simp only [beam]
      rw [h3]
      have hw : ws[i]? = some w := by
        rw [List.getElem?_zip_eq_some] at hi
        exact hi.1
      simp only [extractOf, List.map_cons, List.map_nil, seqExcept]
      rw [lookup_zip_nodup (ws.map Wrapper.label) (aos.map Prod.snd) (by simp [hops.length_eq]) hn i w.label
        (aos[i]).2 (by simp [hw]) (by simp [hp])]
      rfl
  bindings := ho

end TFT.Graph.Packing
