import Verif.Combine.PackedLemmas
import Mathlib.Data.List.Nodup
import Mathlib.Data.List.Basic

/-! # C07: packing combiners does not change results -/

namespace TFT

variable {Acc Val Out : Type}

/-! ## The accumulate stage -/

theorem packedAccumulate_isTuple (ops : List (PackedOp Acc Val Out)) :
    IsTuple (packedAccumulate ops) (ops.map (fun o => o.alone.accumulateStage)) (fun _ => True) where
  create := by simp [packedAccumulate, PackedOp.alone, Combiner.accumulateStage]
  merge := by simp [packedAccumulate, PackedOp.alone, Combiner.accumulateStage, Function.comp_def]
  compact := by simp [packedAccumulate, PackedOp.alone, Combiner.accumulateStage, Function.comp_def]
  add := by
    intro accs e accs' hl _
    simp only [List.length_map] at hl ⊢
    simp only [packedAccumulate, bind_ok_iff, seqExcept_ok_iff]
    constructor
    · rintro ⟨ins, h1, h2⟩
      have hlen : ins.length = ops.length := by simpa using h1.length_eq.symm
      rw [forall₂_iff_getElem?] at h1 h2
      refine ⟨by have := h2.1; simp [hl, hlen] at this; omega, ?_⟩
      intro i c a a' hc ha ha'
      simp only [List.getElem?_map, Option.map_eq_some_iff] at hc
      obtain ⟨o, ho, rfl⟩ := hc
      have hi := (List.getElem?_eq_some_iff.1 ho).1
      have hin : ins[i]? = some ins[i] := List.getElem?_eq_getElem (by omega)
      have e1 := h1.2 i _ _ (by simp [ho]; rfl) hin
      have e2 := h2.2 i (o.combiner.accumulateStage.addInput a ins[i]) a'
        (by simp [List.getElem?_zipWith, ho, ha, hin]) ha'
      simp only [Combiner.accumulateStage, PackedOp.alone, bind_ok_iff]
      exact ⟨_, e1, e2⟩
    · rintro ⟨h1, h2⟩
      have hall : ∀ i (hi : i < ops.length), ∃ input,
          extractKeys (ops[i]).keys e = .ok input ∧
          (ops[i]).combiner.addInput (accs[i]'(by omega)) input = .ok (accs'[i]'(by omega)) := by
        intro i hi
        have := h2 i _ _ _ (by rw [List.getElem?_map, List.getElem?_eq_getElem hi]; rfl)
          (List.getElem?_eq_getElem (by omega)) (List.getElem?_eq_getElem (by omega))
        simpa only [Combiner.accumulateStage, PackedOp.alone, bind_ok_iff] using this
      obtain ⟨ins, hins⟩ : ∃ ins, List.Forall₂ (fun x y => x = .ok y)
          (ops.map (fun o => extractKeys o.keys e)) ins := by
        apply forall₂_exists
        intro x hx
        obtain ⟨o, ho, rfl⟩ := List.mem_map.1 hx
        obtain ⟨i, hi, rfl⟩ := List.mem_iff_getElem.1 ho
        obtain ⟨input, h, _⟩ := hall i hi
        exact ⟨input, h⟩
      have hlen : ins.length = ops.length := by simpa using hins.length_eq.symm
      refine ⟨ins, hins, ?_⟩
      rw [forall₂_iff_getElem?] at hins ⊢
      refine ⟨by simp [hl, hlen, h1], ?_⟩
      intro i x a' hx ha'
      have hi : i < ops.length := by
        have := (List.getElem?_eq_some_iff.1 ha').1; omega
      obtain ⟨input, e1, e2⟩ := hall i hi
      have ho : ops[i]? = some ops[i] := List.getElem?_eq_getElem hi
      have ha : accs[i]? = some accs[i] := List.getElem?_eq_getElem (by omega)
      have hin : ins[i]? = some ins[i] := List.getElem?_eq_getElem (by omega)
      have e3 := hins.2 i _ _ (by rw [List.getElem?_map, ho]; rfl) hin
      simp only at e3
      rw [e1] at e3
      simp only [List.getElem?_zipWith, ho, ha, hin, Option.some.injEq] at hx
      rw [← hx]
      rw [List.getElem?_eq_getElem (by omega)] at ha'
      cases ha'
      cases e3
      exact e2

/-! ## The merge stage -/

/-- The merge stage of one analyzer when it is fed with everybody's keyed accumulators and takes
only its own. -/
def PackedOp.ownMerge (o : PackedOp Acc Val Out) : Combiner Acc (String × Option Acc) Out where
  create := o.alone.mergeStage.create
  addInput := fun a (k, v) => if k = o.label then o.alone.mergeStage.addInput a v else .ok a
  merge := o.alone.mergeStage.merge
  compact := o.alone.mergeStage.compact
  extract := o.alone.mergeStage.extract

theorem lookup_zip_nodup {β : Type} (ks : List String) (vs : List β) (hl : ks.length = vs.length)
    (hn : ks.Nodup) (i : Nat) (k : String) (v : β) (hk : ks[i]? = some k) (hv : vs[i]? = some v) :
    dictGet (ks.zip vs) k = .ok v := by
  have hmem : (k, v) ∈ (ks.zip vs).reverse := by
    rw [List.mem_reverse, List.mem_iff_getElem?]
    exact ⟨i, by simp [List.zip, List.getElem?_zipWith, hk, hv]⟩
  have hnd : ((ks.zip vs).reverse.map Prod.fst).Nodup := by
    rw [List.map_reverse, List.nodup_reverse, List.map_fst_zip (by omega)]
    exact hn
  have : ∀ (d : List (String × β)), (k, v) ∈ d → (d.map Prod.fst).Nodup → d.lookup k = some v := by
    intro d
    induction d with
    | nil => simp
    | cons p d ih =>
      intro hm hn
      rcases p with ⟨k', v'⟩
      simp only [List.map_cons, List.nodup_cons] at hn
      rw [List.lookup_cons]
      rcases List.mem_cons.1 hm with h | h
      · cases h; simp
      · have : k ≠ k' := by
          rintro rfl
          exact hn.1 (List.mem_map.2 ⟨(k, v), h, rfl⟩)
        have hb : (k == k') = false := by simpa using this
        simp [hb, ih h hn.2]
  simp [dictGet, this _ hmem hnd]

theorem labelToIndex_get (ops : List (PackedOp Acc Val Out)) (hn : (ops.map PackedOp.label).Nodup)
    (i : Nat) (o : PackedOp Acc Val Out) (ho : ops[i]? = some o) :
    dictGet (labelToIndex ops) o.label = .ok i := by
  have hi := (List.getElem?_eq_some_iff.1 ho).1
  exact lookup_zip_nodup _ _ (by simp) hn i _ _ (by simp [ho]) (by simp [hi])

theorem packedMerge_isTuple (ops : List (PackedOp Acc Val Out))
    (hn : (ops.map PackedOp.label).Nodup) :
    IsTuple (packedMerge ops) (ops.map PackedOp.ownMerge)
      (fun e => e.1 ∈ ops.map PackedOp.label) where
  create := by
    simp [packedMerge, PackedOp.ownMerge, PackedOp.alone, Combiner.mergeStage]
  merge := by
    simp [packedMerge, PackedOp.ownMerge, PackedOp.alone, Combiner.mergeStage, Function.comp_def]
  compact := by
    simp [packedMerge, PackedOp.ownMerge, PackedOp.alone, Combiner.mergeStage, Function.comp_def]
  add := by
    rintro accs ⟨k, v⟩ accs' hl hk
    simp only [List.length_map] at hl ⊢
    obtain ⟨o, ho, rfl⟩ := List.mem_map.1 hk
    obtain ⟨j, hj, rfl⟩ := List.mem_iff_getElem.1 ho
    have hjo : ops[j]? = some ops[j] := List.getElem?_eq_getElem hj
    have hja : accs[j]? = some (accs[j]'(by omega)) := List.getElem?_eq_getElem (by omega)
    have hget := labelToIndex_get ops hn j _ hjo
    have hlab : ∀ (i : Nat) o, ops[i]? = some o → (ops[j].label = o.label ↔ j = i) := by
      intro i o hio
      constructor
      · intro he
        have h1 : (ops.map PackedOp.label)[j]? = (ops.map PackedOp.label)[i]? := by
          simp [hio, hjo, he]
        exact (List.nodup_iff_injective_get.1 hn).eq_iff.1 (by
          have hi := (List.getElem?_eq_some_iff.1 hio).1
          simp only [List.get_eq_getElem, List.getElem_map]
          have := (List.getElem?_eq_some_iff.1 hio).2
          rw [this]; exact he : (ops.map PackedOp.label).get ⟨j, (List.length_map _).symm ▸ hj⟩
            = (ops.map PackedOp.label).get ⟨i, (List.length_map _).symm ▸
              (List.getElem?_eq_some_iff.1 hio).1⟩) |> congrArg Fin.val
      · rintro rfl
        rw [hjo] at hio; cases hio; rfl
    simp only [packedMerge, bind_ok_iff]
    constructor
    · rintro ⟨idx, h1, h2⟩
      rw [hget] at h1
      cases h1
      rw [hjo, hja] at h2
      simp only [bind_ok_iff, Except.ok.injEq] at h2
      obtain ⟨a', h3, rfl⟩ := h2
      refine ⟨by simpa using hl, ?_⟩
      intro i c a a'' hc ha ha''
      simp only [List.getElem?_map, Option.map_eq_some_iff] at hc
      obtain ⟨o, ho, rfl⟩ := hc
      simp only [PackedOp.ownMerge]
      by_cases hij : j = i
      · subst hij
        rw [if_pos ((hlab j o ho).2 rfl)]
        rw [hjo] at ho; cases ho
        rw [hja] at ha; cases ha
        rw [List.getElem?_set_self (by omega)] at ha''
        cases ha''
        exact h3
      · rw [if_neg (fun h => hij ((hlab i o ho).1 h))]
        rw [List.getElem?_set_ne hij, ha] at ha''
        cases ha''
        rfl
    · rintro ⟨h1, h2⟩
      refine ⟨j, hget, ?_⟩
      rw [hjo, hja]
      simp only [bind_ok_iff, Except.ok.injEq]
      have hj' : j < accs'.length := by omega
      refine ⟨accs'[j], ?_, ?_⟩
      · have := h2 j _ _ _ (by rw [List.getElem?_map, hjo]; rfl) hja (List.getElem?_eq_getElem hj')
        simp only [PackedOp.ownMerge, if_true] at this
        exact this
      · apply List.ext_getElem?
        intro i
        by_cases hij : j = i
        · subst hij
          rw [List.getElem?_set_self (by omega), List.getElem?_eq_getElem hj']
        · rw [List.getElem?_set_ne hij]
          rcases lt_or_ge i ops.length with hi | hi
          · have hio : ops[i]? = some ops[i] := List.getElem?_eq_getElem hi
            have ha : accs[i]? = some (accs[i]'(by omega)) := List.getElem?_eq_getElem (by omega)
            have ha' : accs'[i]? = some (accs'[i]'(by omega)) := List.getElem?_eq_getElem (by omega)
            have := h2 i _ _ _ (by rw [List.getElem?_map, hio]; rfl) ha ha'
            simp only [PackedOp.ownMerge] at this
            rw [if_neg (fun h => hij ((hlab i _ hio).1 h))] at this
            rw [ha, ha']
            exact congrArg some (Except.ok.inj this)
          · rw [List.getElem?_eq_none (by omega), List.getElem?_eq_none (by omega)]

/-! ## Schedules with inputs left out -/

namespace Sched

theorem filterMapList_eq {In In' : Type} (f : In → Option In') (ss : List (Sched In)) :
    filterMapList f ss = ss.map (filterMap f) := by
  induction ss with
  | nil => simp [filterMapList]
  | cons s ss ih => simp [filterMapList, ih]

theorem inputs_filterMap {In In' : Type} (f : In → Option In') (s : Sched In) :
    (s.filterMap f).inputs = s.inputs.filterMap f := by
  induction s using Sched.ind with
  | h0 => simp [filterMap, inputs]
  | h1 s b ih =>
    simp only [filterMap, inputs, List.filterMap_append]
    cases h : f b with
    | none => simp [h, ih]
    | some y => simp [h, ih, inputs]
  | h3 s ih => simp [filterMap, inputs, ih]
  | h2 ss ih =>
    simp only [filterMap, inputs, inputsList_eq, filterMapList_eq, List.map_map,
      List.filterMap_flatten]
    congr 1
    apply List.map_congr_left
    intro s hs
    simp [ih s hs]

theorem MergesSome.filterMap {In In' : Type} (f : In → Option In') {s : Sched In}
    (h : s.MergesSome) : (s.filterMap f).MergesSome := by
  induction h with
  | create => simpa [Sched.filterMap] using MergesSome.create
  | @add s b _ ih =>
    simp only [Sched.filterMap]
    split
    · exact MergesSome.add ih
    · exact ih
  | compact _ ih => simpa [Sched.filterMap] using MergesSome.compact ih
  | @merge ss hne _ ih =>
    simp only [Sched.filterMap, filterMapList_eq]
    refine MergesSome.merge (by simpa using hne) ?_
    intro s hs
    obtain ⟨t, ht, rfl⟩ := List.mem_map.1 hs
    exact ih t ht

/-- Running with some inputs left out is running a combiner that ignores them. -/
theorem run_filterMap {Acc In In' Out : Type} (c : Combiner Acc In' Out) (f : In → Option In')
    (s : Sched In) :
    (s.filterMap f).run c = s.run
      { create := c.create, addInput := fun a b => ((f b).map (c.addInput a)).getD (.ok a),
        merge := c.merge, compact := c.compact, extract := c.extract : Combiner Acc In Out } := by
  induction s using Sched.ind with
  | h0 => simp [filterMap, run]
  | h1 s b ih =>
    simp only [filterMap, run, ← ih]
    cases f b with
    | none => simp only [Option.map_none, Option.getD_none]; cases (s.filterMap f).run c <;> rfl
    | some y => simp [run]
  | h3 s ih => simp [filterMap, run, ih]
  | h2 ss ih =>
    simp only [filterMap, run, filterMapList_eq]
    congr 1
    induction ss with
    | nil => simp [runList]
    | cons s ss ihs =>
      simp only [List.map_cons, runList]
      rw [ih s (by simp), ihs (fun t ht => ih t (by simp [ht]))]

theorem map_congr_inputs {In In' : Type} {f g : In → In'} (s : Sched In)
    (h : ∀ b ∈ s.inputs, f b = g b) : s.map f = s.map g := by
  induction s using Sched.ind with
  | h0 => rfl
  | h1 s b ih =>
    simp only [map]
    rw [ih (fun x hx => h x (by simp [inputs, hx])), h b (by simp [inputs])]
  | h3 s ih => simp only [map]; rw [ih (fun x hx => h x (by simpa [inputs] using hx))]
  | h2 ss ih =>
    simp only [map, mapList_eq]
    congr 1
    apply List.map_congr_left
    intro s hs
    apply ih s hs
    intro b hb
    apply h
    simp only [inputs, inputsList_eq, List.mem_flatten, List.mem_map]
    exact ⟨_, ⟨s, hs, rfl⟩, hb⟩

end Sched

/-- The part of the packed merge schedule that concerns the analyzer with label `l`: the dataset
numbers of its own accumulators, combined by the same tree of calls. -/
def ownSchedule (l : String) (stage2 : Sched (Nat × String)) : Sched Nat :=
  stage2.filterMap (fun e => if e.2 = l then some e.1 else none)

/-- The packed runs that Beam may make: every dataset's accumulator of every analyzer is used
exactly once in the packed merge stage, nobody merges an empty list. -/
structure ValidPackedRun (labels : List String) (stage1 : List (Sched (Dict Val)))
    (stage2 : Sched (Nat × String)) : Prop where
  merges1 : ∀ s ∈ stage1, s.MergesSome
  merges2 : stage2.MergesSome
  once : stage2.inputs.Perm ((List.range stage1.length).flatMap (fun d => labels.map (Prod.mk d)))

/-- An analyzer's own part of an allowed packed run is an allowed run of it alone. -/
theorem ValidPackedRun.own {labels : List String} (hn : labels.Nodup)
    {stage1 : List (Sched (Dict Val))} {stage2 : Sched (Nat × String)}
    (h : ValidPackedRun labels stage1 stage2) {l : String} (hl : l ∈ labels) :
    ValidRun stage1 (ownSchedule l stage2) := by
  refine ⟨h.merges1, h.merges2.filterMap _, ?_⟩
  unfold ownSchedule
  rw [Sched.inputs_filterMap]
  apply once_of_perm
  refine (h.once.filterMap _).trans ?_
  have h1 : ∀ i : Nat, ((labels.map (Prod.mk i)).filterMap
      (fun e : Nat × String => if e.2 = l then some e.1 else none)) = [i] := by
    intro i
    rw [List.filterMap_map]
    have : ∀ ls : List String, ls.Nodup → l ∈ ls →
        ls.filterMap ((fun e : Nat × String => if e.2 = l then some e.1 else none) ∘ Prod.mk i)
          = [i] := by
      intro ls
      induction ls with
      | nil => simp
      | cons x ls ih =>
        intro hn hm
        simp only [List.nodup_cons] at hn
        rw [List.filterMap_cons]
        by_cases hx : x = l
        · subst hx
          simp only [Function.comp, if_true, List.cons.injEq, true_and]
          apply List.filterMap_eq_nil_iff.2
          intro y hy
          have : y ≠ x := by rintro rfl; exact hn.1 hy
          simp [this]
        · simp only [Function.comp, hx, if_false]
          exact ih hn.2 ((List.mem_cons.1 hm).resolve_left (fun h => hx h.symm))
    exact this labels hn hl
  have h2 : ∀ is : List Nat, (is.flatMap (fun d => labels.map (Prod.mk d))).filterMap
      (fun e : Nat × String => if e.2 = l then some e.1 else none) = is := by
    intro is
    induction is with
    | nil => rfl
    | cons i is ih => rw [List.flatMap_cons, List.filterMap_append, ih, h1]; rfl
  rw [h2]

/-- **C07**. Packed analysis of any list of analyzers with distinct labels, under any schedule:
it succeeds and returns `out` exactly when every analyzer succeeds when it is run alone (on the
same data with the same per-dataset schedules, and its own part of the merge schedule), and then
`out` lists for every analyzer the output it has alone. -/
theorem packed_equals_separate (ops : List (PackedOp Acc Val Out))
    (hn : (ops.map PackedOp.label).Nodup) (stage1 : List (Sched (Dict Val)))
    (stage2 : Sched (Nat × String))
    (hv : ValidPackedRun (ops.map PackedOp.label) stage1 stage2) (out : Dict Out) :
    packedAnalysis ops stage1 stage2 = .ok out ↔
      ∃ outs, out = (ops.map PackedOp.label).zip outs ∧
        List.Forall₂ (fun o r => analysis o.alone stage1 (ownSchedule o.label stage2) = .ok r)
          ops outs := by
  have hrun1 : ∀ accs, Sched.runList (packedAccumulate ops) stage1 = .ok accs ↔
      List.Forall₂ (fun s a => List.Forall₂ (fun o x => s.run o.alone.accumulateStage = .ok x)
        ops a) stage1 accs := by
    intro accs
    rw [runList_ok_iff, List.forall₂_iff_get, List.forall₂_iff_get]
    have : ∀ (i : Nat) hi (a : List Acc), (stage1.get ⟨i, hi⟩).run (packedAccumulate ops) = .ok a ↔
        List.Forall₂ (fun o x => (stage1.get ⟨i, hi⟩).run o.alone.accumulateStage = .ok x) ops a := by
      intro i hi a
      rw [(packedAccumulate_isTuple ops).run_iff _ (hv.merges1 _ (List.get_mem _ _)) (by simp),
        List.forall₂_map_left_iff]
    constructor
    · rintro ⟨h1, h2⟩; exact ⟨h1, fun i hi hi' => (this i hi _).1 (h2 i hi hi')⟩
    · rintro ⟨h1, h2⟩; exact ⟨h1, fun i hi hi' => (this i hi _).2 (h2 i hi hi')⟩
  have hextract : ∀ a : List Acc, a.length = ops.length →
      (packedAccumulate ops).extract a = .ok ((ops.map PackedOp.label).zip a) := by
    intro a ha
    simp only [packedAccumulate, bind_ok_iff]
    refine ⟨a, ?_, rfl⟩
    rw [seqExcept_ok_iff, forall₂_iff_getElem?]
    refine ⟨by simp [ha], ?_⟩
    intro i x b hx hb
    have hi := (List.getElem?_eq_some_iff.1 hb).1
    rw [List.getElem?_zipWith, hb, List.getElem?_eq_getElem (by omega)] at hx
    simp only [Option.some.injEq] at hx
    rw [← hx]; rfl
  have hdicts : ∀ accs, List.Forall₂ (fun s a => List.Forall₂
        (fun o x => s.run o.alone.accumulateStage = .ok x) ops a) stage1 accs →
      seqExcept (accs.map (packedAccumulate ops).extract)
        = .ok (accs.map (fun a => (ops.map PackedOp.label).zip a)) := by
    intro accs h
    rw [seqExcept_ok_iff, List.forall₂_map_left_iff, List.forall₂_map_right_iff]
    apply List.forall₂_same.2
    intro a ha
    obtain ⟨i, hi, rfl⟩ := List.mem_iff_getElem.1 ha
    have := (List.forall₂_iff_get.1 h).2 i (by rw [h.length_eq]; exact hi) hi
    exact hextract _ this.length_eq.symm
  -- the accumulators of one analyzer
  have hcol : ∀ accs, List.Forall₂ (fun s a => List.Forall₂
        (fun o x => s.run o.alone.accumulateStage = .ok x) ops a) stage1 accs →
      ∀ (i : Nat) o, ops[i]? = some o →
      Sched.runList o.alone.accumulateStage stage1 = .ok (accs.filterMap (fun a => a[i]?)) := by
    intro accs h i o ho
    rw [runList_ok_iff]
    have hi := (List.getElem?_eq_some_iff.1 ho).1
    apply col_forall₂ hi
    · intro a ha
      obtain ⟨k, hk, rfl⟩ := List.mem_iff_getElem.1 ha
      have := (List.forall₂_iff_get.1 h).2 k (by rw [h.length_eq]; exact hk) hk
      exact this.length_eq.symm
    · refine h.imp ?_
      intro s a hsa b hb
      exact (forall₂_iff_getElem?.1 hsa).2 i o b ho hb
  have hmem2 : ∀ e ∈ stage2.inputs, e.1 < stage1.length ∧ e.2 ∈ ops.map PackedOp.label := by
    intro e he
    have := hv.once.subset he
    obtain ⟨d, hd, hm⟩ := List.mem_flatMap.1 this
    obtain ⟨l, hl, rfl⟩ := List.mem_map.1 hm
    exact ⟨List.mem_range.1 hd, hl⟩
  -- what the packed merge feeds to one analyzer
  have hown : ∀ accs, List.Forall₂ (fun s a => List.Forall₂
        (fun o x => s.run o.alone.accumulateStage = .ok x) ops a) stage1 accs →
      ∀ (i : Nat) o, ops[i]? = some o →
      (stage2.map (fun (d, l) => (l, ((accs.map (fun a => (ops.map PackedOp.label).zip a))[d]?).bind
        (fun dict => (dictGet dict l).toOption)))).run o.ownMerge
      = ((ownSchedule o.label stage2).map (fun d => (accs.filterMap (fun a => a[i]?))[d]?)).run
          o.alone.mergeStage := by
    intro accs h i o ho
    have hi := (List.getElem?_eq_some_iff.1 ho).1
    have hlen : ∀ a ∈ accs, a.length = ops.length := by
      intro a ha
      obtain ⟨k, hk, rfl⟩ := List.mem_iff_getElem.1 ha
      have := (List.forall₂_iff_get.1 h).2 k (by rw [h.length_eq]; exact hk) hk
      exact this.length_eq.symm
    have hfm : ∀ d : Nat, (accs.filterMap (fun a => a[i]?))[d]? = (accs[d]?).bind (fun a => a[i]?) := by
      intro d
      have : accs.filterMap (fun a => a[i]?) = accs.map (fun a => a.getD i (o.combiner.create)) := by
        clear h hcol
        induction accs with
        | nil => rfl
        | cons a accs ih =>
          have ha := hlen a (by simp)
          have hai : a[i]? = some a[i] := List.getElem?_eq_getElem (by omega)
          rw [List.filterMap_cons, hai, List.map_cons, ih (fun x hx => hlen x (by simp [hx]))]
          simp [hai]
      rw [this, List.getElem?_map]
      cases hd : accs[d]? with
      | none => rfl
      | some a =>
        have ha := hlen a (List.mem_of_getElem? hd)
        have hai : a[i]? = some a[i] := List.getElem?_eq_getElem (by omega)
        simp [hai]
    rw [Sched.run_map, ownSchedule]
    rw [Sched.run_map]
    rw [Sched.run_filterMap]
    -- both sides are runs of the same combiner on the inputs that occur
    have hcongr : ∀ (t : Sched (Nat × String)), (∀ e ∈ t.inputs, e ∈ stage2.inputs) →
        ∀ (c1 c2 : Combiner Acc (Nat × String) Out), c1.create = c2.create →
        c1.merge = c2.merge → c1.compact = c2.compact →
        (∀ a, ∀ e ∈ stage2.inputs, c1.addInput a e = c2.addInput a e) → t.run c1 = t.run c2 := by
      intro t
      induction t using Sched.ind with
      | h0 => intro _ c1 c2 h1 _ _ _; simp [Sched.run, h1]
      | h1 t b ih =>
        intro ht c1 c2 h1 h2 h3 h4
        simp only [Sched.run]
        rw [ih (fun e he => ht e (by simp [Sched.inputs, he])) c1 c2 h1 h2 h3 h4]
        congr 1
        funext a
        exact h4 a b (ht b (by simp [Sched.inputs]))
      | h3 t ih =>
        intro ht c1 c2 h1 h2 h3 h4
        simp only [Sched.run]
        rw [ih (fun e he => ht e (by simpa [Sched.inputs] using he)) c1 c2 h1 h2 h3 h4, h3]
      | h2 ts ih =>
        intro ht c1 c2 h1 h2 h3 h4
        simp only [Sched.run, h2]
        congr 1
        have ht' : ∀ t ∈ ts, ∀ e ∈ t.inputs, e ∈ stage2.inputs := by
          intro t htt e he
          apply ht
          simp only [Sched.inputs, Sched.inputsList_eq, List.mem_flatten, List.mem_map]
          exact ⟨_, ⟨t, htt, rfl⟩, he⟩
        clear ht
        induction ts with
        | nil => rfl
        | cons t ts ihs =>
          simp only [Sched.runList]
          rw [ih t (by simp) (ht' t (by simp)) c1 c2 h1 h2 h3 h4,
            ihs (fun u hu => ih u (by simp [hu])) (fun u hu => ht' u (by simp [hu]))]
    apply hcongr stage2 (fun e he => he)
    · rfl
    · rfl
    · rfl
    · rintro a ⟨d, l⟩ he
      obtain ⟨hd, hl⟩ := hmem2 _ he
      simp only [PackedOp.ownMerge]
      by_cases hlo : l = o.label
      · subst hlo
        simp only [if_true, Option.map_some, Option.getD_some, hfm]
        congr 1
        have hd' : d < accs.length := by have := h.length_eq; simp only at hd; omega
        have had : accs[d]? = some accs[d] := List.getElem?_eq_getElem hd'
        have hlen' := hlen accs[d] (List.getElem_mem hd')
        have hai : accs[d][i]? = some (accs[d][i]'(by omega)) := List.getElem?_eq_getElem (by omega)
        simp only [List.getElem?_map, had, Option.map_some, Option.bind_some, hai]
        rw [lookup_zip_nodup _ _ (by simp [hlen']) hn i _ _ (by simp [ho]) hai]
        rfl
      · simp [hlo]
  have hrun2 : ∀ accs, List.Forall₂ (fun s a => List.Forall₂
        (fun o x => s.run o.alone.accumulateStage = .ok x) ops a) stage1 accs → ∀ final,
      (stage2.map (fun (d, l) => (l, ((accs.map (fun a => (ops.map PackedOp.label).zip a))[d]?).bind
        (fun dict => (dictGet dict l).toOption)))).run (packedMerge ops) = .ok final ↔
      ops.length = final.length ∧ ∀ (i : Nat) o x, ops[i]? = some o → final[i]? = some x →
        ((ownSchedule o.label stage2).map (fun d => (accs.filterMap (fun a => a[i]?))[d]?)).run
          o.alone.mergeStage = .ok x := by
    intro accs h final
    rw [(packedMerge_isTuple ops hn).run_iff _ (hv.merges2.map _) ?_, List.forall₂_map_left_iff,
      forall₂_iff_getElem?]
    · constructor
      · rintro ⟨h1, h2⟩
        exact ⟨h1, fun i o x ho hx => by rw [← hown accs h i o ho]; exact h2 i o x ho hx⟩
      · rintro ⟨h1, h2⟩
        exact ⟨h1, fun i o x ho hx => by rw [hown accs h i o ho]; exact h2 i o x ho hx⟩
    · intro e he
      rw [Sched.inputs_map] at he
      obtain ⟨⟨d, l⟩, he', rfl⟩ := List.mem_map.1 he
      exact (hmem2 _ he').2
  have hext2 : ∀ final : List Acc, ops.length = final.length →
      ((packedMerge ops).extract final = .ok out ↔ ∃ outs,
        out = (ops.map PackedOp.label).zip outs ∧ ops.length = outs.length ∧
        ∀ (i : Nat) o x r, ops[i]? = some o → final[i]? = some x → outs[i]? = some r →
          o.combiner.extract x = .ok r) := by
    intro final hfl
    simp only [packedMerge, bind_ok_iff, seqExcept_ok_iff, Except.ok.injEq]
    constructor
    · rintro ⟨outs, h1, rfl⟩
      rw [forall₂_iff_getElem?] at h1
      refine ⟨outs, rfl, by have := h1.1; simp at this; omega, ?_⟩
      intro i o x r ho hx hr
      exact h1.2 i _ r (by rw [List.getElem?_zipWith, ho, hx]; rfl) hr
    · rintro ⟨outs, rfl, h1, h2⟩
      refine ⟨outs, ?_, rfl⟩
      rw [forall₂_iff_getElem?]
      refine ⟨by simp; omega, ?_⟩
      intro i y r hy hr
      have hi : i < outs.length := (List.getElem?_eq_some_iff.1 hr).1
      have ho : ops[i]? = some (ops[i]'(by omega)) := List.getElem?_eq_getElem (by omega)
      have hx : final[i]? = some (final[i]'(by omega)) := List.getElem?_eq_getElem (by omega)
      rw [List.getElem?_zipWith, ho, hx] at hy
      simp only [Option.some.injEq] at hy
      rw [← hy]; exact h2 i _ _ r ho hx hr
  unfold packedAnalysis
  simp only [bind_ok_iff]
  constructor
  · rintro ⟨accs, h1, dicts, h2, final, h3, h4⟩
    have h1' := (hrun1 accs).1 h1
    rw [hdicts accs h1'] at h2
    cases h2
    obtain ⟨hfl, h5⟩ := (hrun2 accs h1' final).1 h3
    obtain ⟨outs, rfl, hol, h6⟩ := (hext2 final hfl).1 h4
    refine ⟨outs, rfl, ?_⟩
    rw [forall₂_iff_getElem?]
    refine ⟨hol, ?_⟩
    intro i o r ho hr
    have hi := (List.getElem?_eq_some_iff.1 ho).1
    have hx : final[i]? = some (final[i]'(by omega)) := List.getElem?_eq_getElem (by omega)
    unfold analysis
    simp only [bind_ok_iff]
    exact ⟨_, hcol accs h1' i o ho, _, h5 i o _ ho hx, h6 i o _ r ho hx hr⟩
  · rintro ⟨outs, rfl, h⟩
    have hol := h.length_eq
    rw [forall₂_iff_getElem?] at h
    have hana : ∀ (i : Nat) o, ops[i]? = some o → ∃ col x r,
        Sched.runList o.alone.accumulateStage stage1 = .ok col ∧
        ((ownSchedule o.label stage2).map (fun d => col[d]?)).run o.alone.mergeStage = .ok x ∧
        o.combiner.extract x = .ok r ∧ outs[i]? = some r := by
      intro i o ho
      have hi := (List.getElem?_eq_some_iff.1 ho).1
      have hr : outs[i]? = some (outs[i]'(by omega)) := List.getElem?_eq_getElem (by omega)
      have := h.2 i o _ ho hr
      unfold analysis at this
      simp only [bind_ok_iff] at this
      obtain ⟨col, h1, x, h2, h3⟩ := this
      exact ⟨col, x, _, h1, h2, h3, hr⟩
    obtain ⟨accs, haccs⟩ : ∃ accs, List.Forall₂ (fun s a => List.Forall₂
        (fun o x => s.run o.alone.accumulateStage = .ok x) ops a) stage1 accs := by
      apply forall₂_exists
      intro s hs
      apply forall₂_exists
      intro o ho
      obtain ⟨i, hi, rfl⟩ := List.mem_iff_getElem.1 ho
      obtain ⟨col, _, _, hcol', _⟩ := hana i _ (List.getElem?_eq_getElem hi)
      obtain ⟨k, hk, rfl⟩ := List.mem_iff_getElem.1 hs
      have hcol'' := (runList_ok_iff _ _ _).1 hcol'
      have hk' : k < col.length := hcol''.length_eq ▸ hk
      exact ⟨col[k], (forall₂_iff_getElem?.1 hcol'').2 k _ _ (List.getElem?_eq_getElem hk)
        (List.getElem?_eq_getElem hk')⟩
    obtain ⟨final, hfinal⟩ : ∃ final : List Acc, List.Forall₂ (fun (o : PackedOp Acc Val Out × Nat) x =>
        ((ownSchedule o.1.label stage2).map (fun d => (accs.filterMap (fun a => a[o.2]?))[d]?)).run
          o.1.alone.mergeStage = .ok x) ops.zipIdx final := by
      apply forall₂_exists
      rintro ⟨o, i⟩ ho
      have hoi : ops[i]? = some o := by simpa using List.mem_zipIdx_iff_getElem?.1 ho
      obtain ⟨col, x, _, hc, hx, _⟩ := hana i o hoi
      rw [hcol accs haccs i o hoi] at hc
      cases hc
      exact ⟨x, hx⟩
    have hfl : ops.length = final.length := by simpa using hfinal.length_eq
    rw [forall₂_iff_getElem?] at hfinal
    have hfin : ∀ (i : Nat) o x, ops[i]? = some o → final[i]? = some x →
        ((ownSchedule o.label stage2).map (fun d => (accs.filterMap (fun a => a[i]?))[d]?)).run
          o.alone.mergeStage = .ok x := by
      intro i o x ho hx
      exact hfinal.2 i (o, i) x (by simp [List.getElem?_zipIdx, ho]) hx
    refine ⟨accs, (hrun1 accs).2 haccs, _, hdicts accs haccs, final,
      (hrun2 accs haccs final).2 ⟨hfl, hfin⟩, (hext2 final hfl).2 ⟨outs, rfl, hol, ?_⟩⟩
    intro i o x r ho hx hr
    obtain ⟨col, x', r', hc, hx', hr', hr''⟩ := hana i o ho
    rw [hcol accs haccs i o ho] at hc
    cases hc
    rw [hfin i o x ho hx] at hx'
    cases hx'
    rw [hr] at hr''
    cases hr''
    exact hr'

/-- The hypotheses are met: two analyzers (a sum and a counter over the same dict), two datasets,
a merge schedule that mixes their accumulators. -/
example :
    let sumC : Combiner Int (List Int) Int :=
      { create := 0, addInput := fun a l => .ok (a + l.sum), merge := fun l => .ok l.sum,
        extract := fun a => .ok a }
    let cntC : Combiner Int (List Int) Int :=
      { create := 0, addInput := fun a l => .ok (a + l.length), merge := fun l => .ok l.sum,
        extract := fun a => .ok a }
    let ops : List (PackedOp Int Int Int) := [⟨sumC, ["x", "y"], "sum"⟩, ⟨cntC, ["y"], "cnt"⟩]
    let s1 : List (Sched (Dict Int)) :=
      [.add (.add .create [("x", 1), ("y", 2)]) [("y", 5), ("x", 3)], .create]
    let s2 : Sched (Nat × String) :=
      .merge [.add (.add .create (0, "sum")) (1, "cnt"), .add (.add .create (1, "sum")) (0, "cnt")]
    (ops.map PackedOp.label).Nodup ∧ ValidPackedRun (ops.map PackedOp.label) s1 s2 ∧
      packedAnalysis ops s1 s2 = .ok [("sum", 11), ("cnt", 2)] := by
  refine ⟨by decide, ⟨?_, ?_, by decide⟩, by decide +kernel⟩
  · intro s hs
    simp only [List.mem_cons, List.not_mem_nil, or_false] at hs
    rcases hs with rfl | rfl
    · exact .add (.add .create)
    · exact .create
  · refine .merge (by simp) ?_
    intro s hs
    simp only [List.mem_cons, List.not_mem_nil, or_false] at hs
    rcases hs with rfl | rfl <;> exact .add (.add .create)

/-- An analyzer gets the values of its own keys, in the order of the keys; a missing key is an
error. -/
theorem extract_keys_spec {Val : Type} (keys : List String) (element : Dict Val)
    (vs : List Val) :
    extractKeys keys element = .ok vs ↔
      List.Forall₂ (fun k v => element.reverse.lookup k = some v) keys vs := by
  unfold extractKeys
  induction keys generalizing vs with
  | nil => simp [seqExcept, eq_comm]
  | cons k ks ih =>
    simp only [List.map_cons, seqExcept, List.forall₂_cons_left_iff]
    cases hk : element.reverse.lookup k with
    | none => simp [dictGet, hk, bind, Except.bind]
    | some v =>
      cases hs : seqExcept (ks.map (dictGet element)) with
      | error e =>
        simp only [dictGet, hk, bind, Except.bind, reduceCtorEq, false_iff]
        rintro ⟨b, u, -, hu, -⟩
        have := (ih u).2 hu
        rw [hs] at this
        cases this
      | ok ws =>
        have := (ih ws).1 hs
        simp only [dictGet, hk, bind, Except.bind, Except.ok.injEq]
        constructor
        · rintro rfl
          exact ⟨v, ws, rfl, this, rfl⟩
        · rintro ⟨b, u, hb, hu, rfl⟩
          have hb' : v = b := by simpa using hb
          have := (ih u).2 hu
          rw [hs] at this
          cases this
          rw [hb']

example : (extractKeys ["x", "w"] [("w", 1), ("x", 2)]).toOption = some [2, 1] := by decide

end TFT
