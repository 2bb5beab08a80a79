import Verif.Combine.Sched
import Mathlib.Data.List.Forall2
import Mathlib.Data.List.Perm.Basic
import Mathlib.Data.List.Range

/-! Soundness of invariants over schedules: the induction used for every combiner. -/

namespace TFT

variable {Acc In Out : Type}

namespace Sched

theorem mapList_eq {In' : Type} (f : In → In') (ss : List (Sched In)) :
    mapList f ss = ss.map (map f) := by
  induction ss with
  | nil => simp [mapList]
  | cons s ss ih => simp [mapList, ih]

theorem inputs_map {In' : Type} (f : In → In') (s : Sched In) :
    (s.map f).inputs = s.inputs.map f := by
  induction s using Sched.ind with
  | h0 => simp [map, inputs]
  | h1 s b ih => simp [map, inputs, ih]
  | h3 s ih => simp [map, inputs, ih]
  | h2 ss ih =>
    simp only [map, inputs, inputsList_eq, mapList_eq, List.map_map, List.map_flatten]
    congr 1
    apply List.map_congr_left
    intro s hs
    simp [ih s hs]

theorem MergesSome.map {In' : Type} (f : In → In') {s : Sched In} (h : s.MergesSome) :
    (s.map f).MergesSome := by
  induction h with
  | create => simpa [Sched.map] using MergesSome.create
  | add _ ih => simpa [Sched.map] using MergesSome.add ih
  | compact _ ih => simpa [Sched.map] using MergesSome.compact ih
  | @merge ss hne _ ih =>
    simp only [Sched.map, mapList_eq]
    refine MergesSome.merge (by simpa using hne) ?_
    intro s hs
    obtain ⟨t, ht, rfl⟩ := List.mem_map.1 hs
    exact ih t ht

/-- `Total c P R`: the invariant `R acc inputs` is established and kept by all calls,
and no call fails on inputs that satisfy `P`. -/
structure Total (c : Combiner Acc In Out) (P : In → Prop) (R : Acc → List In → Prop) : Prop where
  create : R c.create []
  add : ∀ a l b, R a l → P b → ∃ a', c.addInput a b = .ok a' ∧ R a' (l ++ [b])
  merge : ∀ as ls, as ≠ [] → List.Forall₂ R as ls →
    ∃ a', c.merge as = .ok a' ∧ R a' ls.flatten
  compact : ∀ a l, R a l → ∃ a', c.compact a = .ok a' ∧ R a' l

theorem run_total {c : Combiner Acc In Out} {P : In → Prop} {R : Acc → List In → Prop}
    (T : Total c P R) (s : Sched In) (hs : s.MergesSome) (hP : ∀ b ∈ s.inputs, P b) :
    ∃ a, s.run c = .ok a ∧ R a s.inputs := by
  induction s using Sched.ind with
  | h0 => exact ⟨_, rfl, T.create⟩
  | h1 s b ih =>
    cases hs with
    | add hs =>
      obtain ⟨a, ha, hR⟩ := ih hs (fun x hx => hP x (by simp [inputs, hx]))
      obtain ⟨a', ha', hR'⟩ := T.add a _ b hR (hP b (by simp [inputs]))
      exact ⟨a', by simp [run, ha, ha', bind, Except.bind], by simpa [inputs] using hR'⟩
  | h3 s ih =>
    cases hs with
    | compact hs =>
      obtain ⟨a, ha, hR⟩ := ih hs (fun x hx => hP x (by simpa [inputs] using hx))
      obtain ⟨a', ha', hR'⟩ := T.compact a _ hR
      exact ⟨a', by simp [run, ha, ha', bind, Except.bind], by simpa [inputs] using hR'⟩
  | h2 ss ih =>
    cases hs with
    | merge hne hall =>
      have key : ∀ (ts : List (Sched In)), (∀ t ∈ ts, t ∈ ss) →
          ∃ as, runList c ts = .ok as ∧ List.Forall₂ R as (ts.map inputs) ∧
            as.length = ts.length := by
        intro ts
        induction ts with
        | nil => intro _; exact ⟨[], rfl, by simp, rfl⟩
        | cons t ts iht =>
          intro hsub
          have ht := hsub t (by simp)
          obtain ⟨a, ha, hR⟩ := ih t ht (hall t ht) (by
            intro b hb
            apply hP
            simp only [inputs, inputsList_eq, List.mem_flatten, List.mem_map]
            exact ⟨_, ⟨t, ht, rfl⟩, hb⟩)
          obtain ⟨as, has, hF, hl⟩ := iht (fun u hu => hsub u (by simp [hu]))
          refine ⟨a :: as, by simp [runList, ha, has, bind, Except.bind], ?_, by simp [hl]⟩
          simp [hR, hF]
      obtain ⟨as, has, hF, hl⟩ := key ss (fun _ h => h)
      have hne' : as ≠ [] := by
        intro h; apply hne; subst h; simpa using hl.symm
      obtain ⟨a', ha', hR'⟩ := T.merge as _ hne' hF
      exact ⟨a', by simp [run, has, ha', bind, Except.bind],
        by simpa [inputs, inputsList_eq] using hR'⟩

theorem runList_total {c : Combiner Acc In Out} {P : In → Prop} {R : Acc → List In → Prop}
    (T : Total c P R) (ss : List (Sched In)) (hs : ∀ s ∈ ss, s.MergesSome)
    (hP : ∀ s ∈ ss, ∀ b ∈ s.inputs, P b) :
    ∃ as, runList c ss = .ok as ∧ List.Forall₂ R as (ss.map inputs) := by
  induction ss with
  | nil => exact ⟨[], rfl, by simp⟩
  | cons s ss ih =>
    obtain ⟨a, ha, hR⟩ := run_total T s (hs s (by simp)) (hP s (by simp))
    obtain ⟨as, has, hF⟩ := ih (fun t ht => hs t (by simp [ht])) (fun t ht => hP t (by simp [ht]))
    exact ⟨a :: as, by simp [runList, ha, has, bind, Except.bind], by simp [hR, hF]⟩

end Sched

/-- The merge stage keeps an invariant over the *data*, if the combiner does. Here the
data of an accumulator input `i` is `data i`. -/
theorem Sched.mergeStage_total {c : Combiner Acc In Out} {P : In → Prop}
    {R : Acc → List In → Prop} (T : Sched.Total c P R)
    (accs : List Acc) (ls : List (List In)) (hF : List.Forall₂ R accs ls) :
    Sched.Total (In := Nat)
      { create := c.create
        addInput := fun a i => c.mergeStage.addInput a accs[i]?
        merge := c.merge
        compact := c.compact
        extract := c.extract : Combiner Acc Nat Out }
      (fun _ => True)
      (fun a is => R a (is.map (fun i => (ls[i]?).getD [])).flatten) where
  create := by simpa using T.create
  add := by
    intro a is i hR _
    have hlen := hF.length_eq
    by_cases hi : i < accs.length
    case neg =>
      obtain ⟨a', ha', hR'⟩ := T.merge [a] [_] (by simp) (List.Forall₂.cons hR List.Forall₂.nil)
      refine ⟨a', ?_, ?_⟩
      · simp [Combiner.mergeStage, hi, ha']
      · have : ¬ i < ls.length := hlen ▸ hi
        simpa [this] using hR'
    have hi' : i < ls.length := hlen ▸ hi
    have hRi : R accs[i] ls[i] := by
      have := List.forall₂_iff_get.1 hF
      exact this.2 i hi hi'
    obtain ⟨a', ha', hR'⟩ := T.merge [a, accs[i]] [_, ls[i]] (by simp)
      (List.Forall₂.cons hR (List.Forall₂.cons hRi List.Forall₂.nil))
    refine ⟨a', ?_, ?_⟩
    · simp [Combiner.mergeStage, hi, ha']
    · simpa [hi'] using hR'
  merge := by
    intro as iss hne hF'
    have : List.Forall₂ R as
        (iss.map (fun is => (is.map (fun i => (ls[i]?).getD [])).flatten)) := by
      rw [List.forall₂_map_right_iff]; exact hF'
    obtain ⟨a', ha', hR'⟩ := T.merge as _ hne this
    refine ⟨a', ha', ?_⟩
    have e : (List.map (fun i => (ls[i]?).getD []) iss.flatten).flatten
        = (List.map (fun is => (List.map (fun i => (ls[i]?).getD []) is).flatten) iss).flatten := by
      rw [List.map_flatten, List.flatten_flatten, List.map_map]; rfl
    rw [e]; exact hR'
  compact := by
    intro a l h; exact T.compact a _ h

theorem Sched.run_map {Acc In In' Out : Type} (c : Combiner Acc In' Out) (f : In → In')
    (s : Sched In) :
    (s.map f).run c = s.run
      { create := c.create, addInput := fun a b => c.addInput a (f b), merge := c.merge,
        compact := c.compact, extract := c.extract : Combiner Acc In Out } := by
  induction s using Sched.ind with
  | h0 => simp [map, run]
  | h1 s b ih => simp [map, run, ih]
  | h3 s ih => simp [map, run, ih]
  | h2 ss ih =>
    simp only [map, run, mapList_eq]
    congr 1
    induction ss with
    | nil => simp [runList]
    | cons s ss ihs =>
      simp only [List.map_cons, runList]
      rw [ih s (by simp), ihs (fun t ht => ih t (by simp [ht]))]

theorem flatten_getD_range {β : Type} (ls : List (List β)) :
    ((List.range ls.length).map (fun i => (ls[i]?).getD [])).flatten = ls.flatten := by
  congr 1
  apply List.ext_getElem
  · simp
  · intro i h1 h2; simp [h2]

theorem once_of_perm {l : List Nat} {n : Nat} (h : l.Perm (List.range n)) :
    (l.filter (fun i => decide (i < n))).Perm (List.range n) := by
  rw [List.filter_eq_self.2]
  · exact h
  · intro i hi
    simpa using h.subset hi

/-- `onBatches` keeps a total invariant, read through the batch function. -/
theorem Sched.Total.onBatches {B : Type} {c : Combiner Acc In Out} (f : B → In)
    {P : B → Prop} {R : Acc → List B → Prop}
    (create : R c.create [])
    (add : ∀ a l b, R a l → P b → ∃ a', c.addInput a (f b) = .ok a' ∧ R a' (l ++ [b]))
    (merge : ∀ as ls, as ≠ [] → List.Forall₂ R as ls →
      ∃ a', c.merge as = .ok a' ∧ R a' ls.flatten)
    (compact : ∀ a l, R a l → ∃ a', c.compact a = .ok a' ∧ R a' l) :
    Sched.Total (c.onBatches f) P R := ⟨create, add, merge, compact⟩

/-- If a combiner keeps an invariant that does not depend on the order of the inputs, then
every analysis (any per-dataset schedules, any merge schedule) succeeds up to
`extract_output` and the final accumulator satisfies the invariant for all inputs. -/
theorem analysis_total {c : Combiner Acc In Out} {P : In → Prop} {R : Acc → List In → Prop}
    (T : Sched.Total c P R) (hperm : ∀ a l l', l.Perm l' → R a l → R a l')
    (s1 : List (Sched In)) (s2 : Sched Nat) (hv : ValidRun s1 s2)
    (hP : ∀ b ∈ allInputs s1, P b) :
    ∃ final, analysis c s1 s2 = c.extract final ∧ R final (allInputs s1) := by
  have T1 : Sched.Total c.accumulateStage P R :=
    ⟨T.create, T.add, T.merge, T.compact⟩
  obtain ⟨accs, haccs, hF⟩ := Sched.runList_total T1 s1 hv.merges1 (by
    intro s hs b hb
    apply hP
    simp only [allInputs, List.mem_flatten, List.mem_map]
    exact ⟨_, ⟨s, hs, rfl⟩, hb⟩)
  have hlen : accs.length = s1.length := by simpa using hF.length_eq
  have T2 := Sched.mergeStage_total T accs _ hF
  obtain ⟨final, hfin, hR⟩ := Sched.run_total T2 s2 hv.merges2 (fun _ _ => trivial)
  refine ⟨final, ?_, ?_⟩
  · unfold analysis
    rw [haccs]
    simp only [bind, Except.bind]
    have hrun : (s2.map (fun i => accs[i]?)).run c.mergeStage = .ok final := by
      rw [Sched.run_map]; exact hfin
    rw [hrun]
  · refine hperm _ _ _ ?_ hR
    have h1 := (hv.once.map (fun i => ((s1.map Sched.inputs)[i]?).getD [])).flatten
    have h2 : ∀ l : List Nat, (l.map (fun i => ((s1.map Sched.inputs)[i]?).getD [])).flatten
        = ((l.filter (fun i => decide (i < s1.length))).map
            (fun i => ((s1.map Sched.inputs)[i]?).getD [])).flatten := by
      intro l
      induction l with
      | nil => rfl
      | cons i l ih =>
        by_cases hi : i < s1.length
        · rw [List.filter_cons_of_pos (by simpa using hi), List.map_cons, List.map_cons,
            List.flatten_cons, List.flatten_cons, ih]
        · rw [List.filter_cons_of_neg (by simpa using hi), List.map_cons, List.flatten_cons, ih]
          simp [hi]
    rw [h2]
    refine h1.trans ?_
    have : s1.length = (s1.map Sched.inputs).length := by simp
    rw [this, flatten_getD_range]
    exact List.Perm.refl _

end TFT
