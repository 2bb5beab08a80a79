import Verif.Pipeline.DeepCopy
import Mathlib.Data.List.Nodup
import Mathlib.Data.Finset.Card
import Mathlib.Data.Finset.Range
import Mathlib.Tactic.Tauto

/-!
# A deep copy computes the same data (C50)
-/

namespace TFT.DeepCopy

/-! ## Specification -/

/-- Copying stops at the PCollection: the beginning of the pipeline or a materialization boundary. -/
def Graph.cut (g : Graph) (q : Nat) : Bool := g.isBegin q || g.atBoundary q

/-- Upstream of `p`, up to the first places where copying stops. -/
inductive Reach (g : Graph) (p : Nat) : Nat → Prop
  | start : Reach g p p
  | step {q t i : Nat} : Reach g p q → g.cut q = false → g.producer q = some t → i ∈ g.inputs t →
      Reach g p i

/-- What holds of every Beam pipeline graph. -/
structure Wf (g : Graph) : Prop where
  bound : ∀ t i, i ∈ g.inputs t → i < g.size
  outProd : ∀ t tag o, (tag, o) ∈ g.outputs t → g.producer o = some t
  prodOut : ∀ q t, g.producer q = some t → ∃ tag, (tag, q) ∈ g.outputs t
  nodup : ∀ t, ((g.outputs t).map Prod.snd).Nodup
  noParts : ∀ q t, g.producer q = some t → g.hasParts t = false

/-- The PCollection is not itself a boundary, everything upstream has a producer, and of every
transform upstream only one output is used upstream (others may exist). -/
structure Copyable (g : Graph) (p : Nat) : Prop where
  bound : p < g.size
  notCut : g.cut p = false
  produced : ∀ q, Reach g p q → g.cut q = false → (g.producer q).isSome
  oneOutput : ∀ q t tag o, Reach g p q → g.cut q = false → g.producer q = some t →
    (tag, o) ∈ g.outputs t → Reach g p o → o = q

/-- Data for the original PCollections that agrees with what the transforms compute. -/
def Solves {D : Type} (g : Graph) (den : Nat → Tag → List D → D) (val : Ref → D) : Prop :=
  ∀ t tag o, (tag, o) ∈ g.outputs t → val (.orig o) = den t tag ((g.inputs t).map (fun i => val (.orig i)))

/-- Data for the copied PCollections that agrees with what the copied transforms compute: the copy of a
transform computes what the transform computes, from the inputs of the copy. -/
def SolvesCopies {D : Type} (s : Clones) (den : Nat → Tag → List D → D) (val : Ref → D) : Prop :=
  ∀ t c, (t, c) ∈ s.pts → ∀ tag o, (tag, o) ∈ c.outputs → val (.copy o) = den t tag (c.inputs.map val)

/-! ## Lemmas: the search -/

/-- What visiting a PCollection adds to the list. -/
def block (g : Graph) (q : Nat) : List Item :=
  match g.producer q with
  | none => []
  | some t => [.pc q] ++ (((g.outputs t).map Prod.snd).filter (fun o => decide (o ≠ q))).map Item.pc
      ++ [.pt t]

theorem pushInputs_spec (inputs queue seen : List Nat) (hs : seen.Nodup) :
    ∃ new, pushInputs inputs queue seen = (queue ++ new, seen ++ new) ∧ (seen ++ new).Nodup
      ∧ (∀ i ∈ new, i ∈ inputs) ∧ ∀ i ∈ inputs, i ∈ seen ++ new := by
  unfold pushInputs
  induction inputs generalizing queue seen with
  | nil => exact ⟨[], by simp, by simpa using hs, by simp, by simp⟩
  | cons i inputs ih =>
    simp only [List.foldl_cons]
    by_cases h : i ∈ seen
    · rw [if_pos h]
      obtain ⟨new, h1, h2, h3, h4⟩ := ih queue seen hs
      refine ⟨new, h1, h2, fun j hj => by simp [h3 j hj], ?_⟩
      intro j hj
      rcases List.mem_cons.1 hj with rfl | hj
      · simp [h]
      · exact h4 j hj
    · rw [if_neg h]
      obtain ⟨new, h1, h2, h3, h4⟩ := ih (queue ++ [i]) (seen ++ [i]) (by
        rw [List.nodup_append]; simp [hs]; exact fun a ha hi => h (hi ▸ ha))
      refine ⟨i :: new, by simpa using h1, by simpa using h2, ?_, ?_⟩
      · intro j hj
        rcases List.mem_cons.1 hj with rfl | hj
        · simp
        · simp [h3 j hj]
      · intro j hj
        rcases List.mem_cons.1 hj with rfl | hj
        · simp
        · simpa using h4 j hj

structure SInv (g : Graph) (p : Nat) (s : Search) (done : List Nat) : Prop where
  seen : s.seenPc = done ++ s.queue
  nodup : s.seenPc.Nodup
  reach : ∀ q ∈ s.seenPc, Reach g p q
  start : p ∈ s.seenPc
  closed : ∀ q ∈ done, g.cut q = false → ∀ t, g.producer q = some t → ∀ i ∈ g.inputs t, i ∈ s.seenPc
  pts : s.seenPt = (done.filter (fun q => !g.cut q)).filterMap g.producer
  rev : s.rev = (done.filter (fun q => !g.cut q)).flatMap (block g)

theorem visit_inv {g : Graph} {p : Nat} (hw : Wf g) (hc : Copyable g p) {s : Search} {done rest : List Nat}
    {pc : Nat} (h : SInv g p s done) (hq : s.queue = pc :: rest) :
    ∃ s', visit g pc { s with queue := rest } = .ok s' ∧ SInv g p s' (done ++ [pc]) := by
  have hmem : pc ∈ s.seenPc := by rw [h.seen, hq]; simp
  have hr := h.reach pc hmem
  unfold visit
  by_cases hcut : g.cut pc = true
  · have : (g.isBegin pc || g.atBoundary pc) = true := hcut
    rw [if_pos this]
    refine ⟨_, rfl, ?_⟩
    refine ⟨by simp [h.seen, hq], h.nodup, h.reach, h.start, ?_, ?_, ?_⟩
    · intro q hqd hqc
      rcases List.mem_append.1 hqd with hqd | hqd
      · exact h.closed q hqd hqc
      · simp only [List.mem_singleton] at hqd
        subst hqd
        rw [hcut] at hqc
        exact absurd hqc (by simp)
    · simp [h.pts, hcut]
    · simp [h.rev, hcut]
  · have hcf : g.cut pc = false := by simpa using hcut
    have : ¬ (g.isBegin pc || g.atBoundary pc) = true := hcut
    rw [if_neg this]
    obtain ⟨t, ht⟩ := Option.isSome_iff_exists.1 (hc.produced pc hr hcf)
    rw [ht]
    simp only
    have hnotdone : pc ∉ done := by
      have := h.nodup
      rw [h.seen, hq] at this
      intro hd
      exact (List.disjoint_of_nodup_append this) hd (by simp)
    have htn : t ∉ s.seenPt := by
      rw [h.pts]
      intro hm
      obtain ⟨q, hqm, hqt⟩ := List.mem_filterMap.1 hm
      obtain ⟨hqd, hqc⟩ := List.mem_filter.1 hqm
      obtain ⟨tag, htag⟩ := hw.prodOut pc t ht
      have := hc.oneOutput q t tag pc (h.reach q (by rw [h.seen]; simp [hqd])) (by simpa using hqc) hqt
        htag hr
      exact hnotdone (this ▸ hqd)
    rw [if_neg htn]
    obtain ⟨new, h1, h2, h3, h4⟩ := pushInputs_spec (g.inputs t) rest s.seenPc h.nodup
    refine ⟨_, rfl, ?_⟩
    have hothers : ((g.outputs t).map Prod.snd).filter (fun o => decide (o ∉ s.seenPc))
        = ((g.outputs t).map Prod.snd).filter (fun o => decide (o ≠ pc)) := by
      apply List.filter_congr
      intro o ho
      obtain ⟨⟨tag, o'⟩, ho', rfl⟩ := List.mem_map.1 ho
      rw [Bool.eq_iff_iff]
      simp only [decide_eq_true_eq]
      constructor
      · rintro hn rfl; exact hn hmem
      · intro hne hin
        exact hne (hc.oneOutput pc t tag o' hr hcf ht ho' (h.reach _ hin))
    have hseen : s.seenPc = (done ++ [pc]) ++ rest := by rw [h.seen, hq]; simp
    refine ⟨?_, ?_, ?_, ?_, ?_, ?_, ?_⟩
    · simp only [h1]
      rw [hseen]; simp
    · simp only [h1]; exact h2
    · simp only [h1]
      intro q hqm
      rcases List.mem_append.1 hqm with hqm | hqm
      · exact h.reach q hqm
      · exact .step hr hcf ht (h3 q hqm)
    · simp only [h1]
      exact List.mem_append_left _ h.start
    · simp only [h1]
      intro q hqd hqc t' ht' i hi
      rcases List.mem_append.1 hqd with hqd | hqd
      · exact List.mem_append_left _ (h.closed q hqd hqc t' ht' i hi)
      · simp only [List.mem_singleton] at hqd
        subst hqd
        rw [ht] at ht'
        cases ht'
        exact h4 i hi
    · simp [h.pts, hcf, ht]
    · simp only [h.rev, hothers]
      simp [hcf, block, ht]

theorem search_ok {g : Graph} {p : Nat} (hw : Wf g) (hc : Copyable g p) (P : Search → Prop)
    (hP : ∀ s done pc rest s', SInv g p s done → s.queue = pc :: rest → P s →
      visit g pc { s with queue := rest } = .ok s' → P s')
    (n : Nat) (s : Search)
    (done : List Nat) (h : SInv g p s done) (hPs : P s) (hn : g.size + 1 ≤ n + done.length) :
    ∃ s' done', search g n s = .ok s' ∧ SInv g p s' done' ∧ s'.queue = [] ∧ P s' := by
  have hbound : ∀ q, Reach g p q → q < g.size := by
    intro q hq
    cases hq with
    | start => exact hc.bound
    | step _ _ _ hi => exact hw.bound _ _ hi
  induction n generalizing s done with
  | zero =>
    exfalso
    have hnd : done.Nodup := by
      have := h.nodup
      rw [h.seen] at this
      exact (List.nodup_append.1 this).1
    have hsub : done.toFinset ⊆ Finset.range g.size := by
      intro q hq
      rw [List.mem_toFinset] at hq
      exact Finset.mem_range.2 (hbound q (h.reach q (by rw [h.seen]; simp [hq])))
    have := Finset.card_le_card hsub
    rw [List.toFinset_card_of_nodup hnd, Finset.card_range] at this
    omega
  | succ n ih =>
    unfold search
    cases hq : s.queue with
    | nil => exact ⟨s, done, rfl, h, hq, hPs⟩
    | cons pc rest =>
      obtain ⟨s', h1, h2⟩ := visit_inv hw hc h hq
      simp only [h1]
      exact ih s' (done ++ [pc]) h2 (hP s done pc rest s' h hq hPs h1) (by simp; omega)

/-- All paths to a PCollection have the same length. -/
def Graded (g : Graph) (p : Nat) (rank : Nat → Nat) : Prop :=
  ∀ q t i, Reach g p q → g.cut q = false → g.producer q = some t → i ∈ g.inputs t → rank i = rank q + 1

/-- The search sees PCollections by rank. -/
def Sorted (rank : Nat → Nat) (s : Search) : Prop :=
  s.seenPc.Pairwise (fun a b => rank a ≤ rank b)
    ∧ ∀ y rest, s.queue = y :: rest → ∀ x ∈ s.queue, rank x ≤ rank y + 1

theorem visit_sorted {g : Graph} {p : Nat} {rank : Nat → Nat} (hg : Graded g p rank) (s : Search)
    (done : List Nat) (pc : Nat) (rest : List Nat) (s' : Search) (h : SInv g p s done)
    (hq : s.queue = pc :: rest) (hs : Sorted rank s)
    (hv : visit g pc { s with queue := rest } = .ok s') : Sorted rank s' := by
  obtain ⟨h1, h2⟩ := hs
  have hseen : s.seenPc = done ++ pc :: rest := by rw [h.seen, hq]
  have hrest : ∀ x ∈ rest, rank pc ≤ rank x ∧ rank x ≤ rank pc + 1 := by
    intro x hx
    refine ⟨?_, h2 pc rest hq x (by rw [hq]; simp [hx])⟩
    rw [hseen] at h1
    exact (List.pairwise_cons.1 (List.pairwise_append.1 h1).2.1).1 x hx
  have htail : ∀ y r, rest = y :: r → ∀ x ∈ rest, rank x ≤ rank y + 1 := by
    intro y r hr x hx
    have a := hrest y (by rw [hr]; simp)
    have b := hrest x hx
    omega
  unfold visit at hv
  by_cases hcut : g.cut pc = true
  · rw [if_pos (show (g.isBegin pc || g.atBoundary pc) = true from hcut)] at hv
    cases hv
    exact ⟨h1, htail⟩
  · rw [if_neg (show ¬ (g.isBegin pc || g.atBoundary pc) = true from hcut)] at hv
    cases ht : g.producer pc with
    | none => rw [ht] at hv; cases hv
    | some t =>
      rw [ht] at hv
      simp only at hv
      split at hv
      · cases hv
        exact ⟨h1, htail⟩
      · cases hv
        obtain ⟨new, e1, e2, e3, e4⟩ := pushInputs_spec (g.inputs t) rest s.seenPc h.nodup
        have hpcr : Reach g p pc := h.reach pc (by rw [hseen]; simp)
        have hnew : ∀ x ∈ new, rank x = rank pc + 1 := fun x hx =>
          hg pc t x hpcr (by simpa using hcut) ht (e3 x hx)
        have hle : ∀ x ∈ s.seenPc, rank x ≤ rank pc + 1 := by
          intro x hx
          rw [hseen] at hx h1
          rcases List.mem_append.1 hx with hx | hx
          · have := (List.pairwise_append.1 h1).2.2 x hx pc (by simp)
            omega
          · rcases List.mem_cons.1 hx with rfl | hx
            · omega
            · exact (hrest x hx).2
        refine ⟨?_, ?_⟩
        · simp only [e1]
          rw [List.pairwise_append]
          refine ⟨h1, ?_, ?_⟩
          · apply List.pairwise_of_forall_mem_list
            intro a ha b hb
            rw [hnew a ha, hnew b hb]
          · intro a ha b hb
            rw [hnew b hb]
            exact hle a ha
        · simp only [e1]
          intro y r hyr x hx
          have hy : y ∈ rest ++ new := by rw [hyr]; simp
          have hy' : rank pc ≤ rank y := by
            rcases List.mem_append.1 hy with hy | hy
            · exact (hrest y hy).1
            · rw [hnew y hy]; omega
          rcases List.mem_append.1 hx with hx | hx
          · have := (hrest x hx).2; omega
          · rw [hnew x hx]; omega

/-- The search finds what is upstream, each PCollection once. -/
theorem itemsToClone_ok {g : Graph} {p : Nat} (hw : Wf g) (hc : Copyable g p) :
    ∃ order : List Nat, itemsToClone g p = .ok ((order.flatMap (block g)).reverse) ∧ order.Nodup
      ∧ (∀ q, q ∈ order ↔ Reach g p q ∧ g.cut q = false)
      ∧ ∀ rank, Graded g p rank → order.Pairwise (fun a b => rank a ≤ rank b) := by
  have h0 : SInv g p ⟨[p], [p], [], []⟩ [] :=
    ⟨rfl, by simp, by intro q hq; simp only [List.mem_singleton] at hq; subst hq; exact .start, by simp,
      by simp, rfl, rfl⟩
  obtain ⟨s, done, h1, h2, h3, hsort⟩ := search_ok hw hc (fun s => ∀ rank, Graded g p rank → Sorted rank s)
    (fun s done pc rest s' a b c d rank hg => visit_sorted hg s done pc rest s' a b (c rank hg) d)
    (g.size + 1) _ [] h0 (by
      intro rank _
      refine ⟨by simp, ?_⟩
      intro y rest hy x hx
      simp only [List.cons.injEq] at hy
      simp only [List.mem_singleton] at hx
      rw [hx, hy.1]
      omega) (by simp)
  have hseen : s.seenPc = done := by rw [h2.seen, h3]; simp
  refine ⟨done.filter (fun q => !g.cut q), ?_, ?_, ?_, ?_⟩
  · unfold itemsToClone
    rw [h1]
    simp only [h2.rev]
  · apply List.Nodup.filter
    rw [← hseen]; exact h2.nodup
  · have hall : ∀ q, Reach g p q → q ∈ done := by
      intro q hq
      induction hq with
      | start => rw [← hseen]; exact h2.start
      | step hr hcut hp hi ih => rw [← hseen]; exact h2.closed _ ih hcut _ hp _ hi
    intro q
    simp only [List.mem_filter, Bool.not_eq_true']
    constructor
    · rintro ⟨h4, h5⟩; exact ⟨h2.reach q (by rw [hseen]; exact h4), h5⟩
    · rintro ⟨h4, h5⟩; exact ⟨hall q h4, h5⟩
  · intro rank hg
    have := (hsort rank hg).1
    rw [hseen] at this
    exact this.filter _

/-! ## Lemmas: labels -/

theorem copyLabel_inj (full : String) {a b : Nat} (h : copyLabel full a = copyLabel full b) : a = b := by
  unfold copyLabel at h
  exact Nat.repr_inj.1 (String.append_right_inj _ |>.1 h)

theorem freshLabel_some (labels : List String) (full : String) :
    ∃ l, freshLabel labels full = some l ∧ l ∉ labels := by
  unfold freshLabel
  cases h : ((List.range (labels.length + 1)).map (copyLabel full)).find? (fun l => decide (l ∉ labels)) with
  | some l => exact ⟨l, rfl, by simpa using List.find?_some h⟩
  | none =>
    exfalso
    have hall : ∀ l ∈ (List.range (labels.length + 1)).map (copyLabel full), l ∈ labels := by
      intro l hl
      have := List.find?_eq_none.1 h l hl
      simpa using this
    have hnd : ((List.range (labels.length + 1)).map (copyLabel full)).Nodup := by
      apply List.Nodup.map _ List.nodup_range
      intro a b hab
      exact copyLabel_inj full hab
    have hsub : ((List.range (labels.length + 1)).map (copyLabel full)).toFinset ⊆ labels.toFinset := by
      intro l hl
      rw [List.mem_toFinset] at hl ⊢
      exact hall l hl
    have h1 := Finset.card_le_card hsub
    rw [List.toFinset_card_of_nodup hnd] at h1
    have h2 := labels.toFinset_card_le
    simp at h1
    omega

/-! ## Lemmas: cloning -/

theorem foldlM_append' {α β : Type} (f : β → α → Except Err β) (b : β) (l l' : List α) :
    (l ++ l').foldlM f b = (l.foldlM f b) >>= fun b' => l'.foldlM f b' := by
  rw [List.foldlM_append]

theorem clone_pcs {g : Graph} (t : Nat) (os : List Nat) (pcs : List (Nat × Ref))
    (pre : List (Nat × CopiedPt)) (c : CopiedPt) (labels : List String)
    (hpre : t ∉ pre.map Prod.fst) (hos : os.Nodup) (hp : ∀ o ∈ os, g.producer o = some t)
    (hn : ∀ o ∈ os, o ∉ pcs.map Prod.fst) :
    ∃ outs, (os.map Item.pc).foldlM (cloneItem g) ⟨pcs, pre ++ [(t, c)], labels⟩
        = .ok ⟨pcs ++ os.map (fun o => (o, Ref.copy t)), pre ++ [(t, { c with outputs := c.outputs ++ outs })],
            labels⟩
      ∧ ∀ e, e ∈ outs ↔ e ∈ g.outputs t ∧ e.2 ∈ os := by
  induction os generalizing pcs c with
  | nil => exact ⟨[], by simp [pure, Except.pure], by simp⟩
  | cons o os ih =>
    have ho := hp o (by simp)
    have hno := hn o (by simp)
    have hmem : t ∈ (pre ++ [(t, c)]).map Prod.fst := by simp
    have hstep : cloneItem g ⟨pcs, pre ++ [(t, c)], labels⟩ (.pc o)
        = .ok ⟨pcs ++ [(o, .copy t)], pre ++ [(t, addOutputs (g.outputs t) o c)], labels⟩ := by
      unfold cloneItem
      simp only
      rw [if_neg hno, ho]
      simp only
      rw [if_pos hmem]
      simp only [Except.ok.injEq, Clones.mk.injEq, true_and, and_true, List.map_append, List.map_cons,
        if_true, List.map_nil, List.append_cancel_right_eq]
      conv_rhs => rw [← List.map_id pre]
      apply List.map_congr_left
      intro e he
      have : e.1 ≠ t := by
        rintro rfl
        exact hpre (List.mem_map.2 ⟨e, he, rfl⟩)
      rw [if_neg this]
      rfl
    obtain ⟨outs, h1, h2⟩ := ih (pcs ++ [(o, .copy t)]) (addOutputs (g.outputs t) o c)
      (List.nodup_cons.1 hos).2 (fun x hx => hp x (by simp [hx])) (by
        intro x hx hin
        simp only [List.map_append, List.map_cons, List.map_nil, List.mem_append, List.mem_singleton] at hin
        rcases hin with hin | rfl
        · exact hn x (by simp [hx]) hin
        · exact (List.nodup_cons.1 hos).1 hx)
    refine ⟨(g.outputs t).filter (fun e => decide (e.2 = o)) ++ outs, ?_, ?_⟩
    · simp only [List.map_cons, List.foldlM_cons, bind, Except.bind, hstep]
      rw [h1]
      simp [addOutputs]
    · intro e
      simp only [List.mem_append, List.mem_filter, decide_eq_true_eq, h2, List.mem_cons]
      tauto

/-- The PCollections that are copied with the ones in the list: all outputs of their producers. -/
def Copied (g : Graph) (L : List Nat) (o : Nat) : Prop :=
  ∃ q ∈ L, ∃ t tag, g.producer q = some t ∧ (tag, o) ∈ g.outputs t

theorem clone_block {g : Graph} (hw : Wf g) (s : Clones) (q t : Nat) (hq : g.producer q = some t)
    (ht : t ∉ s.pts.map Prod.fst) (hn : ∀ e ∈ g.outputs t, e.2 ∉ s.pcs.map Prod.fst) :
    ∃ (os : List Nat) (outs : List (Tag × Nat)) (l : String), (block g q).reverse.foldlM (cloneItem g) s
        = .ok ⟨s.pcs ++ os.map (fun o => (o, Ref.copy t)),
            s.pts ++ [(t, ⟨l, (g.inputs t).map (resolve s.pcs), outs⟩)], s.labels ++ [l]⟩
      ∧ (∀ o, o ∈ os ↔ ∃ tag, (tag, o) ∈ g.outputs t) ∧ (∀ e, e ∈ outs ↔ e ∈ g.outputs t)
      ∧ l ∉ s.labels := by
  obtain ⟨l, hl1, hl2⟩ := freshLabel_some s.labels (g.label t)
  set others := ((g.outputs t).map Prod.snd).filter (fun o => decide (o ≠ q)) with hothers
  obtain ⟨tag0, htag0⟩ := hw.prodOut q t hq
  have hmemos : ∀ o, o ∈ (q :: others).reverse ↔ ∃ tag, (tag, o) ∈ g.outputs t := by
    intro o
    simp only [List.mem_reverse, List.mem_cons, hothers, List.mem_filter, List.mem_map,
      decide_eq_true_eq]
    constructor
    · rintro (rfl | ⟨⟨e, he, rfl⟩, _⟩)
      · exact ⟨tag0, htag0⟩
      · exact ⟨e.1, he⟩
    · rintro ⟨tag, h⟩
      by_cases ho : o = q
      · exact .inl ho
      · exact .inr ⟨⟨(tag, o), h, rfl⟩, ho⟩
  have hnd : (q :: others).reverse.Nodup := by
    rw [List.nodup_reverse, List.nodup_cons]
    exact ⟨by simp [hothers], (hw.nodup t).filter _⟩
  have hrev : (block g q).reverse = .pt t :: ((q :: others).reverse).map Item.pc := by
    unfold block
    rw [hq]
    simp [hothers]
  have hstep : cloneItem g s (.pt t) = .ok ⟨s.pcs, s.pts ++ [(t, ⟨l, (g.inputs t).map (resolve s.pcs), []⟩)],
      s.labels ++ [l]⟩ := by
    unfold cloneItem
    simp only
    rw [if_neg ht, if_neg (by rw [hw.noParts q t hq]; simp), hl1]
  obtain ⟨outs, h1, h2⟩ := clone_pcs t (q :: others).reverse s.pcs s.pts
    ⟨l, (g.inputs t).map (resolve s.pcs), []⟩ (s.labels ++ [l]) ht hnd
    (by
      intro o ho
      obtain ⟨tag, h⟩ := (hmemos o).1 ho
      exact hw.outProd t tag o h)
    (by
      intro o ho
      obtain ⟨tag, h⟩ := (hmemos o).1 ho
      exact hn _ h)
  refine ⟨(q :: others).reverse, outs, l, ?_, hmemos, ?_, hl2⟩
  · rw [hrev, List.foldlM_cons, hstep]
    simp only [bind, Except.bind]
    rw [h1]
    simp
  · intro e
    rw [h2]
    constructor
    · exact fun h => h.1
    · exact fun h => ⟨h, (hmemos e.2).2 ⟨e.1, h⟩⟩

/-- What holds after cloning the blocks of a list of PCollections. -/
structure CInv (g : Graph) (labels : List String) (s : Clones) (L : List Nat) : Prop where
  pcs : ∀ o, o ∈ s.pcs.map Prod.fst ↔ Copied g L o
  pts : s.pts.map Prod.fst = L.filterMap g.producer
  outs : ∀ t c, (t, c) ∈ s.pts → ∀ e, e ∈ c.outputs ↔ e ∈ g.outputs t
  labelsEq : s.labels = labels ++ s.pts.map (fun e => e.2.label)
  fresh : (s.pts.map (fun e => e.2.label)).Nodup ∧ ∀ e ∈ s.pts, e.2.label ∉ labels
  inputs : ∀ L1 q L2 t, L = L1 ++ q :: L2 → g.producer q = some t → ∃ c, (t, c) ∈ s.pts ∧
    ∃ ρ : Nat → Ref, c.inputs = (g.inputs t).map ρ ∧ ∀ i, (Copied g L1 i → ρ i = .copy i)
      ∧ (¬ Copied g L1 i → ρ i = .orig i)
  data : ∀ (D : Type) (den : Nat → Tag → List D → D) (val : Ref → D), Solves g den val →
    SolvesCopies s den val → ∀ o, Copied g L o → val (.copy o) = val (.orig o)

theorem clone_all {g : Graph} (hw : Wf g) (labels : List String) (L : List Nat)
    (hprod : ∀ q ∈ L, (g.producer q).isSome) (hnd : (L.filterMap g.producer).Nodup) :
    ∃ s, (L.flatMap (fun q => (block g q).reverse)).foldlM (cloneItem g) ⟨[], [], labels⟩ = .ok s
      ∧ CInv g labels s L := by
  induction L using List.reverseRecOn with
  | nil =>
    refine ⟨⟨[], [], labels⟩, rfl, ?_, rfl, by simp, by simp, by simp, ?_, ?_⟩
    · intro o; simp [Copied]
    · intro L1 q L2 t h; simp at h
    · intro D den val _ _ o ho
      obtain ⟨q, hq, _⟩ := ho
      simp at hq
  | append_singleton L q ih =>
    obtain ⟨t, ht⟩ := Option.isSome_iff_exists.1 (hprod q (by simp))
    rw [List.filterMap_append] at hnd
    have hnd1 := (List.nodup_append.1 hnd).1
    have htL : t ∉ L.filterMap g.producer := by
      intro hm
      have := List.disjoint_of_nodup_append hnd hm
      simp [ht] at this
    obtain ⟨s, h1, h2⟩ := ih (fun x hx => hprod x (by simp [hx])) hnd1
    have hdisj : ∀ o, Copied g L o → ∀ tag, (tag, o) ∉ g.outputs t := by
      rintro o ⟨q', hq', t', tag', hp', ho'⟩ tag ho
      have e1 := hw.outProd t' tag' o ho'
      have e2 := hw.outProd t tag o ho
      rw [e1] at e2
      cases e2
      exact htL (List.mem_filterMap.2 ⟨q', hq', hp'⟩)
    obtain ⟨os, outs, l, h3, h4, h5, h6⟩ := clone_block hw s q t ht (by rw [h2.pts]; exact htL) (by
      intro e he hin
      exact hdisj e.2 ((h2.pcs e.2).1 hin) e.1 he)
    refine ⟨⟨s.pcs ++ os.map (fun o => (o, Ref.copy t)),
            s.pts ++ [(t, ⟨l, (g.inputs t).map (resolve s.pcs), outs⟩)], s.labels ++ [l]⟩, ?_, ?_⟩
    · rw [List.flatMap_append, List.foldlM_append, h1]
      simp only [List.flatMap_cons, List.flatMap_nil, List.append_nil, bind, Except.bind]
      exact h3
    · have hcop : ∀ o, Copied g (L ++ [q]) o ↔ Copied g L o ∨ ∃ tag, (tag, o) ∈ g.outputs t := by
        intro o
        constructor
        · rintro ⟨q', hq', t', tag', hp', ho'⟩
          rcases List.mem_append.1 hq' with hq' | hq'
          · exact .inl ⟨q', hq', t', tag', hp', ho'⟩
          · simp only [List.mem_singleton] at hq'
            subst hq'
            rw [ht] at hp'
            cases hp'
            exact .inr ⟨tag', ho'⟩
        · rintro (⟨q', hq', t', tag', hp', ho'⟩ | ⟨tag, ho⟩)
          · exact ⟨q', by simp [hq'], t', tag', hp', ho'⟩
          · exact ⟨q, by simp, t, tag, ht, ho⟩
      refine ⟨?_, ?_, ?_, ?_, ?_, ?_, ?_⟩
      · intro o
        rw [hcop, ← h2.pcs, ← h4]
        simp [Function.comp_def]
      · simp [h2.pts, ht]
      · intro t' c hmem e
        rcases List.mem_append.1 hmem with hmem | hmem
        · exact h2.outs t' c hmem e
        · simp only [List.mem_singleton, Prod.mk.injEq] at hmem
          obtain ⟨rfl, rfl⟩ := hmem
          exact h5 e
      · simp [h2.labelsEq]
      · have hl1 : l ∉ labels := fun h => h6 (by rw [h2.labelsEq]; simp [h])
        have hl2 : l ∉ s.pts.map (fun e => e.2.label) := fun h => h6 (by
          rw [h2.labelsEq]; exact List.mem_append_right _ h)
        refine ⟨?_, ?_⟩
        · simp only [List.map_append, List.map_cons, List.map_nil]
          rw [List.nodup_append]
          refine ⟨h2.fresh.1, by simp, ?_⟩
          intro a ha b hb hab
          simp only [List.mem_singleton] at hb
          exact hl2 (hb ▸ hab ▸ ha)
        · intro e he
          rcases List.mem_append.1 he with he | he
          · exact h2.fresh.2 e he
          · simp only [List.mem_singleton] at he
            subst he
            exact hl1
      · intro L1 q' L2 t' hL hp'
        rcases List.eq_nil_or_concat L2 with rfl | ⟨L3, x, rfl⟩
        · obtain ⟨rfl, hqq⟩ := List.append_inj' hL rfl
          simp only [List.cons.injEq, and_true] at hqq
          subst hqq
          rw [ht] at hp'
          cases hp'
          refine ⟨_, List.mem_append_right _ (List.mem_singleton.2 rfl), resolve s.pcs, rfl, ?_⟩
          intro i
          unfold resolve
          constructor
          · intro h; rw [if_pos ((h2.pcs i).2 h)]
          · intro h; rw [if_neg (fun hh => h ((h2.pcs i).1 hh))]
        · rw [List.concat_eq_append, ← List.cons_append, ← List.append_assoc] at hL
          obtain ⟨hL, _⟩ := List.append_inj' hL rfl
          obtain ⟨c, hc1, hc2⟩ := h2.inputs L1 q' L3 t' hL hp'
          exact ⟨c, List.mem_append_left _ hc1, hc2⟩
      · intro D den val hs hsc o ho
        have hprev : SolvesCopies s den val := fun t' c hm => hsc t' c (List.mem_append_left _ hm)
        have hdata := h2.data D den val hs hprev
        rcases (hcop o).1 ho with ho | ⟨tag, ho⟩
        · exact hdata o ho
        · rw [hsc t _ (List.mem_append_right _ (List.mem_singleton.2 rfl)) tag o ((h5 _).2 ho),
            hs t tag o ho]
          congr 1
          rw [List.map_map]
          apply List.map_congr_left
          intro i _
          simp only [Function.comp, resolve]
          split
          · rename_i hi
            exact hdata i ((h2.pcs i).1 hi)
          · rfl

theorem nodup_filterMap_on {α β : Type} (f : α → Option β) (l : List α) (hl : l.Nodup)
    (h : ∀ a ∈ l, ∀ b ∈ l, ∀ t, f a = some t → f b = some t → a = b) : (l.filterMap f).Nodup := by
  induction l with
  | nil => simp
  | cons a l ih =>
    have ih := ih (List.nodup_cons.1 hl).2 (fun x hx y hy => h x (by simp [hx]) y (by simp [hy]))
    cases ha : f a with
    | none => rw [List.filterMap_cons_none ha]; exact ih
    | some t =>
      rw [List.filterMap_cons_some ha, List.nodup_cons]
      refine ⟨?_, ih⟩
      intro hm
      obtain ⟨b, hb, hbt⟩ := List.mem_filterMap.1 hm
      have := h a (by simp) b (by simp [hb]) t ha hbt
      exact (List.nodup_cons.1 hl).1 (this ▸ hb)

/-! ## Property -/

/-- **C50** A deep copy of a PCollection succeeds, re-applies every transform between the PCollection and
the materialization boundaries exactly once under a new label, and the copy has the data of the original,
whatever the transforms compute. If all paths to each PCollection upstream have the same length (a chain, a
tree), then the copied transforms read copies of everything up to the boundaries, so producers were copied
before their consumers. -/
theorem deep_copy_same_data {g : Graph} {p : Nat} (hw : Wf g) (hc : Copyable g p) (labels : List String) :
    ∃ s, deepCopy g labels p = .ok (s, .copy p)
      ∧ (s.pts.map Prod.fst).Nodup
      ∧ (∀ t, t ∈ s.pts.map Prod.fst ↔ ∃ q, Reach g p q ∧ g.cut q = false ∧ g.producer q = some t)
      ∧ ((s.pts.map (fun e => e.2.label)).Nodup ∧ ∀ e ∈ s.pts, e.2.label ∉ labels)
      ∧ (∀ (D : Type) (den : Nat → Tag → List D → D) (val : Ref → D), Solves g den val →
          SolvesCopies s den val → val (.copy p) = val (.orig p))
      ∧ ((∃ rank, Graded g p rank) → ∀ q t, Reach g p q → g.cut q = false → g.producer q = some t →
          ∃ c, (t, c) ∈ s.pts
            ∧ c.inputs = (g.inputs t).map (fun i => if g.cut i then .orig i else .copy i)) := by
  obtain ⟨order, h1, h2, h3, hord⟩ := itemsToClone_ok hw hc
  have hprod : ∀ q ∈ order.reverse, (g.producer q).isSome := by
    intro q hq
    obtain ⟨hr, hcut⟩ := (h3 q).1 (List.mem_reverse.1 hq)
    exact hc.produced q hr hcut
  have hnd : (order.reverse.filterMap g.producer).Nodup := by
    apply nodup_filterMap_on _ _ (List.nodup_reverse.2 h2)
    intro a ha b hb t hat hbt
    obtain ⟨hra, hca⟩ := (h3 a).1 (List.mem_reverse.1 ha)
    obtain ⟨hrb, _⟩ := (h3 b).1 (List.mem_reverse.1 hb)
    obtain ⟨tag, htag⟩ := hw.prodOut b t hbt
    exact (hc.oneOutput a t tag b hra hca hat htag hrb).symm
  obtain ⟨s, h4, h5⟩ := clone_all hw labels order.reverse hprod hnd
  have hpo : p ∈ order := (h3 p).2 ⟨.start, hc.notCut⟩
  obtain ⟨t, ht⟩ := Option.isSome_iff_exists.1 (hprod p (List.mem_reverse.2 hpo))
  obtain ⟨tag, htag⟩ := hw.prodOut p t ht
  have hcp : Copied g order.reverse p := ⟨p, List.mem_reverse.2 hpo, t, tag, ht, htag⟩
  refine ⟨s, ?_, ?_, ?_, h5.fresh, ?_, ?_⟩
  · unfold deepCopy cloneItems
    rw [h1]
    simp only [bind, Except.bind]
    have : (order.flatMap (block g)).reverse = order.reverse.flatMap (fun q => (block g q).reverse) := by
      rw [List.reverse_flatMap]; rfl
    rw [this, h4]
    simp only
    rw [if_pos ((h5.pcs p).2 hcp)]
  · rw [h5.pts]; exact hnd
  · intro t'
    rw [h5.pts]
    simp only [List.mem_filterMap, List.mem_reverse, h3]
    constructor
    · rintro ⟨q, ⟨a, b⟩, c⟩; exact ⟨q, a, b, c⟩
    · rintro ⟨q, a, b, c⟩; exact ⟨q, ⟨a, b⟩, c⟩
  · intro D den val hs hsc
    exact h5.data D den val hs hsc p hcp
  · rintro ⟨rank, hg⟩ q t' hr hcut hpq
    have hqo : q ∈ order.reverse := List.mem_reverse.2 ((h3 q).2 ⟨hr, hcut⟩)
    obtain ⟨L1, L2, hL⟩ := List.append_of_mem hqo
    obtain ⟨c, hc1, ρ, hc2, hc3⟩ := h5.inputs L1 q L2 t' hL hpq
    refine ⟨c, hc1, ?_⟩
    rw [hc2]
    apply List.map_congr_left
    intro i hi
    have hri : Reach g p i := .step hr hcut hpq hi
    by_cases hci : g.cut i = true
    · rw [if_pos hci]
      apply (hc3 i).2
      rintro ⟨q', hq', t2, tag2, hp2, ho2⟩
      have hq'o : q' ∈ order := by
        rw [← List.mem_reverse, hL]; simp [hq']
      obtain ⟨hr', hcut'⟩ := (h3 q').1 hq'o
      have := hc.oneOutput q' t2 tag2 i hr' hcut' hp2 ho2 hri
      rw [this, hcut'] at hci
      exact absurd hci (by simp)
    · rw [if_neg hci]
      apply (hc3 i).1
      have hcf : g.cut i = false := by simpa using hci
      have hio : i ∈ order.reverse := List.mem_reverse.2 ((h3 i).2 ⟨hri, hcf⟩)
      have hpair := hord rank hg
      rw [← List.pairwise_reverse, hL] at hpair
      have hrank := hg q t' i hr hcut hpq hi
      rw [hL] at hio
      have hiL : i ∈ L1 := by
        rcases List.mem_append.1 hio with h | h
        · exact h
        · exfalso
          rcases List.mem_cons.1 h with rfl | h
          · omega
          · have := (List.pairwise_cons.1 (List.pairwise_append.1 hpair).2.1).1 i h
            omega
      obtain ⟨t3, ht3⟩ := Option.isSome_iff_exists.1 (hc.produced i hri hcf)
      obtain ⟨tag3, htag3⟩ := hw.prodOut i t3 ht3
      exact ⟨i, hiL, t3, tag3, ht3, htag3⟩

/-! ## Limits and non-vacuity -/

/-- **C50, negative** A deep copy of a PCollection that is itself at a materialization boundary (the output
of a `GroupByKey`) fails. -/
theorem boundary_fails (g : Graph) (labels : List String) (p : Nat) (h : g.cut p = true) (hp : 0 < g.size) :
    deepCopy g labels p = .error "KeyError" := by
  obtain ⟨n, hn⟩ : ∃ n, g.size = n + 1 := ⟨g.size - 1, by omega⟩
  have hc : (g.isBegin p || g.atBoundary p) = true := h
  unfold deepCopy itemsToClone
  rw [hn]
  simp only [search, visit, hc, if_true]
  rfl

/-- A chain: `0` is the beginning, transform `k` makes `k + 1` from `k`. -/
def chain (n : Nat) : Graph where
  size := n + 1
  isBegin := fun q => decide (q = 0)
  ancestry := fun _ => [(false, false)]
  producer := fun q => if q = 0 then none else some (q - 1)
  inputs := fun t => if t < n then [t] else []
  outputs := fun t => [(0, t + 1)]
  hasParts := fun _ => false
  label := fun t => "T" ++ Nat.repr t

/-- Chains of any length meet the hypotheses of `deep_copy_same_data`. -/
example (n : Nat) : Wf (chain (n + 1)) ∧ Copyable (chain (n + 1)) (n + 1)
    ∧ ∃ rank, Graded (chain (n + 1)) (n + 1) rank := by
  have hcut : ∀ q, (chain (n + 1)).cut q = decide (q = 0) := by
    intro q; simp [Graph.cut, chain, Graph.atBoundary, climb]
  have hle : ∀ q, Reach (chain (n + 1)) (n + 1) q → q ≤ n + 1 := by
    intro q hq
    induction hq with
    | start => exact le_refl _
    | @step q t i hr hc hp hi ih =>
      simp only [chain] at hi
      split at hi
      · simp only [List.mem_singleton] at hi; omega
      · simp at hi
  refine ⟨⟨?_, ?_, ?_, ?_, ?_⟩, ⟨?_, ?_, ?_, ?_⟩, fun q => n + 1 - q, ?_⟩
  · intro t i hi
    simp only [chain] at hi ⊢
    split at hi
    · simp only [List.mem_singleton] at hi; omega
    · simp at hi
  · intro t tag o h
    simp only [chain, List.mem_singleton, Prod.mk.injEq] at h ⊢
    rw [h.2]; simp
  · intro q t h
    simp only [chain] at h ⊢
    split at h
    · cases h
    · cases h
      exact ⟨0, by simp; omega⟩
  · intro t; simp [chain]
  · intro q t _; rfl
  · simp [chain]
  · rw [hcut]; simp
  · intro q _ hc
    rw [hcut] at hc
    have : q ≠ 0 := by simpa using hc
    simp [chain, this]
  · intro q t tag o hr hc hp ho _
    simp only [chain, List.mem_singleton, Prod.mk.injEq] at hp ho
    split at hp
    · cases hp
    · cases hp
      omega
  · intro q t i hr hc hp hi
    have := hle q hr
    simp only [chain] at hp hi
    split at hp
    · cases hp
    · cases hp
      split at hi
      · simp only [List.mem_singleton] at hi
        show n + 1 - i = n + 1 - q + 1
        omega
      · simp at hi

/-- A transform with two outputs (1 and 2) that are flattened into 3. -/
def twoOutputs : Graph where
  size := 4
  isBegin := fun q => decide (q = 0)
  ancestry := fun _ => [(false, false)]
  producer := fun q => [none, some 0, some 0, some 1].getD q none
  inputs := fun t => [[0], [1, 2]].getD t []
  outputs := fun t => [[(0, 1), (1, 2)], [(0, 3)]].getD t []
  hasParts := fun _ => false
  label := fun t => "T" ++ Nat.repr t

/-- **C50, negative** When two outputs of one transform are used, the second is copied before the
transform, so no transform computes its copy, and the copy of the result can have other data than the
original. -/
theorem two_outputs_lose_data :
    ∃ s, deepCopy twoOutputs [] 3 = .ok (s, .copy 3)
      ∧ (1, Ref.copy 2) ∈ s.pts.flatMap (fun e => e.2.inputs.map (fun r => (e.1, r)))
      ∧ (∀ e ∈ s.pts, 2 ∉ e.2.outputs.map Prod.snd)
      ∧ ∃ (den : Nat → Tag → List (List Nat) → List Nat) (val : Ref → List Nat),
          Solves twoOutputs den val ∧ SolvesCopies s den val ∧ val (.copy 3) ≠ val (.orig 3) := by
  refine ⟨⟨[(2, .orig 0), (1, .copy 0), (3, .copy 1)],
    [(0, ⟨copyLabel "T0" 0, [.orig 0], [(0, 1)]⟩), (1, ⟨copyLabel "T1" 0, [.copy 1, .copy 2], [(0, 3)]⟩)],
    [copyLabel "T0" 0, copyLabel "T1" 0]⟩, by rfl, by decide, by decide,
    fun t _ ins => if t = 0 then [7] else ins.flatten,
    fun r => match r with
      | .orig n => [[], [7], [7], [7, 7]].getD n []
      | .copy n => [[], [7], [], [7]].getD n [], ?_, ?_, by decide⟩
  · intro t tag o h
    match t with
    | 0 => simp [twoOutputs] at h; rcases h with ⟨_, rfl⟩ | ⟨_, rfl⟩ <;> rfl
    | 1 => simp [twoOutputs] at h; rcases h with ⟨_, rfl⟩; rfl
    | t + 2 => simp [twoOutputs] at h
  · intro t c h tag o ho
    simp only [List.mem_cons, Prod.mk.injEq, List.not_mem_nil, or_false] at h
    rcases h with ⟨rfl, rfl⟩ | ⟨rfl, rfl⟩ <;>
      · simp only [List.mem_singleton, Prod.mk.injEq] at ho
        obtain ⟨_, rfl⟩ := ho
        rfl

/-- `(p, p | f) | Flatten`: PCollection 1 is `p`, 2 is `p | f`, 3 the flattened one. -/
def diamond : Graph where
  size := 4
  isBegin := fun q => decide (q = 0)
  ancestry := fun _ => [(false, false)]
  producer := fun q => [none, some 0, some 1, some 2].getD q none
  inputs := fun t => [[0], [1], [1, 2]].getD t []
  outputs := fun t => [[(0, 1)], [(0, 2)], [(0, 3)]].getD t []
  hasParts := fun _ => false
  label := fun t => "T" ++ Nat.repr t

/-- **C50, negative** The list of items is not sorted by dependency, as `_get_items_to_clone` promises:
here `f` (transform 1) comes before `p` (PCollection 1), so the copy of `f` reads the original `p` although
`p` is copied. -/
theorem diamond_reads_original :
    itemsToClone diamond 3 = .ok [.pt 1, .pc 2, .pt 0, .pc 1, .pt 2, .pc 3]
    ∧ ∃ s, deepCopy diamond [] 3 = .ok (s, .copy 3) ∧ 1 ∈ s.pcs.map Prod.fst
        ∧ ∃ c, (1, c) ∈ s.pts ∧ c.inputs = [.orig 1] := by
  refine ⟨by rfl, ⟨[(2, .copy 1), (1, .copy 0), (3, .copy 2)],
    [(1, ⟨copyLabel "T1" 0, [.orig 1], [(0, 2)]⟩), (0, ⟨copyLabel "T0" 0, [.orig 0], [(0, 1)]⟩),
      (2, ⟨copyLabel "T2" 0, [.copy 1, .copy 2], [(0, 3)]⟩)],
    [copyLabel "T1" 0, copyLabel "T0" 0, copyLabel "T2" 0]⟩, by rfl, by decide, _, by simp; rfl, rfl⟩

/-- Outputs 1 and 2 of one transform; 2 is read through another transform (giving 3); `[1, 3]` are
flattened into 4. -/
def laterOutput : Graph where
  size := 5
  isBegin := fun q => decide (q = 0)
  ancestry := fun _ => [(false, false)]
  producer := fun q => [none, some 0, some 0, some 1, some 2].getD q none
  inputs := fun t => [[0], [2], [1, 3]].getD t []
  outputs := fun t => [[(0, 1), (1, 2)], [(0, 3)], [(0, 4)]].getD t []
  hasParts := fun _ => false
  label := fun t => "T" ++ Nat.repr t

/-- **C50, negative** When another output of a transform is found later, it is listed twice and the copy
fails. -/
theorem later_output_fails :
    deepCopy laterOutput [] 4 = .error "AssertionError: item not in pcollection_replacements" := by
  rfl

/-- The three graphs are Beam pipeline graphs. -/
example : Wf twoOutputs ∧ Wf diamond ∧ Wf laterOutput := by
  refine ⟨⟨?_, ?_, ?_, ?_, fun _ _ _ => rfl⟩, ⟨?_, ?_, ?_, ?_, fun _ _ _ => rfl⟩,
    ⟨?_, ?_, ?_, ?_, fun _ _ _ => rfl⟩⟩
  · rintro (_ | _ | t) i <;> simp [twoOutputs] <;> omega
  · rintro (_ | _ | t) tag o h <;> simp [twoOutputs] at h ⊢
    · rcases h with ⟨_, rfl⟩ | ⟨_, rfl⟩ <;> rfl
    · rcases h with ⟨_, rfl⟩; rfl
  · rintro (_ | _ | _ | _ | q) t <;> simp [twoOutputs] <;> rintro rfl <;> simp
  · rintro (_ | _ | t) <;> simp [twoOutputs]
  · rintro (_ | _ | _ | t) i <;> simp [diamond] <;> omega
  · rintro (_ | _ | _ | t) tag o <;> simp [diamond] <;> rintro _ rfl <;> simp
  · rintro (_ | _ | _ | _ | q) t <;> simp [diamond] <;> rintro rfl <;> simp
  · rintro (_ | _ | _ | t) <;> simp [diamond]
  · rintro (_ | _ | _ | t) i <;> simp [laterOutput] <;> omega
  · rintro (_ | _ | _ | t) tag o h <;> simp [laterOutput] at h ⊢
    · rcases h with ⟨_, rfl⟩ | ⟨_, rfl⟩ <;> rfl
    · rcases h with ⟨_, rfl⟩; rfl
    · rcases h with ⟨_, rfl⟩; rfl
  · rintro (_ | _ | _ | _ | _ | q) t <;> simp [laterOutput] <;> rintro rfl <;> simp
  · rintro (_ | _ | _ | t) <;> simp [laterOutput]

/-- **C50, boundary** Copying stops at a PCollection exactly if it is the beginning of the pipeline or
some transform above it, counted from its producer, is a materialization barrier and the PCollection is
an output of every transform in between. -/
theorem cut_iff (g : Graph) (pc : Nat) :
    g.cut pc = true ↔ g.isBegin pc = true ∨
      ∃ (below : List (Bool × Bool)) (inParent : Bool) (above : List (Bool × Bool)),
        g.ancestry pc = below ++ (true, inParent) :: above ∧ ∀ a ∈ below, a.2 = true := by
  have key : ∀ l : List (Bool × Bool), climb l = true ↔
      ∃ (below : List (Bool × Bool)) (inParent : Bool) (above : List (Bool × Bool)),
        l = below ++ (true, inParent) :: above ∧ ∀ a ∈ below, a.2 = true := by
    intro l
    induction l with
    | nil => simp [climb]
    | cons p l ih =>
      obtain ⟨b, q⟩ := p
      cases b with
      | true =>
        simp only [climb, if_true, true_iff]
        exact ⟨[], q, l, rfl, by simp⟩
      | false =>
        cases q with
        | true =>
          simp only [climb, Bool.false_eq_true, if_false, if_true, ih]
          constructor
          · rintro ⟨below, i, above, rfl, h⟩
            exact ⟨(false, true) :: below, i, above, rfl, by simpa using h⟩
          · rintro ⟨below, i, above, e, h⟩
            cases below with
            | nil => simp at e
            | cons x xs =>
              simp only [List.cons_append, List.cons.injEq] at e
              exact ⟨xs, i, above, e.2, fun a ha => h a (by simp [ha])⟩
        | false =>
          simp only [climb, Bool.false_eq_true, if_false, false_iff]
          rintro ⟨below, i, above, e, h⟩
          cases below with
          | nil => simp at e
          | cons x xs =>
            simp only [List.cons_append, List.cons.injEq] at e
            have := h x (by simp)
            rw [← e.1] at this
            simp at this
  unfold Graph.cut Graph.atBoundary
  rw [Bool.or_eq_true, key]

/-- The output of a `GroupByKey` inside a composite whose output it also is. -/
example : ∃ below inParent above, [(false, true), (true, true), (false, false)]
    = below ++ ((true, inParent) : Bool × Bool) :: above ∧ ∀ a ∈ below, a.2 = true :=
  ⟨[(false, true)], true, [(false, false)], rfl, by simp⟩

end TFT.DeepCopy
