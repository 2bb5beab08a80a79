import Verif.Vocab.Informativeness
import Verif.Vocab.CooccurProps
import Verif.Combine.WeightedMeanProps
import Verif.Numeric.MutualInfoProps

/-! Lemmas for the informativeness of tokens. -/

namespace TFT

/-! ## Schedules over renamed inputs -/

theorem Sched.MergesSome.of_map {A B : Type} (f : A → B) (s : Sched A) (h : (s.map f).MergesSome) :
    s.MergesSome := by
  induction s using Sched.ind with
  | h0 => exact .create
  | h1 s b ih =>
    simp only [Sched.map] at h
    cases h with
    | add h => exact .add (ih h)
  | h3 s ih =>
    simp only [Sched.map] at h
    cases h with
    | compact h => exact .compact (ih h)
  | h2 ss ih =>
    simp only [Sched.map, Sched.mapList_eq] at h
    cases h with
    | merge hne h =>
      exact .merge (by simpa using hne) (fun s hs => ih s hs (h _ (List.mem_map.2 ⟨s, hs, rfl⟩)))

theorem Sched.lift {A B : Type} (f : A → B) (s : Sched B) : ∀ as : List A, s.inputs = as.map f →
    ∃ s' : Sched A, s'.map f = s ∧ s'.inputs = as := by
  induction s using Sched.ind with
  | h0 =>
    intro as h
    simp only [Sched.inputs] at h
    have : as = [] := by simpa using h.symm
    exact ⟨.create, rfl, by simp [Sched.inputs, this]⟩
  | h1 s b ih =>
    intro as h
    simp only [Sched.inputs] at h
    obtain ⟨l1, l2, rfl, h1, h2⟩ := List.map_eq_append_iff.1 h.symm
    obtain ⟨x, rfl⟩ : ∃ x, l2 = [x] := by
      have := congrArg List.length h2
      rw [List.length_map] at this
      exact List.length_eq_one_iff.1 (by simpa using this)
    obtain ⟨s', e1, e2⟩ := ih l1 h1.symm
    refine ⟨.add s' x, ?_, by simp [Sched.inputs, e2]⟩
    simp only [Sched.map, e1]
    simp at h2
    rw [h2]
  | h3 s ih =>
    intro as h
    simp only [Sched.inputs] at h
    obtain ⟨s', e1, e2⟩ := ih as h
    exact ⟨.compact s', by simp [Sched.map, e1], by simp [Sched.inputs, e2]⟩
  | h2 ss ih =>
    intro as h
    simp only [Sched.inputs] at h
    have : ∃ ss' : List (Sched A), Sched.mapList f ss' = ss ∧ Sched.inputsList ss' = as := by
      induction ss generalizing as with
      | nil =>
        simp only [Sched.inputsList] at h
        have : as = [] := by simpa using h.symm
        exact ⟨[], rfl, by simp [Sched.inputsList, this]⟩
      | cons s ss ihs =>
        simp only [Sched.inputsList] at h
        obtain ⟨l1, l2, rfl, h1, h2⟩ := List.map_eq_append_iff.1 h.symm
        obtain ⟨s', e1, e2⟩ := ih s (by simp) l1 h1.symm
        obtain ⟨ss', e3, e4⟩ := ihs (fun t ht => ih t (by simp [ht])) l2 h2.symm
        exact ⟨s' :: ss', by simp [Sched.mapList, e1, e3], by simp [Sched.inputsList, e2, e4]⟩
    obtain ⟨ss', e1, e2⟩ := this
    exact ⟨.merge ss', by simp [Sched.map, e1], by simp [Sched.inputs, e2]⟩

theorem lift_list {A B : Type} (f : A → B) (ss : List (Sched B)) : ∀ as : List A,
    allInputs ss = as.map f →
    ∃ ss' : List (Sched A), ss'.map (Sched.map f) = ss ∧ allInputs ss' = as := by
  induction ss with
  | nil =>
    intro as h
    have : as = [] := by simpa [allInputs] using h.symm
    exact ⟨[], rfl, by simp [allInputs, this]⟩
  | cons s ss ih =>
    intro as h
    unfold allInputs at h
    rw [List.map_cons, List.flatten_cons] at h
    obtain ⟨l1, l2, rfl, h1, h2⟩ := List.map_eq_append_iff.1 h.symm
    obtain ⟨s', e1, e2⟩ := Sched.lift f s l1 h1.symm
    obtain ⟨ss', e3, e4⟩ := ih l2 h2.symm
    refine ⟨s' :: ss', by simp [e1, e3], ?_⟩
    unfold allInputs at e4 ⊢
    rw [List.map_cons, List.flatten_cons, e2, e4]

theorem perm_map_lift {A B : Type} (f : A → B) (l : List B) : ∀ as : List A, l.Perm (as.map f) →
    ∃ as' : List A, as'.Perm as ∧ l = as'.map f := by
  induction l with
  | nil =>
    intro as h
    have : as = [] := by simpa using h.symm.eq_nil
    exact ⟨[], by rw [this], rfl⟩
  | cons a l ih =>
    intro as h
    have ha : a ∈ as.map f := h.subset (by simp)
    obtain ⟨x, hx, rfl⟩ := List.mem_map.1 ha
    obtain ⟨p, q, rfl⟩ := List.append_of_mem hx
    have : l.Perm ((p ++ q).map f) := by
      have h2 : (f x :: l).Perm (f x :: (p ++ q).map f) := by
        refine h.trans ?_
        simp only [List.map_append, List.map_cons]
        exact List.perm_middle
      exact (List.perm_cons _).1 h2
    obtain ⟨as', e1, e2⟩ := ih (p ++ q) this
    exact ⟨x :: as', (List.Perm.cons x e1).trans List.perm_middle.symm, by simp [e2]⟩

/-- Without weights, an accumulator that counts something has weight 1. -/
theorem wm_unit_weight (s1 : List (Sched WMAcc)) (s2 : Sched Nat) (hv : ValidRun s1 s2) (r : WMAcc)
    (h : analysis (wmCombiner false) s1 s2 = .ok r) (hc : r.count ≠ 0) : r.weight = some 1 := by
  have key : ∀ a b : WMAcc, (a.count ≠ 0 → a.weight = some 1) →
      (b.count ≠ 0 → b.weight = some 1 ∨ True) →
      (combineWM false a b).count ≠ 0 → (combineWM false a b).weight = some 1 := by
    intro a b _ _ h
    unfold combineWM at h ⊢
    simp only [WMAcc.nanToNum, Bool.false_eq_true, if_false] at h ⊢
    by_cases hlt : a.count < b.count
    · simp only [hlt, if_true] at h ⊢
      have : b.count ≠ 0 := by omega
      simp only [this, if_false]
    · simp only [hlt, if_false] at h ⊢
      by_cases h0 : a.count = 0
      · simp only [h0, if_true] at h ⊢
        omega
      · simp only [h0, if_false]
  have T : Sched.Total (wmCombiner false) (fun _ => True)
      (fun a _ => a.count ≠ 0 → a.weight = some 1) := by
    refine ⟨?_, ?_, ?_, ?_⟩
    · intro h; exact absurd rfl h
    · intro a l b ha _
      exact ⟨_, rfl, key a b ha (fun _ => .inr trivial)⟩
    · intro as ls hne hF
      cases hF with
      | nil => exact absurd rfl hne
      | @cons a l as ls ha hs =>
        refine ⟨_, rfl, ?_⟩
        clear hne
        have gen : ∀ (as : List WMAcc) (ls : List (List WMAcc)),
            List.Forall₂ (fun a (_ : List WMAcc) => a.count ≠ 0 → a.weight = some 1) as ls →
            ∀ a : WMAcc, (a.count ≠ 0 → a.weight = some 1) →
            ((as.foldl (combineWM false) a).count ≠ 0 →
              (as.foldl (combineWM false) a).weight = some 1) := by
          intro as ls hs
          induction hs with
          | nil => intro a ha; exact ha
          | cons hb _ ih =>
            intro a ha
            exact ih _ (key _ _ ha (fun _ => .inr trivial))
        exact gen as ls hs a ha
    · intro a l ha; exact ⟨a, rfl, ha⟩
  obtain ⟨final, e, hR⟩ := analysis_total T (fun _ _ _ _ h => h) s1 s2 hv (fun _ _ => trivial)
  rw [h] at e
  have : r = final := by
    simp only [wmCombiner, Except.ok.injEq] at e
    exact e
  subst this
  exact hR hc

/-- The combined accumulator of a token, from the accumulators of its batches. -/
theorem wm_of_batches (cw : Bool) (bs : List WBatch) (hb : ∀ b ∈ bs, BatchOk cw b)
    (hw : 0 < Spec.totalWeight (bs.flatMap WBatch.rows))
    (s1 : List (Sched WMAcc)) (s2 : Sched Nat) (hv : ValidRun s1 s2)
    (hin : (allInputs s1).Perm (bs.map (weightedStats cw))) :
    ∃ r, analysis (wmCombiner cw) s1 s2 = .ok r ∧
      r.count = (bs.flatMap WBatch.rows).length ∧
      r.weight = some (Spec.totalWeight (bs.flatMap WBatch.rows) / (bs.flatMap WBatch.rows).length) ∧
      ∀ l, r.mean.getD l (some 0) = some (Spec.labelWeight (bs.flatMap WBatch.rows) l /
          Spec.totalWeight (bs.flatMap WBatch.rows)) := by
  obtain ⟨bs', hperm, e⟩ := perm_map_lift (weightedStats cw) _ bs hin
  obtain ⟨s1', e1, e2⟩ := lift_list (weightedStats cw) s1 bs' e
  have hp := hperm.flatMap_right (fun b : WBatch => b.rows)
  have htot : Spec.totalWeight (bs'.flatMap WBatch.rows) = Spec.totalWeight (bs.flatMap WBatch.rows) :=
    (hp.map WRow.weight).sum_eq
  have hlen : (bs'.flatMap WBatch.rows).length = (bs.flatMap WBatch.rows).length := hp.length_eq
  have hlab : ∀ l, Spec.labelWeight (bs'.flatMap WBatch.rows) l
      = Spec.labelWeight (bs.flatMap WBatch.rows) l :=
    fun l => ((hp.filter _).map WRow.weight).sum_eq
  have hv' : ValidRun s1' s2 := by
    refine ⟨?_, hv.merges2, ?_⟩
    · intro s hs
      apply Sched.MergesSome.of_map (weightedStats cw)
      apply hv.merges1
      rw [← e1]
      exact List.mem_map.2 ⟨s, hs, rfl⟩
    · have := hv.once
      rw [← e1, List.length_map] at this
      exact this
  have hb' : ∀ b ∈ allInputs s1', BatchOk cw b := by
    intro b h
    rw [e2] at h
    exact hb b (hperm.subset h)
  obtain ⟨r, hr, h1, h2, h3⟩ := weighted_mean_schedule_independent cw s1' s2 hv' hb'
    (by rw [e2, htot]; exact hw)
  rw [analysis_onBatches, e1] at hr
  rw [e2] at h1 h2 h3
  refine ⟨r, hr, by rw [h1, hlen], ?_, ?_⟩
  · cases cw with
    | true => rw [h2 rfl, htot, hlen]
    | false =>
      have hne : (bs.flatMap WBatch.rows) ≠ [] := by
        intro h
        rw [h] at hw
        simp [Spec.totalWeight] at hw
      have hc : r.count ≠ 0 := by
        rw [h1, hlen]
        exact fun h => hne (List.length_eq_zero_iff.1 h)
      rw [wm_unit_weight s1 s2 hv r hr hc]
      have hok : RowsOk false (bs.flatMap WBatch.rows) := by
        intro x hx
        obtain ⟨b, hb1, hb2⟩ := List.mem_flatMap.1 hx
        exact (hb b hb1).1 x hb2
      rw [hok.total, div_self]
      rw [h1, hlen] at hc
      exact_mod_cast hc
  · intro l
    rw [h3, htot, hlab]

end TFT

namespace TFT.Numeric

/-- Accumulators that say the same, up to labels that do not occur. -/
structure AccEq (a b : LabelAcc) : Prop where
  count : a.count = b.count
  weight : a.weight = b.weight
  mean : ∀ i, a.mean.getD i 0 = b.mean.getD i 0

theorem mapM_pad (rnd : ℝ → ℤ) (adjusted : Bool) (d n x : ℝ) (cur : LabelAcc) (l : List (ℕ × ℝ))
    (z : List (ℕ × ℝ)) (hz : ∀ p ∈ z, p.2 = 0) :
    (l ++ z).mapM (labelTerm rnd adjusted d n x cur)
      = (do let ts ← l.mapM (labelTerm rnd adjusted d n x cur)
            .ok (ts ++ z.map (fun _ => ((0 : ℝ), (0 : ℝ)))) : Except Err (List (ℝ × ℝ))) := by
  have h0 : z.mapM (labelTerm rnd adjusted d n x cur)
      = (.ok (z.map (fun _ => ((0 : ℝ), (0 : ℝ)))) : Except Err (List (ℝ × ℝ))) := by
    induction z with
    | nil => rfl
    | cons p z ih =>
      rw [List.mapM_cons, ih (fun q hq => hz q (by simp [hq]))]
      have : labelTerm rnd adjusted d n x cur p = .ok (0, 0) := by
        unfold labelTerm
        rw [if_pos (hz p (by simp))]
      rw [this]
      rfl
  rw [List.mapM_append, h0]
  rfl

theorem sum_pad (f : ℝ × ℝ → ℝ) (hf : f (0, 0) = 0) (ts : List (ℝ × ℝ)) (z : List (ℕ × ℝ)) :
    ((ts ++ z.map (fun _ => ((0 : ℝ), (0 : ℝ)))).map f).sum = (ts.map f).sum := by
  rw [List.map_append, List.sum_append, List.map_map]
  have : (z.map (f ∘ fun _ => ((0 : ℝ), (0 : ℝ)))).sum = 0 := by
    induction z with
    | nil => rfl
    | cons p z ih => rw [List.map_cons, List.sum_cons, ih]; simp [hf]
  rw [this, add_zero]

theorem enumerate_append (a b : List ℝ) : ∃ z : List (ℕ × ℝ),
    enumerate (a ++ b) = enumerate a ++ z ∧ z.map Prod.snd = b := by
  refine ⟨(b.zipIdx a.length).map (fun p => (p.2, p.1)), ?_, ?_⟩
  · unfold enumerate
    rw [List.zipIdx_append, List.map_append]
    simp
  · rw [List.map_map]
    have : (Prod.snd ∘ fun p : ℝ × ℕ => (p.2, p.1)) = Prod.fst := rfl
    rw [this, List.zipIdx_map_fst]

theorem mi_pad (rnd : ℝ → ℤ) (adjusted : Bool) (d : ℝ) (m : List ℝ) (k : ℕ) (c w : ℝ)
    (cur : LabelAcc) :
    mutualInformation rnd adjusted d ⟨m ++ List.replicate k 0, c, w⟩ cur
      = mutualInformation rnd adjusted d ⟨m, c, w⟩ cur := by
  unfold mutualInformation
  simp only
  by_cases hn : c * w = 0
  · rw [if_pos hn, if_pos hn]
  rw [if_neg hn, if_neg hn]
  by_cases h1 : rnd (cur.count * cur.weight) = rnd (c * w)
  · rw [if_pos h1, if_pos h1]
  rw [if_neg h1, if_neg h1]
  by_cases h2 : rnd (c * w) < rnd (cur.count * cur.weight)
  · rw [if_pos h2, if_pos h2]
  rw [if_neg h2, if_neg h2]
  rw [List.map_append]
  obtain ⟨z, e1, e2⟩ := enumerate_append (m.map (fun m => m * w * c))
    ((List.replicate k (0 : ℝ)).map (fun m => m * w * c))
  rw [e1, mapM_pad rnd adjusted d (c * w) (cur.count * cur.weight) cur _ z (by
    intro p hp
    have : p.2 ∈ z.map Prod.snd := List.mem_map.2 ⟨p, hp, rfl⟩
    rw [e2] at this
    obtain ⟨q, hq, hq2⟩ := List.mem_map.1 this
    rw [← hq2, (List.mem_replicate.1 hq).2]
    ring)]
  cases hts : List.mapM (labelTerm rnd adjusted d (c * w) (cur.count * cur.weight) cur)
      (enumerate (m.map (fun m => m * w * c))) with
  | error e => rfl
  | ok ts =>
    show (if adjusted = true then _ else _) = (if adjusted = true then _ else _)
    rw [sum_pad Prod.fst rfl, sum_pad Prod.snd rfl]

theorem mi_congr_cur (rnd : ℝ → ℤ) (adjusted : Bool) (d : ℝ) (g a b : LabelAcc) (h : AccEq a b) :
    mutualInformation rnd adjusted d g a = mutualInformation rnd adjusted d g b := by
  unfold mutualInformation
  simp only
  have : ∀ n x, labelTerm rnd adjusted d n x a = labelTerm rnd adjusted d n x b := by
    intro n x
    funext p
    unfold labelTerm
    rw [h.count, h.weight, h.mean]
  rw [h.count, h.weight]
  simp only [this]

theorem pad_eq (m m' : List ℝ) (h : ∀ i, m.getD i 0 = m'.getD i 0) :
    m ++ List.replicate (m'.length - m.length) 0 = m' ++ List.replicate (m.length - m'.length) 0 := by
  have pad : ∀ (l : List ℝ) (k i : ℕ), (l ++ List.replicate k 0).getD i 0 = l.getD i 0 := by
    intro l k i
    rcases lt_or_ge i l.length with hi | hi
    · simp [List.getD_eq_getElem?_getD, List.getElem?_append_left hi]
    · simp only [List.getD_eq_getElem?_getD, List.getElem?_append_right hi,
        List.getElem?_eq_none_iff.2 hi, List.getElem?_replicate]
      split <;> rfl
  apply List.ext_getElem
  · simp; omega
  · intro i h1 h2
    have := pad m (m'.length - m.length) i
    have h3 := pad m' (m.length - m'.length) i
    rw [List.getD_eq_getElem _ _ h1] at this
    rw [List.getD_eq_getElem _ _ h2] at h3
    rw [this, h3, h]

theorem mi_congr (rnd : ℝ → ℤ) (adjusted : Bool) (d : ℝ) (g g' a b : LabelAcc) (hg : AccEq g g')
    (h : AccEq a b) :
    mutualInformation rnd adjusted d g a = mutualInformation rnd adjusted d g' b := by
  rw [mi_congr_cur rnd adjusted d g a b h]
  obtain ⟨m, c, w⟩ := g
  obtain ⟨m', c', w'⟩ := g'
  obtain ⟨h1, h2, h3⟩ := hg
  simp only at h1 h2 h3
  subst h1 h2
  rw [← mi_pad rnd adjusted d m (m'.length - m.length) c w b,
    ← mi_pad rnd adjusted d m' (m.length - m'.length) c w b, pad_eq m m' h3]

end TFT.Numeric
