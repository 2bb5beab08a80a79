import Verif.Mappers.PerKeyScaling
import Verif.Mappers.ScalingProps
import Verif.Vocab.CooccurProps

/-!
# Lemmas for scaling per key (C74)
-/

namespace TFT

/-! ## Analyses of values that come from data -/

section lift

variable {Acc In Out B : Type}

theorem exists_map_of_perm (f : B → In) {l l' : List In} (h : l.Perm l') :
    ∀ ds : List B, ds.map f = l' → ∃ ds' : List B, ds'.map f = l ∧ ds'.Perm ds := by
  induction h with
  | nil =>
    intro ds hd
    exact ⟨[], rfl, by rw [List.map_eq_nil_iff.1 hd]⟩
  | @cons a l l' _ ih =>
    intro ds hd
    obtain ⟨d, ds0, rfl, rfl, h0⟩ := List.map_eq_cons_iff.1 hd
    obtain ⟨ds', h1, h2⟩ := ih ds0 h0
    exact ⟨d :: ds', by simp [h1], h2.cons d⟩
  | swap a b l =>
    intro ds hd
    obtain ⟨d, ds0, rfl, rfl, h0⟩ := List.map_eq_cons_iff.1 hd
    obtain ⟨d', ds1, rfl, rfl, h1⟩ := List.map_eq_cons_iff.1 h0
    exact ⟨d' :: d :: ds1, by simp [h1], List.Perm.swap _ _ _⟩
  | trans _ _ ih1 ih2 =>
    intro ds hd
    obtain ⟨ds', h1, h2⟩ := ih2 ds hd
    obtain ⟨ds'', h3, h4⟩ := ih1 ds' h1
    exact ⟨ds'', h3, h4.trans h2⟩

theorem exists_flatten_of_map (f : B → In) : ∀ (ls : List (List In)) (ds : List B),
    ds.map f = ls.flatten → ∃ dss : List (List B), dss.flatten = ds ∧ dss.map (List.map f) = ls := by
  intro ls
  induction ls with
  | nil =>
    intro ds hd
    exact ⟨[], by simpa using hd.symm, rfl⟩
  | cons l ls ih =>
    intro ds hd
    rw [List.flatten_cons] at hd
    obtain ⟨d1, d2, rfl, h1, h2⟩ := List.map_eq_append_iff.1 hd
    obtain ⟨dss, h3, h4⟩ := ih d2 h2
    exact ⟨d1 :: dss, by simp [h3], by simp [h1, h4]⟩

/-- An invariant over data gives one over the inputs computed from the data. -/
theorem total_lift {c : Combiner Acc In Out} {f : B → In} {P : B → Prop} {R : Acc → List B → Prop}
    (T : Sched.Total (c.onBatches f) P R) :
    Sched.Total c (fun i => ∃ d, P d ∧ f d = i)
      (fun a l => (∃ ds : List B, (∀ d ∈ ds, P d) ∧ ds.map f = l) ∧
        ∀ ds : List B, (∀ d ∈ ds, P d) → ds.map f = l → R a ds) where
  create := by
    refine ⟨⟨[], by simp, rfl⟩, ?_⟩
    intro ds _ h
    rw [List.map_eq_nil_iff.1 h]
    exact T.create
  add := by
    rintro a l b ⟨⟨ds, hP, hl⟩, hR⟩ ⟨d, hd, rfl⟩
    obtain ⟨a', ha', _⟩ := T.add a ds d (hR ds hP hl) hd
    refine ⟨a', ha', ⟨ds ++ [d], ?_, by simp [hl]⟩, ?_⟩
    · intro x hx
      rcases List.mem_append.1 hx with h | h
      · exact hP x h
      · rw [List.mem_singleton.1 h]; exact hd
    · intro es hes he
      obtain ⟨e1, e2, rfl, h1, h2⟩ := List.map_eq_append_iff.1 he
      obtain ⟨e, e3, rfl, h3, h4⟩ := List.map_eq_cons_iff.1 h2
      rw [List.map_eq_nil_iff.1 h4] at hes ⊢
      obtain ⟨a'', ha'', hR''⟩ := T.add a e1 e
        (hR e1 (fun x hx => hes x (by simp [hx])) h1) (hes e (by simp))
      have : a'' = a' := by
        have h5 : (c.onBatches f).addInput a e = (c.onBatches f).addInput a d := by
          show c.addInput a (f e) = c.addInput a (f d)
          rw [h3]
        rw [h5, ha'] at ha''
        exact (Except.ok.inj ha'').symm
      rw [← this]
      exact hR''
  merge := by
    intro as ls hne hF
    have hex : ∃ dss : List (List B), (∀ ds ∈ dss, ∀ d ∈ ds, P d) ∧ dss.map (List.map f) = ls := by
      clear hne
      induction hF with
      | nil => exact ⟨[], by simp, rfl⟩
      | cons h _ ih =>
        obtain ⟨dss, h1, h2⟩ := ih
        obtain ⟨⟨ds, h3, h4⟩, _⟩ := h
        refine ⟨ds :: dss, ?_, by simp [h2, h4]⟩
        intro x hx
        rcases List.mem_cons.1 hx with rfl | hx
        · exact h3
        · exact h1 x hx
    have hrel : ∀ dss : List (List B), (∀ ds ∈ dss, ∀ d ∈ ds, P d) → dss.map (List.map f) = ls →
        List.Forall₂ R as dss := by
      clear hne hex
      induction hF with
      | nil => intro dss _ h; rw [List.map_eq_nil_iff.1 h]; exact .nil
      | cons h _ ih =>
        intro dss hd he
        obtain ⟨ds, dss', rfl, h1, h2⟩ := List.map_eq_cons_iff.1 he
        exact .cons (h.2 ds (hd ds (by simp)) h1) (ih dss' (fun x hx => hd x (by simp [hx])) h2)
    obtain ⟨dss, hd1, hd2⟩ := hex
    obtain ⟨a', ha', _⟩ := T.merge as dss hne (hrel dss hd1 hd2)
    refine ⟨a', ha', ⟨dss.flatten, ?_, ?_⟩, ?_⟩
    · intro d hd
      obtain ⟨ds, h1, h2⟩ := List.mem_flatten.1 hd
      exact hd1 ds h1 d h2
    · rw [List.map_flatten, hd2]
    · intro es hes he
      obtain ⟨ess, h1, h2⟩ := exists_flatten_of_map f ls es he
      obtain ⟨a'', ha'', hR''⟩ := T.merge as ess hne (hrel ess
        (fun ds hds d hd => hes d (by rw [← h1]; exact List.mem_flatten.2 ⟨ds, hds, hd⟩)) h2)
      rw [ha'] at ha''
      rw [Except.ok.inj ha'', ← h1]
      exact hR''
  compact := by
    rintro a l ⟨⟨ds, hP, hl⟩, hR⟩
    obtain ⟨a', ha', _⟩ := T.compact a ds (hR ds hP hl)
    refine ⟨a', ha', ⟨ds, hP, hl⟩, ?_⟩
    intro es hes he
    obtain ⟨a'', ha'', hR''⟩ := T.compact a es (hR es hes he)
    rw [ha'] at ha''
    rw [Except.ok.inj ha'']
    exact hR''

theorem analysis_lift {c : Combiner Acc In Out} {f : B → In} {P : B → Prop}
    {R : Acc → List B → Prop} (T : Sched.Total (c.onBatches f) P R)
    (hperm : ∀ a l l', l.Perm l' → R a l → R a l') (s1 : List (Sched In)) (s2 : Sched Nat)
    (hv : ValidRun s1 s2) (ds : List B) (hP : ∀ d ∈ ds, P d) (hds : (allInputs s1).Perm (ds.map f)) :
    ∃ final, analysis c s1 s2 = c.extract final ∧ R final ds := by
  obtain ⟨final, hfin, -, hR⟩ := analysis_total (total_lift T) (by
    rintro a l l' hp ⟨⟨es, h1, h2⟩, h3⟩
    refine ⟨?_, ?_⟩
    · obtain ⟨es', h4, h5⟩ := exists_map_of_perm f hp.symm es h2
      exact ⟨es', fun d hd => h1 d (h5.mem_iff.1 hd), h4⟩
    · intro es' h4 h5
      obtain ⟨es'', h6, h7⟩ := exists_map_of_perm f hp es' h5
      exact hperm a _ _ h7 (h3 es'' (fun d hd => h4 d (h7.mem_iff.1 hd)) h6)) s1 s2 hv (by
    intro b hb
    obtain ⟨d, hd, rfl⟩ := List.mem_map.1 (hds.mem_iff.1 hb)
    exact ⟨d, hP d hd, rfl⟩)
  refine ⟨final, hfin, ?_⟩
  obtain ⟨ds', h1, h2⟩ := exists_map_of_perm f hds ds rfl
  exact hperm final _ _ h2 (hR ds' (fun d hd => hP d (h2.mem_iff.1 hd)) h1)

end lift

theorem merge_two_outputs {K O : Type} [LinearOrder K] (ks : List K) (a b : K → O) :
    mergeOutputsByKey 2 (ks.map (fun k => (k, [a k, b k])))
      = .ok (ks.insertionSort (· ≤ ·),
          [(ks.insertionSort (· ≤ ·)).map a, (ks.insertionSort (· ≤ ·)).map b]) := by
  have hsort : (ks.map (fun k => (k, [a k, b k]))).insertionSort (fun a b => a.1 ≤ b.1)
      = (ks.insertionSort (· ≤ ·)).map (fun k => (k, [a k, b k])) := by
    rw [List.map_insertionSort (r := fun a b : K => a ≤ b)
      (s := fun a b : K × List O => a.1 ≤ b.1) (fun k => (k, [a k, b k]))]
    intros; rfl
  unfold mergeOutputsByKey
  simp only
  rw [hsort]
  generalize ks.insertionSort (· ≤ ·) = ks
  cases ks with
  | nil => rfl
  | cons k ks =>
    have hl : ∀ l ∈ ((k :: ks).map (fun k => (k, [a k, b k]))).map Prod.snd, l.length = 2 := by
      intro l hl
      simp only [List.map_map, List.mem_map] at hl
      obtain ⟨k', _, rfl⟩ := hl
      rfl
    have hz : zipStar (((k :: ks).map (fun k => (k, [a k, b k]))).map Prod.snd)
        = [(k :: ks).map a, (k :: ks).map b] := by
      unfold zipStar
      rw [zipLen_eq_length _ (by simp) hl]
      have h0 : ∀ l : List K, (l.map (fun k => [a k, b k])).filterMap (fun l => l[0]?) = l.map a := by
        intro l
        induction l with
        | nil => rfl
        | cons x l ih => simp
      have h1 : ∀ l : List K, (l.map (fun k => [a k, b k])).filterMap (fun l => l[1]?) = l.map b := by
        intro l
        induction l with
        | nil => rfl
        | cons x l ih => simp
      rw [List.map_map, show (Prod.snd ∘ fun k => (k, [a k, b k])) = fun k => [a k, b k] from rfl,
        show List.range 2 = [0, 1] from rfl]
      exact congrArg₂ (fun x y => [x, y]) (h0 (k :: ks)) (h1 (k :: ks))
    rw [hz]
    simp [Function.comp_def]

namespace Scaling

open Reduce (gather raggedRows uniqueWithCounts)
open TFT.Spec (valuesOf)

variable {K α : Type} [DecidableEq K]

/-! ## The columns of one key -/

/-- The instances with key `k`. -/
def own (k : K) (insts : List (K × List α)) : List (List α) :=
  (insts.filter (fun i => decide (i.1 = k))).map Prod.snd

/-- The columns of key `k`: one with all values, or one for each of the `n` positions. -/
def keyCols (reduce : Bool) (n : Nat) (k : K) (insts : List (K × List α)) : ColBatch α :=
  if reduce then [(own k insts).flatten]
  else (List.range n).map (fun p : Nat => (own k insts).filterMap (fun r => r[p]?))

/-- The batches of `bs` in which `k` occurs, as columns of `k`. -/
def keyBatches (reduce : Bool) (n : Nat) (k : K) (bs : List (List (K × List α))) :
    List (ColBatch α) :=
  (bs.filter (fun insts => decide (k ∈ insts.map Prod.fst))).map (keyCols reduce n k)

theorem segment_own {β : Type} (g : List α → β) (insts : List (K × List α)) (us : List K)
    (hmem : ∀ i ∈ insts, i.1 ∈ us) (hnd : us.Nodup) (s : Nat) (hs : s < us.length) :
    segment (insts.map (fun i => g i.2)) (insts.map (fun i => us.idxOf i.1)) s
      = (own us[s] insts).map g := by
  unfold segment own
  rw [List.zip_map', List.filter_map, List.map_map, List.map_map]
  have : insts.filter ((fun p : Nat × β => decide (p.1 = s)) ∘ fun i => (us.idxOf i.1, g i.2))
      = insts.filter (fun i => decide (i.1 = us[s])) := by
    apply List.filter_congr
    intro i hi
    simp only [Function.comp, decide_eq_decide]
    constructor
    · intro h
      have := List.getElem_idxOf (List.idxOf_lt_length_of_mem (hmem i hi))
      simp only [h] at this
      exact this.symm
    · intro h
      rw [h]
      exact hnd.idxOf_getElem s hs
  rw [this]
  rfl

omit [DecidableEq K] in
theorem range_map_getElem {β : Type} (us : List K) (F : Nat → β) (G : K → β)
    (h : ∀ s (hs : s < us.length), F s = G us[s]) : (List.range us.length).map F = us.map G := by
  apply List.ext_getElem
  · simp
  · intro i h1 h2
    simp only [List.getElem_map, List.getElem_range]
    exact h i (by simpa using h1)

/-- What `unsorted_segment_*` gives for the keys of a batch. -/
theorem segmentReduce_keys {β γ : Type} (f : List β → γ) (cols : Nat) (g : List α → List β)
    (insts : List (K × List α)) :
    segmentReduce f cols (insts.map (fun i => g i.2)) (uniqueWithCounts (insts.map Prod.fst)).idx
        (uniqueWithCounts (insts.map Prod.fst)).y.length
      = .ok ((uniqFirst (insts.map Prod.fst)).map (fun k => (List.range cols).map (fun j : Nat =>
          f (((own k insts).map g).filterMap (fun r => r[j]?))))) := by
  unfold segmentReduce
  rw [if_neg (by simp [uniqueWithCounts])]
  congr 1
  simp only [uniqueWithCounts, List.map_map, Function.comp_def]
  apply range_map_getElem
  intro s hs
  apply List.map_congr_left
  intro j _
  rw [segment_own g insts _ (fun i hi => (mem_uniqFirst _ _).2 (List.mem_map_of_mem hi))
    (nodup_uniqFirst _) s hs]

/-- The collections of all datasets when a batch gives, for each of its keys, `f` of the key's
columns. -/
theorem keyBatches_values {V : Type} (f : ColBatch α → V) (reduce : Bool) (n : Nat)
    (bs : List (List (K × List α))) (k : K) :
    valuesOf k (bs.map (fun insts => (uniqFirst (insts.map Prod.fst)).map
        (fun k => (k, f (keyCols reduce n k insts))))).flatten
      = (keyBatches reduce n k bs).map f := by
  rw [valuesOf_flatten, List.map_map]
  unfold keyBatches
  induction bs with
  | nil => rfl
  | cons b bs ih =>
    simp only [List.map_cons, List.flatten_cons, ih, List.filter_cons, Function.comp]
    rw [valuesOf_map_nodup k _ (nodup_uniqFirst _) (fun k => f (keyCols reduce n k b))]
    simp only [mem_uniqFirst]
    by_cases h : k ∈ b.map Prod.fst
    · simp [h]
    · simp [h]

/-- A per-key analysis whose batches give the columns of their keys. -/
theorem per_key_columns {Acc V Out : Type} {c : Combiner Acc V Out} {f : ColBatch α → V}
    {P : ColBatch α → Prop} {R : Acc → List (ColBatch α) → Prop}
    (T : Sched.Total (c.onBatches f) P R) (hperm : ∀ a l l', l.Perm l' → R a l → R a l')
    (reduce : Bool) (n : Nat) (datasets : List (List (List (K × List α))))
    (hP : ∀ insts ∈ datasets.flatten, ∀ k, P (keyCols reduce n k insts))
    (r1s : List (KeyRun K V)) (r2 : KeyRun K Nat)
    (h1 : List.Forall₂ ValidKeyRun r1s (datasets.map (fun bs => (bs.map (fun insts =>
      (uniqFirst (insts.map Prod.fst)).map (fun k => (k, f (keyCols reduce n k insts))))).flatten)))
    (h2 : ValidKeyMerge r2 (r1s.flatMap KeyRun.keys)) :
    r2.keys.Nodup ∧ (∀ k, k ∈ r2.keys ↔ k ∈ datasets.flatten.flatten.map Prod.fst) ∧
    ∃ final : K → Acc, (∀ k ∈ r2.keys, R (final k) (keyBatches reduce n k datasets.flatten)) ∧
      ∀ out : K → Out, (∀ k ∈ r2.keys, c.extract (final k) = .ok (out k)) →
        perKeyAnalysis c r1s r2 = .ok (r2.keys.map (fun k => (k, out k))) := by
  obtain ⟨hnd, hmem, S1, S2, hval, hrun⟩ := per_key_is_analysis c _ r1s r2 h1 h2
  have hflat : (datasets.map (fun bs => (bs.map (fun insts =>
      (uniqFirst (insts.map Prod.fst)).map (fun k => (k, f (keyCols reduce n k insts))))).flatten)).flatten
      = (datasets.flatten.map (fun insts =>
      (uniqFirst (insts.map Prod.fst)).map (fun k => (k, f (keyCols reduce n k insts))))).flatten := by
    rw [List.map_flatten, List.flatten_flatten, List.map_map]
    rfl
  rw [hflat] at hmem hval
  refine ⟨hnd, ?_, ?_⟩
  · intro k
    rw [hmem]
    simp only [List.mem_map, List.mem_flatten, Prod.exists, exists_and_right, exists_eq_right]
    constructor
    · rintro ⟨v, l, ⟨insts, hi, rfl⟩, hk⟩
      obtain ⟨k', hk', he⟩ := List.mem_map.1 hk
      have he' : k' = k := congrArg Prod.fst he
      subst he'
      rw [mem_uniqFirst] at hk'
      obtain ⟨i, hi', rfl⟩ := List.mem_map.1 hk'
      obtain ⟨bs, hbs, hib⟩ := hi
      exact ⟨i.2, insts, ⟨bs, hbs, hib⟩, hi'⟩
    · rintro ⟨v, insts, hi, hv⟩
      exact ⟨f (keyCols reduce n k insts), _, ⟨insts, hi, rfl⟩, List.mem_map.2 ⟨k,
        (mem_uniqFirst _ _).2 (List.mem_map.2 ⟨_, hv, rfl⟩), rfl⟩⟩
  · have hone : ∀ k, ∃ a, k ∈ r2.keys → analysis c (S1 k) (S2 k) = c.extract a ∧
        R a (keyBatches reduce n k datasets.flatten) := by
      intro k
      by_cases hk : k ∈ r2.keys
      · obtain ⟨hv, hp⟩ := hval k hk
        rw [keyBatches_values f] at hp
        obtain ⟨a, ha⟩ := analysis_lift T hperm (S1 k) (S2 k) hv
          (keyBatches reduce n k datasets.flatten) (by
            intro d hd
            obtain ⟨insts, hi, rfl⟩ := List.mem_map.1 hd
            exact hP insts (List.mem_filter.1 hi).1 k) hp
        exact ⟨a, fun _ => ha⟩
      · exact ⟨c.create, fun h => absurd h hk⟩
    choose final hfin using hone
    refine ⟨final, fun k hk => (hfin k hk).2, ?_⟩
    intro out hout
    exact hrun out (fun k hk => by rw [(hfin k hk).1]; exact hout k hk)

end Scaling

end TFT
