import Verif.Schema.Inference
import Verif.Schema.FeatureSpecProps

/-!
# Lemmas about schema inference
-/

namespace TFT.SchemaInference

open TFT.FeatureSpec

/-! ## Dicts -/

theorem lookup_cons_if {α : Type} (e : String × α) (d : List (String × α)) (k : String) :
    (e :: d).lookup k = if k = e.1 then some e.2 else d.lookup k := by
  obtain ⟨a, b⟩ := e
  by_cases h : k = a
  · subst h; simp
  · have : (k == a) = false := by simpa using h
    simp [List.lookup_cons, this, h]

theorem lookup_dictSet {α : Type} (d : List (String × α)) (k : String) (v : α) (k' : String) :
    (dictSet d k v).lookup k' = if k' = k then some v else d.lookup k' := by
  induction d with
  | nil => rw [dictSet, lookup_cons_if]
  | cons e es ih =>
    unfold dictSet
    by_cases h : e.1 = k
    · rw [if_pos h, lookup_cons_if, lookup_cons_if, h]
      by_cases hk : k' = k <;> simp [hk]
    · rw [if_neg h, lookup_cons_if, lookup_cons_if, ih]
      by_cases hk : k' = k
      · have : k' ≠ e.1 := by rw [hk]; exact fun e => h e.symm
        rw [if_neg this, if_pos hk, if_pos hk]
      · simp [hk]

theorem lookup_filter {α : Type} (d : List (String × α)) (k k' : String) :
    (d.filter (fun e => e.1 ≠ k)).lookup k' = if k' = k then none else d.lookup k' := by
  induction d with
  | nil => simp
  | cons e es ih =>
    by_cases h : e.1 = k
    · rw [List.filter_cons_of_neg (by simpa using h), ih, lookup_cons_if]
      by_cases hk : k' = k
      · simp [hk]
      · have : k' ≠ e.1 := by rw [h]; exact hk
        simp [this]
    · rw [List.filter_cons_of_pos (by simpa using h), lookup_cons_if, lookup_cons_if, ih]
      by_cases hk : k' = k
      · have : k' ≠ e.1 := by rw [hk]; exact fun e => h e.symm
        rw [if_neg this, if_pos hk, if_pos hk]
      · simp [hk]

theorem dictPop_ok {α : Type} (d : List (String × α)) (k : String) (v : α) (h : d.lookup k = some v) :
    dictPop d k = .ok (v, d.filter (fun e => e.1 ≠ k)) := by
  unfold dictPop; rw [h]

theorem popAll_ok {α : Type} (ks : List String) (d : List (String × α)) (hn : ks.Nodup)
    (h : ∀ k ∈ ks, d.lookup k ≠ none) :
    ∃ d', popAll ks d = .ok d' ∧ ∀ k, d'.lookup k = if k ∈ ks then none else d.lookup k := by
  induction ks generalizing d with
  | nil => exact ⟨d, rfl, by simp⟩
  | cons k ks ih =>
    obtain ⟨v, hv⟩ := Option.ne_none_iff_exists'.1 (h k (by simp))
    rw [List.nodup_cons] at hn
    obtain ⟨d', h1, h2⟩ := ih (d.filter (fun e => e.1 ≠ k)) hn.2 (by
      intro k' hk'
      rw [lookup_filter, if_neg (ne_of_mem_of_not_mem hk' hn.1)]
      exact h k' (by simp [hk']))
    refine ⟨d', ?_, ?_⟩
    · unfold popAll
      rw [dictPop_ok d k v hv]
      exact h1
    · intro k'
      rw [h2, lookup_filter]
      by_cases h3 : k' = k
      · subst h3; simp
      · simp [h3]

theorem popRowLengths_ok (ks : List String) (d : List (String × Feature)) (hn : ks.Nodup)
    (h : ∀ k ∈ ks, ∃ f, d.lookup k = some f ∧ f.type = .int) :
    ∃ d', popRowLengths ks d = .ok d' ∧ ∀ k, d'.lookup k = if k ∈ ks then none else d.lookup k := by
  induction ks generalizing d with
  | nil => exact ⟨d, rfl, by simp⟩
  | cons k ks ih =>
    obtain ⟨v, hv, ht⟩ := h k (by simp)
    rw [List.nodup_cons] at hn
    obtain ⟨d', h1, h2⟩ := ih (d.filter (fun e => e.1 ≠ k)) hn.2 (by
      intro k' hk'
      rw [lookup_filter, if_neg (ne_of_mem_of_not_mem hk' hn.1)]
      exact h k' (by simp [hk']))
    refine ⟨d', ?_, ?_⟩
    · unfold popRowLengths
      rw [dictPop_ok d k v hv]
      simp only [bind, Except.bind]
      rw [if_neg (by simp [ht])]
      exact h1
    · intro k'
      rw [h2, lookup_filter]
      by_cases h3 : k' = k
      · subst h3; simp
      · simp [h3]

theorem features_lookup (fs : List Feature) (d : List (String × Feature))
    (hn : (fs.map Feature.name).Nodup) :
    (∀ f ∈ fs, (fs.foldl (fun d f => dictSet d f.name f) d).lookup f.name = some f) ∧
    (∀ k, k ∉ fs.map Feature.name →
      (fs.foldl (fun d f => dictSet d f.name f) d).lookup k = d.lookup k) := by
  induction fs generalizing d with
  | nil => simp
  | cons f fs ih =>
    simp only [List.map_cons, List.nodup_cons] at hn
    obtain ⟨h1, h2⟩ := ih (dictSet d f.name f) hn.2
    constructor
    · intro g hg
      rw [List.foldl_cons]
      rcases List.mem_cons.1 hg with rfl | hg
      · rw [h2 _ hn.1, lookup_dictSet, if_pos rfl]
      · exact h1 g hg
    · intro k hk
      simp only [List.map_cons, List.mem_cons, not_or] at hk
      rw [List.foldl_cons, h2 k hk.2, lookup_dictSet, if_neg hk.1]

/-! ## The map from logical names to protos -/

theorem proto_loop {ι β : Type} (step : List (String × Feature) → β → Except Err (List (String × Feature)))
    (el : ι → β) (nm : ι → String) (co : ι → List String) (vf : ι → Feature)
    (F : String → Option Feature) (items : List ι)
    (hstep : ∀ i ∈ items, ∀ d, (∀ c ∈ co i, d.lookup c = F c) →
      ∃ d', step d (el i) = .ok d' ∧ ∀ k, d'.lookup k
        = if k = nm i then some (vf i) else if k ∈ co i then none else d.lookup k)
    (hco : (items.flatMap co).Nodup) (hnm : ∀ i ∈ items, nm i ∉ items.flatMap co)
    (hn : (items.map nm).Nodup) (d : List (String × Feature))
    (hd : ∀ c ∈ items.flatMap co, d.lookup c = F c) :
    ∃ d', (items.map el).foldlM step d = .ok d' ∧
      (∀ i ∈ items, d'.lookup (nm i) = some (vf i)) ∧
      (∀ k, k ∉ items.map nm → k ∉ items.flatMap co → d'.lookup k = d.lookup k) := by
  induction items generalizing d with
  | nil => exact ⟨d, rfl, by simp, by simp⟩
  | cons i is ih =>
    obtain ⟨d1, h1, h2⟩ := hstep i (by simp) d (fun c hc => hd c (by simp [hc]))
    rw [List.flatMap_cons, List.nodup_append] at hco
    rw [List.map_cons, List.nodup_cons] at hn
    have hnm' : ∀ j ∈ is, nm j ∉ is.flatMap co := fun j hj hm =>
      hnm j (by simp [hj]) (by rw [List.flatMap_cons]; exact List.mem_append.2 (Or.inr hm))
    have hni : nm i ∉ is.flatMap co := fun hm =>
      hnm i (by simp) (by rw [List.flatMap_cons]; exact List.mem_append.2 (Or.inr hm))
    obtain ⟨d', h3, h4, h5⟩ := ih (fun j hj => hstep j (by simp [hj])) hco.2.1 hnm' hn.2 d1 (by
      intro c hc
      rw [h2, if_neg (ne_of_mem_of_not_mem hc hni), if_neg (fun hm => hco.2.2 c hm c hc rfl)]
      exact hd c (by rw [List.flatMap_cons]; exact List.mem_append.2 (Or.inr hc)))
    refine ⟨d', ?_, ?_, ?_⟩
    · rw [List.map_cons, List.foldlM_cons, h1]
      exact h3
    · intro j hj
      rcases List.mem_cons.1 hj with rfl | hj
      · rw [h5 _ hn.1 hni, h2, if_pos rfl]
      · exact h4 j hj
    · intro k hk1 hk2
      rw [List.map_cons, List.mem_cons, not_or] at hk1
      rw [List.flatMap_cons, List.mem_append, not_or] at hk2
      rw [h5 k hk1.2 hk2.2, h2, if_neg hk1.1, if_neg hk2.1]

/-- The sparse feature of a member. -/
def sfOf (item : String × Spec) : SparseFeature :=
  match item.2 with
  | .sparse indexKey valueKey _ _ sorted => ⟨item.1, sorted, indexKey.keys, valueKey⟩
  | _ => ⟨item.1, false, [], ""⟩

theorem sparse_eq (items : List (String × Spec)) :
    items.flatMap sparseOf = (items.filter isSp).map sfOf := by
  induction items with
  | nil => rfl
  | cons i is ih =>
    obtain ⟨name, spec⟩ := i
    cases spec with
    | sparse k v dt n b =>
      have h0 : ((name, Spec.sparse k v dt n b) :: is).filter isSp
          = (name, Spec.sparse k v dt n b) :: is.filter isSp := rfl
      rw [h0, List.flatMap_cons, ih]
      rfl
    | _ => exact ih

/-- The value feature of a member of a schema. -/
def vfOf (domains : Domains) (item : String × Spec) : Feature :=
  match item.2 with
  | .fixedLen shape dtype _ =>
    valueFeature domains { name := item.1, minFraction := some 1, shape := some shape } dtype item.1
  | .varLen dtype => valueFeature domains { name := item.1 } dtype item.1
  | .sparse _ valueKey dtype _ _ => valueFeature domains { name := valueKey } dtype item.1
  | .ragged dtype valueKey _ _ =>
    valueFeature domains { name := valueKeyOr valueKey item.1 } dtype item.1
  | .other _ => { name := item.1 }

theorem vfOf_mem (domains : Domains) (item : String × Spec) (h : item.2.Supported) :
    vfOf domains item ∈ cols domains item := by
  obtain ⟨name, spec⟩ := item
  cases spec with
  | other _ => exact h.elim
  | _ => simp [vfOf, cols]

/-- The value column of a member. -/
theorem vfOf_name (domains : Domains) (item : String × Spec) (h : item.2.Supported) :
    (vfOf domains item).name = valueColumn (repOf item) := by
  obtain ⟨name, spec⟩ := item
  cases spec with
  | other _ => exact h.elim
  | _ => rfl

theorem ragged_not_sparse (i : String × Spec) (h : isRg i = true) : isSp i = false := by
  obtain ⟨name, spec⟩ := i
  cases spec <;> first | rfl | exact absurd h (by simp [isRg, Spec.isRagged])

theorem plain_columns (i : String × Spec) (hs : i.2.Supported) (h1 : ¬isSp i = true)
    (h2 : ¬isRg i = true) : columns i = [i.1] := by
  obtain ⟨name, spec⟩ := i
  cases spec with
  | sparse _ _ _ _ _ => exact absurd rfl h1
  | ragged _ _ _ _ => exact absurd rfl h2
  | other _ => exact hs.elim
  | _ => rfl

set_option maxHeartbeats 1000000 in
theorem protosByName_ok (domains : Domains) (items : List (String × Spec))
    (hs : ∀ i ∈ items, i.2.Supported) (hcol : (items.flatMap columns).Nodup)
    (hkeys : (items.map Prod.fst).Nodup)
    (hsr : ∀ i ∈ items, (isSp i ∨ isRg i) → i.1 ∉ items.flatMap columns) (s : Schema)
    (h1 : s.features = items.flatMap (cols domains)) (h2 : s.sparse = items.flatMap sparseOf)
    (h3 : s.reps = items.flatMap repsOf) :
    ∃ d, protosByName s = .ok d ∧
      ∀ i ∈ items, d.lookup i.1 = some (vfOf domains i) := by
  have hF : ((items.flatMap (cols domains)).map Feature.name) = items.flatMap columns := by
    clear hcol hkeys hsr h1 h2 h3
    induction items with
    | nil => rfl
    | cons i is ih =>
      rw [List.flatMap_cons, List.map_append, List.flatMap_cons,
        cols_names domains i (hs i (by simp)), ih (fun j hj => hs j (by simp [hj]))]
  obtain ⟨hL, hL'⟩ := features_lookup (items.flatMap (cols domains)) [] (by rw [hF]; exact hcol)
  set D := (items.flatMap (cols domains)).foldl (fun d f => dictSet d f.name f) [] with hD
  have hLi : ∀ i ∈ items, ∀ f ∈ cols domains i, D.lookup f.name = some f := fun i hi f hf =>
    hL f (List.mem_flatMap.2 ⟨i, hi, hf⟩)
  have hcn : ∀ i ∈ items, (columns i).Nodup := by
    intro i hi
    exact (List.nodup_flatMap.1 hcol).1 i hi
  have hsub : ∀ p : String × Spec → Bool, List.Sublist ((items.filter p).flatMap columns)
      (items.flatMap columns) := fun p => sublist_flatMap _ List.filter_sublist
  -- the sparse loop
  obtain ⟨d1, e1, g1, g1'⟩ := proto_loop sparseProtos sfOf Prod.fst columns (vfOf domains)
    (fun c => D.lookup c) (items.filter isSp) (by
      intro i hi d hd
      rw [List.mem_filter] at hi
      have hsi := hs i hi.1
      have hcni := hcn i hi.1
      have hc := hLi i hi.1
      have hnames := cols_names domains i hsi
      have hvm := vfOf_mem domains i hsi
      obtain ⟨name, spec⟩ := i
      cases spec with
      | sparse k v dt n b =>
        have hcols : columns (name, Spec.sparse k v dt n b) = k.keys ++ [v] := rfl
        rw [hcols] at hcni hd hnames
        rw [List.nodup_append] at hcni
        have hlook : ∀ c ∈ k.keys ++ [v], d.lookup c ≠ none := by
          intro c hc'
          rw [hd c hc']
          rw [← hnames] at hc'
          obtain ⟨f, hf, rfl⟩ := List.mem_map.1 hc'
          rw [hc f hf]; simp
        have hv : d.lookup v = some (vfOf domains (name, Spec.sparse k v dt n b)) := by
          rw [hd v (by simp)]
          exact hc _ hvm
        obtain ⟨d', a1, a2⟩ := popAll_ok k.keys d hcni.1
          (fun c hc' => hlook c (by simp [hc']))
        have hvk : v ∉ k.keys := fun hm => hcni.2.2 v hm v (by simp) rfl
        have hv' : d'.lookup v = some (vfOf domains (name, Spec.sparse k v dt n b)) := by
          rw [a2, if_neg hvk, hv]
        refine ⟨dictSet (d'.filter (fun e => e.1 ≠ v)) name
          (vfOf domains (name, Spec.sparse k v dt n b)), ?_, ?_⟩
        · unfold sparseProtos
          rw [show (sfOf (name, Spec.sparse k v dt n b)).index = k.keys from rfl, a1]
          simp only [bind, Except.bind]
          rw [show (sfOf (name, Spec.sparse k v dt n b)).value = v from rfl, dictPop_ok _ _ _ hv']
          rfl
        · intro c
          rw [lookup_dictSet, lookup_filter, a2, hcols]
          by_cases c1 : c = name
          · simp [c1]
          · by_cases c2 : c = v
            · simp [c2]
            · simp [c1, c2]
      | _ => exact absurd hi.2 (by simp [isSp, Spec.isSparse]))
    (hcol.sublist (hsub _))
    (fun i hi hm => hsr i (List.mem_of_mem_filter hi) (Or.inl (List.mem_filter.1 hi).2)
      ((hsub _).subset hm))
    (hkeys.sublist (List.filter_sublist.map _)) D (fun _ _ => rfl)
  -- columns of members that are not sparse are still there
  have hrest : ∀ i ∈ items, isSp i = false → ∀ c ∈ columns i, d1.lookup c = D.lookup c := by
    intro i hi hsp c hc
    apply g1'
    · intro hm
      obtain ⟨j, hj, rfl⟩ := List.mem_map.1 hm
      exact hsr j (List.mem_of_mem_filter hj) (Or.inl (List.mem_filter.1 hj).2)
        (List.mem_flatMap.2 ⟨i, hi, hc⟩)
    · intro hm
      obtain ⟨j, hj, hcj⟩ := List.mem_flatMap.1 hm
      have hj' := List.mem_filter.1 hj
      have hne : i ≠ j := by rintro rfl; rw [hsp] at hj'; exact absurd hj'.2 (by simp)
      have := hcol
      rw [List.nodup_flatMap] at this
      have hdis := this.2
      rcases List.pairwise_iff_getElem.1 hdis with hp
      obtain ⟨a, ha, rfl⟩ := List.mem_iff_getElem.1 hi
      obtain ⟨b, hb, rfl⟩ := List.mem_iff_getElem.1 hj'.1
      rcases Nat.lt_trichotomy a b with hab | rfl | hab
      · exact hp a b ha hb hab hc hcj
      · exact hne rfl
      · exact hp b a hb ha hab hcj hc
  -- the ragged loop
  obtain ⟨d2, e2, g2, g2'⟩ := proto_loop raggedProtos entry Prod.fst columns (vfOf domains)
    (fun c => D.lookup c) (items.filter isRg) (by
      intro i hi d hd
      rw [List.mem_filter] at hi
      have hsi := hs i hi.1
      have hcni := hcn i hi.1
      have hc := hLi i hi.1
      have hnames := cols_names domains i hsi
      have hvm := vfOf_mem domains i hsi
      obtain ⟨name, spec⟩ := i
      cases spec with
      | ragged dt v ps r =>
        have hpc : ∀ ps : List Partition,
            partitionColumns (ps.filterMap repPartition) = ps.filterMap rowLengthKey := by
          intro ps
          induction ps with
          | nil => rfl
          | cons p ps ih =>
            cases p <;> simp [List.filterMap_cons, repPartition, rowLengthKey, partitionColumns, ih]
        have hcols : columns (name, Spec.ragged dt v ps r)
            = valueKeyOr v name :: ps.filterMap rowLengthKey := rfl
        have hsrc : sourceColumns (entry (name, Spec.ragged dt v ps r)).2
            = valueKeyOr v name :: ps.filterMap rowLengthKey := by
          simp [entry, repOf, sourceColumns, hpc]
        rw [hcols] at hcni hd hnames
        rw [List.nodup_cons] at hcni
        have hv : d.lookup (valueKeyOr v name)
            = some (vfOf domains (name, Spec.ragged dt v ps r)) := by
          rw [hd _ (by simp)]
          exact hc _ hvm
        obtain ⟨d', a1, a2⟩ := popRowLengths_ok (ps.filterMap rowLengthKey)
          (d.filter (fun e => e.1 ≠ valueKeyOr v name)) hcni.2 (by
            intro c hc'
            refine ⟨rowFeature c, ?_, rfl⟩
            rw [lookup_filter, if_neg (ne_of_mem_of_not_mem hc' hcni.1), hd c (by simp [hc'])]
            exact hc (rowFeature c) (by
              simp only [cols, List.mem_cons, List.mem_map]
              exact Or.inr ⟨c, hc', rfl⟩))
        refine ⟨dictSet d' name (vfOf domains (name, Spec.ragged dt v ps r)), ?_, ?_⟩
        · unfold raggedProtos
          rw [hsrc]
          simp only [dictPop_ok _ _ _ hv, bind, Except.bind]
          rw [a1]
          rfl
        · intro c
          rw [lookup_dictSet, a2, lookup_filter, hcols]
          by_cases c1 : c = name
          · simp [c1]
          · by_cases c2 : c = valueKeyOr v name
            · simp [c2]
            · simp [c1, c2]
      | _ => exact absurd hi.2 (by simp [isRg, Spec.isRagged]))
    (hcol.sublist (hsub _))
    (fun i hi hm => hsr i (List.mem_of_mem_filter hi) (Or.inr (List.mem_filter.1 hi).2)
      ((hsub _).subset hm))
    (hkeys.sublist (List.filter_sublist.map _)) d1 (by
      intro c hc
      obtain ⟨i, hi, hci⟩ := List.mem_flatMap.1 hc
      have hi' := List.mem_filter.1 hi
      exact hrest i hi'.1 (ragged_not_sparse i hi'.2) c hci)
  refine ⟨d2, ?_, ?_⟩
  · unfold protosByName
    rw [h1, h2, h3, sparse_eq, (consumed_eq items hs).2, ← hD, e1]
    exact e2
  · intro i hi
    by_cases hrg : isRg i
    · exact g2 i (List.mem_filter.2 ⟨hi, hrg⟩)
    · have hnk : ∀ p : String × Spec → Bool, p i = false → i.1 ∉ (items.filter p).map Prod.fst := by
        intro p hp hm
        obtain ⟨j, hj, he⟩ := List.mem_map.1 hm
        have hj' := List.mem_filter.1 hj
        have : j = i := by
          obtain ⟨a, ha, rfl⟩ := List.mem_iff_getElem.1 hi
          obtain ⟨b, hb, rfl⟩ := List.mem_iff_getElem.1 hj'.1
          have hn := List.nodup_iff_injective_get.1 hkeys
          have hba := @hn ⟨b, by rw [List.length_map]; exact hb⟩ ⟨a, by rw [List.length_map]; exact ha⟩
            (by rw [List.get_eq_getElem, List.get_eq_getElem, List.getElem_map, List.getElem_map]
                exact he)
          have hba' : b = a := congrArg Fin.val hba
          subst hba'; rfl
        rw [this, hp] at hj'
        exact absurd hj'.2 (by simp)
      by_cases hsp : isSp i
      · have hd1 := g1 i (List.mem_filter.2 ⟨hi, hsp⟩)
        rw [g2' i.1 (hnk isRg (by simpa using hrg))
          (fun hm => hsr i hi (Or.inl hsp) ((hsub _).subset hm)), hd1]
      · -- a plain member: its only column is its name
        have hci : columns i = [i.1] := plain_columns i (hs i hi) hsp hrg
        have hnotcol : ∀ p : String × Spec → Bool, p i = false →
            i.1 ∉ (items.filter p).flatMap columns := by
          intro p hp hm
          obtain ⟨j, hj, hcj⟩ := List.mem_flatMap.1 hm
          have hj' := List.mem_filter.1 hj
          have hdis := (List.nodup_flatMap.1 hcol).2
          have hpw := List.pairwise_iff_getElem.1 hdis
          have hic : i.1 ∈ columns i := by rw [hci]; simp
          have hne : i ≠ j := by rintro rfl; rw [hp] at hj'; exact absurd hj'.2 (by simp)
          obtain ⟨a, ha, rfl⟩ := List.mem_iff_getElem.1 hi
          obtain ⟨b, hb, rfl⟩ := List.mem_iff_getElem.1 hj'.1
          rcases Nat.lt_trichotomy a b with hab | rfl | hab
          · exact hpw a b ha hb hab hic hcj
          · exact hne rfl
          · exact hpw b a hb ha hab hcj hic
        rw [g2' i.1 (hnk isRg (by simpa using hrg)) (hnotcol isRg (by simpa using hrg)),
          g1' i.1 (hnk isSp (by simpa using hsp)) (hnotcol isSp (by simpa using hsp))]
        have := hLi i hi _ (vfOf_mem domains i (hs i hi))
        have hname : (vfOf domains i).name = i.1 := by
          have hm : (vfOf domains i).name ∈ columns i := by
            rw [← cols_names domains i (hs i hi)]
            exact List.mem_map_of_mem (vfOf_mem domains i (hs i hi))
          rw [hci] at hm
          simpa using hm
        rw [hname] at this
        exact this

end TFT.SchemaInference
