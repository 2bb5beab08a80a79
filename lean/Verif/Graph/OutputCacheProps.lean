import Verif.Graph.OptimizeCases
import Verif.Cache.OutputProps

/-!
# The output cache of a run of the optimized graph (C100)
-/

namespace TFT.Graph.Optimize

open TFT.Graph.CachePath TFT.Graph.Spec Optimize.Spec TFT.OutputCache
open TFT.Coders (Bytes)

variable {Op Coll M : Type}

theorem outputNodes_spec (ws : List (Write Op)) :
    ((outputNodes ws).map Prod.fst).Nodup ∧ (∀ w ∈ outputNodes ws, w ∈ ws) ∧
    ∀ w ∈ ws, ∃ n, (w.1, n) ∈ outputNodes ws := by
  induction ws using List.reverseRecOn with
  | nil => simp [outputNodes]
  | append_singleton ws w ih =>
    obtain ⟨h1, h2, h3⟩ := ih
    have he : outputNodes (ws ++ [w]) = put (outputNodes ws) w.1 w.2 := by
      simp [outputNodes, List.foldl_append]
    rw [he]
    have hn := put_nodup h1 w.1 w.2
    refine ⟨hn, ?_, ?_⟩
    · rintro ⟨a, n⟩ hm
      rw [mem_iff_lookup hn, lookup_put] at hm
      split at hm
      · next ha => cases hm; subst ha; simp
      · exact List.mem_append_left _ (h2 _ ((mem_iff_lookup h1 _ _).2 hm))
    · intro w' hw'
      by_cases ha : w'.1 = w.1
      · exact ⟨w.2, by rw [mem_iff_lookup hn, lookup_put, if_pos ha]⟩
      · rcases List.mem_append.1 hw' with hw' | hw'
        · obtain ⟨n, hm⟩ := h3 _ hw'
          exact ⟨n, by rw [mem_iff_lookup hn, lookup_put, if_neg ha]
                       exact (mem_iff_lookup h1 _ _).1 hm⟩
        · simp at hw'; subst hw'; exact absurd rfl ha

/-- An entry to be written for a dataset is computed from this dataset alone. -/
theorem written_reads [DecidableEq Op] [Fintype Op] {c : Config Op Coll} {g : OpGraph Op}
    {m : Meaning Op Coll} {R : Op → Coll → Coll → Prop} {env : DatasetKey → Coll} {target : Op × Nat}
    (h : Run c g m R env target) (hc : c.cache ≠ none) {node : Node Op} {ws : List (Write Op)}
    (hopt : c.optimize g target = .ok (node, ws)) {k : DatasetKey} {key : Bytes} {n : Node Op}
    (hw : ((k, key), n) ∈ ws) : ∀ d ∈ n.datasetKeys c.info, d = some k := by
  by_cases hne : c.keys = []
  · obtain ⟨node', h1, _⟩ := optimize_off h (Or.inr hne)
    rw [h1] at hopt
    cases hopt
    simp at hw
  · have hsome : c.cache.isSome = true := by simpa [Option.isSome_iff_ne_none] using hc
    obtain ⟨st, v, h1, h2, h3⟩ := traverse_keeps h.shape.wellFormed (reach_closed g target.1)
      h.acyclic (both_keeps h.shape h.contract h.cache hsome hne h.keys target) target h.target .refl
    simp only [Config.optimize, h1, bind, Except.bind, Except.ok.injEq, Prod.mk.injEq] at hopt
    obtain ⟨_, rfl⟩ := hopt
    obtain ⟨call, hcall, hw⟩ := List.mem_flatMap.1 hw
    obtain ⟨hreach, hins, _⟩ := h3 call hcall
    obtain ⟨vs, ws, h7, h8⟩ := visit_outcome h.shape hsome hne (hins.imp fun _ _ h => h.1.toFine)
    rw [show c.writesOf call = ws by simp only [Config.writesOf, h7]] at hw
    obtain ⟨op, ins, outs⟩ := call
    simp only at h7 h8 hreach hins
    cases h8 with
    | apply => simp at hw
    | flat => simp at hw
    | flatten => simp at hw
    | @step n0 v f q key0 fine ws hk hf hin hfn hvf hfk hkey hfine hw1 hw2 =>
      obtain ⟨k0, hk0, hcd, hca, hen, i, n1, hl, hweq⟩ := hw1 _ hw
      cases hweq
      rw [hin] at hins
      cases hins with
      | cons hv _ =>
        intro d hd
        simp only [Node.datasetKeys, if_neg (first_not_source h.shape hf), datasetKeysList,
          List.append_nil] at hd
        exact hv.2.fine f hvf (k, n1) (lookup_mem hl) d hd

/-- **C100.** A run of an analysis with a cache returns a cache that has an entry for each cacheable
operation of the first phase and each dataset that is to be cached and has no such entry yet. It is
the encoded result of the operation on this dataset alone, and the metadata that go with it are those
of this dataset. There are no other entries. The datasets `env` need not all be read: those with all
their entries in the input cache may be missing, and `given` is then anything. -/
theorem output_cache_of_a_run [DecidableEq Op] [Fintype Op] {c : Config Op Coll} {g : OpGraph Op}
    {m : Meaning Op Coll}
    {R : Op → Coll → Coll → Prop} {env : DatasetKey → Coll} {target : Op × Nat}
    (h : Run c g m R env target) (hc : c.cache ≠ none) {x : Coll}
    (hx : Value m c.info g (m.flatten (c.keys.map env)) target x) (size : Coll → M)
    (read : DatasetKey → Bool) (given : DatasetKey → Coll)
    (hread : ∀ k ∈ c.keys, ¬ FullyCached c g target k → read k = true)
    (hgiven : ∀ k, read k = true → given k = env k) :
    ∃ node ws out, c.optimize g target = .ok (node, ws) ∧
      outputCache (fun n => Node.eval m c.info (m.flatten (c.keys.map given)) given (entries c) n)
        (datasetMetrics size (c.keys.map fun k => (k, if read k then some (given k) else none)))
        (some (outputNodes ws)) = .ok (some out) ∧
      (∀ k es mt, (k, (es, mt)) ∈ out → k ∈ c.keys ∧ k.isCached = true ∧ mt = size (env k) ∧
        ∀ key v, (key, v) ∈ es → entries c k key = none ∧ ∃ o p, Reach g target.1 o ∧
          FirstPhase c.info g o ∧ (c.info o).hasCoder = true ∧ KeyOf c g o key ∧
          Value m c.info g (env k) (o, 0) p ∧ v = m.encode o p) ∧
      (∀ o k key, Reach g target.1 o → FirstPhase c.info g o → (c.info o).hasCoder = true →
        KeyOf c g o key → k ∈ c.keys → k.isCached = true → entries c k key = none →
        ∃ es mt v, (k, (es, mt)) ∈ out ∧ (key, v) ∈ es) := by
  obtain ⟨node, ws, hopt, hw', hall⟩ := written_entries h hc hx
  obtain ⟨hn, hsub, hcov⟩ := outputNodes_spec ws
  -- the same for the datasets that are given
  have hw : ∀ k key n, ((k, key), n) ∈ ws → read k = true ∧ k ∈ c.keys ∧ k.isCached = true ∧
      entries c k key = none ∧
      ∃ o p, Reach g target.1 o ∧ FirstPhase c.info g o ∧ (c.info o).hasCoder = true ∧
        KeyOf c g o key ∧ Value m c.info g (env k) (o, 0) p ∧
        n.eval m c.info (m.flatten (c.keys.map given)) given (entries c) = .ok (m.encode o p) := by
    intro k key n hm
    obtain ⟨h1, h2, h3, o, p, h4, h5, h6, h7, h8, h9⟩ := hw' k key n hm
    have hr : read k = true := by
      refine hread k h1 fun hfull => ?_
      obtain ⟨cache, e, hce, hke⟩ := hfull o key h4 h5 h6 h7
      rw [entries, hce] at h3
      simp only [Option.bind_some] at h3
      rw [h3] at hke
      cases hke
    refine ⟨hr, h1, h2, h3, o, p, h4, h5, h6, h7, h8, ?_⟩
    rw [← h9]
    refine eval_congr m c.info (entries c) n ?_ ?_
    · intro k' hk'
      have := written_reads h hc hopt hm _ hk'
      cases this
      exact hgiven k hr
    · intro hnone
      have := written_reads h hc hopt hm _ hnone
      cases this
  have hdata : ((c.keys.map fun k => (k, if read k then some (given k) else none)).map
      Prod.fst).Nodup := by
    simpa [Function.comp_def] using h.keys
  obtain ⟨out, hout⟩ := (output_cache_is_made_iff
    (fun n => Node.eval m c.info (m.flatten (c.keys.map given)) given (entries c) n) size _ hdata
    (outputNodes ws) hn).1.2 (by
      intro k key n hm
      obtain ⟨hr, h1, _, _, o, p, _, _, _, _, _, h2⟩ := hw k key n (hsub _ hm)
      exact ⟨⟨_, h2⟩, given k, List.mem_map.2 ⟨k, h1, by rw [hr]; rfl⟩⟩)
  obtain ⟨_, hk, hes⟩ := output_cache_holds_what_is_written _ _ _ hn _ hout
  refine ⟨node, ws, out, hopt, hout, ?_, ?_⟩
  · intro k es mt hm
    obtain ⟨e, n, hen⟩ := (hk k).1 ⟨es, mt, hm⟩
    obtain ⟨hr, h1, h2, _⟩ := hw k e n (hsub _ hen)
    obtain ⟨h3, _, h4⟩ := hes k es mt hm
    obtain ⟨y, hy, hs⟩ := (metadata_are_of_own_data size _ hdata k mt).1 h3
    obtain ⟨k', _, hk'⟩ := List.mem_map.1 hy
    simp only [Prod.mk.injEq] at hk'
    obtain ⟨rfl, hk'⟩ := hk'
    rw [hr] at hk'
    simp only [if_true, Option.some.injEq] at hk'
    refine ⟨h1, h2, by rw [← hs, ← hk', hgiven _ hr], ?_⟩
    intro key v hv
    obtain ⟨n', hn', hev⟩ := (h4 key v).1 hv
    obtain ⟨_, _, _, h5, o, p, h6, h7, h8, h9, h10, h11⟩ := hw k' key n' (hsub _ hn')
    rw [h11] at hev
    cases hev
    exact ⟨h5, o, p, h6, h7, h8, h9, h10, rfl⟩
  · intro o k key h1 h2 h3 h4 h5 h6 h7
    obtain ⟨n, hm⟩ := hall o k key h1 h2 h3 h4 h5 h6 h7
    obtain ⟨n', hm'⟩ := hcov _ hm
    obtain ⟨es, mt, hmem⟩ := (hk k).2 ⟨key, n', hm'⟩
    obtain ⟨_, _, _, _, o', p, _, _, _, _, _, hev⟩ := hw k key n' (hsub _ hm')
    exact ⟨es, mt, _, hmem, ((hes k es mt hmem).2.2 key _).2 ⟨n', hm', hev⟩⟩

namespace Example

/-- A run on two datasets without entries: both have an entry in the output cache, with their own
metadata, here the sizes of the datasets. -/
example : ∃ node ws out, (conf.on [d1, d2] (fun _ _ => none)).optimize ptGraph (7, 0)
      = .ok (node, ws) ∧
    outputCache (fun n => Node.eval sums.meaning (ptInfo label desc)
        (sums.flatten ([d1, d2].map data)) data (fun _ _ => none) n)
      (datasetMetrics List.length [(d1, some (data d1)), (d2, some (data d2))])
      (some (outputNodes ws)) = .ok (some out) ∧
    (∃ es, (d1, (es, 2)) ∈ out ∧ es ≠ []) ∧ ∃ es, (d2, (es, 1)) ∈ out ∧ es ≠ [] := by
  have hrun : Run (conf.on [d1, d2] (fun _ _ => none)) ptGraph sums.meaning sums.Equivalent data
      (7, 0) :=
    ⟨on_shape (pt_shape sha [100] has_paths) _ _, on_contract (pt_contract sums_lawful) _ _,
      (by intro o k key e p _ _ _ h; cases h), (by show [d1, d2].Nodup; decide),
      fun o _ => pt_acyclic o, by decide⟩
  obtain ⟨node, ws, out, h1, h2, h3, h4⟩ := output_cache_of_a_run hrun (by simp [Config.on])
    (pt_value sums label desc (sums.flatten ([d1, d2].map data))) List.length
    (fun _ => true) data (fun _ _ _ => rfl) (fun _ _ => rfl)
  have h5 : FirstPhase (ptInfo label desc) ptGraph 5 := by
    refine .step (n := (4, 0)) (by show ptKind 5 ≠ _; decide) rfl rfl ?_
    refine .step (n := (3, 0)) (by show ptKind 4 ≠ _; decide) rfl rfl ?_
    refine .step (n := (2, 0)) (by show ptKind 3 ≠ _; decide) rfl rfl ?_
    exact .apply rfl
  have hdep : ∀ a b : Fin 8, (b, 0) ∈ ptGraph.inputs a → Dep ptGraph a b := fun a b h => ⟨0, h⟩
  have hreach : Reach ptGraph 7 5 :=
    .head (hdep 7 6 (by decide)) (.head (hdep 6 5 (by decide)) .refl)
  obtain ⟨q, hq⟩ := first_has_path (c := conf) (pt_shape sha [100] has_paths) h5
  have hkey : KeyOf conf ptGraph 5 ([100] ++ (label 5 ++ [45] ++ q)) := ⟨q, hq, rfl⟩
  refine ⟨node, ws, out, h1, h2, ?_, ?_⟩
  · obtain ⟨es, mt, v, hm, hv⟩ := h4 5 d1 _ hreach h5 rfl (on_key.2 hkey) (by simp [Config.on]) rfl rfl
    have hmt : mt = 2 := (h3 _ _ _ hm).2.2.1
    subst hmt
    exact ⟨es, hm, List.ne_nil_of_mem hv⟩
  · obtain ⟨es, mt, v, hm, hv⟩ := h4 5 d2 _ hreach h5 rfl (on_key.2 hkey) (by simp [Config.on]) rfl rfl
    have hmt : mt = 1 := (h3 _ _ _ hm).2.2.1
    subst hmt
    exact ⟨es, hm, List.ne_nil_of_mem hv⟩

/-- The first of two datasets is in the cache and not read: the second has an entry in the output
cache, with its own metadata. -/
example : ∃ node ws out, (conf.on [d1, d2] entryOfD1).optimize ptGraph (7, 0) = .ok (node, ws) ∧
    outputCache (fun n => Node.eval sums.meaning (ptInfo label desc)
        (sums.flatten ([d1, d2].map fun k => if k = d2 then data k else []))
        (fun k => if k = d2 then data k else []) entryOfD1 n)
      (datasetMetrics List.length [(d1, none), (d2, some (data d2))])
      (some (outputNodes ws)) = .ok (some out) ∧ ∃ es, (d2, (es, 1)) ∈ out ∧ es ≠ [] := by
  have hrun : Run (conf.on [d1, d2] entryOfD1) ptGraph sums.meaning sums.Equivalent data (7, 0) := by
    refine ⟨on_shape (pt_shape sha [100] has_paths) _ _, on_contract (pt_contract sums_lawful) _ _,
      ?_, (by show [d1, d2].Nodup; decide), fun o _ => pt_acyclic o, by decide⟩
    intro o k key e p hf hcd hkey he hp
    have ho : o = 5 := by
      have : ∀ o : Fin 8, ptCoder o = true → o = 5 := by decide
      exact this o hcd
    subst ho
    by_cases hk : k = d1
    · subst hk
      have he' : e = [11] := by
        have : some [11] = some e := he
        cases this; rfl
      have := value_unique (c := conf) (pt_shape sha [100] has_paths) hf
        (pt_value_local sums label desc (data d1)) hp
      subst this
      subst he'
      rfl
    · have : (none : Option (List Int)) = some e := by
        rw [← he]; simp [entries, Config.on, entryOfD1, hk]
      cases this
  obtain ⟨node, ws, out, h1, h2, h3, h4⟩ := output_cache_of_a_run hrun (by simp [Config.on])
    (pt_value sums label desc (sums.flatten ([d1, d2].map data))) List.length
    (fun k => decide (k = d2)) (fun k => if k = d2 then data k else [])
    (by
      intro k hk hnot
      have hk' : k = d1 ∨ k = d2 := by simpa [Config.on] using hk
      rcases hk' with rfl | rfl
      · exact absurd (fun o key _ _ _ _ => ⟨_, _, rfl, rfl⟩) hnot
      · simp)
    (by intro k hk; simp at hk; simp [hk])
  have h5 : FirstPhase (ptInfo label desc) ptGraph 5 := by
    refine .step (n := (4, 0)) (by show ptKind 5 ≠ _; decide) rfl rfl ?_
    refine .step (n := (3, 0)) (by show ptKind 4 ≠ _; decide) rfl rfl ?_
    refine .step (n := (2, 0)) (by show ptKind 3 ≠ _; decide) rfl rfl ?_
    exact .apply rfl
  have hdep : ∀ a b : Fin 8, (b, 0) ∈ ptGraph.inputs a → Dep ptGraph a b := fun a b h => ⟨0, h⟩
  have hreach : Reach ptGraph 7 5 :=
    .head (hdep 7 6 (by decide)) (.head (hdep 6 5 (by decide)) .refl)
  obtain ⟨q, hq⟩ := first_has_path (c := conf) (pt_shape sha [100] has_paths) h5
  have hkey : KeyOf conf ptGraph 5 ([100] ++ (label 5 ++ [45] ++ q)) := ⟨q, hq, rfl⟩
  refine ⟨node, ws, out, h1, h2, ?_⟩
  obtain ⟨es, mt, v, hm, hv⟩ := h4 5 d2 _ hreach h5 rfl (on_key.2 hkey) (by simp [Config.on]) rfl rfl
  have hmt : mt = 1 := (h3 _ _ _ hm).2.2.1
  subst hmt
  exact ⟨es, hm, List.ne_nil_of_mem hv⟩

end Example

end TFT.Graph.Optimize
