import Verif.Graph.PackingEval

/-!
# Properties of combiner packing

C64: packing combiners does not change what an analysis computes. This is proved for all graphs in
which the operations behind a packed merge have one input. It is false in general:
`reserved_tokens_are_lost` (in `PackingCases`).
-/

namespace TFT.Graph.Packing

variable {C : Type} [DecidableEq C]

/-- The graph after packing of accumulators. -/
theorem first_stage (target : Node C) (cache : List (Node C)) (hb : Built target cache) :
    ∃ groups, groups = bigGroups (post target []) ∧ Packs (opersList (target :: cache)) groups ∧
      ∀ phases, pack target cache phases =
        (if 1 < phases then .ok (phi groups target, cache.map (phi groups))
        else do
          let (packable, _, _) ← traverse inspectMerge [] (phi groups target) []
          if packable.length ≤ 1 then .ok (phi groups target, cache.map (phi groups))
          else do
            let (s, target, cache) ← traverse (packMerge packable) ⟨[], none⟩ (phi groups target)
              (cache.map (phi groups))
            let (_, target, cache) ← traverse (removeRedundant s.finalLabel) () target cache
            .ok (target, cache)) := by
  have htU : target.opers ⊆ opersList (target :: cache) :=
    fun q hq => (mem_opersList _ _).2 ⟨target, by simp, hq⟩
  have hps : post target [] ⊆ opersList (target :: cache) := by
    intro o ho
    rw [(mem_post target [] closed_nil).1] at ho
    rcases ho with ho | ho
    · cases ho
    · exact htU ho
  have hp : Packs (opersList (target :: cache)) (bigGroups (post target [])) :=
    bigGroups_packs _ _ hb.labels hps (nodup_post target [] closed_nil List.nodup_nil)
  refine ⟨_, rfl, hp, ?_⟩
  intro phases
  obtain ⟨s, hs⟩ := packAccumulate_spec target cache (bigGroups (post target [])) hb.labels hb.indices
    hb.indexed hp
  unfold pack
  rw [inspectAccumulate_spec target (fun o ho o' ho' => hb.labels o (htU ho) o' (htU ho'))
    (fun o ho => hb.indices o (htU ho)) (hb.indexed target (by simp))
    (fun o ho => hb.accumulates o (htU ho)), ok_bind]
  simp only
  change (traverse (packAccumulate (bigGroups (post target []))) [] target cache >>= _) = _
  rw [hs, ok_bind]

/-- The graph after packing of merges. -/
theorem second_stage (target : Node C) (cache : List (Node C)) (h : Setting target cache)
    (hl : ¬ (entries (post target [])).length ≤ 1) :
    ∃ new, List.Perm (target.ins.map (psi (fun _ => packedMergeOf ((entries (post target [])).map Prod.snd)
        (keyedAll (postList (target :: cache) []))))) new ∧
      (do
        let (s, target, cache) ← traverse (packMerge (entries (post target []))) ⟨[], none⟩ target cache
        let (_, target, cache) ← traverse (removeRedundant s.finalLabel) () target cache
        .ok (target, cache) : Except Err (Node C × List (Node C))) =
      .ok (.mk target.d new target.index, cache) := by
  have hex : ∃ o ∈ postList (target :: cache) [], (mcand o).isSome = true := by
    cases he : entries (post target []) with
    | nil => rw [he] at hl; simp at hl
    | cons e es =>
      have : e ∈ entries (post target []) := by rw [he]; simp
      obtain ⟨o, ho, _, hc⟩ := (mem_entries _ e.1 e.2).1 this
      obtain ⟨rest, hr, _⟩ := total_eq h
      exact ⟨o, by rw [hr]; simp [ho], by rw [hc]; rfl⟩
  obtain ⟨s, h1, h2⟩ := packMerge_spec target cache h.ready h.phase
  have hne : keyedAll (postList (target :: cache) []) ≠ [] := by
    obtain ⟨o, ho, hc⟩ := hex
    obtain ⟨w, hw⟩ := Option.isSome_iff_exists.1 hc
    obtain ⟨n, c, pd, y, j, q1, q2, q3, q4, q5⟩ := h.shape o ((mem_order _ o).1 ho) w hw
    intro e
    have hm : keyed pd y ∈ keyedAll (postList (target :: cache) []) := by
      unfold keyedAll
      rw [List.mem_flatMap]
      refine ⟨o, List.mem_filter.2 ⟨ho, hc⟩, ?_⟩
      unfold keyedOf
      rw [q2]
      simp
    rw [e] at hm
    cases hm
  rw [if_neg hne] at h2
  obtain ⟨new, h3, h4⟩ := removeRedundant_spec h ((entries (post target [])).map Prod.snd) hex
  refine ⟨new, h3, ?_⟩
  rw [h1, ok_bind]
  simp only [h2]
  rw [h4]
  rfl

theorem setting_phi (target : Node C) (cache : List (Node C)) (hb : Built target cache)
    (h1 : OnePhase target cache) (groups : List (String × List (Wrapper C)))
    (hp : Packs (opersList (target :: cache)) groups) :
    Setting (phi groups target) (cache.map (phi groups)) :=
  ⟨ready_phi target cache hb groups hp, onePhase_phi target cache hb h1 groups hp⟩

/-- What `pack` returns. -/
theorem pack_cases (target : Node C) (cache : List (Node C)) (hb : Built target cache) (phases : Nat)
    (h1 : phases ≤ 1 → OnePhase target cache) :
    ∃ groups, groups = bigGroups (post target []) ∧ Packs (opersList (target :: cache)) groups ∧
      ((pack target cache phases = .ok (phi groups target, cache.map (phi groups))) ∨
       (Setting (phi groups target) (cache.map (phi groups)) ∧
        (∃ o ∈ (phi groups target).opers, (mcand o).isSome = true) ∧
        ∃ new, List.Perm ((phi groups target).ins.map (psi (fun _ =>
            packedMergeOf ((entries (post (phi groups target) [])).map Prod.snd)
              (keyedAll (postList (phi groups target :: cache.map (phi groups)) []))))) new ∧
          pack target cache phases = .ok (.mk (phi groups target).d new (phi groups target).index,
            cache.map (phi groups)))) := by
  obtain ⟨groups, h2, h3, h4⟩ := first_stage target cache hb
  refine ⟨groups, h2, h3, ?_⟩
  rw [h4]
  by_cases hph : 1 < phases
  · rw [if_pos hph]
    exact Or.inl rfl
  · rw [if_neg hph]
    have hs := setting_phi target cache hb (h1 (by omega)) groups h3
    have htU : (phi groups target).opers ⊆ opersList (phi groups target :: cache.map (phi groups)) :=
      fun q hq => (mem_opersList _ _).2 ⟨_, by simp, hq⟩
    have ho := outShape_of _ _ hs.phase
    rw [inspectMerge_spec (phi groups target) (fun o ho o' ho' => hs.ready.labels o (htU ho) o' (htU ho'))
      (fun o ho => hs.ready.indices o (htU ho)) (hs.ready.indexed _ (by simp))
      (fun o hh => ho o (htU hh)), ok_bind]
    simp only
    by_cases hl : (entries (post (phi groups target) [])).length ≤ 1
    · rw [if_pos hl]
      exact Or.inl rfl
    · rw [if_neg hl]
      obtain ⟨new, h5, h6⟩ := second_stage _ _ hs hl
      refine Or.inr ⟨hs, ?_, new, h5, h6⟩
      cases he : entries (post (phi groups target) []) with
      | nil => rw [he] at hl; simp at hl
      | cons e es =>
        have : e ∈ entries (post (phi groups target) []) := by rw [he]; simp
        obtain ⟨o, ho, _, hc⟩ := (mem_entries _ e.1 e.2).1 this
        rw [(mem_post _ [] closed_nil).1] at ho
        rcases ho with ho | ho
        · cases ho
        · exact ⟨o, ho, by rw [hc]; rfl⟩

/-- **C64.** Packing succeeds on every graph of an analysis and, if the analysis can be computed, its
saved model and its cache outputs are what they are without packing. With a single phase this needs
that the operations behind the outputs of a global combine have one input each.

Missing: with several inputs it is false, see `reserved_tokens_are_lost`. -/
theorem packing_keeps_results_partial {Coll : Type} (m : Meaning C Coll) (hm : m.Lawful)
    (target : Node C) (cache : List (Node C)) (hb : Built target cache) (phases : Nat)
    (h1 : phases ≤ 1 → OnePhase target cache) (v : Coll) (hv : target.eval m = .ok v) :
    ∃ target' cache', pack target cache phases = .ok (target', cache') ∧
      target'.eval m = .ok v ∧
      List.Forall₂ (fun n n' : Node C => n'.eval m = n.eval m) cache cache' := by
  obtain ⟨groups, hg, hp, hc⟩ := pack_cases target cache hb phases h1
  have hcl := opersList_closed (target :: cache)
  have htU : target.opers ⊆ opersList (target :: cache) :=
    fun q hq => (mem_opersList _ _).2 ⟨target, by simp, hq⟩
  have hruns := runs_of_eval m target v hv
  have hr : ∀ g ws, groups.lookup g = some ws → ∀ w ∈ ws,
      ∃ o ∈ opersList (target :: cache), cand o = some (g, w) ∧ Runs m o := by
    intro g ws hl w hw
    subst hg
    obtain ⟨e, _⟩ := (bigGroups_mem _ g ws).1 (lookup_mem _ _ _ hl)
    rw [e] at hw
    obtain ⟨o, ho, hco⟩ := (mem_members g _ w).1 hw
    rw [(mem_post target [] closed_nil).1] at ho
    rcases ho with ho | ho
    · cases ho
    · exact ⟨o, htU ho, hco, hruns o ho⟩
  have hphi : ∀ n ∈ target :: cache, (phi groups n).eval m = n.eval m := by
    intro n hn
    exact eval_phi m hm _ hb.labels hcl hb.indices groups hp hr n
      (fun q hq => (mem_opersList _ _).2 ⟨n, hn, hq⟩) (hb.indexed n hn)
  have hcache : List.Forall₂ (fun n n' : Node C => n'.eval m = n.eval m) cache (cache.map (phi groups)) := by
    rw [List.forall₂_map_right_iff]
    exact List.forall₂_same.2 (fun n hn => hphi n (by simp [hn]))
  have hvt : (phi groups target).eval m = .ok v := by rw [hphi target (by simp), hv]
  rcases hc with hc | ⟨hs, hex, new, hperm, hc⟩
  · exact ⟨_, _, hc, hvt, hcache⟩
  · refine ⟨_, _, hc, ?_, hcache⟩
    generalize phi groups target = t at *
    generalize cache.map (phi groups) = cs at *
    have htU' : t.opers ⊆ opersList (t :: cs) := fun q hq => (mem_opersList _ _).2 ⟨t, by simp, hq⟩
    have hruns' := runs_of_eval m t v hvt
    have heq : evalList m (t.ins.map (psi (fun _ => packedMergeOf ((entries (post t [])).map Prod.snd)
        (keyedAll (postList (t :: cs) []))))) = evalList m t.ins := by
      apply evalList_map
      intro x hx
      apply eval_psi m hm hs
      · intro o ho hco
        obtain ⟨w, hw⟩ := Option.isSome_iff_exists.1 hco
        exact hruns' o (mcand_in_target t cs hs.phase o ho w hw)
      · exact fun q hq => htU' (opers_closed t t.oper (oper_mem t) x hx hq)
    have ht : t = .mk t.d t.ins t.index := by cases t; rfl
    rw [ht, eval_mk, bind_ok] at hvt
    obtain ⟨xs, hxs, hrun⟩ := hvt
    rw [← heq, evalList_ok] at hxs
    obtain ⟨ys, hys2, hys1⟩ := List.perm_comp_forall₂ hperm.symm hxs
    rw [eval_mk, (evalList_ok m new ys).2 hys2, ok_bind]
    have hk := hs.phase.savedModel
    have hrun2 : m.run t.d ys = m.run t.d xs := by
      simp only [Meaning.run, hk]
      exact hm.bindings t.d ys xs hk hys1
    rw [hrun2]
    exact hrun

/-- The labels of the packed graph are unique, as `beam/common.py` requires. -/
theorem packed_labels_are_unique (target : Node C) (cache : List (Node C)) (hb : Built target cache)
    (phases : Nat) (h1 : phases ≤ 1 → OnePhase target cache) (target' : Node C) (cache' : List (Node C))
    (h : pack target cache phases = .ok (target', cache')) :
    UniqueLabels (opersList (target' :: cache')) := by
  obtain ⟨groups, hg, hp, hc⟩ := pack_cases target cache hb phases h1
  rcases hc with hc | ⟨hs, hex, new, hperm, hc⟩
  · rw [hc] at h
    simp only [Except.ok.injEq, Prod.mk.injEq] at h
    rw [← h.1, ← h.2]
    exact (ready_phi target cache hb groups hp).labels
  · rw [hc] at h
    simp only [Except.ok.injEq, Prod.mk.injEq] at h
    rw [← h.1, ← h.2]
    clear h hc
    generalize phi groups target = t at *
    generalize cache.map (phi groups) = cs at *
    have hcl := opersList_closed (t :: cs)
    set ws := (entries (post t [])).map Prod.snd
    set K := keyedAll (postList (t :: cs) [])
    have hK : KeyedOk t cs K := keyedAll_ok hs _ (fun o ho => (mem_order _ o).1 ho)
    have htU : t.oper ∈ opersList (t :: cs) := (mem_opersList _ _).2 ⟨t, by simp, oper_mem t⟩
    have himg : ∀ n, n.opers ⊆ opersList (t :: cs) → ∀ o ∈ (psi (fun _ => packedMergeOf ws K) n).opers,
        Img t cs ws K (fun _ => packedMergeOf ws K) o := fun n hn o ho =>
      opers_psi hs ws K hK _ (qOk_const ws K) n hn o ho
    have hnew : ∀ o ∈ opersList new, Img t cs ws K (fun _ => packedMergeOf ws K) o := by
      intro o ho
      obtain ⟨b, hb', hob⟩ := (mem_opersList _ _).1 ho
      obtain ⟨x, hx, rfl⟩ := List.mem_map.1 (hperm.mem_iff.2 hb')
      exact himg x (hcl _ htU x hx) o hob
    have hcs : ∀ o ∈ opersList cs, Img t cs ws K (fun _ => packedMergeOf ws K) o := by
      intro o ho
      obtain ⟨n, hn, hon⟩ := (mem_opersList _ _).1 ho
      apply himg n (fun q hq => (mem_opersList _ _).2 ⟨n, by simp [hn], hq⟩)
      rw [psi_noOutputs _ n (hs.phase.cached n hn)]
      exact hon
    have hrest : ∀ o ∈ opersList (Node.mk t.d new t.index :: cs),
        o = (t.d, new) ∨ Img t cs ws K (fun _ => packedMergeOf ws K) o := by
      intro o ho
      simp only [opersList, List.mem_append] at ho
      rcases ho with ho | ho
      · rw [Node.opers_eq] at ho
        rcases List.mem_cons.1 ho with rfl | ho
        · exact Or.inl rfl
        · exact Or.inr (hnew o ho)
      · exact Or.inr (hcs o ho)
    -- the saved model itself
    have hown : ∀ o ∈ opersList (Node.mk t.d new t.index :: cs), o.1.label = t.d.label → o = (t.d, new) := by
      intro o ho hl
      simp only [opersList, List.mem_append] at ho
      rw [Node.opers_eq, List.mem_cons] at ho
      have hfr := hs.ready.fresh
      have hcase : Img t cs ws K (fun _ => packedMergeOf ws K) o →
          o = (t.d, t.ins.map (psi (fun _ => packedMergeOf ws K))) := by
        intro hi
        cases hi with
        | keep p hp' hc' =>
          have e := hs.ready.labels p hp' t.oper htU hl
          rw [e]
          rfl
        | outs p w pd y j hp' hc' h2 => exact absurd hl.symm (hfr.outputs t.oper htU _)
        | dict p w pd y j hp' hc' h2 => exact absurd hl.symm (hfr.extract t.oper htU _)
        | merge ks hks => exact absurd hl.symm (hfr.merge t.oper htU _)
        | flat ks hks => exact absurd hl.symm (hfr.flatten t.oper htU _)
        | key p w pd y j hp' hc' h2 => exact absurd hl.symm (hfr.addKey t.oper htU _)
      rcases ho with (rfl | ho) | ho
      · rfl
      · have e := hcase (hnew o ho)
        simp only [Node.ins_mk] at ho
        obtain ⟨b, hb', hob⟩ := (mem_opersList _ _).1 ho
        exfalso
        apply not_mem_own t.d (t.ins.map (psi (fun _ => packedMergeOf ws K)))
        rw [← e]
        exact (mem_opersList _ _).2 ⟨b, hperm.mem_iff.2 hb', hob⟩
      · exfalso
        have hoU : o ∈ opersList (t :: cs) := by simp only [opersList, List.mem_append]; exact Or.inr ho
        have e := hs.ready.labels o hoU t.oper htU hl
        obtain ⟨n, hn, hon⟩ := (mem_opersList _ _).1 ho
        rw [e] at hon
        obtain ⟨p, hp', hpc⟩ := hex
        obtain ⟨w, hw⟩ := Option.isSome_iff_exists.1 hpc
        obtain ⟨k, _, _, _, _, _, hk, _⟩ := mcand_some p w hw
        rw [Node.opers_eq] at hp'
        rcases List.mem_cons.1 hp' with rfl | hp'
        · change t.d.kind = _ at hk
          rw [hs.phase.savedModel] at hk; cases hk
        · obtain ⟨x, hx, hpx⟩ := (mem_opersList _ _).1 hp'
          exact hs.phase.cached n hn p (opers_closed n _ hon x hx hpx) k hk
    intro o ho o' ho' hl
    rcases hrest o ho with rfl | hi
    · exact (hown o' ho' hl.symm).symm
    · rcases hrest o' ho' with rfl | hi'
      · exact hown o ho hl
      · exact img_labels hs ws K _ o o' hi hi' hl

/-- After packing of merges there is one packed merge. -/
theorem one_packed_merge (target : Node C) (cache : List (Node C)) (hb : Built target cache)
    (h1 : OnePhase target cache) (target' : Node C) (cache' : List (Node C))
    (h : pack target cache 1 = .ok (target', cache')) (o o' : Oper C)
    (ho : o ∈ opersList (target' :: cache')) (ho' : o' ∈ opersList (target' :: cache'))
    (ws ws' : List (Wrapper C)) (hk : o.1.kind = .packedMerge ws) (hk' : o'.1.kind = .packedMerge ws') :
    o = o' := by
  obtain ⟨groups, hg, hp, hc⟩ := pack_cases target cache hb 1 (fun _ => h1)
  have hr := ready_phi target cache hb groups hp
  rcases hc with hc | ⟨hs, hex, new, hperm, hc⟩
  · rw [hc] at h
    simp only [Except.ok.injEq, Prod.mk.injEq] at h
    rw [← h.1, ← h.2] at ho
    exact absurd hk (hr.fresh.packedMerge o ho ws)
  · rw [hc] at h
    simp only [Except.ok.injEq, Prod.mk.injEq] at h
    rw [← h.1, ← h.2] at ho ho'
    clear h hc
    generalize phi groups target = t at *
    generalize cache.map (phi groups) = cs at *
    have hcl := opersList_closed (t :: cs)
    set vs := (entries (post t [])).map Prod.snd
    set K := keyedAll (postList (t :: cs) [])
    have hK : KeyedOk t cs K := keyedAll_ok hs _ (fun o ho => (mem_order _ o).1 ho)
    have htU : t.oper ∈ opersList (t :: cs) := (mem_opersList _ _).2 ⟨t, by simp, oper_mem t⟩
    have hQ : ∀ o ∈ (packedMergeOf vs K).opers, ∀ us, o.1.kind = .packedMerge us → o = (packedMergeOf vs K).oper := by
      intro o ho us hk
      rw [Node.opers_eq] at ho
      rcases List.mem_cons.1 ho with rfl | ho
      · rfl
      · simp only [packedMergeOf, apply, Node.ins_mk, opersList, List.append_nil] at ho
        rw [Node.opers_eq] at ho
        rcases List.mem_cons.1 ho with rfl | ho
        · cases hk
        · obtain ⟨k, hkK, hok⟩ := (mem_opersList _ _).1 ho
          obtain ⟨p, w, pd, y, j, hp', hcp, h2, rfl⟩ := hK k hkK
          rw [Node.opers_eq] at hok
          rcases List.mem_cons.1 hok with rfl | hok
          · cases hk
          · simp only [keyed, apply, Node.ins_mk, opersList, List.append_nil] at hok
            have h3 := hcl p hp' (.mk pd [y] j) (by rw [h2]; simp)
            have h4 := opers_closed (.mk pd [y] j) (pd, [y]) (oper_mem _) y (by simp) hok
            exact absurd hk (hs.ready.fresh.packedMerge o (h3 h4) us)
    have hpsi : ∀ n : Node C, n.opers ⊆ opersList (t :: cs) → ∀ o ∈ (psi (fun _ => packedMergeOf vs K) n).opers,
        ∀ us, o.1.kind = .packedMerge us → o = (packedMergeOf vs K).oper := by
      intro n
      induction n using Node.induct with
      | h n ih =>
        intro hn o ho us hk
        cases n with
        | mk d ins i =>
          have hd : (d, ins) ∈ opersList (t :: cs) := hn (oper_mem (.mk d ins i))
          cases hcd : mcand (d, ins) with
          | none =>
            rw [psi_keep _ d ins i hcd, Node.opers_eq] at ho
            rcases List.mem_cons.1 ho with rfl | ho
            · exact absurd hk (hs.ready.fresh.packedMerge (d, ins) hd us)
            · obtain ⟨x', hx', hox⟩ := (mem_opersList _ _).1 ho
              obtain ⟨x, hx, rfl⟩ := List.mem_map.1 hx'
              exact ih x hx (hcl _ hd x hx) o hox us hk
          | some w =>
            obtain ⟨m, c, pd, y, j, q1, q2, q3, q4, q5⟩ := hs.shape _ hd w hcd
            rw [psi_packed _ d ins i w hcd, extracted_eq (d, ins) pd [y] [] j q2, Node.opers_eq] at ho
            rcases List.mem_cons.1 ho with rfl | ho
            · cases hk
            · simp only [Node.ins_mk, opersList, List.append_nil] at ho
              rw [Node.opers_eq] at ho
              rcases List.mem_cons.1 ho with rfl | ho
              · cases hk
              · simp only [Node.ins_mk, opersList, List.append_nil] at ho
                exact hQ o ho us hk
    have hall : ∀ o ∈ opersList (Node.mk t.d new t.index :: cs), ∀ us, o.1.kind = .packedMerge us →
        o = (packedMergeOf vs K).oper := by
      intro o ho us hk
      simp only [opersList, List.mem_append] at ho
      rw [Node.opers_eq, List.mem_cons] at ho
      rcases ho with (rfl | ho) | ho
      · change t.d.kind = _ at hk
        rw [hs.phase.savedModel] at hk; cases hk
      · simp only [Node.ins_mk] at ho
        obtain ⟨b, hb', hob⟩ := (mem_opersList _ _).1 ho
        obtain ⟨x, hx, rfl⟩ := List.mem_map.1 (hperm.mem_iff.2 hb')
        exact hpsi x (hcl _ htU x hx) o hob us hk
      · have hoU : o ∈ opersList (t :: cs) := by simp only [opersList, List.mem_append]; exact Or.inr ho
        exact absurd hk (hs.ready.fresh.packedMerge o hoU us)
    rw [hall o ho ws hk, hall o' ho' ws' hk']

end TFT.Graph.Packing
