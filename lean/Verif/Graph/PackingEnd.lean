import Verif.Graph.PackingFinal

/-!
# Combiner packing: the result
-/

namespace TFT.Graph.Packing

variable {C : Type}

set_option linter.unusedSectionVars false

theorem last_of {α : Type} (p : α → Bool) (l : List α) (h : ∃ x ∈ l, p x = true) :
    ∃ a x b, l = a ++ x :: b ∧ p x = true ∧ ∀ y ∈ b, p y = false := by
  induction l with
  | nil => obtain ⟨x, hx, _⟩ := h; cases hx
  | cons y ys ih =>
    by_cases hy : ∃ x ∈ ys, p x = true
    · obtain ⟨a, x, b, h1, h2, h3⟩ := ih hy
      exact ⟨y :: a, x, b, by rw [h1]; rfl, h2, h3⟩
    · push Not at hy
      obtain ⟨x, hx, hpx⟩ := h
      rcases List.mem_cons.1 hx with rfl | hx
      · exact ⟨[], x, ys, rfl, hpx, fun z hz => by simpa using hy z hz⟩
      · exact absurd hpx (by simpa using hy x hx)

section
variable [DecidableEq C]

variable {target : Node C} {cache : List (Node C)}

theorem total_eq (h : Setting target cache) : ∃ rest, postList (target :: cache) [] = post target [] ++ rest ∧
    ∀ o ∈ rest, mcand o = none := by
  have hn := nodup_order (target :: cache)
  rw [postList_cons] at hn ⊢
  obtain ⟨rest, hr⟩ := prefix_postList cache (post target [])
  refine ⟨rest, hr.symm, ?_⟩
  intro o ho
  cases hc : mcand o with
  | none => rfl
  | some w =>
    have hoU : o ∈ opersList (target :: cache) := by
      rw [← mem_order, postList_cons, ← hr]; simp [ho]
    have := mcand_in_target target cache h.phase o hoU w hc
    have hop : o ∈ post target [] := by
      rw [(mem_post target [] closed_nil).1]; exact Or.inr this
    rw [← hr] at hn
    exact absurd ho (List.nodup_append.1 hn |>.2.2 o hop o · rfl)

theorem keyedAll_none (l : List (Oper C)) (h : ∀ o ∈ l, mcand o = none) : keyedAll l = [] := by
  unfold keyedAll
  rw [List.filter_eq_nil_iff.2 (by intro o ho; simp [h o ho])]
  rfl

theorem keyedAll_ok (h : Setting target cache) (order : List (Oper C))
    (hs : order ⊆ opersList (target :: cache)) : KeyedOk target cache (keyedAll order) := by
  intro k hk
  obtain ⟨o, ho, hko⟩ := List.mem_flatMap.1 hk
  obtain ⟨ho1, ho2⟩ := List.mem_filter.1 ho
  obtain ⟨w, hw⟩ := Option.isSome_iff_exists.1 ho2
  obtain ⟨n, c, pd, y, j, q1, q2, q3, q4, q5⟩ := h.shape o (hs ho1) w hw
  unfold keyedOf at hko
  rw [q2] at hko
  simp only [List.map_cons, List.map_nil, List.mem_singleton] at hko
  exact ⟨o, w, pd, y, j, hs ho1, hw, q2, hko⟩

theorem upTo_ok (ws : List (Wrapper C)) :
    QOk target cache ws (keyedAll (postList (target :: cache) [])) (upTo ws (postList (target :: cache) [])) := by
  intro o ho _
  refine ⟨_, ?_, rfl⟩
  rw [← mem_order] at ho
  obtain ⟨a, b, hab⟩ := List.append_of_mem ho
  have hn := nodup_order (target :: cache)
  rw [hab] at hn
  have hoa : o ∉ a := fun hm => (List.nodup_append.1 hn).2.2 o hm o (by simp) rfl
  rw [takeWhile_prefix a _ o hoa ⟨b, by rw [hab]; simp⟩]
  conv_rhs => rw [hab]
  have : a ++ o :: b = (a ++ [o]) ++ b := by simp
  rw [this, keyedAll_append (a ++ [o]) b]
  exact List.prefix_append _ _

/-- The last merge is packed with all others. -/
theorem upTo_last (ws : List (Wrapper C)) (hex : ∃ o ∈ postList (target :: cache) [], (mcand o).isSome = true) :
    ∃ o ∈ opersList (target :: cache), (mcand o).isSome = true ∧
      upTo ws (postList (target :: cache) []) o = packedMergeOf ws (keyedAll (postList (target :: cache) [])) := by
  obtain ⟨a, o, b, h1, h2, h3⟩ := last_of (fun o => (mcand o).isSome) _ hex
  have hn := nodup_order (target :: cache)
  refine ⟨o, by rw [← mem_order, h1]; simp, h2, ?_⟩
  unfold upTo
  rw [h1] at hn
  have hoa : o ∉ a := fun hm => (List.nodup_append.1 hn).2.2 o hm o (by simp) rfl
  rw [takeWhile_prefix a _ o hoa ⟨b, by rw [h1]; simp⟩]
  congr 1
  conv_rhs => rw [h1]
  have : a ++ o :: b = (a ++ [o]) ++ b := by simp
  rw [this, keyedAll_append (a ++ [o]) b, keyedAll_none b (by
    intro x hx
    have := h3 x hx
    cases hc : mcand x with
    | none => rfl
    | some w => rw [hc] at this; cases this)]
  simp

/-- Each packed merge is behind a binding. -/
theorem item_of (h : Setting target cache) (items : List (Item C))
    (hi : target.ins = items.map Item.before) (hg : ∀ it ∈ items, it.Good target cache)
    (o : Oper C) (ho : o ∈ opersList (target :: cache)) (w : Wrapper C) (hc : mcand o = some w) :
    ∃ r ∈ redsOf items, r.o = o := by
  have hot := mcand_in_target target cache h.phase o ho w hc
  obtain ⟨n, _, _, _, _, _, hk, _⟩ := mcand_some o w hc
  rw [Node.opers_eq] at hot
  rcases List.mem_cons.1 hot with rfl | hot
  · have := h.phase.savedModel
    change target.d.kind = _ at hk
    rw [this] at hk; cases hk
  · rw [hi] at hot
    obtain ⟨b, hb, hob⟩ := (mem_opersList _ _).1 hot
    obtain ⟨it, hit, rfl⟩ := List.mem_map.1 hb
    have hgi := hg it hit
    cases it with
    | non b =>
      have := hgi.2.2 o hob
      rw [this] at hc; cases hc
    | red r =>
      refine ⟨r, mem_redsOf items r hit, ?_⟩
      have hr : r.Good target cache := hgi
      rcases opers_wrap r.ds hr.simple _ o hob with hn | hn
      · rw [hn] at hc; cases hc
      · rw [Node.opers_eq] at hn
        rcases List.mem_cons.1 hn with rfl | hn
        · rfl
        · obtain ⟨w', hw'⟩ := hr.packed
          obtain ⟨n', c', pd', y', j', q1, q2, q3, q4, q5⟩ := h.shape r.o hr.mem w' hw'
          simp only [Node.ins_mk] at hn
          rw [q2] at hn
          simp only [opersList, List.append_nil] at hn
          exact absurd hk (q5 o hn n)

/-- The node whose inputs are exchanged. -/
def exchange (o : Oper C) (new : List (Node C)) (n : Node C) : Node C :=
  if n.oper = o then .mk n.d new n.index else n

/-- The fifth traversal. -/
theorem removeRedundant_spec (h : Setting target cache) (ws : List (Wrapper C))
    (hex : ∃ o ∈ postList (target :: cache) [], (mcand o).isSome = true) :
    ∃ new, List.Perm (target.ins.map (psi (fun _ => packedMergeOf ws (keyedAll (postList (target :: cache) []))))) new ∧
      traverse (removeRedundant (some (packedMergeLabel (keyedAll (postList (target :: cache) [])).length))) ()
        (psi (upTo ws (postList (target :: cache) [])) target) cache =
      .ok ((), .mk target.d new target.index, cache) := by
  set K := keyedAll (postList (target :: cache) []) with hKdef
  set q := upTo ws (postList (target :: cache) []) with hqdef
  have hq : QOk target cache ws K q := upTo_ok ws
  have hK : KeyedOk target cache K := keyedAll_ok h _ (fun o ho => (mem_order _ o).1 ho)
  have hcl := opersList_closed (target :: cache)
  obtain ⟨items, hi, hg⟩ := items_exist h
  obtain ⟨ol, hol1, hol2, hol3⟩ := upTo_last (target := target) (cache := cache) ws hex
  obtain ⟨wl, hwl⟩ := Option.isSome_iff_exists.1 hol2
  obtain ⟨rl, hrl, hrlo⟩ := item_of h items hi hg ol hol1 wl hwl
  have hfin : ∃ r ∈ redsOf items, Red.fin K q r = true := by
    refine ⟨rl, hrl, ?_⟩
    unfold Red.fin
    rw [hrlo, hqdef, hol3]
    simp [packedMergeOf, apply, hKdef]
  obtain ⟨new, hrem, hperm⟩ := removeFrom_eq h ws K hK q hq items hg hfin target.d
  have hmap : ∀ q' : Oper C → Node C, target.ins.map (psi q') = items.map (Item.under q') := by
    intro q'
    rw [hi, List.map_map]
    apply List.map_congr_left
    intro it hit
    exact psi_item q' it (hg it hit)
  have hmt : mcand target.oper = none := by
    apply mcand_none_of
    intro k hk
    change target.d.kind = _ at hk
    rw [h.phase.savedModel] at hk; cases hk
  have hT : psi q target = .mk target.d (target.ins.map (psi q)) target.index := by
    cases target with
    | mk d ins i => exact psi_keep q d ins i hmt
  have hoT : ol ∈ opersList target.ins := by
    have := mcand_in_target target cache h.phase ol hol1 wl hwl
    rw [Node.opers_eq] at this
    rcases List.mem_cons.1 this with e | e
    · rw [e] at hwl
      rw [hmt] at hwl; cases hwl
    · exact e
  have hne : target.ins ≠ [] := by
    intro e
    rw [e] at hoT
    cases hoT
  have hcc : ∀ n ∈ cache, psi q n = n := fun n hn => psi_noOutputs q n (h.phase.cached n hn)
  have himg : ∀ o ∈ opersList (psi q target :: cache), Img target cache ws K q o := by
    intro o ho
    obtain ⟨n, hn, hon⟩ := (mem_opersList _ _).1 ho
    rcases List.mem_cons.1 hn with rfl | hn
    · exact opers_psi h ws K hK q hq target
        (fun a ha => (mem_opersList _ _).2 ⟨target, by simp, ha⟩) o hon
    · rw [← hcc n hn] at hon
      exact opers_psi h ws K hK q hq n (fun a ha => (mem_opersList _ _).2 ⟨n, by simp [hn], ha⟩) o hon
  set tO : Oper C := (target.d, target.ins.map (psi q)) with htO
  -- no other operation depends on the saved model
  have hnc : ∀ n ∈ cache, ∀ o ∈ n.opers, o ≠ tO := by
    rintro n hn o ho rfl
    have hoU : tO ∈ opersList (target :: cache) := (mem_opersList _ _).2 ⟨n, by simp [hn], ho⟩
    have e : tO = target.oper := h.ready.labels _ hoU _
      ((mem_opersList _ _).2 ⟨target, by simp, oper_mem target⟩) rfl
    rw [e] at ho
    obtain ⟨x, hx, hox⟩ := (mem_opersList _ _).1 hoT
    obtain ⟨k, _, _, _, _, _, hk, _⟩ := mcand_some ol wl hwl
    exact h.phase.cached n hn ol (opers_closed n _ ho x hx hox) k hk
  have hnd : ∀ o ∈ opersList (psi q target :: cache), ∀ x ∈ o.2, x.oper ≠ tO := by
    intro o ho x hx e
    obtain ⟨n, hn, hon⟩ := (mem_opersList _ _).1 ho
    rcases List.mem_cons.1 hn with rfl | hn
    · rw [hT, Node.opers_eq] at hon
      apply not_mem_own target.d (target.ins.map (psi q))
      rcases List.mem_cons.1 hon with rfl | hon
      · exact (mem_opersList _ _).2 ⟨x, hx, by rw [← htO, ← e]; exact oper_mem x⟩
      · have := opersList_closed _ o hon x hx (oper_mem x)
        rw [e] at this
        exact this
    · exact hnc n hn x.oper (opers_closed n o hon x hx (oper_mem x)) e
  have hsame : ∀ o ∈ opersList (psi q target :: cache), o.2.map (exchange tO new) = o.2 := by
    intro o ho
    conv_rhs => rw [← List.map_id o.2]
    apply List.map_congr_left
    intro x hx
    simp [exchange, hnd o ho x hx]
  refine ⟨new, by rw [hmap]; exact hperm, ?_⟩
  obtain ⟨s', e1, _⟩ := traverse_pure (removeRedundant (some (packedMergeLabel K.length))) ()
    (exchange tO new) (fun _ _ => True) (psi q target) cache
    (fun o ho o' ho' hl => img_labels h ws K q o o' (himg o ho) (himg o' ho') hl)
    (fun o ho => img_indices h ws K hK q hq o (himg o ho))
    (by
      intro n hn
      rcases List.mem_cons.1 hn with rfl | hn
      · exact psi_index h q target ((mem_opersList _ _).2 ⟨target, by simp, oper_mem target⟩)
          (h.ready.indexed target (by simp))
      · exact h.ready.indexed n (by simp [hn]))
    trivial (by
      intro order s o ho _ _ _
      refine ⟨(), ?_, trivial⟩
      rw [hsame o ho]
      by_cases hot : o = tO
      · subst hot
        unfold removeRedundant
        simp only [htO, h.phase.savedModel]
        rw [if_pos (by simpa using hne), hmap q, hrem]
        simp only [ok_bind, outsOf, outputs]
        congr 2
        apply List.map_congr_left
        intro i _
        rw [exchange, if_pos (by rw [← hmap q]; rfl)]
        rfl
      · have houts : outsOf (exchange tO new) o = outputs o.1 o.2 := by
          unfold outsOf outputs
          apply List.map_congr_left
          intro i _
          rw [exchange, if_neg (by exact hot)]
        rw [houts]
        unfold removeRedundant
        by_cases hk : o.1.kind = .createSavedModel
        · have : o.2 = [] := by
            have := himg o ho
            cases this with
            | keep p hp hc =>
              have : p.2 = [] := by
                apply h.phase.others p hp hk
                rintro rfl
                exact hot rfl
              simp [this]
            | outs p w pd y j hp hc h2 => cases hk
            | dict p w pd y j hp hc h2 => cases hk
            | merge ks hks => cases hk
            | flat ks hks => cases hk
            | key p w pd y j hp hc h2 => cases hk
          simp [hk, this]
        · split
          · rename_i hk'
            exact absurd hk' hk
          · rfl)
  rw [e1, hT]
  have hcm : cache.map (exchange tO new) = cache := by
    conv_rhs => rw [← List.map_id cache]
    apply List.map_congr_left
    intro n hn
    rw [exchange, if_neg (hnc n hn n.oper (oper_mem n))]
    rfl
  rw [hcm]
  congr 3
  rw [exchange, if_pos (by rfl)]
  rfl

end

end TFT.Graph.Packing
