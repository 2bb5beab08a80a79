import Verif.Graph.PackingLemmas

/-!
# Combiner packing: the graph after packing of accumulators
-/

namespace TFT.Graph.Packing

variable {C : Type}

/-! ### Labels -/

theorem append_ne (p q a b : String) (k : Nat) (x y : Char) (hx : p.toList[k]? = some x)
    (hy : q.toList[k]? = some y) (hxy : x ≠ y) : p ++ a ≠ q ++ b := by
  intro h
  have h1 : (p ++ a).toList[k]? = (q ++ b).toList[k]? := by rw [h]
  rw [String.toList_append, String.toList_append,
    List.getElem?_append_left (List.getElem?_eq_some_iff.1 hx).1,
    List.getElem?_append_left (List.getElem?_eq_some_iff.1 hy).1, hx, hy] at h1
  exact hxy (Option.some.inj h1)

theorem bracket_inj (p a b : String) (h : p ++ a ++ "]" = p ++ b ++ "]") : a = b := by
  have h1 : (p ++ a ++ "]").toList = (p ++ b ++ "]").toList := by rw [h]
  simp only [String.toList_append, List.append_cancel_right_eq, List.append_cancel_left_eq] at h1
  exact String.toList_injective h1

section
variable [DecidableEq C]

/-- What the operations are after packing of accumulators. -/
inductive Image (U : List (Oper C)) (groups : List (String × List (Wrapper C))) :
    Oper C → Prop
  | keep (o : Oper C) (ho : o ∈ U) (hl : (combineToGrandParent groups).lookup o.1.label = none) :
      Image U groups (o.1, o.2.map (phi groups))
  | extract (o : Oper C) (g : String) (gp : Node C) (ho : o ∈ U)
      (hl : (combineToGrandParent groups).lookup o.1.label = some g) (hg : gp.oper ∈ U)
      (hi : gp.index = 0) (hgl : gp.d.label = g) :
      Image U groups (⟨o.1.label, .extractFromDict (.single o.1.label)⟩, [packedNode groups g (phi groups gp)])
  | packed (g : String) (gp : Node C) (hg : gp.oper ∈ U)
      (hi : gp.index = 0) (hgl : gp.d.label = g) (hk : gp.d.kind = .applySavedModel) :
      Image U groups (packedNode groups g (phi groups gp)).oper

theorem Image.mono {U V : List (Oper C)} {groups : List (String × List (Wrapper C))} (h : U ⊆ V)
    {o : Oper C} (ho : Image U groups o) : Image V groups o := by
  cases ho with
  | keep o ho hl => exact .keep o (h ho) hl
  | extract o g gp ho hl hg hi hgl => exact .extract o g gp (h ho) hl (h hg) hi hgl
  | packed g gp hg hi hgl hk => exact .packed g gp (h hg) hi hgl hk

theorem opers_phi (U : List (Oper C)) (hcl : ∀ o ∈ U, ∀ x ∈ o.2, x.opers ⊆ U) (hi : Indexed U)
    (groups : List (String × List (Wrapper C))) (hp : Packs U groups) :
    ∀ n : Node C, n.opers ⊆ U → ∀ o ∈ (phi groups n).opers, Image n.opers groups o
  | .mk d ins i => fun hn o ho => by
    have hd : (d, ins) ∈ U := hn (oper_mem (.mk d ins i))
    cases hl : (combineToGrandParent groups).lookup d.label with
    | none =>
      rw [phi_none groups d ins i hl, Node.opers_eq] at ho
      rcases List.mem_cons.1 ho with rfl | ho
      · exact .keep (d, ins) (oper_mem (.mk d ins i)) hl
      · obtain ⟨x', hx', hox⟩ := (mem_opersList _ _).1 ho
        obtain ⟨x, hx, rfl⟩ := List.mem_map.1 hx'
        have : sizeOf x < sizeOf (Node.mk d ins i) := nodeSize_lt d ins i x hx
        refine (opers_phi U hcl hi groups hp x (hcl _ hd x hx) o hox).mono ?_
        exact opers_closed (.mk d ins i) (d, ins) (oper_mem _) x hx
    | some g =>
      obtain ⟨c, keys, pd, gp, j, w, ws, h1, h2, h3, h4, h5, h6, h7, h8, h9, h10, h11, h12, h13, h14, h15⟩ :=
        phi_packed U hcl hi groups hp d ins hd g hl
      have hgpn : gp.opers ⊆ (Node.mk d ins i).opers := by
        have hx := opers_closed (.mk d ins i) (d, ins) (oper_mem _) (.mk pd [gp] j) (by rw [h2]; simp)
        exact opers_closed _ (pd, [gp]) (hx (oper_mem (.mk pd [gp] j))) gp (by simp)
      rw [h15, Node.opers_eq] at ho
      rcases List.mem_cons.1 ho with rfl | ho
      · exact .extract (d, ins) g gp (oper_mem (.mk d ins i)) hl (hgpn (oper_mem gp)) h11 h5.symm
      · simp only [extractAccumulator, apply, Node.ins_mk, opersList, List.append_nil] at ho
        rw [Node.opers_eq] at ho
        rcases List.mem_cons.1 ho with rfl | ho
        · exact .packed g gp (hgpn (oper_mem gp)) h11 h5.symm h4
        · simp only [packedNode, apply, Node.ins_mk, opersList, List.append_nil] at ho
          have : sizeOf gp < sizeOf (Node.mk d ins i) := by
            rw [h2]
            have a1 := nodeSize_lt d [Node.mk pd [gp] j] i (.mk pd [gp] j) (by simp)
            have a2 := nodeSize_lt pd [gp] j gp (by simp)
            omega
          exact (opers_phi U hcl hi groups hp gp h10 o ho).mono hgpn
termination_by n => sizeOf n

theorem node_ext {a b : Node C} (h1 : a.oper = b.oper) (h2 : a.index = b.index) : a = b := by
  cases a; cases b
  simp only [Node.oper_mk, Prod.mk.injEq, Node.index_mk] at h1 h2
  rw [h1.1, h1.2, h2]

/-- Labels stay unique. -/
theorem image_labels (U : List (Oper C)) (hu : UniqueLabels U)
    (hf : ∀ o ∈ U, ∀ l, o.1.label ≠ "PackedCombineAccumulate[" ++ l ++ "]")
    (groups : List (String × List (Wrapper C))) (o o' : Oper C) (ho : Image U groups o)
    (ho' : Image U groups o') (hl : o.1.label = o'.1.label) : o = o' := by
  have hgp : ∀ gp gp' : Node C, gp.oper ∈ U → gp'.oper ∈ U → gp.index = 0 → gp'.index = 0 →
      gp.d.label = gp'.d.label → gp = gp' := by
    intro gp gp' h1 h2 h3 h4 h5
    exact node_ext (hu _ h1 _ h2 h5) (by rw [h3, h4])
  cases ho with
  | keep p hp hlp =>
    cases ho' with
    | keep p' hp' hlp' => rw [hu p hp p' hp' hl]
    | extract p' g' gp' hp' hlp' hg' hi' hgl' =>
      rw [hu p hp p' hp' hl, hlp'] at hlp; cases hlp
    | packed g' gp' hg' hi' hgl' hk' => exact absurd hl (hf p hp g')
  | extract p g gp hp hlp hg hi hgl =>
    cases ho' with
    | keep p' hp' hlp' => rw [hu p hp p' hp' hl, hlp'] at hlp; cases hlp
    | extract p' g' gp' hp' hlp' hg' hi' hgl' =>
      have e := hu p hp p' hp' hl
      subst e
      rw [hlp] at hlp'
      cases hlp'
      rw [hgp gp gp' hg hg' hi hi' (by rw [hgl, hgl'])]
    | packed g' gp' hg' hi' hgl' hk' => exact absurd hl (hf p hp g')
  | packed g gp hg hi hgl hk =>
    cases ho' with
    | keep p' hp' hlp' => exact absurd hl.symm (hf p' hp' g)
    | extract p' g' gp' hp' hlp' hg' hi' hgl' => exact absurd hl.symm (hf p' hp' g)
    | packed g' gp' hg' hi' hgl' hk' =>
      have e : g = g' := bracket_inj "PackedCombineAccumulate[" g g' hl
      subst e
      rw [hgp gp gp' hg hg' hi hi' (by rw [hgl, hgl'])]

theorem phi_label (U : List (Oper C)) (hcl : ∀ o ∈ U, ∀ x ∈ o.2, x.opers ⊆ U) (hi : Indexed U)
    (groups : List (String × List (Wrapper C))) (hp : Packs U groups) (n : Node C) (hn : n.oper ∈ U) :
    (phi groups n).d.label = n.d.label := by
  cases n with
  | mk d ins i =>
    cases hl : (combineToGrandParent groups).lookup d.label with
    | none => rw [phi_none groups d ins i hl]; rfl
    | some g =>
      obtain ⟨c, keys, pd, gp, j, w, ws, h1, h2, h3, h4, h5, h6, h7, h8, h9, h10, h11, h12, h13, h14, h15⟩ :=
        phi_packed U hcl hi groups hp d ins hn g hl
      rw [h15]; rfl

theorem phi_index (U : List (Oper C)) (hcl : ∀ o ∈ U, ∀ x ∈ o.2, x.opers ⊆ U) (hi : Indexed U)
    (groups : List (String × List (Wrapper C))) (hp : Packs U groups) (n : Node C) (hn : n.oper ∈ U)
    (hix : n.index < n.d.numOutputs) :
    (phi groups n).index < (phi groups n).d.numOutputs := by
  cases n with
  | mk d ins i =>
    cases hl : (combineToGrandParent groups).lookup d.label with
    | none => rw [phi_none groups d ins i hl]; exact hix
    | some g =>
      obtain ⟨c, keys, pd, gp, j, w, ws, h1, h2, h3, h4, h5, h6, h7, h8, h9, h10, h11, h12, h13, h14, h15⟩ :=
        phi_packed U hcl hi groups hp d ins hn g hl
      rw [h15]; simp [extractAccumulator, apply, Def.numOutputs]

/-- A rewritten node of a class other than `ExtractFromDict` is as before, with rewritten inputs. -/
theorem phi_kind (U : List (Oper C)) (hcl : ∀ o ∈ U, ∀ x ∈ o.2, x.opers ⊆ U) (hi : Indexed U)
    (groups : List (String × List (Wrapper C))) (hp : Packs U groups) (n : Node C) (hn : n.oper ∈ U)
    (hk : ∀ keys, (phi groups n).d.kind ≠ .extractFromDict keys) :
    phi groups n = .mk n.d (n.ins.map (phi groups)) n.index := by
  cases n with
  | mk d ins i =>
    cases hl : (combineToGrandParent groups).lookup d.label with
    | none => exact phi_none groups d ins i hl
    | some g =>
      obtain ⟨c, keys, pd, gp, j, w, ws, h1, h2, h3, h4, h5, h6, h7, h8, h9, h10, h11, h12, h13, h14, h15⟩ :=
        phi_packed U hcl hi groups hp d ins hn g hl
      exact absurd (by rw [h15]; rfl) (hk (.single d.label))

theorem image_outputs {U : List (Oper C)} {groups : List (String × List (Wrapper C))} {o : Oper C}
    (ho : Image U groups o) (n : Nat) (hk : o.1.kind = .extractOutputs n) :
    ∃ p ∈ U, p.1.kind = .extractOutputs n ∧ o = (p.1, p.2.map (phi groups)) := by
  cases ho with
  | keep p hp hl => exact ⟨p, hp, hk, rfl⟩
  | extract p g gp hp hl hg hi hgl => cases hk
  | packed g gp hg hi hgl => cases hk

theorem noOutputs_phi (U : List (Oper C)) (hcl : ∀ o ∈ U, ∀ x ∈ o.2, x.opers ⊆ U) (hi : Indexed U)
    (groups : List (String × List (Wrapper C))) (hp : Packs U groups) (n : Node C) (hn : n.opers ⊆ U)
    (h : NoOutputs n) : NoOutputs (phi groups n) := by
  intro o ho k hk
  obtain ⟨p, hp, hpk, _⟩ := image_outputs (opers_phi U hcl hi groups hp n hn o ho) k hk
  exact h p hp k hpk

theorem post_phi (U : List (Oper C)) (hcl : ∀ o ∈ U, ∀ x ∈ o.2, x.opers ⊆ U) (hi : Indexed U)
    (groups : List (String × List (Wrapper C))) (hp : Packs U groups) (k : Nat) (n : Node C)
    (h : Post k n) (hn : n.opers ⊆ U) : Post k (phi groups n) := by
  induction h with
  | outputs d x i n' hd hx =>
    have hd' : (d, [x]) ∈ U := hn (oper_mem (.mk d [x] i))
    rw [(phi_keep U groups hp d [x] i hd' (by rw [hd]; intro c hc; cases hc)).1]
    exact .outputs d _ i n' hd (noOutputs_phi U hcl hi groups hp x (hcl _ hd' x (by simp)) hx)
  | step k d x hd _ ih =>
    have hd' : (d, [x]) ∈ U := hn (oper_mem (.mk d [x] 0))
    rw [(phi_keep U groups hp d [x] 0 hd' (by
      intro c hc
      rcases hd with h | h <;> rw [h] at hc <;> cases hc)).1]
    exact .step k d _ hd (ih (hcl _ hd' x (by simp)))

/-- The graph after the second traversal. -/
structure Ready (target : Node C) (cache : List (Node C)) : Prop where
  labels : UniqueLabels (opersList (target :: cache))
  indices : Indexed (opersList (target :: cache))
  indexed : ∀ n ∈ target :: cache, n.index < n.d.numOutputs
  fresh : FreshMerges (opersList (target :: cache))

theorem opers_phiList (ns : List (Node C)) (U : List (Oper C)) (hU : opersList ns = U) (hi : Indexed U)
    (groups : List (String × List (Wrapper C))) (hp : Packs U groups) :
    ∀ o ∈ opersList (ns.map (phi groups)), Image U groups o := by
  intro o ho
  have hcl := opersList_closed ns
  rw [hU] at hcl
  obtain ⟨n', hn', hon⟩ := (mem_opersList _ _).1 ho
  obtain ⟨n, hn, rfl⟩ := List.mem_map.1 hn'
  have hs : n.opers ⊆ U := fun q hq => hU ▸ (mem_opersList _ _).2 ⟨n, hn, hq⟩
  exact (opers_phi U hcl hi groups hp n hs o hon).mono hs

theorem ready_phi (target : Node C) (cache : List (Node C)) (hb : Built target cache)
    (groups : List (String × List (Wrapper C))) (hp : Packs (opersList (target :: cache)) groups) :
    Ready (phi groups target) (cache.map (phi groups)) := by
  have hcl := opersList_closed (target :: cache)
  have him := opers_phiList (target :: cache) _ rfl hb.indices groups hp
  rw [List.map_cons] at him
  refine ⟨?_, ?_, ?_, ?_⟩
  · intro o ho o' ho' hl
    exact image_labels _ hb.labels hb.fresh.accumulate groups o o' (him o ho) (him o' ho') hl
  · intro o ho x hx
    cases him o ho with
    | keep p hp' hl =>
      obtain ⟨y, hy, rfl⟩ := List.mem_map.1 hx
      exact phi_index _ hcl hb.indices groups hp y (hcl _ hp' y hy (oper_mem y)) (hb.indices _ hp' y hy)
    | extract p g gp hp' hl hg hi hgl =>
      simp only [List.mem_singleton] at hx
      rw [hx]
      simp [packedNode, apply, Def.numOutputs]
    | packed g gp hg hi hgl hk =>
      simp only [packedNode, apply, Node.oper_mk, List.mem_singleton] at hx
      rw [hx]
      apply phi_index _ hcl hb.indices groups hp gp hg
      rw [hi]
      simp [Def.numOutputs, hk]
  · intro n hn
    rw [← List.map_cons (f := phi groups)] at hn
    obtain ⟨y, hy, rfl⟩ := List.mem_map.1 hn
    exact phi_index _ hcl hb.indices groups hp y ((mem_opersList _ _).2 ⟨y, hy, oper_mem y⟩)
      (hb.indexed y hy)
  · have key : ∀ (pre : String) (k : Nat) (x : Char),
        (∀ o ∈ opersList (target :: cache), ∀ l, o.1.label ≠ pre ++ l ++ "]") →
        pre.toList[k]? = some x → ("PackedCombineAccumulate[".toList[k]?).any (· ≠ x) = true →
        ∀ o ∈ opersList (phi groups target :: cache.map (phi groups)), ∀ l,
          o.1.label ≠ pre ++ l ++ "]" := by
      intro pre k x h1 h2 h3 o ho l
      cases him o ho with
      | keep p hp' hl => exact h1 p hp' l
      | extract p g gp hp' hl hg hi hgl => exact h1 p hp' l
      | packed g gp hg hi hgl =>
        obtain ⟨y, hy, hyx⟩ := (Option.any_eq_true _ _).1 h3
        intro h
        change "PackedCombineAccumulate[" ++ g ++ "]" = pre ++ l ++ "]" at h
        rw [String.append_assoc, String.append_assoc] at h
        exact append_ne _ _ _ _ k y x hy h2 (by simpa using hyx) h
    refine ⟨?_, ?_, ?_, ?_, ?_, ?_⟩
    · exact key _ 0 'A' hb.fresh.merges.addKey (by decide +kernel) (by decide +kernel)
    · exact key _ 0 'F' hb.fresh.merges.flatten (by decide +kernel) (by decide +kernel)
    · exact key _ 13 'M' hb.fresh.merges.merge (by decide +kernel) (by decide +kernel)
    · exact key _ 0 'E' hb.fresh.merges.extract (by decide +kernel) (by decide +kernel)
    · exact key _ 0 'E' hb.fresh.merges.outputs (by decide +kernel) (by decide +kernel)
    · intro o ho ws hk
      cases him o ho with
      | keep p hp' hl => exact hb.fresh.merges.packedMerge p hp' ws hk
      | extract p g gp hp' hl hg hi hgl => cases hk
      | packed g gp hg hi hgl => cases hk

theorem onePhase_phi (target : Node C) (cache : List (Node C)) (hb : Built target cache)
    (h1 : OnePhase target cache)
    (groups : List (String × List (Wrapper C))) (hp : Packs (opersList (target :: cache)) groups) :
    OnePhase (phi groups target) (cache.map (phi groups)) := by
  have hcl := opersList_closed (target :: cache)
  have him := opers_phiList (target :: cache) _ rfl hb.indices groups hp
  rw [List.map_cons] at him
  have htU : target.opers ⊆ opersList (target :: cache) :=
    fun q hq => (mem_opersList _ _).2 ⟨target, by simp, hq⟩
  have htm : phi groups target = .mk target.d (target.ins.map (phi groups)) target.index := by
    have := (phi_keep _ groups hp target.d target.ins target.index (htU (oper_mem target)) (by
      rw [h1.savedModel]; intro c hc; cases hc)).1
    have e : Node.mk target.d target.ins target.index = target := by cases target; rfl
    rw [e] at this
    exact this
  refine ⟨?_, ?_, ?_, ?_, ?_, ?_⟩
  · intro o ho n hk
    obtain ⟨p, hp', hpk, rfl⟩ := image_outputs (him o ho) n hk
    obtain ⟨x, hx, hx2⟩ := h1.merges p hp' n hpk
    refine ⟨phi groups x, by simp [hx], ?_⟩
    intro c hc
    have hxU : x.oper ∈ opersList (target :: cache) := hcl p hp' x (by rw [hx]; simp) (oper_mem x)
    have e := phi_kind _ hcl hb.indices groups hp x hxU (by rw [hc]; intro keys h; cases h)
    have hc' : x.d.kind = .merge c := by rw [e] at hc; exact hc
    obtain ⟨y, hy⟩ := hx2 c hc'
    refine ⟨phi groups y, ?_⟩
    rw [e]; simp [hy]
  · intro o ho o' ho' n n' hk hk' x hx x' hx' hxx
    obtain ⟨p, hp', hpk, rfl⟩ := image_outputs (him o ho) n hk
    obtain ⟨p', hpp', hpk', rfl⟩ := image_outputs (him o' ho') n' hk'
    obtain ⟨y, hy, rfl⟩ := List.mem_map.1 hx
    obtain ⟨y', hy', rfl⟩ := List.mem_map.1 hx'
    have hyU := hcl p hp' y hy (oper_mem y)
    have hyU' := hcl p' hpp' y' hy' (oper_mem y')
    have hl : y.d.label = y'.d.label := by
      rw [← phi_label _ hcl hb.indices groups hp y hyU, ← phi_label _ hcl hb.indices groups hp y' hyU']
      have : (phi groups y).oper.1 = (phi groups y').oper.1 := by rw [hxx]
      exact congrArg Def.label this
    rw [h1.single p hp' p' hpp' n n' hpk hpk' y hy y' hy' (hb.labels _ hyU _ hyU' hl)]
  · rw [htm]; exact h1.savedModel
  · intro o ho hk hne
    cases him o ho with
    | keep p hp' hl =>
      have : p.2 = [] := h1.others p hp' hk (by
        rintro rfl
        apply hne
        rw [htm]; rfl)
      simp [this]
    | extract p g gp hp' hl hg hi hgl => cases hk
    | packed g gp hg hi hgl => cases hk
  · intro b' hb'
    rw [htm] at hb'
    obtain ⟨b, hbm, rfl⟩ := List.mem_map.1 hb'
    obtain ⟨hbk, hbs⟩ := h1.bindings b hbm
    have hbU : b.opers ⊆ opersList (target :: cache) := hcl _ (htU (oper_mem target)) b hbm
    constructor
    · have := (phi_keep _ groups hp b.d b.ins b.index (hbU (oper_mem b)) (by
        rw [hbk]; intro c hc; cases hc)).1
      have e : Node.mk b.d b.ins b.index = b := by cases b; rfl
      rw [e] at this
      rw [this]
      exact hbk
    · rcases hbs with h | ⟨k, hk, h⟩
      · exact Or.inl (noOutputs_phi _ hcl hb.indices groups hp b hbU h)
      · exact Or.inr ⟨k, hk, post_phi _ hcl hb.indices groups hp k b h hbU⟩
  · intro n' hn'
    obtain ⟨n, hn, rfl⟩ := List.mem_map.1 hn'
    exact noOutputs_phi _ hcl hb.indices groups hp n
      (fun q hq => (mem_opersList _ _).2 ⟨n, by simp [hn], hq⟩) (h1.cached n hn)

end

end TFT.Graph.Packing
