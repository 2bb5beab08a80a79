import Verif.Graph.PackingMerge
import Std.Data.String.ToNat

/-!
# Combiner packing: removal of redundant merges
-/

namespace TFT.Graph.Packing

variable {C : Type}

set_option linter.unusedSectionVars false

section
variable [DecidableEq C]

/-- The graph that is packed: after packing of accumulators. -/
structure Setting (target : Node C) (cache : List (Node C)) : Prop where
  ready : Ready target cache
  phase : OnePhase target cache

variable {target : Node C} {cache : List (Node C)}

theorem packed_unique (h : Setting target cache) (o o' : Oper C) (ho : o ∈ opersList (target :: cache)) (ho' : o' ∈ opersList (target :: cache))
    (w w' : Wrapper C) (hc : mcand o = some w) (hc' : mcand o' = some w') (x x' : Node C)
    (hx : x ∈ o.2) (hx' : x' ∈ o'.2) (hl : x.d.label = x'.d.label) : o = o' := by
  obtain ⟨n, _, _, _, _, _, hk, _⟩ := mcand_some o w hc
  obtain ⟨n', _, _, _, _, _, hk', _⟩ := mcand_some o' w' hc'
  have hcl := opersList_closed (target :: cache)
  exact h.phase.single o ho o' ho' n n' hk hk' x hx x' hx'
    (h.ready.labels _ (hcl o ho x hx (oper_mem x)) _ (hcl o' ho' x' hx' (oper_mem x')) hl)

theorem Setting.shape (h : Setting target cache) (o : Oper C) (ho : o ∈ opersList (target :: cache)) (w : Wrapper C)
    (hc : mcand o = some w) :
    ∃ n c pd y j, o.1.kind = .extractOutputs n ∧ o.2 = [.mk pd [y] j] ∧ pd.kind = .merge c ∧
      w = ⟨c, .tuple [pd.label], pd.label⟩ ∧ NoOutputs (.mk pd [y] j) :=
  mcand_shape _ (outShape_of target cache h.phase) o ho w hc

/-- The definition of the operation that takes the outputs of a merge from its entry. -/
def outsDef (pd : Def C) (n : Nat) : Def C :=
  ⟨"ExtractPackedCombineMergeOutputs[" ++ pd.label ++ "]", .extractPackedOutputs n⟩

/-- The definition of the operation that takes the entry of a merge. -/
def dictDef (pd : Def C) : Def C :=
  ⟨"ExtractFromDict[" ++ pd.label ++ "]", .extractFromDict (.single pd.label)⟩

theorem extracted_eq (o : Oper C) (pd : Def C) (pins rest : List (Node C)) (j : Nat)
    (h : o.2 = .mk pd pins j :: rest) (q : Node C) (i : Nat) :
    extracted o q i = .mk (outsDef pd o.1.numOutputs) [.mk (dictDef pd) [q] 0] i := by
  unfold extracted
  rw [h]
  rfl

/-- What the operations are after packing of merges, where the outputs of `o` come from `q o`. -/
inductive Img (target : Node C) (cache : List (Node C)) (ws : List (Wrapper C)) (K : List (Node C))
    (q : Oper C → Node C) : Oper C → Prop
  | keep (o : Oper C) (ho : o ∈ opersList (target :: cache)) (hc : mcand o = none) : Img target cache ws K q (o.1, o.2.map (psi q))
  | outs (o : Oper C) (w : Wrapper C) (pd : Def C) (y : Node C) (j : Nat) (ho : o ∈ opersList (target :: cache))
      (hc : mcand o = some w) (h2 : o.2 = [.mk pd [y] j]) :
      Img target cache ws K q (outsDef pd o.1.numOutputs, [.mk (dictDef pd) [q o] 0])
  | dict (o : Oper C) (w : Wrapper C) (pd : Def C) (y : Node C) (j : Nat) (ho : o ∈ opersList (target :: cache))
      (hc : mcand o = some w) (h2 : o.2 = [.mk pd [y] j]) :
      Img target cache ws K q (dictDef pd, [q o])
  | merge (ks : List (Node C)) (h : ks <+: K) : Img target cache ws K q (packedMergeOf ws ks).oper
  | flat (ks : List (Node C)) (h : ks <+: K) : Img target cache ws K q (⟨flattenLabel ks.length, .flatten⟩, ks)
  | key (o : Oper C) (w : Wrapper C) (pd : Def C) (y : Node C) (j : Nat) (ho : o ∈ opersList (target :: cache))
      (hc : mcand o = some w) (h2 : o.2 = [.mk pd [y] j]) : Img target cache ws K q (keyed pd y).oper

/-- `K` are keyed inputs of packed merges. -/
def KeyedOk (target : Node C) (cache : List (Node C)) (K : List (Node C)) : Prop :=
  ∀ k ∈ K, ∃ o w pd y j, o ∈ opersList (target :: cache) ∧ mcand o = some w ∧ o.2 = [.mk pd [y] j] ∧ k = keyed pd y

theorem opers_keyed (h : Setting target cache) (ws : List (Wrapper C)) (K : List (Node C))
    (hK : KeyedOk target cache K) (q : Oper C → Node C) (k : Node C) (hk : k ∈ K) :
    ∀ o ∈ k.opers, Img target cache ws K q o := by
  intro o ho
  obtain ⟨p, w, pd, y, j, hp, hc, h2, rfl⟩ := hK k hk
  rw [Node.opers_eq] at ho
  rcases List.mem_cons.1 ho with rfl | ho
  · exact .key p w pd y j hp hc h2
  · simp only [keyed, apply, Node.ins_mk, opersList, List.append_nil] at ho
    obtain ⟨n, c, pd', y', j', q1, q2, q3, q4, q5⟩ := h.shape p hp w hc
    rw [h2] at q2
    simp only [List.cons.injEq, Node.mk.injEq, and_true] at q2
    obtain ⟨e1, e2, e3⟩ := q2
    subst e1; subst e2; subst e3
    have hcl := opersList_closed (target :: cache)
    have hy : y.opers ⊆ (Node.mk pd [y] j).opers :=
      opers_closed (.mk pd [y] j) (pd, [y]) (oper_mem _) y (by simp)
    have hoU : o ∈ opersList (target :: cache) := hcl p hp (.mk pd [y] j) (by rw [h2]; simp) (hy ho)
    have hno : NoOutputs y := fun a ha => q5 a (hy ha)
    have : o = (o.1, o.2.map (psi q)) := by
      have : o.2.map (psi q) = o.2 := by
        conv_rhs => rw [← List.map_id o.2]
        apply List.map_congr_left
        intro x hx
        exact psi_noOutputs q x (fun a ha => hno a (opers_closed y o ho x hx ha))
      rw [this]
    rw [this]
    exact .keep o hoU (mcand_none_of o (hno o ho))

theorem opers_packed (h : Setting target cache) (ws : List (Wrapper C)) (K ks : List (Node C))
    (hK : KeyedOk target cache K) (hks : ks <+: K) (q : Oper C → Node C) :
    ∀ o ∈ (packedMergeOf ws ks).opers, Img target cache ws K q o := by
  intro o ho
  rw [Node.opers_eq] at ho
  rcases List.mem_cons.1 ho with rfl | ho
  · exact .merge ks hks
  · simp only [packedMergeOf, apply, Node.ins_mk, opersList, List.append_nil] at ho
    rw [Node.opers_eq] at ho
    rcases List.mem_cons.1 ho with rfl | ho
    · exact .flat ks hks
    · obtain ⟨k, hk, hok⟩ := (mem_opersList _ _).1 ho
      exact opers_keyed h ws K hK q k (hks.subset hk) o hok

theorem opers_psi (h : Setting target cache) (ws : List (Wrapper C)) (K : List (Node C))
    (hK : KeyedOk target cache K) (q : Oper C → Node C)
    (hq : ∀ o ∈ opersList (target :: cache), (mcand o).isSome = true → ∃ ks, ks <+: K ∧ q o = packedMergeOf ws ks) (n : Node C) :
    n.opers ⊆ opersList (target :: cache) → ∀ o ∈ (psi q n).opers, Img target cache ws K q o := by
  induction n using Node.induct with
  | h n ih =>
    intro hn o ho
    have hcl := opersList_closed (target :: cache)
    cases n with
    | mk d ins i =>
      have hd : (d, ins) ∈ opersList (target :: cache) := hn (oper_mem (.mk d ins i))
      cases hc : mcand (d, ins) with
      | none =>
        rw [psi_keep q d ins i hc, Node.opers_eq] at ho
        rcases List.mem_cons.1 ho with rfl | ho
        · exact .keep (d, ins) hd hc
        · obtain ⟨x', hx', hox⟩ := (mem_opersList _ _).1 ho
          obtain ⟨x, hx, rfl⟩ := List.mem_map.1 hx'
          exact ih x hx (hcl _ hd x hx) o hox
      | some w =>
        obtain ⟨m, c, pd, y, j, q1, q2, q3, q4, q5⟩ := h.shape _ hd w hc
        obtain ⟨ks, hks, hqo⟩ := hq (d, ins) hd (by rw [hc]; rfl)
        rw [psi_packed q d ins i w hc, extracted_eq _ pd [y] [] j q2, Node.opers_eq] at ho
        rcases List.mem_cons.1 ho with rfl | ho
        · exact .outs (d, ins) w pd y j hd hc q2
        · simp only [Node.ins_mk, opersList, List.append_nil] at ho
          rw [Node.opers_eq] at ho
          rcases List.mem_cons.1 ho with rfl | ho
          · exact .dict (d, ins) w pd y j hd hc q2
          · simp only [Node.ins_mk, opersList, List.append_nil] at ho
            rw [hqo] at ho
            exact opers_packed h ws K ks hK hks q o ho

/-! ### Labels -/

/-- The character at a position of a text. -/
def charAt (s : String) (k : Nat) : Option Char := s.toList[k]?

theorem bracket_ne (p q : String) (k : Nat) (h : (charAt p k).isSome ∧ (charAt q k).isSome ∧
    charAt p k ≠ charAt q k) (a b : String) : p ++ a ++ "]" ≠ q ++ b ++ "]" := by
  obtain ⟨h1, h2, h3⟩ := h
  obtain ⟨x, hx⟩ := Option.isSome_iff_exists.1 h1
  obtain ⟨y, hy⟩ := Option.isSome_iff_exists.1 h2
  rw [String.append_assoc, String.append_assoc]
  apply append_ne _ _ _ _ k x y hx hy
  rintro rfl
  rw [hx, hy] at h3
  exact h3 rfl

theorem number_inj (p : String) (a b : Nat) (h : p ++ toString a ++ "]" = p ++ toString b ++ "]") : a = b :=
  Nat.repr_injective (bracket_inj p _ _ h)

theorem prefix_eq_of_length {α : Type} {a b K : List α} (ha : a <+: K) (hb : b <+: K)
    (h : a.length = b.length) : a = b := by
  rw [List.prefix_iff_eq_take.1 ha, List.prefix_iff_eq_take.1 hb, h]

/-- The number of the class of an image, by its label. -/
theorem img_labels (h : Setting target cache) (ws : List (Wrapper C)) (K : List (Node C))
    (q : Oper C → Node C) (o o' : Oper C) (ho : Img target cache ws K q o) (ho' : Img target cache ws K q o')
    (hl : o.1.label = o'.1.label) : o = o' := by
  have hf := h.ready.fresh
  have hpu := packed_unique h
  cases ho with
  | keep p hp hc =>
    cases ho' with
    | keep p' hp' hc' => rw [h.ready.labels p hp p' hp' hl]
    | outs p' w' pd' y' j' hp' hc' h2' => exact absurd hl (hf.outputs p hp _)
    | dict p' w' pd' y' j' hp' hc' h2' => exact absurd hl (hf.extract p hp _)
    | merge ks' hks' => exact absurd hl (hf.merge p hp _)
    | flat ks' hks' => exact absurd hl (hf.flatten p hp _)
    | key p' w' pd' y' j' hp' hc' h2' => exact absurd hl (hf.addKey p hp _)
  | outs p w pd y j hp hc h2 =>
    cases ho' with
    | keep p' hp' hc' => exact absurd hl.symm (hf.outputs p' hp' _)
    | outs p' w' pd' y' j' hp' hc' h2' =>
      have e := hpu p p' hp hp' w w' hc hc' (.mk pd [y] j) (.mk pd' [y'] j') (by rw [h2]; simp)
        (by rw [h2']; simp) (bracket_inj _ _ _ hl)
      subst e
      rw [h2] at h2'
      cases h2'
      rfl
    | dict p' w' pd' y' j' hp' hc' h2' => exact absurd hl (bracket_ne _ _ 7 (by decide +kernel) _ _)
    | merge ks' hks' => exact absurd hl (bracket_ne _ _ 0 (by decide +kernel) _ _)
    | flat ks' hks' => exact absurd hl (bracket_ne _ _ 0 (by decide +kernel) _ _)
    | key p' w' pd' y' j' hp' hc' h2' => exact absurd hl (bracket_ne _ _ 0 (by decide +kernel) _ _)
  | dict p w pd y j hp hc h2 =>
    cases ho' with
    | keep p' hp' hc' => exact absurd hl.symm (hf.extract p' hp' _)
    | outs p' w' pd' y' j' hp' hc' h2' => exact absurd hl (bracket_ne _ _ 7 (by decide +kernel) _ _)
    | dict p' w' pd' y' j' hp' hc' h2' =>
      have e := hpu p p' hp hp' w w' hc hc' (.mk pd [y] j) (.mk pd' [y'] j') (by rw [h2]; simp)
        (by rw [h2']; simp) (bracket_inj _ _ _ hl)
      subst e
      rw [h2] at h2'
      cases h2'
      rfl
    | merge ks' hks' => exact absurd hl (bracket_ne _ _ 0 (by decide +kernel) _ _)
    | flat ks' hks' => exact absurd hl (bracket_ne _ _ 0 (by decide +kernel) _ _)
    | key p' w' pd' y' j' hp' hc' h2' => exact absurd hl (bracket_ne _ _ 0 (by decide +kernel) _ _)
  | merge ks hks =>
    cases ho' with
    | keep p' hp' hc' => exact absurd hl.symm (hf.merge p' hp' _)
    | outs p' w' pd' y' j' hp' hc' h2' => exact absurd hl (bracket_ne _ _ 0 (by decide +kernel) _ _)
    | dict p' w' pd' y' j' hp' hc' h2' => exact absurd hl (bracket_ne _ _ 0 (by decide +kernel) _ _)
    | merge ks' hks' =>
      rw [prefix_eq_of_length hks hks' (number_inj "PackedCombineMerge[" _ _ hl)]
    | flat ks' hks' => exact absurd hl (bracket_ne _ _ 0 (by decide +kernel) _ _)
    | key p' w' pd' y' j' hp' hc' h2' => exact absurd hl (bracket_ne _ _ 0 (by decide +kernel) _ _)
  | flat ks hks =>
    cases ho' with
    | keep p' hp' hc' => exact absurd hl.symm (hf.flatten p' hp' _)
    | outs p' w' pd' y' j' hp' hc' h2' => exact absurd hl (bracket_ne _ _ 0 (by decide +kernel) _ _)
    | dict p' w' pd' y' j' hp' hc' h2' => exact absurd hl (bracket_ne _ _ 0 (by decide +kernel) _ _)
    | merge ks' hks' => exact absurd hl (bracket_ne _ _ 0 (by decide +kernel) _ _)
    | flat ks' hks' =>
      rw [prefix_eq_of_length hks hks' (number_inj "FlattenInputForPackedCombineMerge[" _ _ hl)]
    | key p' w' pd' y' j' hp' hc' h2' => exact absurd hl (bracket_ne _ _ 0 (by decide +kernel) _ _)
  | key p w pd y j hp hc h2 =>
    cases ho' with
    | keep p' hp' hc' => exact absurd hl.symm (hf.addKey p' hp' _)
    | outs p' w' pd' y' j' hp' hc' h2' => exact absurd hl (bracket_ne _ _ 0 (by decide +kernel) _ _)
    | dict p' w' pd' y' j' hp' hc' h2' => exact absurd hl (bracket_ne _ _ 0 (by decide +kernel) _ _)
    | merge ks' hks' => exact absurd hl (bracket_ne _ _ 0 (by decide +kernel) _ _)
    | flat ks' hks' => exact absurd hl (bracket_ne _ _ 0 (by decide +kernel) _ _)
    | key p' w' pd' y' j' hp' hc' h2' =>
      have e := hpu p p' hp hp' w w' hc hc' (.mk pd [y] j) (.mk pd' [y'] j') (by rw [h2]; simp)
        (by rw [h2']; simp) (bracket_inj _ _ _ hl)
      subst e
      rw [h2] at h2'
      cases h2'
      rfl

theorem psi_index (h : Setting target cache) (q : Oper C → Node C) (n : Node C) (hn : n.oper ∈ opersList (target :: cache))
    (hix : n.index < n.d.numOutputs) : (psi q n).index < (psi q n).d.numOutputs := by
  cases n with
  | mk d ins i =>
    cases hc : mcand (d, ins) with
    | none => rw [psi_keep q d ins i hc]; exact hix
    | some w =>
      obtain ⟨m, c, pd, y, j, q1, q2, q3, q4, q5⟩ := h.shape _ hn w hc
      rw [psi_packed q d ins i w hc, extracted_eq (d, ins) pd [y] [] j q2]
      exact hix

theorem img_indices (h : Setting target cache) (ws : List (Wrapper C)) (K : List (Node C))
    (hK : KeyedOk target cache K) (q : Oper C → Node C)
    (hq : ∀ o ∈ opersList (target :: cache), (mcand o).isSome = true → ∃ ks, ks <+: K ∧ q o = packedMergeOf ws ks)
    (o : Oper C) (ho : Img target cache ws K q o) : ∀ x ∈ o.2, x.index < x.d.numOutputs := by
  have hcl := opersList_closed (target :: cache)
  intro x hx
  cases ho with
  | keep p hp hc =>
    obtain ⟨y, hy, rfl⟩ := List.mem_map.1 hx
    exact psi_index h q y (hcl p hp y hy (oper_mem y)) (h.ready.indices p hp y hy)
  | outs p w pd y j hp hc h2 =>
    simp only [List.mem_singleton] at hx
    rw [hx]; simp [dictDef, Def.numOutputs]
  | dict p w pd y j hp hc h2 =>
    simp only [List.mem_singleton] at hx
    obtain ⟨ks, _, e⟩ := hq p hp (by rw [hc]; rfl)
    rw [hx, e]; simp [packedMergeOf, apply, Def.numOutputs]
  | merge ks hks =>
    simp only [packedMergeOf, apply, Node.oper_mk, List.mem_singleton] at hx
    rw [hx]; simp [Def.numOutputs]
  | flat ks hks =>
    obtain ⟨p, w, pd, y, j, _, _, _, rfl⟩ := hK x (hks.subset hx)
    simp [keyed, apply, Def.numOutputs]
  | key p w pd y j hp hc h2 =>
    simp only [keyed, apply, Node.oper_mk, List.mem_singleton] at hx
    rw [hx]
    have h3 : (Node.mk pd [y] j).oper ∈ opersList (target :: cache) := hcl p hp (.mk pd [y] j) (by rw [h2]; simp) (oper_mem _)
    exact h.ready.indices _ h3 y (by simp)

/-! ### Chains -/

/-- Operations in a row. -/
def wrap : List (Def C) → Node C → Node C
  | [], n => n
  | d :: ds, n => .mk d [wrap ds n] 0

/-- The nodes of `wrap`. -/
def wraps : List (Def C) → Node C → List (Node C)
  | [], _ => []
  | d :: ds, n => wrap (d :: ds) n :: wraps ds n

theorem chain_wrap (ds : List (Def C)) (n : Node C) : (wrap ds n).chain = wraps ds n ++ n.chain := by
  induction ds with
  | nil => rfl
  | cons d ds ih => simp [wrap, wraps, Node.chain, chainList, ih]

theorem wraps_length (ds : List (Def C)) (n : Node C) : (wraps ds n).length = ds.length := by
  induction ds with
  | nil => rfl
  | cons d ds ih => simp [wraps, ih]

/-- Post-processing operations: one input, one output. -/
def Simple (d : Def C) : Prop := d.kind = .createTensorBinding ∨ d.kind = .other 1

theorem post_wrap (k : Nat) (b : Node C) (hb : Post k b) :
    ∃ ds d x i n, ds.length = k ∧ (∀ e ∈ ds, Simple e) ∧ b = wrap ds (.mk d [x] i) ∧
      d.kind = .extractOutputs n ∧ NoOutputs x := by
  induction hb with
  | outputs d x i n hd hx => exact ⟨[], d, x, i, n, rfl, by simp, rfl, hd, hx⟩
  | step k d x hd _ ih =>
    obtain ⟨ds, d', x', i, n, h1, h2, h3, h4, h5⟩ := ih
    refine ⟨d :: ds, d', x', i, n, by simp [h1], ?_, by rw [h3]; rfl, h4, h5⟩
    intro e he
    rcases List.mem_cons.1 he with rfl | he
    · exact hd
    · exact h2 e he

theorem simple_mcand (d : Def C) (hd : Simple d) (ins : List (Node C)) : mcand (d, ins) = none := by
  apply mcand_none_of
  intro k hk
  rcases hd with h | h <;> simp only [h] at hk <;> cases hk

theorem psi_wrap (q : Oper C → Node C) (ds : List (Def C)) (hds : ∀ e ∈ ds, Simple e) (n : Node C) :
    psi q (wrap ds n) = wrap ds (psi q n) := by
  induction ds with
  | nil => rfl
  | cons d ds ih =>
    simp only [wrap]
    rw [psi_keep q d _ 0 (simple_mcand d (hds d (by simp)) _)]
    simp [ih (fun e he => hds e (by simp [he]))]

/-- The nodes of a chain of first inputs are nodes of the graph. -/
theorem chain_opers (n : Node C) : ∀ x ∈ n.chain, x.opers ⊆ n.opers := by
  induction n using Node.induct with
  | h n ih =>
    intro x hx
    cases n with
    | mk d ins i =>
      unfold Node.chain at hx
      rcases List.mem_cons.1 hx with rfl | hx
      · exact fun a ha => ha
      · cases ins with
        | nil => simp [chainList] at hx
        | cons y ys =>
          simp only [chainList] at hx
          have h1 := ih y (by simp) x hx
          have h2 := opers_closed (.mk d (y :: ys) i) (d, y :: ys) (oper_mem _) y (by simp)
          exact fun a ha => h2 (h1 ha)

theorem chain_cons (n : Node C) : n.chain = n :: chainList n.ins := by
  cases n; simp [Node.chain]

/-- In a chain with a packed merge after at most four others, the nodes before it are
post-processing nodes. -/
theorem isPost_of (n q : Node C) (pre rest : List (Node C)) (h : n.chain = n :: pre ++ q :: rest)
    (hq : q.isPackedMerge = true) (hl : pre.length < 5) : n.isPostProcessing = true := by
  rw [chain_cons] at h
  simp only [List.cons_append, List.cons.injEq, true_and] at h
  unfold Node.isPostProcessing
  rw [h, List.any_eq_true]
  refine ⟨q, ?_, hq⟩
  rw [List.mem_take_iff_getElem]
  refine ⟨pre.length, by simp [maxDepth]; omega, by simp⟩

end

end TFT.Graph.Packing
