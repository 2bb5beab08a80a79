import Verif.Pipeline.PyFunc
import Verif.Combine.PackedLemmas

/-!
# Loaded py_func nodes call the functions they called when saved (C47)
-/

namespace TFT.PyFunc

variable {F : Type}

/-! ## Specification -/

/-- The functions of a graph are those of the process: its collection says for every token what the
process calls, and every py_func node is in the collection. -/
structure Owned (p : Proc F) (g : Graph F) : Prop where
  coll : ∀ t f, (t, f) ∈ g.coll → calls p t = some f
  nodes : ∀ n ∈ g.nodes, n.isPy = true → ∃ f, (n.token, f) ∈ g.coll

/-- The second nodes, run in process `q`, call what the first call in process `p`. -/
def SameCalls (p : Proc F) (ns : List Node) (q : Proc F) (ms : List Node) : Prop :=
  List.Forall₂ (fun n m => n.isPy = m.isPy ∧ (n.isPy = true → calls q m.token = calls p n.token)) ns ms

/-! ## Lemmas -/

theorem calls_append (p q : Proc F) {t : Token} {f : F} (h : calls p t = some f) :
    calls (p ++ q) t = some f := by
  unfold calls at *
  have : t < p.length := by
    by_contra hc
    rw [List.getElem?_eq_none (Nat.le_of_not_lt hc)] at h
    cases h
  rw [List.getElem?_append_left this]
  exact h

theorem calls_last (p : Proc F) (f : F) : calls (p ++ [f]) p.length = some f := by
  simp [calls]

theorem Owned.append {p : Proc F} {g : Graph F} (h : Owned p g) (q : Proc F) : Owned (p ++ q) g :=
  ⟨fun t f hm => calls_append p q (h.coll t f hm), h.nodes⟩

theorem reinsert_spec (p : Proc F) (g : Graph F) (l : List (Token × F)) :
    ∃ fresh : List (Token × F),
      (reinsert p g l).1 = p ++ l.map Prod.snd
      ∧ (reinsert p g l).2.1 = ⟨g.nodes ++ fresh.map (fun e => ⟨true, e.1⟩), g.library, g.coll ++ fresh⟩
      ∧ (∀ e ∈ fresh, calls (reinsert p g l).1 e.1 = some e.2)
      ∧ List.Forall₂ (fun (e : Token × F) (a : Token × Token) => a.1 = e.1
          ∧ calls (reinsert p g l).1 a.2 = some e.2) l (reinsert p g l).2.2
      ∧ (reinsert p g l).2.2.map Prod.snd = fresh.map Prod.fst := by
  induction l generalizing p g with
  | nil => exact ⟨[], by simp [reinsert], by simp [reinsert], by simp, by simp [reinsert], by simp [reinsert]⟩
  | cons e l ih =>
    obtain ⟨old, f⟩ := e
    obtain ⟨fresh, h1, h2, h3, h4, hfresh⟩ := ih (p ++ [f])
      { g with nodes := g.nodes ++ [⟨true, p.length⟩], coll := g.coll ++ [(p.length, f)] }
    have hlast : calls (reinsert p g ((old, f) :: l)).1 p.length = some f := by
      show calls (reinsert (p ++ [f]) _ l).1 p.length = some f
      rw [h1]
      exact calls_append _ _ (calls_last p f)
    refine ⟨(p.length, f) :: fresh, ?_, ?_, ?_, ?_, ?_⟩
    · show (reinsert (p ++ [f]) _ l).1 = _
      rw [h1]; simp
    · show (reinsert (p ++ [f]) _ l).2.1 = _
      rw [h2]; simp
    · intro e he
      rcases List.mem_cons.1 he with rfl | he
      · exact hlast
      · exact h3 e he
    · exact .cons ⟨rfl, hlast⟩ h4
    · show p.length :: (reinsert (p ++ [f]) _ l).2.2.map Prod.snd = _
      rw [hfresh]; rfl

/-- If the saved collection says one function per token, a token in it is remapped to a token of that
function. -/
theorem newToken_spec {q : Proc F} {l : List (Token × F)} {m : List (Token × Token)}
    (h : List.Forall₂ (fun (e : Token × F) (a : Token × Token) => a.1 = e.1 ∧ calls q a.2 = some e.2) l m)
    {t : Token} {f : F} (hone : ∀ f', (t, f') ∈ l → f' = f) (hmem : (t, f) ∈ l) :
    ∃ u, newToken m t = some u ∧ calls q u = some f := by
  have hkey : ∀ a ∈ m, a.1 = t → calls q a.2 = some f := by
    clear hmem
    induction h with
    | nil => simp
    | @cons e a l m hea _ ih =>
      intro b hb hbt
      rcases List.mem_cons.1 hb with rfl | hb
      · have : e.2 = f := hone e.2 (by
          have : e = (t, e.2) := by rw [← hbt, hea.1]
          rw [← this]; simp)
        rw [← this]; exact hea.2
      · exact ih (fun f' hf' => hone f' (by simp [hf'])) b hb hbt
  have hex : ∃ a ∈ m, a.1 = t := by
    clear hkey hone
    induction h with
    | nil => simp at hmem
    | @cons e a l m hea _ ih =>
      rcases List.mem_cons.1 hmem with rfl | hm
      · exact ⟨a, by simp, hea.1⟩
      · obtain ⟨b, hb, hbt⟩ := ih hm
        exact ⟨b, by simp [hb], hbt⟩
  obtain ⟨a, ha, hat⟩ := hex
  unfold newToken
  cases hf : m.reverse.find? (fun e => decide (e.1 = t)) with
  | none =>
    have := List.find?_eq_none.1 hf a (by simpa using ha)
    simp [hat] at this
  | some b =>
    have hb := List.mem_of_find?_eq_some hf
    have hbt := List.find?_some hf
    exact ⟨b.2, rfl, hkey b (by simpa using hb) (by simpa using hbt)⟩

theorem newToken_none {q : Proc F} {l : List (Token × F)} {m : List (Token × Token)}
    (h : List.Forall₂ (fun (e : Token × F) (a : Token × Token) => a.1 = e.1 ∧ calls q a.2 = some e.2) l m)
    {t : Token} (hno : ∀ f, (t, f) ∉ l) : newToken m t = none ∧ t ∉ m.map Prod.fst := by
  have hkey : ∀ a ∈ m, a.1 ≠ t := by
    induction h with
    | nil => simp
    | @cons e a l m hea _ ih =>
      intro b hb hbt
      rcases List.mem_cons.1 hb with rfl | hb
      · apply hno e.2
        have : e = (t, e.2) := by rw [← hbt, hea.1]
        rw [← this]; simp
      · exact ih (fun f' hf' => hno f' (by simp [hf'])) b hb hbt
  constructor
  · unfold newToken
    rw [List.find?_eq_none.2]
    · rfl
    · intro a ha
      simpa using hkey a (by simpa using ha)
  · intro hm
    obtain ⟨a, ha, hat⟩ := List.mem_map.1 hm
    exact hkey a ha hat

theorem mapM_remap {p q : Proc F} {m : List (Token × Token)} {expected : List Token} (ns : List Node)
    (h : ∀ n ∈ ns, n.isPy = true → ∃ u, newToken m n.token = some u ∧ calls q u = calls p n.token) :
    ∃ ms, ns.mapM (remapNode m expected) = .ok ms ∧ SameCalls p ns q ms
      ∧ ∀ k ∈ ms, k.isPy = true → ∃ a ∈ m, k.token = a.2 := by
  induction ns with
  | nil => exact ⟨[], rfl, .nil, by simp⟩
  | cons n ns ih =>
    obtain ⟨ms, h1, h2, h3⟩ := ih (fun k hk => h k (by simp [hk]))
    by_cases hp : n.isPy = true
    · obtain ⟨u, hu1, hu2⟩ := h n (by simp) hp
      refine ⟨{ n with token := u } :: ms, ?_, .cons ⟨rfl, fun _ => hu2⟩ h2, ?_⟩
      · rw [List.mapM_cons]
        simp only [remapNode, hp, if_true, hu1]
        rw [h1]; rfl
      · intro k hk hkp
        rcases List.mem_cons.1 hk with rfl | hk
        · unfold newToken at hu1
          obtain ⟨a, ha, hau⟩ := Option.map_eq_some_iff.1 hu1
          exact ⟨a, by simpa using List.mem_of_find?_eq_some ha, hau.symm⟩
        · exact h3 k hk hkp
    · refine ⟨n :: ms, ?_, .cons ⟨rfl, fun h => absurd h hp⟩ h2, ?_⟩
      · rw [List.mapM_cons]
        simp only [remapNode, hp]
        rw [h1]; rfl
      · intro k hk hkp
        rcases List.mem_cons.1 hk with rfl | hk
        · exact absurd hkp hp
        · exact h3 k hk hkp

/-! ## Theorems -/

/-- **C47** A graph whose functions are those of process `p` is saved, and loaded by TF1 in any process
`q`, into any graph `g`: loading succeeds, adds to the graph nodes that are not used followed by the saved
ones, and every py_func node among them now calls the function it called when it was saved. -/
theorem load_v1_same_functions {p : Proc F} {saved : Graph F} (hs : Owned p saved) (q : Proc F)
    (g : Graph F) :
    ∃ (q' : Proc F) (g' : Graph F) (unused loaded : List Node),
      loadV1 q g saved = (q', .ok g') ∧ g'.nodes = g.nodes ++ unused ++ loaded
        ∧ SameCalls p saved.nodes q' loaded := by
  by_cases he : saved.coll = []
  · refine ⟨q, _, [], saved.nodes, by simp [loadV1, register, he]; rfl, by simp, ?_⟩
    have : ∀ n ∈ saved.nodes, n.isPy = false := by
      intro n hn
      by_contra hp
      obtain ⟨f, hf⟩ := hs.nodes n hn (by simpa using hp)
      rw [he] at hf; simp at hf
    unfold SameCalls
    rw [List.forall₂_same]
    exact fun n hn => ⟨rfl, fun h => by rw [this n hn] at h; cases h⟩
  · obtain ⟨fresh, h1, h2, h3, h4, hfresh⟩ := reinsert_spec q g saved.coll
    obtain ⟨ms, h5, h6, _⟩ := mapM_remap (p := p) (q := (reinsert q g saved.coll).1)
      (m := (reinsert q g saved.coll).2.2) (expected := (reinsert q g saved.coll).2.2.map Prod.fst) saved.nodes
      (by
        intro n hn hp
        obtain ⟨f, hf⟩ := hs.nodes n hn hp
        have hc := hs.coll _ _ hf
        obtain ⟨u, hu1, hu2⟩ := newToken_spec h4 (t := n.token) (f := f) (by
          intro f' hf'
          have := hs.coll _ _ hf'
          rw [hc] at this
          exact (Option.some.inj this).symm) hf
        exact ⟨u, hu1, by rw [hu2, hc]⟩)
    have hm : (reinsert q g saved.coll).2.2 ≠ [] := by
      intro hm
      rw [hm] at h4
      cases hc : saved.coll with
      | nil => exact he hc
      | cons a l => rw [hc] at h4; cases h4
    refine ⟨(reinsert q g saved.coll).1, ⟨(reinsert q g saved.coll).2.1.nodes ++ ms,
      (reinsert q g saved.coll).2.1.library ++ saved.library,
      (reinsert q g saved.coll).2.1.coll ++ saved.coll⟩, fresh.map (fun e => ⟨true, e.1⟩), ms, ?_, ?_, h6⟩
    · simp only [loadV1, register, he, if_false, hm, Bool.false_eq_true]
      rw [h5]
    · simp [h2]

/-- **C47** The same for loading in TF2. -/
theorem load_v2_same_functions {p : Proc F} {saved : Graph F} (hs : Owned p saved) (q : Proc F) :
    ∃ (q' : Proc F) (loaded unused : List Node),
      loadV2 q saved = (q', .ok (loaded ++ unused)) ∧ SameCalls p saved.nodes q' loaded := by
  by_cases he : saved.coll = []
  · refine ⟨q, saved.nodes, [], by simp [loadV2, register, he], ?_⟩
    have : ∀ n ∈ saved.nodes, n.isPy = false := by
      intro n hn
      by_contra hp
      obtain ⟨f, hf⟩ := hs.nodes n hn (by simpa using hp)
      rw [he] at hf; simp at hf
    unfold SameCalls
    rw [List.forall₂_same]
    exact fun n hn => ⟨rfl, fun h => by rw [this n hn] at h; cases h⟩
  · obtain ⟨fresh, h1, h2, h3, h4, hfresh⟩ := reinsert_spec q { saved with coll := [] } saved.coll
    generalize hr : reinsert q { saved with coll := [] } saved.coll = r at *
    obtain ⟨ms, h5, h6, _⟩ := mapM_remap (p := p) (q := r.1) (m := r.2.2)
      (expected := r.2.2.map Prod.fst ++ r.2.2.map Prod.snd) saved.nodes
      (by
        intro n hn hp
        obtain ⟨f, hf⟩ := hs.nodes n hn hp
        have hc := hs.coll _ _ hf
        obtain ⟨u, hu1, hu2⟩ := newToken_spec h4 (t := n.token) (f := f) (by
          intro f' hf'
          have := hs.coll _ _ hf'
          rw [hc] at this
          exact (Option.some.inj this).symm) hf
        exact ⟨u, hu1, by rw [hu2, hc]⟩)
    have hm : r.2.2 ≠ [] := by
      intro hm
      rw [hm] at h4
      cases hc : saved.coll with
      | nil => exact he hc
      | cons a l => rw [hc] at h4; cases h4
    obtain ⟨us, hus⟩ : ∃ us, (fresh.map (fun e => (⟨true, e.1⟩ : Node))).mapM
        (remapNode r.2.2 (r.2.2.map Prod.fst ++ r.2.2.map Prod.snd)) = .ok us := by
      rw [hfresh]
      have : ∀ l : List (Token × F), (∀ e ∈ l, e ∈ fresh) → ∃ us,
          (l.map (fun e => (⟨true, e.1⟩ : Node))).mapM
            (remapNode r.2.2 (r.2.2.map Prod.fst ++ fresh.map Prod.fst)) = .ok us := by
        intro l
        induction l with
        | nil => intro _; exact ⟨[], rfl⟩
        | cons e l ih =>
          intro hl
          obtain ⟨us, hus⟩ := ih (fun k hk => hl k (by simp [hk]))
          have hk : ∃ k, remapNode r.2.2 (r.2.2.map Prod.fst ++ fresh.map Prod.fst) ⟨true, e.1⟩ = .ok k := by
            have : e.1 ∈ r.2.2.map Prod.fst ++ fresh.map Prod.fst :=
              List.mem_append_right _ (List.mem_map_of_mem (hl e (by simp)))
            unfold remapNode
            simp only [if_true, if_pos this]
            split <;> exact ⟨_, rfl⟩
          obtain ⟨k, hk⟩ := hk
          refine ⟨k :: us, ?_⟩
          rw [List.map_cons, List.mapM_cons, hk, hus]
          rfl
      exact this fresh (fun _ h => h)
    refine ⟨r.1, ms, us, ?_, h6⟩
    simp only [loadV2, register, he, if_false, hr, hm, if_true, h2, List.mapM_append, h5, hus]
    rfl

/-- **C47** In TF1, when some function was saved, a py_func node whose function was not saved is an
error. -/
theorem unsaved_function_fails (q : Proc F) (g saved : Graph F) (n : Node) (hn : n ∈ saved.nodes)
    (hp : n.isPy = true) (hno : ∀ f, (n.token, f) ∉ saved.coll) (hc : saved.coll ≠ []) :
    (loadV1 q g saved).2 = .error "ValueError: Function was not registered" := by
  obtain ⟨fresh, h1, h2, h3, h4, hfresh⟩ := reinsert_spec q g saved.coll
  generalize hr : reinsert q g saved.coll = r at *
  obtain ⟨hn1, hn2⟩ := newToken_none h4 hno
  have hm : r.2.2 ≠ [] := by
    intro hm
    rw [hm] at h4
    cases hc' : saved.coll with
    | nil => exact hc hc'
    | cons a l => rw [hc'] at h4; cases h4
  have : ∀ ns : List Node, n ∈ ns →
      ns.mapM (remapNode r.2.2 (r.2.2.map Prod.fst)) = .error "ValueError: Function was not registered" := by
    intro ns
    induction ns with
    | nil => simp
    | cons k ns ih =>
      intro hk
      rw [List.mapM_cons]
      have hk' : remapNode r.2.2 (r.2.2.map Prod.fst) k = .error "ValueError: Function was not registered"
          ∨ ∃ k', remapNode r.2.2 (r.2.2.map Prod.fst) k = .ok k' := by
        unfold remapNode
        split
        · split
          · exact .inr ⟨_, rfl⟩
          · split
            · exact .inr ⟨_, rfl⟩
            · exact .inl rfl
        · exact .inr ⟨_, rfl⟩
      rcases hk' with h | ⟨k', h⟩
      · rw [h]; rfl
      · rw [h]
        rcases List.mem_cons.1 hk with rfl | hk
        · simp only [remapNode, hp, if_true, hn1, if_neg hn2] at h
          cases h
        · rw [ih hk]; rfl
  simp only [loadV1, register, hc, if_false, hr, hm, Bool.false_eq_true, this saved.nodes hn]

/-- **C47** Inserting a function keeps the functions of a graph those of the process. -/
theorem insert_owned {p : Proc F} {g g' : Graph F} (h : Owned p g) (f : F) (k : Nat)
    (hi : (insertPyfunc p g f k).2 = .ok g') : Owned (insertPyfunc p g f k).1 g' := by
  unfold insertPyfunc at hi ⊢
  simp only at hi ⊢
  split at hi
  · cases hi
  · cases hi
    have h' := h.append [f]
    refine ⟨?_, ?_⟩
    · intro t f' hm
      rcases List.mem_append.1 hm with hm | hm
      · exact h'.coll t f' hm
      · simp only [List.mem_singleton, Prod.mk.injEq] at hm
        rw [hm.1, hm.2]; exact calls_last p f
    · intro n hn hp
      rcases List.mem_append.1 hn with hn | hn
      · obtain ⟨f', hf'⟩ := h'.nodes n hn hp
        exact ⟨f', by simp [hf']⟩
      · simp only [List.mem_singleton] at hn
        exact ⟨f, by rw [hn]; simp⟩

/-- **C47** Loading in the process that saved keeps the functions of the graph those of the process, so
it may be saved and loaded again. -/
theorem load_same_process_owned {p : Proc F} {g saved g' : Graph F} (hg : Owned p g) (hs : Owned p saved)
    (hl : (loadV1 p g saved).2 = .ok g') : Owned (loadV1 p g saved).1 g' := by
  by_cases he : saved.coll = []
  · simp [loadV1, register, he] at hl ⊢
    cases hl
    refine ⟨hg.coll, ?_⟩
    intro n hn hp
    rcases List.mem_append.1 hn with hn | hn
    · exact hg.nodes n hn hp
    · obtain ⟨f, hf⟩ := hs.nodes n hn hp
      rw [he] at hf; simp at hf
  · obtain ⟨fresh, h1, h2, h3, h4, hfresh⟩ := reinsert_spec p g saved.coll
    generalize hr : reinsert p g saved.coll = r at *
    have hs' : Owned r.1 saved := h1 ▸ hs.append _
    have hg' : Owned r.1 g := h1 ▸ hg.append _
    obtain ⟨ms, h5, _, h7⟩ := mapM_remap (p := p) (q := r.1) (m := r.2.2)
      (expected := r.2.2.map Prod.fst) saved.nodes
      (by
        intro n hn hp
        obtain ⟨f, hf⟩ := hs.nodes n hn hp
        have hc := hs.coll _ _ hf
        obtain ⟨u, hu1, hu2⟩ := newToken_spec h4 (t := n.token) (f := f) (by
          intro f' hf'
          have := hs.coll _ _ hf'
          rw [hc] at this
          exact (Option.some.inj this).symm) hf
        exact ⟨u, hu1, by rw [hu2, hc]⟩)
    have hm : r.2.2 ≠ [] := by
      intro hm
      rw [hm] at h4
      cases hc : saved.coll with
      | nil => exact he hc
      | cons a l => rw [hc] at h4; cases h4
    simp only [loadV1, register, he, if_false, hr, hm, Bool.false_eq_true, h5] at hl ⊢
    cases hl
    rw [h2]
    refine ⟨?_, ?_⟩
    · intro t f hm
      simp only [List.append_assoc, List.mem_append] at hm
      rcases hm with hm | hm | hm
      · exact hg'.coll t f hm
      · exact h3 _ hm
      · exact hs'.coll t f hm
    · intro n hn hp
      simp only [List.append_assoc, List.mem_append, List.mem_map] at hn
      rcases hn with hn | ⟨e, hn, rfl⟩ | hn
      · obtain ⟨f, hf⟩ := hg'.nodes n hn hp
        exact ⟨f, by simp [hf]⟩
      · exact ⟨e.2, by simp [hn]⟩
      · obtain ⟨a, ha, hat⟩ := h7 n hn hp
        have : a.2 ∈ fresh.map Prod.fst := by rw [← hfresh]; exact List.mem_map_of_mem ha
        obtain ⟨e, he', hea⟩ := List.mem_map.1 this
        exact ⟨e.2, by rw [hat, ← hea]; simp [he']⟩

/-- What one process does with graphs: it makes an empty graph, applies a function in one of its graphs
(`k`), or loads what it saved of one graph (`j`) into another (`k`); a failing step stops it. -/
inductive Step : Proc F × List (Graph F) → Proc F × List (Graph F) → Prop
  | new {p gs} : Step (p, gs) (p, gs ++ [Graph.empty])
  | insert {p : Proc F} {gs : List (Graph F)} {k : Nat} {g g' : Graph F} {f : F} {n : Nat} : gs[k]? = some g →
      (insertPyfunc p g f n).2 = .ok g' → Step (p, gs) ((insertPyfunc p g f n).1, gs ++ [g'])
  | load {p : Proc F} {gs : List (Graph F)} {j k : Nat} {saved g g' : Graph F} : gs[j]? = some saved → gs[k]? = some g →
      (loadV1 p g saved).2 = .ok g' → Step (p, gs) ((loadV1 p g saved).1, gs ++ [g'])

/-- Any number of steps of one process that starts without graphs. -/
inductive History : Proc F × List (Graph F) → Prop
  | start (p : Proc F) : History (p, [])
  | step {s s' : Proc F × List (Graph F)} : History s → Step s s' → History s'

theorem loadV1_proc (p : Proc F) (g saved : Graph F) : ∃ q, (loadV1 p g saved).1 = p ++ q := by
  by_cases he : saved.coll = []
  · exact ⟨[], by simp [loadV1, register, he]⟩
  · obtain ⟨_, h1, _⟩ := reinsert_spec p g saved.coll
    exact ⟨_, by simp only [loadV1, register, he, if_false]; exact h1⟩

/-- **C47** Within one process a graph may be saved and loaded any number of times, mixed with other
graphs: after every history the functions of every graph are those of the process, so by
`load_v1_same_functions` and `load_v2_same_functions` every further load, in any process, keeps what every
node calls. -/
theorem history_owned {s : Proc F × List (Graph F)} (h : History s) : ∀ g ∈ s.2, Owned s.1 g := by
  induction h with
  | start p => simp
  | @step s s' _ hst ih =>
    cases hst with
    | new =>
      intro g hg
      rcases List.mem_append.1 hg with hg | hg
      · exact ih g hg
      · simp only [List.mem_singleton] at hg
        subst hg
        exact ⟨by simp [Graph.empty], by simp [Graph.empty]⟩
    | @insert p gs k g g' f n hk hi =>
      intro g2 hg2
      rcases List.mem_append.1 hg2 with hg2 | hg2
      · exact (ih g2 hg2).append [f]
      · simp only [List.mem_singleton] at hg2
        subst hg2
        exact insert_owned (ih g (List.mem_of_getElem? hk)) f n hi
    | @load p gs j k saved g g' hj hk hl =>
      intro g2 hg2
      rcases List.mem_append.1 hg2 with hg2 | hg2
      · obtain ⟨q, hq⟩ := loadV1_proc p g saved
        show Owned (loadV1 p g saved).1 g2
        rw [hq]
        exact (ih g2 hg2).append q
      · simp only [List.mem_singleton] at hg2
        subst hg2
        exact load_same_process_owned (ih g (List.mem_of_getElem? hk)) (ih saved (List.mem_of_getElem? hj)) hl

/-! ## Limits and non-vacuity -/

/-- A graph with two functions, made in a new process. -/
def twoFunctions : Graph String := ⟨[⟨true, 0⟩, ⟨true, 1⟩], [], [(0, "f"), (1, "g")]⟩

/-- The graph is reachable and meets the hypotheses. -/
example : History (["f", "g"], [Graph.empty, ⟨[⟨true, 0⟩], [], [(0, "f")]⟩, twoFunctions])
    ∧ Owned ["f", "g"] twoFunctions := by
  refine ⟨.step (.step (.step (.start []) .new) (.insert (k := 0) (f := "f") (n := 1) rfl rfl))
    (.insert (k := 1) (f := "g") (n := 1) rfl rfl), ?_, ?_⟩
  · intro t f h
    simp only [twoFunctions, List.mem_cons, Prod.mk.injEq, List.not_mem_nil, or_false] at h
    rcases h with ⟨rfl, rfl⟩ | ⟨rfl, rfl⟩ <;> rfl
  · simp [twoFunctions]

/-- **C47, negative** Saved in one process, loaded and saved in a second one, and loaded again: the
collection now has entries with the tokens of both processes, and a node can call another function. Here
the second process had already registered one function; the node of `f` ends up calling `g`. -/
theorem second_generation_wrong_function :
    ∃ (g1 g2 : Graph String) (p2 p3 : Proc String),
      loadV1 ["other"] .empty twoFunctions = (p2, .ok g1) ∧ loadV1 [] .empty g1 = (p3, .ok g2)
        ∧ ∃ i n1 n2, g1.nodes[i]? = some n1 ∧ calls p2 n1.token = some "f"
          ∧ g2.nodes[4 + i]? = some n2 ∧ calls p3 n2.token = some "g" := by
  refine ⟨_, _, _, _, rfl, rfl, 2, _, _, rfl, rfl, rfl, rfl⟩

/-- **C47, negative** In TF2 a node whose function was not saved is accepted, and calls another function,
if its token happens to be one of the new tokens. -/
theorem tf2_unsaved_function_accepted :
    ∃ (p : Proc String) (ns : List Node),
      loadV2 ["other"] ⟨[⟨true, 0⟩, ⟨true, 1⟩], [], [(0, "f")]⟩ = (p, .ok ns)
        ∧ ns[1]? = some ⟨true, 1⟩ ∧ calls p 1 = some "f" := by
  refine ⟨_, _, rfl, rfl, rfl⟩

/-- **C47, negative** If no function at all was saved, a py_func node is not checked: loading succeeds and
the node keeps its old token, whatever that means in the process. -/
theorem no_collection_not_checked (q : Proc F) (g : Graph F) (n : Node) :
    loadV1 q g ⟨[n], [], []⟩ = (q, .ok ⟨g.nodes ++ [n], g.library, g.coll⟩) := by
  simp [loadV1, register]

/-- **C47, negative** Nodes inside functions of the graph (bodies of loops, of dataset transformations)
keep their old tokens, even when the functions were saved. -/
theorem library_not_remapped (q : Proc F) (g saved : Graph F) (q' : Proc F) (g' : Graph F)
    (h : loadV1 q g saved = (q', .ok g')) : ∃ l, g'.library = l ++ saved.library := by
  by_cases he : saved.coll = []
  · simp [loadV1, register, he] at h
    rw [← h.2]; exact ⟨g.library, rfl⟩
  · simp only [loadV1, register, he, if_false] at h
    split at h
    · simp at h
    · simp only [Prod.mk.injEq, Except.ok.injEq] at h
      rw [← h.2]; exact ⟨_, rfl⟩
    · simp only [Prod.mk.injEq, Except.ok.injEq] at h
      rw [← h.2]; exact ⟨_, rfl⟩

/-- A py_func inside a loop body that calls `g` after loading although `f` was saved for it. -/
example : ∃ g' p, loadV1 ["g"] .empty ⟨[], [⟨true, 0⟩], [(0, "f")]⟩ = (p, .ok g')
    ∧ g'.library = [⟨true, 0⟩] ∧ calls p 0 = some "g" := ⟨_, _, rfl, rfl, rfl⟩

end TFT.PyFunc
