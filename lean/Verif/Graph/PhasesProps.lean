import Verif.Graph.Phases
import Verif.Graph.TraverseProps

/-!
# Properties of the phases of an analysis (C34)
-/

set_option linter.unusedSectionVars false

namespace TFT.Graph.Phases

open TFT.Graph.Spec

theorem exists_left_of_forall₂ {α β : Type} {R : α → β → Prop} {l : List α} {m : List β}
    (h : List.Forall₂ R l m) {b : β} (hb : b ∈ m) : ∃ a ∈ l, R a b := by
  induction h with
  | nil => simp at hb
  | cons hab _ ih =>
    rcases List.mem_cons.1 hb with rfl | hb
    · exact ⟨_, by simp, hab⟩
    · obtain ⟨a, ha, h⟩ := ih hb
      exact ⟨a, by simp [ha], h⟩

section Visitor
variable {Op T : Type}

/-- What the calls of the ready visitor returned. -/
theorem proper_ready {label : Op → String} {tensors : Op → Option (List T)} {g : OpGraph Op}
    {readyToRun : T → Bool}
    (hsrc : ∀ o ts, tensors o = some ts → g.inputs o = [])
    {calls : List (Call Op Bool)}
    (h : Proper g (readyVisitor label tensors g.numOutputs readyToRun) calls) :
    ∀ c ∈ calls, ∀ b ∈ c.outs, (b = true ↔
      ∀ o ts t, Reach g c.op o → tensors o = some ts → t ∈ ts → readyToRun t = true) := by
  induction h with
  | nil => simp
  | @snoc calls op ins outs hp hnew hins hv hlen ih =>
    intro c hc b hb
    rcases List.mem_append.1 hc with hc | hc
    · exact ih c hc b hb
    · have := List.mem_singleton.1 hc
      subst this
      simp only [readyVisitor] at hv
      split at hv
      · cases hv
      · simp only [Except.ok.injEq] at hv
        subst hv
        have hb' := (List.mem_replicate.1 hb).2
        subst hb'
        cases hts : tensors op with
        | some ts =>
          simp only [List.all_eq_true]
          have hnone : ∀ o, Reach g op o → o = op := by
            intro o ho
            rcases Relation.ReflTransGen.cases_head ho with h | ⟨p, ⟨i, hi⟩, _⟩
            · exact h.symm
            · rw [hsrc op ts hts] at hi; simp at hi
          constructor
          · intro h o ts' t ho ht' htm
            rw [hnone o ho, hts] at ht'
            cases ht'
            exact h t htm
          · intro h t ht
            exact h op ts t .refl hts ht
        | none =>
          simp only [List.all_eq_true]
          constructor
          · intro h o ts t ho ht htm
            rcases Relation.ReflTransGen.cases_head ho with h0 | ⟨p, ⟨i, hi⟩, hpo⟩
            · subst h0
              rw [hts] at ht; cases ht
            · obtain ⟨x, hx, d, hd, hdo, hdx⟩ := exists_of_forall₂ hins hi
              have := ih d hd x (List.mem_of_getElem? hdx)
              rw [hdo] at this
              exact this.1 (h x hx) o ts t hpo ht htm
          · intro h x hx
            obtain ⟨n, hn, d, hd, hdo, hdx⟩ : ∃ n ∈ g.inputs op, Produced calls n x := by
              exact exists_left_of_forall₂ hins hx
            refine (ih d hd x (List.mem_of_getElem? hdx)).2 ?_
            intro o ts t ho ht htm
            rw [hdo] at ho
            exact h o ts t (.head ⟨n.2, hn⟩ ho) ht htm

/-- **C34** A value node is found ready exactly if all tensors of all `TensorSource`s it depends on
are ready to run, for every operation graph and every list of requests. -/
theorem ready_visitor_exact [DecidableEq Op] [Fintype Op] (label : Op → String)
    (tensors : Op → Option (List T)) (g : OpGraph Op) (hg : WellFormed g)
    (readyToRun : T → Bool) (hsrc : ∀ o ts, tensors o = some ts → g.inputs o = [])
    (requests : List (Op × Nat)) (hr : ∀ r ∈ requests, r.2 < g.numOutputs r.1)
    (st : St Op Bool) (values : List Bool)
    (h : traverse g (readyVisitor label tensors g.numOutputs readyToRun) requests
      = .ok (st, values)) :
    List.Forall₂ (fun r b => b = true ↔
      ∀ o ts t, Reach g r.1 o → tensors o = some ts → t ∈ ts → readyToRun t = true)
      requests values := by
  obtain ⟨h1, _, h3⟩ := traverse_spec g hg _ requests hr st values h
  refine h3.imp ?_
  rintro r b ⟨c, hc, hco, hcb⟩
  rw [← hco]
  exact proper_ready hsrc h1 c hc b (List.mem_of_getElem? hcb)

end Visitor

variable {S : Type} [DecidableEq S]

theorem runPhase_ready (isReady : S → Bool) (phase : Nat) (sinks : List S) (st : State S) (t : S) :
    (runPhase isReady phase sinks st).ready t = true ↔
      st.ready t = true ∨ (t ∈ sinks ∧ isReady t = true) := by
  induction sinks generalizing st with
  | nil => simp [runPhase]
  | cons s sinks ih =>
    unfold runPhase
    by_cases h1 : st.ready s = true
    · rw [if_pos h1, ih]
      constructor
      · rintro (h | ⟨h, h'⟩)
        · exact Or.inl h
        · exact Or.inr ⟨by simp [h], h'⟩
      · rintro (h | ⟨h, h'⟩)
        · exact Or.inl h
        · rcases List.mem_cons.1 h with rfl | h
          · exact Or.inl h1
          · exact Or.inr ⟨h, h'⟩
    · rw [if_neg h1]
      by_cases h2 : isReady s = true
      · rw [if_neg (by simp [h2]), ih]
        by_cases hts : t = s
        · subst hts; simp [h2]
        · simp [hts]
      · rw [if_pos (by simpa using h2), ih]
        constructor
        · rintro (h | ⟨h, h'⟩)
          · exact Or.inl h
          · exact Or.inr ⟨by simp [h], h'⟩
        · rintro (h | ⟨h, h'⟩)
          · exact Or.inl h
          · rcases List.mem_cons.1 h with rfl | h
            · exact absurd h' h2
            · exact Or.inr ⟨h, h'⟩

theorem runPhase_log (isReady : S → Bool) (phase : Nat) (sinks : List S) (st : State S)
    (hnd : sinks.Nodup) :
    (runPhase isReady phase sinks st).log =
      st.log ++ (sinks.filter (fun s => !st.ready s && isReady s)).map (fun s => (s, phase)) := by
  induction sinks generalizing st with
  | nil => simp [runPhase]
  | cons s sinks ih =>
    obtain ⟨hs, hnd'⟩ := List.nodup_cons.1 hnd
    unfold runPhase
    by_cases h1 : st.ready s = true
    · rw [if_pos h1, ih _ hnd', List.filter_cons_of_neg (by simp [h1])]
    · rw [if_neg h1]
      by_cases h2 : isReady s = true
      · rw [if_neg (by simp [h2]), ih _ hnd', List.filter_cons_of_pos (by simp [h1, h2])]
        have : sinks.filter (fun t => !(if t = s then true else st.ready t) && isReady t)
            = sinks.filter (fun t => !st.ready t && isReady t) := by
          apply List.filter_congr
          intro t ht
          rw [if_neg]
          rintro rfl
          exact hs ht
        simp only [this, List.map_cons, List.append_assoc, List.singleton_append]
      · rw [if_pos (by simpa using h2), ih _ hnd', List.filter_cons_of_neg (by simp [h2])]

/-- What holds before phase `k`. -/
structure Inv (Dep : S → S → Prop) (sinks : List S) (k : Nat) (st : State S) : Prop where
  ready : ∀ s, st.ready s = true ↔ ∃ p, (s, p) ∈ st.log
  phase : ∀ e ∈ st.log, e.1 ∈ sinks ∧ e.2 < k
  nodup : (st.log.map (fun e => e.1)).Nodup
  later : ∀ e ∈ st.log, ∀ t, Dep e.1 t → ∃ q < e.2, (t, q) ∈ st.log
  first : ∀ e ∈ st.log, e.2 = 0 ∨ ∃ t, Dep e.1 t ∧ (t, e.2 - 1) ∈ st.log
  waiting : ∀ s ∈ sinks, st.ready s = false →
    k = 0 ∨ ∃ t, Dep s t ∧ ∀ p, (t, p) ∈ st.log → p + 1 = k

theorem inv_phase {Dep : S → S → Prop} {isReady : (S → Bool) → S → Bool} {sinks : List S}
    (hnd : sinks.Nodup)
    (hready : ∀ R s, s ∈ sinks → (isReady R s = true ↔ ∀ t, Dep s t → R t = true))
    {k : Nat} {st : State S} (h : Inv Dep sinks k st) :
    Inv Dep sinks (k + 1) (runPhase (isReady st.ready) k sinks st) := by
  have hlog := runPhase_log (isReady st.ready) k sinks st hnd
  have hmem : ∀ s p, (s, p) ∈ (runPhase (isReady st.ready) k sinks st).log ↔
      (s, p) ∈ st.log ∨ (p = k ∧ s ∈ sinks ∧ st.ready s = false ∧ ∀ t, Dep s t → st.ready t = true) := by
    intro s p
    rw [hlog, List.mem_append, List.mem_map]
    constructor
    · rintro (h | ⟨a, ha, he⟩)
      · exact Or.inl h
      · obtain ⟨ha1, ha2⟩ := List.mem_filter.1 ha
        cases he
        simp only [Bool.and_eq_true, Bool.not_eq_true'] at ha2
        exact Or.inr ⟨rfl, ha1, ha2.1, (hready _ _ ha1).1 ha2.2⟩
    · rintro (h | ⟨rfl, h1, h2, h3⟩)
      · exact Or.inl h
      · exact Or.inr ⟨s, List.mem_filter.2 ⟨h1, by simp [h2, (hready _ _ h1).2 h3]⟩, rfl⟩
  refine ⟨?_, ?_, ?_, ?_, ?_, ?_⟩
  · intro s
    rw [runPhase_ready]
    constructor
    · rintro (h1 | ⟨h1, h2⟩)
      · obtain ⟨p, hp⟩ := (h.ready s).1 h1
        exact ⟨p, (hmem s p).2 (Or.inl hp)⟩
      · by_cases h3 : st.ready s = true
        · obtain ⟨p, hp⟩ := (h.ready s).1 h3
          exact ⟨p, (hmem s p).2 (Or.inl hp)⟩
        · exact ⟨k, (hmem s k).2 (Or.inr ⟨rfl, h1, by simpa using h3, (hready _ _ h1).1 h2⟩)⟩
    · rintro ⟨p, hp⟩
      rcases (hmem s p).1 hp with h1 | ⟨_, h1, _, h3⟩
      · exact Or.inl ((h.ready s).2 ⟨p, h1⟩)
      · exact Or.inr ⟨h1, (hready _ _ h1).2 h3⟩
  · rintro ⟨s, p⟩ he
    rcases (hmem s p).1 he with h1 | ⟨rfl, h1, _, _⟩
    · exact ⟨(h.phase _ h1).1, by have := (h.phase _ h1).2; omega⟩
    · exact ⟨h1, by simp⟩
  · rw [hlog, List.map_append, List.nodup_append]
    refine ⟨h.nodup, ?_, ?_⟩
    · rw [List.map_map]
      have : ((fun e : S × Nat => e.1) ∘ fun s => (s, k)) = id := rfl
      rw [this, List.map_id]
      exact hnd.filter _
    · intro a ha b hb hab
      subst hab
      obtain ⟨e, he, rfl⟩ := List.mem_map.1 ha
      obtain ⟨e', he', hee⟩ := List.mem_map.1 hb
      obtain ⟨s, hs, rfl⟩ := List.mem_map.1 he'
      obtain ⟨_, hs2⟩ := List.mem_filter.1 hs
      simp only [Bool.and_eq_true, Bool.not_eq_true'] at hs2
      simp only at hee
      have := (h.ready e.1).2 ⟨e.2, he⟩
      rw [← hee, hs2.1] at this
      cases this
  · rintro ⟨s, p⟩ he t hd
    rcases (hmem s p).1 he with h1 | ⟨rfl, h1, _, h3⟩
    · obtain ⟨q, hq, hm⟩ := h.later _ h1 t hd
      exact ⟨q, hq, (hmem t q).2 (Or.inl hm)⟩
    · obtain ⟨q, hq⟩ := (h.ready t).1 (h3 t hd)
      exact ⟨q, (h.phase _ hq).2, (hmem t q).2 (Or.inl hq)⟩
  · rintro ⟨s, p⟩ he
    rcases (hmem s p).1 he with h1 | ⟨rfl, h1, h2, h3⟩
    · rcases h.first _ h1 with h4 | ⟨t, hd, hm⟩
      · exact Or.inl h4
      · exact Or.inr ⟨t, hd, (hmem _ _).2 (Or.inl hm)⟩
    · rcases h.waiting s h1 h2 with h4 | ⟨t, hd, hq⟩
      · exact Or.inl h4
      · right
        obtain ⟨q, hm⟩ := (h.ready t).1 (h3 t hd)
        have hqk := hq q hm
        refine ⟨t, hd, (hmem _ _).2 (Or.inl ?_)⟩
        have : p - 1 = q := by omega
        simp only [this]
        exact hm
  · intro s hs hnr
    right
    have hnr' : ¬ (st.ready s = true ∨ (s ∈ sinks ∧ isReady st.ready s = true)) := by
      rw [← runPhase_ready, hnr]; simp
    have hno : ¬ ∀ t, Dep s t → st.ready t = true := by
      intro h
      exact hnr' (Or.inr ⟨hs, (hready _ _ hs).2 h⟩)
    push Not at hno
    obtain ⟨t, hd, ht⟩ := hno
    refine ⟨t, hd, ?_⟩
    intro p hp
    rcases (hmem t p).1 hp with h1 | ⟨rfl, _⟩
    · exact absurd ((h.ready t).2 ⟨p, h1⟩) (by simpa using ht)
    · rfl

theorem inv_initial (Dep : S → S → Prop) (sinks : List S) : Inv Dep sinks 0 (initial : State S) where
  ready := by simp [initial]
  phase := by simp [initial]
  nodup := by simp [initial]
  later := by simp [initial]
  first := by simp [initial]
  waiting := fun _ _ _ => Or.inl rfl

/-- The log never grows beyond the sinks. -/
theorem Inv.log_length {Dep : S → S → Prop} {sinks : List S} {k : Nat} {st : State S}
    (h : Inv Dep sinks k st) : st.log.length ≤ sinks.length := by
  have := (List.subperm_of_subset h.nodup (l₂ := sinks) (by
    intro s hs
    obtain ⟨e, he, rfl⟩ := List.mem_map.1 hs
    exact (h.phase e he).1)).length_le
  simpa using this

theorem phase_progress {Dep : S → S → Prop} {isReady : (S → Bool) → S → Bool} {sinks : List S}
    (hnd : sinks.Nodup)
    (hready : ∀ R s, s ∈ sinks → (isReady R s = true ↔ ∀ t, Dep s t → R t = true))
    (hclosed : ∀ s ∈ sinks, ∀ t, Dep s t → t ∈ sinks)
    (hac : ∀ s, ¬ Relation.TransGen Dep s s)
    {k : Nat} {st : State S} (hall : sinks.all st.ready = false) :
    st.log.length < (runPhase (isReady st.ready) k sinks st).log.length := by
  -- a sink that is not ready and waits for nothing
  obtain ⟨s, hs, hsr, hsd⟩ : ∃ s ∈ sinks, st.ready s = false ∧ ∀ t, Dep s t → st.ready t = true := by
    by_contra hno
    push Not at hno
    obtain ⟨s0, hs0, hs0r⟩ : ∃ s ∈ sinks, st.ready s = false := by
      simpa using hall
    -- follow the unready dependencies through more sinks than there are
    have chain : ∀ n, ∃ l : List S, l.length = n + 1 ∧ (∀ s ∈ l, s ∈ sinks ∧ st.ready s = false) ∧
        l.Pairwise (fun a b => Relation.TransGen Dep b a) := by
      intro n
      induction n with
      | zero => exact ⟨[s0], rfl, by simp [hs0, hs0r], by simp⟩
      | succ n ih =>
        obtain ⟨l, hl, hm, hp⟩ := ih
        cases l with
        | nil => simp at hl
        | cons a l =>
          obtain ⟨ha, har⟩ := hm a (by simp)
          obtain ⟨t, hd, ht⟩ := hno a ha har
          refine ⟨t :: a :: l, by simpa using hl, ?_, ?_⟩
          · intro s hs
            rcases List.mem_cons.1 hs with rfl | hs
            · exact ⟨hclosed a ha s hd, by simpa using ht⟩
            · exact hm s hs
          · refine List.pairwise_cons.2 ⟨?_, hp⟩
            intro b hb
            rcases List.mem_cons.1 hb with rfl | hb
            · exact .single hd
            · exact ((List.pairwise_cons.1 hp).1 b hb).tail hd
    obtain ⟨l, hl, hm, hp⟩ := chain sinks.length
    have hnd' : l.Nodup := hp.imp (fun {a b} hab => by
      rintro rfl
      exact hac a hab)
    have := (List.subperm_of_subset hnd' (fun s hs => (hm s hs).1)).length_le
    omega
  rw [runPhase_log _ _ _ _ hnd, List.length_append, List.length_map]
  have : 0 < (sinks.filter (fun s => !st.ready s && isReady st.ready s)).length := by
    apply List.length_pos_of_mem (a := s)
    exact List.mem_filter.2 ⟨hs, by simp [hsr, (hready _ _ hs).2 hsd]⟩
  omega

theorem loop_end {Dep : S → S → Prop} {isReady : (S → Bool) → S → Bool} {sinks : List S}
    (hnd : sinks.Nodup)
    (hready : ∀ R s, s ∈ sinks → (isReady R s = true ↔ ∀ t, Dep s t → R t = true))
    (hclosed : ∀ s ∈ sinks, ∀ t, Dep s t → t ∈ sinks)
    (hac : ∀ s, ¬ Relation.TransGen Dep s s) (fuel : Nat) :
    ∀ k st, Inv Dep sinks k st → sinks.length ≤ st.log.length + fuel →
      ∃ st' k', phaseLoop isReady sinks fuel k st = some st' ∧ Inv Dep sinks k' st' ∧
        sinks.all st'.ready = true ∧ k' ≤ k + fuel := by
  induction fuel with
  | zero =>
    intro k st h hlen
    unfold phaseLoop
    cases hall : sinks.all st.ready with
    | true => exact ⟨st, k, by simp, h, hall, by omega⟩
    | false =>
      have h1 := phase_progress hnd hready hclosed hac (k := k) hall
      have h2 := (inv_phase hnd hready h).log_length
      omega
  | succ fuel ih =>
    intro k st h hlen
    unfold phaseLoop
    cases hall : sinks.all st.ready with
    | true => exact ⟨st, k, by simp, h, hall, by omega⟩
    | false =>
      have h1 := phase_progress hnd hready hclosed hac (k := k) hall
      obtain ⟨st', k', h2, h3, h4, h5⟩ := ih (k + 1) _ (inv_phase hnd hready h) (by omega)
      exact ⟨st', k', by simpa using h2, h3, h4, by omega⟩

/-- **C34** For every finite set of analyzers (`sinks`) with acyclic dependencies the phase loop
ends after at most as many phases as there are analyzers; then every analyzer was evaluated
exactly once; and the phase of each is the documented level: all analyzers it depends on were
evaluated in strictly earlier phases, and it was not postponed (it is in phase 0 or depends on one
of the preceding phase). -/
theorem phases_spec (Dep : S → S → Prop) (isReady : (S → Bool) → S → Bool) (sinks : List S)
    (hnd : sinks.Nodup)
    (hready : ∀ R s, s ∈ sinks → (isReady R s = true ↔ ∀ t, Dep s t → R t = true))
    (hclosed : ∀ s ∈ sinks, ∀ t, Dep s t → t ∈ sinks)
    (hac : ∀ s, ¬ Relation.TransGen Dep s s) :
    ∃ st, phaseLoop isReady sinks sinks.length 0 initial = some st ∧
      (st.log.map (fun e => e.1)).Perm sinks ∧
      (∀ e ∈ st.log, e.2 < sinks.length) ∧
      (∀ e ∈ st.log, ∀ t, Dep e.1 t → ∃ q < e.2, (t, q) ∈ st.log) ∧
      (∀ e ∈ st.log, e.2 = 0 ∨ ∃ t, Dep e.1 t ∧ (t, e.2 - 1) ∈ st.log) := by
  obtain ⟨st, k, h1, h2, h3, h4⟩ := loop_end hnd hready hclosed hac sinks.length 0 initial
    (inv_initial Dep sinks) (by simp)
  refine ⟨st, h1, ?_, ?_, h2.later, h2.first⟩
  · rw [List.perm_ext_iff_of_nodup h2.nodup hnd]
    intro s
    constructor
    · intro hs
      obtain ⟨e, he, rfl⟩ := List.mem_map.1 hs
      exact (h2.phase e he).1
    · intro hs
      obtain ⟨p, hp⟩ := (h2.ready s).1 (List.all_eq_true.1 h3 s hs)
      exact List.mem_map.2 ⟨(s, p), hp, rfl⟩
  · intro e he
    have := (h2.phase e he).2
    omega

/-- **C34** The hypothesis of acyclicity is needed: if an analyzer depended on itself, through
others or directly, the loop would never end. -/
theorem phases_diverge_on_cycle (Dep : S → S → Prop) (isReady : (S → Bool) → S → Bool)
    (sinks : List S) (hnd : sinks.Nodup)
    (hready : ∀ R s, s ∈ sinks → (isReady R s = true ↔ ∀ t, Dep s t → R t = true))
    (s : S) (hs : s ∈ sinks) (hcyc : Relation.TransGen Dep s s) (fuel : Nat) :
    phaseLoop isReady sinks fuel 0 initial = none := by
  have hnot : ∀ k st, Inv Dep sinks k st → ¬ sinks.all st.ready = true := by
    intro k st h hall
    obtain ⟨p, hp⟩ := (h.ready s).1 (List.all_eq_true.1 hall s hs)
    have : ∀ a b, Relation.TransGen Dep a b → ∀ p, (a, p) ∈ st.log → ∃ q < p, (b, q) ∈ st.log := by
      intro a b hab
      induction hab with
      | single hd => intro p hp; exact h.later _ hp _ hd
      | tail _ hd ih =>
        intro p hp
        obtain ⟨q, hq, hm⟩ := ih p hp
        obtain ⟨q', hq', hm'⟩ := h.later _ hm _ hd
        exact ⟨q', by simp only at hq'; omega, hm'⟩
    -- the phases of `s` would decrease forever
    have desc : ∀ n p, p ≤ n → (s, p) ∈ st.log → False := by
      intro n
      induction n with
      | zero =>
        intro p hpn hp
        obtain ⟨q, hq, _⟩ := this s s hcyc p hp
        omega
      | succ n ih =>
        intro p hpn hp
        obtain ⟨q, hq, hm⟩ := this s s hcyc p hp
        exact ih q (by omega) hm
    exact desc p p le_rfl hp
  have key : ∀ fuel k st, Inv Dep sinks k st → phaseLoop isReady sinks fuel k st = none := by
    intro fuel
    induction fuel with
    | zero =>
      intro k st h
      unfold phaseLoop
      rw [if_neg (hnot k st h)]
    | succ fuel ih =>
      intro k st h
      unfold phaseLoop
      rw [if_neg (hnot k st h)]
      exact ih (k + 1) _ (inv_phase hnd hready h)
  exact key fuel 0 _ (inv_initial Dep sinks)

/-! ### The hypotheses are met -/

/-- Three analyzers: 2 depends on 0 and 1, 1 depends on 0. -/
def chainDeps : Fin 3 → List (Fin 3) := ![[], [0], [0, 1]]

def chainReady (R : Fin 3 → Bool) (s : Fin 3) : Bool := (chainDeps s).all R

example : ∃ st, phaseLoop chainReady [2, 0, 1] 3 0 initial = some st ∧
    st.log = [(0, 0), (1, 1), (2, 2)] := by
  obtain ⟨st, h, _⟩ := phases_spec (fun s t => t ∈ chainDeps s) chainReady [2, 0, 1] (by decide)
    (fun R s _ => by simp [chainReady]) (by decide) (by
      have hdep : ∀ a b, b ∈ chainDeps a → b < a := by decide
      have : ∀ a b, Relation.TransGen (fun s t => t ∈ chainDeps s) a b → b < a := by
        intro a b h
        induction h with
        | single h => exact hdep _ _ h
        | tail _ h ih => exact lt_trans (hdep _ _ h) ih
      exact fun s h => lt_irrefl _ (this _ _ h))
  refine ⟨st, h, ?_⟩
  have : (phaseLoop chainReady [2, 0, 1] 3 0 initial).map (fun st => st.log)
      = some [(0, 0), (1, 1), (2, 2)] := by decide
  rw [List.length_cons, List.length_cons, List.length_cons, List.length_nil] at h
  rw [h] at this
  simpa using this

example : ∀ fuel, phaseLoop (fun R (s : Fin 2) => R (1 - s)) [0, 1] fuel 0 initial = none :=
  phases_diverge_on_cycle (fun s t => t = 1 - s) _ [0, 1] (by decide) (fun R s _ => by simp) 0
    (by simp) (.tail (b := 1) (.single (by decide)) (by decide))

/-- A `TensorSource` 0 with two tensors, read by an operation 1 with two outputs. -/
example : ∃ st values, traverse ⟨![[], [(0, 0)]], ![1, 2]⟩
      (readyVisitor ![ "source", "cache" ] ![some ["x", "y"], none] ![1, 2] (fun t => t == "x"))
      [((1 : Fin 2), 1)] = .ok (st, values) ∧ values = [false] := by
  simp [traverse, visitValueNodes, visitOperation, readyVisitor, storeOutputs, bind, Except.bind]

end TFT.Graph.Phases
