import Verif.Graph.Ready

/-!
# Lemmas about the readiness analysis: the loop is a depth first search
-/

set_option linter.unusedSectionVars false

namespace TFT.Graph.Ready

variable {N P : Type} [DecidableEq N]

/-- The depth first search that the loop performs. -/
inductive Analyzer.Eval (g : Analyzer N P) : Finset N → Memo N P → List N → Memo N P → Prop where
  | nil {path memo} : g.Eval path memo [] memo
  | hit {path memo x xs r m'} : memo x = some r → g.Eval path memo xs m' →
      g.Eval path memo (x :: xs) m'
  | miss {path memo x xs all m1 rs r m'} : memo x = none → x ∉ path → g.getParents x = .ok all →
      g.Eval (insert x path) memo (all.filter (fun p => p ∉ insert x path)).reverse m1 →
      lookupAll m1 (all.filter (fun p => p ∉ insert x path)) = some rs →
      g.compute x rs = .ok r →
      g.Eval path (Function.update m1 x (some r)) xs m' → g.Eval path memo (x :: xs) m'

/-- The searches that end with an exception. -/
inductive Analyzer.EvalErr (g : Analyzer N P) : Finset N → Memo N P → List N → Err → Prop where
  | hit {path memo x xs r e} : memo x = some r → g.EvalErr path memo xs e →
      g.EvalErr path memo (x :: xs) e
  | parents {path memo x xs e} : memo x = none → x ∉ path → g.getParents x = .error e →
      g.EvalErr path memo (x :: xs) e
  | inner {path memo x xs all e} : memo x = none → x ∉ path → g.getParents x = .ok all →
      g.EvalErr (insert x path) memo (all.filter (fun p => p ∉ insert x path)).reverse e →
      g.EvalErr path memo (x :: xs) e
  | compute {path memo x xs all m1 rs e} : memo x = none → x ∉ path → g.getParents x = .ok all →
      g.Eval (insert x path) memo (all.filter (fun p => p ∉ insert x path)).reverse m1 →
      lookupAll m1 (all.filter (fun p => p ∉ insert x path)) = some rs →
      g.compute x rs = .error e → g.EvalErr path memo (x :: xs) e
  | later {path memo x xs all m1 rs r e} : memo x = none → x ∉ path → g.getParents x = .ok all →
      g.Eval (insert x path) memo (all.filter (fun p => p ∉ insert x path)).reverse m1 →
      lookupAll m1 (all.filter (fun p => p ∉ insert x path)) = some rs →
      g.compute x rs = .ok r →
      g.EvalErr path (Function.update m1 x (some r)) xs e → g.EvalErr path memo (x :: xs) e

theorem lookupAll_some_iff (memo : Memo N P) (ns : List N) (rs : List (Result N P)) :
    lookupAll memo ns = some rs ↔ List.Forall₂ (fun n r => memo n = some r) ns rs := by
  induction ns generalizing rs with
  | nil => cases rs <;> simp [lookupAll]
  | cons n ns ih =>
    unfold lookupAll
    cases hm : memo n with
    | none =>
      constructor
      · intro h; simp at h
      · intro h; cases h with | cons h1 _ => rw [hm] at h1; cases h1
    | some r =>
      cases hl : lookupAll memo ns with
      | none =>
        constructor
        · intro h; simp at h
        · intro h
          cases h with
          | cons h1 h2 => rw [(ih _).2 h2] at hl; cases hl
      | some rs' =>
        constructor
        · intro h
          simp only [Option.some.injEq] at h
          subst h
          exact .cons hm ((ih _).1 hl)
        · intro h
          cases h with
          | cons h1 h2 =>
            rw [hm] at h1
            cases h1
            rw [(ih _).2 h2] at hl
            cases hl
            rfl

theorem lookupAll_isSome {memo : Memo N P} {ns : List N} (h : ∀ n ∈ ns, ∃ r, memo n = some r) :
    ∃ rs, lookupAll memo ns = some rs := by
  induction ns with
  | nil => exact ⟨[], rfl⟩
  | cons n ns ih =>
    obtain ⟨r, hr⟩ := h n (by simp)
    obtain ⟨rs, hrs⟩ := ih (fun m hm => h m (by simp [hm]))
    exact ⟨r :: rs, by simp [lookupAll, hr, hrs]⟩

theorem Analyzer.Eval.keeps {g : Analyzer N P} {path : Finset N} {memo m' : Memo N P}
    {xs : List N} (h : g.Eval path memo xs m') : ∀ n r, memo n = some r → m' n = some r := by
  induction h with
  | nil => exact fun _ _ h => h
  | hit _ _ ih => exact ih
  | @miss path memo x xs all m1 rs r m' hx _ _ _ _ _ _ ih1 ih2 =>
    intro n rn hn
    apply ih2
    rw [Function.update_of_ne]
    · exact ih1 n rn hn
    · rintro rfl
      rw [hx] at hn; cases hn

theorem Analyzer.Eval.path_same {g : Analyzer N P} {path : Finset N} {memo m' : Memo N P}
    {xs : List N} (h : g.Eval path memo xs m') : ∀ n ∈ path, m' n = memo n := by
  induction h with
  | nil => exact fun _ _ => rfl
  | hit _ _ ih => exact ih
  | @miss path memo x xs all m1 rs r m' hx hxp _ _ _ _ _ ih1 ih2 =>
    intro n hn
    rw [ih2 n hn, Function.update_of_ne]
    · exact ih1 n (Finset.mem_insert_of_mem hn)
    · rintro rfl
      exact hxp hn

theorem Analyzer.Eval.memoized {g : Analyzer N P} {path : Finset N} {memo m' : Memo N P}
    {xs : List N} (h : g.Eval path memo xs m') : ∀ n ∈ xs, ∃ r, m' n = some r := by
  induction h with
  | nil => simp
  | @hit path memo x xs r m' hx h ih =>
    intro n hn
    rcases List.mem_cons.1 hn with rfl | hn
    · exact ⟨r, h.keeps _ _ hx⟩
    · exact ih n hn
  | @miss path memo x xs all m1 rs r m' hx hxp _ _ _ _ h2 ih1 ih2 =>
    intro n hn
    rcases List.mem_cons.1 hn with rfl | hn
    · exact ⟨r, h2.keeps _ _ (by rw [Function.update_self])⟩
    · exact ih2 n hn

theorem Analyzer.Eval.of_memoized (g : Analyzer N P) (path : Finset N) (memo : Memo N P)
    (xs : List N) (h : ∀ n ∈ xs, ∃ r, memo n = some r) : g.Eval path memo xs memo := by
  induction xs with
  | nil => exact .nil
  | cons x xs ih =>
    obtain ⟨r, hr⟩ := h x (by simp)
    exact .hit hr (ih (fun n hn => h n (by simp [hn])))

theorem forall₂_left {α β : Type} {R : α → β → Prop} {l : List α} {m : List β}
    (h : List.Forall₂ R l m) : ∀ a ∈ l, ∃ b ∈ m, R a b := by
  induction h with
  | nil => simp
  | cons hab _ ih =>
    intro a ha
    rcases List.mem_cons.1 ha with rfl | ha
    · exact ⟨_, by simp, hab⟩
    · obtain ⟨b, hb, h⟩ := ih a ha
      exact ⟨b, by simp [hb], h⟩

theorem forall₂_right {α β : Type} {R : α → β → Prop} {l : List α} {m : List β}
    (h : List.Forall₂ R l m) : ∀ b ∈ m, ∃ a ∈ l, R a b := by
  induction h with
  | nil => simp
  | cons hab _ ih =>
    intro b hb
    rcases List.mem_cons.1 hb with rfl | hb
    · exact ⟨_, by simp, hab⟩
    · obtain ⟨a, ha, h⟩ := ih b hb
      exact ⟨a, by simp [ha], h⟩

theorem insert_card_lt [Fintype N] (path : Finset N) (x : N) (h : x ∉ path) :
    (insert x path)ᶜ.card < pathᶜ.card := by
  apply Finset.card_lt_card
  rw [Finset.ssubset_iff_of_subset]
  · exact ⟨x, by simp [h], by simp⟩
  · intro o
    simp

/-- The loop performs the depth first search, for every graph, cyclic or not. In particular it
stops. -/
theorem loop_eval [Fintype N] (g : Analyzer N P) : ∀ k, ∀ path : Finset N, pathᶜ.card = k →
    ∀ (xs : List N) (memo : Memo N P), (∀ x ∈ xs, x ∉ path) →
      (∃ m', g.Eval path memo xs m' ∧
        ∃ c, ∀ fuel stack, g.loop (fuel + c) (xs ++ stack) path memo = g.loop fuel stack path m') ∨
      (∃ e, g.EvalErr path memo xs e ∧
        ∃ c, ∀ fuel stack, g.loop (fuel + c) (xs ++ stack) path memo = some (.error e)) := by
  intro k
  induction k using Nat.strong_induction_on with
  | _ k ih =>
    intro path hk xs
    induction xs with
    | nil => intro memo _; left; exact ⟨memo, .nil, 0, fun _ _ => rfl⟩
    | cons x xs ihx =>
      intro memo hxs
      have hrest := fun y (hy : y ∈ xs) => hxs y (by simp [hy])
      have hxp := hxs x (by simp)
      cases hm : memo x with
      | some r =>
        -- already memoized
        have hstep : ∀ fuel stack, g.loop (fuel + 1) ((x :: xs) ++ stack) path memo
            = g.loop fuel (xs ++ stack) path memo := by
          intro fuel stack
          simp [Analyzer.loop, hm]
        rcases ihx memo hrest with ⟨m', h1, c, h2⟩ | ⟨e, h1, c, h2⟩
        · left
          refine ⟨m', .hit hm h1, c + 1, fun fuel stack => ?_⟩
          rw [← Nat.add_assoc, hstep, h2]
        · right
          refine ⟨e, .hit hm h1, c + 1, fun fuel stack => ?_⟩
          rw [← Nat.add_assoc, hstep, h2]
      | none =>
        cases hp : g.getParents x with
        | error e =>
          right
          refine ⟨e, .parents hm hxp hp, 1, fun fuel stack => ?_⟩
          simp [Analyzer.loop, hm, hp]
        | ok all =>
          have herase : (insert x path).erase x = path := Finset.erase_insert hxp
          have hlt := insert_card_lt path x hxp
          rw [hk] at hlt
          -- what one iteration does when all parents are memoized
          have hcomp : ∀ (m1 : Memo N P) (path' : Finset N) rs, insert x path' = insert x path →
              m1 x = none →
              lookupAll m1 (all.filter (fun p => p ∉ insert x path)) = some rs →
              (∀ e, g.compute x rs = .error e → ∀ fuel stack,
                g.loop (fuel + 1) ((x :: xs) ++ stack) path' m1 = some (.error e)) ∧
              (∀ r, g.compute x rs = .ok r → ∀ fuel stack,
                g.loop (fuel + 1) ((x :: xs) ++ stack) path' m1
                  = g.loop fuel (xs ++ stack) path (Function.update m1 x (some r))) := by
            intro m1 path' rs hpath hm1 hl
            constructor
            · intro e he fuel stack
              simp only [List.cons_append, Analyzer.loop, hm1, hp, hpath]
              rw [hl]
              simp [he]
            · intro r hr fuel stack
              simp only [List.cons_append, Analyzer.loop, hm1, hp, hpath]
              rw [hl]
              simp [hr, herase]
          -- the outcome once all parents are memoized in `m1`
          have finish : ∀ (m1 : Memo N P) (path' : Finset N) (c0 : Nat),
              insert x path' = insert x path →
              g.Eval (insert x path) memo (all.filter (fun p => p ∉ insert x path)).reverse m1 →
              (∀ fuel stack, g.loop (fuel + c0) ((x :: xs) ++ stack) path memo
                = g.loop fuel ((x :: xs) ++ stack) path' m1) →
              (∃ m', g.Eval path memo (x :: xs) m' ∧ ∃ c, ∀ fuel stack,
                g.loop (fuel + c) ((x :: xs) ++ stack) path memo = g.loop fuel stack path m') ∨
              (∃ e, g.EvalErr path memo (x :: xs) e ∧ ∃ c, ∀ fuel stack,
                g.loop (fuel + c) ((x :: xs) ++ stack) path memo = some (.error e)) := by
            intro m1 path' c0 hpath hev hc0
            have hm1 : m1 x = none := by
              rw [hev.path_same x (Finset.mem_insert_self _ _), hm]
            obtain ⟨rs, hrs⟩ : ∃ rs,
                lookupAll m1 (all.filter (fun p => p ∉ insert x path)) = some rs :=
              lookupAll_isSome (fun n hn => hev.memoized n (List.mem_reverse.2 hn))
            obtain ⟨herr, hok⟩ := hcomp m1 path' rs hpath hm1 hrs
            cases hcr : g.compute x rs with
            | error e =>
              right
              refine ⟨e, .compute hm hxp hp hev hrs hcr, 1 + c0, fun fuel stack => ?_⟩
              rw [← Nat.add_assoc, hc0, herr e hcr]
            | ok r =>
              rcases ihx (Function.update m1 x (some r)) hrest with
                ⟨m', h1, c, h2⟩ | ⟨e, h1, c, h2⟩
              · left
                refine ⟨m', .miss hm hxp hp hev hrs hcr h1, c + 1 + c0, fun fuel stack => ?_⟩
                rw [← Nat.add_assoc, ← Nat.add_assoc, hc0, hok r hcr, h2]
              · right
                refine ⟨e, .later hm hxp hp hev hrs hcr h1, c + 1 + c0, fun fuel stack => ?_⟩
                rw [← Nat.add_assoc, ← Nat.add_assoc, hc0, hok r hcr, h2]
          cases hl : lookupAll memo (all.filter (fun p => p ∉ insert x path)) with
          | some rs =>
            refine finish memo path 0 rfl ?_ (fun _ _ => rfl)
            apply Analyzer.Eval.of_memoized
            intro n hn
            obtain ⟨r, _, h⟩ := forall₂_left ((lookupAll_some_iff _ _ _).1 hl) n
              (List.mem_reverse.1 hn)
            exact ⟨r, h⟩
          | none =>
            have hstep : ∀ fuel stack, g.loop (fuel + 1) ((x :: xs) ++ stack) path memo
                = g.loop fuel ((all.filter (fun p => p ∉ insert x path)).reverse
                    ++ ((x :: xs) ++ stack)) (insert x path) memo := by
              intro fuel stack
              simp only [List.cons_append, Analyzer.loop, hm, hp]
              rw [hl]
              simp
            rcases ih _ hlt (insert x path) rfl
              (all.filter (fun p => p ∉ insert x path)).reverse memo (by
                intro p hp
                have := List.mem_reverse.1 hp
                simpa using (List.mem_filter.1 this).2) with ⟨m1, h1, c, h2⟩ | ⟨e, h1, c, h2⟩
            · refine finish m1 (insert x path) (c + 1) (Finset.insert_idem _ _) h1 ?_
              intro fuel stack
              rw [← Nat.add_assoc, hstep, h2]
            · right
              refine ⟨e, .inner hm hxp hp h1, c + 1, fun fuel stack => ?_⟩
              rw [← Nat.add_assoc, hstep, h2]

/-- Every query ends, and with the outcome of the depth first search. -/
theorem runs_eval [Fintype N] (g : Analyzer N P) (memo : Memo N P) (n : N) :
    (∃ m', g.Eval ∅ memo [n] m' ∧ g.Runs memo n (.ok m')) ∨
    (∃ e, g.EvalErr ∅ memo [n] e ∧ g.Runs memo n (.error e)) := by
  rcases loop_eval g _ ∅ rfl [n] memo (by simp) with ⟨m', h1, c, h2⟩ | ⟨e, h1, c, h2⟩
  · left
    refine ⟨m', h1, c, fun fuel hf => ?_⟩
    obtain ⟨d, rfl⟩ := Nat.exists_eq_add_of_le' hf
    have := h2 d []
    simp only [List.append_nil] at this
    rw [this]
    cases d <;> rfl
  · right
    refine ⟨e, h1, c, fun fuel hf => ?_⟩
    obtain ⟨d, rfl⟩ := Nat.exists_eq_add_of_le' hf
    have := h2 d []
    simp only [List.append_nil] at this
    rw [this]

theorem runs_unique {g : Analyzer N P} {memo : Memo N P} {n : N} {a b : Except Err (Memo N P)}
    (ha : g.Runs memo n a) (hb : g.Runs memo n b) : a = b := by
  obtain ⟨k, hk⟩ := ha
  obtain ⟨l, hl⟩ := hb
  have h1 := hk (max k l) (le_max_left _ _)
  rw [hl (max k l) (le_max_right _ _)] at h1
  exact (Option.some.inj h1).symm

theorem mem_unionDeps (rs : List (Result N P)) (n : N) :
    n ∈ unionDeps rs ↔ ∃ r ∈ rs, n ∈ r.deps := by
  have : ∀ acc : Finset N, n ∈ rs.foldl (fun acc r => acc ∪ r.deps) acc ↔
      n ∈ acc ∨ ∃ r ∈ rs, n ∈ r.deps := by
    induction rs with
    | nil => simp
    | cons r rs ih =>
      intro acc
      rw [List.foldl_cons, ih]
      simp [or_assoc]
  rw [unionDeps, this]
  simp

end TFT.Graph.Ready
