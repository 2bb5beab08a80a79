import Verif.Pipeline.Checks
import Verif.Combine.PackedLemmas
import Mathlib.Data.List.Nodup

/-!
# Checks in a preprocessing function

C95.
-/

namespace TFT.Checks

variable {V Op : Type}

/-! ## Specification -/

/-- Operations use operations that were made before them. -/
def Ordered (g : Graph Op) : Prop :=
  ∀ (i : Nat) (o : Oper Op), g[i]? = some o → ∀ j ∈ o.ins ++ o.ctrl, j < i

/-- The value of a tensor of the graph that the user's function made. -/
def HasValue (m : Op → List V → Except Err V) (env : Env V) (g : Graph Op) (i : Nat) (v : V) : Prop :=
  exec m env g g.length i = .ok v

/-- All checks (in general, all operations with an effect) of the user's function succeed. -/
def ChecksHold (m : Op → List V → Except Err V) (env : Env V) (g : Graph Op) : Prop :=
  ∀ (c : Nat) (o : Oper Op), g[c]? = some o → o.mustRun = true → ∃ v : V, HasValue m env g c v

/-- `r` are the values of the tensors, under their keys. -/
def ValuesAre (m : Op → List V → Except Err V) (env : Env V) (g : Graph Op)
    (tensors : List (String × Nat)) (r : List (String × V)) : Prop :=
  List.Forall₂ (fun t kv => kv.1 = t.1 ∧ HasValue m env g t.2 kv.2) tensors r

/-- One operation depends on another, over inputs and control inputs. -/
inductive DependsOn (g : Graph Op) : Nat → Nat → Prop where
  | self (i : Nat) : DependsOn g i i
  | step (i j k : Nat) (o : Oper Op) : g[i]? = some o → j ∈ o.ins ++ o.ctrl → DependsOn g j k →
      DependsOn g i k

/-- An operation depends on a column. -/
def ReadsColumn (g : Graph Op) (i : Nat) (key : String) : Prop :=
  ∃ (j : Nat) (o : Oper Op), DependsOn g i j ∧ g[j]? = some o ∧ o.kind = .input key

/-- An operation depends on the result of an analyzer. -/
def ReadsResult (g : Graph Op) (i : Nat) (name : String) : Prop :=
  ∃ (j : Nat) (o : Oper Op), DependsOn g i j ∧ g[j]? = some o ∧ o.kind = .analyzer name

/-- A tensor is computed from a column: it depends on it over inputs alone. -/
inductive ComputedFrom (g : Graph Op) (key : String) : Nat → Prop where
  | self (i : Nat) (o : Oper Op) : g[i]? = some o → o.kind = .input key → ComputedFrom g key i
  | step (i j : Nat) (o : Oper Op) : g[i]? = some o → j ∈ o.ins → ComputedFrom g key j →
      ComputedFrom g key i

/-! ## Lemmas -/

theorem bind_ok' {α β : Type} {x : Except Err α} {f : α → Except Err β} {y : β} :
    x.bind f = .ok y ↔ ∃ a : α, x = .ok a ∧ f a = .ok y := bind_ok_iff

theorem map_congr' {α β : Type} (l : List α) (f g : α → β) (h : ∀ a ∈ l, f a = g a) :
    l.map f = l.map g := List.map_congr_left h

theorem exec_fuel (m : Op → List V → Except Err V) (env : Env V) (g : Graph Op) (hg : Ordered g)
    (i : Nat) : ∀ f : Nat, i < f → exec m env g f i = exec m env g (i + 1) i := by
  induction i using Nat.strong_induction_on with
  | _ i ih =>
    intro f hf
    obtain ⟨n, rfl⟩ : ∃ n, f = n + 1 := ⟨f - 1, by omega⟩
    rw [exec, exec]
    cases ho : g[i]? with
    | none => rfl
    | some o =>
      have hj : ∀ j ∈ o.ins ++ o.ctrl, exec m env g n j = exec m env g i j := by
        intro j hj
        have hlt := hg i o ho j hj
        rw [ih j hlt n (by omega), ih j hlt i hlt]
      dsimp only
      rw [map_congr' o.ctrl _ _ fun j h => hj j (by simp [h]),
        map_congr' o.ins _ _ fun j h => hj j (by simp [h])]

theorem exec_append (m : Op → List V → Except Err V) (env : Env V) (g e : Graph Op) (hg : Ordered g) :
    ∀ (f i : Nat), i < g.length → exec m env (g ++ e) f i = exec m env g f i := by
  intro f
  induction f with
  | zero => intro i _; rfl
  | succ f ih =>
    intro i hi
    rw [exec, exec, List.getElem?_append_left hi]
    cases ho : g[i]? with
    | none => rfl
    | some o =>
      have hj : ∀ j ∈ o.ins ++ o.ctrl, exec m env (g ++ e) f j = exec m env g f j :=
        fun j hj => ih j (Nat.lt_trans (hg i o ho j hj) hi)
      dsimp only
      rw [map_congr' o.ctrl _ _ fun j h => hj j (by simp [h]),
        map_congr' o.ins _ _ fun j h => hj j (by simp [h])]

theorem mem_effects (g : Graph Op) (c : Nat) :
    c ∈ effects g ↔ ∃ o : Oper Op, g[c]? = some o ∧ o.mustRun = true := by
  unfold effects
  rw [List.mem_filter, List.mem_range]
  constructor
  · rintro ⟨_, h⟩
    cases ho : g[c]? with
    | none => rw [ho] at h; exact absurd h (by simp)
    | some o => rw [ho] at h; exact ⟨o, rfl, h⟩
  · rintro ⟨o, ho, hm⟩
    refine ⟨?_, by rw [ho]; exact hm⟩
    exact (List.getElem?_eq_some_iff.1 ho).1

theorem seq_ok_exists {α β : Type} (l : List α) (f : α → Except Err β) :
    (∃ ys : List β, seqExcept (l.map f) = .ok ys) ↔ ∀ a ∈ l, ∃ y : β, f a = .ok y := by
  induction l with
  | nil => simp [seqExcept]
  | cons a l ih =>
    constructor
    · rintro ⟨ys, h⟩
      rw [seqExcept_ok_iff] at h
      cases h with
      | cons h1 h2 =>
        intro b hb
        rcases List.mem_cons.1 hb with rfl | hb
        · exact ⟨_, h1⟩
        · exact ih.1 ⟨_, (seqExcept_ok_iff _ _).2 h2⟩ b hb
    · intro h
      obtain ⟨y, hy⟩ := h a (by simp)
      obtain ⟨ys, hys⟩ := ih.2 fun b hb => h b (by simp [hb])
      exact ⟨y :: ys, (seqExcept_ok_iff _ _).2 (.cons hy ((seqExcept_ok_iff _ _).1 hys))⟩

theorem traced_length (g : Graph Op) (outs : List (String × Nat)) :
    (traced g outs).graph.length = g.length + outs.length := by
  simp [traced]

theorem traced_keys (g : Graph Op) (outs : List (String × Nat)) :
    (traced g outs).outputs.map Prod.fst = outs.map Prod.fst := by
  unfold traced
  rw [List.map_fst_zip]
  simp

theorem traced_positions (g : Graph Op) (outs : List (String × Nat)) :
    (traced g outs).outputs.map Prod.snd = (List.range outs.length).map (g.length + ·) := by
  unfold traced
  rw [List.map_snd_zip]
  simp

theorem traced_at (g : Graph Op) (outs : List (String × Nat)) (k : Nat) (h : k < outs.length) :
    (traced g outs).graph[g.length + k]? =
      some { kind := .identity, mustRun := false, ins := [outs[k].2], ctrl := effects g } := by
  unfold traced
  rw [List.getElem?_append_right (by omega)]
  simp [h]

theorem exec_output (m : Op → List V → Except Err V) (env : Env V) (g : Graph Op) (hg : Ordered g)
    (outs : List (String × Nat)) (ho : ∀ t ∈ outs, t.2 < g.length) (k : Nat) (h : k < outs.length) :
    exec m env (traced g outs).graph (traced g outs).graph.length (g.length + k) =
      (seqExcept ((effects g).map (exec m env g g.length))).bind fun _ =>
        exec m env g g.length outs[k].2 := by
  rw [traced_length]
  obtain ⟨n, hn⟩ : ∃ n, g.length + outs.length = n + 1 := ⟨g.length + outs.length - 1, by omega⟩
  rw [hn, exec, traced_at g outs k h]
  have key : ∀ j < g.length, exec m env (traced g outs).graph n j = exec m env g g.length j := by
    intro j hj
    unfold traced
    rw [exec_append m env g _ hg n j hj, exec_fuel m env g hg j n (by omega),
      exec_fuel m env g hg j g.length hj]
  dsimp only
  rw [map_congr' (effects g) _ (exec m env g g.length) fun j hj => key j (by
    obtain ⟨o, h1, _⟩ := (mem_effects g j).1 hj
    exact (List.getElem?_eq_some_iff.1 h1).1)]
  congr 1
  funext _
  rw [List.map_singleton, key _ (ho _ (List.getElem_mem h))]
  cases exec m env g g.length outs[k].2 <;> rfl

theorem run_traced (m : Op → List V → Except Err V) (env : Env V) (g : Graph Op) (hg : Ordered g)
    (outs : List (String × Nat)) (ho : ∀ t ∈ outs, t.2 < g.length) :
    run m env (traced g outs).graph ((traced g outs).outputs.map Prod.snd) =
      seqExcept (outs.map fun t => (seqExcept ((effects g).map (exec m env g g.length))).bind fun _ =>
        exec m env g g.length t.2) := by
  unfold run
  rw [traced_positions]
  congr 1
  refine List.ext_getElem (by simp) ?_
  intro k h1 h2
  simp only [List.getElem_map, List.getElem_range]
  exact exec_output m env g hg outs ho k (by simpa using h1)

theorem zip_values {R : Nat → V → Prop} (ts : List (String × Nat)) (vs : List V)
    (h : List.Forall₂ (fun t v => R t.2 v) ts vs) :
    List.Forall₂ (fun t kv => kv.1 = t.1 ∧ R t.2 kv.2) ts ((ts.map Prod.fst).zip vs) := by
  induction h with
  | nil => exact .nil
  | cons h _ ih => exact .cons ⟨rfl, h⟩ ih

theorem values_zip {R : Nat → V → Prop} (ts : List (String × Nat)) (r : List (String × V))
    (h : List.Forall₂ (fun t kv => kv.1 = t.1 ∧ R t.2 kv.2) ts r) :
    List.Forall₂ (fun t v => R t.2 v) ts (r.map Prod.snd) ∧
      r = (ts.map Prod.fst).zip (r.map Prod.snd) := by
  induction h with
  | nil => exact ⟨.nil, rfl⟩
  | cons h _ ih =>
    refine ⟨.cons h.2 ih.1, ?_⟩
    rw [List.map_cons, List.map_cons, List.zip_cons_cons, ← ih.2, ← h.1]

theorem bind_zip_iff (ts : List (String × Nat)) (f : Nat → Except Err V) (r : List (String × V)) :
    ((seqExcept (ts.map fun t => f t.2)).bind fun vs => (.ok ((ts.map Prod.fst).zip vs) : Except Err _))
        = .ok r ↔
      List.Forall₂ (fun t kv => kv.1 = t.1 ∧ f t.2 = .ok kv.2) ts r := by
  constructor
  · intro h
    cases hs : seqExcept (ts.map fun t => f t.2) with
    | error e => rw [hs] at h; exact absurd h (by simp [Except.bind])
    | ok vs =>
      rw [hs] at h
      simp only [Except.bind, Except.ok.injEq] at h
      rw [← h]
      rw [seqExcept_ok_iff, List.forall₂_map_left_iff] at hs
      exact zip_values (R := fun i v => f i = .ok v) ts vs hs
  · intro h
    obtain ⟨h1, h2⟩ := values_zip (R := fun i v => f i = .ok v) ts r h
    have : seqExcept (ts.map fun t => f t.2) = .ok (r.map Prod.snd) := by
      rw [seqExcept_ok_iff, List.forall₂_map_left_iff]; exact h1
    rw [this]
    simp only [Except.bind]
    rw [← h2]

/-! ## Calls of the function that is written -/

/-- A call of the function that is written returns a result exactly if all checks hold; it then
returns the values of the tensors. -/
theorem call_written (m : Op → List V → Except Err V) (env : Env V) (g : Graph Op) (hg : Ordered g)
    (outs : List (String × Nat)) (ho : ∀ t ∈ outs, t.2 < g.length) (hn : outs ≠ [])
    (r : List (String × V)) :
    (written g outs).call m env = .ok r ↔ ChecksHold m env g ∧ ValuesAre m env g outs r := by
  have hc : ChecksHold m env g ↔
      ∃ ys : List V, seqExcept ((effects g).map (exec m env g g.length)) = .ok ys := by
    rw [seq_ok_exists]
    constructor
    · intro h c hc
      obtain ⟨o, h1, h2⟩ := (mem_effects g c).1 hc
      exact h c o h1 h2
    · intro h c o h1 h2
      exact h c ((mem_effects g c).2 ⟨o, h1, h2⟩)
  have hw : written g outs = traced g outs := rfl
  rw [hw]
  unfold Function.call
  rw [run_traced m env g hg outs ho, traced_keys]
  rw [bind_zip_iff outs (fun i => (seqExcept ((effects g).map (exec m env g g.length))).bind fun _ =>
    exec m env g g.length i) r]
  rw [hc]
  cases hs : seqExcept ((effects g).map (exec m env g g.length)) with
  | ok ys =>
    constructor
    · intro h; exact ⟨⟨ys, rfl⟩, h⟩
    · rintro ⟨_, h⟩; exact h
  | error e =>
    constructor
    · intro h
      cases outs with
      | nil => exact absurd rfl hn
      | cons t ts =>
        cases h with
        | cons h _ => exact absurd h.2 (by simp [Except.bind])
    · rintro ⟨⟨ys, h⟩, _⟩
      exact absurd h (by simp)

/-- **TF2 behaviour.** A batch is transformed exactly if all checks of the preprocessing function hold
for it and the outputs can be computed, whichever outputs are requested. -/
theorem every_batch_is_checked (m : Op → List V → Except Err V) (env : Env V) (g : Graph Op)
    (hg : Ordered g) (outs : List (String × Nat)) (ho : ∀ t ∈ outs, t.2 < g.length) (hn : outs ≠ [])
    (requested : List String) (r : List (String × V)) :
    transformV2 m env g outs requested = .ok r ↔
      ChecksHold m env g ∧ ∃ all : List (String × V), ValuesAre m env g outs all ∧
        r = all.filter fun kv => requested.contains kv.1 := by
  unfold transformV2
  constructor
  · intro h
    cases hr : (written g outs).call m env with
    | error e => rw [hr] at h; exact absurd h (by simp [Except.bind])
    | ok all =>
      rw [hr] at h
      simp only [Except.bind, Except.ok.injEq] at h
      obtain ⟨h1, h2⟩ := (call_written m env g hg outs ho hn all).1 hr
      exact ⟨h1, all, h2, h.symm⟩
  · rintro ⟨h1, all, h2, rfl⟩
    rw [(call_written m env g hg outs ho hn all).2 ⟨h1, h2⟩]
    rfl

/-- **TF1 behaviour.** A batch is transformed exactly if the requested outputs can be computed; checks
count only as far as requested outputs depend on them. -/
theorem only_what_is_requested_is_checked (m : Op → List V → Except Err V) (env : Env V) (g : Graph Op)
    (outs : List (String × Nat)) (requested : List String) (r : List (String × V)) :
    transformV1 m env g outs requested = .ok r ↔
      ValuesAre m env g (outs.filter fun t => requested.contains t.1) r := by
  unfold transformV1 run ValuesAre HasValue
  dsimp only
  rw [List.map_map]
  exact bind_zip_iff (outs.filter fun o => requested.contains o.1) (exec m env g g.length) r

/-- **The phases of an analysis.** A batch is analyzed exactly if all checks hold for it, with the
results that are known and temporary values in place of the others. -/
theorem every_phase_is_checked (m : Op → List V → Except Err V) (batch : String → Except Err V)
    (known : String → Option V) (temporary : String → V) (g : Graph Op) (hg : Ordered g)
    (tensors : List (String × Nat)) (ho : ∀ t ∈ tensors, t.2 < g.length) (hn : tensors ≠ [])
    (r : List (String × V)) :
    phaseV2 m batch known temporary g tensors = .ok r ↔
      ChecksHold m ⟨batch, fun n => .ok ((known n).getD (temporary n))⟩ g ∧
      ValuesAre m ⟨batch, fun n => .ok ((known n).getD (temporary n))⟩ g tensors r :=
  call_written m _ g hg tensors ho hn r

/-! ## What a value depends on -/

/-- A value is determined by the columns and results that it depends on. -/
theorem exec_env (m : Op → List V → Except Err V) (env env' : Env V) (g : Graph Op) :
    ∀ (f i : Nat), (∀ key : String, ReadsColumn g i key → env.batch key = env'.batch key) →
      (∀ name : String, ReadsResult g i name → env.results name = env'.results name) →
      exec m env g f i = exec m env' g f i := by
  intro f
  induction f with
  | zero => intro i _ _; rfl
  | succ f ih =>
    intro i hb hr
    rw [exec, exec]
    cases ho : g[i]? with
    | none => rfl
    | some o =>
      have hj : ∀ j ∈ o.ins ++ o.ctrl, exec m env g f j = exec m env' g f j := by
        intro j hj
        refine ih j ?_ ?_
        · rintro key ⟨k, o', h1, h2, h3⟩
          exact hb key ⟨k, o', .step i j k o ho hj h1, h2, h3⟩
        · rintro name ⟨k, o', h1, h2, h3⟩
          exact hr name ⟨k, o', .step i j k o ho hj h1, h2, h3⟩
      dsimp only
      rw [map_congr' o.ctrl _ _ fun j h => hj j (by simp [h]),
        map_congr' o.ins _ _ fun j h => hj j (by simp [h])]
      have ha : ∀ vs, apply m env o.kind vs = apply m env' o.kind vs := by
        intro vs
        unfold apply
        cases hk : o.kind with
        | input key => exact hb key ⟨i, o, .self i, ho, hk⟩
        | analyzer name => exact hr name ⟨i, o, .self i, ho, hk⟩
        | identity => rfl
        | compute op => rfl
      simp only [ha]

theorem checksHold_congr (m : Op → List V → Except Err V) (env env' : Env V) (g : Graph Op)
    (h : ∀ (c : Nat) (o : Oper Op), g[c]? = some o → o.mustRun = true →
      exec m env g g.length c = exec m env' g g.length c) :
    ChecksHold m env g ↔ ChecksHold m env' g := by
  constructor
  · intro hc c o h1 h2
    obtain ⟨v, hv⟩ := hc c o h1 h2
    exact ⟨v, by unfold HasValue; rw [← h c o h1 h2]; exact hv⟩
  · intro hc c o h1 h2
    obtain ⟨v, hv⟩ := hc c o h1 h2
    exact ⟨v, by unfold HasValue; rw [h c o h1 h2]; exact hv⟩

theorem valuesAre_congr (m : Op → List V → Except Err V) (env env' : Env V) (g : Graph Op)
    (ts : List (String × Nat)) (r : List (String × V))
    (h : ∀ t ∈ ts, exec m env g g.length t.2 = exec m env' g g.length t.2) :
    ValuesAre m env g ts r ↔ ValuesAre m env' g ts r := by
  unfold ValuesAre HasValue
  induction ts generalizing r with
  | nil => cases r <;> simp
  | cons t ts ih =>
    cases r with
    | nil => simp
    | cons a r =>
      rw [List.forall₂_cons, List.forall₂_cons, h t (by simp), ih r fun t ht => h t (by simp [ht])]

/-- If neither checks nor the tensors that are needed depend on unknown results, then a phase checks
and computes what the preprocessing function means. `results` are the results of all analyzers. -/
theorem phases_check_what_is_meant_partial (m : Op → List V → Except Err V)
    (batch : String → Except Err V) (known : String → Option V) (temporary results : String → V)
    (hk : ∀ (n : String) (v : V), known n = some v → v = results n)
    (g : Graph Op) (hg : Ordered g) (tensors : List (String × Nat))
    (ho : ∀ t ∈ tensors, t.2 < g.length) (hn : tensors ≠ [])
    (ht : ∀ t ∈ tensors, ∀ n : String, ReadsResult g t.2 n → (known n).isSome = true)
    (hc : ∀ (c : Nat) (o : Oper Op), g[c]? = some o → o.mustRun = true →
      ∀ n : String, ReadsResult g c n → (known n).isSome = true)
    (r : List (String × V)) :
    phaseV2 m batch known temporary g tensors = .ok r ↔
      ChecksHold m ⟨batch, fun n => .ok (results n)⟩ g ∧
      ValuesAre m ⟨batch, fun n => .ok (results n)⟩ g tensors r := by
  rw [every_phase_is_checked m batch known temporary g hg tensors ho hn r]
  have key : ∀ i : Nat, (∀ n : String, ReadsResult g i n → (known n).isSome = true) →
      exec m ⟨batch, fun n => .ok ((known n).getD (temporary n))⟩ g g.length i =
        exec m ⟨batch, fun n => .ok (results n)⟩ g g.length i := by
    intro i hi
    refine exec_env m _ _ g _ i (fun _ _ => rfl) ?_
    intro n hr
    obtain ⟨v, hv⟩ := Option.isSome_iff_exists.1 (hi n hr)
    have := hk n v hv
    simp [hv, this]
  rw [checksHold_congr m _ _ g fun c o h1 h2 => key c (hc c o h1 h2),
    valuesAre_congr m _ _ g tensors r fun t h => key t.2 (ht t h)]

/-! ## The annotations of the schema -/

theorem strip_traced (g : Graph Op) (outs : List (String × Nat)) :
    strip (traced g outs).graph ((traced g outs).outputs.map Prod.snd) =
      (outs.map Prod.snd, outs.flatMap fun _ => effects g) := by
  have hid : (((traced g outs).outputs.map Prod.snd).all (isIdentity (traced g outs).graph)) = true := by
    rw [traced_positions, List.all_eq_true]
    intro i hi
    rw [List.mem_map] at hi
    obtain ⟨k, hk, rfl⟩ := hi
    unfold isIdentity
    rw [traced_at g outs k (List.mem_range.1 hk)]
    rfl
  unfold strip
  rw [if_pos hid, traced_positions]
  refine Prod.ext ?_ ?_
  · refine List.ext_getElem (by simp) ?_
    intro k h1 h2
    simp only [List.getElem_map, List.getElem_range]
    rw [traced_at g outs k (by simpa using h1)]
    rfl
  · dsimp only
    rw [List.flatMap_map]
    refine Eq.trans (b := (List.range outs.length).flatMap fun _ => effects g) ?_ ?_
    · refine List.flatMap_congr ?_
      intro k hk
      rw [traced_at g outs k (List.mem_range.1 hk)]
    · unfold List.flatMap
      congr 1
      refine List.ext_getElem (by simp) ?_
      intro k h1 h2
      simp

/-- The annotations of the schema are computed without making the checks of the preprocessing
function, which they would be made on made-up inputs. -/
theorem annotations_are_not_checked (m : Op → List V → Except Err V) (env : Env V) (g : Graph Op)
    (hg : Ordered g) (annotations : List (String × Nat)) (ho : ∀ t ∈ annotations, t.2 < g.length)
    (r : List (String × V)) :
    (metadataFn g annotations).call m env = .ok r ↔ ValuesAre m env g annotations r := by
  unfold metadataFn optimize Function.call
  simp only [if_true, strip_traced, traced_keys]
  rw [List.map_fst_zip (by simp), List.map_snd_zip (by simp)]
  unfold run
  have : (annotations.map Prod.snd).map
      (exec m env (traced g annotations).graph (traced g annotations).graph.length) =
      annotations.map fun t => exec m env g g.length t.2 := by
    rw [List.map_map]
    refine List.map_congr_left ?_
    intro t ht
    have hlt := ho t ht
    show exec m env (traced g annotations).graph (traced g annotations).graph.length t.2 = _
    rw [traced_length]
    unfold traced
    rw [exec_append m env g _ hg _ _ hlt, exec_fuel m env g hg t.2 _ (by omega),
      exec_fuel m env g hg t.2 g.length hlt]
  rw [this]
  exact bind_zip_iff annotations (exec m env g g.length) r

/-! ## Columns -/

theorem mem_columns (g : Graph Op) (hg : Ordered g) (key : String) :
    ∀ (f i : Nat), i < f → (key ∈ columns g false f i ↔ ReadsColumn g i key) := by
  intro f
  induction f with
  | zero => intro i h; omega
  | succ f ih =>
    intro i hi
    rw [columns]
    cases ho : g[i]? with
    | none =>
      simp only [List.not_mem_nil, false_iff]
      rintro ⟨j, o, h1, h2, _⟩
      cases h1 with
      | self => rw [ho] at h2; exact absurd h2 (by simp)
      | step _ j' _ o' h3 _ _ => rw [ho] at h3; exact absurd h3 (by simp)
    | some o =>
      simp only [List.mem_append, List.mem_flatMap, Bool.false_eq_true, if_false]
      constructor
      · rintro (h | ⟨j, hj, h⟩)
        · cases hk : o.kind with
          | input k =>
            rw [hk] at h
            simp only [List.mem_singleton] at h
            exact ⟨i, o, .self i, ho, by rw [hk, h]⟩
          | analyzer n => rw [hk] at h; exact absurd h (by simp)
          | identity => rw [hk] at h; exact absurd h (by simp)
          | compute n => rw [hk] at h; exact absurd h (by simp)
        · have hj' : j ∈ o.ins ++ o.ctrl := List.mem_append.2 hj
          have hlt := hg i o ho j hj'
          obtain ⟨k, o', h1, h2, h3⟩ := (ih j (by omega)).1 h
          exact ⟨k, o', .step i j k o ho hj' h1, h2, h3⟩
      · rintro ⟨k, o', h1, h2, h3⟩
        cases h1 with
        | self =>
          rw [ho] at h2
          cases h2
          left
          rw [h3]
          simp
        | step _ j _ o'' h4 h5 h6 =>
          rw [ho] at h4
          cases h4
          right
          have hlt := hg i o ho j h5
          exact ⟨j, List.mem_append.1 h5, (ih j (by omega)).2 ⟨k, o', h6, h2, h3⟩⟩

theorem traced_ordered (g : Graph Op) (hg : Ordered g) (outs : List (String × Nat))
    (ho : ∀ t ∈ outs, t.2 < g.length) : Ordered (traced g outs).graph := by
  intro i o h j hj
  by_cases hi : i < g.length
  · refine hg i o ?_ j hj
    unfold traced at h
    rwa [List.getElem?_append_left hi] at h
  · have hlen : i < (traced g outs).graph.length := (List.getElem?_eq_some_iff.1 h).1
    rw [traced_length] at hlen
    obtain ⟨k, rfl⟩ : ∃ k, i = g.length + k := ⟨i - g.length, by omega⟩
    have hk : k < outs.length := by omega
    rw [traced_at g outs k hk] at h
    cases h
    simp only [List.mem_append, List.mem_singleton] at hj
    rcases hj with rfl | hj
    · have := ho _ (List.getElem_mem hk)
      omega
    · obtain ⟨o, h1, _⟩ := (mem_effects g j).1 hj
      have := (List.getElem?_eq_some_iff.1 h1).1
      omega

theorem dependsOn_append (g e : Graph Op) (hg : Ordered g) (i j : Nat) (hi : i < g.length) :
    DependsOn (g ++ e) i j ↔ DependsOn g i j := by
  constructor
  · intro h
    induction h with
    | self i => exact .self i
    | step i j k o h1 h2 _ ih =>
      rw [List.getElem?_append_left hi] at h1
      exact .step i j k o h1 h2 (ih (Nat.lt_trans (hg i o h1 j h2) hi))
  · intro h
    induction h with
    | self i => exact .self i
    | step i j k o h1 h2 _ ih =>
      refine .step i j k o ?_ h2 (ih (Nat.lt_trans (hg i o h1 j h2) hi))
      rw [List.getElem?_append_left hi]; exact h1

theorem dependsOn_lt (g : Graph Op) (hg : Ordered g) (i j : Nat) (h : DependsOn g i j)
    (hi : i < g.length) : j < g.length := by
  induction h with
  | self => exact hi
  | step i j k o h1 h2 _ ih => exact ih (Nat.lt_trans (hg i o h1 j h2) hi)

theorem readsColumn_append (g e : Graph Op) (hg : Ordered g) (i : Nat) (hi : i < g.length)
    (key : String) : ReadsColumn (g ++ e) i key ↔ ReadsColumn g i key := by
  constructor
  · rintro ⟨j, o, h1, h2, h3⟩
    have h1' := (dependsOn_append g e hg i j hi).1 h1
    have := dependsOn_lt g hg i j h1' hi
    rw [List.getElem?_append_left this] at h2
    exact ⟨j, o, h1', h2, h3⟩
  · rintro ⟨j, o, h1, h2, h3⟩
    have := dependsOn_lt g hg i j h1 hi
    refine ⟨j, o, (dependsOn_append g e hg i j hi).2 h1, ?_, h3⟩
    rw [List.getElem?_append_left this]; exact h2

theorem readsColumn_output (g : Graph Op) (hg : Ordered g) (outs : List (String × Nat))
    (ho : ∀ t ∈ outs, t.2 < g.length) (k : Nat) (hk : k < outs.length) (key : String) :
    ReadsColumn (traced g outs).graph (g.length + k) key ↔
      ReadsColumn g outs[k].2 key ∨ ∃ c ∈ effects g, ReadsColumn g c key := by
  have hat := traced_at g outs k hk
  have heff : ∀ c ∈ effects g, c < g.length := by
    intro c hc
    obtain ⟨o, h1, _⟩ := (mem_effects g c).1 hc
    exact (List.getElem?_eq_some_iff.1 h1).1
  have happ : ∀ i < g.length, (ReadsColumn (traced g outs).graph i key ↔ ReadsColumn g i key) :=
    fun i hi => readsColumn_append g _ hg i hi key
  constructor
  · rintro ⟨j, o, h1, h2, h3⟩
    cases h1 with
    | self => rw [hat] at h2; cases h2; exact absurd h3 (by simp)
    | step _ j' _ o' h4 h5 h6 =>
      rw [hat] at h4
      cases h4
      simp only [List.mem_append, List.mem_singleton] at h5
      rcases h5 with rfl | h5
      · exact .inl ((happ _ (ho _ (List.getElem_mem hk))).1 ⟨j, o, h6, h2, h3⟩)
      · exact .inr ⟨j', h5, (happ _ (heff _ h5)).1 ⟨j, o, h6, h2, h3⟩⟩
  · rintro (h | ⟨c, hc, h⟩)
    · obtain ⟨j, o, h1, h2, h3⟩ := (happ _ (ho _ (List.getElem_mem hk))).2 h
      exact ⟨j, o, .step _ _ _ _ hat (by simp) h1, h2, h3⟩
    · obtain ⟨j, o, h1, h2, h3⟩ := (happ _ (heff _ hc)).2 h
      exact ⟨j, o, .step _ _ _ _ hat (by simp [hc]) h1, h2, h3⟩

theorem mem_dependentInputs (g : Graph Op) (hg : Ordered g) (keys : List String) (tensors : List Nat)
    (ht : ∀ t ∈ tensors, t < g.length) (key : String) :
    key ∈ dependentInputs g keys tensors ↔ key ∈ keys ∧ ∃ t ∈ tensors, ReadsColumn g t key := by
  unfold dependentInputs
  rw [List.mem_filter, List.any_eq_true]
  refine and_congr_right fun _ => ?_
  constructor
  · rintro ⟨t, h1, h2⟩
    exact ⟨t, h1, (mem_columns g hg key _ t (ht t h1)).1 (by simpa using h2)⟩
  · rintro ⟨t, h1, h2⟩
    exact ⟨t, h1, by simpa using (mem_columns g hg key _ t (ht t h1)).2 h2⟩

/-- With TF2 behaviour the columns that `get_analyze_input_columns` lists are those that analyzers
read and those that checks read. -/
theorem analyze_columns (g : Graph Op) (hg : Ordered g) (outs : List (String × Nat))
    (ho : ∀ t ∈ outs, t.2 < g.length) (hn : outs ≠ []) (keys : List String) (sources : List Nat)
    (hs : ∀ t ∈ sources, t < g.length) (key : String) :
    key ∈ analyzeColumns g outs keys sources ↔
      key ∈ keys ∧ ((∃ t ∈ sources, ReadsColumn g t key) ∨
        ∃ (c : Nat) (o : Oper Op), g[c]? = some o ∧ o.mustRun = true ∧ ReadsColumn g c key) := by
  have heff : ∀ c ∈ effects g, c < g.length := by
    intro c hc
    obtain ⟨o, h1, _⟩ := (mem_effects g c).1 hc
    exact (List.getElem?_eq_some_iff.1 h1).1
  have hmem : ∀ c, c ∈ (outs.flatMap fun _ => effects g) ↔ c ∈ effects g := by
    intro c
    rw [List.mem_flatMap]
    constructor
    · rintro ⟨_, _, h⟩; exact h
    · intro h
      cases outs with
      | nil => exact absurd rfl hn
      | cons t ts => exact ⟨t, by simp, h⟩
  unfold analyzeColumns
  dsimp only
  rw [strip_traced]
  dsimp only
  rw [mem_dependentInputs _ (traced_ordered g hg outs ho)]
  · refine and_congr_right fun _ => ?_
    constructor
    · rintro ⟨t, ht, h⟩
      rw [List.mem_append, hmem] at ht
      rcases ht with ht | ht
      · exact .inl ⟨t, ht, (readsColumn_append g _ hg t (hs t ht) key).1 h⟩
      · obtain ⟨o, h1, h2⟩ := (mem_effects g t).1 ht
        exact .inr ⟨t, o, h1, h2, (readsColumn_append g _ hg t (heff t ht) key).1 h⟩
    · rintro (⟨t, ht, h⟩ | ⟨c, o, h1, h2, h⟩)
      · exact ⟨t, by simp [ht], (readsColumn_append g _ hg t (hs t ht) key).2 h⟩
      · have hc := (mem_effects g c).2 ⟨o, h1, h2⟩
        exact ⟨c, List.mem_append.2 (.inr ((hmem c).2 hc)),
          (readsColumn_append g _ hg c (heff c hc) key).2 h⟩
  · intro t ht
    rw [List.mem_append, hmem] at ht
    rw [traced_length]
    rcases ht with ht | ht
    · have := hs t ht; omega
    · have := heff t ht; omega

/-- With TF2 behaviour the columns that `get_transform_input_columns` lists are those that outputs
depend on and those that checks read. -/
theorem transform_columns (g : Graph Op) (hg : Ordered g) (outs : List (String × Nat))
    (ho : ∀ t ∈ outs, t.2 < g.length) (hn : outs ≠ []) (keys : List String) (key : String) :
    key ∈ transformColumns g outs keys ↔
      key ∈ keys ∧ ((∃ t ∈ outs, ReadsColumn g t.2 key) ∨
        ∃ (c : Nat) (o : Oper Op), g[c]? = some o ∧ o.mustRun = true ∧ ReadsColumn g c key) := by
  unfold transformColumns
  dsimp only
  rw [mem_dependentInputs _ (traced_ordered g hg outs ho), traced_positions]
  · refine and_congr_right fun _ => ?_
    constructor
    · rintro ⟨t, ht, h⟩
      rw [List.mem_map] at ht
      obtain ⟨k, hk, rfl⟩ := ht
      have hk' := List.mem_range.1 hk
      rcases (readsColumn_output g hg outs ho k hk' key).1 h with h | ⟨c, hc, h⟩
      · exact .inl ⟨outs[k], List.getElem_mem hk', h⟩
      · obtain ⟨o, h1, h2⟩ := (mem_effects g c).1 hc
        exact .inr ⟨c, o, h1, h2, h⟩
    · rintro (⟨t, ht, h⟩ | ⟨c, o, h1, h2, h⟩)
      · obtain ⟨k, hk, rfl⟩ := List.mem_iff_getElem.1 ht
        exact ⟨g.length + k, List.mem_map.2 ⟨k, List.mem_range.2 hk, rfl⟩,
          (readsColumn_output g hg outs ho k hk key).2 (.inl h)⟩
      · have hpos : 0 < outs.length := List.length_pos_iff.2 hn
        exact ⟨g.length + 0, List.mem_map.2 ⟨0, List.mem_range.2 hpos, rfl⟩,
          (readsColumn_output g hg outs ho 0 hpos key).2
            (.inr ⟨c, (mem_effects g c).2 ⟨o, h1, h2⟩, h⟩)⟩
  · intro t ht
    rw [traced_positions, List.mem_map] at ht
    obtain ⟨k, hk, rfl⟩ := ht
    rw [traced_length]
    have := List.mem_range.1 hk
    omega

/-- Transforming a batch only looks at the columns that `get_transform_input_columns` lists, also
where checks are concerned. `keys` are all columns. -/
theorem transform_columns_suffice (m : Op → List V → Except Err V) (env env' : Env V) (g : Graph Op)
    (hg : Ordered g) (outs : List (String × Nat)) (ho : ∀ t ∈ outs, t.2 < g.length) (hn : outs ≠ [])
    (keys : List String)
    (hk : ∀ (i : Nat) (o : Oper Op) (key : String), g[i]? = some o → o.kind = .input key → key ∈ keys)
    (hr : env.results = env'.results)
    (hb : ∀ key ∈ transformColumns g outs keys, env.batch key = env'.batch key)
    (requested : List String) (r : List (String × V)) :
    transformV2 m env g outs requested = .ok r ↔ transformV2 m env' g outs requested = .ok r := by
  rw [every_batch_is_checked m env g hg outs ho hn, every_batch_is_checked m env' g hg outs ho hn]
  have hkey : ∀ i key, ReadsColumn g i key → key ∈ keys := by
    rintro i key ⟨j, o, _, h2, h3⟩
    exact hk j o key h2 h3
  rw [checksHold_congr m env env' g fun c o h1 h2 => exec_env m env env' g _ c
    (fun key h => hb key ((transform_columns g hg outs ho hn keys key).2
      ⟨hkey c key h, .inr ⟨c, o, h1, h2, h⟩⟩)) (fun _ _ => by rw [hr])]
  have hv : ∀ all, ValuesAre m env g outs all ↔ ValuesAre m env' g outs all := fun all =>
    valuesAre_congr m env env' g outs all fun t ht => exec_env m env env' g _ t.2
      (fun key h => hb key ((transform_columns g hg outs ho hn keys key).2
        ⟨hkey t.2 key h, .inl ⟨t, ht, h⟩⟩)) (fun _ _ => by rw [hr])
  simp only [hv]

/-- A phase of the analysis only looks at the columns that `get_analyze_input_columns` lists. -/
theorem analyze_columns_suffice (m : Op → List V → Except Err V) (batch batch' : String → Except Err V)
    (known : String → Option V) (temporary : String → V) (g : Graph Op) (hg : Ordered g)
    (outs tensors : List (String × Nat)) (ho : ∀ t ∈ outs, t.2 < g.length) (hn : outs ≠ [])
    (ht : ∀ t ∈ tensors, t.2 < g.length) (hn' : tensors ≠ []) (keys : List String)
    (hk : ∀ (i : Nat) (o : Oper Op) (key : String), g[i]? = some o → o.kind = .input key → key ∈ keys)
    (hb : ∀ key ∈ analyzeColumns g outs keys (tensors.map Prod.snd), batch key = batch' key)
    (r : List (String × V)) :
    phaseV2 m batch known temporary g tensors = .ok r ↔
      phaseV2 m batch' known temporary g tensors = .ok r := by
  rw [every_phase_is_checked m batch known temporary g hg tensors ht hn',
    every_phase_is_checked m batch' known temporary g hg tensors ht hn']
  have hs : ∀ t ∈ tensors.map Prod.snd, t < g.length := by
    intro t h
    obtain ⟨x, hx, rfl⟩ := List.mem_map.1 h
    exact ht x hx
  have hkey : ∀ i key, ReadsColumn g i key → key ∈ keys := by
    rintro i key ⟨j, o, _, h2, h3⟩
    exact hk j o key h2 h3
  rw [checksHold_congr m ⟨batch, fun n => .ok ((known n).getD (temporary n))⟩
    ⟨batch', fun n => .ok ((known n).getD (temporary n))⟩ g
    fun c o h1 h2 => exec_env m _ _ g _ c
    (fun key h => hb key ((analyze_columns g hg outs ho hn keys _ hs key).2
      ⟨hkey c key h, .inr ⟨c, o, h1, h2, h⟩⟩)) (fun _ _ => rfl)]
  rw [valuesAre_congr m ⟨batch, fun n => .ok ((known n).getD (temporary n))⟩
    ⟨batch', fun n => .ok ((known n).getD (temporary n))⟩ g tensors r
    fun t h => exec_env m _ _ g _ t.2
      (fun key h' => hb key ((analyze_columns g hg outs ho hn keys _ hs key).2
        ⟨hkey t.2 key h', .inl ⟨t.2, List.mem_map.2 ⟨t, h, rfl⟩, h'⟩⟩)) (fun _ _ => rfl)]

/-! ## Outputs that can be computed without some columns -/

theorem exec_data (m : Op → List V → Except Err V) (env env' : Env V) (g : Graph Op)
    (hr : env.results = env'.results) :
    ∀ (f i : Nat), (∀ key ∈ columns g true f i, env.batch key = env'.batch key) →
      ∀ v v' : V, exec m env g f i = .ok v → exec m env' g f i = .ok v' → v = v' := by
  intro f
  induction f with
  | zero => intro i _ v v' h; exact absurd h (by simp [exec])
  | succ f ih =>
    intro i hb v v' h h'
    rw [exec] at h h'
    rw [columns] at hb
    cases ho : g[i]? with
    | none => rw [ho] at h; exact absurd h (by simp)
    | some o =>
      rw [ho] at h h' hb
      dsimp only at h h' hb
      rw [bind_ok'] at h h'
      obtain ⟨_, _, h⟩ := h
      obtain ⟨_, _, h'⟩ := h'
      rw [bind_ok'] at h h'
      obtain ⟨vs, h1, h2⟩ := h
      obtain ⟨vs', h1', h2'⟩ := h'
      rw [seqExcept_ok_iff, List.forall₂_map_left_iff] at h1 h1'
      have hins : ∀ j ∈ o.ins, ∀ key ∈ columns g true f j, env.batch key = env'.batch key := by
        intro j hj key hk
        refine hb key (List.mem_append.2 (.inr (List.mem_flatMap.2 ⟨j, ?_, hk⟩)))
        simp [hj]
      have hvs : vs = vs' := by
        clear h2 h2' hb
        generalize o.ins = ins at h1 h1' hins
        induction h1 generalizing vs' with
        | nil => cases h1'; rfl
        | cons a _ ih2 =>
          cases h1' with
          | cons a' b' =>
            rw [ih _ (hins _ (by simp)) _ _ a a', ih2 _ b' fun j hj => hins j (by simp [hj])]
      subst hvs
      have ha : apply m env o.kind vs = apply m env' o.kind vs := by
        unfold apply
        cases hk : o.kind with
        | input key => exact hb key (by rw [hk]; simp)
        | analyzer name => exact congrFun hr name
        | identity => rfl
        | compute op => rfl
      rw [ha, h2'] at h2
      exact (Except.ok.inj h2).symm

theorem call_mem (m : Op → List V → Except Err V) (env : Env V) (f : Function Op)
    (r : List (String × V)) (h : f.call m env = .ok r) (k : String) (v : V) (hv : (k, v) ∈ r) :
    ∃ p : Nat, (k, p) ∈ f.outputs ∧ exec m env f.graph f.graph.length p = .ok v := by
  unfold Function.call run at h
  rw [List.map_map] at h
  have := (bind_zip_iff f.outputs (exec m env f.graph f.graph.length) r).1 h
  clear h
  generalize f.outputs = ts at this ⊢
  induction this with
  | nil => exact absurd hv (by simp)
  | cons a _ ih =>
    rcases List.mem_cons.1 hv with e | hv
    · rename_i t kv _ _ _
      refine ⟨t.2, ?_, by rw [a.2, ← e]⟩
      have : k = t.1 := by rw [← a.1, ← e]
      rw [this]
      simp
    · obtain ⟨p, h1, h2⟩ := ih hv
      exact ⟨p, List.mem_cons_of_mem _ h1, h2⟩

/-- An output that counts as computable from some columns has the value that these columns give it,
whatever is made up for the others; only whether the batch passes depends on them. -/
theorem made_up_values_do_not_show (m : Op → List V → Except Err V) (env env' : Env V) (g : Graph Op)
    (outs : List (String × Nat)) (hd : (outs.map Prod.fst).Nodup) (given : List String)
    (hr : env.results = env'.results) (hb : ∀ key ∈ given, env.batch key = env'.batch key)
    (requested : List String) (r r' : List (String × V))
    (h : transformV2 m env g outs requested = .ok r)
    (h' : transformV2 m env' g outs requested = .ok r')
    (k : String) (hk : k ∈ computable g outs given) (v v' : V) (hv : (k, v) ∈ r)
    (hv' : (k, v') ∈ r') : v = v' := by
  unfold transformV2 at h h'
  rw [bind_ok'] at h h'
  obtain ⟨all, h1, h2⟩ := h
  obtain ⟨all', h1', h2'⟩ := h'
  cases h2
  cases h2'
  obtain ⟨p, a, b⟩ := call_mem m env _ all h1 k v (List.mem_filter.1 hv).1
  obtain ⟨p', a', b'⟩ := call_mem m env' _ all' h1' k v' (List.mem_filter.1 hv').1
  unfold computable at hk
  dsimp only at hk
  obtain ⟨⟨k', q⟩, hq, e⟩ := List.mem_map.1 hk
  obtain ⟨hq1, hq2⟩ := List.mem_filter.1 hq
  dsimp only at e
  subst e
  have hnd : ((written g outs).outputs.map Prod.fst).Nodup := by
    show ((traced g outs).outputs.map Prod.fst).Nodup
    rw [traced_keys]; exact hd
  have huniq : ∀ x ∈ (written g outs).outputs, x.1 = k' → x = (k', q) :=
    fun x hx e => List.inj_on_of_nodup_map hnd hx hq1 e
  have e1 := huniq _ a rfl
  have e2 := huniq _ a' rfl
  rw [Prod.mk.injEq] at e1 e2
  rw [e1.2] at b
  rw [e2.2] at b'
  refine exec_data m env env' _ hr _ q ?_ v v' b b'
  intro key hkey
  have := List.all_eq_true.1 hq2 key hkey
  exact hb key (by simpa using this)

theorem mem_dataColumns (g : Graph Op) (hg : Ordered g) (key : String) :
    ∀ (f i : Nat), i < f → (key ∈ columns g true f i ↔ ComputedFrom g key i) := by
  intro f
  induction f with
  | zero => intro i h; omega
  | succ f ih =>
    intro i hi
    rw [columns]
    cases ho : g[i]? with
    | none =>
      simp only [List.not_mem_nil, false_iff]
      intro h
      cases h with
      | self _ o h2 _ => rw [ho] at h2; exact absurd h2 (by simp)
      | step _ j o' h3 _ _ => rw [ho] at h3; exact absurd h3 (by simp)
    | some o =>
      simp only [List.mem_append, List.mem_flatMap, if_true, List.append_nil]
      constructor
      · rintro (h | ⟨j, hj, h⟩)
        · cases hk : o.kind with
          | input k =>
            rw [hk] at h
            simp only [List.mem_singleton] at h
            exact .self i o ho (by rw [hk, h])
          | analyzer n => rw [hk] at h; exact absurd h (by simp)
          | identity => rw [hk] at h; exact absurd h (by simp)
          | compute n => rw [hk] at h; exact absurd h (by simp)
        · have hlt := hg i o ho j (by simp [hj])
          exact .step i j o ho hj ((ih j (by omega)).1 h)
      · intro h
        cases h with
        | self _ o' h2 h3 =>
          rw [ho] at h2
          cases h2
          left
          rw [h3]
          simp
        | step _ j o'' h4 h5 h6 =>
          rw [ho] at h4
          cases h4
          right
          have hlt := hg i o ho j (by simp [h5])
          exact ⟨j, h5, (ih j (by omega)).2 h6⟩

theorem computedFrom_append (g e : Graph Op) (hg : Ordered g) (key : String) (i : Nat)
    (hi : i < g.length) : ComputedFrom (g ++ e) key i ↔ ComputedFrom g key i := by
  constructor
  · intro h
    induction h with
    | self i o h1 h2 =>
      rw [List.getElem?_append_left hi] at h1
      exact .self i o h1 h2
    | step i j o h1 h2 _ ih =>
      rw [List.getElem?_append_left hi] at h1
      exact .step i j o h1 h2 (ih (Nat.lt_trans (hg i o h1 j (by simp [h2])) hi))
  · intro h
    induction h with
    | self i o h1 h2 => exact .self i o (by rw [List.getElem?_append_left hi]; exact h1) h2
    | step i j o h1 h2 _ ih =>
      exact .step i j o (by rw [List.getElem?_append_left hi]; exact h1) h2
        (ih (Nat.lt_trans (hg i o h1 j (by simp [h2])) hi))

/-- An output counts as computable from some columns exactly if it is computed from these columns
alone; what checks read does not count. -/
theorem computable_iff (g : Graph Op) (hg : Ordered g) (outs : List (String × Nat))
    (ho : ∀ t ∈ outs, t.2 < g.length) (given : List String) (k : String) :
    k ∈ computable g outs given ↔
      ∃ t : Nat, (k, t) ∈ outs ∧ ∀ key : String, ComputedFrom g key t → key ∈ given := by
  have hcol : ∀ (n : Nat) (hn : n < outs.length) (key : String),
      key ∈ columns (traced g outs).graph true (traced g outs).graph.length (g.length + n) ↔
        ComputedFrom g key outs[n].2 := by
    intro n hn key
    rw [mem_dataColumns _ (traced_ordered g hg outs ho) key _ _ (by rw [traced_length]; omega)]
    have hat := traced_at g outs n hn
    have hlt := ho _ (List.getElem_mem hn)
    constructor
    · intro h
      cases h with
      | self _ o h1 h2 => rw [hat] at h1; cases h1; exact absurd h2 (by simp)
      | step _ j o h1 h2 h3 =>
        rw [hat] at h1
        cases h1
        simp only [List.mem_singleton] at h2
        subst h2
        exact (computedFrom_append g _ hg key _ hlt).1 h3
    · intro h
      exact .step _ outs[n].2 _ hat (by simp) ((computedFrom_append g _ hg key _ hlt).2 h)
  have hout : ∀ (n : Nat) (hn : n < outs.length),
      (outs[n].1, g.length + n) ∈ (traced g outs).outputs := by
    intro n hn
    unfold traced
    refine List.mem_iff_getElem.2 ⟨n, by simpa using hn, ?_⟩
    simp
  unfold computable
  show k ∈ ((traced g outs).outputs.filter fun o =>
    (columns (traced g outs).graph true (traced g outs).graph.length o.2).all fun k =>
      given.contains k).map Prod.fst ↔ _
  rw [List.mem_map]
  constructor
  · rintro ⟨⟨k', p⟩, h, rfl⟩
    obtain ⟨h1, h2⟩ := List.mem_filter.1 h
    obtain ⟨n, hn, e⟩ := List.mem_iff_getElem.1 h1
    have hn' : n < outs.length := by simpa [traced] using hn
    have he : (traced g outs).outputs[n] = (outs[n].1, g.length + n) := by simp [traced]
    rw [he] at e
    cases e
    refine ⟨outs[n].2, List.getElem_mem hn', ?_⟩
    intro key hkey
    have := List.all_eq_true.1 h2 key ((hcol n hn' key).2 hkey)
    simpa using this
  · rintro ⟨t, ht, h⟩
    obtain ⟨n, hn, e⟩ := List.mem_iff_getElem.1 ht
    refine ⟨(k, g.length + n), List.mem_filter.2 ⟨?_, ?_⟩, rfl⟩
    · have := hout n hn
      rw [e] at this
      exact this
    · rw [List.all_eq_true]
      intro key hkey
      have := (hcol n hn key).1 hkey
      rw [e] at this
      simpa using h key this

/-! ## Where the code and the property part -/

/-- Operations of the examples. -/
inductive ExampleOp where
  | double
  | assertPositive

/-- Their meaning on integers. -/
def exampleMeaning : ExampleOp → List Int → Except Err Int
  | .double, [a] => .ok (2 * a)
  | .assertPositive, [a] => if 0 < a then .ok 0 else .error "InvalidArgumentError"
  | _, _ => .error "arity"

/-- A function with a column `x` whose double is output, and a check of a column `y`. -/
def checkedColumn : Graph ExampleOp :=
  [⟨.input "x", false, [], []⟩, ⟨.input "y", false, [], []⟩,
   ⟨.compute .assertPositive, true, [1], []⟩, ⟨.compute .double, false, [0], []⟩]

/-- A function with a column `x` whose double is output, and a check of the result of an analyzer. -/
def checkedResult : Graph ExampleOp :=
  [⟨.input "x", false, [], []⟩, ⟨.analyzer "mean", false, [], []⟩,
   ⟨.compute .assertPositive, true, [1], []⟩, ⟨.compute .double, false, [0], []⟩]

theorem checkedColumn_ordered : Ordered checkedColumn := by
  intro i o h j hj
  have hi := (List.getElem?_eq_some_iff.1 h).1
  have : i = 0 ∨ i = 1 ∨ i = 2 ∨ i = 3 := by
    have : checkedColumn.length = 4 := rfl
    omega
  rcases this with rfl | rfl | rfl | rfl <;>
    (simp only [checkedColumn] at h; cases h; simp at hj) <;> omega

theorem checkedResult_ordered : Ordered checkedResult := by
  intro i o h j hj
  have hi := (List.getElem?_eq_some_iff.1 h).1
  have : i = 0 ∨ i = 1 ∨ i = 2 ∨ i = 3 := by
    have : checkedResult.length = 4 := rfl
    omega
  rcases this with rfl | rfl | rfl | rfl <;>
    (simp only [checkedResult] at h; cases h; simp at hj) <;> omega

/-- A batch in which `x` is 3 and `y` is the given number. -/
def exampleEnv (y : Int) : Env Int :=
  ⟨fun k => if k = "x" then .ok 3 else if k = "y" then .ok y else .error "KeyError", fun _ => .ok 5⟩

/-- With TF1 behaviour a batch is transformed although a check of the function fails. -/
theorem v1_ignores_checks :
    transformV1 exampleMeaning (exampleEnv (-1)) checkedColumn [("out", 3)] ["out"] = .ok [("out", 6)] ∧
    ¬ ChecksHold exampleMeaning (exampleEnv (-1)) checkedColumn := by
  refine ⟨by decide +kernel, ?_⟩
  intro h
  obtain ⟨v, hv⟩ := h 2 _ rfl rfl
  exact absurd hv (by unfold HasValue; simp [checkedColumn, exec, exampleEnv, seqExcept, apply,
    exampleMeaning, bind, Except.bind])

/-- With TF2 behaviour the same batch is refused, whatever is requested. -/
theorem v2_makes_the_check (requested : List String) :
    transformV2 exampleMeaning (exampleEnv (-1)) checkedColumn [("out", 3)] requested =
      .error "InvalidArgumentError" := by
  have : (written checkedColumn [("out", 3)]).call exampleMeaning (exampleEnv (-1)) =
      .error "InvalidArgumentError" := by decide +kernel
  unfold transformV2
  rw [this]
  rfl

/-- An output counts as computable although a check that is made with it reads a column that is not
given: the check is made on a made-up value (here 0), for which it fails. -/
theorem checks_are_made_on_made_up_values :
    "out" ∈ computable checkedColumn [("out", 3)] ["x"] ∧
    transformV2 exampleMeaning (exampleEnv 0) checkedColumn [("out", 3)] ["out"] =
      .error "InvalidArgumentError" :=
  ⟨by decide +kernel, v2_made_up⟩
where
  v2_made_up : transformV2 exampleMeaning (exampleEnv 0) checkedColumn [("out", 3)] ["out"] =
      .error "InvalidArgumentError" := by decide +kernel

/-- A check of the result of an analyzer holds for the result and makes the analysis fail all the
same: it is made with the temporary value (0) that stands for the result in the first phase. -/
theorem a_check_of_a_result_fails_the_analysis :
    ChecksHold exampleMeaning (exampleEnv 1) checkedResult ∧
    phaseV2 exampleMeaning (exampleEnv 1).batch (fun _ => none) (fun _ => 0) checkedResult [("x", 0)] =
      .error "InvalidArgumentError" := by
  refine ⟨?_, by decide +kernel⟩
  intro c o h hm
  have hi := (List.getElem?_eq_some_iff.1 h).1
  have : c = 0 ∨ c = 1 ∨ c = 2 ∨ c = 3 := by
    have : checkedResult.length = 4 := rfl
    omega
  rcases this with rfl | rfl | rfl | rfl
  · simp only [checkedResult] at h; cases h; exact absurd hm (by simp)
  · simp only [checkedResult] at h; cases h; exact absurd hm (by simp)
  · exact ⟨0, by unfold HasValue; decide +kernel⟩
  · simp only [checkedResult] at h; cases h; exact absurd hm (by simp)

/-- A function without outputs makes no checks. -/
theorem no_outputs_no_checks :
    transformV2 exampleMeaning (exampleEnv (-1)) checkedColumn [] [] = .ok [] := by decide +kernel

/-! ## The hypotheses can be met -/

/-- A batch that passes the check. -/
example : transformV2 exampleMeaning (exampleEnv 1) checkedColumn [("out", 3)] ["out"] =
    .ok [("out", 6)] := by decide +kernel

example : Ordered checkedColumn ∧ (∀ t ∈ [("out", 3)], t.2 < checkedColumn.length) ∧
    ChecksHold exampleMeaning (exampleEnv 1) checkedColumn ∧
    analyzeColumns checkedColumn [("out", 3)] ["x", "y"] [] = ["y"] ∧
    transformColumns checkedColumn [("out", 3)] ["x", "y"] = ["x", "y"] ∧
    analyzeColumnsV1 checkedColumn ["x", "y"] [0] = ["x"] := by
  refine ⟨checkedColumn_ordered, by decide +kernel, ?_, by decide +kernel, by decide +kernel,
    by decide +kernel⟩
  exact ((every_batch_is_checked exampleMeaning (exampleEnv 1) checkedColumn checkedColumn_ordered
    [("out", 3)] (by decide +kernel) (by simp) ["out"] [("out", 6)]).1 (by decide +kernel)).1

/-- A phase after the result is known. -/
example : phaseV2 exampleMeaning (exampleEnv 1).batch (fun _ => some 5) (fun _ => 0) checkedResult
    [("x", 0)] = .ok [("x", 3)] := by decide +kernel

/-- Annotations are computed on inputs for which the check fails. -/
example : (metadataFn checkedColumn [("out", 3)]).call exampleMeaning (exampleEnv 0) =
    .ok [("out", 6)] := by decide +kernel

end TFT.Checks
