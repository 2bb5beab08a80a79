import Verif.Context.Graph
import Mathlib.Data.List.Basic
import Mathlib.Data.List.Induction

/-!
# Properties of `TFGraphContext`, tracked objects and asset annotations (C46, C52, C53)
-/

namespace TFT.GraphContext

/-! ### C46 -/

/-- Opening or closing a scope. -/
inductive Ev
  | enter (st : St)
  | exit

/-- A history of scopes on one thread; a rejected `__enter__` changes nothing. -/
def scopes (ts : TS) : List Ev → TS
  | [] => ts
  | .enter st :: es => scopes (match enter st ts with | .ok ts' => ts' | .error _ => ts) es
  | .exit :: es => scopes (exit ts) es

/-- Specification: the scope that is open after a history, most recent event last. Scopes do not
nest: opening one inside another has no effect. -/
def active : List Ev → Option St :=
  fun es => es.foldl (fun a e => match a, e with
    | _, .exit => none
    | some st, .enter _ => some st
    | none, .enter st => some st) none

theorem scopes_append (ts : TS) (es : List Ev) (e : Ev) :
    scopes ts (es ++ [e]) = scopes (scopes ts es) [e] := by
  induction es generalizing ts with
  | nil => rfl
  | cons x es ih => cases x <;> simp only [List.cons_append, scopes] <;> exact ih _

theorem active_append (es : List Ev) (e : Ev) :
    active (es ++ [e]) = match active es, e with
      | _, .exit => none
      | some st, .enter _ => some st
      | none, .enter st => some st := by
  unfold active
  rw [List.foldl_append]
  rfl

theorem scopes_active (es : List Ev) :
    (scopes .absent es).get = active es ∧
    (scopes .absent es = .absent ↔ es = []) := by
  induction es using List.reverseRecOn with
  | nil => simp [scopes, TS.get, active]
  | append_singleton es e ih =>
    obtain ⟨i1, i2⟩ := ih
    rw [scopes_append, active_append]
    cases e with
    | exit => simp [scopes, exit, TS.get]
    | enter st =>
      simp only [scopes, enter]
      cases ha : active es with
      | none =>
        rw [if_pos (by rw [i1, ha])]
        simp [TS.get]
      | some st' =>
        simp only [i1, ha]
        simp only [reduceCtorEq, if_false, i1, ha, i2, List.append_eq_nil_iff, List.cons_ne_self,
          and_false, iff_false, true_and]
        rintro rfl
        simp [active] at ha

/-- A scope can be opened iff none is open. -/
theorem enter_iff (es : List Ev) (st : St) :
    (∃ ts, enter st (scopes .absent es) = .ok ts) ↔ active es = none := by
  unfold enter
  rw [(scopes_active es).1]
  by_cases h : active es = none <;> simp [h]

/-- What the three queries return, for every history: the values of the open scope; `None` if no
scope was ever opened; otherwise, when the scopes opened before are all closed, they raise. -/
theorem queries_exact (es : List Ev) :
    (∀ st, active es = some st →
      getModule (scopes .absent es) = .ok st.module ∧
      getEvaluated (scopes .absent es) = .ok st.evaluated ∧
      getTempDir (scopes .absent es) = (match st.tempDir with
        | none => .ok none
        | some d =>
          if d = "" then .error "ValueError: A temp dir was requested, but empty temp_dir was set."
          else .ok (some (d, "analyzer_temporary_assets")))) ∧
    (es = [] →
      getModule (scopes .absent es) = .ok none ∧ getEvaluated (scopes .absent es) = .ok none ∧
      getTempDir (scopes .absent es) = .ok none) ∧
    (es ≠ [] → active es = none →
      getModule (scopes .absent es) = .error attributeError ∧
      getEvaluated (scopes .absent es) = .error attributeError ∧
      getTempDir (scopes .absent es) = .error attributeError) := by
  obtain ⟨h1, h2⟩ := scopes_active es
  refine ⟨?_, ?_, ?_⟩
  · intro st hst
    rw [hst] at h1
    cases hs : scopes .absent es with
    | absent => rw [hs] at h1; simp [TS.get] at h1
    | value s =>
      rw [hs] at h1
      simp only [TS.get] at h1
      subst h1
      exact ⟨rfl, rfl, rfl⟩
  · rintro rfl
    exact ⟨rfl, rfl, rfl⟩
  · intro hne ha
    rw [ha] at h1
    cases hs : scopes .absent es with
    | absent => exact absurd (h2.mp hs) hne
    | value s =>
      rw [hs] at h1
      simp only [TS.get] at h1
      subst h1
      exact ⟨rfl, rfl, rfl⟩

/-- **C46**, the part that holds: inside a scope the values of that scope, and `None` on a thread
that has not opened any. Missing: `None` after a scope was closed (`none_after_scope_fails`). -/
theorem queries_partial (es : List Ev) :
    (∀ st, active es = some st →
      getModule (scopes .absent es) = .ok st.module ∧
      getEvaluated (scopes .absent es) = .ok st.evaluated) ∧
    (es = [] →
      getModule (scopes .absent es) = .ok none ∧ getEvaluated (scopes .absent es) = .ok none) :=
  ⟨fun st h => ⟨((queries_exact es).1 st h).1, ((queries_exact es).1 st h).2.1⟩,
   fun h => ⟨((queries_exact es).2.1 h).1, ((queries_exact es).2.1 h).2.1⟩⟩

/-- **C46 is false**: on every thread that has opened and closed a scope, the documented `None` is
an exception. -/
theorem none_after_scope_fails (es : List Ev) :
    active (es ++ [.exit]) = none ∧
    getModule (scopes .absent (es ++ [.exit])) = .error attributeError := by
  have ha : active (es ++ [.exit]) = none := by rw [active_append]
  exact ⟨ha, ((queries_exact _).2.2 (by simp) ha).1⟩

example : active [.enter ⟨some 1, none, none⟩, .exit, .enter ⟨some 2, some "/t", none⟩,
    .enter ⟨some 3, none, none⟩] = some ⟨some 2, some "/t", none⟩ := rfl

/-! ### C52: tracked objects -/

/-- An attribute of a module, once set, keeps its value. -/
theorem exec_keeps (w : World) (op : Op) (m : Nat) (n : String) (o : Obj)
    (h : w.modules m n = some o) : (exec w op).modules m n = some o := by
  cases op with
  | enter st =>
    simp only [exec]
    split <;> exact h
  | exit => exact h
  | openTracker =>
    simp only [exec]
    split <;> exact h
  | closeTracker => exact h
  | make inside f name =>
    simp only [exec, makeAndTrack]
    split
    · exact h
    · split
      · exact h
      · exact h
      · split
        · exact h
        · split
          · exact h
          · split
            · exact h
            · rename_i w'' hw
              unfold trackObject at hw
              split at hw
              · cases hw
              · split at hw
                · cases hw; exact h
                · split at hw
                  · cases hw
                  · cases hw
                  · rename_i m' _
                    split at hw
                    · cases hw
                    · rename_i hfree
                      cases hw
                      simp only
                      by_cases hm : m = m'
                      · subst hm
                        rw [Function.update_self]
                        rw [Function.update_apply]
                        split
                        · rename_i hn
                          rw [← hn] at hfree
                          simp [h] at hfree
                        · exact h
                      · rw [Function.update_of_ne hm]; exact h

theorem history_keeps (ops : List Op) (w : World) (m : Nat) (n : String) (o : Obj)
    (h : w.modules m n = some o) : (ops.foldl exec w).modules m n = some o := by
  induction ops generalizing w with
  | nil => exact h
  | cons op ops ih => exact ih _ (exec_keeps w op m n o h)

/-- A call that succeeds with an object leaves that object as the module's attribute. -/
theorem make_sets (f : Factory) (n : String) (w w' : World) (m o : Nat)
    (hm : getModule w.ts = .ok (some m))
    (h : makeAndTrack true f (some n) w = (.ok (some o), w')) :
    w'.modules m n = some (some o) := by
  unfold makeAndTrack at h
  simp only [not_true_eq_false, if_false, reduceCtorEq, false_and] at h
  cases hg : w.modules m n with
  | some x =>
    have hget : getObject w n = .ok x := by simp [getObject, hm, hg]
    rw [hget] at h
    cases x with
    | some y =>
      simp only [Prod.mk.injEq, Except.ok.injEq] at h
      obtain ⟨h1, rfl⟩ := h
      rw [hg, h1]
    | none =>
      simp only at h
      split at h
      · cases h
      · simp only [trackObject, hm] at h
        cases ht : w.tracker with
        | none => simp [ht] at h
        | some objs => simp [ht, hg] at h
  | none =>
    have hget : getObject w n = .ok none := by simp [getObject, hm, hg]
    rw [hget] at h
    simp only at h
    split at h
    · cases h
    · rename_i obj _
      simp only [trackObject, hm] at h
      cases ht : w.tracker with
      | none => simp [ht] at h
      | some objs =>
        simp only [ht, hg, Option.isSome_none, Bool.false_eq_true, if_false, Prod.mk.injEq,
          Except.ok.injEq] at h
        obtain ⟨rfl, rfl⟩ := h
        simp

/-- **C52** After a call with a name has returned an object, every later call with the same name
for the same module returns that same object and does not call its factory, whatever was traced
in between. -/
theorem named_object_reused (f g : Factory) (n : String) (w w' : World) (m o : Nat)
    (hm : getModule w.ts = .ok (some m))
    (h : makeAndTrack true f (some n) w = (.ok (some o), w'))
    (ops : List Op) (hlater : getModule (ops.foldl exec w').ts = .ok (some m)) :
    makeAndTrack true g (some n) (ops.foldl exec w') = (.ok (some o), ops.foldl exec w') := by
  have hk := history_keeps ops w' m n _ (make_sets f n w w' m o hm h)
  unfold makeAndTrack
  simp [getObject, hlater, hk]

/-- **C52** A name used for the first time (and not one of the attributes that modules have anyway)
gives the object made by the factory; without a name the factory is always called and the object
kept in the list of the open tracker. -/
theorem new_object_tracked (f : Factory) (w : World) (obj : Obj) (objs : List Obj)
    (hf : f.make w.calls = .ok obj) (ht : w.tracker = some objs) :
    (∀ m n, getModule w.ts = .ok (some m) → w.modules m n = none →
      ∃ w', makeAndTrack true f (some n) w = (.ok obj, w') ∧ w'.modules m n = some obj ∧
        w'.calls = w.calls + 1) ∧
    (f.keras = false →
      ∃ w', makeAndTrack true f none w = (.ok obj, w') ∧ w'.tracker = some (objs ++ [obj]) ∧
        w'.calls = w.calls + 1) := by
  refine ⟨?_, ?_⟩
  · intro m n hm hn
    refine ⟨{ w with
      calls := w.calls + 1
      modules := Function.update w.modules m (Function.update (w.modules m) n (some obj)) },
      ?_, by simp, rfl⟩
    simp [makeAndTrack, getObject, hm, hn, hf, trackObject, ht]
  · intro hk
    refine ⟨{ w with calls := w.calls + 1, tracker := some (objs ++ [obj]) }, ?_, rfl, rfl⟩
    simp [makeAndTrack, hf, trackObject, ht, hk]

/-- **C52** The objects made without a name in a scope of a tracker are kept, in order, by the
tracker of that scope: none is lost, and none of an earlier scope is kept. A second scope inside the
first is refused and leaves its list alone. -/
theorem unnamed_objects_kept (w : World) (h : w.tracker = none) (before after : List Obj) :
    let make (o : Obj) : Op := .make true ⟨fun _ => .ok o, false⟩ none
    ((([Op.openTracker] ++ before.map make ++ [Op.openTracker] ++ after.map make).foldl exec
      w).tracker = some (before ++ after)) ∧
    ((([Op.openTracker] ++ before.map make ++ [Op.closeTracker, Op.openTracker] ++
      after.map make).foldl exec w).tracker = some after) := by
  intro make
  have key : ∀ (os : List Obj) (w : World) (l : List Obj), w.tracker = some l →
      ((os.map make).foldl exec w).tracker = some (l ++ os) := by
    intro os
    induction os with
    | nil => intro w l hl; simpa using hl
    | cons o os ih =>
      intro w l hl
      rw [List.map_cons, List.foldl_cons, ih _ (l ++ [o]) (by
        simp [make, exec, makeAndTrack, trackObject, hl])]
      simp
  have hopen : ∀ w : World, w.tracker = none → (exec w .openTracker).tracker = some [] := by
    intro w hw; simp [exec, hw]
  have hagain : ∀ (w : World) (l : List Obj), w.tracker = some l →
      (exec w .openTracker).tracker = some l := by
    intro w l hw; simp [exec, hw]
  refine ⟨?_, ?_⟩
  · simp only [List.foldl_append, List.foldl_cons, List.foldl_nil]
    rw [key after _ before (hagain _ _ (by simpa using key before _ [] (hopen w h)))]
  · simp only [List.foldl_append, List.foldl_cons, List.foldl_nil]
    rw [key after _ [] (hopen _ (by simp [exec]))]
    simp

/-- A module with the attribute `name`, which all `tf.Module`s have. -/
def w₀ : World :=
  { ts := .value (some ⟨some 1, none, none⟩), tracker := some [],
    modules := fun _ n => if n = "name" then some (some 99) else none, calls := 0 }

/-- A factory whose objects are new. -/
def fresh : Factory := ⟨fun k => .ok (some k), false⟩

/-- The documented guarantee "the object returned when the factory is invoked" fails for a name
that modules have as an attribute: the attribute is returned, the factory is not called and nothing
is tracked. -/
theorem attribute_name_returns_attribute :
    (makeAndTrack true fresh (some "name") w₀).1 = .ok (some 99) ∧
    (makeAndTrack true fresh (some "name") w₀).2.calls = 0 := ⟨rfl, rfl⟩

/-- Two objects in one `preprocessing_fn` under one name are not rejected: the second call returns
the first object. -/
theorem duplicate_name_not_rejected :
    (makeAndTrack true fresh (some "x") (makeAndTrack true fresh (some "x") w₀).2).1
      = .ok (some 0) := rfl

/-- The hypotheses of `named_object_reused`: an object made in one tracing, then the scope and the
tracker are closed and opened again for a second tracing. -/
example : let w' := (makeAndTrack true fresh (some "x") w₀).2
    (makeAndTrack true fresh (some "x") w₀).1 = .ok (some 0) ∧
    getModule ([Op.exit, .closeTracker, .enter ⟨some 1, none, none⟩, .openTracker,
      .make true fresh none].foldl exec w').ts = .ok (some 1) := ⟨rfl, rfl⟩

/-! ### C53: asset annotations -/

/-- Annotating or clearing. -/
inductive AOp
  | annotate (key filename : List Char)
  | clear

/-- The effect on the collections. -/
def aexec (a : Annotations) : AOp → Annotations
  | .annotate k f => annotate k f a
  | .clear => clear a

/-- Specification: the file annotated for a key after a history (most recent last): that of the
last annotation of the key since the last clear. Keys and files are known by their base names. -/
def annotated (k : List Char) : List AOp → Option (List Char) :=
  fun ops => ops.foldl (fun r op => match op with
    | .annotate k' f => if basename k' = k then some (basename f) else r
    | .clear => none) none

theorem lookup_dictSet {K V : Type} [DecidableEq K] [BEq K] [LawfulBEq K] (k k' : K) (v : V) (d : List (K × V)) :
    (dictSet k v d).lookup k' = if k' = k then some v else d.lookup k' := by
  induction d with
  | nil =>
    simp only [dictSet, List.lookup]
    by_cases h : k' = k
    · simp [h]
    · simp [beq_false_of_ne h, h]
  | cons p d ih =>
    obtain ⟨a, b⟩ := p
    simp only [dictSet]
    by_cases ha : a = k
    · subst ha
      simp only [if_true, List.lookup_cons]
      by_cases h : k' = a
      · simp [h]
      · simp [beq_false_of_ne h, h]
    · simp only [if_neg ha, List.lookup_cons, ih]
      by_cases h : k' = a
      · subst h; simp [ha]
      · simp [beq_false_of_ne h]

theorem get_snoc (a : Annotations) (k f : List Char) (d : List (List Char × List Char))
    (h : getAnnotations a = .ok d) :
    getAnnotations (annotate k f a) = .ok (dictSet (basename k) (basename f) d) := by
  unfold getAnnotations at h
  split at h
  · cases h
  · rename_i hl
    cases h
    have hl' : a.keys.length = a.filenames.length := by simpa using hl
    unfold getAnnotations annotate
    rw [if_neg (by simp [hl']), List.zip_append hl', List.foldl_append]
    rfl

/-- **C53** After any history of annotations the dictionary can be built and gives for every key the
file of the last annotation since the last clear, and nothing for other keys. -/
theorem annotations_exact (ops : List AOp) :
    ∃ d, getAnnotations (ops.foldl aexec {}) = .ok d ∧ ∀ k, d.lookup k = annotated k ops := by
  induction ops using List.reverseRecOn with
  | nil => exact ⟨[], rfl, fun k => rfl⟩
  | append_singleton ops op ih =>
    obtain ⟨d, hd, hl⟩ := ih
    rw [List.foldl_append]
    cases op with
    | clear =>
      refine ⟨[], rfl, fun k => ?_⟩
      unfold annotated
      rw [List.foldl_append]
      rfl
    | annotate k f =>
      refine ⟨_, get_snoc _ k f d hd, fun k' => ?_⟩
      rw [lookup_dictSet, hl]
      unfold annotated
      rw [List.foldl_append]
      simp only [List.foldl_cons, List.foldl_nil]
      by_cases h : k' = basename k
      · simp [h]
      · have h' : ¬ basename k = k' := fun e => h e.symm
        simp [h, h']

/-- Keys that differ only before the last slash are one key. -/
theorem scoped_keys_collide :
    annotated "x".toList [.annotate "a/x".toList "f".toList, .annotate "b/x".toList "g".toList]
      = some "g".toList := by decide

example : annotated "v".toList [.annotate "v".toList "old".toList, .clear,
    .annotate "w".toList "/assets/w".toList, .annotate "v".toList "/assets/v".toList]
      = some "v".toList := by decide

/-- **C52** Outside of a `preprocessing_fn` nothing is made and nothing is tracked, whether or not an
object of the name exists. -/
theorem outside_rejected (f : Factory) (name : Option String) (w : World) :
    ∃ e, makeAndTrack false f name w = (.error e, w) := ⟨_, if_pos (by simp)⟩

end TFT.GraphContext
