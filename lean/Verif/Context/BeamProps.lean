import Verif.Context.Beam

/-!
# Properties of `tft_beam.Context` (C35)
-/

namespace TFT.BeamContext

/-- Specification: the value of an option inside blocks (innermost first) is the one given by the
innermost block that gives one. -/
def innermost {α : Type} (f : Opts → Option α) (blocks : List Opts) : Option α :=
  blocks.findSome? f

/-- Specification: the answers inside the given blocks. -/
def answers (blocks : List Opts) : Obs :=
  { tempDir := match innermost Opts.tempDir blocks with
      | none => .error "ValueError: no temp dir was set"
      | some d => if d = "" then .error "ValueError: no temp dir was set"
                  else .ok (joinPath d "tftransform_tmp")
    batchSize := innermost Opts.batchSize blocks
    passthrough := (innermost Opts.passthrough blocks).getD []
    deepCopy := (innermost Opts.deepCopy blocks).getD false
    compatV1 := (innermost Opts.compatV1 blocks).getD false
    save := innermost Opts.save blocks }

/-- Specification: what a program sees and whether it raises, given the blocks around it. There is no
state. -/
def spec : Prog → List Opts → List Obs × Bool
  | .skip, _ => ([], false)
  | .new, _ => ([], false)
  | .query, bs => ([answers bs], false)
  | .raise, _ => ([], true)
  | .seq p q, bs =>
    if (spec p bs).2 then spec p bs else ((spec p bs).1 ++ (spec q bs).1, (spec q bs).2)
  | .try_ p handler, bs =>
    if (spec p bs).2 then ((spec p bs).1 ++ (spec handler bs).1, (spec handler bs).2)
    else spec p bs
  | .block o body, bs => spec body (o :: bs)

/-- The frame on top of the stack holds the options of the enclosing blocks. -/
def Holds (blocks : List Opts) (f : Opts) : Prop :=
  f = { tempDir := innermost Opts.tempDir blocks
        batchSize := innermost Opts.batchSize blocks
        passthrough := innermost Opts.passthrough blocks
        deepCopy := innermost Opts.deepCopy blocks
        compatV1 := innermost Opts.compatV1 blocks
        save := innermost Opts.save blocks }

theorem innermost_cons {α : Type} (f : Opts → Option α) (o : Opts) (bs : List Opts) :
    innermost f (o :: bs) = if f o ≠ none then f o else innermost f bs := by
  unfold innermost
  rw [List.findSome?_cons]
  cases f o <;> simp

theorem run_holds (p : Prog) (blocks : List Opts) (f : Opts) (fs : List Opts)
    (h : Holds blocks f) :
    run p (some (f :: fs)) = ⟨(spec p blocks).1, (spec p blocks).2, some (f :: fs)⟩ := by
  induction p generalizing blocks f fs with
  | skip => rfl
  | new => rfl
  | raise => rfl
  | query =>
    have : observe (some (f :: fs)) = answers blocks := by
      rw [h]; rfl
    simp [run, spec, this]
  | seq p q ihp ihq =>
    simp only [run, spec, ihp blocks f fs h, ihq blocks f fs h]
    split <;> rfl
  | try_ p q ihp ihq =>
    simp only [run, spec, ihp blocks f fs h, ihq blocks f fs h]
    split <;> rfl
  | block o body ih =>
    simp only [run, spec, enter, topmost]
    rw [ih (o :: blocks) _ (f :: fs)]
    · rfl
    · subst h
      simp only [Holds, innermost_cons]
      congr 1
      cases o.save <;> simp

/-- **C35** On a thread on which some `Context` has been constructed, every program of nested blocks,
exceptions and handlers sees inside each block, for every option, the value given by the innermost
block that gives one; and the state afterwards is the state before. -/
theorem nested_contexts (p : Prog) :
    run p (construct none) = ⟨(spec p []).1, (spec p []).2, construct none⟩ :=
  run_holds p [] {} [] rfl

/-- **C35** The same inside any blocks that are already open: a program, however it ends, leaves
the options as they were. -/
theorem block_restores (p : Prog) (f : Opts) (fs : List Opts) :
    (run p (some (f :: fs))).ts = some (f :: fs) := by
  have h : Holds [f] f := by
    unfold Holds innermost
    obtain ⟨a, b, c, d, e, g⟩ := f
    cases a <;> cases b <;> cases c <;> cases d <;> cases e <;> cases g <;> rfl
  rw [run_holds p [f] f fs h]

/-- Outside all blocks nothing is set, whatever was run before (even if no `Context` was ever
constructed on the thread). -/
theorem outside_blocks (p : Prog) :
    observe (run p (construct none)).ts = answers [] ∧ observe none = answers [] := by
  rw [nested_contexts]
  exact ⟨rfl, rfl⟩

/-- A `Context` constructed on another thread cannot be entered on a thread without any: the
`with` statement raises and runs nothing. -/
theorem enter_needs_thread_state (o : Opts) (body : Prog) :
    run (.block o body) none = ⟨[], true, none⟩ := rfl

section
variable {T : Type} [DecidableEq T]

theorem step_other (σ : Threads T) (te : T × Event) (t : T) (h : te.1 ≠ t) :
    (step σ te).1 t = σ t ∧ (step σ te).2.filter (fun o => o.1 = t) = [] := by
  obtain ⟨t', e⟩ := te
  have ht : t ≠ t' := fun x => h x.symm
  cases e <;> simp only [step]
  · simp [Function.update_of_ne ht]
  · split <;> simp [Function.update_of_ne ht]
  · split <;> simp [Function.update_of_ne ht]
  · simp at h; simp [h]

theorem step_same (σ σ' : Threads T) (te : T × Event) (h : σ te.1 = σ' te.1) :
    (step σ te).1 te.1 = (step σ' te).1 te.1 ∧ (step σ te).2 = (step σ' te).2 := by
  obtain ⟨t', e⟩ := te
  cases e <;> simp only [step] <;> simp only at h <;> rw [h]
  · simp
  · split <;> simp [h]
  · split <;> simp [h]
  · simp

theorem step_obs (σ : Threads T) (te : T × Event) : ∀ o ∈ (step σ te).2, o.1 = te.1 := by
  obtain ⟨t', e⟩ := te
  cases e <;> simp only [step]
  · simp
  · split <;> simp
  · split <;> simp
  · simp

/-- **C35** What a thread sees in a history of calls on any threads is what it sees when the calls of
the other threads are left out. -/
theorem threads_independent (tes : List (T × Event)) (t : T) (σ σ' : Threads T)
    (h : σ t = σ' t) :
    (history σ tes).1 t = (history σ' (tes.filter (fun te => te.1 = t))).1 t ∧
    (history σ tes).2.filter (fun o => o.1 = t)
      = (history σ' (tes.filter (fun te => te.1 = t))).2 := by
  induction tes generalizing σ σ' with
  | nil => exact ⟨h, rfl⟩
  | cons te tes ih =>
    by_cases ht : te.1 = t
    · subst ht
      obtain ⟨h1, h2⟩ := step_same σ σ' te h
      obtain ⟨i1, i2⟩ := ih _ _ h1
      have hf : (te :: tes).filter (fun te' => te'.1 = te.1)
          = te :: tes.filter (fun te' => te'.1 = te.1) := by simp
      rw [hf]
      refine ⟨i1, ?_⟩
      simp only [history, List.filter_append, i2, h2]
      congr 1
      rw [List.filter_eq_self]
      intro o ho
      simpa using step_obs σ' te o ho
    · obtain ⟨h1, h2⟩ := step_other σ te t ht
      have hf : (te :: tes).filter (fun te' => te'.1 = t) = tes.filter (fun te' => te'.1 = t) := by
        simp [ht]
      rw [hf]
      obtain ⟨i1, i2⟩ := ih (step σ te).1 σ' (h1.trans h)
      refine ⟨i1, ?_⟩
      simp only [history, List.filter_append, h2, i2, List.nil_append]

end

/-- Three nested blocks, the innermost left by an exception that is caught in the outermost. -/
def exampleProg : Prog :=
  .block { tempDir := some "/t", batchSize := some 5 }
    (.seq (.try_ (.block { batchSize := some 7, deepCopy := some true }
      (.seq .query (.block { deepCopy := some false } (.seq .query .raise)))) .skip) .query)

example : ((spec exampleProg []).1.map (fun o => (o.batchSize, o.deepCopy)), (spec exampleProg []).2)
    = ([(some 7, true), (some 7, false), (some 5, false)], false) := by decide

end TFT.BeamContext
