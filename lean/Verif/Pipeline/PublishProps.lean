import Verif.Pipeline.Publish
import Mathlib.Tactic.Common
import Mathlib.Order.WellFounded
import Mathlib.Data.Prod.Lex
import Mathlib.Data.List.Lookmap

/-!
# Properties of publishing a transform function (C38, C54)
-/

namespace TFT.Publish

/-! ### Lemmas about the temporary directory -/

theorem lookup_snoc_ne {l : List (Nat × Files)} {id j : Nat} {d : Files}
    (h : l.lookup j = some d) : (l ++ [(id, [])]).lookup j = some d := by
  rw [List.lookup_append, h]; rfl

theorem lookup_snoc_self {l : List (Nat × Files)} {id : Nat} (h : id ∉ l.map Prod.fst) :
    (l ++ [(id, [])]).lookup id = some [] := by
  have : l.lookup id = none := by
    rw [List.lookup_eq_none_iff]
    intro p hp
    have : ¬ id = p.1 := fun e => h (e ▸ List.mem_map_of_mem hp)
    simpa using this
  rw [List.lookup_append, this]
  simp

theorem lookup_add {l : List (Nat × Files)} {id j : Nat} {x : String × String} :
    (l.map (fun e => if e.1 = id then (e.1, e.2 ++ [x]) else e)).lookup j
      = (l.lookup j).map (fun d => if j = id then d ++ [x] else d) := by
  induction l with
  | nil => rfl
  | cons e l ih =>
    obtain ⟨a, d⟩ := e
    simp only [List.map_cons]
    by_cases ha : a = id
    · subst ha
      simp only [if_true, List.lookup_cons]
      by_cases hj : j = a
      · subst hj; simp
      · simp [beq_false_of_ne hj, ih]
    · simp only [if_neg ha, List.lookup_cons]
      by_cases hj : j = a
      · subst hj; simp [ha]
      · simp [beq_false_of_ne hj, ih]

theorem lookup_drop {l : List (Nat × Files)} {id j : Nat} (h : j ≠ id) :
    (l.filter (fun e => e.1 ≠ id)).lookup j = l.lookup j := by
  induction l with
  | nil => rfl
  | cons e l ih =>
    obtain ⟨a, d⟩ := e
    by_cases ha : a = id
    · subst ha
      simp only [ne_eq, not_true_eq_false, decide_false, Bool.false_eq_true, not_false_eq_true,
        List.filter_cons_of_neg, List.lookup_cons, beq_false_of_ne h]
      exact ih
    · rw [List.filter_cons_of_pos (by simp [ha])]
      simp only [List.lookup_cons]
      by_cases hj : j = a
      · subst hj; simp
      · simpa [beq_false_of_ne hj] using ih

theorem tempFiles_new_self {id : Nat} {fs : Fs} (h : id ∉ ids fs.temp) :
    tempFiles id (newTemp id fs) = some [] := lookup_snoc_self h

theorem tempFiles_new {id j : Nat} {fs : Fs} {d : Files} (h : tempFiles j fs = some d) :
    tempFiles j (newTemp id fs) = some d := lookup_snoc_ne h

theorem tempFiles_add {id j : Nat} {fs : Fs} {x : String × String} :
    tempFiles j (addFile id x fs)
      = (tempFiles j fs).map (fun d => if j = id then d ++ [x] else d) := by
  unfold tempFiles addFile
  cases h : fs.temp with
  | none => simp
  | some l => simpa using lookup_add

theorem tempFiles_drop {id j : Nat} {fs : Fs} (h : j ≠ id) :
    tempFiles j (dropTemp id fs) = tempFiles j fs := by
  unfold tempFiles dropTemp
  cases hl : fs.temp with
  | none => simp
  | some l => simpa using lookup_drop h

theorem mem_ids_of_tempFiles {id : Nat} {fs : Fs} {d : Files} (h : tempFiles id fs = some d) :
    id ∈ ids fs.temp := by
  unfold tempFiles at h
  by_contra hc
  have : (fs.temp.getD []).lookup id = none := by
    rw [List.lookup_eq_none_iff]
    intro p hp
    have : ¬ id = p.1 := fun e => hc (e ▸ List.mem_map_of_mem hp)
    simpa using this
  rw [this] at h
  cases h

/-! ### The invariant -/

/-- What a writer has written so far. -/
def WriterInv (new : Files) (w : Writer) (fs : Fs) : Prop :=
  match w with
  | .idle => True
  | .writing id todo => ∃ d, tempFiles id fs = some d ∧ d ++ todo = new
  | .done id => tempFiles id fs = some new

/-- The directory of a writer. -/
def Writer.id : Writer → Option Nat
  | .idle => none
  | .writing id _ => some id
  | .done id => some id

/-- Some of the files that were published before, and nothing else. -/
def PartOf (old cur : Option Files) : Prop :=
  ∃ o c, old = some o ∧ cur = some c ∧ c.Sublist o

/-- The invariant of a run that found `oldM` and `oldF` published. -/
def Inv (newM newF : Files) (oldM oldF : Option Files) (s : State) : Prop :=
  match s.pub with
  | none => WriterInv newM s.mw s.fs ∧ WriterInv newF s.fw s.fs ∧
      (∀ i, s.mw.id = some i → s.fw.id ≠ some i) ∧ s.fs.metadata = oldM ∧ s.fs.fn = oldF
  | some p => ∃ m f, s.mw = .done m ∧ s.fw = .done f ∧ m ≠ f ∧
      match p with
      | .makeRoot | .testMeta => tempFiles m s.fs = some newM ∧ tempFiles f s.fs = some newF ∧
          s.fs.metadata = oldM ∧ s.fs.fn = oldF
      | .rmMeta => tempFiles m s.fs = some newM ∧ tempFiles f s.fs = some newF ∧
          PartOf oldM s.fs.metadata ∧ s.fs.fn = oldF
      | .mvMeta => tempFiles m s.fs = some newM ∧ tempFiles f s.fs = some newF ∧
          s.fs.metadata = none ∧ s.fs.fn = oldF
      | .testFn => tempFiles f s.fs = some newF ∧ s.fs.metadata = some newM ∧ s.fs.fn = oldF
      | .rmFn => tempFiles f s.fs = some newF ∧ s.fs.metadata = some newM ∧
          PartOf oldF s.fs.fn
      | .mvFn => tempFiles f s.fs = some newF ∧ s.fs.metadata = some newM ∧ s.fs.fn = none
      | .testTemp => s.fs.metadata = some newM ∧ s.fs.fn = some newF
      | .rmTemp => s.fs.metadata = some newM ∧ s.fs.fn = some newF ∧ s.fs.temp.isSome
      | .finished => s.fs.metadata = some newM ∧ s.fs.fn = some newF ∧ s.fs.temp = none
      | .failed => False

theorem writerInv_new {new : Files} {w : Writer} {fs : Fs} {id : Nat}
    (h : WriterInv new w fs) : WriterInv new w (newTemp id fs) := by
  cases w with
  | idle => trivial
  | writing j todo =>
    obtain ⟨d, h1, h2⟩ := h
    exact ⟨d, tempFiles_new h1, h2⟩
  | done j => exact tempFiles_new h

theorem writerInv_add {new : Files} {w : Writer} {fs : Fs} {id : Nat} {x : String × String}
    (h : WriterInv new w fs) (hne : w.id ≠ some id) : WriterInv new w (addFile id x fs) := by
  cases w with
  | idle => trivial
  | writing j todo =>
    obtain ⟨d, h1, h2⟩ := h
    have : j ≠ id := fun e => hne (by rw [← e]; rfl)
    exact ⟨d, by rw [tempFiles_add, h1]; simp [this], h2⟩
  | done j =>
    have : j ≠ id := fun e => hne (by rw [← e]; rfl)
    have h' : tempFiles j fs = some new := h
    show tempFiles j (addFile id x fs) = some new
    rw [tempFiles_add, h']; simp [this]

theorem fresh_id {new : Files} {w : Writer} {fs : Fs} {id : Nat} (h : WriterInv new w fs)
    (hid : id ∉ ids fs.temp) : w.id ≠ some id := by
  cases w with
  | idle => simp [Writer.id]
  | writing j todo =>
    obtain ⟨d, h1, _⟩ := h
    intro e
    simp only [Writer.id, Option.some.injEq] at e
    exact hid (e ▸ mem_ids_of_tempFiles h1)
  | done j =>
    intro e
    simp only [Writer.id, Option.some.injEq] at e
    exact hid (e ▸ mem_ids_of_tempFiles h)

theorem inv_step {newM newF : Files} {oldM oldF : Option Files} {s t : State}
    (hs : Step newM newF s t) (h : Inv newM newF oldM oldF s) : Inv newM newF oldM oldF t := by
  cases hs with
  | startMeta fs fw id hid =>
    obtain ⟨_, h2, _, h4, h5⟩ := h
    refine ⟨⟨[], tempFiles_new_self hid, rfl⟩, writerInv_new h2, ?_, h4, h5⟩
    intro i hi
    simp only [Writer.id, Option.some.injEq] at hi
    subst hi
    exact fresh_id h2 hid
  | writeMeta fs fw id x todo =>
    obtain ⟨⟨d, h1, h1'⟩, h2, h3, h4, h5⟩ := h
    refine ⟨⟨d ++ [x], ?_, by simpa using h1'⟩, writerInv_add h2 (h3 id rfl), h3, h4, h5⟩
    show tempFiles id (addFile id x fs) = _
    have h1'' : tempFiles id fs = some d := h1
    rw [tempFiles_add, h1'']; simp
  | doneMeta fs fw id =>
    obtain ⟨⟨d, h1, h1'⟩, h2, h3, h4, h5⟩ := h
    rw [List.append_nil] at h1'
    subst h1'
    exact ⟨h1, h2, h3, h4, h5⟩
  | startFn fs mw id hid =>
    obtain ⟨h1, _, _, h4, h5⟩ := h
    refine ⟨writerInv_new h1, ⟨[], tempFiles_new_self hid, rfl⟩, ?_, h4, h5⟩
    intro i hi e
    simp only [Writer.id, Option.some.injEq] at e
    subst e
    exact fresh_id h1 hid hi
  | writeFn fs mw id x todo =>
    obtain ⟨h1, ⟨d, h2, h2'⟩, h3, h4, h5⟩ := h
    refine ⟨writerInv_add h1 (fun e => h3 id e rfl), ⟨d ++ [x], ?_, by simpa using h2'⟩, h3, h4, h5⟩
    show tempFiles id (addFile id x fs) = _
    have h2'' : tempFiles id fs = some d := h2
    rw [tempFiles_add, h2'']; simp
  | doneFn fs mw id =>
    obtain ⟨h1, ⟨d, h2, h2'⟩, h3, h4, h5⟩ := h
    rw [List.append_nil] at h2'
    subst h2'
    exact ⟨h1, h2, h3, h4, h5⟩
  | startPub fs m f =>
    obtain ⟨h1, h2, h3, h4, h5⟩ := h
    exact ⟨m, f, rfl, rfl, fun e => h3 m rfl (by rw [e]; rfl), h1, h2, h4, h5⟩
  | makeRoot fs mw fw => exact h
  | testMeta fs mw fw =>
    obtain ⟨m, f, rfl, rfl, hmf, h1, h2, h3, h4⟩ := h
    refine ⟨m, f, rfl, rfl, hmf, ?_⟩
    rcases ho : fs.metadata with _ | o
    · exact ⟨h1, h2, rfl, h4⟩
    · exact ⟨h1, h2, ⟨o, o, by rw [← ho]; exact h3.symm, rfl, List.Sublist.refl o⟩, h4⟩
  | rmMetaFile fs mw fw a b x hx =>
    obtain ⟨m, f, rfl, rfl, hmf, h1, h2, ⟨o, c, ho, hc, hsub⟩, h4⟩ := h
    refine ⟨m, f, rfl, rfl, hmf, h1, h2, ⟨o, a ++ b, ho, rfl, ?_⟩, h4⟩
    have : c = a ++ x :: b := by
      have hc' : fs.metadata = some c := hc
      rw [hx] at hc'
      exact (Option.some.inj hc').symm
    subst this
    exact (List.Sublist.append (List.Sublist.refl a) (List.sublist_cons_self x b)).trans hsub
  | rmMetaDir fs mw fw hx =>
    obtain ⟨m, f, rfl, rfl, hmf, h1, h2, _, h4⟩ := h
    exact ⟨m, f, rfl, rfl, hmf, h1, h2, rfl, h4⟩
  | mvMeta fs m' fw files hf hn =>
    obtain ⟨m, f, hm, rfl, hmf, h1, h2, _, h4⟩ := h
    cases hm
    have : files = newM := by
      have h1' : tempFiles m' fs = some newM := h1
      rw [hf] at h1'
      exact Option.some.inj h1'
    subst this
    refine ⟨m', f, rfl, rfl, hmf, ?_, rfl, h4⟩
    have h2' : tempFiles f fs = some newF := h2
    have := tempFiles_drop (fs := fs) (id := m') (j := f) (fun e => hmf e.symm)
    exact this.trans h2'
  | mvMetaFails fs m' fw hfail =>
    obtain ⟨m, f, hm, rfl, hmf, h1, h2, h3, _⟩ := h
    cases hm
    rcases hfail with hfail | hfail
    · have h1' : tempFiles m' fs = some newM := h1
      rw [hfail] at h1'
      cases h1'
    · exact absurd h3 hfail
  | testFn fs mw fw =>
    obtain ⟨m, f, rfl, rfl, hmf, h1, h2, h3⟩ := h
    refine ⟨m, f, rfl, rfl, hmf, ?_⟩
    rcases ho : fs.fn with _ | o
    · exact ⟨h1, h2, rfl⟩
    · exact ⟨h1, h2, ⟨o, o, by rw [← ho]; exact h3.symm, rfl, List.Sublist.refl o⟩⟩
  | rmFnFile fs mw fw a b x hx =>
    obtain ⟨m, f, rfl, rfl, hmf, h1, h2, ⟨o, c, ho, hc, hsub⟩⟩ := h
    refine ⟨m, f, rfl, rfl, hmf, h1, h2, ⟨o, a ++ b, ho, rfl, ?_⟩⟩
    have : c = a ++ x :: b := by
      have hc' : fs.fn = some c := hc
      rw [hx] at hc'
      exact (Option.some.inj hc').symm
    subst this
    exact (List.Sublist.append (List.Sublist.refl a) (List.sublist_cons_self x b)).trans hsub
  | rmFnDir fs mw fw hx =>
    obtain ⟨m, f, rfl, rfl, hmf, h1, h2, _⟩ := h
    exact ⟨m, f, rfl, rfl, hmf, h1, h2, rfl⟩
  | mvFn fs mw f' files hf hn =>
    obtain ⟨m, f, rfl, hf', hmf, h1, h2, _⟩ := h
    cases hf'
    have : files = newF := by
      have h1' : tempFiles f' fs = some newF := h1
      rw [hf] at h1'
      exact Option.some.inj h1'
    subst this
    exact ⟨m, f', rfl, rfl, hmf, h2, rfl⟩
  | mvFnFails fs mw f' hfail =>
    obtain ⟨m, f, rfl, hf', hmf, h1, h2, h3⟩ := h
    cases hf'
    rcases hfail with hfail | hfail
    · have h1' : tempFiles f' fs = some newF := h1
      rw [hfail] at h1'
      cases h1'
    · exact absurd h3 hfail
  | testTemp fs mw fw =>
    obtain ⟨m, f, rfl, rfl, hmf, h1, h2⟩ := h
    refine ⟨m, f, rfl, rfl, hmf, ?_⟩
    cases ht : fs.temp with
    | none => exact ⟨h1, h2, rfl⟩
    | some l => exact ⟨h1, h2, rfl⟩
  | rmTempFile fs mw fw l r id a b x hx =>
    obtain ⟨m, f, rfl, rfl, hmf, h1, h2, _⟩ := h
    exact ⟨m, f, rfl, rfl, hmf, h1, h2, rfl⟩
  | rmTempSub fs mw fw l r id hx =>
    obtain ⟨m, f, rfl, rfl, hmf, h1, h2, _⟩ := h
    exact ⟨m, f, rfl, rfl, hmf, h1, h2, rfl⟩
  | rmTempDir fs mw fw hx =>
    obtain ⟨m, f, rfl, rfl, hmf, h1, h2, _⟩ := h
    exact ⟨m, f, rfl, rfl, hmf, h1, h2, rfl⟩

theorem inv_retry {newM newF : Files} {oldM oldF : Option Files} {s t : State}
    (hs : RetryWriter s t) (h : Inv newM newF oldM oldF s) : Inv newM newF oldM oldF t := by
  cases hs with
  | metadata fs fw id todo =>
    obtain ⟨_, h2, _, h4, h5⟩ := h
    exact ⟨trivial, h2, fun i hi => by simp [Writer.id] at hi, h4, h5⟩
  | fn fs mw id todo =>
    obtain ⟨h1, _, _, h4, h5⟩ := h
    exact ⟨h1, trivial, fun i _ => by simp [Writer.id], h4, h5⟩

theorem runs_inv {newM newF : Files} {fs : Fs} {s : State} (h : Runs newM newF (start fs) s) :
    Inv newM newF fs.metadata fs.fn s := by
  induction h with
  | refl => exact ⟨trivial, trivial, fun i hi => by simp [start, Writer.id] at hi, rfl, rfl⟩
  | tail _ hstep ih =>
    rcases hstep with hstep | hstep
    · exact inv_step hstep ih
    · exact inv_retry hstep ih

/-! ### C38 -/

/-- **C38** At every crash point of a run, from every state of the output directory and with
any retries of the writers: the published metadata are what was there, some of the files that
were there, absent, or exactly the new ones; the same for the function, which is untouched until
the metadata are the new ones. Nothing is ever a mixture of old and new files. -/
theorem crash_state (newM newF : Files) (fs : Fs) (s : State)
    (h : Runs newM newF (start fs) s) :
    (s.fs.metadata = fs.metadata ∨ PartOf fs.metadata s.fs.metadata ∨ s.fs.metadata = none ∨
      s.fs.metadata = some newM) ∧
    (s.fs.fn = fs.fn ∨
      (s.fs.metadata = some newM ∧
        (PartOf fs.fn s.fs.fn ∨ s.fs.fn = none ∨ s.fs.fn = some newF))) := by
  have hi := runs_inv h
  unfold Inv at hi
  cases hp : s.pub with
  | none =>
    rw [hp] at hi
    obtain ⟨_, _, _, h4, h5⟩ := hi
    exact ⟨Or.inl h4, Or.inl h5⟩
  | some p =>
    rw [hp] at hi
    obtain ⟨m, f, _, _, _, hi⟩ := hi
    cases p with
    | makeRoot => exact ⟨Or.inl hi.2.2.1, Or.inl hi.2.2.2⟩
    | testMeta => exact ⟨Or.inl hi.2.2.1, Or.inl hi.2.2.2⟩
    | rmMeta => exact ⟨Or.inr (Or.inl hi.2.2.1), Or.inl hi.2.2.2⟩
    | mvMeta => exact ⟨Or.inr (Or.inr (Or.inl hi.2.2.1)), Or.inl hi.2.2.2⟩
    | testFn => exact ⟨Or.inr (Or.inr (Or.inr hi.2.1)), Or.inl hi.2.2⟩
    | rmFn => exact ⟨Or.inr (Or.inr (Or.inr hi.2.1)), Or.inr ⟨hi.2.1, Or.inl hi.2.2⟩⟩
    | mvFn => exact ⟨Or.inr (Or.inr (Or.inr hi.2.1)), Or.inr ⟨hi.2.1, Or.inr (Or.inl hi.2.2)⟩⟩
    | testTemp => exact ⟨Or.inr (Or.inr (Or.inr hi.1)), Or.inr ⟨hi.1, Or.inr (Or.inr hi.2)⟩⟩
    | rmTemp => exact ⟨Or.inr (Or.inr (Or.inr hi.1)), Or.inr ⟨hi.1, Or.inr (Or.inr hi.2.1)⟩⟩
    | finished => exact ⟨Or.inr (Or.inr (Or.inr hi.1)), Or.inr ⟨hi.1, Or.inr (Or.inr hi.2.1)⟩⟩
    | failed => exact hi.elim

/-- **C38** A run that finishes has published exactly the new metadata and the new function and
removed the temporary directory, whatever an earlier crashed run left behind. A run never fails. -/
theorem finished_published (newM newF : Files) (fs : Fs) (s : State)
    (h : Runs newM newF (start fs) s) :
    s.pub ≠ some .failed ∧
    (s.pub = some .finished →
      s.fs.metadata = some newM ∧ s.fs.fn = some newF ∧ s.fs.temp = none) := by
  have hi := runs_inv h
  unfold Inv at hi
  constructor
  · intro hp
    rw [hp] at hi
    obtain ⟨m, f, _, _, _, hi⟩ := hi
    exact hi
  · intro hp
    rw [hp] at hi
    obtain ⟨m, f, _, _, _, hi⟩ := hi
    exact hi

/-- A number not in a list. -/
theorem exists_fresh (l : List Nat) : ∃ id, id ∉ l := by
  have h : ∀ l : List Nat, ∃ b, ∀ x ∈ l, x < b := by
    intro l
    induction l with
    | nil => exact ⟨0, by simp⟩
    | cons a l ih =>
      obtain ⟨b, hb⟩ := ih
      refine ⟨max (a + 1) b, fun x hx => ?_⟩
      rcases List.mem_cons.mp hx with rfl | hx
      · omega
      · have := hb x hx; omega
  obtain ⟨b, hb⟩ := h l
  exact ⟨b, fun hmem => Nat.lt_irrefl b (hb b hmem)⟩

/-- **C38** A run that has not finished can go on. -/
theorem progress (newM newF : Files) (fs : Fs) (s : State)
    (h : Runs newM newF (start fs) s) (hp : s.pub ≠ some .finished) :
    ∃ t, Step newM newF s t := by
  have hi := runs_inv h
  obtain ⟨fs', mw, fw, pub⟩ := s
  unfold Inv at hi
  cases pub with
  | none =>
    cases mw with
    | idle =>
      obtain ⟨id, hid⟩ := exists_fresh (ids fs'.temp)
      exact ⟨_, .startMeta fs' fw id hid⟩
    | writing id todo =>
      cases todo with
      | nil => exact ⟨_, .doneMeta fs' fw id⟩
      | cons x todo => exact ⟨_, .writeMeta fs' fw id x todo⟩
    | done m =>
      cases fw with
      | idle =>
        obtain ⟨id, hid⟩ := exists_fresh (ids fs'.temp)
        exact ⟨_, .startFn fs' _ id hid⟩
      | writing id todo =>
        cases todo with
        | nil => exact ⟨_, .doneFn fs' _ id⟩
        | cons x todo => exact ⟨_, .writeFn fs' _ id x todo⟩
      | done f => exact ⟨_, .startPub fs' m f⟩
  | some p =>
    obtain ⟨m, f, hm, hf, _, hi⟩ := hi
    simp only at hm hf hi
    subst hm hf
    cases p with
    | makeRoot => exact ⟨_, .makeRoot fs' _ _⟩
    | testMeta => exact ⟨_, .testMeta fs' _ _⟩
    | rmMeta =>
      obtain ⟨_, _, ⟨o, c, _, hc, _⟩, _⟩ := hi
      cases c with
      | nil => exact ⟨_, .rmMetaDir fs' _ _ hc⟩
      | cons x c => exact ⟨_, .rmMetaFile fs' _ _ [] c x hc⟩
    | mvMeta => exact ⟨_, .mvMeta fs' m _ newM hi.1 hi.2.2.1⟩
    | testFn => exact ⟨_, .testFn fs' _ _⟩
    | rmFn =>
      obtain ⟨_, _, ⟨o, c, _, hc, _⟩⟩ := hi
      cases c with
      | nil => exact ⟨_, .rmFnDir fs' _ _ hc⟩
      | cons x c => exact ⟨_, .rmFnFile fs' _ _ [] c x hc⟩
    | mvFn => exact ⟨_, .mvFn fs' _ f newF hi.1 hi.2.2⟩
    | testTemp => exact ⟨_, .testTemp fs' _ _⟩
    | rmTemp =>
      obtain ⟨_, _, ht⟩ := hi
      obtain ⟨l, hl⟩ := Option.isSome_iff_exists.mp ht
      cases l with
      | nil => exact ⟨_, .rmTempDir fs' _ _ hl⟩
      | cons e l =>
        obtain ⟨id, c⟩ := e
        cases c with
        | nil => exact ⟨_, .rmTempSub fs' _ _ [] l id hl⟩
        | cons x c => exact ⟨_, .rmTempFile fs' _ _ [] l id [] c x hl⟩
    | finished => exact absurd rfl hp
    | failed => exact hi.elim

/-- How far a run is: the stage, then the work left in it. -/
def rank : Option Pub → Nat
  | none => 11
  | some .makeRoot => 10
  | some .testMeta => 9
  | some .rmMeta => 8
  | some .mvMeta => 7
  | some .testFn => 6
  | some .rmFn => 5
  | some .mvFn => 4
  | some .testTemp => 3
  | some .rmTemp => 2
  | some .finished => 1
  | some .failed => 1

/-- The work left for a writer. -/
def Writer.left (new : Files) : Writer → Nat
  | .idle => new.length + 2
  | .writing _ todo => todo.length + 1
  | .done _ => 0

/-- The work left in a stage. -/
def left (newM newF : Files) (s : State) : Nat :=
  match s.pub with
  | none => s.mw.left newM + s.fw.left newF
  | some .rmMeta => (s.fs.metadata.getD []).length
  | some .rmFn => (s.fs.fn.getD []).length
  | some .rmTemp => ((s.fs.temp.getD []).map (fun e => e.2.length + 1)).sum
  | _ => 0

/-- **C38** A run without further retries ends: there is no endless sequence of steps. -/
theorem runs_end (newM newF : Files) : WellFounded (fun t s => Step newM newF s t) := by
  have hwf : WellFounded (Prod.Lex (· < ·) (· < · : Nat → Nat → Prop)) :=
    (Prod.lex (Nat.lt_wfRel) (Nat.lt_wfRel)).wf
  refine Subrelation.wf ?_ (InvImage.wf (fun s => (rank s.pub, left newM newF s)) hwf)
  intro t s h
  show Prod.Lex _ _ _ _
  cases h with
  | startMeta fs fw id hid => exact Prod.Lex.right _ (by simp [left, Writer.left])
  | writeMeta fs fw id x todo => exact Prod.Lex.right _ (by simp [left, Writer.left])
  | doneMeta fs fw id => exact Prod.Lex.right _ (by simp [left, Writer.left])
  | startFn fs mw id hid => exact Prod.Lex.right _ (by simp [left, Writer.left])
  | writeFn fs mw id x todo => exact Prod.Lex.right _ (by simp [left, Writer.left])
  | doneFn fs mw id => exact Prod.Lex.right _ (by simp [left, Writer.left])
  | startPub fs m f => exact Prod.Lex.left _ _ (by simp [rank])
  | makeRoot fs mw fw => exact Prod.Lex.left _ _ (by simp [rank])
  | testMeta fs mw fw => exact Prod.Lex.left _ _ (by split <;> simp [rank])
  | rmMetaFile fs mw fw a b x hx => exact Prod.Lex.right _ (by simp [left, hx])
  | rmMetaDir fs mw fw hx => exact Prod.Lex.left _ _ (by simp [rank])
  | mvMeta fs m fw files hf hn => exact Prod.Lex.left _ _ (by simp [rank])
  | mvMetaFails fs m fw hf => exact Prod.Lex.left _ _ (by simp [rank])
  | testFn fs mw fw => exact Prod.Lex.left _ _ (by split <;> simp [rank])
  | rmFnFile fs mw fw a b x hx => exact Prod.Lex.right _ (by simp [left, hx])
  | rmFnDir fs mw fw hx => exact Prod.Lex.left _ _ (by simp [rank])
  | mvFn fs mw f files hf hn => exact Prod.Lex.left _ _ (by simp [rank])
  | mvFnFails fs mw f hf => exact Prod.Lex.left _ _ (by simp [rank])
  | testTemp fs mw fw => exact Prod.Lex.left _ _ (by split <;> simp [rank])
  | rmTempFile fs mw fw l r id a b x hx =>
    exact Prod.Lex.right _ (by simp [left, hx])
  | rmTempSub fs mw fw l r id hx => exact Prod.Lex.right _ (by simp [left, hx])
  | rmTempDir fs mw fw hx => exact Prod.Lex.left _ _ (by simp [rank])

/-- **C38** From every state of a run, retried writers or not, going on leads to the end, and there
the new metadata and function are published. With an arbitrary `fs` this is also what a new run of the
pipeline does after any number of crashed ones. -/
theorem run_completes (newM newF : Files) (fs : Fs) (s : State)
    (h : Runs newM newF (start fs) s) :
    ∃ t, Relation.ReflTransGen (Step newM newF) s t ∧ t.pub = some .finished ∧
      t.fs.metadata = some newM ∧ t.fs.fn = some newF ∧ t.fs.temp = none := by
  induction s using (runs_end newM newF).induction with
  | _ s ih =>
    by_cases hp : s.pub = some .finished
    · exact ⟨s, .refl, hp, (finished_published newM newF fs s h).2 hp⟩
    · obtain ⟨t, ht⟩ := progress newM newF fs s h hp
      obtain ⟨u, hu, hfin⟩ := ih t ht (h.tail (Or.inl ht))
      exact ⟨u, Relation.ReflTransGen.head ht hu, hfin⟩

/-- **C38 is false for retries of the publishing step**: `publish_outputs`, interrupted after the
metadata were moved and run again with the same arguments (as Beam does), deletes the metadata that
it had published and then fails. For every content of the output directory. -/
theorem retry_loses_metadata (newM newF : Files) (fs : Fs) (m f : Nat) (hm : tempFiles m fs = none)
    (hpub : fs.metadata = some newM) :
    ∃ s t, RetryPublish ⟨fs, .done m, .done f, some .testFn⟩ s ∧
      Relation.ReflTransGen (Step newM newF) s t ∧ t.pub = some .failed ∧ t.fs.metadata = none ∧
      t.fs.fn = fs.fn := by
  refine ⟨⟨fs, .done m, .done f, some .makeRoot⟩,
    ⟨{ fs with root := true, metadata := none }, .done m, .done f, some .failed⟩, .retry _ _ _ _,
    ?_, rfl, rfl, rfl⟩
  obtain ⟨root, md, fn, temp⟩ := fs
  simp only at hpub
  subst hpub
  have h1 := Step.makeRoot (newMeta := newM) (newFn := newF) ⟨root, some newM, fn, temp⟩
    (.done m) (.done f)
  have h2 := Step.testMeta (newMeta := newM) (newFn := newF) ⟨true, some newM, fn, temp⟩
    (.done m) (.done f)
  have h3 : ∀ c : Files, Relation.ReflTransGen (Step newM newF)
      ⟨⟨true, some c, fn, temp⟩, .done m, .done f, some .rmMeta⟩
      ⟨⟨true, none, fn, temp⟩, .done m, .done f, some .mvMeta⟩ := by
    intro c
    induction c with
    | nil => exact .single (.rmMetaDir ⟨true, some [], fn, temp⟩ _ _ rfl)
    | cons x c ih => exact .head (.rmMetaFile ⟨true, some (x :: c), fn, temp⟩ _ _ [] c x rfl) ih
  have h4 := Step.mvMetaFails (newMeta := newM) (newFn := newF)
    ⟨true, none, fn, temp⟩ m (.done f) (Or.inl hm)
  exact ((Relation.ReflTransGen.single h1).tail h2).trans ((h3 newM).tail h4)

/-- The state in which that happens is reached by every run, right after the metadata are moved, if
nothing else uses the temporary directory; here for an output directory that does not exist. -/
theorem crash_then_retry_fails :
    ∃ s t u, Runs [("schema", "new")] [("model", "new")] (start {}) s ∧ RetryPublish s t ∧
      Relation.ReflTransGen (Step [("schema", "new")] [("model", "new")]) t u ∧
      u.pub = some .failed ∧ u.fs.metadata = none ∧ u.fs.fn = none := by
  have step : ∀ {a b c}, Runs [("schema", "new")] [("model", "new")] a b →
      Step [("schema", "new")] [("model", "new")] b c →
      Runs [("schema", "new")] [("model", "new")] a c := fun h h' => h.tail (Or.inl h')
  have r1 := step (Relation.ReflTransGen.refl) (.startMeta {} .idle 0 (by decide))
  have r2 := step r1 (.writeMeta _ _ _ _ _)
  have r3 := step r2 (.doneMeta _ _ _)
  have r4 := step r3 (.startFn _ _ 1 (by decide))
  have r5 := step r4 (.writeFn _ _ _ _ _)
  have r6 := step r5 (.doneFn _ _ _)
  have r7 := step r6 (.startPub _ _ _)
  have r8 := step r7 (.makeRoot _ _ _)
  have r9 := step r8 (.testMeta _ _ _)
  have r10 := step r9 (.mvMeta _ _ _ [("schema", "new")] (by decide) (by decide))
  obtain ⟨t, u, h1, h2, h3, h4, h5⟩ := retry_loses_metadata [("schema", "new")] [("model", "new")]
    ⟨true, some [("schema", "new")], none, some [(1, [("model", "new")])]⟩ 0 1 (by decide) rfl
  exact ⟨_, t, u, r10, h1, h2, h3, h4, h5⟩

/-- A crash can leave the new metadata next to the old function. -/
theorem crash_mixes_versions :
    ∃ s, Runs [("schema", "new")] [("model", "new")]
      (start ⟨true, some [("schema", "old")], some [("model", "old")], none⟩) s ∧
      s.fs.metadata = some [("schema", "new")] ∧ s.fs.fn = some [("model", "old")] := by
  have step : ∀ {a b c}, Runs [("schema", "new")] [("model", "new")] a b →
      Step [("schema", "new")] [("model", "new")] b c →
      Runs [("schema", "new")] [("model", "new")] a c := fun h h' => h.tail (Or.inl h')
  have r1 := step (Relation.ReflTransGen.refl) (.startMeta
    ⟨true, some [("schema", "old")], some [("model", "old")], none⟩ .idle 0 (by decide))
  have r2 := step r1 (.writeMeta _ _ _ _ _)
  have r3 := step r2 (.doneMeta _ _ _)
  have r4 := step r3 (.startFn _ _ 1 (by decide))
  have r5 := step r4 (.writeFn _ _ _ _ _)
  have r6 := step r5 (.doneFn _ _ _)
  have r7 := step r6 (.startPub _ _ _)
  have r8 := step r7 (.makeRoot _ _ _)
  have r9 := step r8 (.testMeta _ _ _)
  have r10 := step r9 (.rmMetaFile _ _ _ [] [] ("schema", "old") rfl)
  have r11 := step r10 (.rmMetaDir _ _ _ rfl)
  have r12 := step r11 (.mvMeta _ _ _ [("schema", "new")] (by decide) (by decide))
  exact ⟨_, r12, rfl, rfl⟩

/-! ### C54: copying the SavedModel -/

mutual
/-- Specification: the content of the file at a path of a tree, the entry found first if names
repeat. -/
def fileAt : List String → Tree → Option String
  | [], .file c => some c
  | _ :: _, .file _ => none
  | [], .dir _ => none
  | n :: p, .dir es => fileIn n p es
/-- Specification: the content of the file at a path below a list of entries. -/
def fileIn (n : String) (p : List String) : List (String × Tree) → Option String
  | [] => none
  | (n', t) :: es => if n' = n then fileAt p t else fileIn n p es
end

mutual
/-- All directories of a tree have distinct entries. -/
def Distinct : Tree → Prop
  | .file _ => True
  | .dir es => (es.map Prod.fst).Nodup ∧ DistinctIn es
/-- All entries are trees with distinct entries. -/
def DistinctIn : List (String × Tree) → Prop
  | [] => True
  | (_, t) :: es => Distinct t ∧ DistinctIn es
end

theorem fileIn_none (n : String) (p : List String) (es : List (String × Tree))
    (h : n ∉ es.map Prod.fst) : fileIn n p es = none := by
  induction es with
  | nil => rw [fileIn]
  | cons e es ih =>
    obtain ⟨n', t⟩ := e
    simp only [List.map_cons, List.mem_cons, not_or] at h
    rw [fileIn, if_neg (fun e => h.1 e.symm), ih h.2]

theorem copy_names (es : List (String × Tree)) (n : String) (h : n ∉ es.map Prod.fst) :
    n ∉ (copyEntries es).map Prod.fst := by
  induction es with
  | nil => simp [copyEntries]
  | cons e es ih =>
    obtain ⟨n', t⟩ := e
    simp only [List.map_cons, List.mem_cons, not_or] at h
    rw [copyEntries]
    split
    · exact ih h.2
    · simp only [List.map_cons, List.mem_cons, not_or]
      exact ⟨h.1, ih h.2⟩

mutual
theorem copy_files (name : String) (t : Tree) (hd : Distinct t) (p : List String) :
    (copyTree name t).bind (fileAt p)
      = if metadataDirName ∈ (name :: p).dropLast then none else fileAt p t := by
  cases t with
  | file c =>
    rw [copyTree]
    simp only [Option.bind_some]
    cases p with
    | nil => simp
    | cons n p => simp [fileAt]
  | dir es =>
    rw [copyTree]
    cases p with
    | nil =>
      simp only [fileAt]
      by_cases hn : name = metadataDirName <;> simp [hn, fileAt]
    | cons n p =>
      rw [List.dropLast_cons_of_ne_nil (by simp)]
      by_cases hn : name = metadataDirName
      · simp [hn]
      · rw [if_neg hn, Option.bind_some, fileAt, fileAt]
        rw [Distinct] at hd
        rw [copy_filesIn es hd.2 hd.1 n p]
        have hn' : ¬ metadataDirName = name := fun e => hn e.symm
        simp [hn']
theorem copy_filesIn (es : List (String × Tree)) (hd : DistinctIn es)
    (hn : (es.map Prod.fst).Nodup) (n : String) (p : List String) :
    fileIn n p (copyEntries es)
      = if metadataDirName ∈ (n :: p).dropLast then none else fileIn n p es := by
  cases es with
  | nil => simp [copyEntries, fileIn]
  | cons e es =>
    obtain ⟨n', t⟩ := e
    rw [DistinctIn] at hd
    simp only [List.map_cons, List.nodup_cons] at hn
    have ht := copy_files n' t hd.1 p
    have hes := copy_filesIn es hd.2 hn.2 n p
    rw [copyEntries]
    by_cases hnn : n' = n
    · subst hnn
      have hnone := fileIn_none n' p es hn.1
      have hnone' := fileIn_none n' p (copyEntries es) (copy_names es n' hn.1)
      rw [fileIn, if_pos rfl]
      split
      · rename_i hc
        rw [hc] at ht
        rw [hnone', ← ht]; rfl
      · rename_i t' hc
        rw [hc] at ht
        rw [fileIn, if_pos rfl, ← ht]; rfl
    · rw [fileIn, if_neg hnn]
      split
      · exact hes
      · rw [fileIn, if_neg hnn]; exact hes
end

/-- **C54** The copy of a SavedModel directory contains, at the same paths and with the same content,
exactly the files that are not below a directory called `.tft_metadata`. -/
theorem copy_exact (name : String) (es : List (String × Tree)) (hname : name ≠ metadataDirName)
    (hd : Distinct (.dir es)) :
    ∃ t, copyTree name (.dir es) = some t ∧
      ∀ p, fileAt p t = if metadataDirName ∈ p.dropLast then none else fileAt p (.dir es) := by
  refine ⟨.dir (copyEntries es), by rw [copyTree, if_neg hname], fun p => ?_⟩
  have h := copy_files name (.dir es) hd p
  rw [copyTree, if_neg hname, Option.bind_some] at h
  rw [h]
  cases p with
  | nil => simp [fileAt]
  | cons n p =>
    have hn' : ¬ metadataDirName = name := fun e => hname e.symm
    simp [hn']

/-- A source directory that is itself called `.tft_metadata` is not copied at all. -/
theorem copy_metadata_dir (es : List (String × Tree)) :
    copyTree metadataDirName (.dir es) = none := by rw [copyTree, if_pos rfl]

/-- A tree with a metadata directory and a metadata file. -/
example : Distinct (.dir [("assets", .dir [("v", .file "a")]), (".tft_metadata", .dir [("x", .file "b")]),
    ("saved_model.pb", .file "c")]) ∧
    fileAt ["assets", "v"] (.dir [("assets", .dir [("v", .file "a")]),
      (".tft_metadata", .dir [("x", .file "b")]), ("saved_model.pb", .file "c")]) = some "a" := by
  refine ⟨?_, rfl⟩
  simp [Distinct, DistinctIn]

end TFT.Publish
