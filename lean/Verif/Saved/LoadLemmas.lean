import Verif.Saved.Load
import Mathlib.Data.List.Induction

/-!
# Lemmas about maps, signatures and runs of graphs
-/

namespace TFT.SavedLoad

section maps

variable {α : Type}

theorem find_nil (k : Str) : find ([] : List (Str × α)) k = none := rfl

theorem find_cons (e : Str × α) (m : List (Str × α)) (k : Str) :
    find (e :: m) k = if e.1 = k then some e.2 else find m k := by
  unfold find
  rw [List.find?_cons]
  by_cases h : e.1 = k <;> simp [h]

theorem find_append (m m' : List (Str × α)) (k : Str) :
    find (m ++ m') k = (find m k).or (find m' k) := by
  induction m with
  | nil => simp [find_nil]
  | cons e m ih =>
    rw [List.cons_append, find_cons, find_cons, ih]
    split <;> simp

theorem find_erase (m : List (Str × α)) (k k' : Str) :
    find (erase m k) k' = if k' = k then none else find m k' := by
  induction m with
  | nil => simp [erase, find_nil]
  | cons e m ih =>
    have ih' : find (List.filter (fun e => decide (e.1 ≠ k)) m) k'
        = if k' = k then none else find m k' := ih
    show find (List.filter (fun e => decide (e.1 ≠ k)) (e :: m)) k' = _
    by_cases he : e.1 = k
    · rw [List.filter_cons_of_neg (by simp [he]), ih', find_cons]
      by_cases hk : k' = k
      · simp [hk]
      · have : ¬ e.1 = k' := fun h => hk (h.symm.trans he)
        simp [hk, this]
    · rw [List.filter_cons_of_pos (by simp [he]), find_cons, ih', find_cons]
      by_cases hk : k' = k
      · have : ¬ e.1 = k' := fun h => he (h.trans hk)
        subst hk
        simp [this]
      · simp [hk]

theorem find_put (m : List (Str × α)) (k k' : Str) (v : α) :
    find (put m k v) k' = if k' = k then some v else find m k' := by
  unfold put
  rw [find_append, find_erase, find_cons, find_nil]
  by_cases h : k' = k
  · simp [h]
  · have : ¬ k = k' := fun h' => h h'.symm
    simp [h, this]

theorem keys_erase_nodup (m : List (Str × α)) (k : Str) (h : (m.map Prod.fst).Nodup) :
    ((erase m k).map Prod.fst).Nodup :=
  h.sublist ((List.filter_sublist).map _)

theorem not_mem_keys_erase (m : List (Str × α)) (k : Str) : k ∉ (erase m k).map Prod.fst := by
  simp [erase]

theorem keys_put_nodup (m : List (Str × α)) (k : Str) (v : α) (h : (m.map Prod.fst).Nodup) :
    ((put m k v).map Prod.fst).Nodup := by
  unfold put
  rw [List.map_append, List.nodup_append]
  refine ⟨keys_erase_nodup m k h, by simp, ?_⟩
  intro a ha b hb hab
  simp only [List.map_cons, List.map_nil, List.mem_singleton] at hb
  subst hab hb
  exact not_mem_keys_erase m _ ha

theorem find_eq_none (m : List (Str × α)) (k : Str) : find m k = none ↔ k ∉ m.map Prod.fst := by
  induction m with
  | nil => simp [find_nil]
  | cons e m ih =>
    rw [find_cons]
    by_cases h : e.1 = k
    · simp [h]
    · have : ¬ k = e.1 := fun h' => h h'.symm
      simp [h, ih, this]

theorem find_mem {m : List (Str × α)} {k : Str} {v : α} (h : find m k = some v) : (k, v) ∈ m := by
  induction m with
  | nil => simp [find_nil] at h
  | cons e m ih =>
    rw [find_cons] at h
    by_cases he : e.1 = k
    · rw [if_pos he] at h
      injection h with h
      subst he h
      exact List.mem_cons_self
    · rw [if_neg he] at h
      exact List.mem_cons_of_mem _ (ih h)

theorem find_of_mem {m : List (Str × α)} (hn : (m.map Prod.fst).Nodup) {k : Str} {v : α}
    (h : (k, v) ∈ m) : find m k = some v := by
  induction m with
  | nil => simp at h
  | cons e m ih =>
    rw [List.map_cons, List.nodup_cons] at hn
    rw [find_cons]
    rcases List.mem_cons.1 h with h | h
    · subst h; simp
    · have : ¬ e.1 = k := by
        intro he
        apply hn.1
        rw [he]
        exact List.mem_map_of_mem (f := Prod.fst) h
      rw [if_neg this]
      exact ih hn.2 h

theorem find_perm {m m' : List (Str × α)} (hp : m.Perm m') (hn : (m.map Prod.fst).Nodup) (k : Str) :
    find m k = find m' k := by
  have hn' : (m'.map Prod.fst).Nodup := (hp.map _).nodup_iff.1 hn
  cases h : find m k with
  | none =>
    symm
    rw [find_eq_none] at h ⊢
    exact fun h' => h ((hp.map _).mem_iff.2 h')
  | some v => exact (find_of_mem hn' (hp.mem_iff.1 (find_mem h))).symm

theorem find_map {β : Type} (m : List (Str × α)) (f : α → β) (k : Str) :
    find (m.map (fun e => (e.1, f e.2))) k = (find m k).map f := by
  induction m with
  | nil => rfl
  | cons e m ih =>
    rw [List.map_cons, find_cons, find_cons, ih]
    split <;> simp

theorem find_putAll (es m : List (Str × α)) (hn : (es.map Prod.fst).Nodup) (k : Str) :
    find (putAll m es) k = (find es k).or (find m k) := by
  induction es generalizing m with
  | nil => simp [putAll, find_nil]
  | cons e es ih =>
    rw [List.map_cons, List.nodup_cons] at hn
    have hp : putAll m (e :: es) = putAll (put m e.1 e.2) es := rfl
    rw [hp, ih _ hn.2, find_put, find_cons]
    by_cases h : k = e.1
    · subst h
      have : find es e.1 = none := (find_eq_none _ _).2 hn.1
      simp [this]
    · have h' : ¬ e.1 = k := fun h'' => h h''.symm
      simp [h, h']

end maps

/-- A name that does not look like a component in an old signature. -/
def Plain (name : Str) : Prop :=
  '\n' ∉ name ∧ ∀ s ∈ ["$indices", "$values", "$dense_shape", "$dense_tensor"], ¬ s.toList <:+ name

theorem getLast?_ne_newline {name : Str} (h : '\n' ∉ name) : name.getLast? ≠ some '\n' := by
  intro h'
  exact h (List.mem_of_getLast? h')

theorem matchMangled_plain {name : Str} (h : Plain name) : matchMangled name = none := by
  unfold matchMangled
  rw [if_neg (getLast?_ne_newline h.1)]
  have h1 := h.2 "$indices" (by simp)
  have h2 := h.2 "$values" (by simp)
  have h3 := h.2 "$dense_shape" (by simp)
  have h4 := h.2 "$dense_tensor" (by simp)
  have hk : ∀ k : Kind, k.suffix.isSuffixOf name = false := by
    intro k
    rw [Bool.eq_false_iff]
    intro hs
    rw [List.isSuffixOf_iff_suffix] at hs
    cases k
    · exact h1 hs
    · exact h2 hs
    · exact h3 hs
    · exact h4 hs
  simp [hk]

theorem suffix_other (n : Str) (k k' : Kind) (h : k' ≠ k) :
    k'.suffix.isSuffixOf (n ++ k.suffix) = false := by
  rw [Bool.eq_false_iff]
  intro hs
  rw [List.isSuffixOf_iff_suffix] at hs
  obtain ⟨t, ht⟩ := hs
  have h3 := congrArg (fun l => l.reverse.take 4) ht
  simp only [List.reverse_append] at h3
  have hl : ∀ (k : Kind) (l : Str), (k.suffix.reverse ++ l).take 4 = k.suffix.reverse.take 4 := by
    intro k l
    rw [List.take_append_of_le_length (by cases k <;> decide)]
  rw [hl, hl] at h3
  revert h3 h
  cases k <;> cases k' <;> decide

theorem newline_not_mem_suffix (k : Kind) : '\n' ∉ k.suffix := by cases k <;> decide

theorem matchMangled_suffix (n : Str) (k : Kind) (h : '\n' ∉ n) :
    matchMangled (n ++ k.suffix) = some (n, k) := by
  unfold matchMangled
  have hn : '\n' ∉ n ++ k.suffix := by
    rw [List.mem_append]
    rintro (h' | h')
    · exact h h'
    · exact newline_not_mem_suffix k h'
  rw [if_neg (getLast?_ne_newline hn)]
  have hself : k.suffix.isSuffixOf (n ++ k.suffix) = true := by
    rw [List.isSuffixOf_iff_suffix]
    exact List.suffix_append _ _
  have htake : (n ++ k.suffix).take ((n ++ k.suffix).length - k.suffix.length) = n := by
    simp
  have hc : (!(n.contains '\n')) = true := by simpa using h
  have hone : ∀ k', (k'.suffix.isSuffixOf (n ++ k.suffix)
      && !((n ++ k.suffix).take ((n ++ k.suffix).length - k'.suffix.length)).contains '\n')
      = decide (k' = k) := by
    intro k'
    by_cases hk : k' = k
    · subst hk
      rw [hself, htake, hc]
      simp
    · rw [suffix_other n k k' hk]
      simp [hk]
  simp only [hone]
  cases k <;> simp [htake]

end TFT.SavedLoad
