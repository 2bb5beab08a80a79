import Verif.Combine.PerKey
import Verif.Combine.PackedProps
import Verif.Combine.NumPyProps

/-! Lemmas about per-key analyses. -/

namespace TFT

variable {K V Acc Out : Type}

/-- The values of key `k` in a keyed collection. -/
def Spec.valuesOf [DecidableEq K] (k : K) (pc : List (K × V)) : List V :=
  (pc.filter (fun p => decide (p.1 = k))).map Prod.snd

open Spec

theorem valuesOf_append [DecidableEq K] (k : K) (a b : List (K × V)) :
    valuesOf k (a ++ b) = valuesOf k a ++ valuesOf k b := by simp [valuesOf]

theorem valuesOf_flatten [DecidableEq K] (k : K) (ls : List (List (K × V))) :
    valuesOf k ls.flatten = (ls.map (valuesOf k)).flatten := by
  induction ls with
  | nil => rfl
  | cons l ls ih => simp [valuesOf_append, ih]

/-- Positions of `k` in `fk`. -/
def positions [DecidableEq K] (k : K) (fk : List K) : List Nat :=
  (List.range fk.length).filter (fun i => decide (fk[i]? = some k))

theorem positions_rank [DecidableEq K] (k : K) (fk : List K) :
    (positions k fk).map (fun i => (fk.take i).count k) = List.range (fk.count k) := by
  induction fk using List.reverseRecOn with
  | nil => rfl
  | append_singleton fk a ih =>
    have h1 : positions k (fk ++ [a])
        = positions k fk ++ (if a = k then [fk.length] else []) := by
      unfold positions
      rw [List.length_append, List.length_singleton, List.range_succ, List.filter_append]
      congr 1
      · apply List.filter_congr
        intro i hi
        rw [List.getElem?_append_left (List.mem_range.1 hi)]
      · by_cases h : a = k <;> simp [h]
    rw [h1, List.map_append]
    have h2 : (positions k fk).map (fun i => ((fk ++ [a]).take i).count k)
        = (positions k fk).map (fun i => (fk.take i).count k) := by
      apply List.map_congr_left
      intro i hi
      have := List.mem_range.1 (List.mem_filter.1 hi).1
      rw [List.take_append_of_le_length (by omega)]
    rw [h2, ih]
    by_cases h : a = k
    · simp [h, List.range_succ]
    · simp [h]

theorem valuesOf_rank [DecidableEq K] (k : K) (flat : List (K × V)) (i : Nat)
    (h : (flat.map Prod.fst)[i]? = some k) :
    (flat[i]?).map Prod.snd = (valuesOf k flat)[((flat.map Prod.fst).take i).count k]? := by
  induction flat generalizing i with
  | nil => simp at h
  | cons p flat ih =>
    obtain ⟨a, b⟩ := p
    cases i with
    | zero =>
      simp only [List.map_cons, List.getElem?_cons_zero, Option.some.injEq] at h
      subst h
      simp [valuesOf]
    | succ i =>
      simp only [List.map_cons, List.getElem?_cons_succ] at h
      have := ih i h
      simp only [List.getElem?_cons_succ, List.map_cons, List.take_succ_cons]
      rw [this]
      by_cases hk : a = k
      · simp [valuesOf, hk]
      · simp [valuesOf, hk]

theorem valuesOf_map_nodup [DecidableEq K] (k : K) (ks : List K) (hnd : ks.Nodup) (f : K → V) :
    valuesOf k (ks.map (fun k' => (k', f k'))) = if k ∈ ks then [f k] else [] := by
  induction ks with
  | nil => simp [valuesOf]
  | cons a ks ih =>
    have := ih hnd.of_cons
    have hn := (List.nodup_cons.1 hnd).1
    simp only [valuesOf, List.map_cons, List.filter_cons] at *
    by_cases h : a = k
    · subst h
      simp only [decide_true, if_true, List.map_cons, List.mem_cons, true_or, this, hn, if_false]
    · have h' : ¬ k = a := fun e => h e.symm
      simp only [h, decide_false, Bool.false_eq_true, if_false, List.mem_cons, h', false_or]
      exact this

theorem seqExcept_ok_map {α β : Type} (l : List α) (f : α → Except Err β) (g : α → β)
    (h : ∀ a ∈ l, f a = .ok (g a)) : seqExcept (l.map f) = .ok (l.map g) := by
  induction l with
  | nil => rfl
  | cons a l ih =>
    simp only [List.map_cons, seqExcept, h a (by simp), ih (fun b hb => h b (by simp [hb])), bind,
      Except.bind]

theorem Sched.map_map {A B C : Type} (f : A → B) (g : B → C) (s : Sched A) :
    (s.map f).map g = s.map (fun x => g (f x)) := by
  induction s using Sched.ind with
  | h0 => simp [Sched.map]
  | h1 s b ih => simp [Sched.map, ih]
  | h3 s ih => simp [Sched.map, ih]
  | h2 ss ih =>
    simp only [Sched.map, Sched.mapList_eq, List.map_map, Sched.merge.injEq]
    apply List.map_congr_left
    intro s hs
    exact ih s hs

/-- A combiner fed through `f` is the combiner on renamed schedules. -/
theorem analysis_onBatches {In B : Type} (c : Combiner Acc In Out) (f : B → In)
    (s1 : List (Sched B)) (s2 : Sched Nat) :
    analysis (c.onBatches f) s1 s2 = analysis c (s1.map (Sched.map f)) s2 := by
  have h : ∀ s1 : List (Sched B), Sched.runList (c.onBatches f).accumulateStage s1
      = Sched.runList c.accumulateStage (s1.map (Sched.map f)) := by
    intro s1
    induction s1 with
    | nil => rfl
    | cons s s1 ih =>
      simp only [List.map_cons, Sched.runList, ih, Sched.run_map]
      rfl
  unfold analysis
  rw [h]
  rfl

theorem ValidRun.map {In B : Type} (f : B → In) {s1 : List (Sched B)} {s2 : Sched Nat}
    (h : ValidRun s1 s2) : ValidRun (s1.map (Sched.map f)) s2 where
  merges1 := by
    intro s hs
    obtain ⟨t, ht, rfl⟩ := List.mem_map.1 hs
    exact (h.merges1 t ht).map f
  merges2 := h.merges2
  once := by simpa using h.once

theorem allInputs_map {In B : Type} (f : B → In) (s1 : List (Sched B)) :
    allInputs (s1.map (Sched.map f)) = (allInputs s1).map f := by
  simp [allInputs, List.map_flatten, Function.comp_def, Sched.inputs_map]

end TFT
