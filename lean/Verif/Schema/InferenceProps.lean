import Verif.Schema.InferenceLemmas
import Std.Data.String.ToNat
import Mathlib.Data.List.Induction

/-!
# The published schema describes the transformed data (C62)
-/

namespace TFT.SchemaInference

open TFT.FeatureSpec

/-! ## Specification -/

namespace Spec

/-- The range recorded for a tensor by a call. -/
def rangeIn (t : Ref) : Call → Option (Int × Int)
  | .override u lo hi => if u = t then some (lo, hi) else none
  | _ => none

/-- The range of a tensor: the last one recorded. -/
def range (calls : List Call) (t : Ref) : Option (Int × Int) :=
  (calls.filterMap (rangeIn t)).getLast?

/-- The annotation of a tensor by a call. -/
def annotationIn (t : Ref) : Call → Option Annotation
  | .annotate u a => if u = t then some a else none
  | _ => none

/-- The annotations of a tensor, in order. -/
def annotations (calls : List Call) (t : Ref) : List Annotation := calls.filterMap (annotationIn t)

/-- A global annotation by a call. -/
def globalIn : Call → Option Annotation
  | .annotateGlobal _ _ a => some a
  | _ => none

/-- The global annotations, in order. -/
def globals (calls : List Call) : List Annotation := calls.filterMap globalIn

/-- The shape annotated by a call. -/
def shapeIn (t : Ref) : Call → Option (List Int)
  | .sparseShape u _ s => if u = t then some s else none
  | _ => none

/-- Is the sparse tensor with these values annotated to be sparse? -/
def marked (calls : List Call) (t : Ref) : Bool :=
  calls.any (fun c => c = .trulySparse t ∨ (shapeIn t c).isSome)

/-- The annotated shape: the last one. -/
def shape (calls : List Call) (t : Ref) : Option (List Int) :=
  (calls.filterMap (shapeIn t)).getLast?

/-- The tensor that carries the values of an output. -/
def values : Out → Ref
  | .dense v _ => v
  | .sparse v _ => v
  | .ragged v _ _ => v
  | .other _ => ⟨"", .other ""⟩

/-- What the user may return from `preprocessing_fn`: tensors of string, int64 or float32; dense ones
with a rank of at least one and, once all analyzers have been evaluated, known sizes apart from the
batch; sparse and ragged ones of known rank. An annotated shape must have as many sizes as the tensor
has dimensions apart from the batch, none negative. -/
def Acceptable (calls : List Call) (complete : Bool) : Out → Prop
  | .dense v (some (_ :: dims)) =>
    v.dtype ∈ [DType.string, DType.int64, DType.float32] ∧ (complete = true → none ∉ dims)
  | .dense _ _ => False
  | .sparse v (some s) =>
    v.dtype ∈ [DType.string, DType.int64, DType.float32] ∧
      (complete = true → ∀ sizes, shape calls v = some sizes →
        sizes.length = s.length - 1 ∧ ∀ n ∈ sizes, 0 ≤ n)
  | .sparse _ none => False
  | .ragged v s _ => v.dtype ∈ [DType.string, DType.int64, DType.float32] ∧ s ≠ none
  | .other _ => False

/-- The partition of a ragged output at a dimension inside its values: of uniform length if the size
is known, else with row lengths in a column of its own, numbered from 1. -/
def partition (name : String) (dims : List (Option Int)) (p : Nat) : Partition :=
  match dims[p]? with
  | some (some n) => .uniformRowLength n
  | _ => .rowLengths (name ++ "$row_lengths_" ++ toString ((dims.take p).countP (· = none) + 1))

/-- The spec that describes an output: fixed length for a dense tensor; variable length for a sparse
one of rank two (or less) unless annotated, else sparse with the annotated sizes or those of the
tensor, -1 for an unknown one; ragged for a ragged one. -/
def spec (calls : List Call) (complete : Bool) (name : String) : Out → FeatureSpec.Spec
  | .dense v s => .fixedLen ((s.getD []).tail.map (fun d : Option Int => d.getD 0)) v.dtype none
  | .sparse v s =>
    if (s.getD []).length ≤ 2 ∧ ¬(complete = true ∧ marked calls v = true) then .varLen v.dtype
    else .sparse
      (.list ((List.range ((s.getD []).length - 1)).map
        (fun i : Nat => name ++ "$sparse_indices_" ++ toString i)))
      (name ++ "$sparse_values") v.dtype
      (.list ((match (if complete then shape calls v else none) with
        | some sizes => sizes
        | none => (s.getD []).tail.map (fun d : Option Int => d.getD (-1))).map some)) true
  | .ragged v s _ =>
    .ragged v.dtype (some (name ++ "$ragged_values"))
      ((List.range (s.getD []).tail.length).map (partition name (s.getD []).tail)) .int64
  | .other t => .other t

/-- The domain of an output: categorical if its values have a range, with the ends of the range once
they have been computed. -/
def domain (calls : List Call) (complete : Bool) (o : Out) : Option Domain :=
  match range calls (values o) with
  | none => none
  | some (lo, hi) => some (if complete then .int (some lo) (some hi) true else .int none none true)

/-- The column of the schema that holds the values of an output. -/
def column (calls : List Call) (complete : Bool) (name : String) (o : Out) : String :=
  match spec calls complete name o with
  | .sparse _ v _ _ _ => v
  | .ragged _ _ _ _ => name ++ "$ragged_values"
  | _ => name

end Spec

/-! ## What a trace has recorded -/

/-- The pairs in the collections. -/
def callOverride : Call → Option (Ref × Int × Int)
  | .override t lo hi => some (t, lo, hi)
  | _ => none
/-- See `callOverride`. -/
def callAnnotation : Call → Option (Ref × Annotation)
  | .annotate t a => some (t, a)
  | .annotateGlobal scopes k a => some (⟨markerName scopes k, .string⟩, a)
  | _ => none
/-- See `callOverride`. -/
def callShape : Call → Option (Ref × List Int)
  | .sparseShape t _ s => some (t, s)
  | _ => none
/-- See `callOverride`. -/
def callTruly : Call → Option Ref
  | .trulySparse t => some t
  | _ => none

theorem trace_ok (calls : List Call) (c : Collections) (h : trace calls = .ok c) :
    c.overrides = calls.filterMap callOverride ∧ c.annotations = calls.filterMap callAnnotation ∧
      c.sparseShapes = calls.filterMap callShape ∧ c.trulySparse = calls.filterMap callTruly ∧
      (∀ t lo hi, Call.override t lo hi ∈ calls → t.dtype = .int64) := by
  have key : ∀ (calls : List Call) (c0 c : Collections), calls.foldlM record c0 = .ok c →
      c.overrides = c0.overrides ++ calls.filterMap callOverride ∧
      c.annotations = c0.annotations ++ calls.filterMap callAnnotation ∧
      c.sparseShapes = c0.sparseShapes ++ calls.filterMap callShape ∧
      c.trulySparse = c0.trulySparse ++ calls.filterMap callTruly ∧
      (∀ t lo hi, Call.override t lo hi ∈ calls → t.dtype = .int64) := by
    intro calls
    induction calls with
    | nil =>
      intro c0 c h
      simp only [List.foldlM_nil, pure, Except.pure, Except.ok.injEq] at h
      subst h; simp
    | cons x xs ih =>
      intro c0 c h
      rw [List.foldlM_cons] at h
      cases hr : record c0 x with
      | error e => rw [hr] at h; cases h
      | ok c1 =>
        rw [hr] at h
        obtain ⟨a1, a2, a3, a4, a5⟩ := ih c1 c h
        cases x with
        | override t lo hi =>
          simp only [record] at hr
          by_cases hd : t.dtype = .int64
          · rw [if_neg (by simpa using hd)] at hr
            cases hr
            refine ⟨by simpa [callOverride, List.filterMap_cons] using a1, by simpa [callAnnotation, List.filterMap_cons] using a2,
              by simpa [callShape, List.filterMap_cons] using a3, by simpa [callTruly, List.filterMap_cons] using a4, ?_⟩
            intro t' lo' hi' hm
            rcases List.mem_cons.1 hm with he | hm
            · cases he; exact hd
            · exact a5 _ _ _ hm
          · rw [if_pos hd] at hr; cases hr
        | annotate t a =>
          cases hr
          exact ⟨by simpa [callOverride, List.filterMap_cons] using a1, by simpa [callAnnotation, List.filterMap_cons] using a2,
            by simpa [callShape, List.filterMap_cons] using a3, by simpa [callTruly, List.filterMap_cons] using a4,
            fun t lo hi hm => a5 t lo hi (by simpa using hm)⟩
        | annotateGlobal sc k a =>
          cases hr
          exact ⟨by simpa [callOverride, List.filterMap_cons] using a1, by simpa [callAnnotation, List.filterMap_cons] using a2,
            by simpa [callShape, List.filterMap_cons] using a3, by simpa [callTruly, List.filterMap_cons] using a4,
            fun t lo hi hm => a5 t lo hi (by simpa using hm)⟩
        | sparseShape t ts s =>
          cases ts with
          | none => cases hr
          | some ts =>
            simp only [record] at hr
            split at hr
            · cases hr
            · split at hr
              · cases hr
                exact ⟨by simpa [callOverride, List.filterMap_cons] using a1, by simpa [callAnnotation, List.filterMap_cons] using a2,
                  by simpa [callShape, List.filterMap_cons] using a3, by simpa [callTruly, List.filterMap_cons] using a4,
                  fun t lo hi hm => a5 t lo hi (by simpa using hm)⟩
              · cases hr
        | trulySparse t =>
          cases hr
          exact ⟨by simpa [callOverride, List.filterMap_cons] using a1, by simpa [callAnnotation, List.filterMap_cons] using a2,
            by simpa [callShape, List.filterMap_cons] using a3, by simpa [callTruly, List.filterMap_cons] using a4,
            fun t lo hi hm => a5 t lo hi (by simpa using hm)⟩
  simpa using key calls {} c h

theorem dictGet_eq {κ α : Type} [DecidableEq κ] (d : List (κ × α)) (k : κ) :
    dictGet d k = (d.filterMap (fun e => if e.1 = k then some e.2 else none)).getLast? := by
  unfold dictGet
  induction d using List.reverseRecOn with
  | nil => rfl
  | append_singleton d e ih =>
    rw [List.reverse_append, List.filterMap_append]
    by_cases h : e.1 = k
    · simp [h]
    · simpa [h] using ih

theorem dictGet_append {κ α : Type} [DecidableEq κ] (a b : List (κ × α)) (k : κ) :
    dictGet (a ++ b) k = (dictGet b k).or (dictGet a k) := by
  unfold dictGet
  rw [List.reverse_append, List.find?_append]
  cases b.reverse.find? (fun e => decide (e.1 = k)) <;> simp

theorem range_eq (calls : List Call) (c : Collections) (h : trace calls = .ok c) (t : Ref) :
    dictGet c.overrides t = Spec.range calls t := by
  rw [(trace_ok calls c h).1, dictGet_eq, List.filterMap_filterMap]
  unfold Spec.range
  congr 2
  funext x
  cases x <;> simp [callOverride, Spec.rangeIn]

theorem shape_eq (calls : List Call) (c : Collections) (h : trace calls = .ok c) (t : Ref) :
    dictGet c.sparseShapes t = Spec.shape calls t := by
  rw [(trace_ok calls c h).2.2.1, dictGet_eq, List.filterMap_filterMap]
  unfold Spec.shape
  congr 2
  funext x
  cases x <;> simp [callShape, Spec.shapeIn]

/-! ## The feature spec -/

/-- What the annotations of a sparse output say, if they are considered. -/
def markOf (calls : List Call) (complete : Bool) (t : Ref) : Option Mark :=
  if complete = true then
    match Spec.shape calls t with
    | some s => some (.shape s)
    | none => if Spec.marked calls t = true then some .only else none
  else none

/-- The spec that is written for an output. -/
def written (mark : Option Mark) (name : String) : Out → Spec
  | .dense v s => .fixedLen ((s.getD []).tail.map (fun d : Option Int => d.getD 0)) v.dtype none
  | .sparse v s =>
    if 2 < (s.getD []).length ∨ mark ≠ none then
      .sparse
        (.list ((List.range ((s.getD []).length - 1)).map
          (fun i : Nat => name ++ "$sparse_indices_" ++ toString i)))
        (name ++ "$sparse_values") v.dtype
        (.list (match mark with
          | some (.shape ns) => ns.map some
          | _ => (s.getD []).tail)) true
    else .varLen v.dtype
  | .ragged v s t => .ragged v.dtype (some (name ++ "$ragged_values"))
      (raggedPartitions name 1 (s.getD []).tail) t
  | .other t => .other t

/-- The conditions on the tensors alone. -/
def Plausible (complete : Bool) : Out → Prop
  | .dense v (some (_ :: dims)) => validDType v.dtype = true ∧ (complete = true → none ∉ dims)
  | .dense _ _ => False
  | .sparse v s => validDType v.dtype = true ∧ s ≠ none
  | .ragged v s _ => validDType v.dtype = true ∧ s ≠ none
  | .other _ => False

/-- The condition on a mark. -/
def MarkOk (mark : Option Mark) : Out → Prop
  | .sparse _ _ => ∀ sizes, mark = some (.shape sizes) → ∀ n ∈ sizes, 0 ≤ n
  | _ => True

/-- The condition on the number of sizes. -/
def RankOk (mark : Option Mark) : Out → Prop
  | .sparse _ (some s) => ∀ sizes, mark = some (.shape sizes) → sizes.length = s.length - 1
  | _ => True

/-- The mark as far as it matters before shapes are replaced. -/
def Mark.forget : Option Mark → Option Mark
  | none => none
  | some _ => some .only

theorem specOfOutput_ok (complete : Bool) (forced : List String) (name : String) (o : Out)
    (mark : Option Mark) (hm : name ∈ forced ↔ mark ≠ none) (h : Plausible complete o) :
    specOfOutput complete forced name o = .ok (written (Mark.forget mark) name o) := by
  cases o with
  | dense v s =>
    cases s with
    | none => exact h.elim
    | some s =>
      cases s with
      | nil => exact h.elim
      | cons b dims =>
        obtain ⟨h1, h2⟩ := h
        simp only [specOfOutput, h1, Bool.not_true, Bool.false_eq_true, if_false]
        rw [if_neg (fun hc => h2 hc.1 hc.2)]
        rfl
  | sparse v s =>
    obtain ⟨h1, h2⟩ := h
    cases s with
    | none => exact absurd rfl h2
    | some s =>
      simp only [specOfOutput, h1, Bool.not_true, Bool.false_eq_true, if_false, written,
        Option.getD_some]
      have hf : (Mark.forget mark ≠ none) ↔ mark ≠ none := by cases mark <;> simp [Mark.forget]
      by_cases hc : 2 < s.length ∨ name ∈ forced
      · rw [if_pos hc, if_pos (by rw [hf, ← hm]; exact hc)]
        cases mark <;> rfl
      · rw [if_neg hc, if_neg (by rw [hf, ← hm]; exact hc)]
  | ragged v s t =>
    obtain ⟨h1, h2⟩ := h
    cases s with
    | none => exact absurd rfl h2
    | some s =>
      simp only [specOfOutput, h1, Bool.not_true, Bool.false_eq_true, if_false, written, raggedSpec,
        Option.getD_some]
  | other t => exact h.elim

theorem specOfOutput_error (complete : Bool) (forced : List String) (name : String) (o : Out)
    (h : ¬Plausible complete o) : ∃ e, specOfOutput complete forced name o = .error e := by
  cases o with
  | dense v s =>
    by_cases hd : validDType v.dtype = true
    · cases s with
      | none => exact ⟨_, by simp [specOfOutput, hd]; rfl⟩
      | some s =>
        cases s with
        | nil => exact ⟨_, by simp [specOfOutput, hd]; rfl⟩
        | cons b dims =>
          have : complete = true ∧ none ∈ dims := by
            by_contra hc
            exact h ⟨hd, fun h1 h2 => hc ⟨h1, h2⟩⟩
          refine ⟨"ValueError: apart from the batch dimension, all dimensions must have known size", ?_⟩
          simp only [specOfOutput, hd, Bool.not_true, Bool.false_eq_true, if_false]
          rw [if_pos this]
    · exact ⟨_, by simp [specOfOutput, hd]; rfl⟩
  | sparse v s =>
    by_cases hd : validDType v.dtype = true
    · cases s with
      | none => exact ⟨_, by simp [specOfOutput, hd]; rfl⟩
      | some s => exact absurd ⟨hd, by simp⟩ h
    · exact ⟨_, by simp [specOfOutput, hd]; rfl⟩
  | ragged v s t =>
    by_cases hd : validDType v.dtype = true
    · cases s with
      | none => exact ⟨_, by simp [specOfOutput, hd, raggedSpec]; rfl⟩
      | some s => exact absurd ⟨hd, by simp⟩ h
    · exact ⟨_, by simp [specOfOutput, hd]; rfl⟩
  | other t => exact ⟨_, rfl⟩

theorem mapM_error {α β : Type} (f : α → Except Err β) (l : List α) (a : α) (ha : a ∈ l)
    (h : ∃ e, f a = .error e) : ∃ e, l.mapM f = .error e := by
  induction l with
  | nil => cases ha
  | cons b l ih =>
    rw [List.mapM_cons]
    cases hb : f b with
    | error e => exact ⟨e, rfl⟩
    | ok y =>
      rcases List.mem_cons.1 ha with rfl | ha
      · rw [hb] at h; obtain ⟨e, he⟩ := h; cases he
      · obtain ⟨e, he⟩ := ih ha
        exact ⟨e, by simp [he, bind, Except.bind]⟩

theorem featureSpec_ok (outs : List (String × Out)) (complete : Bool) (marks : List (String × Mark))
    (h : ∀ o ∈ outs, Plausible complete o.2) :
    featureSpec outs complete (marks.map Prod.fst)
      = .ok (outs.map (fun o => (o.1, written (Mark.forget (marks.lookup o.1)) o.1 o.2))) := by
  apply mapM_ok
  intro o ho
  unfold specEntry
  rw [specOfOutput_ok complete _ o.1 o.2 (marks.lookup o.1) _ (h o ho)]
  · rfl
  · generalize o.1 = k
    induction marks with
    | nil => simp
    | cons e es ih =>
      rw [lookup_cons_if, List.map_cons, List.mem_cons, ih]
      by_cases hk : k = e.1 <;> simp [hk]

theorem overrideSpec_written (m : Mark) (name : String) (o : Out) (h : MarkOk (some m) o) :
    overrideSpec m (written (some .only) name o) = .ok (written (some m) name o) := by
  cases o with
  | sparse v s =>
    simp only [written, ne_eq, reduceCtorEq, not_false_eq_true, or_true, if_true, overrideSpec]
    cases m with
    | only => rfl
    | shape ns =>
      have h1 : ns.any (fun x => decide (x < 0)) = false := by
        rw [List.any_eq_false]
        intro x hx; simpa using h ns rfl x hx
      simp only [h1]
      rfl
  | _ => rfl

theorem overrideSpec_bad (m : Mark) (name : String) (o : Out) (h : ¬MarkOk (some m) o) :
    overrideSpec m (written (some .only) name o) = .error "ValueError: Dimension must be >= 0" := by
  cases o with
  | sparse v s =>
    simp only [written, ne_eq, reduceCtorEq, not_false_eq_true, or_true, if_true, overrideSpec]
    cases m with
    | only => exact absurd (by intro _ h; cases h) h
    | shape ns =>
      have h1 : ns.any (fun x => decide (x < 0)) = true := by
        by_contra hc
        rw [Bool.not_eq_true, List.any_eq_false] at hc
        exact h (by intro sizes hs; cases hs; intro n hn; simpa using hc n hn)
      simp only [h1]
      rfl
  | _ => exact absurd trivial h

theorem overrideShapes_ok (outs : List (String × Out)) (hn : (outs.map Prod.fst).Nodup)
    (marks : List (String × Mark)) (hm : (marks.map Prod.fst).Nodup)
    (hin : ∀ e ∈ marks, e.1 ∈ outs.map Prod.fst) (g : String → Option Mark)
    (hg : ∀ e ∈ marks, g e.1 = some .only)
    (hok : ∀ o ∈ outs, MarkOk (marks.lookup o.1) o.2) :
    overrideShapes (outs.map (fun o => (o.1, written (g o.1) o.1 o.2))) marks
      = .ok (outs.map (fun o => (o.1, written ((marks.lookup o.1).or (g o.1)) o.1 o.2))) := by
  induction marks generalizing g with
  | nil => simp [overrideShapes, pure, Except.pure]
  | cons e es ih =>
    rw [List.map_cons, List.nodup_cons] at hm
    have hstep : overrideOne (outs.map (fun o => (o.1, written (g o.1) o.1 o.2))) e
        = .ok (outs.map (fun o => (o.1, written
            ((fun k => if k = e.1 then some e.2 else g k) o.1) o.1 o.2))) := by
      unfold overrideOne
      rw [if_neg (by
        have := hin e (by simp)
        rw [List.map_map]
        simpa using this), List.mapM_map]
      apply mapM_ok
      intro o ho
      unfold overrideEntry
      by_cases hk : o.1 = e.1
      · simp only [Function.comp, if_pos hk]
        rw [hk, hg e (by simp), overrideSpec_written _ _ _ (by
          have := hok o ho
          rw [lookup_cons_if, if_pos hk] at this
          exact this)]
        simp only [bind, Except.bind, if_pos]
        rfl
      · simp only [Function.comp, if_neg hk]
    unfold overrideShapes
    rw [List.foldlM_cons, hstep]
    have := ih hm.2 (fun e' he' => hin e' (by simp [he']))
      (fun k => if k = e.1 then some e.2 else g k)
      (by
        intro e' he'
        have : e'.1 ≠ e.1 := ne_of_mem_of_not_mem (List.mem_map_of_mem he') hm.1
        simp only [if_neg this]
        exact hg e' (by simp [he']))
      (by
        intro o ho
        have := hok o ho
        rw [lookup_cons_if] at this
        by_cases hk : o.1 = e.1
        · have hl : es.lookup o.1 = none := by
            rw [hk, List.lookup_eq_none_iff]
            intro p hp
            have := ne_of_mem_of_not_mem (List.mem_map_of_mem hp) hm.1
            simpa using this.symm
          rw [hl]
          obtain ⟨n, o⟩ := o
          cases o <;> simp [MarkOk]
        · rwa [if_neg hk] at this)
    simp only [bind, Except.bind]
    unfold overrideShapes at this
    rw [this]
    congr 1
    apply List.map_congr_left
    intro o ho
    rw [lookup_cons_if]
    by_cases hk : o.1 = e.1
    · have hl : es.lookup o.1 = none := by
        rw [hk, List.lookup_eq_none_iff]
        intro p hp
        have := ne_of_mem_of_not_mem (List.mem_map_of_mem hp) hm.1
        simpa using this.symm
      rw [hl, if_pos hk]
      simp [hk]
    · simp [hk]

theorem overrideShapes_error (outs : List (String × Out))
    (marks : List (String × Mark)) (hm : (marks.map Prod.fst).Nodup) (g : String → Option Mark)
    (hg : ∀ e ∈ marks, g e.1 = some .only)
    (hbad : ∃ o ∈ outs, ¬MarkOk (marks.lookup o.1) o.2) :
    ∃ e, overrideShapes (outs.map (fun o => (o.1, written (g o.1) o.1 o.2))) marks = .error e := by
  induction marks generalizing g with
  | nil =>
    obtain ⟨o, _, ho⟩ := hbad
    obtain ⟨n, o⟩ := o
    exact absurd (by cases o <;> simp [MarkOk]) ho
  | cons e es ih =>
    rw [List.map_cons, List.nodup_cons] at hm
    unfold overrideShapes
    rw [List.foldlM_cons]
    by_cases hin : e.1 ∈ outs.map Prod.fst
    swap
    · refine ⟨"ValueError: Shape annotation for feature which is not an output feature.", ?_⟩
      unfold overrideOne
      rw [if_pos (by rw [List.map_map]; simpa using hin)]
      rfl
    by_cases hfirst : ∃ o ∈ outs, o.1 = e.1 ∧ ¬MarkOk (some e.2) o.2
    · obtain ⟨o, ho, hk, hb⟩ := hfirst
      have : ∃ err, overrideOne (outs.map (fun o => (o.1, written (g o.1) o.1 o.2))) e = .error err := by
        unfold overrideOne
        rw [if_neg (by rw [List.map_map]; simpa using hin), List.mapM_map]
        refine mapM_error _ outs o ho ⟨"ValueError: Dimension must be >= 0", ?_⟩
        unfold overrideEntry
        simp only [Function.comp, if_pos hk]
        rw [hk, hg e (by simp), overrideSpec_bad _ _ _ hb]
        rfl
      obtain ⟨err, he⟩ := this
      exact ⟨err, by rw [he]; rfl⟩
    · push Not at hfirst
      have hstep : overrideOne (outs.map (fun o => (o.1, written (g o.1) o.1 o.2))) e
          = .ok (outs.map (fun o => (o.1, written
              ((fun k => if k = e.1 then some e.2 else g k) o.1) o.1 o.2))) := by
        unfold overrideOne
        rw [if_neg (by
          rw [List.map_map]
          simpa using hin), List.mapM_map]
        apply mapM_ok
        intro o ho
        unfold overrideEntry
        by_cases hk : o.1 = e.1
        · simp only [Function.comp, if_pos hk]
          rw [hk, hg e (by simp), overrideSpec_written _ _ _ (hfirst o ho hk)]
          rfl
        · simp only [Function.comp, if_neg hk]
      rw [hstep]
      simp only [bind, Except.bind]
      refine ih hm.2 (fun k => if k = e.1 then some e.2 else g k) ?_ ?_
      · intro e' he'
        have : e'.1 ≠ e.1 := ne_of_mem_of_not_mem (List.mem_map_of_mem he') hm.1
        simp only [if_neg this]
        exact hg e' (by simp [he'])
      · obtain ⟨o, ho, hb⟩ := hbad
        refine ⟨o, ho, ?_⟩
        rw [lookup_cons_if] at hb
        by_cases hk : o.1 = e.1
        · rw [if_pos hk] at hb
          exact absurd (hfirst o ho hk) hb
        · rwa [if_neg hk] at hb

/-! ## Column names -/

/-- The part of a column name before the first dollar sign. -/
def stem (c : String) : List Char := c.toList.takeWhile (· ≠ '$')

theorem stem_plain (name : String) (h : '$' ∉ name.toList) : stem name = name.toList := by
  unfold stem
  have := List.takeWhile_append_of_pos (p := fun x : Char => decide (x ≠ '$')) (l₁ := name.toList)
    (l₂ := []) (by
      intro x hx
      have : x ≠ '$' := ne_of_mem_of_not_mem hx h
      simpa using this)
  simpa using this

theorem stem_append (name s : String) (h : '$' ∉ name.toList) (hs : s.toList.head? = some '$') :
    stem (name ++ s) = name.toList := by
  unfold stem
  rw [String.toList_append]
  cases hl : s.toList with
  | nil => rw [hl] at hs; cases hs
  | cons c cs =>
    rw [hl] at hs
    simp only [List.head?_cons, Option.some.injEq] at hs
    subst hs
    rw [List.takeWhile_append_of_pos (by
      intro x hx
      have : x ≠ '$' := ne_of_mem_of_not_mem hx h
      simpa using this)]
    simp

theorem append_left_inj' (name a b : String) (h : name ++ a = name ++ b) : a = b := by
  have := congrArg String.toList h
  rw [String.toList_append, String.toList_append, List.append_cancel_left_eq] at this
  exact String.toList_inj.1 this

theorem numbered_inj (name pre : String) (i j : Nat)
    (h : name ++ pre ++ toString i = name ++ pre ++ toString j) : i = j := by
  have := append_left_inj' _ _ _ h
  exact Nat.repr_injective this

theorem rowKeys (name : String) (k : Nat) (dims : List (Option Int)) :
    (raggedPartitions name k dims).filterMap rowLengthKey
      = (List.range' k (dims.countP (· = none))).map
          (fun i : Nat => name ++ "$row_lengths_" ++ toString i) := by
  induction dims generalizing k with
  | nil => rfl
  | cons d dims ih =>
    cases d with
    | some n =>
      simp only [raggedPartitions, List.filterMap_cons, rowLengthKey, ih]
      congr 2
    | none =>
      simp only [raggedPartitions, List.filterMap_cons, rowLengthKey, ih]
      rw [List.countP_cons_of_pos (by simp), List.range'_succ, List.map_cons]

/-- The column of the values. -/
theorem valueKeyOr_ragged (name : String) :
    valueKeyOr (some (name ++ "$ragged_values")) name = name ++ "$ragged_values" := by
  refine if_neg ?_
  intro h
  have := congrArg String.toList h
  rw [String.toList_append] at this
  simp at this

theorem columns_written (mark : Option Mark) (name : String) (o : Out) :
    columns (name, written mark name o) =
      match o with
      | .dense _ _ => [name]
      | .sparse _ s =>
        if 2 < (s.getD []).length ∨ mark ≠ none then
          (List.range ((s.getD []).length - 1)).map
            (fun i : Nat => name ++ "$sparse_indices_" ++ toString i) ++ [name ++ "$sparse_values"]
        else [name]
      | .ragged _ s _ => (name ++ "$ragged_values") ::
          (List.range' 1 ((s.getD []).tail.countP (· = none))).map
            (fun i : Nat => name ++ "$row_lengths_" ++ toString i)
      | .other _ => [] := by
  cases o with
  | dense v s => rfl
  | sparse v s =>
    simp only [written]
    by_cases h : 2 < (s.getD []).length ∨ mark ≠ none
    · rw [if_pos h, if_pos h]; rfl
    · rw [if_neg h, if_neg h]; rfl
  | ragged v s t => simp only [written, columns, rowKeys, valueKeyOr_ragged]
  | other t => rfl

theorem toList_head (b c : String) (h : (b.toList ++ c.toList).head? = some '$') :
    ∀ name : String, '$' ∉ name.toList → stem (name ++ b ++ c) = name.toList := by
  intro name hn
  rw [String.append_assoc]
  exact stem_append name (b ++ c) hn (by rw [String.toList_append]; exact h)

theorem columns_stem (mark : Option Mark) (name : String) (hn : '$' ∉ name.toList) (o : Out) :
    ∀ c ∈ columns (name, written mark name o), stem c = name.toList := by
  intro c hc
  rw [columns_written] at hc
  cases o with
  | dense v s =>
    simp only [List.mem_singleton] at hc
    rw [hc]; exact stem_plain name hn
  | sparse v s =>
    simp only at hc
    by_cases h : 2 < (s.getD []).length ∨ mark ≠ none
    · rw [if_pos h, List.mem_append, List.mem_map, List.mem_singleton] at hc
      rcases hc with ⟨i, _, rfl⟩ | rfl
      · exact toList_head _ _ (by simp) name hn
      · exact stem_append name _ hn (by simp)
    · rw [if_neg h, List.mem_singleton] at hc
      rw [hc]; exact stem_plain name hn
  | ragged v s t =>
    simp only [List.mem_cons, List.mem_map] at hc
    rcases hc with rfl | ⟨i, _, rfl⟩
    · exact stem_append name _ hn (by simp)
    · exact toList_head _ _ (by simp) name hn
  | other t => cases hc

theorem columns_nodup (mark : Option Mark) (name : String) (o : Out) :
    (columns (name, written mark name o)).Nodup := by
  rw [columns_written]
  cases o with
  | dense v s => simp
  | sparse v s =>
    simp only
    by_cases h : 2 < (s.getD []).length ∨ mark ≠ none
    · rw [if_pos h, List.nodup_append]
      refine ⟨?_, by simp, ?_⟩
      · exact List.nodup_range.map (fun i j hij => numbered_inj name _ i j hij)
      · intro a ha b hb hab
        rw [List.mem_map] at ha
        obtain ⟨i, _, rfl⟩ := ha
        rw [List.mem_singleton] at hb
        subst hb
        rw [String.append_assoc] at hab
        have := append_left_inj' _ _ _ hab
        have := congrArg String.toList this
        rw [String.toList_append] at this
        simp at this
    · rw [if_neg h]; simp
  | ragged v s t =>
    simp only [List.nodup_cons]
    refine ⟨?_, (List.nodup_range' (step := 1)).map (fun i j hij => numbered_inj name _ i j hij)⟩
    intro hm
    rw [List.mem_map] at hm
    obtain ⟨i, _, he⟩ := hm
    rw [String.append_assoc] at he
    have := append_left_inj' _ _ _ he
    have := congrArg String.toList this
    rw [String.toList_append] at this
    simp at this
  | other t => simp

theorem all_columns_nodup (outs : List (String × Out)) (f : String → Option Mark)
    (hn : (outs.map Prod.fst).Nodup) (hd : ∀ o ∈ outs, '$' ∉ o.1.toList) :
    ((outs.map (fun o => (o.1, written (f o.1) o.1 o.2))).flatMap columns).Nodup := by
  induction outs with
  | nil => simp
  | cons o os ih =>
    rw [List.map_cons, List.nodup_cons] at hn
    rw [List.map_cons, List.flatMap_cons, List.nodup_append]
    refine ⟨columns_nodup _ _ _, ih hn.2 (fun o' ho' => hd o' (by simp [ho'])), ?_⟩
    intro a ha b hb hab
    subst hab
    rw [List.mem_flatMap] at hb
    obtain ⟨i, hi, hb⟩ := hb
    rw [List.mem_map] at hi
    obtain ⟨o', ho', rfl⟩ := hi
    have h1 := columns_stem _ o.1 (hd o (by simp)) o.2 a ha
    have h2 := columns_stem _ o'.1 (hd o' (by simp [ho'])) o'.2 a hb
    have : o.1 = o'.1 := String.toList_inj.1 (h1.symm.trans h2)
    exact hn.1 (this ▸ List.mem_map_of_mem ho')

/-- A column with a dollar sign is no output name. -/
theorem no_dollar (name s t : String) (hs : s.toList.head? = some '$') (h : '$' ∉ t.toList) :
    t ≠ name ++ s := by
  intro he
  apply h
  rw [he, String.toList_append]
  cases hl : s.toList with
  | nil => rw [hl] at hs; cases hs
  | cons c cs => rw [hl] at hs; simp only [List.head?_cons, Option.some.injEq] at hs; simp [hs]

theorem names_not_columns (outs : List (String × Out)) (f : String → Option Mark)
    (hn : (outs.map Prod.fst).Nodup) (hd : ∀ o ∈ outs, '$' ∉ o.1.toList) :
    ∀ i ∈ outs.map (fun o => (o.1, written (f o.1) o.1 o.2)), (isSp i ∨ isRg i) →
      i.1 ∉ (outs.map (fun o => (o.1, written (f o.1) o.1 o.2))).flatMap columns := by
  intro i hi hsr hm
  rw [List.mem_map] at hi
  obtain ⟨o, ho, rfl⟩ := hi
  rw [List.mem_flatMap] at hm
  obtain ⟨j, hj, hc⟩ := hm
  rw [List.mem_map] at hj
  obtain ⟨o', ho', rfl⟩ := hj
  have h2 := columns_stem _ o'.1 (hd o' ho') o'.2 o.1 hc
  rw [stem_plain _ (hd o ho)] at h2
  have hname : o.1 = o'.1 := String.toList_inj.1 h2
  have hoo : o = o' := by
    have := List.inj_on_of_nodup_map hn
    exact this ho ho' hname
  subst hoo
  have hdo := hd o ho
  rw [columns_written] at hc
  obtain ⟨name, out⟩ := o
  cases out with
  | dense v s => simp [isSp, isRg, written, Spec.isSparse, Spec.isRagged] at hsr
  | sparse v s =>
    simp only at hc hsr
    by_cases h : 2 < (s.getD []).length ∨ f name ≠ none
    · rw [if_pos h, List.mem_append, List.mem_map, List.mem_singleton] at hc
      rcases hc with ⟨k, _, he⟩ | he
      · rw [String.append_assoc] at he
        exact no_dollar name _ name (by rw [String.toList_append]; simp) hdo he.symm
      · exact no_dollar name _ name (by simp) hdo he
    · simp [isSp, isRg, written, if_neg h, Spec.isSparse, Spec.isRagged] at hsr
  | ragged v s t =>
    simp only [List.mem_cons, List.mem_map] at hc
    rcases hc with he | ⟨k, _, he⟩
    · exact no_dollar name _ name (by simp) hdo he
    · rw [String.append_assoc] at he
      exact no_dollar name _ name (by rw [String.toList_append]; simp) hdo he.symm
  | other t => simp [isSp, isRg, written, Spec.isSparse, Spec.isRagged] at hsr

/-! ## The common part -/

theorem validDType_iff (d : DType) :
    validDType d = true ↔ d ∈ [DType.string, DType.int64, DType.float32] := by
  simp [validDType]

theorem validDType_supported (d : DType) : validDType d = true ↔ d.Supported := by
  cases d <;> simp [validDType, DType.Supported]

theorem partitions_supported (name : String) (k : Nat) (dims : List (Option Int)) :
    ∀ p ∈ raggedPartitions name k dims, p.Supported := by
  induction dims generalizing k with
  | nil => simp [raggedPartitions]
  | cons d dims ih =>
    intro p hp
    cases d with
    | some n =>
      rcases List.mem_cons.1 hp with rfl | hp
      · trivial
      · exact ih _ p hp
    | none =>
      rcases List.mem_cons.1 hp with rfl | hp
      · trivial
      · exact ih _ p hp

theorem written_supported (complete : Bool) (mark : Option Mark) (name : String) (o : Out)
    (h : Plausible complete o) : (written mark name o).Supported ↔ RankOk mark o := by
  cases o with
  | dense v s =>
    cases s with
    | none => exact h.elim
    | some s =>
      cases s with
      | nil => exact h.elim
      | cons b dims =>
        exact ⟨fun _ => trivial, fun _ => ⟨(validDType_supported _).1 h.1, rfl⟩⟩
  | sparse v s =>
    obtain ⟨h1, h2⟩ := h
    cases s with
    | none => exact absurd rfl h2
    | some s =>
      have h1' := (validDType_supported _).1 h1
      simp only [written, Option.getD_some]
      by_cases hc : 2 < s.length ∨ mark ≠ none
      · rw [if_pos hc]
        constructor
        · rintro ⟨_, h4⟩ sizes rfl
          simp only [SameForm, List.length_map, List.length_range] at h4
          exact h4.symm
        · intro h4
          refine ⟨h1', ?_⟩
          cases mark with
          | none => simp [SameForm]
          | some m =>
            cases m with
            | only => simp [SameForm]
            | shape ns =>
              simp only [SameForm, List.length_map, List.length_range]
              exact (h4 ns rfl).symm
      · rw [if_neg hc]
        refine ⟨fun _ => ?_, fun _ => h1'⟩
        intro sizes hs
        exact absurd (Or.inr (by rw [hs]; simp)) hc
  | ragged v s t =>
    exact ⟨fun _ => by cases s <;> trivial, fun _ => ⟨(validDType_supported _).1 h.1, partitions_supported _ _ _⟩⟩
  | other t => exact h.elim

theorem domains_lookup (outs : List (String × Out)) (ranges : List (String × Option (Int × Int)))
    (k : String) : (domainsOf outs ranges).lookup k
      = if k ∈ outs.map Prod.fst then (ranges.lookup k).map (fun r => some (rangeDomain r))
        else none := by
  unfold domainsOf
  induction outs with
  | nil => rfl
  | cons o os ih =>
    rw [List.filterMap_cons]
    by_cases hk : k = o.1
    · subst hk
      cases hl : ranges.lookup o.1 with
      | none =>
        rw [hl] at ih
        simpa using ih
      | some r => simp
    · have hk' : (k == o.1) = false := by simpa using hk
      have hmem : (k ∈ (o :: os).map Prod.fst) ↔ k ∈ os.map Prod.fst := by
        rw [List.map_cons, List.mem_cons]
        exact ⟨fun h => h.resolve_left hk, Or.inr⟩
      simp only [hmem]
      cases hl : ranges.lookup o.1 with
      | none => exact ih
      | some r =>
        refine Eq.trans ?_ ih
        simp [List.lookup_cons, hk']

theorem annotate_ok (protos : List (String × Feature)) (colOf : String → String)
    (as : List (String × List Annotation)) (cols : String → List Annotation)
    (h : ∀ e ∈ as, ∃ f, protos.lookup e.1 = some f ∧ f.name = colOf e.1) :
    ∃ r, as.foldlM (annotateFeature protos) cols = .ok r ∧
      ∀ c, r c = cols c ++ (as.filter (fun e => colOf e.1 = c)).flatMap Prod.snd := by
  induction as generalizing cols with
  | nil => exact ⟨cols, rfl, by simp⟩
  | cons e es ih =>
    obtain ⟨f, hf, hfn⟩ := h e (by simp)
    obtain ⟨r, h1, h2⟩ := ih (fun c => if c = f.name then cols c ++ e.2 else cols c)
      (fun e' he' => h e' (by simp [he']))
    refine ⟨r, ?_, ?_⟩
    · rw [List.foldlM_cons]
      unfold annotateFeature
      rw [hf]
      exact h1
    · intro c
      rw [h2, hfn]
      by_cases hc : c = colOf e.1
      · simp [hc]
      · have hc' : ¬colOf e.1 = c := fun h => hc h.symm
        simp [hc, hc']

/-- The value column of a written spec. -/
def colName (mark : Option Mark) (name : String) (o : Out) : String :=
  valueColumn (repOf (name, written mark name o))

theorem colName_stem (mark : Option Mark) (name : String) (hn : '$' ∉ name.toList) (o : Out) :
    stem (colName mark name o) = name.toList := by
  unfold colName
  cases o with
  | dense v s => exact stem_plain name hn
  | sparse v s =>
    simp only [written]
    by_cases h : 2 < (s.getD []).length ∨ mark ≠ none
    · rw [if_pos h]; exact stem_append name _ hn (by simp)
    · rw [if_neg h]; exact stem_plain name hn
  | ragged v s t =>
    simp only [written, repOf, valueColumn, valueKeyOr_ragged]
    exact stem_append name _ hn (by simp)
  | other t => exact stem_plain name hn

theorem common_ok (outs : List (String × Out)) (ranges : List (String × Option (Int × Int)))
    (as : List (String × List Annotation)) (globals : List Annotation)
    (marks : List (String × Mark)) (complete : Bool)
    (hn : (outs.map Prod.fst).Nodup) (hd : ∀ o ∈ outs, '$' ∉ o.1.toList)
    (hm : (marks.map Prod.fst).Nodup) (hin : ∀ e ∈ marks, e.1 ∈ outs.map Prod.fst)
    (ha : ∀ e ∈ as, e.1 ∈ outs.map Prod.fst) :
    ((∃ r, inferCommon outs ranges as globals marks complete = .ok r) ↔
      ∀ o ∈ outs, Plausible complete o.2 ∧ MarkOk (marks.lookup o.1) o.2 ∧
        RankOk (marks.lookup o.1) o.2) ∧
    ∀ r, inferCommon outs ranges as globals marks complete = .ok r →
      (∃ sp, schemaAsFeatureSpec r.schema = .ok sp ∧
        (∀ name, get sp.1 name = (outs.lookup name).map
          (fun o => recovered (name, written (marks.lookup name) name o))) ∧
        (∀ name, get sp.2 name = if name ∈ outs.map Prod.fst
          then (ranges.lookup name).map rangeDomain else none)) ∧
      r.globals = globals ∧
      (∀ o ∈ outs, r.columns (colName (marks.lookup o.1) o.1 o.2)
        = (as.filter (fun e => e.1 = o.1)).flatMap Prod.snd) ∧
      (∀ c, (∀ o ∈ outs, c ≠ colName (marks.lookup o.1) o.1 o.2) → r.columns c = []) := by
  set W := outs.map (fun o => (o.1, written (marks.lookup o.1) o.1 o.2)) with hW
  have hWn : W.map Prod.fst = outs.map Prod.fst := by rw [hW, List.map_map]; rfl
  have hforget : ∀ e ∈ marks, Mark.forget (marks.lookup e.1) = some .only := by
    intro e he
    cases hl : marks.lookup e.1 with
    | none =>
      rw [List.lookup_eq_none_iff] at hl
      exact absurd (hl e he) (by simp)
    | some m => rfl
  have hdom : ∀ k, (domainsOf outs ranges).lookup k ≠ some none := by
    intro k
    rw [domains_lookup]
    by_cases hk : k ∈ outs.map Prod.fst
    · rw [if_pos hk]
      cases ranges.lookup k <;> simp
    · rw [if_neg hk]; simp
  by_cases hP : ∀ o ∈ outs, Plausible complete o.2
  swap
  · push Not at hP
    obtain ⟨o, ho, hb⟩ := hP
    have : ∃ e, inferCommon outs ranges as globals marks complete = .error e := by
      obtain ⟨e, he⟩ := specOfOutput_error complete (marks.map Prod.fst) o.1 o.2 hb
      have : ∃ e, featureSpec outs complete (marks.map Prod.fst) = .error e := by
        refine mapM_error _ outs o ho ⟨e, ?_⟩
        unfold specEntry; rw [he]; rfl
      obtain ⟨e, he⟩ := this
      exact ⟨e, by unfold inferCommon; rw [he]; rfl⟩
    obtain ⟨e, he⟩ := this
    refine ⟨⟨fun ⟨r, hr⟩ => (by rw [he] at hr; cases hr), fun h => absurd (h o ho).1 hb⟩, ?_⟩
    intro r hr; rw [he] at hr; cases hr
  by_cases hM : ∀ o ∈ outs, MarkOk (marks.lookup o.1) o.2
  swap
  · push Not at hM
    obtain ⟨e, he⟩ := overrideShapes_error outs marks hm
      (fun k => Mark.forget (marks.lookup k)) hforget hM
    obtain ⟨o, ho, hb⟩ := hM
    have he : inferCommon outs ranges as globals marks complete = .error e := by
      unfold inferCommon
      rw [featureSpec_ok outs complete marks hP]
      simp only [bind, Except.bind]
      rw [he]
    refine ⟨⟨fun ⟨r, hr⟩ => (by rw [he] at hr; cases hr), fun h => absurd (h o ho).2.1 hb⟩, ?_⟩
    intro r hr; rw [he] at hr; cases hr
  have hover : overrideShapes
      (outs.map (fun o => (o.1, written (Mark.forget (marks.lookup o.1)) o.1 o.2))) marks = .ok W := by
    rw [overrideShapes_ok outs hn marks hm hin (fun k => Mark.forget (marks.lookup k)) hforget hM]
    congr 1
    apply List.map_congr_left
    intro o ho
    cases hl : marks.lookup o.1 <;> simp [Mark.forget]
  have hsup : ∀ i ∈ W, i.2.Supported ↔ ∃ o ∈ outs, i = (o.1, written (marks.lookup o.1) o.1 o.2) ∧
      RankOk (marks.lookup o.1) o.2 := by
    intro i hi
    rw [hW, List.mem_map] at hi
    obtain ⟨o, ho, rfl⟩ := hi
    rw [written_supported complete _ _ _ (hP o ho)]
    constructor
    · intro h; exact ⟨o, ho, rfl, h⟩
    · rintro ⟨o', ho', he, h⟩
      have : o = o' := List.inj_on_of_nodup_map hn ho ho' (congrArg (fun p : String × Spec => p.1) he)
      rw [this]; exact h
  have hunf : inferCommon outs ranges as globals marks complete = (do
      let s ← schemaFromFeatureSpec W (domainsOf outs ranges)
      let protos ← protosByName s
      let cols ← as.foldlM (annotateFeature protos) (fun _ => [])
      return ⟨s, globals, cols⟩) := by
    unfold inferCommon
    rw [featureSpec_ok outs complete marks hP]
    simp only [bind, Except.bind]
    rw [hover]
  by_cases hR : ∀ o ∈ outs, RankOk (marks.lookup o.1) o.2
  swap
  · have : ∀ s, schemaFromFeatureSpec W (domainsOf outs ranges) ≠ .ok s := by
      intro s hs
      have := (conversion_succeeds_iff W (domainsOf outs ranges)).1 ⟨s, hs⟩
      apply hR
      intro o ho
      have h1 := (this (o.1, written (marks.lookup o.1) o.1 o.2)
        (by rw [hW]; exact List.mem_map_of_mem (f := fun o => (o.1, written (marks.lookup o.1) o.1 o.2)) ho)).1
      exact (written_supported complete _ _ _ (hP o ho)).1 h1
    cases hsf : schemaFromFeatureSpec W (domainsOf outs ranges) with
    | ok s => exact absurd hsf (this s)
    | error e =>
      have he : inferCommon outs ranges as globals marks complete = .error e := by
        rw [hunf, hsf]; rfl
      refine ⟨⟨fun ⟨r, hr⟩ => (by rw [he] at hr; cases hr), fun h => absurd (fun o ho => (h o ho).2.2) hR⟩, ?_⟩
      intro r hr; rw [he] at hr; cases hr
  -- success
  have hconv : ∀ i ∈ W, Convertible (domainsOf outs ranges) i := by
    intro i hi
    refine ⟨(hsup i hi).2 ?_, hdom _⟩
    rw [hW, List.mem_map] at hi
    obtain ⟨o, ho, rfl⟩ := hi
    exact ⟨o, ho, rfl, hR o ho⟩
  have hcols : (W.flatMap columns).Nodup :=
    all_columns_nodup outs (fun k => marks.lookup k) hn hd
  have hnames := names_not_columns outs (fun k => marks.lookup k) hn hd
  obtain ⟨s, sp, hs, hsp, hg1, hg2⟩ := feature_spec_round_trip_partial W (domainsOf outs ranges)
    (by rw [hWn]; exact hn) hconv hcols (fun i hi h => hnames i hi (Or.inl h))
  -- the protos
  set items := W.insertionSort (fun a b => a.1 ≤ b.1) with hitems
  have hperm : items.Perm W := List.perm_insertionSort _ W
  have hs' : schemaFromFeatureSpec W (domainsOf outs ranges) = .ok
      { features := items.flatMap (cols (domainsOf outs ranges))
        sparse := items.flatMap sparseOf
        reps := items.flatMap repsOf } := by
    have := fold_ok (domainsOf outs ranges) items {} (fun i hi => hconv i (hperm.mem_iff.1 hi))
    simpa [schemaFromFeatureSpec] using this
  rw [hs] at hs'
  simp only [Except.ok.injEq] at hs'
  obtain ⟨d, hd1, hd2⟩ := protosByName_ok (domainsOf outs ranges) items
    (fun i hi => (hconv i (hperm.mem_iff.1 hi)).1)
    ((hperm.flatMap_right columns).nodup_iff.2 hcols)
    ((hperm.map Prod.fst).nodup_iff.2 (by rw [hWn]; exact hn))
    (fun i hi h hm' => hnames i (hperm.mem_iff.1 hi) h
      ((hperm.flatMap_right columns).mem_iff.1 hm')) s (by rw [hs']) (by rw [hs']) (by rw [hs'])
  have hlook : ∀ o ∈ outs, ∃ f, d.lookup o.1 = some f ∧ f.name = colName (marks.lookup o.1) o.1 o.2 := by
    intro o ho
    have hmem : (o.1, written (marks.lookup o.1) o.1 o.2) ∈ W := by
      rw [hW]; exact List.mem_map_of_mem (f := fun o => (o.1, written (marks.lookup o.1) o.1 o.2)) ho
    refine ⟨_, hd2 _ (hperm.mem_iff.2 hmem), ?_⟩
    exact vfOf_name _ _ (hconv _ hmem).1
  obtain ⟨r0, hr1, hr2⟩ := annotate_ok d
    (fun k => ((outs.lookup k).map (fun o => colName (marks.lookup k) k o)).getD k) as (fun _ => [])
    (by
      intro e he
      have := ha e he
      obtain ⟨o, ho, he'⟩ := List.mem_map.1 this
      obtain ⟨f, hf1, hf2⟩ := hlook o ho
      refine ⟨f, by rw [← he']; exact hf1, ?_⟩
      rw [hf2, ← he', (lookup_iff outs hn o.1 o.2).2 ho]
      rfl)
  have hres : inferCommon outs ranges as globals marks complete = .ok ⟨s, globals, r0⟩ := by
    rw [hunf, hs]
    simp only [bind, Except.bind]
    rw [hd1]
    simp only
    rw [hr1]
    rfl
  refine ⟨⟨fun _ o ho => ⟨hP o ho, hM o ho, hR o ho⟩, fun _ => ⟨_, hres⟩⟩, ?_⟩
  intro r hr
  rw [hres] at hr
  simp only [Except.ok.injEq] at hr
  subst hr
  refine ⟨⟨sp, hsp, ?_, ?_⟩, rfl, ?_, ?_⟩
  · intro name
    rw [hg1 name]
    apply Option.ext
    intro a
    simp only [Option.map_eq_some_iff]
    constructor
    · rintro ⟨x, hx, rfl⟩
      have hx' := (lookup_iff W (by rw [hWn]; exact hn) name x).1 hx
      rw [hW, List.mem_map] at hx'
      obtain ⟨o, ho, he⟩ := hx'
      simp only [Prod.mk.injEq] at he
      obtain ⟨rfl, rfl⟩ := he
      exact ⟨o.2, (lookup_iff outs hn o.1 o.2).2 ho, rfl⟩
    · rintro ⟨x, hx, rfl⟩
      have hx' := (lookup_iff outs hn name x).1 hx
      refine ⟨written (marks.lookup name) name x, ?_, rfl⟩
      apply (lookup_iff W (by rw [hWn]; exact hn) name _).2
      rw [hW, List.mem_map]
      exact ⟨(name, x), hx', rfl⟩
  · intro name
    rw [hg2 name, hWn]
    by_cases hk : name ∈ outs.map Prod.fst
    · rw [if_pos hk, if_pos hk]
      unfold givenDomain
      rw [domains_lookup, if_pos hk]
      cases ranges.lookup name <;> rfl
    · rw [if_neg hk, if_neg hk]
  · intro o ho
    simp only
    rw [hr2]
    simp only [List.nil_append]
    congr 1
    apply List.filter_congr
    intro e he
    obtain ⟨o', ho', he'⟩ := List.mem_map.1 (ha e he)
    rw [← he', (lookup_iff outs hn o'.1 o'.2).2 ho', decide_eq_decide]
    simp only [Option.map_some, Option.getD_some]
    constructor
    · intro h
      have h1 := colName_stem (marks.lookup o'.1) o'.1 (hd o' ho') o'.2
      rw [h, colName_stem _ _ (hd o ho)] at h1
      exact (String.toList_inj.1 h1).symm
    · intro h
      have : o' = o := List.inj_on_of_nodup_map hn ho' ho h
      rw [this]
  · intro c hc
    simp only
    rw [hr2]
    simp only [List.nil_append, List.flatMap_eq_nil_iff, List.mem_filter]
    rintro e ⟨he, he'⟩
    obtain ⟨o', ho', he''⟩ := List.mem_map.1 (ha e he)
    rw [← he'', (lookup_iff outs hn o'.1 o'.2).2 ho'] at he'
    simp only [Option.map_some, Option.getD_some, decide_eq_true_eq] at he'
    exact absurd he'.symm (hc o' ho')

/-! ## From calls to specs -/

theorem getLast?_filterMap_isSome {α β : Type} (f : α → Option β) (l : List α) :
    (l.filterMap f).getLast? = none ↔ ∀ x ∈ l, f x = none := by
  rw [List.getLast?_eq_none_iff, List.filterMap_eq_nil_iff]

theorem mark_eq (calls : List Call) (c : Collections) (h : trace calls = .ok c) (t : Ref) :
    dictGet (sparseMarks c) t = markOf calls true t := by
  have h3 := (trace_ok calls c h).2.2.1
  have h4 := (trace_ok calls c h).2.2.2.1
  have hs := shape_eq calls c h t
  unfold sparseMarks markOf
  rw [dictGet_append, if_pos rfl]
  have hA : dictGet (c.sparseShapes.map (fun p => (p.1, Mark.shape p.2))) t
      = (Spec.shape calls t).map Mark.shape := by
    rw [← hs]
    unfold dictGet
    rw [← List.map_reverse, List.find?_map, Option.map_map, Option.map_map]
    rfl
  rw [hA]
  cases hsh : Spec.shape calls t with
  | some s => rfl
  | none =>
    simp only [Option.map_none, Option.none_or]
    have hnone : ∀ x ∈ calls, Spec.shapeIn t x = none := (getLast?_filterMap_isSome _ _).1 hsh
    have hmk : (Spec.marked calls t = true) ↔ t ∈ c.trulySparse := by
      unfold Spec.marked
      rw [h4, List.any_eq_true, List.mem_filterMap]
      constructor
      · rintro ⟨x, hx, hd⟩
        have hd := of_decide_eq_true hd
        rcases hd with rfl | hd
        · exact ⟨_, hx, rfl⟩
        · rw [hnone x hx] at hd; cases hd
      · rintro ⟨x, hx, hd⟩
        cases x with
        | trulySparse u =>
          simp only [callTruly, Option.some.injEq] at hd
          subst hd
          exact ⟨_, hx, by simp⟩
        | _ => cases hd
    have htn : t ∉ c.sparseShapes.map Prod.fst := by
      rw [h3, List.mem_map]
      rintro ⟨p, hp, rfl⟩
      rw [List.mem_filterMap] at hp
      obtain ⟨x, hx, he⟩ := hp
      cases x with
      | sparseShape u ts s =>
        simp only [callShape, Option.some.injEq] at he
        have := hnone _ hx
        rw [← he] at this
        simp [Spec.shapeIn] at this
      | _ => cases he
    rw [dictGet_eq, List.filterMap_map]
    by_cases hm : Spec.marked calls t = true
    · rw [if_pos hm]
      have hmem := hmk.1 hm
      cases hg : ((c.trulySparse.filter (fun u => u ∉ c.sparseShapes.map Prod.fst)).filterMap
          ((fun e : Ref × Mark => if e.1 = t then some e.2 else none) ∘ fun t => (t, Mark.only))).getLast? with
      | none =>
        rw [getLast?_filterMap_isSome] at hg
        have := hg t (List.mem_filter.2 ⟨hmem, by simpa using htn⟩)
        simp at this
      | some m =>
        have := List.mem_of_getLast? hg
        rw [List.mem_filterMap] at this
        obtain ⟨u, _, he⟩ := this
        simp only [Function.comp] at he
        by_cases hu : u = t
        · rw [if_pos hu] at he; exact he.symm ▸ rfl
        · rw [if_neg hu] at he; cases he
    · rw [if_neg hm, getLast?_filterMap_isSome]
      intro u hu
      have : u ≠ t := by
        rintro rfl
        exact hm (hmk.2 (List.mem_of_mem_filter hu))
      simp [this]

theorem partitions_eq (name : String) (k : Nat) (dims : List (Option Int)) :
    raggedPartitions name (k + 1) dims = (List.range dims.length).map (fun p : Nat =>
      match dims[p]? with
      | some (some n) => .uniformRowLength n
      | _ => .rowLengths (name ++ "$row_lengths_"
          ++ toString (k + (dims.take p).countP (· = none) + 1))) := by
  induction dims generalizing k with
  | nil => rfl
  | cons d dims ih =>
    rw [List.length_cons, List.range_succ_eq_map, List.map_cons, List.map_map]
    cases d with
    | some n =>
      simp only [raggedPartitions, ih]
      congr 1
    | none =>
      simp only [raggedPartitions, ih]
      congr 1
      apply List.map_congr_left
      intro p _
      simp only [Function.comp, List.getElem?_cons_succ, List.take_succ_cons]
      have : List.countP (fun x => decide (x = none)) (none :: List.take p dims)
          = List.countP (fun x => decide (x = none)) (List.take p dims) + 1 :=
        List.countP_cons_of_pos (by simp)
      rw [this, Nat.add_assoc k 1, Nat.add_comm 1]

theorem recovered_spec (calls : List Call) (complete : Bool) (name : String) (o : Out) :
    recovered (name, written (markOf calls complete (Spec.values o)) name o)
      = Spec.spec calls complete name o := by
  cases o with
  | dense v s => rfl
  | sparse v s =>
    change recovered (name, written (markOf calls complete v) name (.sparse v s)) = _
    simp only [written, Spec.spec]
    have hmk : markOf calls complete v ≠ none ↔ (complete = true ∧ Spec.marked calls v = true) := by
      unfold markOf
      cases complete with
      | false => simp
      | true =>
        simp only [if_true, true_and]
        cases hs : Spec.shape calls v with
        | some s =>
          simp only [ne_eq, reduceCtorEq, not_false_eq_true, true_iff]
          have := List.mem_of_getLast? hs
          rw [List.mem_filterMap] at this
          obtain ⟨x, hx, he⟩ := this
          unfold Spec.marked
          rw [List.any_eq_true]
          exact ⟨x, hx, by simp [he]⟩
        | none =>
          by_cases hm : Spec.marked calls v = true <;> simp [hm]
    by_cases h : 2 < (s.getD []).length ∨ markOf calls complete v ≠ none
    · rw [if_pos h, if_neg (by
        rintro ⟨h1, h2⟩
        rcases h with h | h
        · omega
        · exact h2 (hmk.1 h))]
      simp only [recovered, IndexKey.keys]
      congr 2
      unfold markOf
      cases complete with
      | false => simp [Size.sizes]
      | true =>
        simp only [if_true]
        cases hs : Spec.shape calls v with
        | some ns => simp [Size.sizes, Function.comp_def]
        | none =>
          by_cases hm : Spec.marked calls v = true <;> simp [hm, Size.sizes]
    · rw [if_neg h, if_pos (by
        push Not at h
        refine ⟨h.1, fun hc => ?_⟩
        exact (hmk.2 hc) h.2)]
      rfl
  | ragged v s t =>
    simp only [written, recovered, Spec.spec, valueKeyOr_ragged]
    congr 1
    rw [show (1 : Nat) = 0 + 1 from rfl, partitions_eq]
    apply List.map_congr_left
    intro p _
    simp only [Spec.partition, Nat.zero_add]
  | other t => rfl

theorem colName_eq (calls : List Call) (complete : Bool) (name : String) (o : Out) :
    colName (markOf calls complete (Spec.values o)) name o = Spec.column calls complete name o := by
  have h := recovered_spec calls complete name o
  unfold colName Spec.column
  rw [← h]
  cases o with
  | dense v s => rfl
  | sparse v s =>
    simp only [written]
    by_cases h : 2 < (s.getD []).length ∨ markOf calls complete (Spec.values (.sparse v s)) ≠ none
    · rw [if_pos h]; rfl
    · rw [if_neg h]; rfl
  | ragged v s t => simp only [written, repOf, valueColumn, valueKeyOr_ragged, recovered]
  | other t => rfl

theorem acceptable_iff (calls : List Call) (complete : Bool) (o : Out) :
    (Plausible complete o ∧ MarkOk (markOf calls complete (Spec.values o)) o ∧
      RankOk (markOf calls complete (Spec.values o)) o) ↔ Spec.Acceptable calls complete o := by
  cases o with
  | dense v s =>
    cases s with
    | none => exact ⟨fun h => h.1.elim, fun h => h.elim⟩
    | some s =>
      cases s with
      | nil => exact ⟨fun h => h.1.elim, fun h => h.elim⟩
      | cons b dims =>
        simp only [Plausible, MarkOk, RankOk, Spec.Acceptable, and_true, validDType_iff]
  | sparse v s =>
    cases s with
    | none =>
      exact ⟨fun h => absurd rfl h.1.2, fun h => h.elim⟩
    | some s =>
      simp only [Plausible, MarkOk, RankOk, Spec.Acceptable, validDType_iff, Spec.values, ne_eq,
        reduceCtorEq, not_false_eq_true, and_true]
      have hm : ∀ sizes, markOf calls complete v = some (.shape sizes) ↔
          (complete = true ∧ Spec.shape calls v = some sizes) := by
        intro sizes
        unfold markOf
        cases complete with
        | false => simp
        | true =>
          simp only [if_true, true_and]
          cases hs : Spec.shape calls v with
          | some x => simp
          | none => by_cases hk : Spec.marked calls v = true <;> simp [hk]
      constructor
      · rintro ⟨h1, h2, h3⟩
        exact ⟨h1, fun hc sizes hs => ⟨h3 sizes ((hm sizes).2 ⟨hc, hs⟩), h2 sizes ((hm sizes).2 ⟨hc, hs⟩)⟩⟩
      · rintro ⟨h1, h2⟩
        exact ⟨h1, fun sizes hs => (h2 ((hm sizes).1 hs).1 sizes ((hm sizes).1 hs).2).2,
          fun sizes hs => (h2 ((hm sizes).1 hs).1 sizes ((hm sizes).1 hs).2).1⟩
  | ragged v s t =>
    simp only [Plausible, MarkOk, RankOk, Spec.Acceptable, validDType_iff, and_true]
  | other t => exact ⟨fun h => h.1.elim, fun h => h.elim⟩

/-! ## Names of global annotations -/

theorem last_component (a b : List Char) (ha : a = [] ∨ a.getLast? = some '/') (hb : '/' ∉ b) :
    ((a ++ b).reverse.takeWhile (· ≠ '/')).reverse = b := by
  rw [List.reverse_append, List.takeWhile_append_of_pos (by
    intro x hx
    have : x ≠ '/' := ne_of_mem_of_not_mem (List.mem_reverse.1 hx) hb
    simpa using this)]
  have : a.reverse.takeWhile (fun x => decide (x ≠ '/')) = [] := by
    rcases ha with rfl | ha
    · rfl
    · rw [← List.head?_reverse] at ha
      cases hl : a.reverse with
      | nil => rfl
      | cons x xs =>
        rw [hl] at ha
        simp only [List.head?_cons, Option.some.injEq] at ha
        subst ha
        rfl
  rw [this]
  simp

theorem slash_free (k : Nat) : '/' ∉ (toString k).toList := by
  intro h
  have h' : '/' ∈ Nat.toDigits 10 k := by
    rw [← Nat.toList_repr]; exact h
  have := Nat.isDigit_of_mem_toDigits (by omega) (by omega) h'
  exact absurd this (by decide)

theorem scopes_end (scopes : List String) (rest : String) :
    ∃ a, ((scopes.map (fun s => s ++ "/")).foldr (· ++ ·) rest).toList = a ++ rest.toList ∧
      (a = [] ∨ a.getLast? = some '/') := by
  induction scopes with
  | nil => exact ⟨[], rfl, Or.inl rfl⟩
  | cons s ss ih =>
    obtain ⟨a, h1, h2⟩ := ih
    refine ⟨s.toList ++ ['/'] ++ a, ?_, Or.inr ?_⟩
    · rw [List.map_cons, List.foldr_cons, String.toList_append, h1, String.toList_append]
      simp
    · rcases h2 with rfl | h2
      · simp
      · rw [List.getLast?_append, h2]; rfl

theorem marker_global (scopes : List String) (k : Nat) : isGlobalName (markerName scopes k) = true := by
  unfold isGlobalName markerName
  obtain ⟨a, h1, h2⟩ := scopes_end scopes
    (globalSentinel ++ (if k = 0 then "" else "_" ++ toString k) ++ ":0")
  rw [h1, last_component a _ h2]
  · rw [String.toList_append, String.toList_append, List.append_assoc, List.isPrefixOf_iff_prefix]
    exact List.prefix_append _ _
  · rw [String.toList_append, String.toList_append]
    intro hm
    rcases List.mem_append.1 hm with hm | hm
    · rcases List.mem_append.1 hm with hm | hm
      · simp [globalSentinel] at hm
      · by_cases hk : k = 0
        · simp [hk] at hm
        · rw [if_neg hk, String.toList_append] at hm
          rcases List.mem_append.1 hm with hm | hm
          · simp at hm
          · exact slash_free k hm
    · simp at hm

/-- A name that does not contain the reserved word. -/
theorem not_global (name : String)
    (h : ¬"tft_schema_override_global_sentinel".toList <:+: name.toList) : isGlobalName name = false := by
  by_contra hc
  rw [Bool.not_eq_false] at hc
  unfold isGlobalName at hc
  rw [List.isPrefixOf_iff_prefix] at hc
  apply h
  refine List.IsInfix.trans hc.isInfix ?_
  rw [← List.reverse_infix, List.reverse_reverse]
  exact (List.takeWhile_prefix _).isInfix

theorem annotations_eq (calls : List Call) (c : Collections) (h : trace calls = .ok c)
    (hu : ∀ t a, Call.annotate t a ∈ calls →
      ¬"tft_schema_override_global_sentinel".toList <:+: t.name.toList) (t : Ref) :
    tensorAnnotations c t = Spec.annotations calls t ∧ globals1 c = Spec.globals calls := by
  have h2 := (trace_ok calls c h).2.1
  unfold tensorAnnotations globals1 Spec.annotations Spec.globals
  rw [h2]
  clear h h2
  induction calls with
  | nil => exact ⟨rfl, rfl⟩
  | cons x xs ih =>
    have ih := ih (fun t a hm => hu t a (by simp [hm]))
    rw [List.filterMap_cons, List.filterMap_cons, List.filterMap_cons]
    cases x with
    | annotate u a =>
      have hg := not_global u.name (hu u a (by simp))
      simp only [callAnnotation, Spec.annotationIn, Spec.globalIn]
      constructor
      · by_cases hut : u = t
        · subst hut
          rw [List.filter_cons_of_pos (by simp [hg]), List.map_cons, ih.1]
          simp
        · rw [List.filter_cons_of_neg (by simp [hut]), ih.1]
          simp [hut]
      · rw [List.filter_cons_of_neg (by simp [hg]), ih.2]
    | annotateGlobal sc k a =>
      have hg := marker_global sc k
      simp only [callAnnotation, Spec.annotationIn, Spec.globalIn]
      constructor
      · rw [List.filter_cons_of_neg (by simp [hg]), ih.1]
      · rw [List.filter_cons_of_pos (by simpa using hg), List.map_cons, ih.2]
    | _ => exact ih

/-! ## Both inferences -/

/-- What it means that an inferred schema describes the outputs of `preprocessing_fn`: read back as a
feature spec it has exactly the outputs, each with its spec and its domain; the annotations of each
output are on the column with its values, and on no other; and the global annotations are those of
the user. -/
def Spec.Describes (calls : List Call) (outs : List (String × Out)) (complete : Bool)
    (r : Inferred) : Prop :=
  (∃ specs domains, schemaAsFeatureSpec r.schema = .ok (specs, domains) ∧ ∀ name,
    get specs name = (outs.lookup name).map (Spec.spec calls complete name) ∧
    get domains name = (outs.lookup name).bind (Spec.domain calls complete)) ∧
  (∀ o ∈ outs, r.columns (Spec.column calls complete o.1 o.2)
    = if complete then Spec.annotations calls (Spec.values o.2) else []) ∧
  (∀ c, (∀ o ∈ outs, c ≠ Spec.column calls complete o.1 o.2) → r.columns c = []) ∧
  r.globals = if complete then Spec.globals calls else []

theorem lookup_mem_of {α : Type} (l : List (String × α)) (k : String) (v : α)
    (h : l.lookup k = some v) : (k, v) ∈ l := by
  induction l with
  | nil => cases h
  | cons e es ih =>
    rw [lookup_cons_if] at h
    by_cases he : k = e.1
    · rw [if_pos he, Option.some.injEq] at h
      rw [he, ← h]; simp
    · rw [if_neg he] at h
      exact List.mem_cons_of_mem _ (ih h)

theorem lookup_of_mem {α : Type} (l : List (String × α)) (hn : (l.map Prod.fst).Nodup)
    (e : String × α) (h : e ∈ l) : l.lookup e.1 = some e.2 := by
  induction l with
  | nil => cases h
  | cons x xs ih =>
    rw [lookup_cons_if]
    rw [List.map_cons, List.nodup_cons] at hn
    rcases List.mem_cons.1 h with rfl | h
    · simp
    · rw [if_neg, ih hn.2 h]
      intro he
      exact hn.1 (he ▸ List.mem_map_of_mem h)

theorem describes (calls : List Call) (outs : List (String × Out))
    (ranges : List (String × Option (Int × Int)))
    (as : List (String × List Annotation)) (globals : List Annotation)
    (marks : List (String × Mark)) (complete : Bool)
    (hn : (outs.map Prod.fst).Nodup) (hd : ∀ o ∈ outs, '$' ∉ o.1.toList)
    (hm : (marks.map Prod.fst).Nodup) (hin : ∀ e ∈ marks, e.1 ∈ outs.map Prod.fst)
    (ha : ∀ e ∈ as, e.1 ∈ outs.map Prod.fst)
    (h1 : ∀ o ∈ outs, (valuesOf o.2).isSome → marks.lookup o.1 = markOf calls complete (Spec.values o.2))
    (h2 : ∀ o ∈ outs, (valuesOf o.2).isSome → ranges.lookup o.1
      = (Spec.range calls (Spec.values o.2)).map (fun r => if complete then some r else none))
    (h3 : ∀ o ∈ outs, (valuesOf o.2).isSome → (as.filter (fun e => e.1 = o.1)).flatMap Prod.snd
      = if complete then Spec.annotations calls (Spec.values o.2) else [])
    (h4 : globals = if complete then Spec.globals calls else []) :
    ((∃ r, inferCommon outs ranges as globals marks complete = .ok r) ↔
      ∀ o ∈ outs, Spec.Acceptable calls complete o.2) ∧
    ∀ r, inferCommon outs ranges as globals marks complete = .ok r →
      Spec.Describes calls outs complete r := by
  obtain ⟨ci, cr⟩ := common_ok outs ranges as globals marks complete hn hd hm hin ha
  have hiff : (∃ r, inferCommon outs ranges as globals marks complete = .ok r) ↔
      ∀ o ∈ outs, Spec.Acceptable calls complete o.2 := by
    rw [ci]
    refine forall₂_congr (fun o ho => ?_)
    rw [← acceptable_iff]
    by_cases hv : (valuesOf o.2).isSome
    · rw [h1 o ho hv]
    · constructor
      · rintro ⟨h, _⟩
        cases ho2 : o.2 with
        | other t => rw [ho2] at h; exact h.elim
        | _ => rw [ho2] at hv; simp [valuesOf] at hv
      · rintro ⟨h, _⟩
        cases ho2 : o.2 with
        | other t => rw [ho2] at h; exact h.elim
        | _ => rw [ho2] at hv; simp [valuesOf] at hv
  refine ⟨hiff, fun r hr => ?_⟩
  have hv : ∀ o ∈ outs, (valuesOf o.2).isSome := by
    intro o ho
    have := hiff.1 ⟨r, hr⟩ o ho
    cases ho2 : o.2 with
    | other t => rw [ho2] at this; exact this.elim
    | _ => rfl
  obtain ⟨⟨sp, r1, r2, r3⟩, r4, r5, r6⟩ := cr r hr
  refine ⟨⟨sp.1, sp.2, r1, fun name => ⟨?_, ?_⟩⟩, ?_, ?_, r4.trans h4⟩
  · rw [r2]
    cases hl : outs.lookup name with
    | none => rfl
    | some o =>
      have ho := lookup_mem_of _ _ _ hl
      have := h1 _ ho (hv _ ho)
      simp only at this
      simp only [Option.map_some, this, recovered_spec]
  · rw [r3]
    cases hl : outs.lookup name with
    | none =>
      rw [if_neg]
      · rfl
      · intro hc
        rw [List.lookup_eq_none_iff] at hl
        obtain ⟨o, ho, rfl⟩ := List.mem_map.1 hc
        exact absurd (hl o ho) (by simp)
    | some o =>
      have ho := lookup_mem_of _ _ _ hl
      rw [if_pos (List.mem_map_of_mem ho (f := Prod.fst))]
      have := h2 _ ho (hv _ ho)
      simp only at this
      rw [this]
      simp only [Option.bind_some, Spec.domain]
      cases Spec.range calls (Spec.values o) with
      | none => rfl
      | some p => cases complete <;> rfl
  · intro o ho
    rw [← colName_eq, ← h1 o ho (hv o ho), r5 o ho, h3 o ho (hv o ho)]
  · intro c hc
    refine r6 c (fun o ho => ?_)
    rw [h1 o ho (hv o ho), colName_eq]
    exact hc o ho

theorem lookup_filterMap_keyed {α β : Type} (f : String × α → Option β) (l : List (String × α))
    (hn : (l.map Prod.fst).Nodup) (e : String × α) (he : e ∈ l) :
    (l.filterMap (fun o => (f o).map (fun b => (o.1, b)))).lookup e.1 = f e := by
  induction l with
  | nil => cases he
  | cons x xs ih =>
    rw [List.map_cons, List.nodup_cons] at hn
    have hnot : ∀ y, y ∉ xs.map Prod.fst →
        (xs.filterMap (fun o => (f o).map (fun b => (o.1, b)))).lookup y = none := by
      intro y hy
      rw [List.lookup_eq_none_iff]
      intro p hp
      rw [List.mem_filterMap] at hp
      obtain ⟨o, ho, hq⟩ := hp
      cases hf : f o with
      | none => rw [hf] at hq; cases hq
      | some b =>
        rw [hf] at hq
        simp only [Option.map_some, Option.some.injEq] at hq
        subst hq
        have : y ≠ o.1 := fun hc => hy (hc ▸ List.mem_map_of_mem ho)
        simpa using this
    rw [List.filterMap_cons]
    rcases List.mem_cons.1 he with rfl | he
    · cases hf : f e with
      | none => simp only [Option.map_none]; exact hnot _ hn.1
      | some b => simp [lookup_cons_if]
    · have hne : e.1 ≠ x.1 := fun hc => hn.1 (hc ▸ List.mem_map_of_mem he)
      cases hf : f x with
      | none => simp only [Option.map_none]; exact ih hn.2 he
      | some b =>
        simp only [Option.map_some]
        rw [lookup_cons_if, if_neg hne]
        exact ih hn.2 he

theorem keys_filterMap_keyed {α β : Type} (f : String × α → Option β) (l : List (String × α)) :
    ((l.filterMap (fun o => (f o).map (fun b => (o.1, b)))).map Prod.fst).Sublist (l.map Prod.fst) := by
  induction l with
  | nil => simp
  | cons x xs ih =>
    rw [List.filterMap_cons]
    cases hf : f x with
    | none => simpa [hf] using List.Sublist.cons x.1 ih
    | some b => simpa [hf] using ih

theorem range_int64 (calls : List Call) (c : Collections) (h : trace calls = .ok c) (t : Ref)
    (p : Int × Int) (hr : Spec.range calls t = some p) : t.dtype = .int64 := by
  have := List.mem_of_getLast? hr
  rw [List.mem_filterMap] at this
  obtain ⟨x, hx, he⟩ := this
  cases x with
  | override u lo hi =>
    by_cases hu : u = t
    · subst hu
      exact (trace_ok calls c h).2.2.2.2 u lo hi hx
    · simp [Spec.rangeIn, hu] at he
  | _ => cases he

theorem values_of (o : Out) (v : Ref) (h : valuesOf o = some v) : Spec.values o = v := by
  cases o <;> simp_all [valuesOf, Spec.values]

/-- The range of an output. -/
def rangeOf (calls : List Call) (session : Bool) (o : String × Out) : Option (Option (Int × Int)) :=
  (valuesOf o.2).bind (fun v => (Spec.range calls v).map (fun r => if session then some r else none))

theorem range1_ok (calls : List Call) (c : Collections) (h : trace calls = .ok c) (session : Bool)
    (o : String × Out) :
    range1 c session o = .ok ((rangeOf calls session o).map (fun b => (o.1, b))) := by
  unfold range1 rangeOf
  cases hv : valuesOf o.2 with
  | none => rfl
  | some v =>
    simp only [Option.bind_some, range_eq calls c h]
    cases hr : Spec.range calls v with
    | none => rfl
    | some p =>
      simp only [Option.map_some]
      rw [if_neg (by simpa using range_int64 calls c h v p hr)]

theorem filter_map_one {α β : Type} (g : String × α → List β) (l : List (String × α))
    (hn : (l.map Prod.fst).Nodup) (e : String × α) (he : e ∈ l) :
    ((l.map (fun o => (o.1, g o))).filter (fun p => p.1 = e.1)).flatMap Prod.snd = g e := by
  induction l with
  | nil => cases he
  | cons x xs ih =>
    rw [List.map_cons, List.nodup_cons] at hn
    rw [List.map_cons]
    rcases List.mem_cons.1 he with rfl | he
    · rw [List.filter_cons_of_pos (by simp), List.flatMap_cons]
      have : (xs.map (fun o => (o.1, g o))).filter (fun p => p.1 = e.1) = [] := by
        rw [List.filter_eq_nil_iff]
        intro p hp
        obtain ⟨o, ho, rfl⟩ := List.mem_map.1 hp
        have : o.1 ≠ e.1 := fun hc => hn.1 (hc ▸ List.mem_map_of_mem ho)
        simpa using this
      rw [this]; simp
    · have hne : x.1 ≠ e.1 := fun hc => hn.1 (hc ▸ List.mem_map_of_mem he)
      rw [List.filter_cons_of_neg (by simpa using hne)]
      exact ih hn.2 he

/-- **C62**, with graphs and sessions. The schema that `infer_feature_schema` infers describes the
outputs of `preprocessing_fn`, and it is inferred for exactly the acceptable outputs; `session` tells
whether the analyzers have been evaluated. The keys are those of a dict and have no `$`. -/
theorem graph_schema_describes_outputs_partial (calls : List Call) (c : Collections)
    (hc : trace calls = .ok c) (outs : List (String × Out)) (session : Bool)
    (hn : (outs.map Prod.fst).Nodup) (hd : ∀ o ∈ outs, '$' ∉ o.1.toList)
    (hu : ∀ t a, Call.annotate t a ∈ calls →
      ¬"tft_schema_override_global_sentinel".toList <:+: t.name.toList) :
    ((∃ r, inferV1 outs c session = .ok r) ↔ ∀ o ∈ outs, Spec.Acceptable calls session o.2) ∧
    ∀ r, inferV1 outs c session = .ok r → Spec.Describes calls outs session r := by
  have hr : outs.mapM (range1 c session)
      = .ok (outs.map (fun o => (rangeOf calls session o).map (fun b => (o.1, b)))) :=
    mapM_ok _ _ _ (fun o _ => range1_ok calls c hc session o)
  have hinf : inferV1 outs c session = inferCommon outs
      (outs.filterMap (fun o => (rangeOf calls session o).map (fun b => (o.1, b))))
      (outs.map (annotations1 c session)) (if session then globals1 c else [])
      (outs.filterMap (fun o => (if session then (valuesOf o.2).bind (dictGet (sparseMarks c))
        else none).map (fun b => (o.1, b)))) session := by
    unfold inferV1
    rw [hr]
    change inferCommon _ _ _ _ _ _ = _
    rw [List.filterMap_map]
    congr 1
    congr 1
    funext o
    unfold mark1
    cases session <;> rfl
  rw [hinf]
  refine describes calls outs _ _ _ _ session hn hd ?_ ?_ ?_ ?_ ?_ ?_ ?_
  · exact List.Nodup.sublist (keys_filterMap_keyed (fun o : String × Out =>
      if session then (valuesOf o.2).bind (dictGet (sparseMarks c)) else none) outs) hn
  · intro e he
    exact (keys_filterMap_keyed (fun o : String × Out =>
      if session then (valuesOf o.2).bind (dictGet (sparseMarks c)) else none) outs).subset
      (List.mem_map_of_mem he)
  · intro e he
    obtain ⟨o, ho, rfl⟩ := List.mem_map.1 he
    exact List.mem_map_of_mem ho
  · intro o ho hv
    rw [lookup_filterMap_keyed (fun o : String × Out =>
      if session then (valuesOf o.2).bind (dictGet (sparseMarks c)) else none) outs hn o ho]
    obtain ⟨v, hv⟩ := Option.isSome_iff_exists.1 hv
    rw [values_of _ _ hv, hv]
    cases session with
    | true => exact mark_eq calls c hc v
    | false => rfl
  · intro o ho hv
    rw [lookup_filterMap_keyed (rangeOf calls session) outs hn o ho]
    obtain ⟨v, hv⟩ := Option.isSome_iff_exists.1 hv
    rw [values_of _ _ hv]
    unfold rangeOf
    rw [hv]
    rfl
  · intro o ho hv
    have := filter_map_one (fun o : String × Out =>
      if session then ((valuesOf o.2).map (tensorAnnotations c)).getD [] else []) outs hn o ho
    refine Eq.trans this ?_
    obtain ⟨v, hv⟩ := Option.isSome_iff_exists.1 hv
    rw [values_of _ _ hv, hv]
    cases session with
    | true => exact (annotations_eq calls c hc hu v).1
    | false => rfl
  · rw [(annotations_eq calls c hc hu ⟨"", .string⟩).2]

/-! ## tf.functions -/

theorem keyMap_ok (outs : List (String × Out)) :
    (∀ o ∈ outs, (valuesOf o.2).isSome) →
      keyMap outs = .ok (outs.map (fun o => ((Spec.values o.2).name, o.1))) := by
  induction outs with
  | nil => intro _; rfl
  | cons o os ih =>
    intro h
    obtain ⟨v, hv⟩ := Option.isSome_iff_exists.1 (h o (by simp))
    simp only [keyMap, hv]
    rw [ih (fun x hx => h x (by simp [hx]))]
    rw [List.map_cons, values_of _ _ hv]
    rfl

theorem keyMap_error (outs : List (String × Out)) (o : String × Out) (ho : o ∈ outs)
    (hv : valuesOf o.2 = none) : ∃ e, keyMap outs = .error e := by
  induction outs with
  | nil => cases ho
  | cons x xs ih =>
    simp only [keyMap]
    cases hx : valuesOf x.2 with
    | none => exact ⟨_, rfl⟩
    | some v =>
      rcases List.mem_cons.1 ho with rfl | ho
      · rw [hv] at hx; cases hx
      · obtain ⟨e, he⟩ := ih ho
        exact ⟨e, by simp only [he]; rfl⟩

theorem dictGet_some {κ α : Type} [DecidableEq κ] (d : List (κ × α)) (k : κ) (v : α)
    (h : dictGet d k = some v) : (k, v) ∈ d := by
  unfold dictGet at h
  cases hf : d.reverse.find? (fun e => decide (e.1 = k)) with
  | none => rw [hf] at h; cases h
  | some e =>
    rw [hf] at h
    simp only [Option.map_some, Option.some.injEq] at h
    have h1 := List.mem_of_find?_eq_some hf
    have h2 := List.find?_some hf
    simp only [decide_eq_true_eq] at h2
    rw [← h2, ← h]
    exact List.mem_reverse.1 h1

theorem dictGet_isSome {κ α : Type} [DecidableEq κ] (d : List (κ × α)) (e : κ × α) (h : e ∈ d) :
    ∃ v, dictGet d e.1 = some v := by
  unfold dictGet
  cases hf : d.reverse.find? (fun x => decide (x.1 = e.1)) with
  | none =>
    rw [List.find?_eq_none] at hf
    exact absurd (hf e (List.mem_reverse.2 h)) (by simp)
  | some x => exact ⟨_, rfl⟩

/-- The map from tensors to keys. -/
theorem key_iff (outs : List (String × Out)) (hn : (outs.map Prod.fst).Nodup)
    (hv : (outs.map (fun o => (Spec.values o.2).name)).Nodup) (o : String × Out) (ho : o ∈ outs)
    (n : String) :
    dictGet (outs.map (fun o => ((Spec.values o.2).name, o.1))) n = some o.1 ↔
      n = (Spec.values o.2).name := by
  constructor
  · intro h
    have := dictGet_some _ _ _ h
    obtain ⟨x, hx, he⟩ := List.mem_map.1 this
    simp only [Prod.mk.injEq] at he
    have := List.inj_on_of_nodup_map hn hx ho he.2
    rw [← he.1, this]
  · rintro rfl
    obtain ⟨k, hk⟩ := dictGet_isSome _ _ (List.mem_map_of_mem ho
      (f := fun o : String × Out => ((Spec.values o.2).name, o.1)))
    simp only at hk
    obtain ⟨x, hx, he⟩ := List.mem_map.1 (dictGet_some _ _ _ hk)
    simp only [Prod.mk.injEq] at he
    have := List.inj_on_of_nodup_map hv hx ho he.1
    rw [hk, ← he.2, this]

theorem key_mem (outs : List (String × Out)) (n k : String)
    (h : dictGet (outs.map (fun o => ((Spec.values o.2).name, o.1))) n = some k) :
    k ∈ outs.map Prod.fst := by
  obtain ⟨x, hx, he⟩ := List.mem_map.1 (dictGet_some _ _ _ h)
  simp only [Prod.mk.injEq] at he
  rw [← he.2]
  exact List.mem_map_of_mem hx

theorem lookup_reverse {α : Type} (l : List (String × α)) (k : String) :
    l.reverse.lookup k = dictGet l k := by
  unfold dictGet
  induction l.reverse with
  | nil => rfl
  | cons e es ih =>
    rw [lookup_cons_if, List.find?_cons]
    by_cases h : k = e.1
    · simp [h]
    · rw [if_neg h, ih]
      have : (decide (e.1 = k)) = false := by simpa using fun hc => h hc.symm
      rw [this]

theorem dictGet_filterMap {α : Type} {β γ : Type} [DecidableEq β] (f : β → Option String)
    (l : List (β × α)) (g : α → γ) (k : String) (t : β)
    (h : ∀ p ∈ l, f p.1 = some k ↔ p.1 = t) :
    dictGet (l.filterMap (fun p => (f p.1).map (fun x => (x, g p.2)))) k = (dictGet l t).map g := by
  rw [dictGet_eq, dictGet_eq, List.filterMap_filterMap, ← List.getLast?_map, List.map_filterMap]
  congr 1
  apply List.filterMap_congr
  intro p hp
  have := h p hp
  cases hf : f p.1 with
  | none =>
    rw [hf] at this
    have hne : p.1 ≠ t := fun hc => by simpa using this.2 hc
    simp [hne]
  | some x =>
    rw [hf] at this
    by_cases hx : x = k
    · have hpt := this.1 (by rw [hx])
      simp [hx, hpt]
    · have hne : p.1 ≠ t := fun hc => hx (by simpa using this.2 hc)
      simp [hne, hx]

/-- A dict built by assignments. -/
def assign {α : Type} (l : List (String × α)) : List (String × α) :=
  l.foldl (fun d p => dictSet d p.1 p.2) []

theorem dictSet_keys {α : Type} (d : List (String × α)) (k : String) (v : α)
    (hn : (d.map Prod.fst).Nodup) :
    ((dictSet d k v).map Prod.fst).Nodup ∧
      ∀ x ∈ (dictSet d k v).map Prod.fst, x = k ∨ x ∈ d.map Prod.fst := by
  induction d with
  | nil => simp [dictSet]
  | cons e es ih =>
    rw [List.map_cons, List.nodup_cons] at hn
    obtain ⟨i1, i2⟩ := ih hn.2
    unfold dictSet
    by_cases h : e.1 = k
    · rw [if_pos h, List.map_cons, List.nodup_cons]
      refine ⟨⟨by rw [← h]; exact hn.1, hn.2⟩, fun x hx => ?_⟩
      rcases List.mem_cons.1 hx with hx | hx
      · exact Or.inl hx
      · exact Or.inr (List.mem_cons_of_mem _ hx)
    · rw [if_neg h, List.map_cons, List.nodup_cons]
      refine ⟨⟨fun hc => ?_, i1⟩, fun x hx => ?_⟩
      · rcases i2 _ hc with hc | hc
        · exact h hc
        · exact hn.1 hc
      · rcases List.mem_cons.1 hx with hx | hx
        · exact Or.inr (by rw [hx]; simp)
        · rcases i2 x hx with hx | hx
          · exact Or.inl hx
          · exact Or.inr (List.mem_cons_of_mem _ hx)

theorem assign_spec {α : Type} (l : List (String × α)) :
    ((assign l).map Prod.fst).Nodup ∧ (∀ x ∈ (assign l).map Prod.fst, x ∈ l.map Prod.fst) ∧
      ∀ k, (assign l).lookup k = dictGet l k := by
  unfold assign
  induction l using List.reverseRecOn with
  | nil => exact ⟨by simp, by simp, fun k => rfl⟩
  | append_singleton l e ih =>
    obtain ⟨i1, i2, i3⟩ := ih
    rw [List.foldl_append, List.foldl_cons, List.foldl_nil]
    obtain ⟨j1, j2⟩ := dictSet_keys _ e.1 e.2 i1
    refine ⟨j1, ?_, ?_⟩
    · intro x hx
      rw [List.map_append]
      rcases j2 x hx with rfl | hx
      · simp
      · exact List.mem_append_left _ (i2 x hx)
    · intro k
      rw [lookup_dictSet, dictGet_append]
      have : dictGet [e] k = if e.1 = k then some e.2 else none := by
        unfold dictGet
        by_cases h : e.1 = k <;> simp [h]
      rw [this]
      by_cases h : k = e.1
      · simp [h]
      · have h' : e.1 ≠ k := fun hc => h hc.symm
        simp [h, h', i3]

theorem marks2_eq (km : List (String × String)) (c : Collections) :
    marks2 km c = assign ((sparseMarks c).filterMap
      (fun p => (dictGet km p.1.name).map (fun k => (k, p.2)))) := by
  unfold marks2 assign
  rw [List.foldl_filterMap]
  congr 1
  funext d p
  cases dictGet km p.1.name <;> rfl

theorem appended (l : List (String × Annotation)) :
    ((l.foldl dictAppend []).map Prod.fst).Nodup ∧
      (∀ x ∈ (l.foldl dictAppend []).map Prod.fst, x ∈ l.map Prod.fst) ∧
      ∀ k, ((l.foldl dictAppend []).lookup k).getD [] = (l.filter (fun e => e.1 = k)).map Prod.snd := by
  induction l using List.reverseRecOn with
  | nil => exact ⟨by simp, by simp, fun k => rfl⟩
  | append_singleton l e ih =>
    obtain ⟨i1, i2, i3⟩ := ih
    rw [List.foldl_append, List.foldl_cons, List.foldl_nil]
    unfold dictAppend
    obtain ⟨j1, j2⟩ := dictSet_keys (l.foldl dictAppend []) e.1
      (((l.foldl dictAppend []).lookup e.1).getD [] ++ [e.2]) i1
    refine ⟨j1, ?_, ?_⟩
    · intro x hx
      rw [List.map_append]
      rcases j2 x hx with rfl | hx
      · simp
      · exact List.mem_append_left _ (i2 x hx)
    · intro k
      change ((dictSet (l.foldl dictAppend []) e.1
        (((l.foldl dictAppend []).lookup e.1).getD [] ++ [e.2])).lookup k).getD [] = _
      rw [lookup_dictSet, List.filter_append, List.map_append]
      by_cases h : k = e.1
      · subst h
        rw [if_pos rfl, Option.getD_some, i3]
        simp
      · have h' : e.1 ≠ k := fun hc => h hc.symm
        rw [if_neg h, i3]
        simp [h']

theorem filter_lookup {α : Type} (d : List (String × List α)) (hn : (d.map Prod.fst).Nodup)
    (k : String) : (d.filter (fun e => e.1 = k)).flatMap Prod.snd = (d.lookup k).getD [] := by
  induction d with
  | nil => rfl
  | cons x xs ih =>
    rw [List.map_cons, List.nodup_cons] at hn
    rw [lookup_cons_if]
    by_cases h : k = x.1
    · rw [if_pos h, List.filter_cons_of_pos (by simp [h]), List.flatMap_cons]
      have : xs.filter (fun e => e.1 = k) = [] := by
        rw [List.filter_eq_nil_iff]
        intro e he
        have : e.1 ≠ k := fun hc => hn.1 (by rw [← h, ← hc]; exact List.mem_map_of_mem he)
        simpa using this
      rw [this]; simp
    · rw [if_neg h, List.filter_cons_of_neg (by simpa using fun hc : x.1 = k => h hc.symm)]
      exact ih hn.2

/-- The tensor that a call is about. -/
def Spec.about : Call → Option Ref
  | .override t _ _ => some t
  | .annotate t _ => some t
  | .annotateGlobal _ _ _ => none
  | .sparseShape t _ _ => some t
  | .trulySparse t => some t

theorem marks_about (calls : List Call) (c : Collections) (h : trace calls = .ok c) (p : Ref × Mark)
    (hp : p ∈ sparseMarks c) : ∃ x ∈ calls, Spec.about x = some p.1 := by
  have h3 := (trace_ok calls c h).2.2.1
  have h4 := (trace_ok calls c h).2.2.2.1
  unfold sparseMarks at hp
  rcases List.mem_append.1 hp with hp | hp
  · obtain ⟨t, ht, rfl⟩ := List.mem_map.1 hp
    have ht := List.mem_of_mem_filter ht
    rw [h4, List.mem_filterMap] at ht
    obtain ⟨x, hx, he⟩ := ht
    refine ⟨x, hx, ?_⟩
    cases x with
    | trulySparse u => simpa [callTruly, Spec.about] using he
    | _ => cases he
  · obtain ⟨t, ht, rfl⟩ := List.mem_map.1 hp
    rw [h3, List.mem_filterMap] at ht
    obtain ⟨x, hx, he⟩ := ht
    refine ⟨x, hx, ?_⟩
    cases x with
    | sparseShape u ts s =>
      simp only [callShape, Option.some.injEq] at he
      rw [← he]; rfl
    | _ => cases he

theorem overrides_about (calls : List Call) (c : Collections) (h : trace calls = .ok c)
    (p : Ref × Int × Int) (hp : p ∈ c.overrides) : ∃ x ∈ calls, Spec.about x = some p.1 := by
  rw [(trace_ok calls c h).1, List.mem_filterMap] at hp
  obtain ⟨x, hx, he⟩ := hp
  refine ⟨x, hx, ?_⟩
  cases x with
  | override u lo hi =>
    simp only [callOverride, Option.some.injEq] at he
    rw [← he]; rfl
  | _ => cases he

theorem annotations2_eq (calls : List Call) (c : Collections) (h : trace calls = .ok c)
    (hu : ∀ t a, Call.annotate t a ∈ calls →
      ¬"tft_schema_override_global_sentinel".toList <:+: t.name.toList)
    (f : Ref → Option String) (k : String) (t : Ref)
    (h1 : ∀ u a, Call.annotate u a ∈ calls → (f u = some k ↔ u = t))
    (h2 : ∀ u, isGlobalName u.name = false → f u ≠ some globalSentinel)
    (h3 : ∀ s n, f ⟨markerName s n, .string⟩ = some globalSentinel) :
    ((((c.annotations.filterMap (fun p => (f p.1).map (fun k => (k, p.2)))).filter
      (fun e => e.1 ≠ globalSentinel)).filter (fun e => e.1 = k)).map Prod.snd
      = Spec.annotations calls t) := by
  rw [(trace_ok calls c h).2.1]
  clear h
  unfold Spec.annotations
  induction calls with
  | nil => rfl
  | cons x xs ih =>
    have ih := ih (fun t a hm => hu t a (by simp [hm])) (fun u a hm => h1 u a (by simp [hm]))
    cases x with
    | annotate u a =>
      have hg := h2 u (not_global u.name (hu u a (by simp)))
      have hkt := h1 u a (by simp)
      simp only [List.filterMap_cons, callAnnotation, Spec.annotationIn]
      cases hf : f u with
      | none =>
        rw [hf] at hkt
        have : u ≠ t := fun hc => by simpa using hkt.2 hc
        simp only [this, if_false, Option.map_none]
        exact ih
      | some y =>
        rw [hf] at hkt hg
        have hyg : y ≠ globalSentinel := fun hc => hg (by rw [hc])
        simp only [Option.map_some]
        rw [List.filter_cons_of_pos (by simpa using hyg)]
        by_cases hy : y = k
        · have : u = t := hkt.1 (by rw [hy])
          rw [List.filter_cons_of_pos (by simpa using hy), List.map_cons, ih]
          simp [this]
        · have : u ≠ t := fun hc => hy (by simpa using hkt.2 hc)
          rw [List.filter_cons_of_neg (by simpa using hy), ih]
          simp [this]
    | annotateGlobal sc n a =>
      simp only [List.filterMap_cons, callAnnotation, Spec.annotationIn, h3, Option.map_some]
      rw [List.filter_cons_of_neg (by simp)]
      exact ih
    | _ => exact ih

theorem globals2_eq (calls : List Call) (c : Collections) (h : trace calls = .ok c)
    (hu : ∀ t a, Call.annotate t a ∈ calls →
      ¬"tft_schema_override_global_sentinel".toList <:+: t.name.toList)
    (f : Ref → Option String)
    (h2 : ∀ u, isGlobalName u.name = false → f u ≠ some globalSentinel)
    (h3 : ∀ s n, f ⟨markerName s n, .string⟩ = some globalSentinel) :
    (((c.annotations.filterMap (fun p => (f p.1).map (fun k => (k, p.2)))).filter
      (fun e => e.1 = globalSentinel)).map Prod.snd = Spec.globals calls) := by
  rw [(trace_ok calls c h).2.1]
  clear h
  unfold Spec.globals
  induction calls with
  | nil => rfl
  | cons x xs ih =>
    have ih := ih (fun t a hm => hu t a (by simp [hm]))
    cases x with
    | annotate u a =>
      have hg := h2 u (not_global u.name (hu u a (by simp)))
      simp only [List.filterMap_cons, callAnnotation, Spec.globalIn]
      cases hf : f u with
      | none => exact ih
      | some y =>
        rw [hf] at hg
        have hyg : y ≠ globalSentinel := fun hc => hg (by rw [hc])
        simp only [Option.map_some]
        rw [List.filter_cons_of_neg (by simpa using hyg)]
        exact ih
    | annotateGlobal sc n a =>
      simp only [List.filterMap_cons, callAnnotation, Spec.globalIn, h3, Option.map_some]
      rw [List.filter_cons_of_pos (by simp), List.map_cons, ih]
    | _ => exact ih

/-- **C62**, with tf.functions. The same, if no two outputs have their values in the same tensor (see
`shared_values_lose_domain`). Tensors are known by their names. -/
theorem function_schema_describes_outputs_partial (calls : List Call) (c : Collections)
    (hc : trace calls = .ok c) (outs : List (String × Out)) (evaluate : Bool)
    (hn : (outs.map Prod.fst).Nodup) (hd : ∀ o ∈ outs, '$' ∉ o.1.toList)
    (hu : ∀ t a, Call.annotate t a ∈ calls →
      ¬"tft_schema_override_global_sentinel".toList <:+: t.name.toList)
    (hk : ∀ o ∈ outs, o.1 ≠ "tft_schema_override_global_sentinel" ∧
      ¬"tft_schema_override_global_sentinel".toList <:+: (Spec.values o.2).name.toList)
    (hv : (outs.map (fun o => (Spec.values o.2).name)).Nodup)
    (hg : ∀ x ∈ calls, ∀ t, Spec.about x = some t → ∀ o ∈ outs,
      t.name = (Spec.values o.2).name → t = Spec.values o.2) :
    ((∃ r, inferV2 outs c evaluate = .ok r) ↔ ∀ o ∈ outs, Spec.Acceptable calls evaluate o.2) ∧
    ∀ r, inferV2 outs c evaluate = .ok r → Spec.Describes calls outs evaluate r := by
  by_cases hall : ∀ o ∈ outs, (valuesOf o.2).isSome
  swap
  · push Not at hall
    obtain ⟨o, ho, hvo⟩ := hall
    have hvo : valuesOf o.2 = none := by simpa using hvo
    obtain ⟨e, he⟩ := keyMap_error outs o ho hvo
    have herr : inferV2 outs c evaluate = .error e := by unfold inferV2; rw [he]; rfl
    rw [herr]
    refine ⟨⟨fun ⟨r, hr⟩ => (by cases hr), fun ha => ?_⟩, fun r hr => (by cases hr)⟩
    have := ha o ho
    cases ho2 : o.2 with
    | other t => rw [ho2] at this; exact this.elim
    | _ => rw [ho2] at hvo; cases hvo
  set km := outs.map (fun o => ((Spec.values o.2).name, o.1)) with hkm
  have hinf : inferV2 outs c evaluate = inferCommon outs ((ranges2 km c evaluate).reverse)
      (if evaluate then annotations2 km c else []) (if evaluate then globals2 km c else [])
      (if evaluate then marks2 km c else []) evaluate := by
    unfold inferV2
    rw [keyMap_ok outs hall]
    rfl
  have hkey : ∀ x ∈ calls, ∀ t, Spec.about x = some t → ∀ o ∈ outs,
      (dictGet km t.name = some o.1 ↔ t = Spec.values o.2) := by
    intro x hx t ht o ho
    rw [key_iff outs hn hv o ho]
    exact ⟨hg x hx t ht o ho, fun h => by rw [h]⟩
  have hms := assign_spec ((sparseMarks c).filterMap
      (fun p => (dictGet km p.1.name).map (fun k => (k, p.2))))
  rw [← marks2_eq] at hms
  have hap := appended ((keyedAnnotations km c).filter (fun e => e.1 ≠ globalSentinel))
  have hsent : ∀ n, isGlobalName n = true → dictGet km n = none := by
    intro n hn'
    cases hl : dictGet km n with
    | none => rfl
    | some k =>
      obtain ⟨o, ho, he⟩ := List.mem_map.1 (dictGet_some _ _ _ hl)
      simp only [Prod.mk.injEq] at he
      have := not_global _ (hk o ho).2
      rw [he.1, hn'] at this
      cases this
  have hnos : ∀ n, dictGet km n ≠ some globalSentinel := by
    intro n hl
    obtain ⟨o, ho, he⟩ := List.mem_map.1 (dictGet_some _ _ _ hl)
    simp only [Prod.mk.injEq] at he
    exact (hk o ho).1 he.2
  have hk2 : ∀ u : Ref, isGlobalName u.name = false → annotationKey km u ≠ some globalSentinel := by
    intro u hgu
    unfold annotationKey
    cases hl : dictGet km u.name with
    | none => simp [hgu]
    | some y =>
      have := hnos u.name
      rw [hl] at this
      exact this
  have hk3 : ∀ s n, annotationKey km ⟨markerName s n, .string⟩ = some globalSentinel := by
    intro s n
    unfold annotationKey
    simp only [hsent _ (marker_global s n), marker_global, and_self, if_true]
  rw [hinf]
  refine describes calls outs _ _ _ _ evaluate hn hd ?_ ?_ ?_ ?_ ?_ ?_ ?_
  · cases evaluate with
    | true => exact hms.1
    | false => simp
  · intro e he
    cases evaluate with
    | true =>
      have := hms.2.1 e.1 (List.mem_map_of_mem he)
      rw [List.map_filterMap] at this
      obtain ⟨p, hp, hq⟩ := List.mem_filterMap.1 this
      cases hl : dictGet km p.1.name with
      | none => rw [hl] at hq; cases hq
      | some k =>
        rw [hl] at hq
        simp only [Option.map_some, Option.some.injEq] at hq
        rw [← hq]
        exact key_mem outs _ _ hl
    | false => cases he
  · intro e he
    cases evaluate with
    | true =>
      have := hap.2.1 e.1 (List.mem_map_of_mem he)
      obtain ⟨p, hp, hq⟩ := List.mem_map.1 this
      obtain ⟨hp1, hp2⟩ := List.mem_filter.1 hp
      simp only [decide_eq_true_eq] at hp2
      unfold keyedAnnotations at hp1
      obtain ⟨x, hx, hxe⟩ := List.mem_filterMap.1 hp1
      unfold annotationKey at hxe
      cases hl : dictGet km x.1.name with
      | none =>
        rw [hl] at hxe
        simp only at hxe
        by_cases hcnd : x.1.dtype = .string ∧ isGlobalName x.1.name = true
        · rw [if_pos hcnd] at hxe
          simp only [Option.map_some, Option.some.injEq] at hxe
          exact absurd (by rw [← hxe]) hp2
        · rw [if_neg hcnd] at hxe; cases hxe
      | some k =>
        rw [hl] at hxe
        simp only [Option.map_some, Option.some.injEq] at hxe
        rw [← hq, ← hxe]
        exact key_mem outs _ _ hl
    | false => cases he
  · intro o ho _
    cases evaluate with
    | false => rfl
    | true =>
      rw [if_pos rfl, hms.2.2, dictGet_filterMap (fun t : Ref => dictGet km t.name) (sparseMarks c)
        (fun m => m) o.1 (Spec.values o.2) (by
          intro p hp
          obtain ⟨x, hx, hxa⟩ := marks_about calls c hc p hp
          exact hkey x hx p.1 hxa o ho), mark_eq calls c hc]
      simp
  · intro o ho _
    unfold ranges2
    rw [lookup_reverse, dictGet_filterMap (fun t : Ref => dictGet km t.name) c.overrides
        (fun m => if evaluate then some m else none) o.1 (Spec.values o.2) (by
          intro p hp
          obtain ⟨x, hx, hxa⟩ := overrides_about calls c hc p hp
          exact hkey x hx p.1 hxa o ho), range_eq calls c hc]
  · intro o ho _
    cases evaluate with
    | false => rfl
    | true =>
      rw [if_pos rfl, if_pos rfl]
      unfold annotations2
      rw [filter_lookup _ hap.1, hap.2.2]
      refine annotations2_eq calls c hc hu (annotationKey km) o.1 (Spec.values o.2) ?_ hk2 hk3
      intro u a hm
      have := hkey _ hm u rfl o ho
      rw [← this]
      unfold annotationKey
      cases hl : dictGet km u.name with
      | some y => simp
      | none =>
        simp only [reduceCtorEq, iff_false]
        have := not_global u.name (hu u a hm)
        simp [this]
  · cases evaluate with
    | false => rfl
    | true =>
      rw [if_pos rfl, if_pos rfl]
      exact globals2_eq calls c hc hu (annotationKey km) hk2 hk3

/-! ## Cases -/

/-- Tensors of the cases. -/
def exId : Ref := ⟨"id:0", .int64⟩
/-- See `exId`. -/
def exSparse : Ref := ⟨"sparse/values:0", .float32⟩
/-- See `exId`. -/
def exRagged : Ref := ⟨"ragged/flat_values:0", .string⟩

/-- A range, an annotation of a tensor, a global annotation and an annotated shape. -/
def exCalls : List Call :=
  [.override exId 0 9, .annotate exId ⟨"url", "id"⟩, .annotateGlobal ["vocabulary"] 0 ⟨"url", "all"⟩,
    .sparseShape exSparse (some [none, none]) [7], .override exId (-1) 5]

/-- A dense, a sparse and a ragged output. -/
def exOuts : List (String × Out) :=
  [("id", .dense exId (some [none])), ("s", .sparse exSparse (some [none, none])),
    ("r", .ragged exRagged (some [none, none, some 2]) .int64)]

theorem exTrace : ∃ c, trace exCalls = .ok c := ⟨_, rfl⟩

theorem exAcceptable : ∀ o ∈ exOuts, Spec.Acceptable exCalls true o.2 := by
  intro o ho
  simp only [exOuts, List.mem_cons, List.not_mem_nil, or_false] at ho
  rcases ho with rfl | rfl | rfl
  · exact ⟨by decide, by simp⟩
  · refine ⟨by decide, fun _ sizes hs => ?_⟩
    have : Spec.shape exCalls exSparse = some [7] := by decide +kernel
    rw [this] at hs
    cases hs
    exact ⟨rfl, by simp⟩
  · exact ⟨by decide, by simp⟩

/-- The hypotheses of `graph_schema_describes_outputs_partial` can be met, and what it says then. -/
example : ∃ c r, trace exCalls = .ok c ∧ inferV1 exOuts c true = .ok r ∧
    Spec.Describes exCalls exOuts true r ∧
    Spec.domain exCalls true (.dense exId (some [none])) = some (.int (some (-1)) (some 5) true) ∧
    Spec.column exCalls true "s" (.sparse exSparse (some [none, none])) = "s$sparse_values" ∧
    Spec.annotations exCalls exId = [⟨"url", "id"⟩] ∧ Spec.globals exCalls = [⟨"url", "all"⟩] := by
  obtain ⟨c, hc⟩ := exTrace
  obtain ⟨h1, h2⟩ := graph_schema_describes_outputs_partial exCalls c hc exOuts true (by decide +kernel)
    (by decide +kernel) (by
      intro t a hm
      simp only [exCalls, List.mem_cons, List.not_mem_nil, or_false, reduceCtorEq, false_or,
        Call.annotate.injEq] at hm
      obtain ⟨rfl, _⟩ := hm
      decide +kernel)
  obtain ⟨r, hr⟩ := h1.2 exAcceptable
  exact ⟨c, r, hc, hr, h2 r hr, by decide +kernel, by decide +kernel, by decide +kernel,
    by decide +kernel⟩

/-- The hypotheses of `function_schema_describes_outputs_partial` can be met. -/
example : ∃ c r, trace exCalls = .ok c ∧ inferV2 exOuts c true = .ok r ∧
    Spec.Describes exCalls exOuts true r := by
  obtain ⟨c, hc⟩ := exTrace
  obtain ⟨h1, h2⟩ := function_schema_describes_outputs_partial exCalls c hc exOuts true
    (by decide +kernel) (by decide +kernel) (by
      intro t a hm
      simp only [exCalls, List.mem_cons, List.not_mem_nil, or_false, reduceCtorEq, false_or,
        Call.annotate.injEq] at hm
      obtain ⟨rfl, _⟩ := hm
      decide +kernel) (by decide +kernel) (by decide +kernel) (by
      intro x hx t ht o ho he
      simp only [exCalls, List.mem_cons, List.not_mem_nil, or_false] at hx
      simp only [exOuts, List.mem_cons, List.not_mem_nil, or_false] at ho
      rcases hx with rfl | rfl | rfl | rfl | rfl <;> simp only [Spec.about, Option.some.injEq,
        reduceCtorEq] at ht <;> subst ht <;> rcases ho with rfl | rfl | rfl <;>
        first
        | rfl
        | (exfalso; revert he; decide +kernel))
  obtain ⟨r, hr⟩ := h1.2 exAcceptable
  exact ⟨c, r, hc, hr, h2 r hr⟩

/-- Two outputs with the same tensor. -/
def twins : List (String × Out) :=
  [("a", .dense exId (some [none])), ("b", .dense exId (some [none]))]

/-- **The code violates C62** with tf.functions: of two outputs that are the same tensor only the last
one gets the domain (and likewise the annotations). With graphs both get it. -/
theorem shared_values_lose_domain :
    (∀ o ∈ twins, Spec.Acceptable exCalls true o.2 ∧
      Spec.domain exCalls true o.2 = some (.int (some (-1)) (some 5) true)) ∧
    (∃ c, trace exCalls = .ok c ∧
      ((inferV2 twins c true).toOption.bind (fun r => (schemaAsFeatureSpec r.schema).toOption)).map
        (fun sp => (get sp.2 "a", get sp.2 "b"))
          = some (none, some (.int (some (-1)) (some 5) true)) ∧
      ((inferV1 twins c true).toOption.bind (fun r => (schemaAsFeatureSpec r.schema).toOption)).map
        (fun sp => (get sp.2 "a", get sp.2 "b"))
          = some (some (.int (some (-1)) (some 5) true), some (.int (some (-1)) (some 5) true))) := by
  refine ⟨?_, _, rfl, ?_, ?_⟩
  · intro o ho
    simp only [twins, List.mem_cons, List.not_mem_nil, or_false] at ho
    rcases ho with rfl | rfl
    · exact ⟨⟨by decide, by simp⟩, by decide +kernel⟩
    · exact ⟨⟨by decide, by simp⟩, by decide +kernel⟩
  · decide +kernel
  · decide +kernel

/-- A sparse output of rank three, and one named like the column with its values. -/
def clash : List (String × Out) :=
  [("x", .sparse exSparse (some [none, none, none])), ("x$sparse_values", .dense exId (some [none]))]

/-- **The code violates C62** for outputs whose names have a `$`: they can be the names of columns of
other outputs. With graphs the inference fails; with tf.functions it publishes a schema without the
output, and gives the other one the wrong type. -/
theorem dollar_names_clash :
    (∀ o ∈ clash, Spec.Acceptable [] true o.2) ∧ (clash.map Prod.fst).Nodup ∧
    (inferV1 clash {} true).toOption.isSome = false ∧
    ((inferV2 clash {} true).toOption.bind (fun r => (schemaAsFeatureSpec r.schema).toOption)).map
      Prod.fst = some [("x", .sparse (.list ["x$sparse_indices_0", "x$sparse_indices_1"])
        "x$sparse_values" .int64 (.list [some (-1), some (-1)]) true)] := by
  refine ⟨?_, by decide +kernel, by decide +kernel, by decide +kernel⟩
  intro o ho
  simp only [clash, List.mem_cons, List.not_mem_nil, or_false] at ho
  rcases ho with rfl | rfl
  · exact ⟨by decide, fun _ sizes hs => by cases hs⟩
  · exact ⟨by decide, by simp⟩

/-! ## Which calls are accepted -/

/-- A valid call: ranges are for int64; an annotated shape has the rank of the tensor without the
batch and is nowhere smaller than it. -/
def Spec.Valid : Call → Prop
  | .override t _ _ => t.dtype = .int64
  | .annotate _ _ => True
  | .annotateGlobal _ _ _ => True
  | .sparseShape _ none _ => False
  | .sparseShape _ (some dims) sizes =>
    (1 < dims.length → sizes.length + 1 = dims.length) ∧ (dims.length = 1 → sizes.length = 1) ∧
      ∀ i d n, dims[i + 1]? = some (some d) → sizes[i]? = some n → d ≤ n
  | .trulySparse _ => True

theorem record_ok_iff (c : Collections) (x : Call) : (∃ c', record c x = .ok c') ↔ Spec.Valid x := by
  cases x with
  | override t lo hi =>
    simp only [record, Spec.Valid]
    by_cases h : t.dtype = .int64
    · rw [if_neg (by simpa using h)]; exact ⟨fun _ => h, fun _ => ⟨_, rfl⟩⟩
    · rw [if_pos h]; exact ⟨fun ⟨_, hc⟩ => (by cases hc), fun hc => absurd hc h⟩
  | annotate t a => exact ⟨fun _ => trivial, fun _ => ⟨_, rfl⟩⟩
  | annotateGlobal s k a => exact ⟨fun _ => trivial, fun _ => ⟨_, rfl⟩⟩
  | trulySparse t => exact ⟨fun _ => trivial, fun _ => ⟨_, rfl⟩⟩
  | sparseShape t ts s =>
    cases ts with
    | none => exact ⟨fun ⟨_, hc⟩ => (by cases hc), fun hc => hc.elim⟩
    | some ts =>
      simp only [record, Spec.Valid]
      by_cases h1 : (1 < ts.length ∧ ts.length - 1 ≠ s.length) ∨ (ts.length = 1 ∧ s.length ≠ 1)
      · rw [if_pos h1]
        refine ⟨fun ⟨_, hc⟩ => (by cases hc), fun ⟨a, b, _⟩ => ?_⟩
        rcases h1 with ⟨h, h'⟩ | ⟨h, h'⟩
        · have := a h; omega
        · exact absurd (b h) h'
      · rw [if_neg h1]
        have hz : ((ts.tail.zip s).all fits = true)
            ↔ ∀ i d n, ts[i + 1]? = some (some d) → s[i]? = some n → d ≤ n := by
          rw [List.all_eq_true]
          constructor
          · intro h i d n hd hn
            have : ((some d, n) : Option Int × Int) ∈ ts.tail.zip s := by
              rw [List.mem_iff_getElem?]
              refine ⟨i, ?_⟩
              rw [List.getElem?_zip_eq_some, List.getElem?_tail]
              exact ⟨hd, hn⟩
            simpa [fits] using h _ this
          · intro h p hp
            obtain ⟨i, hi⟩ := List.mem_iff_getElem?.1 hp
            rw [List.getElem?_zip_eq_some, List.getElem?_tail] at hi
            unfold fits
            cases hp1 : p.1 with
            | none => rfl
            | some d =>
              rw [hp1] at hi
              simpa using h i d p.2 hi.1 hi.2
        have h1' : (1 < ts.length → s.length + 1 = ts.length) ∧ (ts.length = 1 → s.length = 1) := by
          push Not at h1
          exact ⟨fun h => by have := h1.1 h; omega, h1.2⟩
        by_cases h2 : ((ts.tail.zip s).all fits = true)
        · rw [if_pos h2]
          exact ⟨fun _ => ⟨h1'.1, h1'.2, hz.1 h2⟩, fun _ => ⟨_, rfl⟩⟩
        · rw [if_neg h2]
          exact ⟨fun ⟨_, hc⟩ => (by cases hc), fun hc => absurd (hz.2 hc.2.2) h2⟩

/-- The calls of `preprocessing_fn` about its outputs succeed exactly if they are valid. -/
theorem calls_accepted_iff (calls : List Call) :
    (∃ c, trace calls = .ok c) ↔ ∀ x ∈ calls, Spec.Valid x := by
  have key : ∀ c0 : Collections, (∃ c, calls.foldlM record c0 = .ok c) ↔ ∀ x ∈ calls, Spec.Valid x := by
    induction calls with
    | nil => intro c0; exact ⟨fun _ => by simp, fun _ => ⟨c0, rfl⟩⟩
    | cons x xs ih =>
      intro c0
      rw [List.foldlM_cons, List.forall_mem_cons, ← record_ok_iff c0 x]
      cases hr : record c0 x with
      | error e =>
        exact ⟨fun ⟨_, hc⟩ => (by cases hc), fun ⟨⟨_, hc⟩, _⟩ => (by cases hc)⟩
      | ok c1 =>
        change (∃ c, xs.foldlM record c1 = .ok c) ↔ _
        rw [ih c1]
        exact ⟨fun h => ⟨⟨_, rfl⟩, h⟩, fun h => h.2⟩
  exact key {}

/-- Valid and invalid calls. -/
example : (∀ x ∈ exCalls, Spec.Valid x) ∧ ¬Spec.Valid (.sparseShape exSparse (some [none, some 8]) [7]) := by
  refine ⟨(calls_accepted_iff _).1 exTrace, ?_⟩
  rintro ⟨_, _, h⟩
  exact absurd (h 0 8 7 rfl rfl) (by decide)

end TFT.SchemaInference
