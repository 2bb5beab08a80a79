import Verif.Pipeline.CustomAnalyzer
import Verif.Combine.PackedLemmas
import Mathlib.Data.List.Basic
import Mathlib.Tactic.Common

/-!
# Properties of analyzers that users write (C84)
-/

namespace TFT.CustomAnalyzer

open TFT TFT.Construct
open TFT.Coders (Bytes)

variable {T P K D S C : Type}

namespace Spec

/-- The `PCollection`s that a `PTransform` returned: one, or a tuple of them. -/
inductive Returned : Result C → List C → Prop where
  | single (x : C) : Returned (.single x) [x]
  | tuple (xs : List C) : Returned (.tuple xs) xs

/-- What was said about an output: its dtype and its shape. -/
def Declared (dtypes : List D) (shapes : List S) (i : Nat) (info : TensorInfo D S) : Prop :=
  dtypes[i]? = some info.dtype ∧ shapes[i]? = some info.shape

end Spec
open Spec

/-! ### Lemmas -/

theorem eval_output {w : World T P C} {d : StageDef P K D S} {ins : List (Node T P K D S)} {xs outs : List C}
    {i : Nat} {x : C} (hins : evalAll w ins = .ok xs) (hrun : runStage w d xs = .ok outs)
    (hx : outs[i]? = some x) : (Node.output d ins i).eval w = .ok x := by
  simp only [Node.eval, hins, hrun, hx, bind, Except.bind]

theorem applyStage_get {d : StageDef P K D S} {ins : List (Node T P K D S)} {i : Nat} {n : Node T P K D S} :
    (applyStage d ins)[i]? = some n ↔ i < d.infos.length ∧ n = .output d ins i := by
  simp only [applyStage, List.getElem?_map, Option.map_eq_some_iff]
  constructor
  · rintro ⟨j, hj, rfl⟩
    obtain ⟨h1, h2⟩ := List.getElem?_eq_some_iff.1 hj
    simp at h1 h2
    subst h2
    exact ⟨h1, rfl⟩
  · rintro ⟨h, rfl⟩
    exact ⟨i, by simp [h], rfl⟩

theorem wrap_stage {d : StageDef P K D S} {ins : List (Node T P K D S)} :
    (applyStage d ins).mapM wrap
      = .ok ((List.range d.infos.length).pmap
          (fun i h => (Node.output d ins i, d.infos[i]'h)) (fun i hi => List.mem_range.1 hi)) := by
  have key : ∀ (l : List Nat) (h : ∀ i ∈ l, i < d.infos.length),
      (l.map (fun i : Nat => Node.output d ins i)).mapM wrap
        = .ok (l.pmap (fun i h => (Node.output d ins i, d.infos[i]'h)) h) := by
    intro l
    induction l with
    | nil => intro _; rfl
    | cons a l ih =>
      intro h
      have ha : a < d.infos.length := h a (by simp)
      have hw : wrap (Node.output d ins a) = .ok (Node.output d ins a, d.infos[a]) := by
        simp [wrap, infoOf, ha, bind, Except.bind]
      rw [List.map_cons, List.mapM_cons, hw, ih (fun i hi => h i (by simp [hi]))]
      rfl
  exact key _ _

/-- The last operation of an analyzer. -/
theorem outputNodes_eq (a : Analyzer P K) (input : Node T P K D S) (infos : List (TensorInfo D S)) :
    ∃ d ins, outputNodes a input infos = applyStage d ins ∧ d.infos = infos := by
  cases a with
  | plain p => exact ⟨_, _, rfl, rfl⟩
  | cacheable c => exact ⟨_, _, rfl, rfl⟩

/-- What `ptransform_analyzer` gives when it does not raise. -/
theorem analyzer_ok {isTensor : T → Bool} {inputs : List T} {a : Analyzer P K} {dtypes : List D}
    {shapes : List S} {defaults : Option (List (Option Bytes))} {r : List (Future T P K D S)}
    (h : ptransformAnalyzer isTensor inputs a dtypes shapes defaults = .ok r) :
    dtypes.length = shapes.length ∧ inputs.all isTensor = true ∧
    ∃ assets infos, assetInfos dtypes.length defaults = .ok assets ∧ assets.length = dtypes.length ∧
      infos = ((dtypes.zip shapes).zip assets).map (fun x => (⟨x.1.1, x.1.2, x.2⟩ : TensorInfo D S)) ∧
      r.length = infos.length ∧
      ∀ (i : Nat) (f : Future T P K D S), r[i]? = some f →
        infos[i]? = some f.2 ∧ (outputNodes a (.source inputs) infos)[i]? = some f.1 := by
  unfold ptransformAnalyzer at h
  split at h
  · cases h
  · rename_i hlen
    have hlen' : dtypes.length = shapes.length := by simpa using hlen
    obtain ⟨assets, ha, h⟩ := bind_ok_iff.1 h
    have hal : assets.length = dtypes.length := by
      unfold assetInfos at ha
      split at ha
      · split at ha
        · cases ha
        · rename_i hd
          cases ha
          simpa using hd
      · cases ha; simp
    unfold applyAnalyzer at h
    obtain ⟨input, hi, h⟩ := bind_ok_iff.1 h
    unfold inputNode at hi
    split at hi
    · rename_i hall
      cases hi
      refine ⟨hlen', hall, assets, _, ha, hal, rfl, ?_⟩
      obtain ⟨d, ins, hd, hdi⟩ := outputNodes_eq a (.source inputs)
        (((dtypes.zip shapes).zip assets).map (fun x => (⟨x.1.1, x.1.2, x.2⟩ : TensorInfo D S)))
      rw [hd, wrap_stage] at h
      cases h
      refine ⟨by rw [List.length_pmap, List.length_range, hdi], ?_⟩
      intro i f hf
      rw [List.getElem?_pmap, Option.pmap_eq_some_iff] at hf
      obtain ⟨j, hj, hjm, rfl⟩ := hf
      obtain ⟨h1, h2⟩ := List.getElem?_eq_some_iff.1 hjm
      simp at h1 h2
      subst h2
      refine ⟨?_, ?_⟩
      · rw [← hdi]; exact List.getElem?_eq_getElem h1
      · rw [hd, applyStage_get]; exact ⟨h1, rfl⟩
    · cases hi

/-- The description of one output. -/
theorem infos_get {dtypes : List D} {shapes : List S} {assets : List (Option AssetInfo)} {i : Nat}
    {info : TensorInfo D S}
    (h : (((dtypes.zip shapes).zip assets).map
      (fun x => (⟨x.1.1, x.1.2, x.2⟩ : TensorInfo D S)))[i]? = some info) :
    dtypes[i]? = some info.dtype ∧ shapes[i]? = some info.shape ∧ assets[i]? = some info.asset := by
  rw [List.getElem?_map, Option.map_eq_some_iff] at h
  obtain ⟨⟨⟨a, b⟩, c⟩, h, rfl⟩ := h
  rw [List.getElem?_zip_eq_some, List.getElem?_zip_eq_some] at h
  exact ⟨h.1.1, h.1.2, h.2⟩

/-! ### The theorems -/

/-- **C84.** `ptransform_analyzer` raises exactly if the numbers of dtypes, shapes and (if given) default asset
contents differ, or if an input is not a `Tensor`. -/
theorem ptransform_analyzer_succeeds_iff (isTensor : T → Bool) (inputs : List T) (a : Analyzer P K)
    (dtypes : List D) (shapes : List S) (defaults : Option (List (Option Bytes))) :
    (∃ r, ptransformAnalyzer isTensor inputs a dtypes shapes defaults = .ok r) ↔
      shapes.length = dtypes.length ∧ (∀ ds, defaults = some ds → ds.length = dtypes.length) ∧
      ∀ t ∈ inputs, isTensor t = true := by
  constructor
  · rintro ⟨r, h⟩
    obtain ⟨h1, h2, assets, infos, h3, _⟩ := analyzer_ok h
    refine ⟨h1.symm, ?_, by simpa using h2⟩
    rintro ds rfl
    unfold assetInfos at h3
    by_contra hne
    simp [hne] at h3
  · rintro ⟨h1, h2, h3⟩
    have ha : ∃ assets, assetInfos dtypes.length defaults = .ok assets := by
      cases defaults with
      | none => exact ⟨_, rfl⟩
      | some ds => exact ⟨_, by simp [assetInfos, h2 ds rfl]; rfl⟩
    obtain ⟨assets, ha⟩ := ha
    obtain ⟨d, ins, hd, hdi⟩ := outputNodes_eq a (.source inputs)
      (((dtypes.zip shapes).zip assets).map (fun x => (⟨x.1.1, x.1.2, x.2⟩ : TensorInfo D S)))
    refine ⟨(List.range d.infos.length).pmap
      (fun i h => (Node.output d ins i, d.infos[i]'h)) (fun i hi => List.mem_range.1 hi), ?_⟩
    · have hall : inputs.all isTensor = true := by simpa using h3
      simp only [ptransformAnalyzer, h1, ha, applyAnalyzer, inputNode, hall, bind, Except.bind, ne_eq,
        not_true_eq_false, if_true, if_false]
      rw [hd]
      exact wrap_stage

/-- **C84.** There is one tensor for every declared output, in order, with the declared dtype and shape. -/
theorem outputs_are_as_declared {isTensor : T → Bool} {inputs : List T} {a : Analyzer P K} {dtypes : List D}
    {shapes : List S} {defaults : Option (List (Option Bytes))} {r : List (Future T P K D S)}
    (h : ptransformAnalyzer isTensor inputs a dtypes shapes defaults = .ok r) :
    r.length = dtypes.length ∧
      ∀ (i : Nat) (f : Future T P K D S), r[i]? = some f → Declared dtypes shapes i f.2 := by
  obtain ⟨h1, _, assets, infos, _, hal, rfl, h5, h6⟩ := analyzer_ok h
  refine ⟨by rw [h5]; simp [h1, hal], ?_⟩
  intro i f hf
  have := infos_get (h6 i f hf).1
  exact ⟨this.1, this.2.1⟩

/-- **C84.** A `PTransform` that is not cacheable is applied once, to the values of all the inputs, and output `i`
of the analyzer is what it returned as number `i`, if it returns as many `PCollection`s as were declared. -/
theorem plain_analyzer_gives_what_the_ptransform_returns {isTensor : T → Bool} {inputs : List T} {p : P}
    {dtypes : List D} {shapes : List S} {defaults : Option (List (Option Bytes))}
    {r : List (Future T P K D S)}
    (h : ptransformAnalyzer isTensor inputs (.plain p) dtypes shapes defaults = .ok r) (w : World T P C)
    {res : Result C} {xs : List C} (hw : w.apply p (w.values inputs) = .ok res) (hx : Returned res xs)
    (hn : xs.length = dtypes.length) :
    ∀ (i : Nat) (f : Future T P K D S) (x : C), r[i]? = some f → xs[i]? = some x → f.1.eval w = .ok x := by
  obtain ⟨h1, _, assets, infos, _, hal, hinf, h5, h6⟩ := analyzer_ok h
  intro i f x hf hxi
  have hil : infos.length = dtypes.length := by rw [hinf]; simp [h1, hal]
  have := (h6 i f hf).2
  simp only [outputNodes] at this
  rw [applyStage_get] at this
  rw [this.2]
  refine eval_output (xs := [w.values inputs]) (outs := xs) rfl ?_ hxi
  cases hx with
  | single y =>
    have h1 : infos.length = 1 := by rw [hil]; simpa using hn.symm
    simp [runStage, validateStage, hw, h1, bind, Except.bind]
  | tuple xs => simp [runStage, validateStage, hw, hil, hn, bind, Except.bind]

/-- **C84.** If it raises, or returns another number of `PCollection`s, every output fails. -/
theorem wrong_number_of_results_fails {isTensor : T → Bool} {inputs : List T} {p : P}
    {dtypes : List D} {shapes : List S} {defaults : Option (List (Option Bytes))}
    {r : List (Future T P K D S)}
    (h : ptransformAnalyzer isTensor inputs (.plain p) dtypes shapes defaults = .ok r) (w : World T P C)
    (hw : ¬ ∃ res xs, w.apply p (w.values inputs) = .ok res ∧ Returned res xs ∧ xs.length = dtypes.length) :
    ∀ f ∈ r, ∃ e, f.1.eval w = .error e := by
  obtain ⟨h1, _, assets, infos, _, hal, hinf, h5, h6⟩ := analyzer_ok h
  intro f hf
  obtain ⟨i, hi⟩ := List.getElem?_of_mem hf
  have hil : infos.length = dtypes.length := by rw [hinf]; simp [h1, hal]
  have := (h6 i f hi).2
  simp only [outputNodes] at this
  rw [applyStage_get] at this
  rw [this.2]
  have hrun : ∃ e, runStage w (⟨p, infos, false, none⟩ : StageDef P K D S) [w.values inputs] = .error e := by
    cases hap : w.apply p (w.values inputs) with
    | error e => exact ⟨_, by simp [runStage, validateStage, hap, bind, Except.bind]; rfl⟩
    | ok res =>
      cases res with
      | other => exact ⟨_, by simp [runStage, validateStage, hap, bind, Except.bind]; rfl⟩
      | single x =>
        have : infos.length ≠ 1 := fun hh => hw ⟨_, [x], hap, .single x, by simp [← hil, hh]⟩
        exact ⟨_, by simp [runStage, validateStage, hap, this, bind, Except.bind]; rfl⟩
      | tuple xs =>
        have : xs.length ≠ infos.length := fun hh => hw ⟨_, xs, hap, .tuple xs, by rw [hh, hil]⟩
        exact ⟨_, by simp [runStage, validateStage, hap, this, bind, Except.bind]; rfl⟩
  obtain ⟨e, he⟩ := hrun
  exact ⟨e, by simp [Node.eval, evalAll, he, bind, Except.bind]⟩

theorem stage_one {w : World T P C} {d : StageDef P K D S} {n : Node T P K D S} {c x : C}
    (hn : n.eval w = .ok c) (hi : d.infos.length = 1) (hp : d.isPartitionable = true ∨ d.cacheCoder = none)
    (hw : w.apply d.ptransform c = .ok (.single x)) : (Node.output d [n] 0).eval w = .ok x := by
  have hv : validateStage d = .ok () := by
    rcases hp with hp | hp <;> simp [validateStage, hp, hi]
  refine eval_output (xs := [c]) (outs := [x]) ?_ ?_ rfl
  · simp [evalAll, hn, bind, Except.bind]
  · simp [runStage, hv, hw, hi, bind, Except.bind]

theorem applyStage_one {d : StageDef P K D S} (ins : List (Node T P K D S)) (h : d.infos.length = 1) :
    applyStage d ins = [.output d ins 0] := by
  simp [applyStage, h]

/-- **C84.** A `CacheablePTransformAnalyzer` with one output: the output is what its stages make of the values of
the inputs (for the analysis with a cache see C60, `cacheable_ptransform_analyzer`). -/
theorem cacheable_analyzer_with_one_output {isTensor : T → Bool} {inputs : List T} {c : Cacheable P K}
    {dtypes : List D} {shapes : List S} {defaults : Option (List (Option Bytes))}
    {r : List (Future T P K D S)}
    (h : ptransformAnalyzer isTensor inputs (.cacheable c) dtypes shapes defaults = .ok r)
    (hone : dtypes.length = 1) (w : World T P C) {make merge extract : C → C}
    (hmake : ∀ x, w.apply c.make x = .ok (.single (make x)))
    (hmerge : ∀ x, w.apply c.merge x = .ok (.single (merge x)))
    (hextract : ∀ x, w.apply c.extract x = .ok (.single (extract x))) :
    ∃ f, r = [f] ∧ f.1.eval w = .ok (extract (merge (merge (make (w.values inputs))))) := by
  obtain ⟨h1, _, assets, infos, _, hal, hinf, h5, h6⟩ := analyzer_ok h
  have hil : infos.length = 1 := by rw [hinf]; simp [← h1, hal, hone]
  obtain ⟨f, rfl⟩ : ∃ f, r = [f] := List.length_eq_one_iff.1 (h5.trans hil)
  refine ⟨f, rfl, ?_⟩
  have hn := (h6 0 f rfl).2
  simp only [outputNodes] at hn
  rw [applyStage_one _ hil, applyStage_one _ hil, applyStage_one _ hil, applyStage_one _ hil] at hn
  simp only [List.getElem?_cons_zero, Option.some.injEq] at hn
  rw [← hn]
  exact stage_one (stage_one (stage_one (stage_one rfl hil (.inl rfl) (hmake _)) hil (.inl rfl) (hmerge _)) hil
    (.inr rfl) (hmerge _)) hil (.inr rfl) (hextract _)

/-- **C84 (finding).** A `CacheablePTransformAnalyzer` with two or more outputs always fails, whatever its stages
do, although the documentation allows any number. -/
theorem cacheable_analyzer_with_several_outputs_fails {isTensor : T → Bool} {inputs : List T}
    {c : Cacheable P K} {dtypes : List D} {shapes : List S} {defaults : Option (List (Option Bytes))}
    {r : List (Future T P K D S)}
    (h : ptransformAnalyzer isTensor inputs (.cacheable c) dtypes shapes defaults = .ok r)
    (hn : 2 ≤ dtypes.length) (w : World T P C) : ∀ f ∈ r, ∃ e, f.1.eval w = .error e := by
  obtain ⟨h1, _, assets, infos, _, hal, hinf, h5, h6⟩ := analyzer_ok h
  have hil : infos.length ≠ 1 := by rw [hinf]; simp [← h1, hal]; omega
  have hpos : 0 < infos.length := by rw [hinf]; simp [← h1, hal]; omega
  intro f hf
  obtain ⟨i, hi⟩ := List.getElem?_of_mem hf
  have := (h6 i f hi).2
  simp only [outputNodes] at this
  rw [applyStage_get] at this
  rw [this.2]
  have hfail : ∀ (d : StageDef P K D S) (ins : List (Node T P K D S)) (i : Nat),
      (∃ e, evalAll w ins = .error e) → ∃ e, (Node.output d ins i).eval w = .error e := by
    rintro d ins i ⟨e, he⟩
    exact ⟨e, by simp [Node.eval, he, bind, Except.bind]⟩
  have hall : ∀ (d : StageDef P K D S) (ins : List (Node T P K D S)), d.infos = infos →
      (∃ e, (Node.output d ins 0).eval w = .error e) → ∃ e, evalAll w (applyStage d ins) = .error e := by
    rintro d ins hd ⟨e, he⟩
    obtain ⟨m, hm⟩ : ∃ m, infos.length = m + 1 := ⟨infos.length - 1, by omega⟩
    refine ⟨e, ?_⟩
    simp [applyStage, hd, hm, List.range_succ_eq_map, evalAll, he, bind, Except.bind]
  refine hfail _ _ _ (hall _ _ rfl (hfail _ _ _ (hall _ _ rfl (hfail _ _ _ (hall _ _ rfl ?_)))))
  exact ⟨_, by simp [Node.eval, evalAll, runStage, validateStage, hil, bind, Except.bind]; rfl⟩

/-! ### Assets -/

/-- The asset description of output `i`. -/
theorem asset_of_output {isTensor : T → Bool} {inputs : List T} {a : Analyzer P K} {dtypes : List D}
    {shapes : List S} {defaults : Option (List (Option Bytes))} {r : List (Future T P K D S)}
    (h : ptransformAnalyzer isTensor inputs a dtypes shapes defaults = .ok r) (i : Nat)
    (f : Future T P K D S) (hf : r[i]? = some f) :
    (defaults = none → f.2.asset = none) ∧
    ∀ ds, defaults = some ds → ∃ value, ds[i]? = some value ∧ f.2.asset = some ⟨value, "text"⟩ := by
  obtain ⟨h1, _, assets, infos, ha, hal, hinf, h5, h6⟩ := analyzer_ok h
  have hg := (infos_get (hinf ▸ (h6 i f hf).1)).2.2
  constructor
  · rintro rfl
    cases ha
    rw [List.getElem?_replicate] at hg
    split at hg
    · exact (Option.some.inj hg).symm
    · cases hg
  · rintro ds rfl
    unfold assetInfos at ha
    simp only at ha
    split at ha
    · cases ha
    · cases ha
      rw [List.getElem?_map, Option.map_eq_some_iff] at hg
      obtain ⟨v, hv, hg⟩ := hg
      exact ⟨v, hv, hg.symm⟩

/-- **C84, partial.** The documentation says that an output is an asset path exactly if its default content is not
`None`. This holds if no item of the collection is `None`. Missing: collections in which some items are `None`
(`none_items_make_assets`). -/
theorem outputs_are_assets_partial {isTensor : T → Bool} {inputs : List T} {a : Analyzer P K} {dtypes : List D}
    {shapes : List S} {defaults : Option (List (Option Bytes))} {r : List (Future T P K D S)}
    (h : ptransformAnalyzer isTensor inputs a dtypes shapes defaults = .ok r)
    (hnone : ∀ ds, defaults = some ds → none ∉ ds) (i : Nat) (f : Future T P K D S) (hf : r[i]? = some f)
    (content : Bytes) :
    f.2.asset = some ⟨some content, "text"⟩ ↔ ∃ ds, defaults = some ds ∧ ds[i]? = some (some content) := by
  obtain ⟨h1, h2⟩ := asset_of_output h i f hf
  cases defaults with
  | none => simp [h1 rfl]
  | some ds =>
    obtain ⟨v, hv, ha⟩ := h2 ds rfl
    rw [ha]
    constructor
    · intro he
      simp only [Option.some.injEq, AssetInfo.mk.injEq, and_true] at he
      subst he
      exact ⟨ds, rfl, hv⟩
    · rintro ⟨ds', he, hv'⟩
      cases he
      rw [hv] at hv'
      cases hv'
      rfl

/-- **C84 (finding).** An item `None` makes the output an asset path too. -/
theorem none_items_make_assets {isTensor : T → Bool} {inputs : List T} {a : Analyzer P K} {dtypes : List D}
    {shapes : List S} {ds : List (Option Bytes)} {r : List (Future T P K D S)}
    (h : ptransformAnalyzer isTensor inputs a dtypes shapes (some ds) = .ok r) (i : Nat)
    (f : Future T P K D S) (hf : r[i]? = some f) (hi : ds[i]? = some none) :
    f.2.asset = some ⟨none, "text"⟩ := by
  obtain ⟨v, hv, ha⟩ := (asset_of_output h i f hf).2 ds rfl
  rw [hi] at hv
  cases hv
  exact ha

/-- **C84 (finding).** In TensorFlow 2 an asset whose default content is `None` cannot be traced when a SavedModel
is going to be written. -/
theorem asset_without_content_fails {F V : Type} (dir : String) (evaluated : Option (String → Option V))
    (names : Names) {info : TensorInfo D S} (h : info.asset = some ⟨none, "text"⟩) (future : F)
    (st : Traced F V) : ∃ e, bindV2 (some dir) evaluated names info future st = .error e :=
  ⟨_, by simp [bindV2, temporaryOutput, h, writeTemporary, bind, Except.bind]; rfl⟩

/-! ### Tensors for the outputs -/

/-- One output. -/
theorem bindV2_ok {F V : Type} {tempDir : Option String} {evaluated : Option (String → Option V)}
    {names : Names} {info : TensorInfo D S} {future : F} {st st' : Traced F V} {h : Handle V}
    (hb : bindV2 tempDir evaluated names info future st = .ok (h, st')) :
    (∀ v, evaluated.bind (fun e => e names.tensor) = some v → h = .evaluated v) ∧
    (evaluated.bind (fun e => e names.tensor) = none → h = .placeholder names.tensor ∨
      h = .withDefault names.tensor ∨ ∃ path, h = .assetPath names.tensor path) ∧
    st'.all = st.all ++ [⟨names.tensor, future, info.asset.isSome⟩] ∧
    st'.pending = st.pending ++ (if (evaluated.bind (fun e => e names.tensor)).isSome then []
      else [⟨names.tensor, future, info.asset.isSome⟩]) ∧
    (∀ dir content, tempDir = some dir → info.asset = some ⟨some content, "text"⟩ →
      (dir ++ "/" ++ names.file, content) ∈ st'.files ∧
      (evaluated.bind (fun e => e names.tensor) = none →
        h = .assetPath names.tensor (dir ++ "/" ++ names.file) ∧
        AssetPath.temporary (dir ++ "/" ++ names.file) ∈ st'.assets ∧
        (names.tensor, dir ++ "/" ++ names.file) ∈ st'.assetTensors)) ∧
    (∀ v, info.asset.isSome = true → evaluated.bind (fun e => e names.tensor) = some v →
      AssetPath.evaluated v ∈ st'.assets) ∧
    (info.asset = none → st'.assets = st.assets ∧ st'.files = st.files) ∧
    (∀ x ∈ st.files, x ∈ st'.files) ∧ (∀ x ∈ st.assets, x ∈ st'.assets) ∧
    (∀ x ∈ st.assetTensors, x ∈ st'.assetTensors) := by
  unfold bindV2 at hb
  obtain ⟨⟨handle, file⟩, ht, hb⟩ := bind_ok_iff.1 hb
  have hfile : (∀ dir content, tempDir = some dir → info.asset = some ⟨some content, "text"⟩ →
        file = some (dir ++ "/" ++ names.file, content) ∧
        handle = .assetPath names.tensor (dir ++ "/" ++ names.file)) ∧
      (handle = .placeholder names.tensor ∨ handle = .withDefault names.tensor ∨
        ∃ path, handle = .assetPath names.tensor path) ∧ (info.asset = none → file = none) := by
    unfold temporaryOutput at ht
    split at ht
    · rename_i a ha
      split at ht
      · rename_i dir
        obtain ⟨fl, hf, ht⟩ := bind_ok_iff.1 ht
        cases ht
        refine ⟨?_, Or.inr (Or.inr ⟨_, rfl⟩), by rw [ha]; intro hh; cases hh⟩
        rintro dir' content hd hc
        cases hd
        rw [ha] at hc
        cases hc
        simp only [writeTemporary, if_true, Except.ok.injEq] at hf
        subst hf
        exact ⟨rfl, rfl⟩
      · cases ht
        exact ⟨(by rintro _ _ hd; cases hd), Or.inl rfl, fun _ => rfl⟩
    · rename_i ha
      cases ht
      exact ⟨(by rintro _ _ _ hc; rw [ha] at hc; cases hc), Or.inr (Or.inl rfl), fun _ => rfl⟩
  obtain ⟨hf1, hf2, hf3⟩ := hfile
  cases hev : evaluated.bind (fun e => e names.tensor) with
  | some v =>
    simp only [hev] at hb
    by_cases ha : info.asset.isSome = true
    · rw [if_pos ha] at hb
      cases hb
      refine ⟨(by rintro _ hv; cases hv; rfl), (by rintro hv; (cases hv)), rfl, by simp, ?_, (by rintro _ _ hv; cases hv; simp),
        ?_, by simp +contextual, by simp +contextual, by simp⟩
      · intro dir content hd hc
        refine ⟨?_, by intro hh; cases hh⟩
        simp [(hf1 dir content hd hc).1]
      · intro hn; rw [hn] at ha; cases ha
    · rw [if_neg ha] at hb
      cases hb
      refine ⟨(by rintro _ hv; cases hv; rfl), (by rintro hv; (cases hv)), rfl, by simp, ?_, ?_, ?_,
        by simp +contextual, by simp, by simp⟩
      · intro dir content hd hc
        simp [hc] at ha
      · intro _ hh; exact absurd hh ha
      · intro hn; simp [hf3 hn]
  | none =>
    simp only [hev] at hb
    cases file with
    | none =>
      cases hb
      refine ⟨(by rintro _ hv; cases hv), fun _ => hf2, rfl, by simp, ?_, (by rintro _ _ hv; cases hv), ?_,
        by simp +contextual, by simp, by simp⟩
      · intro dir content hd hc
        cases (hf1 dir content hd hc).1
      · intro hn; simp
    | some p =>
      obtain ⟨path, ct⟩ := p
      cases hb
      refine ⟨(by rintro _ hv; cases hv), fun _ => hf2, rfl, by simp, ?_, (by rintro _ _ hv; cases hv), ?_,
        by simp +contextual, by simp +contextual, by simp +contextual⟩
      · intro dir content hd hc
        obtain ⟨h1, h2⟩ := hf1 dir content hd hc
        cases h1
        exact ⟨by simp, fun _ => ⟨h2, by simp, by simp⟩⟩
      · intro hn; cases hf3 hn

/-- **C84.** When the function is traced in TensorFlow 2, an output of an analyzer whose value is known from an
earlier phase is that value; any other is a new tensor that waits for its value, with its own future. -/
theorem outputs_are_known_or_awaited {F V : Type} {tempDir : Option String}
    {evaluated : Option (String → Option V)} {outs : List (Names × TensorInfo D S × F)} {st st' : Traced F V}
    {hs : List (Handle V)} (hb : bindAll tempDir evaluated outs st = .ok (hs, st')) :
    hs.length = outs.length ∧
    (∀ (i : Nat) o h, outs[i]? = some o → hs[i]? = some h →
      (∀ v, evaluated.bind (fun e => e o.1.tensor) = some v → h = .evaluated v) ∧
      (evaluated.bind (fun e => e o.1.tensor) = none → h = .placeholder o.1.tensor ∨
        h = .withDefault o.1.tensor ∨ ∃ path, h = .assetPath o.1.tensor path)) ∧
    st'.all = st.all ++ outs.map (fun o => ⟨o.1.tensor, o.2.2, o.2.1.asset.isSome⟩) ∧
    st'.pending = st.pending ++ (outs.filter (fun o => (evaluated.bind (fun e => e o.1.tensor)).isNone)).map
      (fun o => ⟨o.1.tensor, o.2.2, o.2.1.asset.isSome⟩) := by
  induction outs generalizing st hs with
  | nil => cases hb; simp
  | cons o outs ih =>
    obtain ⟨names, info, future⟩ := o
    unfold bindAll at hb
    obtain ⟨⟨h, st1⟩, h1, hb⟩ := bind_ok_iff.1 hb
    obtain ⟨⟨hs', st2⟩, h2, hb⟩ := bind_ok_iff.1 hb
    cases hb
    obtain ⟨i1, i2, i3, i4⟩ := ih h2
    obtain ⟨b1, b2, b3, b4, _⟩ := bindV2_ok h1
    refine ⟨by simp [i1], ?_, by rw [i3, b3]; simp, ?_⟩
    · intro i o h' ho hh
      cases i with
      | zero => cases ho; cases hh; exact ⟨b1, b2⟩
      | succ i => exact i2 i o h' ho hh
    · rw [i4, b4]
      cases hev : evaluated.bind (fun e => e names.tensor) <;> simp [hev]

theorem bindAll_mono {F V : Type} {tempDir : Option String}
    {evaluated : Option (String → Option V)} {outs : List (Names × TensorInfo D S × F)} {st st' : Traced F V}
    {hs : List (Handle V)} (hb : bindAll tempDir evaluated outs st = .ok (hs, st')) :
    (∀ x ∈ st.files, x ∈ st'.files) ∧ (∀ x ∈ st.assets, x ∈ st'.assets) ∧
      (∀ x ∈ st.assetTensors, x ∈ st'.assetTensors) := by
  induction outs generalizing st hs with
  | nil => cases hb; simp
  | cons o outs ih =>
    obtain ⟨names, info, future⟩ := o
    unfold bindAll at hb
    obtain ⟨⟨h, st1⟩, h1, hb⟩ := bind_ok_iff.1 hb
    obtain ⟨⟨hs', st2⟩, h2, hb⟩ := bind_ok_iff.1 hb
    cases hb
    obtain ⟨i1, i2, i3⟩ := ih h2
    obtain ⟨_, _, _, _, _, _, _, b1, b2, b3⟩ := bindV2_ok h1
    exact ⟨fun x hx => i1 x (b1 x hx), fun x hx => i2 x (b2 x hx), fun x hx => i3 x (b3 x hx)⟩

/-- **C84.** With a directory for temporary files, every output that is an asset has a file with the default
content while its value is not known; the tensor has the path of the file, and the file is an asset of the graph.
When the value is known, it is an asset of the graph. -/
theorem assets_have_files {F V : Type} {dir : String}
    {evaluated : Option (String → Option V)} {outs : List (Names × TensorInfo D S × F)} {st st' : Traced F V}
    {hs : List (Handle V)} (hb : bindAll (some dir) evaluated outs st = .ok (hs, st')) :
    ∀ (i : Nat) o h content, outs[i]? = some o → hs[i]? = some h →
      o.2.1.asset = some ⟨some content, "text"⟩ →
      (evaluated.bind (fun e => e o.1.tensor) = none →
        h = .assetPath o.1.tensor (dir ++ "/" ++ o.1.file) ∧
        (dir ++ "/" ++ o.1.file, content) ∈ st'.files ∧
        AssetPath.temporary (dir ++ "/" ++ o.1.file) ∈ st'.assets ∧
        (o.1.tensor, dir ++ "/" ++ o.1.file) ∈ st'.assetTensors) ∧
      (∀ v, evaluated.bind (fun e => e o.1.tensor) = some v → AssetPath.evaluated v ∈ st'.assets) := by
  induction outs generalizing st hs with
  | nil => intro i o h content ho; cases ho
  | cons o outs ih =>
    obtain ⟨names, info, future⟩ := o
    unfold bindAll at hb
    obtain ⟨⟨h, st1⟩, h1, hb⟩ := bind_ok_iff.1 hb
    obtain ⟨⟨hs', st2⟩, h2, hb⟩ := bind_ok_iff.1 hb
    cases hb
    obtain ⟨m1, m2, m3⟩ := bindAll_mono h2
    obtain ⟨_, _, _, _, b5, b6, _⟩ := bindV2_ok h1
    intro i o h' content ho hh hc
    cases i with
    | zero =>
      cases ho; cases hh
      obtain ⟨c1, c2⟩ := b5 dir content rfl hc
      refine ⟨fun hn => ?_, fun v hv => m2 _ (b6 v (by simp only at hc; rw [hc]; rfl) hv)⟩
      obtain ⟨c3, c4, c5⟩ := c2 hn
      exact ⟨c3, m1 _ c1, m2 _ c4, m3 _ c5⟩
    | succ i => exact ih h2 i o h' content ho hh hc

/-- **C84.** Outputs that are not assets leave no files and no assets. -/
theorem other_outputs_leave_no_assets {F V : Type} {tempDir : Option String}
    {evaluated : Option (String → Option V)} {outs : List (Names × TensorInfo D S × F)} {st st' : Traced F V}
    {hs : List (Handle V)} (hb : bindAll tempDir evaluated outs st = .ok (hs, st'))
    (hn : ∀ o ∈ outs, o.2.1.asset = none) : st'.assets = st.assets ∧ st'.files = st.files := by
  induction outs generalizing st hs with
  | nil => cases hb; simp
  | cons o outs ih =>
    obtain ⟨names, info, future⟩ := o
    unfold bindAll at hb
    obtain ⟨⟨h, st1⟩, h1, hb⟩ := bind_ok_iff.1 hb
    obtain ⟨⟨hs', st2⟩, h2, hb⟩ := bind_ok_iff.1 hb
    cases hb
    obtain ⟨_, _, _, _, _, _, b7, _⟩ := bindV2_ok h1
    obtain ⟨i1, i2⟩ := ih h2 (fun o ho => hn o (by simp [ho]))
    obtain ⟨b1, b2⟩ := b7 (hn (names, info, future) (by simp))
    exact ⟨i1.trans b1, i2.trans b2⟩

/-- **C84.** Tracing succeeds if every asset has a content in a known format. -/
theorem tracing_succeeds {F V : Type} (tempDir : Option String) (evaluated : Option (String → Option V))
    (outs : List (Names × TensorInfo D S × F)) (st : Traced F V)
    (h : ∀ o ∈ outs, ∀ a, o.2.1.asset = some a →
      a.value ≠ none ∧ (a.fileFormat = "text" ∨ a.fileFormat = "tfrecord_gzip")) :
    ∃ hs st', bindAll tempDir evaluated outs st = .ok (hs, st') := by
  induction outs generalizing st with
  | nil => exact ⟨_, _, rfl⟩
  | cons o outs ih =>
    obtain ⟨names, info, future⟩ := o
    have ht : ∃ r, temporaryOutput (V := V) tempDir names.file names.tensor info = .ok r := by
      unfold temporaryOutput
      split
      · rename_i a ha
        obtain ⟨h1, h2⟩ := h (names, info, future) (by simp) a ha
        obtain ⟨v, hv⟩ := Option.ne_none_iff_exists'.1 h1
        cases tempDir with
        | none => exact ⟨_, rfl⟩
        | some dir =>
          by_cases hfm : a.fileFormat = "text"
          · exact ⟨_, by simp [writeTemporary, hfm, hv, bind, Except.bind]; rfl⟩
          · have : a.fileFormat = "tfrecord_gzip" := by tauto
            exact ⟨_, by simp [writeTemporary, this, hv, bind, Except.bind]; rfl⟩
      · exact ⟨_, rfl⟩
    obtain ⟨⟨hd, file⟩, ht⟩ := ht
    have hb : ∃ r, bindV2 tempDir evaluated names info future st = .ok r := by
      simp only [bindV2, ht, bind, Except.bind]
      split
      · split <;> exact ⟨_, rfl⟩
      · split <;> exact ⟨_, rfl⟩
    obtain ⟨⟨hh, st1⟩, hb⟩ := hb
    obtain ⟨hs, st', hr⟩ := ih st1 (fun o ho => h o (by simp [ho]))
    exact ⟨hh :: hs, st', by simp [bindAll, hb, hr, bind, Except.bind]⟩

/-- **C84.** In TensorFlow 1 every output is a placeholder of its own that waits for its value, and is an asset if
it was declared as one. -/
theorem outputs_are_awaited_in_tensorflow_1 {F V : Type} (outs : List (Names × TensorInfo D S × F))
    (st : Traced F V) :
    (bindAllV1 outs st).1 = outs.map (fun o => .placeholder o.1.tensor) ∧
    (bindAllV1 outs st).2.pending
      = st.pending ++ outs.map (fun o => ⟨o.1.tensor, o.2.2, o.2.1.asset.isSome⟩) := by
  induction outs generalizing st with
  | nil => simp [bindAllV1]
  | cons o outs ih =>
    obtain ⟨names, info, future⟩ := o
    obtain ⟨h1, h2⟩ := ih (bindV1 (V := V) names info future st).2
    refine ⟨?_, ?_⟩
    · simp only [bindAllV1, List.map_cons]
      rw [h1]
      rfl
    · simp only [bindAllV1, List.map_cons]
      rw [h2]
      simp [bindV1]

/-! ### Examples -/

namespace Example

/-- `PTransform`s on lists of numbers: several results, sums, doubling. -/
inductive PT where
  | minAndMax
  | sums
  | double

/-- Two inputs, whose values are numbers. -/
def world : World String PT (List Int) where
  values := fun ts => if ts = ["a", "b"] then [3, 5, 4] else []
  apply := fun p c =>
    match p with
    | .minAndMax => .ok (.tuple [[c.foldl min 100], [c.foldl max 0]])
    | .sums => .ok (.single [c.sum])
    | .double => .ok (.single (c.map (· * 2)))

/-- Two outputs, of which the second is an asset. -/
def two : Except Err (List (Future String PT Unit String (List Nat))) :=
  ptransformAnalyzer (fun _ => true) ["a", "b"] (.plain .minAndMax) ["int64", "string"] [[], []]
    (some [some [0], some [1]])

example : (two.toOption.map (fun r => r.map (fun f => (f.1.eval world).toOption)))
    = some [some [3], some [5]] := by decide +kernel

/-- A cacheable analyzer with `n` outputs. -/
def cacheable (n : Nat) : Except Err (List (Future String PT Unit String (List Nat))) :=
  ptransformAnalyzer (fun _ => true) ["a", "b"] (.cacheable ⟨.sums, .sums, .double, ()⟩)
    (List.replicate n "int64") (List.replicate n []) none

example : ((cacheable 1).toOption.map (fun r => r.map (fun f => (f.1.eval world).toOption)))
    = some [some [24]] := by decide +kernel

example : ((cacheable 2).toOption.map (fun r => r.map (fun f => (f.1.eval world).toOption)))
    = some [none, none] := by decide +kernel

/-- The second output is not meant to be an asset. -/
def mixed : Except Err (List (Future String PT Unit String (List Nat))) :=
  ptransformAnalyzer (fun _ => true) ["a", "b"] (.plain .minAndMax) ["string", "int64"] [[], []]
    (some [some [7], none])

example : (mixed.toOption.map (fun r => r.map (fun f => f.2.asset)))
    = some [some ⟨some [7], "text"⟩, some ⟨none, "text"⟩] := by decide +kernel

/-- Three outputs are traced: the first is known, the second and third (an asset) are not. -/
def traced : Except Err (List (Handle Nat) × Traced Nat Nat) :=
  bindAll (D := String) (S := List Nat) (some "/tmp")
    (some (fun n => if n = "a:0" then some 42 else none))
    [(⟨"a:0", "f0"⟩, ⟨"int64", [], none⟩, 0), (⟨"b:0", "f1"⟩, ⟨"int64", [], none⟩, 1),
     (⟨"c:0", "f2"⟩, ⟨"string", [], some ⟨some [7], "text"⟩⟩, 2)] {}

example : (traced.toOption.map (fun r => (r.1, r.2.pending.map (fun s => s.future), r.2.files, r.2.assets)))
    = some ([.evaluated 42, .withDefault "b:0", .assetPath "c:0" "/tmp/f2"], [1, 2], [("/tmp/f2", [7])],
      [.temporary "/tmp/f2"]) := rfl

end Example

end TFT.CustomAnalyzer
