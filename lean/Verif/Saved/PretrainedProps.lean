import Verif.Saved.PretrainedLemmas

/-!
# C89: a pretrained model computes in a preprocessing function what it computes on its own
-/

namespace TFT.Pretrained

open TFT.SavedLoad

variable {V : Type}

theorem mem_putAll {α : Type} (es m : List (Str × α)) (e : Str × α) (h : e ∈ putAll m es) :
    e ∈ m ∨ e ∈ es := by
  induction es generalizing m with
  | nil => exact Or.inl h
  | cons a es ih =>
    rcases ih (put m a.1 a.2) h with h | h
    · unfold put erase at h
      rw [List.mem_append, List.mem_filter, List.mem_singleton] at h
      rcases h with h | h
      · exact Or.inl h.1
      · exact Or.inr (by rw [h]; exact List.mem_cons_self)
    · exact Or.inr (List.mem_cons_of_mem _ h)

theorem mem_loadModel (pre post : List (Model V)) (model : Model V) (tags : List Str)
    (hm : ∀ t, t ∈ model.tags ↔ t ∈ tags)
    (hpre : ∀ m ∈ pre, ¬ ∀ t, t ∈ m.tags ↔ t ∈ tags) :
    loadModel (pre ++ model :: post) tags = .ok model := by
  have hp : ∀ m : Model V, (m.tags.all tags.contains && tags.all m.tags.contains) = true ↔
      ∀ t, t ∈ m.tags ↔ t ∈ tags := by
    intro m
    rw [Bool.and_eq_true, List.all_eq_true, List.all_eq_true]
    simp only [List.contains_iff_mem]
    exact ⟨fun h t => ⟨h.1 t, h.2 t⟩, fun h => ⟨fun t => (h t).1, fun t => (h t).2⟩⟩
  unfold loadModel
  rw [List.find?_append, List.find?_eq_none.2 (fun m hm' h => hpre m hm' ((hp m).1 h)),
    Option.none_or, List.find?_cons_of_pos (p := fun m : Model V =>
      m.tags.all tags.contains && tags.all m.tags.contains) ((hp model).2 hm)]

theorem chooseSignature_meant (signatures : List (Str × Signature)) (name : Option Str)
    (s : Signature) (h : Meant signatures name s) : chooseSignature signatures name = .ok s := by
  cases name with
  | none =>
    obtain ⟨n, rfl⟩ := h
    rfl
  | some n =>
    obtain ⟨h1, h2, h3⟩ := h
    cases n with
    | nil => exact absurd rfl h1
    | cons c cs =>
      show Except.ok ((find signatures (c :: cs)).getD ⟨[], []⟩) = _
      rw [find_of_mem h2 h3]
      rfl

theorem find_infos (fs : List (Str × Str)) (k : Str) :
    ((find (fs.map (fun e => (e.1, Info.name e.2))) k).getD .unset).nameField
      = (find fs k).getD [] := by
  rw [find_map]
  cases find fs k <;> rfl

theorem inputMapOf_ok (signature : Signature) (ins : List (Str × Str)) (inputs : Inputs)
    (hs : signature.inputs = ins.map (fun e => (e.1, Info.name e.2)))
    (hn : (ins.map Prod.fst).Nodup) (ht : (ins.map Prod.snd).Nodup) (hg : GivesAll ins inputs) :
    ∃ m, inputMapOf signature inputs = .ok m ∧ (∀ n, find m n = givenFor ins inputs n) ∧
      ∀ e ∈ m, e.1 ∈ ins.map Prod.snd ∧ e.2 ∈ inputs.tensors := by
  have hkeys : signature.inputs.map Prod.fst = ins.map Prod.fst := by
    rw [hs, List.map_map]; rfl
  cases inputs with
  | single t =>
    have hg' : ins.length = 1 := hg
    obtain ⟨⟨k, n⟩, rfl⟩ := List.length_eq_one_iff.1 hg'
    refine ⟨[(n, t)], ?_, ?_, ?_⟩
    · unfold inputMapOf
      rw [hs]
      rfl
    · intro n'
      rw [find_cons, find_nil]
      unfold givenFor
      by_cases h : n = n'
      · simp [h]
      · simp [h]
    · intro e he
      rw [List.mem_singleton] at he
      subst he
      exact ⟨by simp, by simp [Inputs.tensors]⟩
  | dict d =>
    obtain ⟨hd1, hd2⟩ := hg
    have hex : ∀ e ∈ d, ∃ n, find ins e.1 = some n := by
      intro e he
      have := (hd2 e.1).1 (List.mem_map_of_mem (f := Prod.fst) he)
      rw [List.mem_map] at this
      obtain ⟨x, hx, hx1⟩ := this
      exact ⟨x.2, by rw [← hx1]; exact find_of_mem hn hx⟩
    set es := d.map (fun e => ((find ins e.1).getD [], e.2)) with hes
    have hmemes : ∀ n t, (n, t) ∈ es ↔ ∃ k, (k, n) ∈ ins ∧ (k, t) ∈ d := by
      intro n t
      rw [hes, List.mem_map]
      constructor
      · rintro ⟨e, he, h⟩
        obtain ⟨n', hn'⟩ := hex e he
        rw [hn'] at h
        injection h with h1 h2
        simp only [Option.getD_some] at h1
        subst h1
        subst h2
        exact ⟨e.1, find_mem hn', he⟩
      · rintro ⟨k, h1, h2⟩
        refine ⟨(k, t), h2, ?_⟩
        rw [find_of_mem hn h1]
        rfl
    have hnes : (es.map Prod.fst).Nodup := by
      rw [hes, List.map_map]
      refine List.Nodup.map_on ?_ (List.Nodup.of_map _ hd1)
      intro a ha b hb hab
      obtain ⟨n1, h1⟩ := hex a ha
      obtain ⟨n2, h2⟩ := hex b hb
      simp only [Function.comp, h1, h2, Option.getD_some] at hab
      subst hab
      have h3 := List.inj_on_of_nodup_map ht (find_mem h1) (find_mem h2) rfl
      injection h3 with h3
      exact List.inj_on_of_nodup_map hd1 ha hb h3
    refine ⟨putAll [] es, ?_, ?_, ?_⟩
    · unfold inputMapOf
      simp only
      rw [hkeys, if_pos]
      · rw [hs]
        simp only [find_infos]
        rfl
      · rw [Bool.and_eq_true, List.all_eq_true, List.all_eq_true]
        simp only [List.contains_iff_mem]
        exact ⟨fun k hk => (hd2 k).2 hk, fun k hk => (hd2 k).1 hk⟩
    · intro n
      rw [find_putAll _ _ hnes, find_nil, Option.or_none]
      unfold givenFor
      cases hf : ins.find? (fun e => e.2 = n) with
      | none =>
        simp only
        rw [find_eq_none]
        intro h
        rw [List.mem_map] at h
        obtain ⟨⟨n', t⟩, h, rfl⟩ := h
        obtain ⟨k, h1, -⟩ := (hmemes _ _).1 h
        have := List.find?_eq_none.1 hf _ h1
        simp at this
      | some e =>
        simp only
        have he := List.mem_of_find?_eq_some hf
        have hen : e.2 = n := by simpa using List.find?_some hf
        have hk := (hd2 e.1).2 (List.mem_map_of_mem (f := Prod.fst) he)
        rw [List.mem_map] at hk
        obtain ⟨⟨k, t⟩, hkt, hk⟩ := hk
        simp only at hk
        subst hk
        rw [← find_eq_lookup, find_of_mem hd1 hkt]
        refine find_of_mem hnes ((hmemes _ _).2 ⟨e.1, ?_, hkt⟩)
        rw [← hen]
        exact he
    · intro e he
      rcases mem_putAll _ _ _ he with he | he
      · cases he
      · obtain ⟨n, t⟩ := e
        obtain ⟨k, h1, h2⟩ := (hmemes _ _).1 he
        exact ⟨List.mem_map.2 ⟨_, h1, rfl⟩, List.mem_map.2 ⟨_, h2, rfl⟩⟩

theorem outputNames_ok (signature : Signature) (outs : List (Str × Str)) (keys : List Str)
    (hs : signature.outputs = outs.map (fun e => (e.1, Info.name e.2)))
    (hk : ∀ k ∈ keys, k ∈ outs.map Prod.fst) (h1 : keys = [] → outs.length = 1) :
    outputNames signature keys = .ok (asked outs keys, decide (keys = [])) := by
  unfold outputNames asked
  by_cases h : keys = []
  · obtain ⟨e, rfl⟩ := List.length_eq_one_iff.1 (h1 h)
    simp only [h, ne_eq, not_true_eq_false, if_false, if_true, hs]
    rfl
  · simp only [ne_eq, h, not_false_eq_true, if_true, if_false, decide_false]
    rw [if_pos]
    · congr 2
      rw [hs]
      simp only [find_infos]
      clear h h1
      induction keys with
      | nil => rfl
      | cons k keys ih =>
        rw [List.map_cons, ih (fun k hk' => hk k (List.mem_cons_of_mem _ hk')),
          List.filterMap_cons, ← find_eq_lookup]
        cases hf : find outs k with
        | none => exact absurd (hk k List.mem_cons_self) ((find_eq_none _ _).1 hf)
        | some t => rfl
    · rw [List.all_eq_true]
      intro k hk'
      rw [List.contains_iff_mem, hs, List.map_map]
      exact hk k hk'

/-- A model with dense inputs and outputs, and what it can be applied to. -/
structure Applicable (host : Host V) (model : Model V) (ins outs : List (Str × Str))
    (inputs : Inputs) (keys : List Str) (scope : Str) : Prop where
  ordered : Ordered (model.nodes.map (asNode model.vars))
  inputNames : (ins.map Prod.fst).Nodup
  inputTensors : (ins.map Prod.snd).Nodup ∧ ∀ e ∈ ins, e.2 ∈ model.nodes.map PNode.out
  /-- Every input is needed for the outputs that are asked for, or to fill a table. -/
  inputsNeeded : ∀ e ∈ ins, Needs model.nodes (asked outs keys ++ model.initializers) e.2
  outputTensors : ∀ e ∈ outs, e.2 ∈ model.nodes.map PNode.out
  keysKnown : ∀ k ∈ keys, k ∈ outs.map Prod.fst
  onlyOutput : keys = [] → outs.length = 1
  initializers : ∀ t ∈ model.initializers, t ∈ model.nodes.map PNode.out
  haveValues : ∀ o x, PNode.readVar o x ∈ model.nodes →
    Needs model.nodes (asked outs keys ++ model.initializers) o → (model.vars x).isSome
  noAssets : model.assets = []
  given : GivesAll ins inputs
  givenTensors : ∀ t ∈ inputs.tensors, t ∈ tensors host.graph
  freshScope : ∀ n ∈ tensors host.graph, ¬ (scope ++ "/".toList) <+: n

/-- In every run in which the given tensors have values, the copy of a tensor has the value that the
tensor has in a run of the model on its own. -/
def Same (constant : Str → V) (host host' : Graph V) (nodes : List (PNode V))
    (vars : Str → Option V) (assets : List (Str × Str)) (given : Str → Option Str)
    (tensors : List Str) (scope : Str) (t copy : Str) : Prop :=
  ∀ feeds, (∀ s ∈ tensors, (run host feeds s).isSome) →
    run host' feeds copy
      = runModel constant nodes vars assets given (run host feeds) feeds scope t

theorem asked_tensors {outs : List (Str × Str)} {keys : List Str} {t : Str}
    (h : t ∈ asked outs keys) : ∃ e ∈ outs, e.2 = t := by
  unfold asked at h
  split at h
  · obtain ⟨e, he, rfl⟩ := List.mem_map.1 h
    exact ⟨e, he, rfl⟩
  · obtain ⟨k, -, hk⟩ := List.mem_filterMap.1 h
    rw [← find_eq_lookup] at hk
    exact ⟨_, find_mem hk, rfl⟩

/-- **C89** for SavedModels, partial: the outputs that are asked for, in their order, have in every run
the values that the model computes on its own from the values of the given tensors; the tables of the
model are initialized with those of the graph, whose tensors keep their values. Missing: models with
asset files (`asset_of_another_place`) and inputs that are not needed (`unneeded_input_refused`). -/
theorem apply_saved_model_partial (constant : Str → V) (host : Host V)
    (pre post : List (Model V)) (model : Model V) (tags : List Str)
    (htags : ∀ t, t ∈ model.tags ↔ t ∈ tags)
    (hpre : ∀ m ∈ pre, ¬ ∀ t, t ∈ m.tags ↔ t ∈ tags)
    (name : Option Str) (ins outs : List (Str × Str)) (signature : Signature)
    (hsig : Meant model.signatures name signature)
    (hins : signature.inputs = ins.map (fun e => (e.1, Info.name e.2)))
    (houts : signature.outputs = outs.map (fun e => (e.1, Info.name e.2)))
    (inputs : Inputs) (keys : List Str) (scope : Str)
    (h : Applicable host model ins outs inputs keys scope) :
    ∃ host' result,
      applySavedModel host (pre ++ model :: post) inputs tags name keys scope
        = .ok (host', result) ∧
      (∀ feeds, ∀ t ∈ tensors host.graph, run host'.graph feeds t = run host.graph feeds t) ∧
      ((∃ t, result = .single t) ↔ keys = []) ∧
      List.Forall₂ (Same constant host.graph host'.graph model.nodes model.vars model.assets
        (givenFor ins inputs) inputs.tensors scope) (asked outs keys) result.tensors ∧
      ∃ copies, host'.initializers = host.initializers ++ copies ∧
        List.Forall₂ (Same constant host.graph host'.graph model.nodes model.vars model.assets
          (givenFor ins inputs) inputs.tensors scope) model.initializers copies := by
  obtain ⟨m, hm1, hm2, hm3⟩ :=
    inputMapOf_ok signature ins inputs hins h.inputNames h.inputTensors.1 h.given
  set names := asked outs keys with hnames
  have hin : ∀ t ∈ names ++ model.initializers, t ∈ model.nodes.map PNode.out := by
    intro t ht
    rcases List.mem_append.1 ht with ht | ht
    · obtain ⟨e, he, rfl⟩ := asked_tensors ht
      exact h.outputTensors e he
    · exact h.initializers t ht
  obtain ⟨graph, himp, hkept, hval⟩ := import_ok model.vars host.graph model.nodes
    (names ++ model.initializers) scope m h.ordered hin (by
      intro e he
      obtain ⟨h1, h2⟩ := hm3 e he
      obtain ⟨x, hx, hx2⟩ := List.mem_map.1 h1
      rw [← hx2]
      exact ⟨h.inputTensors.2 x hx, h.inputsNeeded x hx, h.givenTensors _ h2⟩) h.freshScope
  have hsame : ∀ t ∈ names ++ model.initializers,
      Same constant host.graph graph model.nodes model.vars model.assets
        (givenFor ins inputs) inputs.tensors scope t (remap scope m t) := by
    intro t ht feeds hf
    rw [hval feeds (fun e he => hf _ (hm3 e he).2) t ht]
    unfold runModel
    congr 1
    funext n
    rw [h.noAssets, List.lookup_nil, hm2]
    rfl
  have hforall : ∀ l : List Str, (∀ t ∈ l, t ∈ names ++ model.initializers) →
      List.Forall₂ (Same constant host.graph graph model.nodes model.vars model.assets
        (givenFor ins inputs) inputs.tensors scope) l (l.map (remap scope m)) := by
    intro l hl
    induction l with
    | nil => exact .nil
    | cons t l ih =>
      exact .cons (hsame t (hl t List.mem_cons_self))
        (ih (fun t ht => hl t (List.mem_cons_of_mem _ ht)))
  have htake : ((names ++ model.initializers).map (remap scope m)).take names.length
      = names.map (remap scope m) := by
    rw [List.map_append, List.take_left' (by simp)]
  have hdrop : ((names ++ model.initializers).map (remap scope m)).drop names.length
      = model.initializers.map (remap scope m) := by
    rw [List.map_append, List.drop_left' (by simp)]
  obtain ⟨result, hres, hsingle, htens⟩ : ∃ result,
      resultOf (decide (keys = [])) (names.map (remap scope m)) = .ok result ∧
      ((∃ t, result = .single t) ↔ keys = []) ∧ result.tensors = names.map (remap scope m) := by
    by_cases hk : keys = []
    · obtain ⟨e, he⟩ := List.length_eq_one_iff.1 (h.onlyOutput hk)
      have : names = [e.2] := by
        rw [hnames, asked, if_pos hk, he]
        rfl
      rw [this]
      refine ⟨.single (remap scope m e.2), by simp [hk, resultOf], ?_, rfl⟩
      simp [hk]
    · refine ⟨.many (names.map (remap scope m)), by simp [hk, resultOf], ?_, rfl⟩
      simp [hk]
  refine ⟨{ graph := graph, initializers := host.initializers ++
    model.initializers.map (remap scope m) }, result, ?_, hkept, hsingle, ?_, _, rfl, ?_⟩
  · unfold applySavedModel
    rw [mem_loadModel pre post model tags htags hpre]
    simp only [bind, Except.bind]
    rw [chooseSignature_meant _ _ _ hsig]
    simp only
    rw [hm1]
    simp only
    rw [outputNames_ok signature outs keys houts h.keysKnown h.onlyOutput]
    simp only
    rw [if_pos (by
      rw [List.all_eq_true]
      intro t ht
      rw [List.contains_iff_mem]
      exact hin t (List.mem_append_left _ ht))]
    rw [toConstants_ok model.vars model.vars _ _ (fun o x h1 h2 => ⟨rfl, h.haveValues o x h1 h2⟩)]
    simp only
    rw [himp]
    simp only
    rw [htake, hdrop, hres]
  · rw [htens]
    exact hforall names (fun t ht => List.mem_append_left _ ht)
  · exact hforall model.initializers (fun t ht => List.mem_append_right _ ht)

/-! ## Functions with a checkpoint -/

theorem uniqueNames_ok (ops : List Str) (used : List (Str × Nat))
    (hn : (ops.map (fun o => o.map Char.toLower)).Nodup)
    (hu : ∀ o ∈ ops, find used (o.map Char.toLower) = none) : uniqueNames used ops = .ok ops := by
  induction ops generalizing used with
  | nil => rfl
  | cons o ops ih =>
    rw [List.map_cons, List.nodup_cons] at hn
    unfold uniqueNames uniqueName
    simp only [hu o List.mem_cons_self, Option.getD_none, if_true, bind, Except.bind]
    rw [ih _ hn.2]
    intro o' ho'
    rw [find_put, if_neg, hu o' (List.mem_cons_of_mem _ ho')]
    intro h
    apply hn.1
    rw [← h]
    exact List.mem_map.2 ⟨o', ho', rfl⟩

theorem opName_firstOutput (op : Str) (h : ':' ∉ op) : opName (firstOutput op) = op := by
  unfold opName firstOutput
  rw [List.takeWhile_append_of_pos]
  · simp
  · intro c hc
    simp only [decide_eq_true_eq]
    rintro rfl
    exact h hc

/-- The variables that are restored: those in one of the scopes to include, and in none of those to
exclude. -/
def Chosen (inclScopes exclScopes : Option (List (Str → Bool))) (v : Str) : Prop :=
  (∀ scopes, inclScopes = some scopes → ∃ s ∈ scopes, s v = true) ∧
    ∀ scopes, exclScopes = some scopes → ∀ s ∈ scopes, s v = false

theorem mem_variablesToRestore (globals : List Str)
    (inclScopes exclScopes : Option (List (Str → Bool))) (v : Str) :
    v ∈ variablesToRestore globals inclScopes exclScopes
      ↔ v ∈ globals ∧ Chosen inclScopes exclScopes v := by
  have hex : ∀ scopes : List (Str → Bool), v ∈ globals →
      (v ∈ scopes.flatMap (fun s => globals.filter s) ↔ ∃ s ∈ scopes, s v = true) := by
    intro scopes hv
    simp [List.mem_flatMap, List.mem_filter, hv]
  have hin : ∀ scopes : List (Str → Bool), v ∈ scopes.flatMap (fun s => globals.filter s) →
      v ∈ globals := by
    intro scopes h
    simp only [List.mem_flatMap, List.mem_filter] at h
    obtain ⟨s, -, h, -⟩ := h
    exact h
  unfold variablesToRestore Chosen
  simp only [List.mem_filter, Bool.not_eq_true', List.contains_iff_mem, Bool.eq_false_iff, ne_eq]
  constructor
  · rintro ⟨h1, h2⟩
    have hv : v ∈ globals := by
      cases inclScopes with
      | none => exact h1
      | some scopes => exact hin scopes h1
    refine ⟨hv, ?_, ?_⟩
    · rintro scopes rfl
      exact (hex scopes hv).1 h1
    · rintro scopes rfl s hs hsv
      exact h2 ((hex scopes hv).2 ⟨s, hs, hsv⟩)
  · rintro ⟨hv, h1, h2⟩
    constructor
    · cases inclScopes with
      | none => exact hv
      | some scopes => exact (hex scopes hv).2 (h1 scopes rfl)
    · cases exclScopes with
      | none => exact List.not_mem_nil
      | some scopes =>
        intro h
        obtain ⟨s, hs, hsv⟩ := (hex scopes hv).1 h
        exact h2 scopes rfl s hs hsv

theorem flatMap_filter_nodup (globals : List Str) (hn : globals.Nodup)
    (scopes : List (Str → Bool))
    (h : ∀ v ∈ globals, scopes.countP (fun s => s v) ≤ 1) :
    (scopes.flatMap (fun s => globals.filter s)).Nodup := by
  induction scopes with
  | nil => simp
  | cons s scopes ih =>
    rw [List.flatMap_cons, List.nodup_append]
    refine ⟨hn.filter _, ih (fun v hv => ?_), ?_⟩
    · have := h v hv
      rw [List.countP_cons] at this
      omega
    · intro a ha b hb hab
      subst hab
      rw [List.mem_filter] at ha
      rw [List.mem_flatMap] at hb
      obtain ⟨s', hs', hb⟩ := hb
      rw [List.mem_filter] at hb
      have := h a ha.1
      rw [List.countP_cons, if_pos ha.2] at this
      have h2 : 0 < scopes.countP (fun s => s a) := List.countP_pos_iff.2 ⟨s', hs', hb.2⟩
      omega

/-- A function that builds a graph, and what it can be applied to: tensors that are the first outputs
of operations with different names. -/
structure FunctionApplicable (host : Graph V) (fn : List Str → Built V) (ops : List Str)
    (checkpoint : Str → Option V) (inclScopes exclScopes : Option (List (Str → Bool)))
    (scope : Str) : Prop where
  distinct : (ops.map (fun o => o.map Char.toLower)).Nodup
  operations : ∀ o ∈ ops, ':' ∉ o ∧ o ++ ":0".toList ∈ tensors host
  freshScope : ∀ n ∈ tensors host, ¬ (scope ++ "/".toList) <+: n
  noTables : (fn (ops.map (fun o => o ++ ":0".toList))).initializers = []
  ordered : Ordered (((ops.map (fun o => o ++ ":0".toList)).map PNode.placeholder
    ++ (fn (ops.map (fun o => o ++ ":0".toList))).nodes).map (asNode checkpoint))
  outputs : ∀ t ∈ (fn (ops.map (fun o => o ++ ":0".toList))).output.tensors,
    t ∈ ops.map (fun o => o ++ ":0".toList) ++
      (fn (ops.map (fun o => o ++ ":0".toList))).nodes.map PNode.out
  /-- Every input is needed for the outputs. -/
  inputsNeeded : ∀ o ∈ ops, Needs ((ops.map (fun o => o ++ ":0".toList)).map PNode.placeholder
    ++ (fn (ops.map (fun o => o ++ ":0".toList))).nodes)
    (fn (ops.map (fun o => o ++ ":0".toList))).output.tensors (o ++ ":0".toList)
  /-- The variables that are needed are restored. -/
  restored : ∀ o x, PNode.readVar o x ∈ (fn (ops.map (fun o => o ++ ":0".toList))).nodes →
    Needs ((ops.map (fun o => o ++ ":0".toList)).map PNode.placeholder
      ++ (fn (ops.map (fun o => o ++ ":0".toList))).nodes)
      (fn (ops.map (fun o => o ++ ":0".toList))).output.tensors o →
    x ∈ (fn (ops.map (fun o => o ++ ":0".toList))).globals ∧ Chosen inclScopes exclScopes x
  globals : (fn (ops.map (fun o => o ++ ":0".toList))).globals.Nodup
  /-- No variable is in two of the scopes to include. -/
  scopes : ∀ scopes, inclScopes = some scopes →
    ∀ v ∈ (fn (ops.map (fun o => o ++ ":0".toList))).globals, scopes.countP (fun s => s v) ≤ 1
  someVariable : ∃ v ∈ (fn (ops.map (fun o => o ++ ":0".toList))).globals,
    Chosen inclScopes exclScopes v
  checkpoint : ∀ v ∈ (fn (ops.map (fun o => o ++ ":0".toList))).globals,
    Chosen inclScopes exclScopes v → (checkpoint v).isSome

/-- **C89** for functions with a checkpoint, partial: in every run, the tensors that are returned have
the values that the function computes on its own from the values of the given tensors and the
variables of the checkpoint; tensors of the graph keep their values. Missing: tensors that are not the
first output of an operation (`second_output_refused`), tensors that are given twice
(`repeated_input_wrong`), and inputs that are not needed. -/
theorem apply_function_partial (constant : Str → V) (host : Graph V) (fn : List Str → Built V)
    (ops : List Str) (checkpoint : Str → Option V)
    (inclScopes exclScopes : Option (List (Str → Bool))) (scope : Str)
    (h : FunctionApplicable host fn ops checkpoint inclScopes exclScopes scope) :
    ∃ host' result,
      applyFunction host fn (ops.map (fun o => o ++ ":0".toList)) checkpoint inclScopes exclScopes
        scope = .ok (host', result) ∧
      (∀ feeds, ∀ t ∈ tensors host, run host' feeds t = run host feeds t) ∧
      ((∃ t, result = .single t) ↔
        ∃ t, (fn (ops.map (fun o => o ++ ":0".toList))).output = .single t) ∧
      List.Forall₂ (Same constant host host'
          ((ops.map (fun o => o ++ ":0".toList)).map PNode.placeholder
            ++ (fn (ops.map (fun o => o ++ ":0".toList))).nodes) checkpoint []
          (fun n => if n ∈ ops.map (fun o => o ++ ":0".toList) then some n else none)
          (ops.map (fun o => o ++ ":0".toList)) scope)
        (fn (ops.map (fun o => o ++ ":0".toList))).output.tensors result.tensors := by
  obtain ⟨hdist, hops, hfresh, htables, hord, houts, hneeded, hrest, hglob, hscopes, hsome, hck⟩ := h
  set inputs := ops.map (fun o => o ++ ":0".toList) with hinputs
  set built := fn inputs with hbuilt
  set nodes := inputs.map PNode.placeholder ++ built.nodes with hnodes
  have hopn : inputs.map opName = ops := by
    rw [hinputs, List.map_map]
    conv => rhs; rw [← List.map_id ops]
    refine List.map_congr_left (fun o ho => ?_)
    exact opName_firstOutput o (hops o ho).1
  have hout : nodes.map PNode.out = inputs ++ built.nodes.map PNode.out := by
    rw [hnodes, List.map_append, List.map_map]
    congr 1
    exact List.map_id _
  have hinodup : inputs.Nodup := by
    have := hord.1
    rw [tensors_map, hout] at this
    exact (List.nodup_append.1 this).1
  set m := putAll [] (inputs.map (fun t => (t, t))) with hm
  have hfind : ∀ n, find m n = if n ∈ inputs then some n else none := by
    intro n
    have hk : (inputs.map (fun t => (t, t))).map Prod.fst = inputs := by
      rw [List.map_map]; exact List.map_id _
    rw [hm, find_putAll _ _ (by rw [hk]; exact hinodup), find_nil, Option.or_none]
    split
    · rename_i hn
      exact find_of_mem (by rw [hk]; exact hinodup) (List.mem_map.2 ⟨n, hn, rfl⟩)
    · rename_i hn
      rw [find_eq_none, hk]
      exact hn
  have hmem : ∀ e ∈ m, e.1 = e.2 ∧ e.2 ∈ inputs := by
    intro e he
    rcases mem_putAll _ _ _ he with he | he
    · cases he
    · obtain ⟨t, ht, rfl⟩ := List.mem_map.1 he
      exact ⟨rfl, ht⟩
  have hhost : ∀ t ∈ inputs, t ∈ tensors host := by
    intro t ht
    obtain ⟨o, ho, rfl⟩ := List.mem_map.1 ht
    exact (hops o ho).2
  obtain ⟨graph, himp, hkept, hval⟩ := import_ok checkpoint host nodes built.output.tensors scope m
    hord (by rw [hout]; exact houts) (by
      intro e he
      obtain ⟨h1, h2⟩ := hmem e he
      rw [h1]
      refine ⟨by rw [hout]; exact List.mem_append_left _ h2, ?_, hhost _ h2⟩
      obtain ⟨o, ho, h3⟩ := List.mem_map.1 h2
      rw [← h3]
      exact hneeded o ho) hfresh
  set vars := variablesToRestore built.globals inclScopes exclScopes with hvars
  have hmv : ∀ v, v ∈ vars ↔ v ∈ built.globals ∧ Chosen inclScopes exclScopes v :=
    mem_variablesToRestore _ _ _
  have hrestore : restore checkpoint vars
      = .ok (fun v => if vars.contains v then checkpoint v else none) := by
    unfold restore
    rw [if_neg, if_neg, if_pos]
    · rw [List.all_eq_true]
      intro v hv
      obtain ⟨h1, h2⟩ := (hmv v).1 hv
      exact hck v h1 h2
    · rw [Classical.not_not, hvars]
      unfold variablesToRestore
      refine List.Nodup.filter _ ?_
      cases hi : inclScopes with
      | none => exact hglob
      | some scopes => exact flatMap_filter_nodup _ hglob _ (hscopes scopes hi)
    · intro h0
      obtain ⟨v, h1, h2⟩ := hsome
      have := (hmv v).2 ⟨h1, h2⟩
      rw [h0] at this
      cases this
  have hconst : toConstants (fun v => if vars.contains v then checkpoint v else none) nodes
      built.output.tensors = .ok ((prune nodes built.output.tensors).map (asNode checkpoint)) := by
    apply toConstants_ok
    intro o x ho hno
    have ho' : PNode.readVar o x ∈ built.nodes := by
      rw [hnodes, List.mem_append] at ho
      rcases ho with ho | ho
      · simp at ho
      · exact ho
    obtain ⟨h1, h2⟩ := hrest o x ho' hno
    refine ⟨?_, hck x h1 h2⟩
    rw [if_pos (List.contains_iff_mem.2 ((hmv x).2 ⟨h1, h2⟩))]
  obtain ⟨result, hres, hsingle, htens⟩ : ∃ result,
      resultOf built.output.isSingle
        (built.output.tensors.map (remap scope m)) = .ok result ∧
      ((∃ t, result = .single t) ↔ ∃ t, built.output = .single t) ∧
      result.tensors = built.output.tensors.map (remap scope m) := by
    cases built.output with
    | single t => exact ⟨.single (remap scope m t), rfl, by simp, rfl⟩
    | many ts => exact ⟨.many (ts.map (remap scope m)), rfl, by simp, rfl⟩
  refine ⟨graph, result, ?_, hkept, hsingle, ?_⟩
  · unfold applyFunction
    rw [hopn, uniqueNames_ok ops [] hdist (fun _ _ => rfl)]
    simp only [bind, Except.bind]
    have hpl : ops.map firstOutput = inputs := rfl
    rw [hpl, ← hbuilt, if_neg (by simp [htables]), hrestore]
    simp only
    rw [hconst]
    simp only
    rw [himp]
    simp only
    rw [hres]
  · rw [htens]
    have : ∀ l : List Str, (∀ t ∈ l, t ∈ built.output.tensors) →
        List.Forall₂ (Same constant host graph nodes checkpoint []
          (fun n => if n ∈ inputs then some n else none) inputs scope) l
          (l.map (remap scope m)) := by
      intro l hl
      induction l with
      | nil => exact .nil
      | cons t l ih =>
        refine .cons ?_ (ih (fun t ht => hl t (List.mem_cons_of_mem _ ht)))
        intro feeds hf
        rw [hval feeds (fun e he => hf _ (hmem e he).2) t (hl t List.mem_cons_self)]
        unfold runModel
        congr 1
        funext n
        rw [List.lookup_nil, hfind]
        rfl
    exact this _ (fun _ h => h)

/-! ## What is refused -/

theorem toConstants_outs (vars : Str → Option V) (nodes : List (PNode V)) (need : List Str)
    (g : Graph V) (h : toConstants vars nodes need = .ok g) :
    g.map Node.out = (prune nodes need).map PNode.out := by
  unfold toConstants at h
  generalize prune nodes need = l at h
  induction l generalizing g with
  | nil =>
    injection h with h
    rw [← h]
    rfl
  | cons n l ih =>
    rw [List.mapM_cons] at h
    simp only [bind, Except.bind] at h
    split at h
    · cases h
    · rename_i x hx
      split at h
      · cases h
      · rename_i xs hxs
        injection h with h
        rw [← h, List.map_cons, List.map_cons, ih xs hxs]
        congr 1
        cases n with
        | placeholder o => injection hx with hx; rw [← hx]; rfl
        | compute o f is => injection hx with hx; rw [← hx]; rfl
        | readVar o v =>
          simp only [freezeNode] at hx
          split at hx
          · injection hx with hx; rw [← hx]; rfl
          · cases hx

theorem import_refused (vars : Str → Option V) (host : Graph V) (nodes : List (PNode V))
    (need : List Str) (scope : Str) (inputMap : List (Str × Str)) (elements : List Str)
    (g : Graph V) (h : toConstants vars nodes need = .ok g) (t : Str)
    (ht : t ∈ inputMap.map Prod.fst)
    (hn : ¬ Needs nodes need t ∨ t ∉ nodes.map PNode.out) :
    importElements host scope inputMap g elements
      = .error "ValueError: Attempted to map inputs that were not found in graph_def" := by
  have hng : t ∉ g.map Node.out := by
    rw [toConstants_outs _ _ _ _ h]
    rintro hm
    obtain ⟨n, hnm, rfl⟩ := List.mem_map.1 hm
    rcases hn with hn | hn
    · exact hn (needs_of_mem_prune _ _ _ hnm)
    · exact hn (List.mem_map_of_mem ((prune_sublist _ _).subset hnm))
  unfold importElements importGraph
  rw [if_neg]
  · rfl
  · intro hall
    rw [List.all_eq_true] at hall
    obtain ⟨e, he, rfl⟩ := List.mem_map.1 ht
    exact hng (List.contains_iff_mem.1 (hall e he))

/-- A model with an input that is not needed for the outputs that are asked for is refused. -/
theorem unneeded_input_refused (host : Host V)
    (pre post : List (Model V)) (model : Model V) (tags : List Str)
    (htags : ∀ t, t ∈ model.tags ↔ t ∈ tags)
    (hpre : ∀ m ∈ pre, ¬ ∀ t, t ∈ m.tags ↔ t ∈ tags)
    (name : Option Str) (ins outs : List (Str × Str)) (signature : Signature)
    (hsig : Meant model.signatures name signature)
    (hins : signature.inputs = ins.map (fun e => (e.1, Info.name e.2)))
    (houts : signature.outputs = outs.map (fun e => (e.1, Info.name e.2)))
    (inputs : Inputs) (keys : List Str) (scope : Str)
    (hin : (ins.map Prod.fst).Nodup) (hit : (ins.map Prod.snd).Nodup)
    (hkeys : ∀ k ∈ keys, k ∈ outs.map Prod.fst) (honly : keys = [] → outs.length = 1)
    (hgiven : GivesAll ins inputs)
    (e : Str × Str) (he : e ∈ ins)
    (hno : ¬ Needs model.nodes (asked outs keys ++ model.initializers) e.2) :
    ∃ err, applySavedModel host (pre ++ model :: post) inputs tags name keys scope
      = .error err := by
  obtain ⟨m, hm1, hm2, hm3⟩ := inputMapOf_ok signature ins inputs hins hin hit hgiven
  have hkey : e.2 ∈ m.map Prod.fst := by
    by_contra hc
    rw [← find_eq_none, hm2] at hc
    unfold givenFor at hc
    have hf : ins.find? (fun x => x.2 = e.2) = some e := by
      cases hf : ins.find? (fun x => x.2 = e.2) with
      | none => have := List.find?_eq_none.1 hf e he; simp at this
      | some x =>
        have h1 := List.mem_of_find?_eq_some hf
        have h2 : x.2 = e.2 := by simpa using List.find?_some hf
        rw [List.inj_on_of_nodup_map hit h1 he h2]
    rw [hf] at hc
    cases inputs with
    | single t => cases hc
    | dict d =>
      simp only at hc
      rw [← find_eq_lookup, find_eq_none] at hc
      exact hc ((hgiven.2 e.1).2 (List.mem_map_of_mem he))
  unfold applySavedModel
  rw [mem_loadModel pre post model tags htags hpre]
  simp only [bind, Except.bind]
  rw [chooseSignature_meant _ _ _ hsig]
  simp only
  rw [hm1]
  simp only
  rw [outputNames_ok signature outs keys houts hkeys honly]
  simp only
  split
  · cases hc : toConstants model.vars model.nodes (asked outs keys ++ model.initializers) with
    | error err => exact ⟨err, rfl⟩
    | ok g =>
      simp only
      rw [import_refused _ _ _ _ _ _ _ g hc e.2 hkey (Or.inl hno)]
      exact ⟨_, rfl⟩
  · exact ⟨_, rfl⟩

/-- Inputs under other names than those of the signature are refused. -/
theorem other_inputs_refused (host : Host V) (pre post : List (Model V)) (model : Model V)
    (tags : List Str) (htags : ∀ t, t ∈ model.tags ↔ t ∈ tags)
    (hpre : ∀ m ∈ pre, ¬ ∀ t, t ∈ m.tags ↔ t ∈ tags)
    (name : Option Str) (signature : Signature) (hsig : Meant model.signatures name signature)
    (d : List (Str × Str)) (keys : List Str) (scope : Str)
    (h : ¬ ∀ k, k ∈ d.map Prod.fst ↔ k ∈ signature.inputs.map Prod.fst) :
    applySavedModel host (pre ++ model :: post) (.dict d) tags name keys scope
      = .error "ValueError: The keys in `inputs` do not match inputs of the SavedModel" := by
  unfold applySavedModel
  rw [mem_loadModel pre post model tags htags hpre]
  simp only [bind, Except.bind]
  rw [chooseSignature_meant _ _ _ hsig]
  simp only [inputMapOf]
  rw [if_neg]
  intro hc
  rw [Bool.and_eq_true, List.all_eq_true, List.all_eq_true] at hc
  simp only [List.contains_iff_mem] at hc
  exact h (fun k => ⟨hc.2 k, hc.1 k⟩)

/-- A single tensor for a model with several inputs, or none, is refused. -/
theorem single_input_refused (host : Host V) (pre post : List (Model V)) (model : Model V)
    (tags : List Str) (htags : ∀ t, t ∈ model.tags ↔ t ∈ tags)
    (hpre : ∀ m ∈ pre, ¬ ∀ t, t ∈ m.tags ↔ t ∈ tags)
    (name : Option Str) (signature : Signature) (hsig : Meant model.signatures name signature)
    (t : Str) (keys : List Str) (scope : Str) (h : signature.inputs.length ≠ 1) :
    applySavedModel host (pre ++ model :: post) (.single t) tags name keys scope
      = .error "ValueError: The SavedModel does not have exactly one input" := by
  unfold applySavedModel
  rw [mem_loadModel pre post model tags htags hpre]
  simp only [bind, Except.bind]
  rw [chooseSignature_meant _ _ _ hsig]
  simp only [inputMapOf]
  match hs : signature.inputs with
  | [] => rfl
  | [e] => rw [hs] at h; exact absurd rfl h
  | e :: e' :: l => rfl

/-- Unknown outputs are refused, and so is a model with several outputs, or none, if none is asked
for. -/
theorem unknown_output_refused (host : Host V) (savedModel : List (Model V)) (model : Model V)
    (tags : List Str) (hload : loadModel savedModel tags = .ok model)
    (name : Option Str) (signature : Signature) (hsig : Meant model.signatures name signature)
    (inputs : Inputs) (keys : List Str) (scope : Str)
    (h : (∃ k ∈ keys, k ∉ signature.outputs.map Prod.fst) ∨
      keys = [] ∧ signature.outputs.length ≠ 1) :
    ∃ err, applySavedModel host savedModel inputs tags name keys scope = .error err := by
  have ho : ∃ err, outputNames signature keys = .error err := by
    unfold outputNames
    rcases h with ⟨k, hk, hn⟩ | ⟨rfl, hn⟩
    · rw [if_pos (List.ne_nil_of_mem hk), if_neg]
      · exact ⟨_, rfl⟩
      · rw [List.all_eq_true]
        intro hc
        exact hn (List.contains_iff_mem.1 (hc k hk))
    · rw [if_neg (by simp)]
      match hs : signature.outputs with
      | [] => exact ⟨_, rfl⟩
      | [e] => rw [hs] at hn; exact absurd rfl hn
      | e :: e' :: l => exact ⟨_, rfl⟩
  obtain ⟨err, ho⟩ := ho
  unfold applySavedModel
  rw [hload]
  simp only [bind, Except.bind]
  rw [chooseSignature_meant _ _ _ hsig]
  simp only
  cases inputMapOf signature inputs with
  | error err => exact ⟨err, rfl⟩
  | ok m => simp only; rw [ho]; exact ⟨err, rfl⟩

/-- A SavedModel without a graph with exactly the tags is refused. -/
theorem unknown_tags_refused (host : Host V) (savedModel : List (Model V)) (tags : List Str)
    (h : ∀ m ∈ savedModel, ¬ ∀ t, t ∈ m.tags ↔ t ∈ tags) (inputs : Inputs) (name : Option Str)
    (keys : List Str) (scope : Str) :
    applySavedModel host savedModel inputs tags name keys scope
      = .error "RuntimeError: MetaGraphDef associated with tags could not be found" := by
  unfold applySavedModel loadModel
  rw [List.find?_eq_none.2]
  · rfl
  · intro m hm hc
    rw [Bool.and_eq_true, List.all_eq_true, List.all_eq_true] at hc
    simp only [List.contains_iff_mem] at hc
    exact h m hm (fun t => ⟨hc.1 t, hc.2 t⟩)

/-- Without a name, a model with several signatures is refused. -/
theorem ambiguous_signature_refused (host : Host V) (savedModel : List (Model V)) (model : Model V)
    (tags : List Str) (hload : loadModel savedModel tags = .ok model)
    (h : model.signatures.length ≠ 1) (inputs : Inputs) (keys : List Str) (scope : Str) :
    ∃ err, applySavedModel host savedModel inputs tags none keys scope = .error err := by
  unfold applySavedModel
  rw [hload]
  simp only [bind, Except.bind]
  match hs : model.signatures with
  | [] => exact ⟨_, rfl⟩
  | [e] => rw [hs] at h; exact absurd rfl h
  | e :: e' :: l => exact ⟨_, rfl⟩

/-- A name that is none of the model's signatures is refused. -/
theorem unknown_signature_refused (host : Host V) (savedModel : List (Model V)) (model : Model V)
    (tags : List Str) (hload : loadModel savedModel tags = .ok model) (name : Str)
    (hne : name ≠ []) (h : name ∉ model.signatures.map Prod.fst) (inputs : Inputs)
    (keys : List Str) (scope : Str) :
    ∃ err, applySavedModel host savedModel inputs tags (some name) keys scope = .error err := by
  cases name with
  | nil => exact absurd rfl hne
  | cons c cs =>
    unfold applySavedModel
    rw [hload]
    simp only [bind, Except.bind]
    have hc : chooseSignature model.signatures (some (c :: cs)) = .ok ⟨[], []⟩ := by
      show Except.ok ((find model.signatures (c :: cs)).getD ⟨[], []⟩) = _
      rw [(find_eq_none _ _).2 h]
      rfl
    rw [hc]
    simp only
    cases inputMapOf ⟨[], []⟩ inputs with
    | error err => exact ⟨err, rfl⟩
    | ok m =>
      simp only
      cases keys with
      | nil => exact ⟨_, rfl⟩
      | cons k keys => exact ⟨_, rfl⟩

/-! ### Functions -/

/-- Functions that add tables to the graph are refused. -/
theorem tables_refused (host : Graph V) (fn : List Str → Built V) (inputs : List Str)
    (checkpoint : Str → Option V) (inclScopes exclScopes : Option (List (Str → Bool)))
    (scope : Str) (h : ∀ ps, (fn ps).initializers ≠ []) :
    ∃ err, applyFunction host fn inputs checkpoint inclScopes exclScopes scope = .error err := by
  unfold applyFunction
  cases uniqueNames [] (inputs.map opName) with
  | error err => exact ⟨err, rfl⟩
  | ok names =>
    simp only [bind, Except.bind]
    rw [if_pos (h _)]
    exact ⟨_, rfl⟩

/-- Functions of which no variable is restored are refused. -/
theorem no_variables_refused (host : Graph V) (fn : List Str → Built V) (inputs : List Str)
    (checkpoint : Str → Option V) (inclScopes exclScopes : Option (List (Str → Bool)))
    (scope : Str) (h : ∀ ps, ∀ v ∈ (fn ps).globals, ¬ Chosen inclScopes exclScopes v) :
    ∃ err, applyFunction host fn inputs checkpoint inclScopes exclScopes scope = .error err := by
  unfold applyFunction
  cases uniqueNames [] (inputs.map opName) with
  | error err => exact ⟨err, rfl⟩
  | ok names =>
    simp only [bind, Except.bind]
    split
    · exact ⟨_, rfl⟩
    · have : variablesToRestore (fn (names.map firstOutput)).globals inclScopes exclScopes = [] := by
        rw [List.eq_nil_iff_forall_not_mem]
        intro v hv
        obtain ⟨h1, h2⟩ := (mem_variablesToRestore _ _ _ _).1 hv
        exact h _ v h1 h2
      rw [this]
      exact ⟨_, rfl⟩

/-- A variable that is to be restored and is not in the checkpoint is refused. -/
theorem missing_variable_refused (host : Graph V) (fn : List Str → Built V) (inputs : List Str)
    (checkpoint : Str → Option V) (inclScopes exclScopes : Option (List (Str → Bool)))
    (scope : Str) (v : Str) (hv : ∀ ps, v ∈ (fn ps).globals) (hc : Chosen inclScopes exclScopes v)
    (hn : checkpoint v = none) :
    ∃ err, applyFunction host fn inputs checkpoint inclScopes exclScopes scope = .error err := by
  unfold applyFunction
  cases uniqueNames [] (inputs.map opName) with
  | error err => exact ⟨err, rfl⟩
  | ok names =>
    simp only [bind, Except.bind]
    split
    · exact ⟨_, rfl⟩
    · have hmem := (mem_variablesToRestore (fn (names.map firstOutput)).globals inclScopes
        exclScopes v).2 ⟨hv _, hc⟩
      have : ∃ err, restore checkpoint (variablesToRestore
          (fn (names.map firstOutput)).globals inclScopes exclScopes) = .error err := by
        unfold restore
        split
        · exact ⟨_, rfl⟩
        · split
          · exact ⟨_, rfl⟩
          · rw [if_neg]
            · exact ⟨_, rfl⟩
            · rw [List.all_eq_true]
              intro h
              have := h v hmem
              rw [hn] at this
              cases this
      obtain ⟨err, this⟩ := this
      rw [this]
      exact ⟨err, rfl⟩

/-- Variables in two of the scopes to include are refused. -/
theorem overlapping_scopes_refused (host : Graph V) (fn : List Str → Built V) (inputs : List Str)
    (checkpoint : Str → Option V) (exclScopes : Option (List (Str → Bool))) (scope : Str)
    (a b c : List (Str → Bool)) (s s' : Str → Bool) (v : Str) (hv : ∀ ps, v ∈ (fn ps).globals)
    (h1 : s v = true) (h2 : s' v = true)
    (hx : ∀ scopes, exclScopes = some scopes → ∀ s ∈ scopes, s v = false) :
    ∃ err, applyFunction host fn inputs checkpoint (some (a ++ s :: b ++ s' :: c)) exclScopes scope
      = .error err := by
  unfold applyFunction
  cases uniqueNames [] (inputs.map opName) with
  | error err => exact ⟨err, rfl⟩
  | ok names =>
    simp only [bind, Except.bind]
    split
    · exact ⟨_, rfl⟩
    · have hdup : ¬ (variablesToRestore (fn (names.map firstOutput)).globals
          (some (a ++ s :: b ++ s' :: c)) exclScopes).Nodup := by
        intro hn
        have hone : ∀ (r : Str → Bool), r v = true → [v].Sublist
            ((fn (names.map firstOutput)).globals.filter r) := by
          intro r hr
          rw [List.singleton_sublist, List.mem_filter]
          exact ⟨hv _, hr⟩
        have hsub : [v, v].Sublist ((a ++ s :: b ++ s' :: c).flatMap
            (fun s => (fn (names.map firstOutput)).globals.filter s)) := by
          rw [List.flatMap_append, List.flatMap_append, List.flatMap_cons, List.flatMap_cons]
          have e1 : [v].Sublist (a.flatMap (fun s => (fn (names.map firstOutput)).globals.filter s) ++
              ((fn (names.map firstOutput)).globals.filter s ++
                b.flatMap (fun s => (fn (names.map firstOutput)).globals.filter s))) :=
            ((hone s h1).trans (List.sublist_append_left _ _)).trans (List.sublist_append_right _ _)
          have e2 : [v].Sublist ((fn (names.map firstOutput)).globals.filter s' ++
                c.flatMap (fun s => (fn (names.map firstOutput)).globals.filter s)) :=
            (hone s' h2).trans (List.sublist_append_left _ _)
          exact e1.append e2
        have hkeep : v ∉ (match exclScopes with
            | none => []
            | some scopes => scopes.flatMap
              (fun s => (fn (names.map firstOutput)).globals.filter s)) := by
          cases hex : exclScopes with
          | none => exact List.not_mem_nil
          | some scopes =>
            simp only [List.mem_flatMap, List.mem_filter, not_exists, not_and]
            intro s hs _ hsv
            have := hx scopes hex s hs
            rw [this] at hsv
            cases hsv
        have h3 := hsub.filter (fun v => !(match exclScopes with
            | none => ([] : List Str)
            | some scopes => scopes.flatMap
              (fun s => (fn (names.map firstOutput)).globals.filter s)).contains v)
        have h4 := h3.nodup hn
        have hb : (!(match exclScopes with
            | none => ([] : List Str)
            | some scopes => scopes.flatMap
              (fun s => (fn (names.map firstOutput)).globals.filter s)).contains v) = true := by
          rw [Bool.not_eq_true', Bool.eq_false_iff, ne_eq, List.contains_iff_mem]
          exact hkeep
        simp only [List.filter, hb] at h4
        simp at h4
      have : ∃ err, restore checkpoint (variablesToRestore (fn (names.map firstOutput)).globals
          (some (a ++ s :: b ++ s' :: c)) exclScopes) = .error err := by
        unfold restore
        split
        · exact ⟨_, rfl⟩
        · exact ⟨_, rfl⟩
      obtain ⟨err, this⟩ := this
      rw [this]
      exact ⟨err, rfl⟩

theorem function_import_refused (host : Graph V) (fn : List Str → Built V) (inputs : List Str)
    (checkpoint : Str → Option V) (inclScopes exclScopes : Option (List (Str → Bool)))
    (scope : Str) (t : Str) (ht : t ∈ inputs)
    (h : ∀ names, uniqueNames [] (inputs.map opName) = .ok names →
      ¬ Needs ((names.map firstOutput).map PNode.placeholder ++ (fn (names.map firstOutput)).nodes)
        (fn (names.map firstOutput)).output.tensors t ∨
      t ∉ ((names.map firstOutput).map PNode.placeholder ++
        (fn (names.map firstOutput)).nodes).map PNode.out) :
    ∃ err, applyFunction host fn inputs checkpoint inclScopes exclScopes scope = .error err := by
  unfold applyFunction
  cases hu : uniqueNames [] (inputs.map opName) with
  | error err => exact ⟨err, rfl⟩
  | ok names =>
    simp only [bind, Except.bind]
    split
    · exact ⟨_, rfl⟩
    · cases restore checkpoint (variablesToRestore
          (fn (names.map firstOutput)).globals inclScopes exclScopes) with
      | error err => exact ⟨err, rfl⟩
      | ok vars =>
        simp only
        cases hc : toConstants vars ((names.map firstOutput).map PNode.placeholder ++
            (fn (names.map firstOutput)).nodes) (fn (names.map firstOutput)).output.tensors with
        | error err => exact ⟨err, rfl⟩
        | ok g =>
          simp only
          have hkey : t ∈ (putAll [] (inputs.map (fun t => (t, t)))).map Prod.fst := by
            have : ∀ (l : List Str) (m : List (Str × Str)), t ∈ l ∨ t ∈ m.map Prod.fst →
                t ∈ (putAll m (l.map (fun t => (t, t)))).map Prod.fst := by
              intro l
              induction l with
              | nil => intro m h; exact h.resolve_left List.not_mem_nil
              | cons x l ih =>
                intro m h
                refine ih _ ?_
                by_cases hx : t = x
                · right
                  by_contra hc
                  rw [← find_eq_none, find_put, if_pos hx] at hc
                  cases hc
                · rcases h with h | h
                  · left
                    exact (List.mem_cons.1 h).resolve_left hx
                  · right
                    by_contra hc
                    rw [← find_eq_none, find_put, if_neg hx, find_eq_none] at hc
                    exact hc h
            exact this inputs [] (Or.inl ht)
          rw [import_refused _ _ _ _ _ _ _ g hc t hkey (h names hu)]
          exact ⟨_, rfl⟩

/-- A function that does not use one of its inputs is refused. -/
theorem function_unneeded_input_refused (host : Graph V) (fn : List Str → Built V)
    (ops : List Str) (checkpoint : Str → Option V)
    (inclScopes exclScopes : Option (List (Str → Bool))) (scope : Str)
    (hdistinct : (ops.map (fun o => o.map Char.toLower)).Nodup) (hops : ∀ o ∈ ops, ':' ∉ o)
    (o : Str) (ho : o ∈ ops)
    (hno : ¬ Needs ((ops.map (fun o => o ++ ":0".toList)).map PNode.placeholder
        ++ (fn (ops.map (fun o => o ++ ":0".toList))).nodes)
      (fn (ops.map (fun o => o ++ ":0".toList))).output.tensors (o ++ ":0".toList)) :
    ∃ err, applyFunction host fn (ops.map (fun o => o ++ ":0".toList)) checkpoint inclScopes
      exclScopes scope = .error err := by
  refine function_import_refused host fn _ checkpoint inclScopes exclScopes scope
    (o ++ ":0".toList) (List.mem_map.2 ⟨o, ho, rfl⟩) ?_
  intro names hn
  have hopn : (ops.map (fun o => o ++ ":0".toList)).map opName = ops := by
    rw [List.map_map]
    conv => rhs; rw [← List.map_id ops]
    exact List.map_congr_left (fun o ho => opName_firstOutput o (hops o ho))
  rw [hopn, uniqueNames_ok ops [] hdistinct (fun _ _ => rfl)] at hn
  injection hn with hn
  subst hn
  exact Or.inl hno

theorem mapM_error {α β : Type} (f : α → Except Err β) (l : List α) (a : α) (ha : a ∈ l) (e : Err)
    (hf : f a = .error e) : ∃ err, l.mapM f = .error err := by
  induction l with
  | nil => cases ha
  | cons b l ih =>
    rw [List.mapM_cons]
    simp only [bind, Except.bind]
    cases hb : f b with
    | error err => exact ⟨err, rfl⟩
    | ok y =>
      have hl : a ∈ l := by
        rcases List.mem_cons.1 ha with rfl | h
        · rw [hf] at hb; cases hb
        · exact h
      obtain ⟨err, h⟩ := ih hl
      simp only [h]
      exact ⟨err, rfl⟩

/-- A function that needs a variable that is not restored is refused: variables outside the selected
scopes have no values, whether the checkpoint has them or not. -/
theorem unrestored_variable_refused (host : Graph V) (fn : List Str → Built V)
    (ops : List Str) (checkpoint : Str → Option V)
    (inclScopes exclScopes : Option (List (Str → Bool))) (scope : Str)
    (hdistinct : (ops.map (fun o => o.map Char.toLower)).Nodup) (hops : ∀ o ∈ ops, ':' ∉ o)
    (hordered : Ordered (((ops.map (fun o => o ++ ":0".toList)).map PNode.placeholder
      ++ (fn (ops.map (fun o => o ++ ":0".toList))).nodes).map (asNode checkpoint)))
    (o x : Str) (hx : PNode.readVar o x ∈ (fn (ops.map (fun o => o ++ ":0".toList))).nodes)
    (hneeds : Needs ((ops.map (fun o => o ++ ":0".toList)).map PNode.placeholder
        ++ (fn (ops.map (fun o => o ++ ":0".toList))).nodes)
      (fn (ops.map (fun o => o ++ ":0".toList))).output.tensors o)
    (hno : x ∉ (fn (ops.map (fun o => o ++ ":0".toList))).globals ∨
      ¬ Chosen inclScopes exclScopes x) :
    ∃ err, applyFunction host fn (ops.map (fun o => o ++ ":0".toList)) checkpoint inclScopes
      exclScopes scope = .error err := by
  have hopn : (ops.map (fun o => o ++ ":0".toList)).map opName = ops := by
    rw [List.map_map]
    conv => rhs; rw [← List.map_id ops]
    exact List.map_congr_left (fun o ho => opName_firstOutput o (hops o ho))
  unfold applyFunction
  rw [hopn, uniqueNames_ok ops [] hdistinct (fun _ _ => rfl)]
  simp only [bind, Except.bind]
  have hpl : ops.map firstOutput = ops.map (fun o => o ++ ":0".toList) := rfl
  rw [hpl]
  set inputs := ops.map (fun o => o ++ ":0".toList)
  set nodes := inputs.map PNode.placeholder ++ (fn inputs).nodes with hnodes
  have hmem : PNode.readVar o x ∈ nodes := List.mem_append_right _ hx
  split
  · exact ⟨_, rfl⟩
  · cases hr : restore checkpoint (variablesToRestore (fn inputs).globals inclScopes exclScopes) with
    | error err => exact ⟨err, rfl⟩
    | ok vars =>
      simp only
      have hv : vars x = none := by
        unfold restore at hr
        split at hr
        · cases hr
        · split at hr
          · cases hr
          · split at hr
            · injection hr with hr
              rw [← hr]
              refine if_neg ?_
              rw [List.contains_iff_mem, mem_variablesToRestore]
              rintro ⟨h1, h2⟩
              rcases hno with h | h
              · exact h h1
              · exact h h2
            · cases hr
      have hpr : PNode.readVar o x ∈ prune nodes (fn inputs).output.tensors := by
        have h1 := mem_prune_of_needs checkpoint nodes _ hordered o hneeds
          (List.mem_map_of_mem (f := PNode.out) hmem)
        obtain ⟨n, hn, hno⟩ := List.mem_map.1 h1
        have hnd : (nodes.map PNode.out).Nodup := by
          have := hordered.1
          rwa [tensors_map] at this
        have h2 := List.inj_on_of_nodup_map hnd ((prune_sublist _ _).subset hn) hmem hno
        rw [← h2]
        exact hn
      obtain ⟨err, he⟩ := mapM_error (freezeNode vars) _ _ hpr
        "FailedPreconditionError: Attempting to use uninitialized value"
        (by simp only [freezeNode, hv])
      have hc : toConstants vars nodes (fn inputs).output.tensors = .error err := he
      rw [hc]
      exact ⟨err, rfl⟩

/-- A tensor that is not the first output of its operation is refused. -/
theorem second_output_refused (host : Graph V) (fn : List Str → Built V) (inputs : List Str)
    (checkpoint : Str → Option V) (inclScopes exclScopes : Option (List (Str → Bool)))
    (scope : Str) (t : Str) (ht : t ∈ inputs) (hsecond : ¬ ":0".toList <:+ t)
    (hown : ∀ ps, t ∉ (fn ps).nodes.map PNode.out) :
    ∃ err, applyFunction host fn inputs checkpoint inclScopes exclScopes scope = .error err := by
  refine function_import_refused host fn inputs checkpoint inclScopes exclScopes scope t ht ?_
  intro names _
  right
  rw [List.map_append, List.mem_append, not_or]
  refine ⟨?_, hown _⟩
  rw [List.map_map]
  intro h
  obtain ⟨p, hp, rfl⟩ := List.mem_map.1 h
  obtain ⟨o, -, rfl⟩ := List.mem_map.1 hp
  exact hsecond ⟨o, rfl⟩

/-! ## What goes wrong -/

/-- A model that looks up a file: its asset path is `/old/vocab` in the graph, and the file is
`/model/assets/vocab` in the SavedModel. -/
def assetModel : Model Str where
  tags := ["serve".toList]
  signatures := [("s".toList, ⟨[("x".toList, .name "x:0".toList)], [("y".toList, .name "y:0".toList)]⟩)]
  nodes := [.compute "file:0".toList (fun _ => "/old/vocab".toList) [],
    .placeholder "x:0".toList,
    .compute "y:0".toList List.flatten ["x:0".toList, "file:0".toList]]
  vars := fun _ => none
  initializers := []
  assets := [("file:0".toList, "/model/assets/vocab".toList)]

def assetHost : Host Str where
  graph := [{ out := "a:0".toList, op := .placeholder, ins := [] }]
  initializers := []

/-- The files of a SavedModel are not used: the model reads the file of the place where it was
written. -/
theorem asset_of_another_place : ∃ host' t,
    applySavedModel assetHost [assetModel] (.single "a:0".toList) ["serve".toList] none []
      "import".toList = .ok (host', .single t) ∧
    ∃ feeds : Str → Option Str,
      run host'.graph feeds t = some ("v".toList ++ "/old/vocab".toList) ∧
      runModel id assetModel.nodes assetModel.vars assetModel.assets
        (givenFor [("x".toList, "x:0".toList)] (.single "a:0".toList)) (run assetHost.graph feeds)
        feeds "import".toList "y:0".toList = some ("v".toList ++ "/model/assets/vocab".toList) := by
  refine ⟨_, _, rfl, fun n => if n = "a:0".toList then some "v".toList else none, ?_, ?_⟩
  · decide +kernel
  · decide +kernel

/-- The difference of the first two inputs and a variable; the third input is not used. -/
def difference : List Str → Built Int
  | p :: q :: _ =>
    { nodes := [.readVar "w:0".toList "w".toList,
        .compute "d:0".toList (fun vs => vs.getD 0 0 - vs.getD 1 0 + vs.getD 2 0)
          [p, q, "w:0".toList]]
      globals := ["w".toList]
      initializers := []
      output := .single "d:0".toList }
  | _ => { nodes := [], globals := [], initializers := [], output := .many [] }

def twoHost : Graph Int :=
  [{ out := "a:0".toList, op := .placeholder, ins := [] },
   { out := "a_1:0".toList, op := .placeholder, ins := [] }]

/-- A tensor that is given twice is taken for another one: the difference of a tensor and itself is
not zero. -/
theorem repeated_input_wrong : ∃ graph t,
    applyFunction twoHost difference ["a:0".toList, "a:0".toList, "a_1:0".toList]
      (fun v => if v = "w".toList then some 0 else none) none none "import".toList
      = .ok (graph, .single t) ∧
    run graph (fun n => if n = "a:0".toList then some 5 else if n = "a_1:0".toList then some 3
      else none) t = some 2 :=
  ⟨_, _, rfl, by decide +kernel⟩

/-- Without the third tensor the second input has no value. -/
theorem repeated_input_unfed : ∃ graph t,
    applyFunction twoHost difference ["a:0".toList, "a:0".toList]
      (fun v => if v = "w".toList then some 0 else none) none none "import".toList
      = .ok (graph, .single t) ∧
    run graph (fun n => if n = "a:0".toList then some 5 else if n = "a_1:0".toList then some 3
      else none) t = none :=
  ⟨_, _, rfl, by decide +kernel⟩

/-- Tensors of operations whose names differ in case only are refused. -/
theorem names_without_case_refused :
    applyFunction (V := Int)
      [{ out := "a:0".toList, op := .placeholder, ins := [] },
       { out := "A:0".toList, op := .placeholder, ins := [] }]
      difference ["a:0".toList, "A:0".toList]
      (fun v => if v = "w".toList then some 0 else none) none none "import".toList
      = .error "ValueError: Attempted to map inputs that were not found in graph_def" := rfl

/-! ## The hypotheses can be met -/

def exampleModel : Model Int where
  tags := ["serve".toList]
  signatures := [("s".toList, ⟨[("x".toList, .name "x:0".toList)],
    [("y".toList, .name "y:0".toList), ("z".toList, .name "z:0".toList)]⟩)]
  nodes := [.placeholder "x:0".toList, .readVar "w:0".toList "w".toList,
    .compute "init".toList (fun _ => 7) [],
    .compute "y:0".toList List.sum ["x:0".toList, "w:0".toList],
    .compute "z:0".toList List.sum ["y:0".toList, "x:0".toList]]
  vars := fun v => if v = "w".toList then some 10 else none
  initializers := ["init".toList]
  assets := []

def exampleHost : Host Int where
  graph := twoHost
  initializers := ["table".toList]

theorem of_forall_take (g : Graph V)
    (h : ∀ k ∈ List.range g.length, ∀ i ∈ ((g[k]?).map Node.ins).getD [],
      i ∈ tensors (g.take k)) :
    ∀ pre n post, g = pre ++ n :: post → ∀ i ∈ n.ins, i ∈ tensors pre := by
  rintro pre n post rfl i hi
  have := h pre.length (by rw [List.mem_range]; simp) i (by simpa using hi)
  simpa using this

theorem example_ordered : Ordered (exampleModel.nodes.map (asNode exampleModel.vars)) := by
  constructor
  · decide +kernel
  · apply of_forall_take
    decide +kernel

theorem example_applicable : Applicable exampleHost exampleModel
    [("x".toList, "x:0".toList)] [("y".toList, "y:0".toList), ("z".toList, "z:0".toList)]
    (.dict [("x".toList, "a:0".toList)]) ["z".toList, "y".toList] "import".toList where
  ordered := example_ordered
  inputNames := by decide +kernel
  inputTensors := by decide +kernel
  inputsNeeded := by
    intro e he
    rw [List.mem_singleton] at he
    subst he
    exact .step (n := .compute "z:0".toList List.sum ["y:0".toList, "x:0".toList])
      (by simp [exampleModel]) (.out (by decide +kernel)) (by decide +kernel)
  outputTensors := by decide +kernel
  keysKnown := by decide +kernel
  onlyOutput := by simp
  initializers := by decide +kernel
  haveValues := by
    intro o x h _
    simp only [exampleModel, List.mem_cons, reduceCtorEq, PNode.readVar.injEq, List.not_mem_nil,
      or_false, false_or] at h
    rw [h.2]
    rfl
  noAssets := rfl
  given := by
    refine ⟨by decide +kernel, fun k => ?_⟩
    rfl
  givenTensors := by decide +kernel
  freshScope := by decide +kernel

example : ∃ host' result,
    applySavedModel exampleHost [exampleModel] (.dict [("x".toList, "a:0".toList)]) ["serve".toList]
      (some "s".toList) ["z".toList, "y".toList] "import".toList = .ok (host', result) ∧
    host'.initializers = ["table".toList, "import/init".toList] ∧
    result.tensors.map (run host'.graph (fun n => if n = "a:0".toList then some 5 else none))
      = [some 20, some 15] :=
  ⟨_, _, rfl, by decide +kernel, by decide +kernel⟩

theorem example_function_applicable : FunctionApplicable twoHost difference
    ["a_1".toList, "a".toList] (fun v => if v = "w".toList then some 4 else none)
    (some [fun v => v = "w".toList]) (some [fun v => v = "u".toList]) "import".toList where
  distinct := by decide +kernel
  operations := by decide +kernel
  freshScope := by decide +kernel
  noTables := rfl
  ordered := by
    constructor
    · decide +kernel
    · apply of_forall_take
      decide +kernel
  outputs := by decide +kernel
  inputsNeeded := by
    intro o ho
    refine .step (n := .compute "d:0".toList (fun vs => vs.getD 0 0 - vs.getD 1 0 + vs.getD 2 0)
      ["a_1:0".toList, "a:0".toList, "w:0".toList]) ?_ (.out (by decide +kernel)) ?_
    · exact List.mem_append_right _ (List.mem_cons_of_mem _ List.mem_cons_self)
    · revert o
      decide +kernel
  restored := by
    intro o x h _
    have : x = "w".toList := by
      rcases List.mem_cons.1 h with h | h
      · injection h
      · rw [List.mem_singleton] at h
        cases h
    subst this
    refine ⟨by decide +kernel, ?_, ?_⟩
    · intro scopes h
      injection h with h
      subst h
      exact ⟨_, List.mem_cons_self, by decide +kernel⟩
    · intro scopes h
      injection h with h
      subst h
      intro s hs
      rw [List.mem_singleton] at hs
      subst hs
      decide +kernel
  globals := by decide +kernel
  scopes := by
    intro scopes h
    injection h with h
    subst h
    decide +kernel
  someVariable := by
    refine ⟨"w".toList, by decide +kernel, ?_, ?_⟩
    · intro scopes h
      injection h with h
      subst h
      exact ⟨_, List.mem_cons_self, by decide +kernel⟩
    · intro scopes h
      injection h with h
      subst h
      intro s hs
      rw [List.mem_singleton] at hs
      subst hs
      decide +kernel
  checkpoint := by
    intro v hv _
    have hv' : v ∈ ["w".toList] := hv
    rw [List.mem_singleton] at hv'
    subst hv'
    rfl

/-- A model with an input that its output does not need. -/
def unneededModel : Model Int where
  tags := ["serve".toList]
  signatures := [("s".toList, ⟨[("x".toList, .name "x:0".toList), ("u".toList, .name "u:0".toList)],
    [("y".toList, .name "y:0".toList)]⟩)]
  nodes := [.placeholder "x:0".toList, .placeholder "u:0".toList,
    .compute "y:0".toList List.sum ["x:0".toList]]
  vars := fun _ => none
  initializers := []
  assets := []

example : ¬ Needs unneededModel.nodes
    (asked [("y".toList, "y:0".toList)] [] ++ unneededModel.initializers) "u:0".toList := by
  have : ∀ t, Needs unneededModel.nodes ["y:0".toList] t → t ≠ "u:0".toList := by
    intro t h
    induction h with
    | out h => rw [List.mem_singleton] at h; subst h; decide +kernel
    | @step n t hn _ ht _ =>
      simp only [unneededModel, List.mem_cons, List.not_mem_nil, or_false] at hn
      rcases hn with rfl | rfl | rfl
      · cases ht
      · cases ht
      · rw [PNode.ins, List.mem_singleton] at ht
        subst ht
        decide +kernel
  intro h
  exact this _ h rfl

example : applySavedModel exampleHost [unneededModel]
    (.dict [("u".toList, "a_1:0".toList), ("x".toList, "a:0".toList)]) ["serve".toList] none []
    "import".toList
    = .error "ValueError: Attempted to map inputs that were not found in graph_def" := rfl

example : applyFunction twoHost difference ["a:0".toList, "a:1".toList]
    (fun v => if v = "w".toList then some 0 else none) none none "import".toList
    = .error "ValueError: Attempted to map inputs that were not found in graph_def" := rfl

end TFT.Pretrained
