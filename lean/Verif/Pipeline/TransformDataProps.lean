import Verif.Pipeline.TransformData
import Verif.Schema.FeatureSpecProps
import Verif.Pipeline.ServingProps

/-!
# C75: the metadata of transformed data
-/

namespace TFT.TransformData

open FeatureSpec

/-! ## Dicts -/

theorem setItem_keys {α : Type} (k : String) (v : α) (d : List (String × α)) (x : String) :
    x ∈ (setItem k v d).map Prod.fst ↔ x = k ∨ x ∈ d.map Prod.fst := by
  induction d with
  | nil => simp [setItem]
  | cons e d ih =>
    obtain ⟨k', v'⟩ := e
    unfold setItem
    by_cases h : k' = k
    · subst h; simp
    · simp only [if_neg h, List.map_cons, List.mem_cons, ih]
      tauto

theorem setItem_nodup {α : Type} (k : String) (v : α) (d : List (String × α))
    (h : (d.map Prod.fst).Nodup) : ((setItem k v d).map Prod.fst).Nodup := by
  induction d with
  | nil => simp [setItem]
  | cons e d ih =>
    obtain ⟨k', v'⟩ := e
    simp only [List.map_cons, List.nodup_cons] at h
    unfold setItem
    by_cases hk : k' = k
    · subst hk; simpa using h
    · simp only [if_neg hk, List.map_cons, List.nodup_cons, setItem_keys, not_or]
      exact ⟨⟨hk, h.1⟩, ih h.2⟩

theorem lookup_setItem {α : Type} (k : String) (v : α) (d : List (String × α)) (x : String) :
    (setItem k v d).lookup x = if x = k then some v else d.lookup x := by
  induction d with
  | nil =>
    by_cases h : x = k
    · subst h; simp [setItem]
    · have : (x == k) = false := by simpa using h
      simp [setItem, List.lookup, this, h]
  | cons e d ih =>
    obtain ⟨k', v'⟩ := e
    unfold setItem
    by_cases hk : k' = k
    · subst hk
      rw [if_pos rfl]
      by_cases h : x = k'
      · subst h; simp
      · have : (x == k') = false := by simpa using h
        simp [List.lookup, this, h]
    · rw [if_neg hk]
      by_cases h : x = k'
      · subst h
        simp [hk]
      · have : (x == k') = false := by simpa using h
        simp [List.lookup, this, ih]

theorem dictOf_snoc {α : Type} (es : List (String × α)) (e : String × α) :
    dictOf (es ++ [e]) = setItem e.1 e.2 (dictOf es) := by
  simp [dictOf]

theorem dictOf_nodup {α : Type} (es : List (String × α)) : ((dictOf es).map Prod.fst).Nodup := by
  induction es using List.reverseRecOn with
  | nil => simp [dictOf]
  | append_singleton es e ih => rw [dictOf_snoc]; exact setItem_nodup _ _ _ ih

theorem dictOf_lookup {α : Type} (es : List (String × α)) (k : String) :
    (dictOf es).lookup k = FeatureSpec.get es k := by
  induction es using List.reverseRecOn with
  | nil => rfl
  | append_singleton es e ih =>
    rw [dictOf_snoc, lookup_setItem, ih]
    unfold FeatureSpec.get
    rw [List.reverse_append, List.reverse_singleton, List.singleton_append]
    by_cases h : k = e.1
    · subst h
      rw [if_pos rfl]
      obtain ⟨a, b⟩ := e
      simp
    · have : (k == e.1) = false := by simpa using h
      rw [if_neg h, List.lookup_cons, this]

theorem lookup_filter_keys {α : Type} (d : List (String × α)) (ex : List String) (k : String) :
    (d.filter (fun e => e.1 ∉ ex)).lookup k = if k ∈ ex then none else d.lookup k := by
  induction d with
  | nil => simp
  | cons e d ih =>
    obtain ⟨k', v⟩ := e
    by_cases hk : k = k'
    · subst hk
      by_cases h : k ∈ ex
      · rw [if_pos h] at ih ⊢
        simp [h]
        simpa using ih
      · simp [h]
    · have hb : (k == k') = false := by simpa using hk
      rw [List.lookup_cons, hb, ← ih, List.filter_cons]
      split
      · rw [List.lookup_cons, hb]
      · rfl

theorem lookup_map_some {α : Type} (d : List (String × α)) (k : String) :
    (d.map (fun e => (e.1, some e.2))).lookup k = (d.lookup k).map some := by
  induction d with
  | nil => rfl
  | cons e d ih =>
    obtain ⟨k', v⟩ := e
    by_cases hk : k = k'
    · subst hk; simp
    · have hb : (k == k') = false := by simpa using hk
      simp [List.lookup, hb, ih]

/-! ## Specs in normal form -/

theorem recovered_idem (name : String) (sp : Spec) :
    recovered (name, recovered (name, sp)) = recovered (name, sp) := by
  cases sp with
  | sparse k v d n s =>
    cases n with
    | one n => simp [recovered, IndexKey.keys, Size.sizes]
    | list ns => simp [recovered, IndexKey.keys, Size.sizes]
  | ragged d vk ps t =>
    simp only [recovered, valueKeyOr]
    cases vk with
    | none => by_cases h : name = "" <;> simp [h]
    | some k => by_cases h : k = "" <;> by_cases h' : name = "" <;> simp [h, h']
  | fixedLen => rfl
  | varLen => rfl
  | other => rfl

theorem recovered_columns (name : String) (sp : Spec) :
    columns (name, recovered (name, sp)) = columns (name, sp) := by
  cases sp with
  | sparse k v d n s => simp [recovered, columns, IndexKey.keys]
  | ragged d vk ps t =>
    simp only [recovered, columns, valueKeyOr]
    cases vk with
    | none => by_cases h : name = "" <;> simp [h]
    | some k => by_cases h : k = "" <;> by_cases h' : name = "" <;> simp [h, h']
  | fixedLen => rfl
  | varLen => rfl
  | other => rfl

theorem recovered_supported (name : String) (sp : Spec) (h : sp.Supported) :
    (recovered (name, sp)).Supported := by
  cases sp with
  | sparse k v d n s =>
    obtain ⟨h1, h2⟩ := h
    refine ⟨h1, ?_⟩
    cases k <;> cases n <;> simp_all [SameForm, IndexKey.keys, Size.sizes]
  | ragged d vk ps t => exact h
  | fixedLen => exact h
  | varLen => exact h
  | other => exact h

theorem recovered_isSparse (name : String) (sp : Spec) :
    (recovered (name, sp)).isSparse = sp.isSparse := by
  cases sp <;> rfl

/-! ## `exclude_outputs` -/

/-- **C75** `TransformDataset(exclude_outputs=...)`: the metadata it returns describes exactly the
features that are not excluded, each by the spec and the domain that it had before. The metadata are those
written for a feature spec under the conditions of C45. -/
theorem exclude_outputs_metadata_partial (spec : List (String × Spec)) (domains : Domains)
    (hkeys : (spec.map Prod.fst).Nodup) (hconv : ∀ i ∈ spec, Convertible domains i)
    (hcols : (spec.flatMap columns).Nodup)
    (hsparse : ∀ i ∈ spec, i.2.isSparse → i.1 ∉ spec.flatMap columns) (excluded : List String) :
    ∃ s r s' r', schemaFromFeatureSpec spec domains = .ok s ∧ schemaAsFeatureSpec s = .ok r ∧
      removeColumns s excluded = .ok s' ∧ schemaAsFeatureSpec s' = .ok r' ∧
      (∀ name, get r'.1 name = if name ∈ excluded then none else get r.1 name) ∧
      (∀ name, get r'.2 name = if name ∈ excluded then none else get r.2 name) ∧
      (∀ name, (get r.1 name).isSome ↔ name ∈ spec.map Prod.fst) := by
  obtain ⟨s, r, h1, h2, h3, h4⟩ := feature_spec_round_trip_partial spec domains hkeys hconv hcols hsparse
  let spec' := (dictOf r.1).filter (fun e => e.1 ∉ excluded)
  let domains' : Domains := ((dictOf r.2).filter (fun e => e.1 ∉ excluded)).map (fun e => (e.1, some e.2))
  have hlook : ∀ k, spec'.lookup k = if k ∈ excluded then none else
      (spec.lookup k).map (fun sp => recovered (k, sp)) := by
    intro k
    rw [lookup_filter_keys, dictOf_lookup, h3]
  have hdl : ∀ k, domains'.lookup k = if k ∈ excluded then none else (get r.2 k).map some := by
    intro k
    rw [lookup_map_some, lookup_filter_keys, dictOf_lookup]
    split <;> rfl
  have hkeys' : (spec'.map Prod.fst).Nodup :=
    (dictOf_nodup r.1).sublist (List.filter_sublist.map _)
  have hmem : ∀ i ∈ spec', ∃ sp, (i.1, sp) ∈ spec ∧ i.2 = recovered (i.1, sp) := by
    intro i hi
    have := (lookup_iff spec' hkeys' i.1 i.2).2 hi
    rw [hlook] at this
    split at this
    · cases this
    · obtain ⟨sp, hsp, he⟩ := Option.map_eq_some_iff.1 this
      exact ⟨sp, (lookup_iff spec hkeys i.1 sp).1 hsp, he.symm⟩
  have hconv' : ∀ i ∈ spec', Convertible domains' i := by
    intro i hi
    obtain ⟨sp, hsp, he⟩ := hmem i hi
    refine ⟨by rw [he]; exact recovered_supported _ _ (hconv _ hsp).1, ?_⟩
    rw [hdl]
    split
    · simp
    · cases get r.2 i.1 <;> simp
  have hc : ∀ i ∈ spec', ∃ j ∈ spec, j.1 = i.1 ∧ columns i = columns j := by
    intro i hi
    obtain ⟨sp, hsp, he⟩ := hmem i hi
    refine ⟨_, hsp, rfl, ?_⟩
    rw [← recovered_columns i.1 sp, ← he]
  have hdis := (List.nodup_flatMap.1 hcols).2
  have hdis' : ∀ a ∈ spec, ∀ b ∈ spec, a.1 ≠ b.1 → List.Disjoint (columns a) (columns b) := by
    intro a ha b hb hab
    have hab' : a ≠ b := fun h => hab (congrArg Prod.fst h)
    have : Std.Symm (Function.onFun List.Disjoint columns) := ⟨fun _ _ h => List.Disjoint.symm h⟩
    exact hdis.forall ha hb hab'
  have hcols' : (spec'.flatMap columns).Nodup := by
    rw [List.nodup_flatMap]
    constructor
    · intro i hi
      obtain ⟨j, hj, -, he⟩ := hc i hi
      rw [he]
      exact (List.nodup_flatMap.1 hcols).1 j hj
    · have hp : spec'.Pairwise (fun a b => a.1 ≠ b.1) := List.pairwise_map.1 hkeys'
      refine hp.imp_of_mem ?_
      intro a b ha hb hab
      obtain ⟨j, hj, e1, e2⟩ := hc a ha
      obtain ⟨j', hj', e1', e2'⟩ := hc b hb
      show List.Disjoint (columns a) (columns b)
      rw [e2, e2']
      exact hdis' j hj j' hj' (by rw [e1, e1']; exact hab)
  have hsparse' : ∀ i ∈ spec', i.2.isSparse → i.1 ∉ spec'.flatMap columns := by
    intro i hi hs hin
    obtain ⟨sp, hsp, he⟩ := hmem i hi
    rw [he, recovered_isSparse] at hs
    apply hsparse _ hsp hs
    obtain ⟨b, hb, hin⟩ := List.mem_flatMap.1 hin
    obtain ⟨j, hj, -, e⟩ := hc b hb
    exact List.mem_flatMap.2 ⟨j, hj, by rw [← e]; exact hin⟩
  obtain ⟨s', r', g1, g2, g3, g4⟩ :=
    feature_spec_round_trip_partial spec' domains' hkeys' hconv' hcols' hsparse'
  refine ⟨s, r, s', r', h1, h2, ?_, g2, ?_, ?_, ?_⟩
  · unfold removeColumns
    rw [h2]
    exact g1
  · intro name
    rw [g3, hlook, h3]
    split
    · rfl
    · cases spec.lookup name with
      | none => rfl
      | some sp => simp [recovered_idem]
  · intro name
    rw [g4]
    unfold givenDomain
    rw [hdl]
    have hin : name ∈ spec'.map Prod.fst ↔ name ∉ excluded ∧ name ∈ spec.map Prod.fst := by
      have a : ∀ {α : Type} (l : List (String × α)), name ∈ l.map Prod.fst ↔ (l.lookup name).isSome := by
        intro α l
        induction l with
        | nil => simp
        | cons e l ih =>
          obtain ⟨k, v⟩ := e
          by_cases hk : name = k
          · subst hk; simp
          · have hb : (name == k) = false := by simpa using hk
            rw [List.lookup_cons, hb, ← ih]
            simp [hk]
      rw [a, a, hlook]
      split <;> simp_all
    by_cases he : name ∈ excluded
    · simp [he]
    · by_cases hn : name ∈ spec.map Prod.fst
      · rw [if_pos (hin.2 ⟨he, hn⟩), if_neg he, if_neg he]
        cases get r.2 name <;> rfl
      · rw [if_neg (fun h => hn (hin.1 h).2), if_neg he, h4, if_neg hn]
  · intro name
    rw [h3, Option.isSome_map]
    constructor
    · intro h
      obtain ⟨sp, hsp⟩ := Option.isSome_iff_exists.1 h
      exact List.mem_map_of_mem ((lookup_iff spec hkeys name sp).1 hsp)
    · intro h
      obtain ⟨i, hi, rfl⟩ := List.mem_map.1 h
      rw [(lookup_iff spec hkeys i.1 i.2).2 hi]
      rfl

/-- Three outputs, a sparse one and a ragged one among them; the ragged one is excluded. -/
example : ((schemaFromFeatureSpec
      [("a", .fixedLen [] .int64 none), ("s", .sparse (.one "i") "v" .float32 (.one 4) false),
       ("r", .ragged .string none [.rowLengths "len"] .int64)]
      [("a", some (.int (some 0) (some 9) true))]).bind fun s =>
        (removeColumns s ["r"]).bind schemaAsFeatureSpec).toOption =
      some ([("s", .sparse (.list ["i"]) "v" .float32 (.list [some 4]) false),
          ("a", .fixedLen [] .int64 none)], [("a", .int (some 0) (some 9) true)]) := by
  decide +kernel

theorem transform_keys {V Op : Type} (m : Serving.Meaning V Op)
    (f : Serving.Function Op) (hW : Serving.WellFormed f) (names excluded : List String)
    (batch : List (String × List V)) (hC : Serving.Conforms m f batch)
    (hk : ∀ k, k ∈ names ↔ k ∈ batch.map Prod.fst) (default : V) (out : List (String × List V))
    (hrun : Serving.transformV2 false m f names excluded batch = .ok out ∨
      Serving.transformV1 m f names excluded batch = .ok out) (name : String) :
    name ∈ out.map Prod.fst ↔ name ∈ f.outputs.map Prod.fst ∧ name ∉ excluded := by
  have hF := Serving.completes_self m f batch hC (fun _ _ => default)
  have hv : ∃ full, Serving.ValuesOf m full (Serving.kept f excluded) out := by
    rcases hrun with h | h
    · exact ⟨_, (((Serving.transformed_v2_iff m f hW names excluded batch hC hk _ hF out).1).1 h).2⟩
    · exact ⟨_, ((Serving.transformed_v1_iff m f hW names excluded batch hC hk _ hF out).1 h).2.2⟩
  obtain ⟨full, hv⟩ := hv
  have hkeys : out.map Prod.fst = (Serving.kept f excluded).map Prod.fst := by
    unfold Serving.ValuesOf at hv
    clear hrun
    generalize Serving.kept f excluded = os at hv
    induction hv with
    | nil => rfl
    | cons h _ ih => simp [h.1, ih]
  rw [hkeys]
  unfold Serving.kept
  simp only [List.mem_map, List.mem_filter, decide_eq_true_eq]
  constructor
  · rintro ⟨o, ⟨h1, h2⟩, rfl⟩
    exact ⟨⟨o, h1, rfl⟩, h2⟩
  · rintro ⟨⟨o, h1, rfl⟩, h2⟩
    exact ⟨o, ⟨h1, h2⟩, rfl⟩

/-- **C75** The features of the transformed data are the ones that the returned metadata describe, with
and without TF2 behaviour. `spec` are the specs of all outputs. -/
theorem transformed_features_are_described_partial {V Op : Type} (m : Serving.Meaning V Op)
    (f : Serving.Function Op) (hW : Serving.WellFormed f) (names excluded : List String)
    (batch : List (String × List V)) (hC : Serving.Conforms m f batch)
    (hk : ∀ k, k ∈ names ↔ k ∈ batch.map Prod.fst) (default : V)
    (spec : List (String × Spec)) (domains : Domains) (hout : spec.map Prod.fst = f.outputs.map Prod.fst)
    (hconv : ∀ i ∈ spec, Convertible domains i) (hcols : (spec.flatMap columns).Nodup)
    (hsparse : ∀ i ∈ spec, i.2.isSparse → i.1 ∉ spec.flatMap columns) (out : List (String × List V))
    (hrun : Serving.transformV2 false m f names excluded batch = .ok out ∨
      Serving.transformV1 m f names excluded batch = .ok out) :
    ∃ s s' r', schemaFromFeatureSpec spec domains = .ok s ∧ removeColumns s excluded = .ok s' ∧
      schemaAsFeatureSpec s' = .ok r' ∧
      ∀ name, name ∈ out.map Prod.fst ↔ (get r'.1 name).isSome := by
  have hkeys : (spec.map Prod.fst).Nodup := by rw [hout]; exact hW.outputs
  obtain ⟨s, r, s', r', h1, -, h3, h4, h5, -, h7⟩ :=
    exclude_outputs_metadata_partial spec domains hkeys hconv hcols hsparse excluded
  refine ⟨s, s', r', h1, h3, h4, fun name => ?_⟩
  rw [transform_keys m f hW names excluded batch hC hk default out hrun, h5, ← hout, ← h7]
  by_cases he : name ∈ excluded
  · simp [he]
  · simp [he]

/-! ## The encoder -/

/-- The format of the data that a statement produces. -/
def Stmt.format : Stmt → Option Bool
  | .transform _ _ recordBatches => some recordBatches
  | .encode _ => none

/-- The number of the dataset that a statement encodes. -/
def Stmt.encoded : Stmt → Option Nat
  | .transform _ _ _ => none
  | .encode k => some k

/-- Whether a statement transforms with the metadata of an analysis in the same pipeline. -/
def Stmt.inPipeline : Stmt → Option Bool
  | .transform output _ _ => some output.beam
  | .encode _ => none

/-- The metadata that a statement refers to exist before the pipeline transforms anything. -/
def Stmt.Known (n : Nat) : Stmt → Prop
  | .transform output _ _ => output.addr < n
  | .encode _ => True

/-- The formats are the same for the same metadata, if no outputs are excluded. -/
def Consistent (format : Nat → Bool) : Stmt → Prop
  | .transform output none recordBatches => recordBatches = format output.addr
  | _ => True

/-- What holds while a pipeline is built. -/
structure Inv (n : Nat) (prog : List Stmt) (s : St) : Prop where
  len : n ≤ s.heap.length
  addr : ∀ d ∈ s.datasets, d.1.addr < s.heap.length
  formats : s.datasets.map Prod.snd = prog.filterMap Stmt.format
  beams : s.datasets.map (fun d => d.1.beam) = prog.filterMap Stmt.inPipeline
  encoded : s.encoders.map Prod.fst = prog.filterMap Stmt.encoded

/-- What holds of the formats. -/
structure Fits (n : Nat) (format : Nat → Bool) (s : St) : Prop where
  old : ∀ d ∈ s.datasets, d.1.addr < n → d.2 = format d.1.addr
  flag : ∀ d ∈ s.datasets, ∀ m, s.heap[d.1.addr]? = some m → m.recordBatches = d.2
  fits : ∀ e ∈ s.encoders, (s.datasets[e.1]?).map Prod.snd = some e.2

theorem inv_step (n : Nat) (prog : List Stmt) (s s' : St) (x : Stmt) (h : Inv n prog s)
    (hs : s.step x = .ok s') : Inv n (prog ++ [x]) s' := by
  cases x with
  | transform output exclude recordBatches =>
    change s.transform output exclude recordBatches = .ok s' at hs
    unfold St.transform at hs
    cases hm : s.heap[output.addr]? with
    | none => rw [hm] at hs; cases hs
    | some m =>
      rw [hm] at hs
      have hlt : output.addr < s.heap.length := (List.getElem?_eq_some_iff.1 hm).1
      cases exclude with
      | none =>
        cases hs
        refine ⟨by simpa using h.len, ?_, ?_, ?_, ?_⟩
        · intro d hd
          simp only [List.mem_append, List.mem_singleton] at hd
          rw [List.length_set]
          rcases hd with hd | rfl
          · exact h.addr d hd
          · exact hlt
        · simp [h.formats, Stmt.format]
        · simp [h.beams, Stmt.inPipeline]
        · simp [h.encoded, Stmt.encoded]
      | some ex =>
        simp only at hs
        cases hr : removeColumns m.schema ex with
        | error e => rw [hr] at hs; cases hs
        | ok sch =>
          rw [hr] at hs
          cases hs
          refine ⟨by simpa using Nat.le_succ_of_le h.len, ?_, ?_, ?_, ?_⟩
          · intro d hd
            simp only [List.mem_append, List.mem_singleton] at hd
            rw [List.length_append]
            rcases hd with hd | rfl
            · exact Nat.lt_of_lt_of_le (h.addr d hd) (Nat.le_add_right _ _)
            · simp
          · simp [h.formats, Stmt.format]
          · simp [h.beams, Stmt.inPipeline]
          · simp [h.encoded, Stmt.encoded]
  | encode k =>
    change s.encode k = .ok s' at hs
    unfold St.encode at hs
    cases hd : s.datasets[k]? with
    | none => rw [hd] at hs; cases hs
    | some d =>
      rw [hd] at hs
      simp only at hs
      split at hs
      · cases hm : s.heap[d.1.addr]? with
        | none => rw [hm] at hs; cases hs
        | some m =>
          rw [hm] at hs
          cases hs
          exact ⟨h.len, h.addr, by simp [h.formats, Stmt.format], by simp [h.beams, Stmt.inPipeline],
            by simp [h.encoded, Stmt.encoded]⟩
      · cases hs

theorem fits_step (n : Nat) (format : Nat → Bool) (prog : List Stmt) (s s' : St) (x : Stmt)
    (h : Inv n prog s) (hf : Fits n format s) (hk : x.Known n) (hx : Consistent format x)
    (hs : s.step x = .ok s') : Fits n format s' := by
  cases x with
  | transform output exclude recordBatches =>
    change s.transform output exclude recordBatches = .ok s' at hs
    unfold St.transform at hs
    cases hm : s.heap[output.addr]? with
    | none => rw [hm] at hs; cases hs
    | some m =>
      rw [hm] at hs
      have hlt : output.addr < s.heap.length := (List.getElem?_eq_some_iff.1 hm).1
      have hfit : ∀ y, ∀ e ∈ s.encoders, ((s.datasets ++ [y])[e.1]?).map Prod.snd = some e.2 := by
        intro y e he
        have := hf.fits e he
        obtain ⟨d, hd, hde⟩ := Option.map_eq_some_iff.1 this
        have hl := (List.getElem?_eq_some_iff.1 hd).1
        rw [List.getElem?_append_left hl]
        exact this
      cases exclude with
      | none =>
        cases hs
        have hx : recordBatches = format output.addr := hx
        refine ⟨?_, ?_, hfit _⟩
        · intro d hd
          simp only [List.mem_append, List.mem_singleton] at hd
          rcases hd with hd | rfl
          · exact hf.old d hd
          · exact fun _ => hx
        · intro d hd m' hm'
          simp only [List.mem_append, List.mem_singleton] at hd
          simp only at hm'
          rw [List.getElem?_set] at hm'
          split at hm'
          · rename_i heq
            cases hm'
            rcases hd with hd | rfl
            · rw [hf.old d hd (by rw [← heq]; exact hk), ← heq]
              exact hx
            · rfl
          · rename_i hne
            rcases hd with hd | rfl
            · exact hf.flag d hd m' hm'
            · exact absurd rfl hne
      | some ex =>
        simp only at hs
        cases hr : removeColumns m.schema ex with
        | error e => rw [hr] at hs; cases hs
        | ok sch =>
          rw [hr] at hs
          cases hs
          refine ⟨?_, ?_, hfit _⟩
          · intro d hd
            simp only [List.mem_append, List.mem_singleton] at hd
            rcases hd with hd | rfl
            · exact hf.old d hd
            · intro hlt'
              exact absurd h.len (Nat.not_le.2 hlt')
          · intro d hd m' hm'
            simp only [List.mem_append, List.mem_singleton] at hd
            simp only at hm'
            rcases hd with hd | rfl
            · rw [List.getElem?_append_left (h.addr d hd)] at hm'
              exact hf.flag d hd m' hm'
            · simp only [List.getElem?_concat_length, Option.some.injEq] at hm'
              rw [← hm']
  | encode k =>
    change s.encode k = .ok s' at hs
    unfold St.encode at hs
    cases hd : s.datasets[k]? with
    | none => rw [hd] at hs; cases hs
    | some d =>
      rw [hd] at hs
      simp only at hs
      split at hs
      · cases hm : s.heap[d.1.addr]? with
        | none => rw [hm] at hs; cases hs
        | some m =>
          rw [hm] at hs
          cases hs
          refine ⟨hf.old, hf.flag, ?_⟩
          intro e he
          simp only [List.mem_append, List.mem_singleton] at he
          rcases he with he | rfl
          · exact hf.fits e he
          · simp only [hd, Option.map_some]
            rw [hf.flag d (List.mem_of_getElem? hd) m hm]
      · cases hs

theorem run_snoc (s : St) (prog : List Stmt) (x : Stmt) (s' : St) :
    s.run (prog ++ [x]) = .ok s' ↔ ∃ t, s.run prog = .ok t ∧ t.step x = .ok s' := by
  unfold St.run
  rw [List.foldlM_append]
  cases h : prog.foldlM St.step s with
  | error e => simp [bind, Except.bind]
  | ok t =>
    simp only [bind, Except.bind, List.foldlM_cons, List.foldlM_nil, Except.ok.injEq, exists_eq_left']
    cases t.step x <;> simp [pure, Except.pure]

theorem inv_run (heap : List Meta) (prog : List Stmt) (s : St)
    (hrun : (⟨heap, [], []⟩ : St).run prog = .ok s) : Inv heap.length prog s := by
  induction prog using List.reverseRecOn generalizing s with
  | nil =>
    cases hrun
    exact ⟨Nat.le_refl _, by simp, rfl, rfl, rfl⟩
  | append_singleton prog x ih =>
    obtain ⟨t, ht, hs⟩ := (run_snoc _ _ _ _).1 hrun
    exact inv_step _ _ _ _ _ (ih t ht) hs

/-- **C75** Each `EncodeTransformedDataset` encodes its dataset in the format that the dataset has, if the
formats are the same wherever the same metadata are used without excluded outputs. The datasets are
numbered in the order of the `TransformDataset` steps. -/
theorem encoders_fit_partial (heap : List Meta) (prog : List Stmt) (s : St)
    (hknown : ∀ x ∈ prog, x.Known heap.length) (format : Nat → Bool)
    (hcons : ∀ x ∈ prog, Consistent format x)
    (hrun : (⟨heap, [], []⟩ : St).run prog = .ok s) :
    s.encoders.map Prod.fst = prog.filterMap Stmt.encoded ∧
    ∀ e ∈ s.encoders, (prog.filterMap Stmt.format)[e.1]? = some e.2 := by
  refine ⟨(inv_run heap prog s hrun).encoded, ?_⟩
  rw [← (inv_run heap prog s hrun).formats]
  suffices h : Fits heap.length format s by
    intro e he
    rw [List.getElem?_map]
    exact h.fits e he
  induction prog using List.reverseRecOn generalizing s with
  | nil =>
    cases hrun
    exact ⟨by simp, by simp, by simp⟩
  | append_singleton prog x ih =>
    obtain ⟨t, ht, hs⟩ := (run_snoc _ _ _ _).1 hrun
    refine fits_step _ _ prog _ _ x (inv_run heap prog t ht)
      (ih t (fun y hy => hknown y (by simp [hy])) (fun y hy => hcons y (by simp [hy])) ht)
      (hknown x (by simp)) (hcons x (by simp)) hs

/-- **C75** A transformed dataset can be encoded exactly if its metadata come from an analysis in the same
pipeline. -/
theorem encode_accepts_iff (heap : List Meta) (prog : List Stmt) (s : St)
    (hrun : (⟨heap, [], []⟩ : St).run prog = .ok s) (k : Nat) :
    (∃ s', (⟨heap, [], []⟩ : St).run (prog ++ [.encode k]) = .ok s') ↔
      (prog.filterMap Stmt.inPipeline)[k]? = some true := by
  have hi := inv_run heap prog s hrun
  rw [← hi.beams, List.getElem?_map]
  constructor
  · rintro ⟨s', hs'⟩
    obtain ⟨t, ht, hs⟩ := (run_snoc _ _ _ _).1 hs'
    rw [hrun] at ht
    cases ht
    change s.encode k = .ok s' at hs
    unfold St.encode at hs
    cases hd : s.datasets[k]? with
    | none => rw [hd] at hs; cases hs
    | some d =>
      rw [hd] at hs
      simp only at hs
      split at hs
      · rename_i hb; simp [hb]
      · cases hs
  · intro h
    obtain ⟨d, hd, hb⟩ := Option.map_eq_some_iff.1 h
    have hlt := hi.addr d (List.mem_of_getElem? hd)
    refine ⟨{ s with encoders := s.encoders ++ [(k, s.heap[d.1.addr].recordBatches)] },
      (run_snoc _ _ _ _).2 ⟨s, hrun, ?_⟩⟩
    · change s.encode k = .ok _
      unfold St.encode
      rw [hd]
      simp only
      rw [if_pos hb, List.getElem?_eq_getElem hlt]

/-- **C75** Metadata that exist can be used to transform in either format. -/
theorem transform_accepts (heap : List Meta) (prog : List Stmt) (s : St)
    (hrun : (⟨heap, [], []⟩ : St).run prog = .ok s) (output : MetaRef)
    (h : output.addr < heap.length) (recordBatches : Bool) :
    ∃ s', (⟨heap, [], []⟩ : St).run (prog ++ [.transform output none recordBatches]) = .ok s' := by
  have hlt := Nat.lt_of_lt_of_le h (inv_run heap prog s hrun).len
  refine ⟨{ s with
      heap := s.heap.set output.addr { s.heap[output.addr] with recordBatches := recordBatches }
      datasets := s.datasets ++ [(output, recordBatches)] }, (run_snoc _ _ _ _).2 ⟨s, hrun, ?_⟩⟩
  simp only [St.step, St.transform, List.getElem?_eq_getElem hlt]

/-- The metadata and the excluded outputs of a statement that transforms. -/
def Stmt.described : Stmt → Option (MetaRef × Option (List String))
  | .transform output exclude _ => some (output, exclude)
  | .encode _ => none

/-- `schema` is what a dataset is described by that was transformed with these metadata and these
excluded outputs. -/
def Describes (heap : List Meta) (output : MetaRef) (exclude : Option (List String)) (schema : Schema) :
    Prop :=
  ∃ m, heap[output.addr]? = some m ∧
    match exclude with
    | none => schema = m.schema
    | some excluded => removeColumns m.schema excluded = .ok schema

theorem schema_set (l : List Meta) (a : Nat) (m : Meta) (b : Bool) (h : l[a]? = some m) (i : Nat) :
    ((l.set a { m with recordBatches := b })[i]?).map Meta.schema = (l[i]?).map Meta.schema := by
  rw [List.getElem?_set]
  split
  · rename_i he
    subst he
    have hlt := (List.getElem?_eq_some_iff.1 h).1
    rw [h]
    simp [hlt]
  · rfl

/-- **C75** However many steps a pipeline has, the metadata that it started with keep their schemas, and
the metadata of every transformed dataset are the ones of its transform function without the outputs
that its own `TransformDataset` excludes. -/
theorem metadata_of_datasets (heap : List Meta) (prog : List Stmt) (s : St)
    (hknown : ∀ x ∈ prog, x.Known heap.length)
    (hrun : (⟨heap, [], []⟩ : St).run prog = .ok s) :
    (∀ i, i < heap.length → (s.heap[i]?).map Meta.schema = (heap[i]?).map Meta.schema) ∧
    List.Forall₂ (fun x d => ∃ m, s.heap[d.1.addr]? = some m ∧ Describes heap x.1 x.2 m.schema)
      (prog.filterMap Stmt.described) s.datasets := by
  induction prog using List.reverseRecOn generalizing s with
  | nil =>
    cases hrun
    exact ⟨fun _ _ => rfl, .nil⟩
  | append_singleton prog x ih =>
    obtain ⟨t, ht, hs⟩ := (run_snoc _ _ _ _).1 hrun
    obtain ⟨ih1, ih2⟩ := ih t (fun y hy => hknown y (by simp [hy])) ht
    have hk' := hknown x (by simp)
    have hi := inv_run heap prog t ht
    cases x with
    | transform output exclude recordBatches =>
      have hk : output.addr < heap.length := hk'
      change t.transform output exclude recordBatches = .ok s at hs
      unfold St.transform at hs
      cases hm : t.heap[output.addr]? with
      | none => rw [hm] at hs; cases hs
      | some m =>
        rw [hm] at hs
        have h0 := ih1 output.addr hk
        rw [hm, List.getElem?_eq_getElem hk] at h0
        simp only [Option.map_some, Option.some.injEq] at h0
        cases exclude with
        | none =>
          cases hs
          constructor
          · intro i hilt
            rw [schema_set _ _ _ _ hm]
            exact ih1 i hilt
          · rw [List.filterMap_append]
            refine List.rel_append ?_ (.cons ?_ .nil)
            · refine ih2.imp ?_
              rintro y d ⟨m', hm', hd⟩
              have := schema_set _ _ _ recordBatches hm d.1.addr
              rw [hm'] at this
              obtain ⟨m'', hm'', he⟩ := Option.map_eq_some_iff.1 this
              exact ⟨m'', hm'', by rw [he]; exact hd⟩
            · have := schema_set _ _ _ recordBatches hm output.addr
              rw [hm] at this
              obtain ⟨m'', hm'', he⟩ := Option.map_eq_some_iff.1 this
              exact ⟨m'', hm'', _, List.getElem?_eq_getElem hk, by rw [he]; exact h0⟩
        | some ex =>
          simp only at hs
          cases hr : removeColumns m.schema ex with
          | error e => rw [hr] at hs; cases hs
          | ok sch =>
            rw [hr] at hs
            cases hs
            constructor
            · intro i hilt
              rw [← ih1 i hilt]
              rw [List.getElem?_append_left (Nat.lt_of_lt_of_le hilt hi.len)]
            · rw [List.filterMap_append]
              refine List.rel_append ?_ (.cons ?_ .nil)
              · refine ih2.imp ?_
                rintro y d ⟨m', hm', hd⟩
                refine ⟨m', ?_, hd⟩
                rw [List.getElem?_append_left (List.getElem?_eq_some_iff.1 hm').1]
                exact hm'
              · refine ⟨⟨sch, recordBatches⟩, by simp, _, List.getElem?_eq_getElem hk, ?_⟩
                simp only
                rw [← h0]
                exact hr
    | encode k =>
      change t.encode k = .ok s at hs
      unfold St.encode at hs
      cases hd : t.datasets[k]? with
      | none => rw [hd] at hs; cases hs
      | some d =>
        rw [hd] at hs
        simp only at hs
        split at hs
        · cases hm : t.heap[d.1.addr]? with
          | none => rw [hm] at hs; cases hs
          | some m =>
            rw [hm] at hs
            cases hs
            refine ⟨ih1, ?_⟩
            rw [List.filterMap_append]
            change List.Forall₂ _ (_ ++ []) _
            rw [List.append_nil]
            exact ih2
        · cases hs

/-- Two datasets transformed in different formats, with excluded outputs for the second. -/
example : ((⟨[⟨{}, true⟩], [], []⟩ : St).run
    [.transform ⟨true, 0⟩ none false, .transform ⟨true, 0⟩ (some []) true, .encode 1,
      .encode 0]).toOption.map St.encoders = some [(1, true), (0, false)] := by decide +kernel

/-- **C75** The claim without the condition on formats is false: the format is stored in the metadata
of the analysis, and a second `TransformDataset` with the same metadata changes it for the first. -/
theorem encoder_of_shared_metadata_is_wrong :
    ∃ s, (⟨[⟨{}, true⟩], [], []⟩ : St).run
      [.transform ⟨true, 0⟩ none false, .transform ⟨true, 0⟩ none true, .encode 0] = .ok s ∧
      (0, true) ∈ s.encoders ∧ (s.datasets[0]?).map Prod.snd = some false :=
  ⟨_, rfl, by simp, rfl⟩

/-- **C75** Data transformed with a transform function that was read from disk cannot be encoded. -/
theorem encode_after_read_fails :
    ¬∃ s, (⟨[⟨{}, true⟩], [], []⟩ : St).run [.transform ⟨false, 0⟩ none true, .encode 0] = .ok s := by
  rw [show [Stmt.transform ⟨false, 0⟩ none true, .encode 0]
    = [Stmt.transform ⟨false, 0⟩ none true] ++ [.encode 0] from rfl, encode_accepts_iff _ _ _ rfl]
  simp [Stmt.inPipeline]

end TFT.TransformData
