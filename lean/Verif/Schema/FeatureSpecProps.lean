import Verif.Schema.FeatureSpec
import Mathlib.Data.List.Nodup
import Mathlib.Data.List.Dedup

/-!
# Properties of the conversion of feature specs (C45)
-/

namespace TFT.FeatureSpec

/-! ## Specification -/

/-- The dtypes that a schema can express. -/
def DType.Supported : DType → Prop
  | .other _ => False
  | _ => True

/-- The keys of an index key. -/
def IndexKey.keys : IndexKey → List String
  | .one k => [k]
  | .list ks => ks

/-- The sizes, -1 for an unknown one. -/
def Size.sizes : Size → List Int
  | .one n => [n]
  | .list ns => ns.map (fun o => o.getD (-1))

/-- An index key and a size of the same form: both single, or lists of one length. -/
def SameForm : IndexKey → Size → Prop
  | .one _, .one _ => True
  | .list ks, .list ns => ks.length = ns.length
  | _, _ => False

/-- A partition that a schema can express. -/
def Partition.Supported : Partition → Prop
  | .other _ => False
  | _ => True

/-- A spec that can be converted. -/
def Spec.Supported : Spec → Prop
  | .fixedLen _ dtype default => dtype.Supported ∧ default = none
  | .varLen dtype => dtype.Supported
  | .sparse indexKey _ dtype size _ => dtype.Supported ∧ SameForm indexKey size
  | .ragged dtype _ partitions _ => dtype.Supported ∧ ∀ p ∈ partitions, p.Supported
  | .other _ => False

/-- A member of a feature spec that can be converted: its spec can, and its domain, if it has one,
is a domain. -/
def Convertible (domains : Domains) (item : String × Spec) : Prop :=
  item.2.Supported ∧ domains.lookup item.1 ≠ some none

/-- The keys of the row lengths. -/
def rowLengthKey : Partition → Option String
  | .rowLengths k => some k
  | _ => none

/-- The columns that a member of a feature spec reads. -/
def columns (item : String × Spec) : List String :=
  match item.2 with
  | .fixedLen _ _ _ => [item.1]
  | .varLen _ => [item.1]
  | .sparse indexKey valueKey _ _ _ => indexKey.keys ++ [valueKey]
  | .ragged _ valueKey partitions _ =>
    valueKeyOr valueKey item.1 :: partitions.filterMap rowLengthKey
  | .other _ => []

/-- A sparse spec. -/
def Spec.isSparse : Spec → Bool
  | .sparse _ _ _ _ _ => true
  | _ => false

/-- What comes back: the spec itself, with index keys and sizes in list form, the value key of a
ragged feature spelled out, and 64-bit row splits. -/
def recovered (item : String × Spec) : Spec :=
  match item.2 with
  | .sparse indexKey valueKey dtype size sorted =>
    .sparse (.list indexKey.keys) valueKey dtype (.list (size.sizes.map some)) sorted
  | .ragged dtype valueKey partitions _ =>
    .ragged dtype (some (valueKeyOr valueKey item.1)) partitions .int64
  | spec => spec

/-! ## What the conversion writes -/

/-- The feature type of a supported dtype. -/
def ftype : DType → FType
  | .int64 => .int
  | .float32 => .float
  | .string => .bytes
  | .other _ => .unknown

/-- The domain given for a name. -/
def givenDomain (domains : Domains) (name : String) : Option Domain := (domains.lookup name).join

/-- A value feature. -/
def valueFeature (domains : Domains) (f : Feature) (dtype : DType) (name : String) : Feature :=
  { f with type := ftype dtype, domainInfo := (givenDomain domains name).map .own }

/-- The index features of a sparse spec. -/
def indexCols : IndexKey → Size → List Feature
  | .list ks, .list ns => (ks.zip ns).map indexFeature
  | .one k, .one n =>
    [{ name := k, type := .int, domainInfo := some (.own (.int (some 0) (some (n - 1)) false)) }]
  | _, _ => []

/-- The feature of a row length. -/
def rowFeature (k : String) : Feature := { name := k, type := .int }

/-- The features written for a member. -/
def cols (domains : Domains) (item : String × Spec) : List Feature :=
  match item.2 with
  | .fixedLen shape dtype _ =>
    [valueFeature domains { name := item.1, minFraction := some 1, shape := some shape } dtype item.1]
  | .varLen dtype => [valueFeature domains { name := item.1 } dtype item.1]
  | .sparse indexKey valueKey dtype size _ =>
    indexCols indexKey size ++ [valueFeature domains { name := valueKey } dtype item.1]
  | .ragged dtype valueKey partitions _ =>
    valueFeature domains { name := valueKeyOr valueKey item.1 } dtype item.1 ::
      (partitions.filterMap rowLengthKey).map rowFeature
  | .other _ => []

/-- The sparse features written for a member. -/
def sparseOf (item : String × Spec) : List SparseFeature :=
  match item.2 with
  | .sparse indexKey valueKey _ _ sorted => [⟨item.1, sorted, indexKey.keys, valueKey⟩]
  | _ => []

/-- The partitions written. -/
def repPartition : Partition → Option RepPartition
  | .uniformRowLength n => some (.uniformRowLength n)
  | .rowLengths k => some (.rowLength k)
  | .other _ => none

/-- The representations written for a member. -/
def repsOf (item : String × Spec) : List (String × Rep) :=
  match item.2 with
  | .ragged _ valueKey partitions _ =>
    [(item.1, .ragged (valueKeyOr valueKey item.1) (partitions.filterMap repPartition))]
  | _ => []

theorem setTypeAndDomain_ok (domains : Domains) (f : Feature) (dtype : DType) (name : String)
    (hf : f.domainInfo = none) (hd : dtype.Supported) (hdom : domains.lookup name ≠ some none) :
    setTypeAndDomain f dtype name domains = .ok (valueFeature domains f dtype name) := by
  unfold setTypeAndDomain valueFeature givenDomain
  cases hl : domains.lookup name with
  | none => cases dtype <;> simp_all [setType, setDomain, ftype, bind, Except.bind, DType.Supported]
  | some o =>
    cases o with
    | none => exact absurd hl hdom
    | some d =>
      cases dtype <;> simp_all [setType, setDomain, ftype, bind, Except.bind, DType.Supported]

theorem setTypeAndDomain_error (domains : Domains) (f : Feature) (dtype : DType) (name : String)
    (h : ¬(dtype.Supported ∧ domains.lookup name ≠ some none)) :
    ∃ e, setTypeAndDomain f dtype name domains = .error e := by
  unfold setTypeAndDomain
  cases dtype with
  | other n => exact ⟨_, rfl⟩
  | _ =>
    have hl : domains.lookup name = some none := by
      by_contra hne; exact h ⟨trivial, hne⟩
    rw [hl]; exact ⟨_, rfl⟩

theorem partitions_ok (ps : List Partition) (h : ∀ p ∈ ps, p.Supported) :
    partitionsFromSpec ps
      = .ok ((ps.filterMap rowLengthKey).map rowFeature, ps.filterMap repPartition) := by
  induction ps with
  | nil => rfl
  | cons p ps ih =>
    have ih := ih (fun q hq => h q (by simp [hq]))
    cases p with
    | uniformRowLength n =>
      simp [partitionsFromSpec, ih, rowLengthKey, repPartition, bind, Except.bind, pure, Except.pure,
        List.filterMap_cons]
    | rowLengths k =>
      simp [partitionsFromSpec, ih, rowLengthKey, repPartition, bind, Except.bind, pure, Except.pure,
        rowFeature]
    | other k => exact absurd (h (.other k) (by simp)) (by simp [Partition.Supported])

theorem partitions_error (ps : List Partition) (h : ¬∀ p ∈ ps, p.Supported) :
    ∃ e, partitionsFromSpec ps = .error e := by
  induction ps with
  | nil => exact absurd (by simp) h
  | cons p ps ih =>
    cases p with
    | other k => exact ⟨_, rfl⟩
    | uniformRowLength n =>
      obtain ⟨e, he⟩ := ih (by
        intro hh; apply h; intro q hq
        rcases List.mem_cons.1 hq with rfl | hq
        · trivial
        · exact hh q hq)
      exact ⟨e, by simp [partitionsFromSpec, he, bind, Except.bind]⟩
    | rowLengths k =>
      obtain ⟨e, he⟩ := ih (by
        intro hh; apply h; intro q hq
        rcases List.mem_cons.1 hq with rfl | hq
        · trivial
        · exact hh q hq)
      exact ⟨e, by simp [partitionsFromSpec, he, bind, Except.bind]⟩

theorem indexFeatures_ok (k : IndexKey) (n : Size) (h : SameForm k n) :
    indexFeatures k n = .ok (indexCols k n, k.keys) := by
  cases k <;> cases n <;> simp_all [SameForm, indexFeatures, indexCols, IndexKey.keys]

theorem indexFeatures_error (k : IndexKey) (n : Size) (h : ¬SameForm k n) :
    ∃ e, indexFeatures k n = .error e := by
  cases k <;> cases n <;> simp_all [SameForm, indexFeatures]

theorem addSpec_ok (domains : Domains) (s : Schema) (item : String × Spec)
    (h : Convertible domains item) :
    addSpec domains s item = .ok
      { s with
        features := s.features ++ cols domains item
        sparse := s.sparse ++ sparseOf item
        reps := s.reps ++ repsOf item } := by
  obtain ⟨name, spec⟩ := item
  obtain ⟨hs, hd⟩ := h
  simp only at hs hd
  cases spec with
  | fixedLen shape dtype default =>
    obtain ⟨h1, rfl⟩ := hs
    simp [addSpec, featureFromSpec, cols, sparseOf, repsOf,
      setTypeAndDomain_ok, h1, hd, bind, Except.bind, pure, Except.pure]
  | varLen dtype =>
    simp [addSpec, featureFromSpec, cols, sparseOf, repsOf,
      setTypeAndDomain_ok, show dtype.Supported from hs, hd, bind, Except.bind, pure, Except.pure]
  | sparse k v dtype n sorted =>
    simp [addSpec, sparseFromSpec, cols, sparseOf, repsOf, indexFeatures_ok k n hs.2,
      setTypeAndDomain_ok, hs.1, hd, bind, Except.bind, pure, Except.pure]
  | ragged dtype v ps r =>
    simp [addSpec, raggedFromSpec, cols, sparseOf, repsOf, partitions_ok ps hs.2,
      setTypeAndDomain_ok, hs.1, hd, bind, Except.bind, pure, Except.pure]
  | other t => exact absurd hs (by simp [Spec.Supported])

theorem addSpec_error (domains : Domains) (s : Schema) (item : String × Spec)
    (h : ¬Convertible domains item) : ∃ e, addSpec domains s item = .error e := by
  obtain ⟨name, spec⟩ := item
  unfold Convertible at h
  simp only at h
  cases spec with
  | fixedLen shape dtype default =>
    by_cases hdef : default = none
    · subst hdef
      obtain ⟨e, he⟩ := setTypeAndDomain_error domains
        { name := name, minFraction := some 1, shape := some shape } dtype name
        (fun hh => h ⟨⟨hh.1, rfl⟩, hh.2⟩)
      exact ⟨e, by simp [addSpec, featureFromSpec, he, bind, Except.bind]⟩
    · exact ⟨_, by simp [addSpec, featureFromSpec, hdef, bind, Except.bind]; rfl⟩
  | varLen dtype =>
    obtain ⟨e, he⟩ := setTypeAndDomain_error domains { name := name } dtype name h
    exact ⟨e, by simp [addSpec, featureFromSpec, he, bind, Except.bind]⟩
  | sparse k v dtype n sorted =>
    by_cases hf : SameForm k n
    · obtain ⟨e, he⟩ := setTypeAndDomain_error domains { name := v } dtype name
        (fun hh => h ⟨⟨hh.1, hf⟩, hh.2⟩)
      exact ⟨e, by simp [addSpec, sparseFromSpec, indexFeatures_ok k n hf, he, bind, Except.bind]⟩
    · obtain ⟨e, he⟩ := indexFeatures_error k n hf
      exact ⟨e, by simp [addSpec, sparseFromSpec, he, bind, Except.bind]⟩
  | ragged dtype v ps r =>
    by_cases hf : dtype.Supported ∧ domains.lookup name ≠ some none
    · obtain ⟨e, he⟩ := partitions_error ps (fun hh => h ⟨⟨hf.1, hh⟩, hf.2⟩)
      exact ⟨e, by simp [addSpec, raggedFromSpec,
        setTypeAndDomain_ok, hf.1, hf.2, he, bind, Except.bind]⟩
    · obtain ⟨e, he⟩ := setTypeAndDomain_error domains { name := valueKeyOr v name } dtype name hf
      exact ⟨e, by simp [addSpec, raggedFromSpec, he, bind, Except.bind]⟩
  | other t => exact ⟨_, rfl⟩

theorem fold_ok (domains : Domains) (items : List (String × Spec)) (s : Schema)
    (h : ∀ i ∈ items, Convertible domains i) :
    items.foldlM (addSpec domains) s = .ok
      { s with
        features := s.features ++ items.flatMap (cols domains)
        sparse := s.sparse ++ items.flatMap sparseOf
        reps := s.reps ++ items.flatMap repsOf } := by
  induction items generalizing s with
  | nil => simp [pure, Except.pure]
  | cons i is ih =>
    rw [List.foldlM_cons, addSpec_ok domains s i (h i (by simp))]
    have := ih { s with
        features := s.features ++ cols domains i
        sparse := s.sparse ++ sparseOf i
        reps := s.reps ++ repsOf i } (fun j hj => h j (by simp [hj]))
    simp only [bind, Except.bind]
    rw [this]
    simp [List.append_assoc]

theorem fold_error (domains : Domains) (items : List (String × Spec)) (s : Schema)
    (h : ¬∀ i ∈ items, Convertible domains i) :
    ∃ e, items.foldlM (addSpec domains) s = .error e := by
  induction items generalizing s with
  | nil => exact absurd (by simp) h
  | cons i is ih =>
    rw [List.foldlM_cons]
    by_cases hi : Convertible domains i
    · rw [addSpec_ok domains s i hi]
      exact ih _ (fun hh => h (by
        intro j hj
        rcases List.mem_cons.1 hj with rfl | hj
        · exact hi
        · exact hh j hj))
    · obtain ⟨e, he⟩ := addSpec_error domains s i hi
      exact ⟨e, by rw [he]; rfl⟩

/-- **C45, rejection** A feature spec is converted exactly if every member can be: dtypes int64,
float32 or string, no default value, index keys and sizes of one form, partitions by row lengths or a
uniform row length, and a domain that is a domain. -/
theorem conversion_succeeds_iff (spec : List (String × Spec)) (domains : Domains) :
    (∃ s, schemaFromFeatureSpec spec domains = .ok s) ↔ ∀ i ∈ spec, Convertible domains i := by
  have hmem : ∀ i, i ∈ spec.insertionSort (fun a b => a.1 ≤ b.1) ↔ i ∈ spec := by simp
  unfold schemaFromFeatureSpec
  constructor
  · rintro ⟨s, hs⟩
    by_contra h
    obtain ⟨e, he⟩ := fold_error domains (spec.insertionSort (fun a b => a.1 ≤ b.1)) {}
      (fun hh => h (fun i hi => hh i ((hmem i).2 hi)))
    rw [he] at hs; cases hs
  · intro h
    exact ⟨_, fold_ok domains _ {} (fun i hi => h i ((hmem i).1 hi))⟩

/-! ## What reading gives back -/

theorem cols_names (domains : Domains) (item : String × Spec) (h : item.2.Supported) :
    (cols domains item).map Feature.name = columns item := by
  obtain ⟨name, spec⟩ := item
  cases spec with
  | sparse k v dtype n sorted =>
    cases k <;> cases n <;>
      simp_all [cols, columns, valueFeature, indexCols, IndexKey.keys, Spec.Supported, SameForm]
    rename_i ks ns
    have hk : (Feature.name ∘ indexFeature) = (Prod.fst : String × Option Int → String) := rfl
    rw [hk]
    exact List.map_fst_zip (by omega)
  | ragged dtype v ps r =>
    have hk : (Feature.name ∘ rowFeature) = id := rfl
    simp [cols, columns, valueFeature, hk]
  | _ => simp [cols, columns, valueFeature]

theorem cols_present (domains : Domains) (item : String × Spec) :
    ∀ f ∈ cols domains item, f.deprecated = false := by
  obtain ⟨name, spec⟩ := item
  intro f hf
  cases spec with
  | sparse k v dtype n sorted =>
    cases k <;> cases n <;> simp [cols, valueFeature, indexCols] at hf
    · rcases hf with rfl | rfl <;> rfl
    · subst hf; rfl
    · subst hf; rfl
    · rcases hf with ⟨_, _, _, rfl⟩ | rfl <;> rfl
  | ragged dtype v ps r =>
    simp [cols, valueFeature] at hf
    rcases hf with rfl | ⟨_, _, rfl⟩ <;> rfl
  | _ => simp [cols, valueFeature] at hf <;> subst hf <;> rfl

theorem insertFeature_new (f : Feature) (d : List Feature) (h : f.name ∉ d.map Feature.name) :
    insertFeature f d = d ++ [f] := by
  induction d with
  | nil => rfl
  | cons g gs ih =>
    simp only [List.map_cons, List.mem_cons, not_or] at h
    simp [insertFeature, Ne.symm h.1, ih h.2]

theorem byName_nodup (fs : List Feature) (h : (fs.map Feature.name).Nodup) : byName fs = fs := by
  have key : ∀ (fs acc : List Feature), ((acc ++ fs).map Feature.name).Nodup →
      fs.foldl (fun d f => insertFeature f d) acc = acc ++ fs := by
    intro fs
    induction fs with
    | nil => intro acc _; simp
    | cons f fs ih =>
      intro acc hn
      rw [List.foldl_cons, insertFeature_new, ih]
      · simp
      · simpa using hn
      · intro hm
        rw [List.map_append, List.nodup_append] at hn
        exact hn.2.2 _ hm _ (by simp) rfl
  have := key fs [] (by simpa using h)
  rwa [List.nil_append] at this

theorem find_nodup (fs : List Feature) (h : (fs.map Feature.name).Nodup) (f : Feature) (hf : f ∈ fs) :
    fs.find? (fun g => g.name = f.name) = some f := by
  induction fs with
  | nil => cases hf
  | cons g gs ih =>
    simp only [List.map_cons, List.nodup_cons] at h
    rcases List.mem_cons.1 hf with rfl | hf
    · simp
    · have hne : g.name ≠ f.name := fun e => h.1 (e ▸ List.mem_map_of_mem hf)
      simp [hne, ih h.2 hf]

theorem filter_names_nodup (fs : List Feature) (p : Feature → Bool) (h : (fs.map Feature.name).Nodup) :
    ((fs.filter p).map Feature.name).Nodup :=
  h.sublist (List.filter_sublist.map _)

theorem pop_ok (d : List Feature) (h : (d.map Feature.name).Nodup) (f : Feature) (hf : f ∈ d) :
    pop d f.name = .ok (f, d.filter (fun g => g.name ≠ f.name)) := by
  unfold pop
  rw [find_nodup d h f hf]

theorem popIndex_ok (fs : List Feature) (dims : List Int) (d : List Feature)
    (hd : (d.map Feature.name).Nodup) (hn : (fs.map Feature.name).Nodup) (hsub : ∀ f ∈ fs, f ∈ d)
    (hdim : fs.map dimension = dims.map Except.ok) :
    popIndex (fs.map Feature.name) d
      = .ok (dims, d.filter (fun g => g.name ∉ fs.map Feature.name)) := by
  induction fs generalizing d dims with
  | nil =>
    cases dims with
    | nil => simp [popIndex]
    | cons _ _ => simp at hdim
  | cons f fs ih =>
    cases dims with
    | nil => simp at hdim
    | cons n dims =>
      simp only [List.map_cons, List.cons.injEq, List.nodup_cons] at hdim hn
      simp only [List.map_cons, popIndex, pop_ok d hd f (hsub f (by simp)), bind, Except.bind, hdim.1]
      rw [ih dims _ (filter_names_nodup d _ hd) hn.2 _ hdim.2]
      · simp only [pure, Except.pure, List.filter_filter, Except.ok.injEq, Prod.mk.injEq, true_and]
        apply List.filter_congr
        intro g _
        rw [Bool.eq_iff_iff]
        simp only [Bool.and_eq_true, decide_eq_true_eq, List.mem_cons]
        tauto
      · intro g hg
        rw [List.mem_filter]
        refine ⟨hsub g (by simp [hg]), ?_⟩
        have : g.name ≠ f.name := fun e => hn.1 (e ▸ List.mem_map_of_mem hg)
        exact decide_eq_true this

theorem indexCols_dims (k : IndexKey) (n : Size) (h : SameForm k n) :
    (indexCols k n).map dimension = n.sizes.map Except.ok := by
  cases k with
  | one k =>
    cases n with
    | one n => simp [indexCols, dimension, Size.sizes]
    | list ns => cases h
  | list ks =>
    cases n with
    | one n => cases h
    | list ns =>
      simp only [SameForm] at h
      simp only [indexCols, Size.sizes]
      induction ks generalizing ns with
      | nil => cases ns <;> simp_all
      | cons k ks ih =>
        cases ns with
        | nil => simp at h
        | cons o ns =>
          simp only [List.zip_cons_cons, List.map_cons, List.cons.injEq]
          refine ⟨?_, ih ns (by simpa using h)⟩
          cases o with
          | none => rfl
          | some s =>
            simp only [indexFeature, indexDomain]
            by_cases hs : s = -1
            · subst hs; rfl
            · simp [hs, dimension]

/-- The representation of a member. -/
def repOf (item : String × Spec) : Rep :=
  match item.2 with
  | .fixedLen shape _ _ => .dense item.1 shape
  | .varLen _ => .varLen item.1
  | .sparse indexKey valueKey _ size sorted => .sparse size.sizes indexKey.keys valueKey sorted
  | .ragged _ valueKey partitions _ =>
    .ragged (valueKeyOr valueKey item.1) (partitions.filterMap repPartition)
  | .other _ => .varLen item.1

/-- A member with its representation. -/
def entry (item : String × Spec) : String × Rep := (item.1, repOf item)

/-- A ragged spec. -/
def Spec.isRagged : Spec → Bool
  | .ragged _ _ _ _ => true
  | _ => false

/-- Membership of columns in an item. -/
def isSp (item : String × Spec) : Bool := item.2.isSparse
/-- See `isSp`. -/
def isRg (item : String × Spec) : Bool := item.2.isRagged

theorem inferSparse_ok (domains : Domains) (name : String) (k : IndexKey) (v : String) (dt : DType)
    (n : Size) (b : Bool) (hs : (Spec.sparse k v dt n b).Supported) (d : List Feature)
    (hd : (d.map Feature.name).Nodup) (hsub : ∀ f ∈ cols domains (name, .sparse k v dt n b), f ∈ d)
    (hcol : (columns (name, .sparse k v dt n b)).Nodup) (hno : name ∉ d.map Feature.name) :
    inferSparse ⟨name, b, k.keys, v⟩ d = .ok (repOf (name, .sparse k v dt n b),
      d.filter (fun g => g.name ∉ columns (name, .sparse k v dt n b))) := by
  have hnames := cols_names domains (name, .sparse k v dt n b) hs
  have hkeys : (indexCols k n).map Feature.name = k.keys := by
    have : (indexCols k n).map Feature.name ++ [v] = k.keys ++ [v] := by
      simpa [cols, columns, valueFeature] using hnames
    exact List.append_cancel_right this
  have hany : d.any (fun f => f.name = name) = false := by
    rw [List.any_eq_false]
    intro f hf
    have : f.name ≠ name := fun e => hno (e ▸ List.mem_map_of_mem hf)
    simpa using this
  simp only [columns, List.nodup_append] at hcol
  unfold inferSparse
  simp only [hany, Bool.false_eq_true, if_false]
  have hp := popIndex_ok (indexCols k n) n.sizes d hd (by rw [hkeys]; exact hcol.1)
    (fun f hf => hsub f (by simp [cols, hf])) (indexCols_dims k n hs.2)
  rw [hkeys] at hp
  rw [hp]
  have hv : valueFeature domains { name := v } dt name ∈ d.filter (fun g => g.name ∉ k.keys) := by
    rw [List.mem_filter]
    refine ⟨hsub _ (by simp [cols]), ?_⟩
    have : v ∉ k.keys := fun hm => hcol.2.2 v hm v (by simp) rfl
    exact decide_eq_true this
  have hpop := pop_ok _ (filter_names_nodup d (fun g => g.name ∉ k.keys) hd) _ hv
  simp only [bind, Except.bind]
  have hvn : (valueFeature domains { name := v } dt name).name = v := rfl
  rw [hvn] at hpop
  rw [hpop]
  simp only [pure, Except.pure, repOf, columns, List.filter_filter, Except.ok.injEq, Prod.mk.injEq,
    true_and]
  apply List.filter_congr
  intro g _
  rw [Bool.eq_iff_iff]
  simp only [Bool.and_eq_true, decide_eq_true_eq, List.mem_append, List.mem_singleton]
  tauto

theorem inferSparseAll_ok (domains : Domains) (items : List (String × Spec)) (d : List Feature)
    (hs : ∀ i ∈ items, i.2.Supported)
    (hd : (d.map Feature.name).Nodup) (hsub : ∀ i ∈ items, isSp i → ∀ f ∈ cols domains i, f ∈ d)
    (hcol : (items.flatMap columns).Nodup) (hno : ∀ i ∈ items, isSp i → i.1 ∉ d.map Feature.name) :
    inferSparseAll (items.flatMap sparseOf) d = .ok ((items.filter isSp).map entry,
      d.filter (fun g => g.name ∉ (items.filter isSp).flatMap columns)) := by
  induction items generalizing d with
  | nil => simp [inferSparseAll]
  | cons i is ih =>
    have hs' : ∀ i ∈ is, i.2.Supported := fun j hj => hs j (by simp [hj])
    rw [List.flatMap_cons, List.nodup_append] at hcol
    by_cases hi : isSp i
    · obtain ⟨name, spec⟩ := i
      cases spec with
      | sparse k v dt n b =>
        have h1 := inferSparse_ok domains name k v dt n b (hs _ List.mem_cons_self) d hd
          (hsub _ List.mem_cons_self hi) hcol.1 (hno _ List.mem_cons_self hi)
        have hflat : (List.flatMap sparseOf ((name, Spec.sparse k v dt n b) :: is))
            = ⟨name, b, k.keys, v⟩ :: is.flatMap sparseOf := rfl
        rw [hflat]
        simp only [inferSparseAll, h1, bind, Except.bind]
        rw [ih _ hs' (filter_names_nodup d _ hd) _ hcol.2.1]
        · simp only [pure, Except.pure, List.filter_cons, hi, if_true, List.map_cons,
            List.flatMap_cons, List.filter_filter, Except.ok.injEq, Prod.mk.injEq]
          refine ⟨rfl, ?_⟩
          apply List.filter_congr
          intro g _
          rw [Bool.eq_iff_iff]
          simp only [Bool.and_eq_true, decide_eq_true_eq, List.mem_append]
          tauto
        · intro j hj
          have := hno j (by simp [hj])
          intro hsp hm
          exact this hsp (List.Sublist.subset (List.filter_sublist.map _) hm)
        · intro j hj hsp f hf
          rw [List.mem_filter]
          refine ⟨hsub j (by simp [hj]) hsp f hf, ?_⟩
          have hfn : f.name ∈ is.flatMap columns := by
            rw [List.mem_flatMap]
            exact ⟨j, hj, by rw [← cols_names domains j (hs' j hj)]; exact List.mem_map_of_mem hf⟩
          have : f.name ∉ columns (name, Spec.sparse k v dt n b) :=
            fun hm => hcol.2.2 _ hm _ hfn rfl
          exact decide_eq_true this
      | _ => simp [isSp, Spec.isSparse] at hi
    · have hnil : sparseOf i = [] := by
        obtain ⟨name, spec⟩ := i
        cases spec with
        | sparse _ _ _ _ _ => exact absurd rfl hi
        | _ => rfl
      rw [List.flatMap_cons, hnil, List.nil_append,
        ih d hs' hd (fun j hj => hsub j (by simp [hj])) hcol.2.1 (fun j hj => hno j (by simp [hj]))]
      have hf : (i :: is).filter isSp = is.filter isSp := List.filter_cons_of_neg hi
      rw [hf]

theorem sublist_flatMap {α β : Type} {l l' : List α} (f : α → List β) (h : List.Sublist l l') :
    List.Sublist (l.flatMap f) (l'.flatMap f) := by
  induction h with
  | slnil => exact List.Sublist.slnil
  | cons a _ ih =>
    rw [List.flatMap_cons]
    exact ih.trans (List.sublist_append_right _ _)
  | cons_cons a _ ih =>
    rw [List.flatMap_cons, List.flatMap_cons]
    exact ih.append_left _

/-- Taking the columns of some members away leaves those of the others. -/
theorem filter_columns (domains : Domains) (items : List (String × Spec)) (p : String × Spec → Bool)
    (hs : ∀ i ∈ items, i.2.Supported) (hcol : (items.flatMap columns).Nodup) :
    (items.flatMap (cols domains)).filter (fun g => g.name ∉ (items.filter p).flatMap columns)
      = (items.filter (fun i => !p i)).flatMap (cols domains) := by
  have key : ∀ (pre items : List (String × Spec)), (∀ i ∈ pre ++ items, i.2.Supported) →
      ((pre ++ items).flatMap columns).Nodup →
      (items.flatMap (cols domains)).filter
        (fun g => g.name ∉ ((pre ++ items).filter p).flatMap columns)
      = (items.filter (fun i => !p i)).flatMap (cols domains) := by
    intro pre items
    induction items generalizing pre with
    | nil => intro _ _; simp
    | cons i is ih =>
      intro hs hn
      have ih := ih (pre ++ [i]) (by simpa using hs) (by simpa using hn)
      simp only [List.append_assoc, List.singleton_append] at ih
      rw [List.flatMap_cons, List.filter_append, ih]
      have hnames : ∀ f ∈ cols domains i, f.name ∈ columns i := fun f hf => by
        rw [← cols_names domains i (hs i (by simp))]; exact List.mem_map_of_mem hf
      by_cases hp : p i
      · have : (cols domains i).filter
            (fun g => g.name ∉ ((pre ++ i :: is).filter p).flatMap columns) = [] := by
          rw [List.filter_eq_nil_iff]
          intro f hf
          have : f.name ∈ ((pre ++ i :: is).filter p).flatMap columns := by
            rw [List.mem_flatMap]
            exact ⟨i, by simp [hp], hnames f hf⟩
          exact fun hd => (of_decide_eq_true hd) this
        rw [this]
        simp [hp]
      · have : (cols domains i).filter
            (fun g => g.name ∉ ((pre ++ i :: is).filter p).flatMap columns) = cols domains i := by
          rw [List.filter_eq_self]
          intro f hf
          have : f.name ∉ ((pre ++ i :: is).filter p).flatMap columns := by
            intro hm
            rw [List.mem_flatMap] at hm
            obtain ⟨j, hj, hfj⟩ := hm
            rw [List.mem_filter] at hj
            simp only [List.flatMap_append, List.flatMap_cons] at hn
            have hfi := hnames f hf
            rcases List.mem_append.1 hj.1 with hj1 | hj1
            · rw [List.nodup_append] at hn
              exact hn.2.2 _ (List.mem_flatMap.2 ⟨j, hj1, hfj⟩) _ (by simp [hfi]) rfl
            · rcases List.mem_cons.1 hj1 with rfl | hj1
              · exact hp hj.2
              · have hn2 := (List.nodup_append.1 hn).2.1
                exact (List.nodup_append.1 hn2).2.2 _ hfi _ (List.mem_flatMap.2 ⟨j, hj1, hfj⟩) rfl
          exact decide_eq_true this
        rw [this]
        simp [hp]
  simpa using key [] items (by simpa using hs) (by simpa using hcol)

theorem consumed_eq (items : List (String × Spec)) (hs : ∀ i ∈ items, i.2.Supported) :
    (items.flatMap repsOf).flatMap (fun r => sourceColumns r.2)
      = (items.filter isRg).flatMap columns ∧
    items.flatMap repsOf = (items.filter isRg).map entry := by
  induction items with
  | nil => exact ⟨rfl, rfl⟩
  | cons i is ih =>
    have ih := ih (fun j hj => hs j (by simp [hj]))
    obtain ⟨name, spec⟩ := i
    cases spec with
    | ragged dt v ps r =>
      have hpc : ∀ ps : List Partition,
          partitionColumns (ps.filterMap repPartition) = ps.filterMap rowLengthKey := by
        intro ps
        induction ps with
        | nil => rfl
        | cons p ps ih =>
          cases p <;> simp [List.filterMap_cons, repPartition, rowLengthKey, partitionColumns, ih]
      constructor
      · have h0 : ((name, Spec.ragged dt v ps r) :: is).filter isRg
            = (name, Spec.ragged dt v ps r) :: is.filter isRg := rfl
        rw [h0, List.flatMap_cons, List.flatMap_append, List.flatMap_cons, ih.1]
        simp [repsOf, sourceColumns, columns, hpc]
      · have h0 : ((name, Spec.ragged dt v ps r) :: is).filter isRg
            = (name, Spec.ragged dt v ps r) :: is.filter isRg := rfl
        rw [h0, List.flatMap_cons, ih.2]
        rfl
    | _ =>
      exact ih

theorem infer_plain (domains : Domains) (items : List (String × Spec))
    (hs : ∀ i ∈ items, i.2.Supported) (hp : ∀ i ∈ items, isSp i = false ∧ isRg i = false) :
    ((items.flatMap (cols domains)).filter (fun f => !f.deprecated)).mapM (inferFeature false)
      = .ok (items.map entry) := by
  induction items with
  | nil => rfl
  | cons i is ih =>
    have ih := ih (fun j hj => hs j (by simp [hj])) (fun j hj => hp j (by simp [hj]))
    have hsi := hs i (by simp)
    have hpi := hp i (by simp)
    obtain ⟨name, spec⟩ := i
    rw [List.flatMap_cons, List.filter_append, List.mapM_append, ih]
    cases spec with
    | sparse _ _ _ _ _ => simp [isSp, Spec.isSparse] at hpi
    | ragged _ _ _ _ => simp [isRg, Spec.isRagged] at hpi
    | other _ => exact absurd hsi (by simp [Spec.Supported])
    | fixedLen shape dt df =>
      simp [cols, valueFeature, inferFeature, entry, repOf, bind, Except.bind, pure, Except.pure]
    | varLen dt =>
      simp [cols, valueFeature, inferFeature, entry, repOf, bind, Except.bind, pure, Except.pure]

theorem dtypeOf_ftype (dt : DType) (h : dt.Supported) : dtypeOf (ftype dt) = .ok dt := by
  cases dt with
  | other _ => exact h.elim
  | _ => rfl

/-- The value feature of a member. -/
theorem value_col (domains : Domains) (item : String × Spec) (h : item.2.Supported) :
    ∃ f dt, f ∈ cols domains item ∧ f.name = valueColumn (repOf item) ∧
      f.type = ftype dt ∧ dt.Supported ∧
      f.domainInfo = (givenDomain domains item.1).map DomainInfo.own ∧
      parserConfig (repOf item) (ftype dt) = .ok (recovered item) := by
  obtain ⟨name, spec⟩ := item
  cases spec with
  | fixedLen shape dt df =>
    obtain ⟨h1, rfl⟩ := h
    exact ⟨_, dt, List.mem_singleton.2 rfl, rfl, rfl, h1, rfl, by
      simp [parserConfig, dtypeOf_ftype dt h1, repOf, recovered, bind, Except.bind, pure, Except.pure]⟩
  | varLen dt =>
    exact ⟨_, dt, List.mem_singleton.2 rfl, rfl, rfl, h, rfl, by
      simp [parserConfig, dtypeOf_ftype dt h, repOf, recovered, bind, Except.bind, pure, Except.pure]⟩
  | sparse k v dt n b =>
    exact ⟨_, dt, List.mem_append.2 (Or.inr (List.mem_singleton.2 rfl)), rfl, rfl, h.1, rfl, by
      simp [parserConfig, dtypeOf_ftype dt h.1, repOf, recovered, bind, Except.bind, pure,
        Except.pure]⟩
  | ragged dt v ps r =>
    refine ⟨_, dt, List.mem_cons.2 (Or.inl rfl), rfl, rfl, h.1, rfl, ?_⟩
    have hps : (ps.filterMap repPartition).map partitionOf = ps := by
      have h2 := h.2
      clear h
      induction ps with
      | nil => rfl
      | cons p ps ih =>
        have := ih (fun q hq => h2 q (by simp [hq]))
        cases p with
        | other k => exact absurd (h2 (.other k) (by simp)) (by simp [Partition.Supported])
        | _ => simp [repPartition, partitionOf, this]
    simp [parserConfig, dtypeOf_ftype dt h.1, repOf, recovered, bind, Except.bind, pure, Except.pure,
      hps]
  | other _ => exact h.elim

theorem mapM_ok {α β : Type} (f : α → Except Err β) (g : α → β) (l : List α)
    (h : ∀ a ∈ l, f a = .ok (g a)) : l.mapM f = .ok (l.map g) := by
  induction l with
  | nil => rfl
  | cons a as ih =>
    rw [List.mapM_cons, h a (by simp), ih (fun b hb => h b (by simp [hb]))]
    rfl

theorem perm_three (items : List (String × Spec)) :
    (items.filter isSp ++ (items.filter (fun i => !isRg i)).filter (fun i => !isSp i)
      ++ items.filter isRg).Perm items := by
  have h1 : items.filter isSp = (items.filter (fun i => !isRg i)).filter isSp := by
    rw [List.filter_filter]
    apply List.filter_congr
    rintro ⟨name, spec⟩ _
    cases spec <;> rfl
  have h2 : (items.filter isSp ++ (items.filter (fun i => !isRg i)).filter (fun i => !isSp i)).Perm
      (items.filter (fun i => !isRg i)) := by
    rw [h1]; exact List.filter_append_perm _ _
  exact (h2.append_right _).trans
    (List.perm_append_comm.trans (List.filter_append_perm isRg items))

theorem lookup_iff {α : Type} (l : List (String × α)) (h : (l.map Prod.fst).Nodup) (k : String)
    (a : α) : l.lookup k = some a ↔ (k, a) ∈ l := by
  induction l with
  | nil => simp
  | cons x xs ih =>
    obtain ⟨k', a'⟩ := x
    simp only [List.map_cons, List.nodup_cons] at h
    by_cases hk : k = k'
    · subst hk
      have : (k, a) ∉ xs := fun hm => h.1 (List.mem_map_of_mem (f := Prod.fst) hm)
      simp [List.lookup, this, eq_comm]
    · have hb : (k == k') = false := by simpa using hk
      simp [List.lookup, hb, ih h.2, hk]

theorem get_iff {α : Type} (l : List (String × α)) (h : (l.map Prod.fst).Nodup) (k : String)
    (a : α) : get l k = some a ↔ (k, a) ∈ l := by
  unfold get
  rw [lookup_iff _ (by rw [List.map_reverse]; exact List.nodup_reverse.2 h)]
  simp

/-- **C45, round trip** Reading the schema made from a feature spec gives back, under every name, the
spec of that name in its normal form and the domain that was given for it, and nothing else. The
members must be convertible, no two members (or parts of one) may read the same column, and the name
of a sparse feature must not be that of a column. -/
theorem feature_spec_round_trip_partial (spec : List (String × Spec)) (domains : Domains)
    (hkeys : (spec.map Prod.fst).Nodup) (hconv : ∀ i ∈ spec, Convertible domains i)
    (hcols : (spec.flatMap columns).Nodup)
    (hsparse : ∀ i ∈ spec, i.2.isSparse → i.1 ∉ spec.flatMap columns) :
    ∃ s r, schemaFromFeatureSpec spec domains = .ok s ∧ schemaAsFeatureSpec s = .ok r ∧
      (∀ name, get r.1 name = (spec.lookup name).map (fun sp => recovered (name, sp))) ∧
      (∀ name, get r.2 name = if name ∈ spec.map Prod.fst then givenDomain domains name
        else none) := by
  set items := spec.insertionSort (fun a b => a.1 ≤ b.1) with hitems
  have hperm : items.Perm spec := List.perm_insertionSort _ spec
  have hc : ∀ i ∈ items, Convertible domains i := fun i hi => hconv i (hperm.mem_iff.1 hi)
  have hs : ∀ i ∈ items, i.2.Supported := fun i hi => (hc i hi).1
  have hcol : (items.flatMap columns).Nodup :=
    (hperm.flatMap_right columns).nodup_iff.2 hcols
  have hF : ((items.flatMap (cols domains)).map Feature.name) = items.flatMap columns := by
    clear_value items
    clear hitems hperm hc hcol
    induction items with
    | nil => rfl
    | cons i is ih =>
      rw [List.flatMap_cons, List.map_append, List.flatMap_cons,
        cols_names domains i (hs i (by simp)), ih (fun j hj => hs j (by simp [hj]))]
  have hFn : ((items.flatMap (cols domains)).map Feature.name).Nodup := by rw [hF]; exact hcol
  have hno : ∀ i ∈ items, isSp i → i.1 ∉ items.flatMap columns := by
    intro i hi hsp hm
    exact hsparse i (hperm.mem_iff.1 hi) hsp ((hperm.flatMap_right columns).mem_iff.1 hm)
  let s : Schema :=
    { features := items.flatMap (cols domains)
      sparse := items.flatMap sparseOf
      reps := items.flatMap repsOf }
  have hfwd : schemaFromFeatureSpec spec domains = .ok s := by
    have := fold_ok domains items {} hc
    simpa [schemaFromFeatureSpec, s] using this
  -- reading
  have hL1 : ∀ i ∈ items.filter (fun i => !isRg i), i.2.Supported :=
    fun i hi => hs i (List.mem_of_mem_filter hi)
  have hL1c : ((items.filter (fun i => !isRg i)).flatMap columns).Nodup := by
    refine hcol.sublist ?_
    exact sublist_flatMap _ List.filter_sublist
  have hsp1 : (items.filter (fun i => !isRg i)).filter isSp = items.filter isSp := by
    rw [List.filter_filter]
    apply List.filter_congr
    rintro ⟨name, spec⟩ _
    cases spec <;> rfl
  have hrem : (byName s.features).filter
      (fun f => f.name ∉ s.reps.flatMap (fun r => sourceColumns r.2))
      = (items.filter (fun i => !isRg i)).flatMap (cols domains) := by
    rw [show s.features = items.flatMap (cols domains) from rfl, byName_nodup _ hFn,
      show s.reps = items.flatMap repsOf from rfl, (consumed_eq items hs).1]
    exact filter_columns domains items isRg hs hcol
  have hspa : inferSparseAll (items.flatMap sparseOf)
      ((items.filter (fun i => !isRg i)).flatMap (cols domains))
      = .ok ((items.filter isSp).map entry,
        ((items.filter (fun i => !isRg i)).filter (fun i => !isSp i)).flatMap (cols domains)) := by
    have hsub1 : List.Sublist ((items.filter (fun i => !isRg i)).flatMap (cols domains))
        (items.flatMap (cols domains)) := sublist_flatMap _ List.filter_sublist
    rw [inferSparseAll_ok domains items _ hs (hFn.sublist (hsub1.map _)) _ hcol,
      ← hsp1, filter_columns domains _ isSp hL1 hL1c]
    · intro i hi hsp hm
      refine hno i hi hsp ?_
      rw [← hF]
      exact (hsub1.map _).subset hm
    · intro i hi hsp f hf
      refine List.mem_flatMap.2 ⟨i, List.mem_filter.2 ⟨hi, ?_⟩, hf⟩
      obtain ⟨name, sp⟩ := i
      cases sp <;> simp_all [isSp, isRg, Spec.isSparse, Spec.isRagged]
  have hinfer : inferMixed s = .ok ((items.filter isSp
      ++ (items.filter (fun i => !isRg i)).filter (fun i => !isSp i)
      ++ items.filter isRg).map entry) := by
    have hdef : inferMixed s = (do
      let sp ← inferSparseAll s.sparse ((byName s.features).filter
        (fun f => f.name ∉ s.reps.flatMap (fun r => sourceColumns r.2)))
      let rest ← (sp.2.filter (fun f => !f.deprecated)).mapM (inferFeature s.representRagged)
      return sp.1 ++ rest ++ s.reps) := rfl
    rw [hdef, hrem, show s.sparse = items.flatMap sparseOf from rfl, hspa]
    have hplain := infer_plain domains
      ((items.filter (fun i => !isRg i)).filter (fun i => !isSp i))
      (fun i hi => hL1 i (List.mem_of_mem_filter hi)) (fun i hi => by
        have h1 := (List.mem_filter.1 hi).2
        have h2 := (List.mem_filter.1 (List.mem_filter.1 hi).1).2
        exact ⟨by simpa using h1, by simpa using h2⟩)
    simp only [bind, Except.bind]
    rw [show s.representRagged = false from rfl, hplain]
    simp only [pure, Except.pure, show s.reps = items.flatMap repsOf from rfl,
      (consumed_eq items hs).2, List.map_append]
  set M := items.filter isSp ++ (items.filter (fun i => !isRg i)).filter (fun i => !isSp i)
      ++ items.filter isRg with hM
  have hMp : M.Perm spec := (perm_three items).trans hperm
  have hread : (M.map entry).mapM (readRep s)
      = .ok (M.map (fun i => (i.1, recovered i, givenDomain domains i.1))) := by
    have : ∀ i ∈ M, readRep s (entry i) = .ok (i.1, recovered i, givenDomain domains i.1) := by
      intro i hi
      have hi' : i ∈ items := (perm_three items).mem_iff.1 hi
      obtain ⟨f, dt, hf, hfn, hft, hdt, hfd, hpc⟩ := value_col domains i (hs i hi')
      have hfind : (byName s.features).find? (fun g => g.name = valueColumn (entry i).2) = some f := by
        rw [show s.features = items.flatMap (cols domains) from rfl, byName_nodup _ hFn,
          show (entry i).2 = repOf i from rfl, ← hfn]
        exact find_nodup _ hFn f (List.mem_flatMap.2 ⟨i, hi', hf⟩)
      unfold readRep
      rw [hfind]
      simp only [hft]
      rw [show (entry i).2 = repOf i from rfl, hpc]
      simp only [bind, Except.bind, pure, Except.pure, Except.ok.injEq, Prod.mk.injEq]
      refine ⟨rfl, trivial, ?_⟩
      unfold getDomain
      rw [hfd]
      cases givenDomain domains i.1 <;> rfl
    rw [List.mapM_map]
    exact mapM_ok _ _ M this
  refine ⟨s, _, hfwd, by
    unfold schemaAsFeatureSpec
    rw [hinfer]
    simp only [bind, Except.bind]
    rw [hread]
    rfl, ?_, ?_⟩
  · intro name
    have hnd : ((M.map (fun i => (i.1, recovered i))).map Prod.fst).Nodup := by
      rw [List.map_map]
      exact (hMp.map Prod.fst).nodup_iff.2 hkeys
    simp only [List.map_map]
    apply Option.ext
    intro a
    have h1 := get_iff (M.map (fun i => (i.1, recovered i))) hnd name a
    have hfun : ((fun e : String × Spec × Option Domain => (e.1, e.2.1)) ∘
        fun i => (i.1, recovered i, givenDomain domains i.1)) = fun i => (i.1, recovered i) := rfl
    rw [hfun, h1]
    constructor
    · intro hm
      obtain ⟨i, hi, he⟩ := List.mem_map.1 hm
      obtain ⟨n, sp⟩ := i
      simp only [Prod.mk.injEq] at he
      obtain ⟨rfl, rfl⟩ := he
      have := (lookup_iff spec hkeys n sp).2 (hMp.mem_iff.1 hi)
      simp [this]
    · intro hm
      rw [Option.map_eq_some_iff] at hm
      obtain ⟨sp, hl, rfl⟩ := hm
      exact List.mem_map.2 ⟨(name, sp), hMp.mem_iff.2 ((lookup_iff spec hkeys name sp).1 hl), rfl⟩
  · intro name
    have hfm : (M.map (fun i => (i.1, recovered i, givenDomain domains i.1))).filterMap domainEntry
        = M.filterMap (fun i => (givenDomain domains i.1).map (fun d => (i.1, d))) := by
      rw [List.filterMap_map]; rfl
    have hnd : ((M.filterMap (fun i => (givenDomain domains i.1).map (fun d => (i.1, d)))).map
        Prod.fst).Nodup := by
      refine ((hMp.map Prod.fst).nodup_iff.2 hkeys).sublist ?_
      clear_value M
      clear hMp hM hread hinfer hfm
      induction M with
      | nil => simp
      | cons i is ih =>
        rw [List.filterMap_cons]
        cases givenDomain domains i.1 with
        | none => exact ih.cons _
        | some d => exact ih.cons_cons _
    simp only
    rw [hfm]
    apply Option.ext
    intro a
    rw [get_iff _ hnd]
    simp only [List.mem_filterMap, Option.map_eq_some_iff, Prod.mk.injEq]
    constructor
    · rintro ⟨i, hi, d, hd, rfl, rfl⟩
      rw [if_pos (List.mem_map_of_mem (hMp.mem_iff.1 hi))]
      exact hd
    · intro h
      by_cases hn : name ∈ spec.map Prod.fst
      · rw [if_pos hn] at h
        obtain ⟨i, hi, rfl⟩ := List.mem_map.1 hn
        exact ⟨i, hMp.mem_iff.2 hi, a, h, rfl, rfl⟩
      · rw [if_neg hn] at h; cases h

/-- A feature spec with a member of each kind. -/
def sampleSpec : List (String × Spec) :=
  [("v", .varLen .string),
   ("s", .sparse (.list ["i", "j"]) "w" .float32 (.list [some 10, none]) true),
   ("f", .fixedLen [2, 3] .int64 none),
   ("r", .ragged .int64 none [.rowLengths "l", .uniformRowLength 4] .int32)]

/-- Its domains. -/
def sampleDomains : Domains :=
  [("f", some (.int (some 0) (some 5) true)), ("s", some (.float (some 0) none)),
   ("unused", none)]

/-- The sample meets the hypotheses of `feature_spec_round_trip_partial`. -/
example : (sampleSpec.map Prod.fst).Nodup ∧ (∀ i ∈ sampleSpec, Convertible sampleDomains i) ∧
    (sampleSpec.flatMap columns).Nodup ∧
    (∀ i ∈ sampleSpec, i.2.isSparse → i.1 ∉ sampleSpec.flatMap columns) := by
  refine ⟨by decide +kernel, ?_, by decide +kernel, by decide +kernel⟩
  intro i hi
  simp only [sampleSpec, List.mem_cons, List.not_mem_nil, or_false] at hi
  rcases hi with rfl | rfl | rfl | rfl
  · exact ⟨trivial, by decide +kernel⟩
  · exact ⟨⟨trivial, rfl⟩, by decide +kernel⟩
  · exact ⟨⟨trivial, rfl⟩, by decide +kernel⟩
  · refine ⟨⟨trivial, ?_⟩, by decide +kernel⟩
    intro p hp
    simp only [List.mem_cons, List.not_mem_nil, or_false] at hp
    rcases hp with rfl | rfl <;> trivial

/-- What is read of the sparse member: its sizes, the unknown one as -1. -/
example : recovered ("s", .sparse (.list ["i", "j"]) "w" .float32 (.list [some 10, none]) true)
    = .sparse (.list ["i", "j"]) "w" .float32 (.list [some 10, some (-1)]) true := rfl

/-- A sparse feature whose index column is a member of its own. -/
def sharedSpec : List (String × Spec) :=
  [("i", .varLen .int64), ("x", .sparse (.list ["i"]) "w" .float32 (.list [some 10]) false)]

/-- Reading back the schema of a spec. -/
def roundTrip (spec : List (String × Spec)) :
    Except Err (List (String × Spec) × List (String × Domain)) := do
  let s ← schemaFromFeatureSpec spec []
  schemaAsFeatureSpec s

/-- **C45 needs separate columns**: a spec with a column that two members read is accepted, but the
schema made from it has lost a member. -/
theorem shared_column_lost : roundTrip sharedSpec
    = .ok ([("x", .sparse (.list ["i"]) "w" .float32 (.list [some 10]) false)], []) := by
  decide +kernel

/-- **C45, loss of row split types** A ragged spec with the default 32-bit row splits is accepted and
comes back with 64-bit ones. -/
theorem row_splits_not_recovered :
    roundTrip [("r", .ragged .int64 (some "r") [] .int32)]
      = .ok ([("r", .ragged .int64 (some "r") [] .int64)], []) := by
  decide +kernel

/-- **C45, value key** The value key of a ragged feature comes back, and names the column that is
read; a missing or empty one means the name of the feature. -/
theorem ragged_value_key (name : String) (dtype : DType) (ps : List Partition) (t : SplitsType) :
    (∀ k, k ≠ "" →
      recovered (name, .ragged dtype (some k) ps t) = .ragged dtype (some k) ps .int64 ∧
      columns (name, .ragged dtype (some k) ps t) = k :: ps.filterMap rowLengthKey) ∧
    (∀ v, v = none ∨ v = some "" →
      recovered (name, .ragged dtype v ps t) = .ragged dtype (some name) ps .int64 ∧
      columns (name, .ragged dtype v ps t) = name :: ps.filterMap rowLengthKey) := by
  refine ⟨fun k hk => ?_, fun v hv => ?_⟩
  · have : valueKeyOr (some k) name = k := if_neg hk
    exact ⟨by simp [recovered, this], by simp [columns, this]⟩
  · have : valueKeyOr v name = name := by
      rcases hv with rfl | rfl
      · rfl
      · simp [valueKeyOr]
    exact ⟨by simp [recovered, this], by simp [columns, this]⟩

/-! ### Domains of any schema -/

/-- Specification: the domain of a column in a schema: that of the last feature of the name; a domain
given by name is the last string domain of that name in the schema. -/
def domainOf (s : Schema) (column : String) : Option Domain :=
  match s.features.reverse.find? (fun f => f.name = column) with
  | some ⟨_, _, _, _, some (.own d), _⟩ => some d
  | some ⟨_, _, _, _, some (.named n), _⟩ =>
    (s.stringDomains.reverse.find? (fun p => p.1 = n)).map Prod.snd
  | _ => none

theorem find_insert (f : Feature) (d : List Feature) (c : String) :
    (insertFeature f d).find? (fun g => g.name = c)
      = if f.name = c then some f else d.find? (fun g => g.name = c) := by
  induction d with
  | nil => simp [insertFeature, List.find?_cons]; split <;> simp_all
  | cons g gs ih =>
    unfold insertFeature
    by_cases h : g.name = f.name
    · rw [if_pos h]
      by_cases hc : f.name = c
      · simp [hc]
      · have : ¬ g.name = c := by rw [h]; exact hc
        simp [hc, this]
    · rw [if_neg h]
      by_cases hg : g.name = c
      · have : ¬ f.name = c := by rw [← hg]; exact fun e => h e.symm
        simp [hg, this]
      · simp only [List.find?_cons, hg, decide_false, ih]

theorem find_byName (fs : List Feature) (c : String) :
    (byName fs).find? (fun g => g.name = c) = fs.reverse.find? (fun g => g.name = c) := by
  have : ∀ (l d : List Feature), (l.foldl (fun d f => insertFeature f d) d).find? (fun g => g.name = c)
      = (l.reverse.find? (fun g => g.name = c)).or (d.find? (fun g => g.name = c)) := by
    intro l
    induction l with
    | nil => intro d; simp
    | cons f l ih =>
      intro d
      rw [List.foldl_cons, ih, find_insert, List.reverse_cons, List.find?_append]
      by_cases h : f.name = c
      · cases l.reverse.find? (fun g => decide (g.name = c)) <;> simp [h]
      · cases l.reverse.find? (fun g => decide (g.name = c)) <;> simp [h]
  have := this fs []
  simpa [byName] using this

theorem lookup_find {α : Type} (l : List (String × α)) (k : String) :
    l.lookup k = (l.find? (fun p => p.1 = k)).map Prod.snd := by
  induction l with
  | nil => rfl
  | cons p l ih =>
    obtain ⟨a, b⟩ := p
    by_cases h : a = k
    · subst h; simp
    · have h' : ¬ k = a := fun e => h e.symm
      have : (k == a) = false := by simpa using h'
      simp [List.lookup_cons, this, ih, h]

theorem mapM_ok_forall {α β : Type} (f : α → Except Err β) (l : List α) (r : List β)
    (h : l.mapM f = .ok r) : List.Forall₂ (fun a b => f a = .ok b) l r := by
  induction l generalizing r with
  | nil =>
    simp only [List.mapM_nil, pure, Except.pure, Except.ok.injEq] at h
    subst h; exact .nil
  | cons a l ih =>
    rw [List.mapM_cons] at h
    cases hf : f a with
    | error e => rw [hf] at h; cases h
    | ok b =>
      rw [hf] at h
      cases hl : l.mapM f with
      | error e => rw [hl] at h; cases h
      | ok bs =>
        rw [hl] at h
        simp only [bind, Except.bind, pure, Except.pure, Except.ok.injEq] at h
        subst h
        exact .cons hf (ih bs hl)

/-- **C45, domains** Whatever the schema, if it can be read then the domains are exactly those of the
columns with the values, own ones and those shared by name. -/
theorem schema_domains_exact (s : Schema) (specs : List (String × Spec))
    (doms : List (String × Domain)) (h : schemaAsFeatureSpec s = .ok (specs, doms)) :
    ∃ reps, inferMixed s = .ok reps ∧ specs.map Prod.fst = reps.map Prod.fst ∧
      doms = reps.filterMap (fun r => (domainOf s (valueColumn r.2)).map (fun d => (r.1, d))) := by
  unfold schemaAsFeatureSpec at h
  cases hm : inferMixed s with
  | error e => rw [hm] at h; cases h
  | ok reps =>
    rw [hm] at h
    simp only [bind, Except.bind] at h
    cases hr : reps.mapM (readRep s) with
    | error e => rw [hr] at h; cases h
    | ok out =>
      rw [hr] at h
      simp only [pure, Except.pure, Except.ok.injEq, Prod.mk.injEq] at h
      obtain ⟨rfl, rfl⟩ := h
      refine ⟨reps, rfl, ?_⟩
      have := mapM_ok_forall _ _ _ hr
      clear hr hm
      induction this with
      | nil => simp
      | @cons r e reps out hre _ ih =>
        have key : e.1 = r.1 ∧ e.2.2 = domainOf s (valueColumn r.2) := by
          unfold readRep at hre
          rw [find_byName] at hre
          unfold domainOf
          cases hf : s.features.reverse.find? (fun f => f.name = valueColumn r.2) with
          | none => rw [hf] at hre; cases hre
          | some f =>
            rw [hf] at hre
            simp only at hre
            cases hp : parserConfig r.2 f.type with
            | error e => rw [hp] at hre; cases hre
            | ok spec =>
              rw [hp] at hre
              simp only [bind, Except.bind, pure, Except.pure, Except.ok.injEq] at hre
              subst hre
              refine ⟨rfl, ?_⟩
              obtain ⟨nm, ty, mf, sh, di, dep⟩ := f
              unfold getDomain
              cases di with
              | none => rfl
              | some di =>
                cases di with
                | own d => rfl
                | named n => exact lookup_find _ _
        constructor
        · simpa [key.1] using ih.1
        · simp only [List.filterMap_cons, domainEntry]
          rw [← key.2, key.1, ih.2]

/-- A schema with two features that share a string domain: both tensors get it. -/
example : (schemaAsFeatureSpec
    { features := [{ name := "a", type := .bytes, domainInfo := some (.named "colors") },
                   { name := "b", type := .bytes, domainInfo := some (.named "colors") },
                   { name := "c", type := .int }]
      stringDomains := [("colors", .string "colors" ["red", "blue"])] }).toOption.map Prod.snd
    = some [("a", .string "colors" ["red", "blue"]), ("b", .string "colors" ["red", "blue"])] := by
  decide +kernel

end TFT.FeatureSpec
