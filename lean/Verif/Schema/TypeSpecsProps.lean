import Verif.Schema.TypeSpecs
import Verif.Schema.InferenceProps
import Verif.Schema.SequenceProps

/-!
# The types of tensors that specs stand for (C85)
-/

namespace TFT.TypeSpecs

open TFT.FeatureSpec TFT.SchemaInference

/-! ## Specification -/

namespace Spec

/-- The type of a batch of the tensors that a feature spec describes: one more dimension in front, of
unknown size. A ragged feature has a row of values per instance and one more dimension per partition;
in a sequence there is one such row per step. Its ragged dimensions are the one of the rows, the one of
the steps and those with row lengths. -/
def batchOf (sequence : Bool) : FeatureSpec.Spec → Option TypeSpec
  | .fixedLen shape dtype _ => some (.dense (none :: shape.map some) dtype)
  | .varLen dtype => some (.sparse [none, none] dtype)
  | .sparse _ _ dtype (.list sizes) _ =>
    some (.sparse (none :: sizes.map (fun d => if d = some (-1) then none else d)) dtype)
  | .sparse _ _ dtype (.one n) _ => some (.sparse [none, if n = -1 then none else some n] dtype)
  | .ragged dtype _ partitions rowSplits =>
    some (.ragged
      (none :: none :: ((if sequence then [none] else []) ++ partitions.map (fun p =>
        match p with
        | .uniformRowLength n => some n
        | _ => none)))
      dtype
      (1 + (if sequence then 1 else 0) + partitions.countP (fun p =>
        match p with
        | .uniformRowLength _ => false
        | _ => true))
      rowSplits)
  | .other _ => none

/-- The type of an output of `preprocessing_fn`, batched, with its static sizes. A sparse tensor that
may be treated as one of variable length is one of two dimensions; one that is annotated with a shape
has that shape. The ragged dimensions of a ragged tensor are the first one after the batch and those
of unknown size. -/
def typeOf (calls : List Call) : Out → Option TypeSpec
  | .dense v (some s) => some (.dense (none :: s.tail) v.dtype)
  | .sparse v (some s) =>
    if s.length ≤ 2 ∧ ¬SchemaInference.Spec.marked calls v = true then
      some (.sparse [none, none] v.dtype)
    else some (.sparse (none :: (match SchemaInference.Spec.shape calls v with
      | some sizes => sizes.map some
      | none => s.tail)) v.dtype)
  | .ragged v (some s) _ =>
    some (.ragged (none :: none :: s.tail) v.dtype (1 + s.tail.count none) .int64)
  | _ => none

/-- The sizes of an output are not negative. -/
def Sized : Out → Prop
  | .dense _ (some s) => ∀ n, some n ∈ s → 0 ≤ n
  | .sparse _ (some s) => ∀ n, some n ∈ s → 0 ≤ n
  | _ => True

/-- Which outputs are written as generic sparse tensors, with a column of indices per dimension. -/
def generic (calls : List Call) : Out → Bool
  | .sparse v (some s) => decide (2 < s.length) || SchemaInference.Spec.marked calls v
  | _ => false

end Spec

/-! ## Lemmas -/

theorem get_isSome_iff {α : Type} (entries : List (String × α)) (k : String) :
    (∃ v, get entries k = some v) ↔ k ∈ entries.map Prod.fst := by
  unfold FeatureSpec.get
  constructor
  · rintro ⟨v, hv⟩
    have := lookup_mem_of _ _ _ hv
    exact List.mem_map.2 ⟨(k, v), List.mem_reverse.1 this, rfl⟩
  · intro h
    obtain ⟨e, he, rfl⟩ := List.mem_map.1 h
    cases hl : entries.reverse.lookup e.1 with
    | some v => exact ⟨v, rfl⟩
    | none =>
      rw [List.lookup_eq_none_iff] at hl
      have := hl e (List.mem_reverse.2 he)
      simp at this

theorem mem_items {α : Type} (entries : List (String × α)) (k : String) (v : α) :
    (k, v) ∈ items entries ↔ get entries k = some v := by
  unfold items
  rw [List.mem_filterMap]
  constructor
  · rintro ⟨k', _, h⟩
    cases hg : get entries k' with
    | none => rw [hg] at h; cases h
    | some w =>
      rw [hg] at h
      simp only [Option.map_some, Option.some.injEq, Prod.mk.injEq] at h
      rw [← h.1, ← h.2, hg]
  · intro h
    refine ⟨k, ?_, by rw [h]; rfl⟩
    rw [List.mem_dedup]
    exact (get_isSome_iff _ _).1 ⟨v, h⟩

theorem items_keys {α : Type} (entries : List (String × α)) :
    (items entries).map Prod.fst = (entries.map Prod.fst).dedup := by
  unfold items
  have : ∀ l : List String, (∀ k ∈ l, k ∈ entries.map Prod.fst) →
      (l.filterMap (fun k => (get entries k).map (fun v => (k, v)))).map Prod.fst = l := by
    intro l
    induction l with
    | nil => intro _; rfl
    | cons k l ih =>
      intro h
      obtain ⟨v, hv⟩ := (get_isSome_iff entries k).2 (h k (by simp))
      rw [List.filterMap_cons, hv]
      simp only [Option.map_some, List.map_cons]
      rw [ih (fun k' hk' => h k' (by simp [hk']))]
  exact this _ (fun k hk => List.mem_dedup.1 hk)

theorem items_nodup {α : Type} (entries : List (String × α)) :
    ((items entries).map Prod.fst).Nodup := by
  rw [items_keys]; exact List.nodup_dedup _

theorem get_of_nodup {α : Type} (l : List (String × α)) (hn : (l.map Prod.fst).Nodup)
    (k : String) (v : α) : get l k = some v ↔ (k, v) ∈ l := by
  unfold FeatureSpec.get
  constructor
  · intro h
    exact List.mem_reverse.1 (lookup_mem_of _ _ _ h)
  · intro h
    exact lookup_of_mem l.reverse (by rw [List.map_reverse]; exact List.nodup_reverse.2 hn) (k, v)
      (List.mem_reverse.2 h)

theorem foldl_addPartition (ps : List Partition) (s : List (Option Int) × Nat) :
    ps.foldl addPartition s = (s.1 ++ ps.map (fun p =>
        match p with
        | .uniformRowLength n => some n
        | _ => none), s.2 + ps.countP (fun p =>
        match p with
        | .uniformRowLength _ => false
        | _ => true)) := by
  induction ps generalizing s with
  | nil => simp
  | cons p ps ih =>
    rw [List.foldl_cons, ih, List.countP_cons]
    cases p <;> simp [addPartition, Nat.add_assoc, Nat.add_comm]

theorem typeSpec_eq (sequence : Bool) (f : FeatureSpec.Spec) (t : TypeSpec) :
    typeSpec sequence f = .ok t ↔ Spec.batchOf sequence f = some t ∧
      ∀ i v d n a, f ≠ .sparse i v d (.one n) a := by
  cases f with
  | fixedLen shape dtype d => simp [typeSpec, Spec.batchOf]
  | varLen dtype => simp [typeSpec, Spec.batchOf]
  | sparse i v d size a =>
    cases size with
    | one n =>
      refine ⟨fun h => (by cases h), fun h => absurd rfl (h.2 i v d n a)⟩
    | list ns =>
      simp only [typeSpec, Spec.batchOf, List.cons_append, List.nil_append, Except.ok.injEq,
        Option.some.injEq]
      constructor
      · intro h
        exact ⟨h, fun _ _ _ _ _ hc => (by cases hc)⟩
      · exact fun h => h.1
  | ragged d v ps rs =>
    simp only [typeSpec, Spec.batchOf, raggedTensorSpec, foldl_addPartition]
    have hlen : ∀ l : List Partition, l.countP (fun p =>
        match p with
        | .uniformRowLength _ => false
        | _ => true) ≤ l.length := fun l => List.countP_le_length
    have := hlen ps
    rw [if_neg (by
      cases sequence <;>
        simp only [raggedStart, if_true, if_false, Bool.false_eq_true, List.length_append,
          List.length_cons, List.length_nil, List.length_map] <;> omega)]
    cases sequence <;> simp [raggedStart]
  | other n => simp [typeSpec, Spec.batchOf]

theorem forall₂_mem {α β : Type} (R : α → β → Prop) (l : List α) (m : List β)
    (h : List.Forall₂ R l m) (a : α) (ha : a ∈ l) : ∃ b, b ∈ m ∧ R a b := by
  induction h with
  | nil => cases ha
  | cons hab _ ih =>
    rcases List.mem_cons.1 ha with rfl | h'
    · exact ⟨_, by simp, hab⟩
    · obtain ⟨b, hb, hr⟩ := ih h'
      exact ⟨b, by simp [hb], hr⟩

theorem batchOf_some (sq : Bool) (f : FeatureSpec.Spec) (h : ∀ n, f ≠ .other n) :
    ∃ t, Spec.batchOf sq f = some t := by
  cases f with
  | other n => exact absurd rfl (h n)
  | sparse i v d size a => cases size <;> exact ⟨_, rfl⟩
  | _ => exact ⟨_, rfl⟩

/-! ## Type specs of feature specs -/

/-- **C85, types of feature specs** `get_type_specs_from_feature_specs` succeeds for exactly the dicts
of feature specs whose sparse features have a list of sizes, and gives every feature the type of a batch
of its tensors: no feature is left out, none is added. -/
theorem type_specs_are_batches (specs : List (String × FeatureSpec.Spec)) (sequences : List String) :
    ((∃ r, typeSpecs specs sequences = .ok r) ↔ ∀ name f, get specs name = some f →
      (∀ n, f ≠ .other n) ∧ ∀ i v d n a, f ≠ .sparse i v d (.one n) a) ∧
    ∀ r, typeSpecs specs sequences = .ok r → ∀ name, get r name
      = (get specs name).bind (Spec.batchOf (decide (name ∈ sequences))) := by
  have hfwd : ∀ r, typeSpecs specs sequences = .ok r → ∀ name f, get specs name = some f →
      (∀ n, f ≠ .other n) ∧ ∀ i v d n a, f ≠ .sparse i v d (.one n) a := by
    intro r hr name f hf
    have hm := (mem_items specs name f).2 hf
    obtain ⟨y, hy⟩ : ∃ y, typeSpec (decide (name ∈ sequences)) f = .ok y := by
      cases ht : typeSpec (decide (name ∈ sequences)) f with
      | ok y => exact ⟨y, rfl⟩
      | error e =>
        obtain ⟨b, _, hb⟩ := forall₂_mem _ _ _ (mapM_ok_forall _ _ _ hr) _ hm
        simp only [ht] at hb
        cases hb
    rw [typeSpec_eq] at hy
    refine ⟨fun n hn => ?_, hy.2⟩
    rw [hn] at hy
    cases hy.1
  have hbwd : (∀ name f, get specs name = some f →
      (∀ n, f ≠ .other n) ∧ ∀ i v d n a, f ≠ .sparse i v d (.one n) a) →
      typeSpecs specs sequences = .ok ((items specs).map (fun e => (e.1,
        (Spec.batchOf (decide (e.1 ∈ sequences)) e.2).getD (.other "" .int64)))) := by
    intro h
    apply mapM_ok
    intro e he
    have h' := h e.1 e.2 ((mem_items specs e.1 e.2).1 he)
    obtain ⟨t, ht⟩ := batchOf_some (decide (e.1 ∈ sequences)) e.2 h'.1
    have := (typeSpec_eq _ _ _).2 ⟨ht, h'.2⟩
    rw [this, ht]
    rfl
  refine ⟨⟨fun ⟨r, hr⟩ => hfwd r hr, fun h => ⟨_, hbwd h⟩⟩, ?_⟩
  intro r hr name
  have hc := hfwd r hr
  rw [hbwd hc, Except.ok.injEq] at hr
  subst hr
  have hk : ((items specs).map (fun e => (e.1,
        (Spec.batchOf (decide (e.1 ∈ sequences)) e.2).getD (.other "" .int64)))).map Prod.fst
      = (items specs).map Prod.fst := by
    rw [List.map_map]; rfl
  have hnd := items_nodup specs
  rw [← hk] at hnd
  cases hg : get specs name with
  | none =>
    rw [Option.bind_none, Option.eq_none_iff_forall_ne_some]
    intro t ht
    have : name ∈ specs.map Prod.fst := by
      rw [← List.mem_dedup, ← items_keys, ← hk]
      exact (get_isSome_iff _ _).1 ⟨t, ht⟩
    obtain ⟨v, hv⟩ := (get_isSome_iff _ _).2 this
    rw [hg] at hv
    cases hv
  | some f =>
    rw [Option.bind_some]
    obtain ⟨t, ht⟩ := batchOf_some (decide (name ∈ sequences)) f (hc name f hg).1
    rw [ht, get_of_nodup _ hnd]
    refine List.mem_map.2 ⟨(name, f), (mem_items _ _ _).2 hg, ?_⟩
    simp only [ht, Option.getD_some]

/-- A dense, a sparse, a ragged feature and one of a sequence. -/
example : (typeSpecs [("d", .fixedLen [2, 3] .float32 none), ("v", .varLen .string),
      ("s", .sparse (.list ["i", "j"]) "v" .int64 (.list [some 5, some (-1)]) true),
      ("r", .ragged .int64 none [.rowLengths "l", .uniformRowLength 2] .int32),
      ("q", .ragged .int64 none [.uniformRowLength 4] .int64)] ["q"]).toOption
    = some [("d", .dense [none, some 2, some 3] .float32), ("v", .sparse [none, none] .string),
      ("s", .sparse [none, some 5, none] .int64),
      ("r", .ragged [none, none, none, some 2] .int64 2 .int32),
      ("q", .ragged [none, none, none, some 4] .int64 2 .int64)] := by
  decide +kernel

/-- A sparse feature with one size that is not in a list is not accepted. -/
example : (typeSpecs [("s", .sparse (.one "i") "v" .int64 (.one 5) true)] []).toOption = none := by
  decide +kernel

/-! ## What the converter of transformed data is given -/

theorem sequenceNames_plain (fs : List Feature) :
    (fs.map (fun f => Node.leaf f false)).flatMap sequenceNamesOf = [] := by
  induction fs with
  | nil => rfl
  | cons f fs ih => rw [List.map_cons, List.flatMap_cons, ih]; rfl

theorem arrowConverter_plain (parser) (s : Schema) :
    arrowConverter parser (plainSchema s) = (do
      let r ← schemaAsFeatureSpec s
      let types ← typeSpecs r.1 []
      return { types := types,
               genericSparse := ((items r.1).filter (fun e => isSparseFeature e.2)).map Prod.fst }) := by
  unfold arrowConverter
  have h := plain_schema_is_read_as_before parser s.features s.sparse s.reps s.stringDomains
    s.representRagged
  have hp : plainSchema s = ⟨s.features.map (fun f => .leaf f false), s.sparse, s.reps,
    s.stringDomains, s.representRagged⟩ := rfl
  rw [hp, h]
  simp only [sequenceNames_plain]

theorem partition_size (name : String) (dims : List (Option Int)) :
    ((List.range dims.length).map (SchemaInference.Spec.partition name dims)).map (fun p =>
        match p with
        | .uniformRowLength n => some n
        | _ => none) = dims := by
  apply List.ext_getElem?
  intro i
  rw [List.map_map, List.getElem?_map]
  by_cases h : i < dims.length
  · rw [List.getElem?_range h, List.getElem?_eq_getElem h]
    simp only [Option.map_some, Function.comp, SchemaInference.Spec.partition,
      List.getElem?_eq_getElem h]
    cases dims[i] <;> rfl
  · rw [List.getElem?_eq_none (by simpa using h), List.getElem?_eq_none (by simpa using h)]
    rfl

theorem partition_count (ps : List Partition) : ps.countP (fun p =>
        match p with
        | .uniformRowLength _ => false
        | _ => true) = (ps.map (fun p =>
        match p with
        | .uniformRowLength n => some n
        | _ => none)).count none := by
  induction ps with
  | nil => rfl
  | cons p ps ih =>
    rw [List.countP_cons, List.map_cons, List.count_cons, ih]
    cases p <;> simp

theorem batchOf_spec (calls : List Call) (name : String) (o : Out)
    (ha : SchemaInference.Spec.Acceptable calls true o) (hs : Spec.Sized o) :
    Spec.batchOf false (SchemaInference.Spec.spec calls true name o) = Spec.typeOf calls o ∧
      (Spec.typeOf calls o).isSome ∧
      (∀ n, SchemaInference.Spec.spec calls true name o ≠ .other n) ∧
      (∀ i v d n a, SchemaInference.Spec.spec calls true name o ≠ .sparse i v d (.one n) a) ∧
      isSparseFeature (SchemaInference.Spec.spec calls true name o) = Spec.generic calls o := by
  cases o with
  | other t => exact ha.elim
  | dense v s =>
    cases s with
    | none => exact ha.elim
    | some s =>
      cases s with
      | nil => exact ha.elim
      | cons b dims =>
        refine ⟨?_, rfl, fun n h => (by cases h), fun i v d n a h => (by cases h), rfl⟩
        simp only [SchemaInference.Spec.spec, Spec.batchOf, Spec.typeOf, Option.getD_some,
          List.tail_cons, List.map_map]
        have : dims.map (some ∘ fun d : Option Int => d.getD 0) = dims := by
          conv_rhs => rw [← List.map_id dims]
          apply List.map_congr_left
          intro d hd
          cases d with
          | none => exact absurd hd (ha.2 rfl)
          | some n => rfl
        rw [this]
  | ragged v s t =>
    cases s with
    | none => exact absurd rfl ha.2
    | some s =>
      refine ⟨?_, rfl, fun n h => (by cases h), fun i v d n a h => (by cases h), rfl⟩
      simp only [SchemaInference.Spec.spec, Spec.batchOf, Spec.typeOf, Option.getD_some,
        Bool.false_eq_true, if_false, List.nil_append, partition_count, partition_size, Nat.add_zero]
  | sparse v s =>
    cases s with
    | none => exact ha.elim
    | some s =>
      by_cases h : s.length ≤ 2 ∧ ¬SchemaInference.Spec.marked calls v = true
      · have hsp : SchemaInference.Spec.spec calls true name (.sparse v (some s)) = .varLen v.dtype := by
          simp only [SchemaInference.Spec.spec, Option.getD_some]
          rw [if_pos ⟨h.1, fun hc => h.2 hc.2⟩]
        rw [hsp]
        simp only [Spec.typeOf, if_pos h]
        refine ⟨rfl, rfl, fun n h => (by cases h), fun i v d n a h => (by cases h), ?_⟩
        simp only [isSparseFeature, Spec.generic]
        have h2 : SchemaInference.Spec.marked calls v = false := by simpa using h.2
        rw [h2]
        simp [h.1]
      · have hsp : SchemaInference.Spec.spec calls true name (.sparse v (some s)) = .sparse
            (.list ((List.range (s.length - 1)).map
              (fun i : Nat => name ++ "$sparse_indices_" ++ toString i)))
            (name ++ "$sparse_values") v.dtype
            (.list ((match SchemaInference.Spec.shape calls v with
              | some sizes => sizes
              | none => s.tail.map (fun d : Option Int => d.getD (-1))).map some)) true := by
          simp only [SchemaInference.Spec.spec, Option.getD_some]
          rw [if_neg (fun hc => h ⟨hc.1, fun hm => hc.2 (by simpa using hm)⟩)]
          rfl
        rw [hsp]
        simp only [Spec.typeOf, if_neg h]
        refine ⟨?_, rfl, fun n h => (by cases h), fun i v d n a h => (by cases h), ?_⟩
        · simp only [Spec.batchOf]
          cases hsh : SchemaInference.Spec.shape calls v with
          | some sizes =>
            simp only [List.map_map]
            have : sizes.map ((fun d => if d = some (-1) then none else d) ∘ some)
                = sizes.map some := by
              apply List.map_congr_left
              intro n hn
              have := (ha.2 rfl sizes hsh).2 n hn
              simp only [Function.comp, Option.some.injEq]
              rw [if_neg (by omega)]
            rw [this]
          | none =>
            simp only [List.map_map]
            have : s.tail.map ((fun d => if d = some (-1) then none else d) ∘ some
                ∘ fun d : Option Int => d.getD (-1)) = s.tail := by
              conv_rhs => rw [← List.map_id s.tail]
              apply List.map_congr_left
              intro d hd
              cases d with
              | none => rfl
              | some n =>
                have := hs n (List.mem_of_mem_tail hd)
                simp only [Function.comp, Option.getD_some, Option.some.injEq, id_eq]
                rw [if_neg (by omega)]
            rw [this]
        · simp only [isSparseFeature, Spec.generic]
          by_cases hm : SchemaInference.Spec.marked calls v = true
          · simp [hm]
          · have : ¬s.length ≤ 2 := fun hc => h ⟨hc, hm⟩
            simp; left; omega

/-- **C85, transformed data** Once all analyzers have been evaluated, the converter of transformed data
can be made from a schema that describes the outputs of `preprocessing_fn`. It expects every output,
with the type that the output has, and nothing else; and exactly the sparse outputs of more than two
dimensions and those annotated to be sparse are written with their indices. -/
theorem converter_expects_the_outputs_partial (parser) (calls : List Call)
    (outs : List (String × Out)) (r : Inferred)
    (hd : SchemaInference.Spec.Describes calls outs true r)
    (ha : ∀ o ∈ outs, SchemaInference.Spec.Acceptable calls true o.2)
    (hs : ∀ o ∈ outs, Spec.Sized o.2) :
    ∃ c, arrowConverter parser (plainSchema r.schema) = .ok c ∧ ∀ name,
      get c.types name = (outs.lookup name).bind (Spec.typeOf calls) ∧
      (name ∈ c.genericSparse ↔ ∃ o, outs.lookup name = some o ∧ Spec.generic calls o = true) := by
  obtain ⟨⟨specs, domains, hread, hget⟩, _⟩ := hd
  have hof : ∀ name f, get specs name = some f → ∃ o, outs.lookup name = some o ∧
      f = SchemaInference.Spec.spec calls true name o ∧ (name, o) ∈ outs := by
    intro name f hf
    rw [(hget name).1] at hf
    cases ho : outs.lookup name with
    | none => rw [ho] at hf; cases hf
    | some o =>
      rw [ho] at hf
      simp only [Option.map_some, Option.some.injEq] at hf
      exact ⟨o, rfl, hf.symm, lookup_mem_of _ _ _ ho⟩
  obtain ⟨types, ht⟩ := (type_specs_are_batches specs []).1.2 (by
    intro name f hf
    obtain ⟨o, _, rfl, hm⟩ := hof name f hf
    have := batchOf_spec calls name o (ha _ hm) (hs _ hm)
    exact ⟨this.2.2.1, this.2.2.2.1⟩)
  have htypes := (type_specs_are_batches specs []).2 types ht
  refine ⟨_, by
    rw [arrowConverter_plain, hread]
    simp only [bind, Except.bind, ht]
    rfl, fun name => ⟨?_, ?_⟩⟩
  · rw [htypes name]
    cases ho : outs.lookup name with
    | none => rw [(hget name).1, ho]; rfl
    | some o =>
      have hm := lookup_mem_of _ _ _ ho
      rw [(hget name).1, ho]
      simp only [Option.map_some, Option.bind_some, List.not_mem_nil, decide_false]
      exact (batchOf_spec calls name o (ha _ hm) (hs _ hm)).1
  · simp only [List.mem_map, List.mem_filter]
    constructor
    · rintro ⟨⟨n, f⟩, ⟨hmem, hsp⟩, rfl⟩
      obtain ⟨o, ho, rfl, hm⟩ := hof n f ((mem_items _ _ _).1 hmem)
      refine ⟨o, ho, ?_⟩
      rw [← (batchOf_spec calls n o (ha _ hm) (hs _ hm)).2.2.2.2]
      exact hsp
    · rintro ⟨o, ho, hg⟩
      have hm := lookup_mem_of _ _ _ ho
      refine ⟨(name, SchemaInference.Spec.spec calls true name o), ⟨?_, ?_⟩, rfl⟩
      · rw [mem_items, (hget name).1, ho]; rfl
      · rw [(batchOf_spec calls name o (ha _ hm) (hs _ hm)).2.2.2.2]
        exact hg

/-- **C85, transformed data** End to end with graphs: the schema inferred from acceptable outputs makes
a converter that expects them with their types. -/
theorem graph_converter_expects_the_outputs_partial (parser) (calls : List Call) (c : Collections)
    (hc : trace calls = .ok c) (outs : List (String × Out))
    (hn : (outs.map Prod.fst).Nodup) (hd : ∀ o ∈ outs, '$' ∉ o.1.toList)
    (hu : ∀ t a, Call.annotate t a ∈ calls →
      ¬"tft_schema_override_global_sentinel".toList <:+: t.name.toList)
    (ha : ∀ o ∈ outs, SchemaInference.Spec.Acceptable calls true o.2)
    (hs : ∀ o ∈ outs, Spec.Sized o.2) :
    ∃ r k, inferV1 outs c true = .ok r ∧ arrowConverter parser (plainSchema r.schema) = .ok k ∧
      ∀ name, get k.types name = (outs.lookup name).bind (Spec.typeOf calls) := by
  obtain ⟨h1, h2⟩ := graph_schema_describes_outputs_partial calls c hc outs true hn hd hu
  obtain ⟨r, hr⟩ := h1.2 ha
  obtain ⟨k, hk, hall⟩ := converter_expects_the_outputs_partial parser calls outs r (h2 r hr) ha hs
  exact ⟨r, k, hr, hk, fun name => (hall name).1⟩

/-- **C85, transformed data** The same with tf.functions. -/
theorem function_converter_expects_the_outputs_partial (parser) (calls : List Call) (c : Collections)
    (hc : trace calls = .ok c) (outs : List (String × Out))
    (hn : (outs.map Prod.fst).Nodup) (hd : ∀ o ∈ outs, '$' ∉ o.1.toList)
    (hu : ∀ t a, Call.annotate t a ∈ calls →
      ¬"tft_schema_override_global_sentinel".toList <:+: t.name.toList)
    (hk : ∀ o ∈ outs, o.1 ≠ "tft_schema_override_global_sentinel" ∧
      ¬"tft_schema_override_global_sentinel".toList <:+: (SchemaInference.Spec.values o.2).name.toList)
    (hv : (outs.map (fun o => (SchemaInference.Spec.values o.2).name)).Nodup)
    (hg : ∀ x ∈ calls, ∀ t, SchemaInference.Spec.about x = some t → ∀ o ∈ outs,
      t.name = (SchemaInference.Spec.values o.2).name → t = SchemaInference.Spec.values o.2)
    (ha : ∀ o ∈ outs, SchemaInference.Spec.Acceptable calls true o.2)
    (hs : ∀ o ∈ outs, Spec.Sized o.2) :
    ∃ r k, inferV2 outs c true = .ok r ∧ arrowConverter parser (plainSchema r.schema) = .ok k ∧
      ∀ name, get k.types name = (outs.lookup name).bind (Spec.typeOf calls) := by
  obtain ⟨h1, h2⟩ := function_schema_describes_outputs_partial calls c hc outs true hn hd hu hk hv hg
  obtain ⟨r, hr⟩ := h1.2 ha
  obtain ⟨k, hk, hall⟩ := converter_expects_the_outputs_partial parser calls outs r (h2 r hr) ha hs
  exact ⟨r, k, hr, hk, fun name => (hall name).1⟩

/-- The outputs of the examples of C62 meet the hypotheses. -/
example : (∀ o ∈ exOuts, SchemaInference.Spec.Acceptable exCalls true o.2) ∧
    (∀ o ∈ exOuts, Spec.Sized o.2) ∧
    exOuts.map (fun o => (o.1, Spec.typeOf exCalls o.2)) =
      [("id", some (.dense [none] .int64)), ("s", some (.sparse [none, some 7] .float32)),
        ("r", some (.ragged [none, none, none, some 2] .string 2 .int64))] := by
  refine ⟨exAcceptable, ?_, by decide +kernel⟩
  intro o ho
  simp only [exOuts, List.mem_cons, List.not_mem_nil, or_false] at ho
  rcases ho with rfl | rfl | rfl <;> simp [Spec.Sized]

/-! ## Ragged outputs -/

/-- A ragged tensor whose row splits have type `rowSplits`: after the batch there is a ragged dimension
for every partition. `partition` has the sizes from the second one on, unknown unless the rows all have
one length given with the tensor. Then come the dimensions of the flat values, `inner`. -/
def Spec.raggedOut (v : Ref) (partition inner : List (Option Int)) (rowSplits : SplitsType) : Out :=
  .ragged v (some (none :: (partition ++ inner))) rowSplits

/-- The type of that tensor: its ragged rank is the number of its partitions. -/
def Spec.raggedType (v : Ref) (partition inner : List (Option Int)) (rowSplits : SplitsType) : TypeSpec :=
  .ragged (none :: none :: (partition ++ inner)) v.dtype (1 + partition.length) rowSplits

/-- **C85, ragged outputs** The type expected of a ragged output has its sizes and dtype, always. It has
its ragged rank if and only if as many of its dimensions are ragged with rows of one given length as
there are dimensions of unknown size inside its values, and the type of its row splits if and only if
that is int64. -/
theorem ragged_outputs_partial (calls : List Call) (v : Ref) (partition inner : List (Option Int))
    (rowSplits : SplitsType) :
    (∃ rank, Spec.typeOf calls (Spec.raggedOut v partition inner rowSplits)
      = some (.ragged (none :: none :: (partition ++ inner)) v.dtype rank .int64)) ∧
    (Spec.typeOf calls (Spec.raggedOut v partition inner rowSplits)
        = some (Spec.raggedType v partition inner rowSplits) ↔
      rowSplits = .int64 ∧ partition.countP (·.isSome) = inner.count none) := by
  refine ⟨⟨_, rfl⟩, ?_⟩
  have hlen : partition.length = partition.countP (·.isSome) + partition.count none := by
    induction partition with
    | nil => rfl
    | cons d ds ih => cases d <;> simp [ih] <;> omega
  simp only [Spec.typeOf, Spec.raggedOut, Spec.raggedType, List.tail_cons, Option.some.injEq,
    TypeSpec.ragged.injEq, true_and, List.count_append]
  constructor
  · rintro ⟨h1, h2⟩
    exact ⟨h2.symm, by omega⟩
  · rintro ⟨h1, h2⟩
    exact ⟨by omega, h1.symm⟩

/-- **C85, ragged outputs** In particular the type is right for a ragged output with row splits of type
int64, rows of any length in all its ragged dimensions and values whose sizes are known. -/
theorem ordinary_ragged_outputs (calls : List Call) (v : Ref) (k : Nat) (sizes : List Int) :
    Spec.typeOf calls (Spec.raggedOut v (List.replicate k none) (sizes.map some) .int64)
      = some (.ragged (none :: none :: (List.replicate k none ++ sizes.map some)) v.dtype (1 + k)
          .int64) := by
  have h := (ragged_outputs_partial calls v (List.replicate k none) (sizes.map some) .int64).2.2
    ⟨rfl, by
      have h1 : (List.replicate k (none : Option Int)).countP (·.isSome) = 0 := by
        rw [List.countP_eq_zero]
        intro d hd
        rw [List.eq_of_mem_replicate hd]
        simp
      have h2 : (sizes.map some).count (none : Option Int) = 0 := by
        rw [List.count_eq_zero]
        simp
      rw [h1, h2]⟩
  rw [h, Spec.raggedType, List.length_replicate]

/-- **C85, ragged outputs** Counterexamples: values of an unknown size inside, rows of one given length
in a ragged dimension, row splits of type int32. -/
theorem other_ragged_outputs (calls : List Call) (v : Ref) :
    Spec.typeOf calls (Spec.raggedOut v [] [none] .int64) ≠ some (Spec.raggedType v [] [none] .int64) ∧
    Spec.typeOf calls (Spec.raggedOut v [some 2] [] .int64) ≠ some (Spec.raggedType v [some 2] [] .int64) ∧
    Spec.typeOf calls (Spec.raggedOut v [] [] .int32) ≠ some (Spec.raggedType v [] [] .int32) := by
  refine ⟨?_, ?_, ?_⟩ <;> rw [ne_eq, (ragged_outputs_partial calls v _ _ _).2] <;> decide

/-- **C85, sparse outputs** Counterexample: a sparse output of one dimension is expected to have two. -/
theorem sparse_outputs_of_one_dimension (v : Ref) (n : Option Int) :
    Spec.typeOf [] (.sparse v (some [n])) = some (.sparse [none, none] v.dtype) := rfl

/-! ## Sequences -/

/-- The features that are written directly inside a struct feature of the schema. -/
def Spec.InStruct (s : NestedSchema) (name : String) : Prop :=
  ∃ parent children child, Node.struct parent true children ∈ s.nodes ∧ child ∈ children ∧
    (match child with
      | .leaf f _ => f.name
      | .struct n _ _ => n) = name

/-- **C85, sequences** For every schema that can be read, the converter expects for every feature the
type of a batch of its tensors, with a dimension for the steps if and only if a feature of that name is
directly inside a struct feature. -/
theorem converter_of_any_schema (parser) (s : NestedSchema)
    (specs : List (String × FeatureSpec.Spec)) (domains : List (String × Domain))
    (h : nestedSchemaAsFeatureSpec parser s = .ok (specs, domains)) :
    ((∃ c, arrowConverter parser s = .ok c) ↔ ∀ name f, get specs name = some f →
      (∀ n, f ≠ .other n) ∧ ∀ i v d n a, f ≠ .sparse i v d (.one n) a) ∧
    ∀ c, arrowConverter parser s = .ok c → ∀ name,
      (Spec.InStruct s name → get c.types name = (get specs name).bind (Spec.batchOf true)) ∧
      (¬Spec.InStruct s name → get c.types name = (get specs name).bind (Spec.batchOf false)) ∧
      (name ∈ c.genericSparse ↔ ∃ i v d z a, get specs name = some (.sparse i v d z a)) := by
  have hin : ∀ name, Spec.InStruct s name ↔ name ∈ s.nodes.flatMap sequenceNamesOf := by
    intro name
    rw [List.mem_flatMap]
    constructor
    · rintro ⟨parent, children, child, h1, h2, h3⟩
      refine ⟨_, h1, List.mem_map.2 ⟨child, h2, ?_⟩⟩
      rw [← h3]
      cases child <;> rfl
    · rintro ⟨n, hn, hm⟩
      cases n with
      | leaf f b => cases hm
      | struct parent b children =>
        cases b with
        | false => cases hm
        | true =>
          obtain ⟨child, h2, h3⟩ := List.mem_map.1 hm
          refine ⟨parent, children, child, hn, h2, ?_⟩
          rw [← h3]
          cases child <;> rfl
  have hT := type_specs_are_batches specs (s.nodes.flatMap sequenceNamesOf)
  have hc : arrowConverter parser s = (typeSpecs specs (s.nodes.flatMap sequenceNamesOf)).map
      (fun types => { types := types, genericSparse :=
        ((items specs).filter (fun e => isSparseFeature e.2)).map Prod.fst }) := by
    unfold arrowConverter
    rw [h]
    rfl
  rw [hc]
  refine ⟨?_, ?_⟩
  · rw [← hT.1]
    constructor
    · rintro ⟨c, h⟩
      cases ht : typeSpecs specs (s.nodes.flatMap sequenceNamesOf) with
      | error e => rw [ht] at h; cases h
      | ok r => exact ⟨r, rfl⟩
    · rintro ⟨r, hr⟩
      rw [hr]
      exact ⟨_, rfl⟩
  · intro c h name
    cases ht : typeSpecs specs (s.nodes.flatMap sequenceNamesOf) with
    | error e => rw [ht] at h; cases h
    | ok r =>
      rw [ht] at h
      simp only [Except.map, Except.ok.injEq] at h
      subst h
      have := hT.2 r ht name
      refine ⟨fun hi => ?_, fun hi => ?_, ?_⟩
      · rw [this, decide_eq_true ((hin name).1 hi)]
      · rw [this, decide_eq_false (fun h => hi ((hin name).2 h))]
      · simp only [List.mem_map, List.mem_filter]
        constructor
        · rintro ⟨⟨n, f⟩, ⟨hmem, hsp⟩, rfl⟩
          rw [mem_items] at hmem
          cases f <;> simp_all [isSparseFeature]
        · rintro ⟨i, v, d, z, a, hg⟩
          exact ⟨(name, .sparse i v d z a), ⟨(mem_items _ _ _).2 hg, rfl⟩, rfl⟩

/-- A schema with a struct: its child is expected with a dimension for the steps, the other feature
without. -/
example : ((arrowConverter
      (fun _ => .ok ([("id", .fixedLen [] .int64 none)],
        [("clicks", .ragged .int64 (some "clicks") [] .int64)]))
      { nodes := [.leaf { name := "id", type := .int } false,
          .struct "##SEQUENCE##" true [.leaf { name := "clicks", type := .int } false]] }).toOption.map
        (fun c => c.types))
    = some [("id", .dense [none] .int64), ("clicks", .ragged [none, none, none] .int64 2 .int64)] := by
  decide +kernel

/-! ## Placeholders -/

/-- **C85, placeholders** In TensorFlow 1 the placeholders for feature specs can be made for exactly the
dicts of features that are not ragged and whose types are int64, float32 or string. Each placeholder has
the type of a batch of the tensors of its feature, the one that `get_type_specs_from_feature_specs` gives
when it accepts the feature. -/
theorem placeholders_of_feature_specs (specs : List (String × FeatureSpec.Spec))
    (hf : ∀ e ∈ specs, ∀ n, e.2 ≠ .other n) :
    ((∃ r, placeholders (specs.map (fun e => (e.1, .feature e.2))) = .ok r) ↔
      ∀ e ∈ specs, (∀ d v ps rs, e.2 ≠ .ragged d v ps rs) ∧
        (Given.feature e.2).dtype ∈ [DType.int64, DType.float32, DType.string]) ∧
    ∀ r, placeholders (specs.map (fun e => (e.1, .feature e.2))) = .ok r →
      List.Forall₂ (fun e p => p.1 = e.1 ∧ Spec.batchOf false e.2 = some p.2.type ∧
        p.2.name = sanitizeScopeName e.1.toList) specs r := by
  have hall : (specs.map (fun e => (e.1, Given.feature e.2))).all (fun e => e.2.isFeature) = true := by
    rw [List.all_eq_true]
    intro e he
    obtain ⟨x, hx, rfl⟩ := List.mem_map.1 he
    have := hf x hx
    revert this
    cases x.2 <;> simp [Given.isFeature]
  unfold placeholders
  rw [hall, Bool.true_or, if_pos rfl]
  have hone : ∀ e : String × FeatureSpec.Spec, ∀ p, placeholderOf (e.1, .feature e.2) = .ok p →
      (p.1 = e.1 ∧ Spec.batchOf false e.2 = some p.2.type ∧
        p.2.name = sanitizeScopeName e.1.toList) ∧ (∀ d v ps rs, e.2 ≠ .ragged d v ps rs) ∧
        (Given.feature e.2).dtype ∈ [DType.int64, DType.float32, DType.string] := by
    intro e p hp
    unfold placeholderOf at hp
    split at hp
    case isFalse => cases hp
    case isTrue hd =>
      obtain ⟨name, f⟩ := e
      cases f with
      | sparse i v d z a =>
        cases z <;> simp only [placeholderOfFeature, Except.map, Except.ok.injEq] at hp <;> subst hp <;>
          refine ⟨⟨rfl, ?_, rfl⟩, fun _ _ _ _ h => (by cases h), hd⟩ <;>
          simp [Spec.batchOf, unknown]
      | fixedLen s d x =>
        simp only [placeholderOfFeature, Except.map, Except.ok.injEq] at hp
        subst hp
        exact ⟨⟨rfl, rfl, rfl⟩, fun _ _ _ _ h => (by cases h), hd⟩
      | varLen d =>
        simp only [placeholderOfFeature, Except.map, Except.ok.injEq] at hp
        subst hp
        exact ⟨⟨rfl, rfl, rfl⟩, fun _ _ _ _ h => (by cases h), hd⟩
      | ragged d v ps rs => cases hp
      | other n => cases hp
  have hF : ∀ r, (specs.map (fun e => (e.1, Given.feature e.2))).mapM placeholderOf = .ok r →
      List.Forall₂ (fun (e : String × FeatureSpec.Spec) p =>
        placeholderOf (e.1, .feature e.2) = .ok p) specs r := by
    intro r hr
    have := mapM_ok_forall _ _ _ hr
    rwa [List.forall₂_map_left_iff] at this
  refine ⟨⟨?_, ?_⟩, ?_⟩
  · rintro ⟨r, hr⟩ e he
    obtain ⟨p, _, hp⟩ := forall₂_mem _ _ _ (hF r hr) e he
    exact (hone e p hp).2
  · intro h
    have : ∀ e ∈ specs, ∃ p, placeholderOf (e.1, .feature e.2) = .ok p := by
      rintro ⟨name, f⟩ he
      have h' := h _ he
      have hno := hf _ he
      unfold placeholderOf
      rw [if_pos h'.2]
      cases f with
      | ragged d v ps rs => exact absurd rfl (h'.1 d v ps rs)
      | other n => exact absurd rfl (hno n)
      | sparse i v d z a => cases z <;> exact ⟨_, rfl⟩
      | _ => exact ⟨_, rfl⟩
    clear h hF hall hf
    induction specs with
    | nil => exact ⟨[], rfl⟩
    | cons e es ih =>
      obtain ⟨p, hp⟩ := this e (by simp)
      obtain ⟨ps, hps⟩ := ih (fun x hx => this x (by simp [hx]))
      refine ⟨p :: ps, ?_⟩
      rw [List.map_cons, List.mapM_cons, hp, hps]
      rfl
  · intro r hr
    exact (hF r hr).imp (fun e p hp => (hone e p hp).1)

/-- **C85, placeholders** For type specs the placeholders have the types given. -/
theorem placeholders_of_type_specs (types : List (String × TypeSpec)) :
    ((∃ r, placeholders (types.map (fun e => (e.1, .type e.2))) = .ok r) ↔
      ∀ e ∈ types, (∀ n d, e.2 ≠ .other n d) ∧
        (Given.type e.2).dtype ∈ [DType.int64, DType.float32, DType.string]) ∧
    ∀ r, placeholders (types.map (fun e => (e.1, .type e.2))) = .ok r →
      r = types.map (fun e => (e.1, ⟨e.2, sanitizeScopeName e.1.toList⟩)) := by
  have hall : (types.map (fun e => (e.1, Given.type e.2))).all (fun e => e.2.isType) = true := by
    rw [List.all_eq_true]
    intro e he
    obtain ⟨x, hx, rfl⟩ := List.mem_map.1 he
    rfl
  unfold placeholders
  rw [hall, Bool.or_true, if_pos rfl]
  have hone : ∀ e : String × TypeSpec, ∀ p, placeholderOf (e.1, .type e.2) = .ok p →
      p = (e.1, ⟨e.2, sanitizeScopeName e.1.toList⟩) ∧ (∀ n d, e.2 ≠ .other n d) ∧
        (Given.type e.2).dtype ∈ [DType.int64, DType.float32, DType.string] := by
    rintro ⟨name, t⟩ p hp
    unfold placeholderOf at hp
    split at hp
    case isFalse => cases hp
    case isTrue hd =>
      cases t with
      | other n d => cases hp
      | _ =>
        simp only [placeholderOfType, Except.map, Except.ok.injEq] at hp
        subst hp
        exact ⟨rfl, fun _ _ h => (by cases h), hd⟩
  have hF : ∀ r, (types.map (fun e => (e.1, Given.type e.2))).mapM placeholderOf = .ok r →
      List.Forall₂ (fun (e : String × TypeSpec) p =>
        placeholderOf (e.1, .type e.2) = .ok p) types r := by
    intro r hr
    have := mapM_ok_forall _ _ _ hr
    rwa [List.forall₂_map_left_iff] at this
  refine ⟨⟨?_, ?_⟩, ?_⟩
  · rintro ⟨r, hr⟩ e he
    obtain ⟨p, _, hp⟩ := forall₂_mem _ _ _ (hF r hr) e he
    exact (hone e p hp).2
  · intro h
    have : ∀ e ∈ types, ∃ p, placeholderOf (e.1, .type e.2) = .ok p := by
      rintro ⟨name, t⟩ he
      have h' := h _ he
      unfold placeholderOf
      rw [if_pos h'.2]
      cases t with
      | other n d => exact absurd rfl (h'.1 n d)
      | _ => exact ⟨_, rfl⟩
    clear h hF hall
    induction types with
    | nil => exact ⟨[], rfl⟩
    | cons e es ih =>
      obtain ⟨p, hp⟩ := this e (by simp)
      obtain ⟨ps, hps⟩ := ih (fun x hx => this x (by simp [hx]))
      refine ⟨p :: ps, ?_⟩
      rw [List.map_cons, List.mapM_cons, hp, hps]
      rfl
  · intro r hr
    have := hF r hr
    clear hr hF hall
    induction this with
    | nil => rfl
    | cons h _ ih => rw [List.map_cons, ih, (hone _ _ h).1]

/-- Placeholders for a ragged and a dense type. -/
example : (placeholders [("r", .type (.ragged [none, none] .int64 1 .int64)),
      ("d", .type (.dense [none] .string))]).toOption
    = some [("r", ⟨.ragged [none, none] .int64 1 .int64, "r".toList⟩),
      ("d", ⟨.dense [none] .string, "d".toList⟩)] := by
  decide +kernel

/-- **C85, placeholders** Specs of both kinds in one dict are not accepted, nor is anything that is no
spec. -/
theorem mixed_specs_fail (specs : List (String × Given)) (a b : String × Given)
    (ha : a ∈ specs) (hb : b ∈ specs) (h1 : ∀ t, a.2 ≠ .type t)
    (h2 : ∀ f, b.2 = .feature f → ∃ n, f = .other n) :
    ∃ e, placeholders specs = .error e := by
  unfold placeholders
  have hx : specs.all (fun e => e.2.isFeature) = false := by
    rw [List.all_eq_false]
    refine ⟨b, hb, ?_⟩
    cases hbb : b.2 with
    | feature f =>
      obtain ⟨n, rfl⟩ := h2 f hbb
      simp [Given.isFeature]
    | _ => simp [Given.isFeature]
  have hy : specs.all (fun e => e.2.isType) = false := by
    rw [List.all_eq_false]
    refine ⟨a, ha, ?_⟩
    cases haa : a.2 with
    | type t => exact absurd haa (h1 t)
    | _ => simp [Given.isType]
  rw [hx, hy]
  exact ⟨_, rfl⟩

/-- A feature spec and a type spec. -/
example : ∃ e, placeholders [("a", .feature (.varLen .string)),
    ("b", .type (.dense [none] .int64))] = .error e :=
  mixed_specs_fail _ _ _ (List.mem_cons_self ..) (List.mem_cons_of_mem _ (List.mem_cons_self ..))
    (fun t h => (by cases h)) (fun f h => (by cases h))

/-- Placeholders for a dense, a sparse and a variable-length feature. -/
example : (placeholders [("a b", .feature (.fixedLen [2] .float32 none)),
      ("s", .feature (.sparse (.one "i") "v" .int64 (.one 5) true)),
      ("v", .feature (.varLen .string))]).toOption
    = some [("a b", ⟨.dense [none, some 2] .float32, "F_a_b".toList⟩),
      ("s", ⟨.sparse [none, some 5] .int64, "s".toList⟩),
      ("v", ⟨.sparse [none, none] .string, "v".toList⟩)] := by
  decide +kernel

/-! ## Names of scopes -/

/-- The names that TensorFlow accepts for an operation:
`^[A-Za-z0-9.][A-Za-z0-9_.\\/>-]*$`. -/
def Spec.ValidName (n : List Char) : Prop :=
  (∃ c, n.head? = some c ∧ (c.isAlphanum = true ∨ c = '.')) ∧
  ∀ c ∈ n, c.isAlphanum = true ∨ c ∈ ['_', '.', '/', '>', '-']

theorem alphanumeric_iff (c : Char) : alphanumeric c = c.isAlphanum := by
  rw [Bool.eq_iff_iff]
  simp [alphanumeric, Char.isAlphanum, Char.isAlpha, Char.isUpper, Char.isLower, Char.isDigit,
    Char.le_def]

theorem scopeChar_iff (c : Char) :
    scopeChar c = true ↔ c.isAlphanum = true ∨ c ∈ ['_', '.', '/', '>', '-'] := by
  rw [← alphanumeric_iff]
  unfold scopeChar alphanumeric
  simp only [Bool.or_eq_true, decide_eq_true_eq, List.mem_cons, List.not_mem_nil, or_false]
  tauto

/-- **C85, names** Whatever the name of a feature, unless it is empty, the name of the placeholder is one
that TensorFlow accepts. -/
theorem placeholder_names_are_valid (name : List Char) (h : name ≠ []) :
    Spec.ValidName (sanitizeScopeName name) := by
  have hmap : ∀ c ∈ name.map (fun c => if scopeChar c then c else '_'),
      c.isAlphanum = true ∨ c ∈ ['_', '.', '/', '>', '-'] := by
    intro c hc
    obtain ⟨x, _, rfl⟩ := List.mem_map.1 hc
    by_cases hx : scopeChar x = true
    · simp only [hx, if_true]
      exact (scopeChar_iff x).1 hx
    · simp [hx]
  unfold sanitizeScopeName
  simp only
  split
  case isTrue ha =>
    refine ⟨?_, hmap⟩
    cases name with
    | nil => exact absurd rfl h
    | cons x xs =>
      refine ⟨_, rfl, Or.inl ?_⟩
      rw [List.all_eq_true] at ha
      rw [← alphanumeric_iff]
      exact ha _ (by simp)
  case isFalse ha =>
    refine ⟨⟨'F', rfl, Or.inl (by decide)⟩, ?_⟩
    intro c hc
    rcases List.mem_append.1 hc with hc | hc
    · simp only [List.mem_cons, List.not_mem_nil, or_false] at hc
      rcases hc with rfl | rfl
      · exact Or.inl (by decide)
      · exact Or.inr (by simp)
    · exact hmap c hc

/-- **C85, names** A name of letters and digits is kept; any other name gets a prefix, and every
character that TensorFlow does not accept becomes an underscore. -/
theorem placeholder_names (name : List Char) :
    ((∀ c ∈ name, c.isAlphanum = true) → sanitizeScopeName name = name) ∧
    ((∃ c ∈ name, c.isAlphanum = false) → sanitizeScopeName name = "F_".toList ++ name.map (fun c =>
      if c.isAlphanum = true ∨ c ∈ ['_', '.', '/', '>', '-'] then c else '_')) := by
  have hmap : name.map (fun c => if scopeChar c then c else '_') = name.map (fun c =>
      if c.isAlphanum = true ∨ c ∈ ['_', '.', '/', '>', '-'] then c else '_') := by
    apply List.map_congr_left
    intro c _
    by_cases h : scopeChar c = true
    · rw [if_pos h, if_pos ((scopeChar_iff c).1 h)]
    · rw [if_neg h, if_neg (fun hc => h ((scopeChar_iff c).2 hc))]
  constructor
  · intro h
    have hid : name.map (fun c => if scopeChar c then c else '_') = name := by
      conv_rhs => rw [← List.map_id name]
      apply List.map_congr_left
      intro c hc
      rw [if_pos ((scopeChar_iff c).2 (Or.inl (h c hc)))]
      rfl
    unfold sanitizeScopeName
    simp only [hid]
    rw [if_pos]
    rw [List.all_eq_true]
    intro c hc
    rw [alphanumeric_iff]
    exact h c hc
  · rintro ⟨c, hc, hn⟩
    unfold sanitizeScopeName
    simp only
    rw [if_neg, hmap]
    · rfl
    · rw [Bool.not_eq_true, List.all_eq_false]
      refine ⟨if scopeChar c then c else '_', List.mem_map.2 ⟨c, hc, rfl⟩, ?_⟩
      by_cases hs : scopeChar c = true
      · rw [if_pos hs, alphanumeric_iff, hn]
        simp
      · rw [if_neg hs]
        decide

/-- Names of features with characters that are not accepted. -/
example : sanitizeScopeName "x9".toList = "x9".toList ∧
    sanitizeScopeName "_a:é".toList = "F__a__".toList := by
  decide +kernel

end TFT.TypeSpecs
