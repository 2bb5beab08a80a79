import Verif.Vocab.ReduceProps

/-!
# Label cooccurrences of a batch (C49)
-/

namespace TFT.Reduce

variable {T : Type} [DecidableEq T]

/-! ## Specification: the representations of a batch -/

/-- The values of a batch of rows, each with the number of its row. -/
def indexed {α : Type} (rows : List (List α)) : List (Nat × α) :=
  (rows.zipIdx.map (fun p => p.1.map (fun t => (p.2, t)))).flatten

/-- Lists nested `d` deep. -/
def Deep (T : Type) : Nat → Type
  | 0 => T
  | d + 1 => List (Deep T d)

/-- The values inside a nested list. -/
def Deep.tokens : (d : Nat) → Deep T d → List T
  | 0, t => [t]
  | d + 1, l => List.flatMap (Deep.tokens d) l

/-- `value_rowids` of one level: for each value the number of its row. -/
def rowidsOf {α : Type} (b : List (List α)) : List Nat := (indexed b).map Prod.fst

/-- `nested_value_rowids` of a ragged tensor with `d + 1` ragged dimensions. -/
def nestedRowids : (d : Nat) → List (Deep T (d + 1)) → List (List Nat)
  | 0, b => [rowidsOf b]
  | d + 1, b => rowidsOf b :: nestedRowids d (List.flatten b)

/-- `flat_values` of a ragged tensor. -/
def flatVals : (d : Nat) → List (Deep T (d + 1)) → List T
  | 0, b => List.flatten b
  | d + 1, b => flatVals d (List.flatten b)

/-- `x` holds the rows, and `shape` is the shape of its tensor of values. -/
inductive Represents : XInput T → List Nat → List (List T) → Prop
  | dense (shape : List Nat) (rows : List (List T)) : Represents (.dense shape rows) shape rows
  | sparse (rows : List (List T)) :
      Represents (.sparse rows.length (indexed rows)) [rows.flatten.length] rows
  | ragged (d : Nat) (b : List (Deep T (d + 1))) :
      Represents (.ragged b.length (nestedRowids d b) (flatVals d b)) [(flatVals d b).length]
        (b.map (Deep.tokens (d + 1)))

/-- The weights given for the tokens of the instances, or none when every token counts 1. -/
def WeightsGiven (w : Option Weights) (shape : List Nat) (rows : List (Inst T)) : Prop :=
  (w = none ∧ ∀ r ∈ rows, ∀ t ∈ r.1, t.2 = 1)
    ∨ w = some ⟨shape, rows.flatMap (fun r => r.1.map Prod.snd)⟩

/-! ## Lemmas -/

theorem gather_ok {α : Type} (l : List α) (idx : List Nat) (r : List α)
    (h : idx.map (fun i => l[i]?) = r.map some) : gather l idx = .ok r := by
  unfold gather
  induction idx generalizing r with
  | nil =>
    cases r with
    | nil => rfl
    | cons a r => simp at h
  | cons i idx ih =>
    cases r with
    | nil => simp at h
    | cons a r =>
      simp only [List.map_cons, List.cons.injEq] at h
      have := ih r h.2
      simp only [List.map_cons, seqExcept, h.1, this, bind, Except.bind]

/-- Gathering by the row numbers gives each value the entry of its row. -/
theorem gather_indexed {α β : Type} (r : List β) (rows : List (List α)) (h : rows.length ≤ r.length) :
    gather r ((indexed rows).map Prod.fst)
      = .ok ((List.zipWith (fun i row => row.map (fun _ => i)) r rows).flatten) := by
  apply gather_ok
  have key : ∀ (pre r : List β) (rows : List (List α)), rows.length ≤ r.length →
      ((((rows.zipIdx pre.length).map (fun p => p.1.map (fun t => (p.2, t)))).flatten).map Prod.fst).map
        (fun i => (pre ++ r)[i]?)
      = ((List.zipWith (fun i row => row.map (fun _ => i)) r rows).flatten).map some := by
    intro pre r rows
    induction rows generalizing pre r with
    | nil => intro _; simp
    | cons row rows ih =>
      intro h
      cases r with
      | nil => simp at h
      | cons a r =>
        have := ih (pre ++ [a]) r (by simpa using h)
        simp only [List.length_append, List.length_singleton, List.append_assoc,
          List.singleton_append] at this
        simp only [List.zipIdx_cons, List.map_cons, List.flatten_cons, List.map_append,
          List.zipWith_cons_cons, this]
        congr 1
        simp only [List.map_map]
        apply List.map_congr_left
        intro t _
        simp [Function.comp]
  exact key [] r rows h

theorem composeRowids_append (outer : List (List Nat)) (r0 ids : List Nat) :
    composeRowids (outer ++ [r0]) ids = (composeRowids outer ids) >>= gather r0 := by
  induction outer generalizing ids with
  | nil =>
    simp only [List.nil_append, composeRowids, bind, Except.bind]
    cases gather r0 ids <;> rfl
  | cons r outer ih =>
    simp only [List.cons_append, composeRowids]
    cases h : gather r ids with
    | error e => rfl
    | ok v => simp only [bind, Except.bind] at ih ⊢; exact ih v

theorem raggedRows_cons (r0 : List Nat) (rest : List (List Nat)) (h : rest ≠ []) :
    raggedRows (r0 :: rest) = raggedRows rest >>= gather r0 := by
  unfold raggedRows
  rw [List.reverse_cons]
  cases hr : rest.reverse with
  | nil => exact absurd (by simpa using hr) h
  | cons inner outer =>
    simp only [List.cons_append]
    exact composeRowids_append outer r0 inner

theorem nestedRowids_ne (d : Nat) (b : List (Deep T (d + 1))) : nestedRowids d b ≠ [] := by
  cases d <;> simp [nestedRowids]

theorem indexed_snd {α : Type} (rows : List (List α)) : (indexed rows).map Prod.snd = rows.flatten := by
  unfold indexed
  rw [List.map_flatten, List.map_map]
  have : (List.map Prod.snd ∘ fun p : List α × Nat => p.1.map (fun t => (p.2, t))) = Prod.fst := by
    funext p
    simp [Function.comp]
  rw [this, List.zipIdx_map_fst]

theorem indexed_length {α : Type} (rows : List (List α)) :
    (indexed rows).length = rows.flatten.length := by rw [← indexed_snd, List.length_map]

theorem zip_rowids_rows {α : Type} (rows : List (List α)) :
    ((indexed rows).map Prod.fst).zip rows.flatten = indexed rows := by
  rw [← indexed_snd]
  exact (List.zip_of_prod rfl rfl).symm

theorem zipWith_rowids {α β : Type} (f : α → List β) (b : List (List α)) :
    (List.zipWith (fun i (row : List β) => row.map (fun _ => i)) (rowidsOf b) (b.flatten.map f)).flatten
      = (indexed (b.map (fun l => l.flatMap f))).map Prod.fst := by
  have key : ∀ (k : Nat) (b : List (List α)),
      (List.zipWith (fun i (row : List β) => row.map (fun _ => i))
        ((((b.zipIdx k).map (fun p => p.1.map (fun t => (p.2, t)))).flatten).map Prod.fst)
        (b.flatten.map f)).flatten
      = ((((b.map (fun l => l.flatMap f)).zipIdx k).map (fun p => p.1.map (fun t => (p.2, t)))).flatten).map
          Prod.fst := by
    intro k b
    induction b generalizing k with
    | nil => simp
    | cons l b ih =>
      simp only [List.zipIdx_cons, List.map_cons, List.flatten_cons, List.map_append, List.map_map]
      rw [List.zipWith_append (by simp), List.flatten_append, ih (k + 1)]
      congr 1
      clear ih
      induction l with
      | nil => simp
      | cons a l ih =>
        simp only [List.map_cons, List.zipWith_cons_cons, List.flatten_cons, ih, List.flatMap_cons,
          List.map_append]
        congr 1
  exact key 0 b

theorem flatten_map_flatten {α β : Type} (f : α → List β) (b : List (List α)) :
    (b.flatten.map f).flatten = (b.map (fun l => l.flatMap f)).flatten := by
  induction b with
  | nil => rfl
  | cons l b ih =>
    simp only [List.flatten_cons, List.map_append, List.flatten_append, List.map_cons, ih]
    rfl

theorem raggedRows_nested (d : Nat) (b : List (Deep T (d + 1))) :
    raggedRows (nestedRowids d b) = .ok ((indexed (b.map (Deep.tokens (d + 1)))).map Prod.fst)
      ∧ flatVals d b = (b.map (Deep.tokens (d + 1))).flatten := by
  induction d with
  | zero =>
    have e : b.map (Deep.tokens 1) = (b : List (List T)) := by
      conv_rhs => rw [← List.map_id b]
      apply List.map_congr_left
      intro l _
      have h1 : ∀ l : List T, List.flatMap (fun t => [t]) l = l := fun l => by simp
      exact h1 l
    rw [e]
    exact ⟨rfl, rfl⟩
  | succ d ih =>
    have hb := ih (List.flatten (b : List (List (Deep T (d + 1)))))
    have htok : (Deep.tokens (d + 1 + 1) : Deep T (d + 1 + 1) → List T)
        = fun l : List (Deep T (d + 1)) => l.flatMap (Deep.tokens (d + 1)) := rfl
    constructor
    · show raggedRows (rowidsOf (b : List (List (Deep T (d + 1)))) :: nestedRowids d _) = _
      rw [raggedRows_cons _ _ (nestedRowids_ne d _), hb.1]
      show gather _ _ = _
      rw [gather_indexed]
      · exact congrArg Except.ok (zipWith_rowids (Deep.tokens (d + 1)) b)
      · unfold rowidsOf
        rw [List.length_map, List.length_map]
        exact le_of_eq (indexed_length _).symm
    · show flatVals d (List.flatten (b : List (List (Deep T (d + 1))))) = _
      rw [hb.2, htok]
      exact flatten_map_flatten (Deep.tokens (d + 1)) b

theorem valuesAndRows_represents {x : XInput T} {shape rows} (h : Represents x shape rows) :
    valuesAndRows x rows.length = .ok (shape, indexed rows) := by
  cases h with
  | dense shape rows => simp [valuesAndRows, indexed]
  | sparse rows =>
    simp only [valuesAndRows, ne_eq, not_true, if_false]
    rw [← indexed_snd, List.length_map]
  | ragged d b =>
    simp only [valuesAndRows, List.length_map, Nat.lt_irrefl, if_false]
    obtain ⟨h1, h2⟩ := raggedRows_nested d b
    rw [h1]
    show Except.ok _ = _
    rw [h2, zip_rowids_rows]

theorem preprocess_occurrences (drop : T → Bool) {x : XInput T} {shape : List Nat}
    {rows : List (Inst T)} (h : Represents x shape (rows.map (fun r => r.1.map Prod.fst)))
    {w : Option Weights} (hw : WeightsGiven w shape rows) :
    preprocess drop x (rows.map Prod.snd) w = .ok (occurrences drop rows) := by
  have hv := valuesAndRows_represents h
  rw [List.length_map] at hv
  have hg := gather_indexed (rows.map Prod.snd) (rows.map (fun r => r.1.map Prod.fst)) (by simp)
  have hws : weightsFor shape (indexed (rows.map (fun r => r.1.map Prod.fst))).length w
      = .ok (rows.flatMap (fun r => r.1.map Prod.snd)) := by
    rcases hw with ⟨rfl, h1⟩ | rfl
    · simp only [weightsFor, Except.ok.injEq]
      symm
      rw [List.eq_replicate_iff]
      refine ⟨?_, ?_⟩
      · rw [indexed_length]
        simp [List.length_flatMap, List.length_flatten, Function.comp_def]
      · intro q hq
        obtain ⟨r, hr, hq⟩ := List.mem_flatMap.1 hq
        obtain ⟨t, ht, rfl⟩ := List.mem_map.1 hq
        exact h1 r hr t ht
    · simp [weightsFor]
  unfold preprocess
  rw [List.length_map, hv]
  simp only [bind, Except.bind]
  rw [hg]
  simp only
  rw [hws]
  simp only [Except.ok.injEq]
  unfold occurrences
  congr 1
  have key : ∀ (k : Nat) (rows : List (Inst T)),
      List.zipWith (fun (v : Nat × T) (p : Int × ℚ) => (⟨v.2, p.1, p.2⟩ : Occ T))
        ((((rows.map (fun r => r.1.map Prod.fst)).zipIdx k).map
          (fun p => p.1.map (fun t => (p.2, t)))).flatten)
        (((List.zipWith (fun i row => row.map (fun _ => i)) (rows.map Prod.snd)
          (rows.map (fun r => r.1.map Prod.fst))).flatten).zip (rows.flatMap (fun r => r.1.map Prod.snd)))
      = rows.flatMap (fun r => r.1.map (fun t => (⟨t.1, r.2, t.2⟩ : Occ T))) := by
    intro k rows
    induction rows generalizing k with
    | nil => rfl
    | cons r rows ih =>
      have ih := ih (k + 1)
      simp only [List.map_cons, List.zipIdx_cons, List.flatten_cons, List.zipWith_cons_cons,
        List.flatMap_cons]
      rw [List.zip_append (by simp), List.zipWith_append (by simp), ih]
      congr 1
      clear ih
      induction r.1 with
      | nil => rfl
      | cons t l ih => 
        simp only [List.map_cons, List.zip_cons_cons, List.zipWith_cons_cons, ih]
  exact key 0 rows

theorem reduceMax_spec (l : List Int) (hl : ∀ x ∈ l, -(2 ^ 63) ≤ x) (hne : l ≠ []) :
    reduceMax l ∈ l ∧ ∀ x ∈ l, x ≤ reduceMax l := by
  unfold reduceMax
  have key : ∀ (l : List Int) (a : Int), (l.foldl max a = a ∨ l.foldl max a ∈ l) ∧ a ≤ l.foldl max a
      ∧ ∀ x ∈ l, x ≤ l.foldl max a := by
    intro l
    induction l with
    | nil => intro a; simp
    | cons b l ih =>
      intro a
      obtain ⟨h1, h2, h3⟩ := ih (max a b)
      simp only [List.foldl_cons]
      refine ⟨?_, by omega, ?_⟩
      · rcases h1 with h1 | h1
        · rcases max_choice a b with h | h
          · left; rw [h1, h]
          · right; rw [h1, h]; simp
        · right; simp [h1]
      · intro x hx
        rcases List.mem_cons.1 hx with rfl | hx
        · omega
        · exact h3 x hx
  obtain ⟨h1, h2, h3⟩ := key l (-(2 ^ 63))
  refine ⟨?_, h3⟩
  rcases h1 with h1 | h1
  · obtain ⟨x, hx⟩ := List.exists_mem_of_ne_nil l hne
    have a1 := hl x hx
    have a2 := h3 x hx
    have : l.foldl max (-(2 ^ 63)) = x := by omega
    rw [this]; exact hx
  · exact h1

theorem mem_occurrences {drop : T → Bool} {rows : List (Inst T)} {o : Occ T}
    (h : o ∈ occurrences drop rows) : o.label ∈ rows.map Prod.snd := by
  obtain ⟨h, _⟩ := List.mem_filter.1 h
  obtain ⟨r, hr, ho⟩ := List.mem_flatMap.1 h
  obtain ⟨t, _, rfl⟩ := List.mem_map.1 ho
  exact List.mem_map.2 ⟨r, hr, rfl⟩

/-! ## Property -/

/-- The labels of instances: at least one, each -1 (missing) or a class, and `m` the largest. -/
def MaxLabel (rows : List (Inst T)) (m : Int) : Prop :=
  (∀ l ∈ rows.map Prod.snd, -1 ≤ l ∧ l ≤ m) ∧ m ∈ rows.map Prod.snd

theorem reduceMax_labels {rows : List (Inst T)} {m : Int} (h : MaxLabel rows m) :
    reduceMax (rows.map Prod.snd) = m := by
  obtain ⟨h1, h2⟩ := h
  obtain ⟨h3, h4⟩ := reduceMax_spec (rows.map Prod.snd)
    (fun x hx => by have := (h1 x hx).1; omega) (by intro h; rw [h] at h2; simp at h2)
  have := h4 m h2
  have := (h1 _ h3).2
  omega

/-- **C49** A batch of tokens with labels, dense, sparse or ragged of any depth, is reduced to its
distinct tokens and, for each, the number and total weight of its occurrences and the weight of its
occurrences with every label from 0 to the largest. -/
theorem cooccurrences_exact (drop : T → Bool) {x : XInput T} {shape : List Nat}
    {rows : List (Inst T)} (h : Represents x shape (rows.map (fun r => r.1.map Prod.fst)))
    {w : Option Weights} (hw : WeightsGiven w shape rows) {m : Int} (hm : MaxLabel rows m) :
    cooccurrences drop x (.dense (rows.map Prod.snd)) w
      = .ok (exactCounts (occurrences drop rows) m) := by
  unfold cooccurrences
  simp only
  rw [preprocess_occurrences drop h hw, reduceMax_labels hm]
  exact compute_exact _ _ (hm.1 m hm.2).1 (fun o ho => hm.1 _ (mem_occurrences ho))

/-- The row that the sentinel token adds: number and weight of all instances, and the weight of those
with every label. -/
def sentinelRow (ws : List (Int × ℚ)) (m : Int) : ℚ × List ℚ × Nat :=
  ((ws.map Prod.snd).sum,
   (List.range (m + 1).toNat).map (fun l : Nat =>
     ((ws.filter (fun p => decide (p.1 = (l : Int)))).map Prod.snd).sum),
   ws.length)

theorem exactCounts_single (s : T) (ws : List (Int × ℚ)) (m : Int) (hne : ws ≠ []) :
    exactCounts (ws.map (fun p => (⟨s, p.1, p.2⟩ : Occ T))) m
      = ⟨[s], [(sentinelRow ws m).1], [(sentinelRow ws m).2.1], [(sentinelRow ws m).2.2]⟩ := by
  have hu : tokensOf (ws.map (fun p => (⟨s, p.1, p.2⟩ : Occ T))) = [s] := by
    unfold tokensOf
    rw [List.map_map]
    have : (Occ.token ∘ fun p : Int × ℚ => (⟨s, p.1, p.2⟩ : Occ T)) = fun _ => s := rfl
    rw [this, List.map_const']
    have hnd := nodup_uniqFirst (List.replicate ws.length s)
    have hmem : ∀ t, t ∈ uniqFirst (List.replicate ws.length s) ↔ t = s := by
      intro t
      rw [mem_uniqFirst, List.mem_replicate]
      have : ws.length ≠ 0 := by simpa using hne
      tauto
    exact List.perm_singleton.1 ((List.perm_ext_iff_of_nodup hnd (List.nodup_singleton s)).2
      (fun t => by rw [hmem]; simp))
  unfold exactCounts
  rw [hu]
  simp only [List.map_cons, List.map_nil, WeightedCounts.mk.injEq, List.cons.injEq, and_true,
    true_and, sentinelRow, weightOf]
  refine ⟨?_, ?_, ?_⟩
  · simp [List.filter_map, Function.comp_def]
  · apply List.map_congr_left
    intro l _
    simp [List.filter_map, Function.comp_def]
  · simp [List.filter_map, Function.comp_def]

theorem flatMap_single {α β : Type} (l : List α) (f : α → β) : l.flatMap (fun a => [f a]) = l.map f :=
  List.map_eq_flatMap.symm

theorem sentinel_batch (sentinel : T) (inst : List (Int × ℚ)) {w : Option Weights}
    (hw : (w = none ∧ ∀ p ∈ inst, p.2 = 1) ∨ w = some ⟨[inst.length], inst.map Prod.snd⟩) {m : Int}
    (hm : (∀ l ∈ inst.map Prod.fst, -1 ≤ l ∧ l ≤ m) ∧ m ∈ inst.map Prod.fst) :
    cooccurrences (fun _ => false)
      (.dense [inst.length] (List.replicate inst.length [sentinel])) (.dense (inst.map Prod.fst)) w
      = .ok ⟨[sentinel], [(sentinelRow inst m).1], [(sentinelRow inst m).2.1],
          [(sentinelRow inst m).2.2]⟩ := by
  have hrows : (inst.map (fun p => ([(sentinel, p.2)], p.1))).map Prod.snd = inst.map Prod.fst := by
    rw [List.map_map]; rfl
  have hx : (inst.map (fun p => ([(sentinel, p.2)], p.1))).map (fun r : Inst T => r.1.map Prod.fst)
      = List.replicate inst.length [sentinel] := by
    rw [List.map_map]
    exact (List.map_const' (l := inst) (b := [sentinel]))
  have h := cooccurrences_exact (T := T) (fun _ => false)
    (rows := inst.map (fun p => ([(sentinel, p.2)], p.1))) (Represents.dense [inst.length] _) (w := w)
    (by
      rcases hw with ⟨h1, h2⟩ | h1
      · left
        refine ⟨h1, ?_⟩
        intro r hr t ht
        obtain ⟨p, hp, rfl⟩ := List.mem_map.1 hr
        simp only [List.mem_singleton] at ht
        subst ht
        exact h2 p hp
      · right
        rw [h1]
        simp [List.flatMap_map, flatMap_single])
    (m := m) (by unfold MaxLabel; rw [hrows]; exact hm)
  rw [hrows, hx] at h
  rw [h]
  have hne : inst ≠ [] := by rintro rfl; simp at hm
  rw [← exactCounts_single sentinel inst m hne]
  congr 2
  unfold occurrences
  simp [List.flatMap_map, flatMap_single]

/-- **C49** Without weights the reduced batch ends with the sentinel token, which counts the instances
of every label, each once however many tokens it has. -/
theorem reduced_batch_unweighted (drop : T → Bool) (sentinel : T) {x : XInput T} {shape : List Nat}
    {rows : List (Inst T)} (h : Represents x shape (rows.map (fun r => r.1.map Prod.fst)))
    (hw : ∀ r ∈ rows, ∀ t ∈ r.1, t.2 = 1) {m : Int} (hm : MaxLabel rows m) :
    reduceBatchWeightedCooccurrences drop sentinel x (.dense (rows.map Prod.snd)) none
      = .ok ⟨(exactCounts (occurrences drop rows) m).unique ++ [sentinel],
          (exactCounts (occurrences drop rows) m).weights ++ [(rows.length : ℚ)],
          (exactCounts (occurrences drop rows) m).positive
            ++ [(List.range (m + 1).toNat).map (fun l : Nat =>
                ((rows.filter (fun r => decide (r.2 = (l : Int)))).length : ℚ))],
          (exactCounts (occurrences drop rows) m).counts ++ [rows.length]⟩ := by
  have hs := sentinel_batch sentinel (rows.map (fun r => (r.2, (1 : ℚ)))) (w := none)
    (.inl ⟨rfl, by
      intro p hp
      obtain ⟨r, _, rfl⟩ := List.mem_map.1 hp
      rfl⟩) (m := m) (by rw [List.map_map]; exact hm)
  have e1 : (rows.map (fun r => (r.2, (1 : ℚ)))).map Prod.fst = rows.map Prod.snd := by
    rw [List.map_map]; rfl
  rw [e1, List.length_map] at hs
  unfold reduceBatchWeightedCooccurrences extendWithYCounts
  rw [cooccurrences_exact drop h (.inl ⟨rfl, hw⟩) hm]
  simp only [bind, Except.bind, YInput.batch, List.length_map]
  rw [hs]
  simp only [Except.ok.injEq, WeightedCounts.mk.injEq, true_and, List.append_cancel_left_eq,
    List.cons.injEq, and_true, sentinelRow]
  refine ⟨by simp [Function.comp_def], ?_, by simp⟩
  apply List.map_congr_left
  intro l _
  simp [List.filter_map, Function.comp_def]

/-- **C49** With weights, one token per instance: the sentinel token has the weight of all instances
and of the instances with every label. -/
theorem reduced_batch_weighted (drop : T → Bool) (sentinel : T) (rows : List (T × ℚ × Int)) {m : Int}
    (hm : (∀ r ∈ rows, -1 ≤ r.2.2 ∧ r.2.2 ≤ m) ∧ ∃ r ∈ rows, r.2.2 = m) :
    reduceBatchWeightedCooccurrences drop sentinel (.dense [rows.length] (rows.map (fun r => [r.1])))
        (.dense (rows.map (fun r => r.2.2))) (some ⟨[rows.length], rows.map (fun r => r.2.1)⟩)
      = .ok (
        let occs := (rows.map (fun r => (⟨r.1, r.2.2, r.2.1⟩ : Occ T))).filter (fun o => !drop o.token)
        ⟨(exactCounts occs m).unique ++ [sentinel],
          (exactCounts occs m).weights ++ [(rows.map (fun r => r.2.1)).sum],
          (exactCounts occs m).positive ++ [(List.range (m + 1).toNat).map (fun l : Nat =>
                ((rows.filter (fun r => decide (r.2.2 = (l : Int)))).map (fun r => r.2.1)).sum)],
          (exactCounts occs m).counts ++ [rows.length]⟩) := by
  set irows : List (Inst T) := rows.map (fun r => ([(r.1, r.2.1)], r.2.2)) with hi
  have e1 : irows.map Prod.snd = rows.map (fun r => r.2.2) := by rw [hi, List.map_map]; rfl
  have e2 : irows.map (fun r => r.1.map Prod.fst) = rows.map (fun r => [r.1]) := by
    rw [hi, List.map_map]; rfl
  have e3 : occurrences drop irows
      = (rows.map (fun r => (⟨r.1, r.2.2, r.2.1⟩ : Occ T))).filter (fun o => !drop o.token) := by
    unfold occurrences
    rw [hi]
    simp [List.flatMap_map, flatMap_single]
  have hm' : MaxLabel irows m := by
    unfold MaxLabel
    rw [e1]
    refine ⟨?_, ?_⟩
    · intro l hl
      obtain ⟨r, hr, rfl⟩ := List.mem_map.1 hl
      exact hm.1 r hr
    · obtain ⟨r, hr, h⟩ := hm.2
      exact List.mem_map.2 ⟨r, hr, h⟩
  have hc := cooccurrences_exact drop (rows := irows) (Represents.dense [rows.length] _)
    (w := some ⟨[rows.length], rows.map (fun r => r.2.1)⟩) (.inr (by
      rw [hi]; simp [List.flatMap_map, flatMap_single])) hm'
  rw [e1, e2, e3] at hc
  have hs := sentinel_batch sentinel (rows.map (fun r => (r.2.2, r.2.1)))
    (w := some ⟨[rows.length], rows.map (fun r => r.2.1)⟩)
    (.inr (by simp [Function.comp_def])) (m := m) (by
      unfold MaxLabel at hm'
      rw [e1] at hm'
      rw [List.map_map]
      exact hm')
  have e4 : (rows.map (fun r => (r.2.2, r.2.1))).map Prod.fst = rows.map (fun r => r.2.2) := by
    rw [List.map_map]; rfl
  rw [e4, List.length_map] at hs
  unfold reduceBatchWeightedCooccurrences extendWithYCounts
  rw [hc]
  simp only [bind, Except.bind, YInput.batch, List.length_map]
  rw [hs]
  simp only [Except.ok.injEq, WeightedCounts.mk.injEq, true_and, List.append_cancel_left_eq,
    List.cons.injEq, and_true, sentinelRow]
  refine ⟨by simp [Function.comp_def], ?_, by simp⟩
  apply List.map_congr_left
  intro l _
  simp [List.filter_map, Function.comp_def]

/-- **C49, negative** With weights, a batch whose instances have more than one token each (weights of
the same shape, as `tft.vocabulary` asks) cannot be reduced: the weights do not fit the sentinel. -/
theorem weighted_matrix_fails (drop : T → Bool) (sentinel : T) (rows : List (Inst T)) (k : Nat)
    {m : Int} (hm : MaxLabel rows m) :
    ∃ e, reduceBatchWeightedCooccurrences drop sentinel
      (.dense [rows.length, k] (rows.map (fun r => r.1.map Prod.fst))) (.dense (rows.map Prod.snd))
      (some ⟨[rows.length, k], rows.flatMap (fun r => r.1.map Prod.snd)⟩) = .error e := by
  refine ⟨"InvalidArgumentError: assertion failed", ?_⟩
  unfold reduceBatchWeightedCooccurrences extendWithYCounts
  rw [cooccurrences_exact drop (Represents.dense [rows.length, k] _) (.inr rfl) hm]
  simp only [bind, Except.bind, YInput.batch, List.length_map, cooccurrences, preprocess]
  have hv := valuesAndRows_represents (Represents.dense [rows.length]
    (List.replicate rows.length [sentinel]))
  rw [List.length_replicate] at hv
  rw [hv]
  have hg := gather_indexed (rows.map Prod.snd) (List.replicate rows.length [sentinel]) (by simp)
  simp only
  rw [hg]
  simp [weightsFor]

/-- **C49, negative** Labels of the shape of a matrix of tokens (allowed by the documentation of
`tft.vocabulary`, which flattens them, `analyzers.py:2183-2188`) are rejected unless the matrix has one
column. -/
theorem elementwise_labels_fail (drop : T → Bool) (sentinel : T) (k : Nat) (rows : List (List T))
    (y : List Int) (hk : k ≠ 1) (hn : rows ≠ []) (hy : y.length = rows.length * k) (w : Option Weights) :
    ∃ e, reduceBatchWeightedCooccurrences drop sentinel (.dense [rows.length, k] rows) (.dense y) w
      = .error e := by
  refine ⟨"InvalidArgumentError: assertion failed", ?_⟩
  have hne : rows.length ≠ y.length := by
    rw [hy]
    have : rows.length ≠ 0 := by simpa using hn
    intro h
    have : rows.length * 1 = rows.length * k := by omega
    exact hk (Nat.eq_of_mul_eq_mul_left (by omega) this).symm
  simp [reduceBatchWeightedCooccurrences, cooccurrences, preprocess, valuesAndRows, hne, bind,
    Except.bind]

/-! ### Several labels per instance -/

/-- The label in column `j` of instance `i`, if there is one. -/
def labelAt (entries : List ((Nat × Nat) × Int)) (i j : Nat) : Option Int :=
  (entries.find? (fun e => decide (e.1 = (i, j)))).map Prod.snd

/-- The instances with the labels of column `j`, -1 where there is none. -/
def withColumn (rows : List (List (T × ℚ))) (entries : List ((Nat × Nat) × Int)) (j : Nat) :
    List (Inst T) :=
  rows.zipIdx.map (fun p => (p.1, (labelAt entries p.2 j).getD (-1)))

theorem withColumn_snd (rows : List (List (T × ℚ))) (entries : List ((Nat × Nat) × Int)) (j : Nat) :
    (withColumn rows entries j).map Prod.snd
      = (List.range rows.length).map (fun i => (labelAt entries i j).getD (-1)) := by
  unfold withColumn
  rw [List.map_map]
  have : (Prod.snd ∘ fun p : List (T × ℚ) × Nat => (p.1, (labelAt entries p.2 j).getD (-1)))
      = (fun i => (labelAt entries i j).getD (-1)) ∘ Prod.snd := rfl
  rw [this, ← List.map_map, List.zipIdx_map_snd, List.range_eq_range']

theorem withColumn_fst (rows : List (List (T × ℚ))) (entries : List ((Nat × Nat) × Int)) (j : Nat) :
    (withColumn rows entries j).map Prod.fst = rows := by
  unfold withColumn
  rw [List.map_map]
  have : (Prod.fst ∘ fun p : List (T × ℚ) × Nat => (p.1, (labelAt entries p.2 j).getD (-1)))
      = Prod.fst := rfl
  rw [this, List.zipIdx_map_fst]

/-- An occurrence without its label. -/
def unlabel (o : Occ T) : T × ℚ := (o.token, o.weight)

/-- All the tokens of the rows that are kept, with their weights. -/
def keptTokens (drop : T → Bool) (rows : List (List (T × ℚ))) : List (T × ℚ) :=
  rows.flatten.filter (fun p => !drop p.1)

theorem occurrences_unlabel (drop : T → Bool) (rows : List (Inst T)) :
    (occurrences drop rows).map unlabel = keptTokens drop (rows.map Prod.fst) := by
  unfold occurrences keptTokens
  induction rows with
  | nil => rfl
  | cons r rows ih =>
    simp only [List.flatMap_cons, List.filter_append, List.map_append, ih, List.map_cons,
      List.flatten_cons]
    congr 1
    rw [List.filter_map, List.map_map]
    simp [unlabel, Function.comp_def]

theorem exactCounts_unlabel (occs : List (Occ T)) (m : Int) :
    (exactCounts occs m).unique = uniqFirst ((occs.map unlabel).map Prod.fst)
    ∧ (exactCounts occs m).weights = (uniqFirst ((occs.map unlabel).map Prod.fst)).map (fun t =>
        (((occs.map unlabel).filter (fun p => decide (p.1 = t))).map Prod.snd).sum)
    ∧ (exactCounts occs m).counts = (uniqFirst ((occs.map unlabel).map Prod.fst)).map (fun t =>
        ((occs.map unlabel).filter (fun p => decide (p.1 = t))).length) := by
  have hu : (occs.map unlabel).map Prod.fst = occs.map Occ.token := by rw [List.map_map]; rfl
  rw [hu]
  refine ⟨rfl, ?_, ?_⟩
  · apply List.map_congr_left
    intro t _
    unfold weightOf
    rw [List.filter_map, List.map_map]
    rfl
  · apply List.map_congr_left
    intro t _
    rw [List.filter_map, List.length_map]
    rfl

theorem sumMatrices_map {α : Type} (js : List Nat) (hne : js ≠ []) (us : List α) (k : Nat)
    (f : Nat → α → Nat → ℚ) :
    sumMatrices (js.map (fun j => us.map (fun t => (List.range k).map (fun l : Nat => f j t l))))
      = us.map (fun t => (List.range k).map (fun l : Nat => (js.map (fun j => f j t l)).sum)) := by
  have key : ∀ (js : List Nat) (g : α → Nat → ℚ),
      (js.map (fun j => us.map (fun t => (List.range k).map (fun l : Nat => f j t l)))).foldl
        (fun a b => List.zipWith (List.zipWith (· + ·)) a b)
        (us.map (fun t => (List.range k).map (fun l : Nat => g t l)))
      = us.map (fun t => (List.range k).map (fun l : Nat => g t l + (js.map (fun j => f j t l)).sum)) := by
    intro js
    induction js with
    | nil => intro g; simp
    | cons j js ih =>
      intro g
      simp only [List.map_cons, List.foldl_cons, List.sum_cons]
      have : List.zipWith (List.zipWith (· + ·))
          (us.map (fun t => (List.range k).map (fun l : Nat => g t l)))
          (us.map (fun t => (List.range k).map (fun l : Nat => f j t l)))
          = us.map (fun t => (List.range k).map (fun l : Nat => g t l + f j t l)) := by
        simp [List.zipWith_map, List.zipWith_self]
      rw [this, ih]
      simp only [add_assoc]
  cases js with
  | nil => exact absurd rfl hne
  | cons j js =>
    simp only [List.map_cons, sumMatrices, List.sum_cons]
    exact key js (f j)

/-- **C49** With several labels per instance (a sparse matrix of labels) every token has, for every
class, the weight of its occurrences in instances with that class, summed over the label columns; its
weight and count do not depend on the labels. -/
theorem multi_label_exact (drop : T → Bool) {x : XInput T} {shape : List Nat}
    {rows : List (List (T × ℚ))} (h : Represents x shape (rows.map (fun r => r.map Prod.fst)))
    {w : Option Weights} (hw : WeightsGiven w shape (rows.map (fun r => (r, (0 : Int)))))
    (cols : Nat) (hc : 0 < cols) (hr : rows ≠ []) (entries : List ((Nat × Nat) × Int)) {m : Int}
    (hlab : ∀ e ∈ entries, 0 ≤ e.2)
    (hm1 : ∀ i < rows.length, ∀ j < cols, (labelAt entries i j).getD 0 ≤ m)
    (hm2 : ∃ i < rows.length, ∃ j < cols, (labelAt entries i j).getD 0 = m) :
    cooccurrences drop x (.sparse rows.length cols entries) w = .ok
      (let kept := keptTokens drop rows
       let tokens := uniqFirst (kept.map Prod.fst)
       { unique := tokens
         weights := tokens.map (fun t => ((kept.filter (fun p => decide (p.1 = t))).map Prod.snd).sum)
         positive := tokens.map (fun t => (List.range (m + 1).toNat).map (fun l : Nat =>
           ((List.range cols).map (fun j =>
             weightOf (occurrences drop (withColumn rows entries j))
               (fun o => decide (o.token = t) && decide (o.label = (l : Int))))).sum))
         counts := tokens.map (fun t => (kept.filter (fun p => decide (p.1 = t))).length) }) := by
  have hpos : ∀ i j, 0 ≤ (labelAt entries i j).getD 0 := by
    intro i j
    unfold labelAt
    cases hf : entries.find? (fun e => decide (e.1 = (i, j))) with
    | none => simp
    | some e => simpa using hlab e (List.mem_of_find?_eq_some hf)
  have hm0 : 0 ≤ m := by
    obtain ⟨i, _, j, _, h⟩ := hm2
    rw [← h]; exact hpos i j
  have hmax : reduceMax (columns rows.length cols entries 0).flatten = m := by
    have hmem : ∀ v, v ∈ (columns rows.length cols entries 0).flatten ↔
        ∃ i < rows.length, ∃ j < cols, (labelAt entries i j).getD 0 = v := by
      intro v
      unfold columns
      simp only [List.mem_flatten, List.mem_map, List.mem_range]
      constructor
      · rintro ⟨l, ⟨j, hj, rfl⟩, hv⟩
        obtain ⟨i, hi, rfl⟩ := List.mem_map.1 hv
        exact ⟨i, List.mem_range.1 hi, j, hj, rfl⟩
      · rintro ⟨i, hi, j, hj, rfl⟩
        exact ⟨_, ⟨j, hj, rfl⟩, List.mem_map.2 ⟨i, List.mem_range.2 hi, rfl⟩⟩
    obtain ⟨h1, h2⟩ := reduceMax_spec (columns rows.length cols entries 0).flatten
      (by
        intro v hv
        obtain ⟨i, _, j, _, rfl⟩ := (hmem v).1 hv
        have := hpos i j
        omega)
      (by
        have := (hmem m).2 hm2
        intro h
        rw [h] at this
        simp at this)
    have h3 := h2 m ((hmem m).2 hm2)
    obtain ⟨i, hi, j, hj, he⟩ := (hmem _).1 h1
    have := hm1 i hi j hj
    omega
  have hcol : columns rows.length cols entries (-1)
      = (List.range cols).map (fun j => (withColumn rows entries j).map Prod.snd) := by
    unfold columns
    apply List.map_congr_left
    intro j _
    rw [withColumn_snd]
    rfl
  have hone : ∀ j < cols, (do
      let occs ← preprocess drop x ((withColumn rows entries j).map Prod.snd) w
      computeWeightedCounts occs m) = .ok (exactCounts (occurrences drop (withColumn rows entries j)) m) := by
    intro j hj
    have hrep : (withColumn rows entries j).map (fun r => r.1.map Prod.fst)
        = rows.map (fun r => r.map Prod.fst) := by
      conv_rhs => rw [← withColumn_fst rows entries j]
      rw [List.map_map]
      rfl
    have hwg : WeightsGiven w shape (withColumn rows entries j) := by
      have hfl : ∀ rs : List (Inst T), rs.flatMap (fun r => r.1.map Prod.snd)
          = (rs.map Prod.fst).flatMap (fun r => r.map Prod.snd) := by
        intro rs; rw [List.flatMap_map]
      rcases hw with ⟨h1, h2⟩ | h1
      · left
        refine ⟨h1, ?_⟩
        intro r hr t ht
        have : r.1 ∈ rows := by
          rw [← withColumn_fst rows entries j]
          exact List.mem_map.2 ⟨r, hr, rfl⟩
        exact h2 (r.1, 0) (List.mem_map.2 ⟨r.1, this, rfl⟩) t ht
      · right
        rw [h1, hfl, hfl, withColumn_fst, List.map_map]
        simp [Function.comp_def]
    rw [preprocess_occurrences drop (by rw [hrep]; exact h) hwg]
    apply compute_exact _ _ (by omega)
    intro o ho
    have hl := mem_occurrences ho
    rw [withColumn_snd] at hl
    obtain ⟨i, hi, hl⟩ := List.mem_map.1 hl
    rw [← hl]
    have h1 := hpos i j
    have h2 := hm1 i (List.mem_range.1 hi) j hj
    cases hla : labelAt entries i j with
    | none => simp; omega
    | some v => simp only [hla, Option.getD_some] at h1 h2 ⊢; omega
  unfold cooccurrences
  simp only
  rw [hmax, hcol, List.map_map]
  have hseq : seqExcept ((List.range cols).map ((fun col => (do
      let occs ← preprocess drop x col w
      computeWeightedCounts occs m)) ∘ fun j => (withColumn rows entries j).map Prod.snd))
      = .ok ((List.range cols).map (fun j =>
          exactCounts (occurrences drop (withColumn rows entries j)) m)) := by
    apply seqExcept_ok_map
    intro j hj
    exact hone j (List.mem_range.1 hj)
  rw [hseq]
  simp only [bind, Except.bind]
  have hfields : ∀ j, (exactCounts (occurrences drop (withColumn rows entries j)) m)
      = { unique := uniqFirst ((keptTokens drop rows).map Prod.fst)
          weights := (uniqFirst ((keptTokens drop rows).map Prod.fst)).map (fun t =>
            (((keptTokens drop rows).filter (fun p => decide (p.1 = t))).map Prod.snd).sum)
          positive := (uniqFirst ((keptTokens drop rows).map Prod.fst)).map (fun t =>
            (List.range (m + 1).toNat).map (fun l : Nat =>
              weightOf (occurrences drop (withColumn rows entries j))
                (fun o => decide (o.token = t) && decide (o.label = (l : Int)))))
          counts := (uniqFirst ((keptTokens drop rows).map Prod.fst)).map (fun t =>
            ((keptTokens drop rows).filter (fun p => decide (p.1 = t))).length) } := by
    intro j
    have hu := occurrences_unlabel drop (withColumn rows entries j)
    rw [withColumn_fst] at hu
    obtain ⟨h1, h2, h3⟩ := exactCounts_unlabel (occurrences drop (withColumn rows entries j)) m
    rw [hu] at h1 h2 h3
    have h4 : (exactCounts (occurrences drop (withColumn rows entries j)) m).positive
      = ((exactCounts (occurrences drop (withColumn rows entries j)) m).unique).map (fun t =>
            (List.range (m + 1).toNat).map (fun l : Nat =>
              weightOf (occurrences drop (withColumn rows entries j))
                (fun o => decide (o.token = t) && decide (o.label = (l : Int))))) := rfl
    rw [h1] at h4
    rw [← h2, ← h3, ← h4, ← h1]
  have hsum := sumMatrices_map (List.range cols) (by simp; omega)
    (uniqFirst ((keptTokens drop rows).map Prod.fst)) (m + 1).toNat
    (fun j t l => weightOf (occurrences drop (withColumn rows entries j))
                (fun o => decide (o.token = t) && decide (o.label = (l : Int))))
  obtain ⟨c, rfl⟩ : ∃ c, cols = c + 1 := ⟨cols - 1, by omega⟩
  have hpm : ((List.range (c + 1)).map (fun j =>
      exactCounts (occurrences drop (withColumn rows entries j)) m)).map WeightedCounts.positive
      = (List.range (c + 1)).map (fun j => (uniqFirst ((keptTokens drop rows).map Prod.fst)).map (fun t =>
            (List.range (m + 1).toNat).map (fun l : Nat =>
              weightOf (occurrences drop (withColumn rows entries j))
                (fun o => decide (o.token = t) && decide (o.label = (l : Int)))))) := by
    rw [List.map_map]
    apply List.map_congr_left
    intro j _
    simp only [Function.comp]
    rw [hfields j]
  rw [hpm, hsum]
  rw [List.range_succ_eq_map, List.map_cons]
  simp only
  rw [hfields 0]

/-! ### Sums over batches -/

/-- What a reduced batch says about a token and a label; nothing said is 0. -/
def entry (c : WeightedCounts T) (t : T) (l : Nat) : ℚ :=
  (((c.unique.zip c.positive).lookup t).getD []).getD l 0

/-- The weight that a reduced batch gives a token. -/
def tokenWeight (c : WeightedCounts T) (t : T) : ℚ := ((c.unique.zip c.weights).lookup t).getD 0

/-- The number of occurrences that a reduced batch gives a token. -/
def tokenCount (c : WeightedCounts T) (t : T) : Nat := ((c.unique.zip c.counts).lookup t).getD 0

theorem lookup_zip_map {β : Type} (us : List T) (f : T → β) (t : T) :
    (us.zip (us.map f)).lookup t = if t ∈ us then some (f t) else none := by
  induction us with
  | nil => rfl
  | cons u us ih =>
    simp only [List.map_cons, List.zip_cons_cons, List.lookup_cons]
    by_cases h : t = u
    · subst h; simp
    · have : (t == u) = false := by simpa using h
      rw [this, ih]
      simp [h]

theorem weightOf_not_mem {occs : List (Occ T)} {t : T} (h : t ∉ tokensOf occs) (q : Occ T → Bool) :
    weightOf occs (fun o => decide (o.token = t) && q o) = 0 := by
  unfold weightOf
  have : occs.filter (fun o => decide (o.token = t) && q o) = [] := by
    apply List.filter_eq_nil_iff.2
    intro o ho
    have hne : o.token ≠ t := by
      rintro rfl
      exact h (mem_tokens ho)
    simp [hne]
  rw [this]
  rfl

theorem entry_exact (occs : List (Occ T)) (m : Int) (hl : ∀ o ∈ occs, o.label ≤ m) (t : T) (l : Nat) :
    entry (exactCounts occs m) t l
      = weightOf occs (fun o => decide (o.token = t) && decide (o.label = (l : Int))) := by
  unfold entry exactCounts
  simp only
  rw [lookup_zip_map]
  by_cases h : t ∈ tokensOf occs
  · rw [if_pos h]
    simp only [Option.getD_some, List.getD_eq_getElem?_getD, List.getElem?_map]
    by_cases hlt : l < (m + 1).toNat
    · rw [List.getElem?_range hlt]
      rfl
    · rw [List.getElem?_eq_none (by simpa using hlt)]
      simp only [Option.map_none, Option.getD_none]
      symm
      unfold weightOf
      have : occs.filter (fun o => decide (o.token = t) && decide (o.label = (l : Int))) = [] := by
        apply List.filter_eq_nil_iff.2
        intro o ho
        have := hl o ho
        have : o.label ≠ (l : Int) := by omega
        simp [this]
      rw [this]
      rfl
  · rw [if_neg h, weightOf_not_mem h]
    simp

theorem tokenWeight_exact (occs : List (Occ T)) (m : Int) (t : T) :
    tokenWeight (exactCounts occs m) t = weightOf occs (fun o => decide (o.token = t)) := by
  unfold tokenWeight exactCounts
  simp only
  rw [lookup_zip_map]
  by_cases h : t ∈ tokensOf occs
  · rw [if_pos h]; rfl
  · have := weightOf_not_mem h (fun _ => true)
    simp only [Bool.and_true] at this
    rw [if_neg h, this]
    rfl

theorem tokenCount_exact (occs : List (Occ T)) (m : Int) (t : T) :
    tokenCount (exactCounts occs m) t = (occs.filter (fun o => decide (o.token = t))).length := by
  unfold tokenCount exactCounts
  simp only
  rw [lookup_zip_map]
  by_cases h : t ∈ tokensOf occs
  · rw [if_pos h]; rfl
  · rw [if_neg h]
    symm
    simp only [Option.getD_none, List.length_eq_zero_iff]
    apply List.filter_eq_nil_iff.2
    intro o ho
    have hne : o.token ≠ t := by
      rintro rfl
      exact h (mem_tokens ho)
    simp [hne]

/-- A batch as it is given to the reduction: its instances, how they are represented and weighted. -/
structure Batch (T : Type) where
  rows : List (Inst T)
  x : XInput T
  shape : List Nat
  w : Option Weights
  maxLabel : Int

/-- The batch is well formed. -/
def Batch.Ok (b : Batch T) : Prop :=
  Represents b.x b.shape (b.rows.map (fun r => r.1.map Prod.fst)) ∧ WeightsGiven b.w b.shape b.rows
    ∧ MaxLabel b.rows b.maxLabel

/-- **C49** Reducing the batches and summing over them gives, for every token and label, the totals of
counting the tokens of all the rows one by one, however the rows are cut into batches. -/
theorem sum_over_batches (drop : T → Bool) (bs : List (Batch T)) (hb : ∀ b ∈ bs, b.Ok) :
    ∃ rs : List (WeightedCounts T), bs.map (fun b => cooccurrences drop b.x (.dense (b.rows.map Prod.snd)) b.w) = rs.map Except.ok
      ∧ ∀ t, (∀ l, (rs.map (fun r => entry r t l)).sum
            = weightOf (occurrences drop (bs.flatMap Batch.rows))
                (fun o => decide (o.token = t) && decide (o.label = (l : Int))))
          ∧ (rs.map (fun r => tokenWeight r t)).sum
            = weightOf (occurrences drop (bs.flatMap Batch.rows)) (fun o => decide (o.token = t))
          ∧ (rs.map (fun r => tokenCount r t)).sum
            = ((occurrences drop (bs.flatMap Batch.rows)).filter (fun o => decide (o.token = t))).length := by
  refine ⟨bs.map (fun b => exactCounts (occurrences drop b.rows) b.maxLabel), ?_, ?_⟩
  · rw [List.map_map]
    apply List.map_congr_left
    intro b hb'
    obtain ⟨h1, h2, h3⟩ := hb b hb'
    exact cooccurrences_exact drop h1 h2 h3
  · intro t
    have hocc : occurrences drop (bs.flatMap Batch.rows)
        = bs.flatMap (fun b => occurrences drop b.rows) := by
      clear hb
      induction bs with
      | nil => rfl
      | cons b bs ih =>
        simp only [List.flatMap_cons]
        rw [← ih]
        unfold occurrences
        rw [List.flatMap_append, List.filter_append]
    have hw : ∀ p : Occ T → Bool, weightOf (bs.flatMap (fun b => occurrences drop b.rows)) p
        = (bs.map (fun b => weightOf (occurrences drop b.rows) p)).sum := by
      intro p
      clear hb hocc
      induction bs with
      | nil => rfl
      | cons b bs ih =>
        simp only [List.flatMap_cons, List.map_cons, List.sum_cons, ← ih]
        unfold weightOf
        rw [List.filter_append, List.map_append, List.sum_append]
    rw [hocc]
    refine ⟨?_, ?_, ?_⟩
    · intro l
      rw [hw, List.map_map]
      congr 1
      apply List.map_congr_left
      intro b hb'
      obtain ⟨h1, h2, h3⟩ := hb b hb'
      exact entry_exact _ _ (fun o ho => (h3.1 _ (mem_occurrences ho)).2) t l
    · rw [hw, List.map_map]
      congr 1
      apply List.map_congr_left
      intro b hb'
      exact tokenWeight_exact _ _ t
    · rw [List.filter_flatMap, List.length_flatMap, List.map_map]
      congr 1
      apply List.map_congr_left
      intro b hb'
      exact tokenCount_exact _ _ t

/-- **C49** `sum_labeled_weights` is the componentwise sum, missing labels counting 0. -/
theorem sum_labeled_weights_exact (accs : List (ℚ × List ℚ)) :
    (sumLabeledWeights accs).1 = (accs.map Prod.fst).sum
    ∧ ∀ l, (sumLabeledWeights accs).2.getD l 0 = (accs.map (fun a => a.2.getD l 0)).sum := by
  have hadd : ∀ (a b : List ℚ) (l : Nat), (addLabeled a b).getD l 0 = a.getD l 0 + b.getD l 0 := by
    intro a b l
    unfold addLabeled
    simp only [List.getD_eq_getElem?_getD, List.getElem?_zipWith, List.getElem?_append,
      List.getElem?_replicate]
    by_cases ha : l < a.length <;> by_cases hb : l < b.length <;> simp [ha, hb]
    · rw [if_pos (by omega)]; simp
    · rw [if_pos (by omega)]; simp
    · rw [if_neg (by omega), if_neg (by omega)]
      simp
  have key : ∀ (s : ℚ × List ℚ),
      (accs.foldl (fun s a => (s.1 + a.1, addLabeled s.2 a.2)) s).1 = s.1 + (accs.map Prod.fst).sum
      ∧ ∀ l, (accs.foldl (fun s a => (s.1 + a.1, addLabeled s.2 a.2)) s).2.getD l 0
        = s.2.getD l 0 + (accs.map (fun a => a.2.getD l 0)).sum := by
    induction accs with
    | nil => intro s; simp
    | cons a accs ih =>
      intro s
      obtain ⟨h1, h2⟩ := ih (s.1 + a.1, addLabeled s.2 a.2)
      simp only [List.foldl_cons, List.map_cons, List.sum_cons]
      refine ⟨by rw [h1]; ring, fun l => by rw [h2, hadd]; ring⟩
  obtain ⟨h1, h2⟩ := key (0, [])
  exact ⟨by unfold sumLabeledWeights; rw [h1]; simp, fun l => by unfold sumLabeledWeights; rw [h2]; simp⟩

/-! ### Non-vacuity and limits -/

/-- A batch of two instances, `["a", "b"]` with label 1 and `["a"]` with label 0. -/
def exampleRows : List (Inst String) := [([("a", 1), ("b", 1)], 1), ([("a", 1)], 0)]

example : MaxLabel exampleRows 1 := by
  unfold MaxLabel exampleRows; decide

/-- The same rows, sparse and ragged. -/
example : (reduceBatchWeightedCooccurrences (fun _ => false) "*"
      (.sparse 2 [(0, "a"), (0, "b"), (1, "a")]) (.dense [1, 0]) none).toOption
    = some ⟨["a", "b", "*"], [2, 1, 2], [[1, 1], [0, 1], [1, 1]], [2, 1, 2]⟩
    ∧ (reduceBatchWeightedCooccurrences (fun _ => false) "*"
      (.ragged 2 [[0, 0, 1]] ["a", "b", "a"]) (.dense [1, 0]) none).toOption
    = some ⟨["a", "b", "*"], [2, 1, 2], [[1, 1], [0, 1], [1, 1]], [2, 1, 2]⟩ := by
  constructor <;> decide +kernel

/-- Dense labels below -1 are not rejected. The occurrence of "b" with label -2 is counted as an
occurrence of "a" with label 1. -/
theorem label_below_minus_one_misattributed :
    ∃ r, cooccurrences (fun _ => false) (.dense [3] [["a"], ["b"], ["c"]]) (.dense [0, -2, 2]) none
        = .ok r
      ∧ entry r "a" 1 = 1 := by
  exact ⟨_, rfl, by decide +kernel⟩

/-- The number of instances of a batch of tokens. -/
def XInput.instances : XInput T → Nat
  | .dense _ rows => rows.length
  | .sparse batch _ => batch
  | .ragged nrows _ _ => nrows

/-- **C49** Labels for another number of instances than the tokens are an error; for a ragged tensor
only if there are too few of them. -/
theorem labels_mismatch (drop : T → Bool) (x : XInput T) (y : List Int) (w : Option Weights)
    (h : y.length < x.instances ∨
      (x.instances < y.length ∧ ∀ n r v, x ≠ .ragged n r v)) :
    ∃ e, cooccurrences drop x (.dense y) w = .error e := by
  have hv : ∃ e, valuesAndRows x y.length = .error e := by
    unfold valuesAndRows
    cases x with
    | dense shape rows =>
      simp only [XInput.instances] at h
      exact ⟨_, if_pos (by omega)⟩
    | sparse batch entries =>
      simp only [XInput.instances] at h
      exact ⟨_, if_pos (by omega)⟩
    | ragged n r v =>
      simp only [XInput.instances] at h
      rcases h with h | h
      · exact ⟨_, if_pos h⟩
      · exact absurd rfl (h.2 n r v)
  obtain ⟨e, he⟩ := hv
  refine ⟨e, ?_⟩
  unfold cooccurrences preprocess
  simp only [he]
  rfl

/-- One label for two instances. -/
example : ∃ e, cooccurrences (fun _ => false) (.ragged 2 [[0, 1]] ["a", "b"]) (.dense [1]) none
    = .error e := labels_mismatch _ _ _ _ (Or.inl (by decide))

end TFT.Reduce
