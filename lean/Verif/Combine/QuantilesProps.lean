import Verif.Combine.Quantiles
import Verif.Combine.SchedLemmas
import Verif.Mappers.BucketsProps
import Mathlib.Algebra.BigOperators.Group.List.Basic
import Mathlib.Algebra.Order.BigOperators.Group.List
import Mathlib.Data.Finset.Max
import Mathlib.Data.Finset.Dedup
import Mathlib.Tactic.Linarith
import Mathlib.Tactic.Ring
import Mathlib.Tactic.FieldSimp

/-!
# C72: quantiles and bucketize divide the data into approximately equal parts
-/

namespace TFT.Quantiles

open TFT.Buckets

variable {S α : Type}

/-! ## Specification -/

namespace Spec

/-- The values of feature `j` in one batch with their weights. The batch has `f` features, the
values are listed instance by instance, every instance has one weight. Values that are NaN and
values whose weight is NaN are left out. -/
def column (f j : Nat) (values : List (Option α)) (weights : List (Option ℚ)) : List (α × ℚ) :=
  (List.range weights.length).filterMap (fun i =>
    (values[i * f + j]?.join).bind (fun v => (weights[i]?.join).map (fun w => (v, w))))

/-- The weights of a batch: the ones given, or one for every instance. -/
def weightsOf (hasWeights : Bool) (f : Nat) (b : Input α) : List (Option ℚ) :=
  if hasWeights then b.weights else List.replicate (b.values.length / f) (some 1)

/-- The values of feature `j` with their weights in the whole dataset. -/
def dataset (hasWeights : Bool) (f j : Nat) (batches : List (Input α)) : List (α × ℚ) :=
  batches.flatMap (fun b => column f j b.values (weightsOf hasWeights f b))

/-- The total weight of the values with a property. -/
def weight (d : List (α × ℚ)) (P : α → Prop) [DecidablePred P] : ℚ :=
  ((d.filter (fun e => decide (P e.1))).map (·.2)).sum

/-- The total weight. -/
def total (d : List (α × ℚ)) : ℚ := (d.map (·.2)).sum

/-- `q` are `n`-quantiles of the data up to a rank error of `ε`: `n + 1` sorted values of the data, and at most
a share `j/n + ε` of the data is below value number `j` and at least a share `j/n - ε` is at most
that value. -/
structure Approx [LinearOrder α] (ε : ℚ) (n : Nat) (d : List (α × ℚ)) (q : List α) : Prop where
  len : q.length = n + 1
  sorted : q.Pairwise (· ≤ ·)
  mem : ∀ v ∈ q, v ∈ d.map (·.1)
  rank : ∀ (j : Nat) (v : α), q[j]? = some v →
    weight d (· < v) ≤ (j / n + ε) * total d ∧ (j / n - ε) * total d ≤ weight d (· ≤ v)

/-- **The contract of `tfx_bsl.sketches.QuantilesSketch`** (trusted; C++ code outside of the
repository), for a sketch made with `new ε m f`. `Rep s d` says that the sketch has seen the data
`d j` for the features `j < f`, in some order. -/
structure Contract [LinearOrder α] (api : SketchApi S α) (ε : ℚ) (m f : Nat)
    (Rep : S → (Nat → List (α × ℚ)) → Prop) : Prop where
  /-- A new sketch has seen nothing. -/
  new : Rep (api.new ε m f) (fun _ => [])
  /-- The order does not matter. -/
  perm : ∀ s d d', (∀ j, (d j).Perm (d' j)) → Rep s d → Rep s d'
  /-- `AddValues(values)` counts every value once. -/
  add : ∀ s d values (k : Nat), Rep s d → values.length = k * f →
    ∃ s', api.addValues s values = .ok s' ∧
      Rep s' (fun j => d j ++ column f j values (List.replicate k (some 1)))
  /-- `AddValues(values, weights)` needs one weight for every instance. -/
  addWeighted : ∀ s d values weights, Rep s d → values.length = weights.length * f →
    ∃ s', api.addWeighted s values weights = .ok s' ∧
      Rep s' (fun j => d j ++ column f j values weights)
  /-- Another number of weights is an error. -/
  badWeights : ∀ s d values weights, Rep s d → values.length ≠ weights.length * f →
    ∃ e, api.addWeighted s values weights = .error e
  /-- `Merge`. -/
  merge : ∀ s t d d', Rep s d → Rep t d' →
    ∃ s', api.merge s t = .ok s' ∧ Rep s' (fun j => d j ++ d' j)
  /-- `Compact`. -/
  compact : ∀ s d, Rep s d → ∃ s', api.compact s = .ok s' ∧ Rep s' d
  /-- `GetQuantiles(n)` of an empty sketch is empty. -/
  empty : ∀ s d n, Rep s d → 1 ≤ n → (∀ j, j < f → d j = []) → api.getQuantiles s n = []
  /-- `GetQuantiles(n)` has the promised rank error, unless there are more than `m` values. -/
  quantiles : ∀ s d n, Rep s d → 1 ≤ n → (∀ j, j < f → (d j).length ≤ m) →
    (∀ j, j < f → ∀ e ∈ d j, 0 ≤ e.2) → (∀ j, j < f → 0 < total (d j)) →
    ∃ q : Nat → List α, api.getQuantiles s n = (List.range f).map q ∧
      ∀ j, j < f → Approx ε n (d j) (q j)

/-- A batch is as the API requires: `f` values per instance, one weight per instance, no negative
weight. -/
structure GoodBatch (hasWeights : Bool) (f : Nat) (b : Input α) : Prop where
  values : ∃ k : Nat, b.values.length = k * f
  weights : hasWeights = true → b.values.length = b.weights.length * f
  nonneg : hasWeights = true → ∀ w, some w ∈ b.weights → 0 ≤ w

end Spec

open Spec

/-! ## Weights of sets of values -/

section weights

theorem weight_add_not (d : List (α × ℚ)) (P Q R : α → Prop) [DecidablePred P] [DecidablePred Q]
    [DecidablePred R] (h : ∀ e ∈ d, (R e.1 ↔ (P e.1 ∨ Q e.1)) ∧ ¬ (P e.1 ∧ Q e.1)) :
    weight d R = weight d P + weight d Q := by
  induction d with
  | nil => simp [weight]
  | cons e d ih =>
    have ih := ih (fun x hx => h x (List.mem_cons_of_mem _ hx))
    have he := h e (List.mem_cons_self)
    unfold weight at ih ⊢
    simp only [List.filter_cons]
    by_cases hp : P e.1
    · have hq : ¬ Q e.1 := fun hq => he.2 ⟨hp, hq⟩
      have hr : R e.1 := he.1.2 (Or.inl hp)
      simp only [hp, hq, hr, decide_true, decide_false, if_true, List.map_cons, List.sum_cons,
        Bool.false_eq_true, if_false]
      rw [ih]; ring
    · by_cases hq : Q e.1
      · have hr : R e.1 := he.1.2 (Or.inr hq)
        simp only [hp, hq, hr, decide_true, decide_false, if_true, List.map_cons, List.sum_cons,
          Bool.false_eq_true, if_false]
        rw [ih]; ring
      · have hr : ¬ R e.1 := fun hr => (he.1.1 hr).elim hp hq
        simp only [hp, hq, hr, decide_false, Bool.false_eq_true, if_false]
        exact ih

theorem weight_nonneg (d : List (α × ℚ)) (hd : ∀ e ∈ d, 0 ≤ e.2) (P : α → Prop)
    [DecidablePred P] : 0 ≤ weight d P := by
  unfold weight
  apply List.sum_nonneg
  intro x hx
  obtain ⟨e, he, rfl⟩ := List.mem_map.1 hx
  exact hd e (List.mem_of_mem_filter he)

theorem weight_congr (d : List (α × ℚ)) (P Q : α → Prop) [DecidablePred P] [DecidablePred Q]
    (h : ∀ e ∈ d, (P e.1 ↔ Q e.1)) : weight d P = weight d Q := by
  unfold weight
  congr 2
  apply List.filter_congr
  intro e he
  simp [h e he]

theorem weight_true (d : List (α × ℚ)) (P : α → Prop) [DecidablePred P] (h : ∀ e ∈ d, P e.1) :
    weight d P = total d := by
  unfold weight total
  rw [List.filter_eq_self.2]
  intro e he
  simp [h e he]

theorem weight_false (d : List (α × ℚ)) (P : α → Prop) [DecidablePred P]
    (h : ∀ e ∈ d, ¬ P e.1) : weight d P = 0 := by
  unfold weight
  rw [List.filter_eq_nil_iff.2]
  · rfl
  · intro e he
    simp [h e he]

variable [LinearOrder α]

/-- The heart of the matter: if `q` are approximate quantiles, the weight of every bucket between
two of them is about `1/n` of the total, up to the error of the two boundaries and to the heaviest
single value. -/
theorem bucket_weight (ε : ℚ) (hε : 0 ≤ ε) (n : Nat) (hn : 1 ≤ n) (d : List (α × ℚ))
    (hd : ∀ e ∈ d, 0 ≤ e.2) (q : List α) (hq : Approx ε n d q) (T : ℚ)
    (hT : ∀ v, weight d (· = v) ≤ T) (i : Nat) (hi : i < n) :
    |weight d (fun v => searchsortedRight (trim q) (some v) = i) - total d / n|
      ≤ 2 * ε * total d + T := by
  have hlen : (trim q).length = n - 1 := by simp [trim, hq.len]
  have hget : ∀ k (h : k < (trim q).length), q[k + 1]? = some (trim q)[k] := by
    intro k h
    have h1 : k + 1 < q.length := by have := hq.len; omega
    rw [List.getElem?_eq_getElem h1]
    simp [trim]
  have hs : (trim q).Pairwise (· ≤ ·) := by
    unfold trim
    exact (hq.sorted.sublist ((List.dropLast_sublist _).trans (List.drop_sublist _ _)))
  have hsp := searchsortedRight_spec (trim q) hs
  have hW : 0 ≤ total d := by
    have := weight_nonneg d hd (fun _ => True)
    rwa [weight_true d _ (fun _ _ => trivial)] at this
  have hT0 : 0 ≤ T := by
    have h0 : 0 < q.length := by rw [hq.len]; omega
    exact (weight_nonneg d hd _).trans (hT q[0])
  have hn0 : (0 : ℚ) < n := by exact_mod_cast hn
  -- the weight below boundary number `k`
  have F : ∀ k, k ≤ n →
      weight d (fun v => searchsortedRight (trim q) (some v) < k) ≤ (k / n + ε) * total d ∧
      (k / n - ε) * total d - T ≤ weight d (fun v => searchsortedRight (trim q) (some v) < k) := by
    intro k hk
    rcases Nat.eq_zero_or_pos k with rfl | hk0
    · rw [weight_false _ _ (by simp)]
      constructor
      · simp only [Nat.cast_zero, zero_div, zero_add]; exact mul_nonneg hε hW
      · simp only [Nat.cast_zero, zero_div, zero_sub]
        have := mul_nonneg hε hW
        linarith
    · rcases Nat.lt_or_ge k n with hkn | hkn
      · have hb : k - 1 < (trim q).length := by omega
        have hr := hq.rank k (trim q)[k - 1] (by
          have := hget (k - 1) hb
          rwa [Nat.sub_add_cancel hk0] at this)
        have he : weight d (fun v => searchsortedRight (trim q) (some v) < k)
            = weight d (· < (trim q)[k - 1]) := by
          apply weight_congr
          intro e _
          have := (hsp e.1).2 (k - 1) hb
          rw [← not_le, ← not_le, ← this]
          omega
        have h2 : weight d (· ≤ (trim q)[k - 1])
            = weight d (· < (trim q)[k - 1]) + weight d (· = (trim q)[k - 1]) := by
          apply weight_add_not
          intro e _
          refine ⟨le_iff_lt_or_eq, ?_⟩
          rintro ⟨h, h'⟩
          exact h.ne h'
        have h3 := hT (trim q)[k - 1]
        rw [he]
        constructor
        · exact hr.1
        · have := hr.2
          linarith
      · have hkn : k = n := le_antisymm hk hkn
        subst hkn
        rw [weight_true _ _ (by
          intro e _
          have := (hsp e.1).1
          omega)]
        have h1 : ((k : ℚ) / k) = 1 := by field_simp
        rw [h1]
        have := mul_nonneg hε hW
        constructor <;> linarith
  have hsplit : weight d (fun v => searchsortedRight (trim q) (some v) < i + 1)
      = weight d (fun v => searchsortedRight (trim q) (some v) < i)
        + weight d (fun v => searchsortedRight (trim q) (some v) = i) := by
    apply weight_add_not
    intro e _
    omega
  obtain ⟨a1, a2⟩ := F i hi.le
  obtain ⟨b1, b2⟩ := F (i + 1) hi
  have e1 : (((i + 1 : ℕ) : ℚ) / n) * total d = (i / n) * total d + total d / n := by
    push_cast; field_simp
  rw [abs_le]
  constructor
  · nlinarith [e1]
  · nlinarith [e1]

end weights

/-! ## The combiner keeps the data -/

section combiner

variable [LinearOrder α]

theorem mergeInto_ok {api : SketchApi S α} {ε : ℚ} {m f : Nat}
    {Rep : S → (Nat → List (α × ℚ)) → Prop} (C : Contract api ε m f Rep)
    (as : List S) (ds : List (Nat → List (α × ℚ))) (h : List.Forall₂ Rep as ds) :
    ∀ (a : S) (d : Nat → List (α × ℚ)), Rep a d →
    ∃ r, mergeInto api a as = .ok r ∧ Rep r (fun j => d j ++ (ds.map (fun d => d j)).flatten) := by
  induction h with
  | nil =>
    intro a d ha
    exact ⟨a, rfl, by simpa using ha⟩
  | cons h1 _ ih =>
    rename_i b d' bs ds' _
    intro a d ha
    obtain ⟨r, hr, hrep⟩ := C.merge a b d d' ha h1
    obtain ⟨r', hr', hrep'⟩ := ih r _ hrep
    refine ⟨r', ?_, ?_⟩
    · show (api.merge a b >>= fun r => mergeInto api r bs) = _
      rw [hr]; exact hr'
    · simpa [List.append_assoc] using hrep'

theorem combiner_total [Zero α] {api : SketchApi S α} {p : Params}
    {Rep : S → (Nat → List (α × ℚ)) → Prop} (hf : 0 < p.numFeatures)
    (C : Contract api p.epsilon p.maxNumValues p.numFeatures Rep) :
    Sched.Total (combiner api p) (GoodBatch p.hasWeights p.numFeatures)
      (fun s l => Rep s (fun j => dataset p.hasWeights p.numFeatures j l)) := by
  refine ⟨?_, ?_, ?_, ?_⟩
  · exact C.new
  · intro a l b ha hb
    show ∃ a', addInput api p a b = _ ∧ _
    unfold addInput
    by_cases hw : p.hasWeights = true
    · simp only [hw, if_true] at ha ⊢
      obtain ⟨s', h1, h2⟩ := C.addWeighted a _ b.values b.weights ha (hb.weights hw)
      exact ⟨s', h1, by simpa [dataset, weightsOf] using h2⟩
    · simp only [Bool.not_eq_true] at hw
      simp only [hw, Bool.false_eq_true, if_false] at ha ⊢
      obtain ⟨k, hk⟩ := hb.values
      obtain ⟨s', h1, h2⟩ := C.add a _ b.values k ha hk
      refine ⟨s', h1, ?_⟩
      have : b.values.length / p.numFeatures = k := by rw [hk]; exact Nat.mul_div_cancel _ hf
      simpa [dataset, weightsOf, this] using h2
  · intro as ls hne h
    cases h with
    | nil => exact absurd rfl hne
    | cons h1 h2 =>
      rename_i a l as' ls'
      obtain ⟨r, hr, hrep⟩ := mergeInto_ok C as'
        (ls'.map (fun l j => dataset p.hasWeights p.numFeatures j l)) (by
          rw [List.forall₂_map_right_iff]
          exact h2) a _ h1
      refine ⟨r, hr, ?_⟩
      refine C.perm _ _ _ ?_ hrep
      intro j
      apply List.Perm.of_eq
      simp only [dataset, List.flatten_cons, List.flatMap_append, List.map_map]
      congr 1
      rw [List.flatMap_def, List.map_flatten, List.flatten_flatten, List.map_map]
      congr 1
  · intro a l ha
    exact C.compact a _ ha

omit [LinearOrder α] in
theorem dataset_perm (hw : Bool) (f j : Nat) (l l' : List (Input α)) (h : l.Perm l') :
    (dataset hw f j l).Perm (dataset hw f j l') := h.flatMap_right _

omit [LinearOrder α] in
theorem dataset_nonneg (hw : Bool) (f j : Nat) (l : List (Input α))
    (h : ∀ b ∈ l, GoodBatch hw f b) : ∀ e ∈ dataset hw f j l, 0 ≤ e.2 := by
  intro e he
  obtain ⟨b, hb, he⟩ := List.mem_flatMap.1 he
  obtain ⟨i, _, he⟩ := List.mem_filterMap.1 he
  obtain ⟨v, _, he⟩ := Option.bind_eq_some_iff.1 he
  obtain ⟨w, hw', rfl⟩ := Option.map_eq_some_iff.1 he
  have hmem : some w ∈ weightsOf hw f b := by
    rw [Option.join_eq_some_iff] at hw'
    exact List.mem_of_getElem? hw'
  unfold weightsOf at hmem
  by_cases hh : hw = true
  · simp only [hh, if_true] at hmem
    exact (h b hb).nonneg hh w hmem
  · simp only [hh] at hmem
    have := List.eq_of_mem_replicate hmem
    simp only [Option.some.injEq] at this
    simp [this]

end combiner

/-! ## Quantiles -/

section quantiles

variable [LinearOrder α] [Zero α]

/-- The number of features that are analyzed separately: one, or with `reduce_instance_dims=False`
one for every position of an instance. -/
def Spec.features (reduceInstanceDims : Bool) (instanceShape : List Nat) : Nat :=
  if reduceInstanceDims then 1 else instanceShape.prod

/-- The documented shape of the boundaries: `num_buckets - 1` for every feature. -/
def Spec.boundaryShape (n : Nat) (reduceInstanceDims : Bool) (instanceShape : List Nat) :
    List Nat :=
  if reduceInstanceDims ∨ instanceShape = [] then [1, n - 1] else instanceShape ++ [n - 1]

omit [LinearOrder α] [Zero α] in
theorem quantilesParams_eq (n : Nat) (ε : ℚ) (hw rid : Bool) (sh : List Nat) :
    quantilesParams n ε hw rid sh
      = ⟨n, ε, 2 ^ 32, hw, false, boundaryShape n rid sh, features rid sh⟩ := by
  cases rid
  · by_cases h : sh = []
    · subst h; rfl
    · simp [quantilesParams, mkParams, boundaryShape, features, h]
  · rfl

omit [LinearOrder α] [Zero α] in
theorem boundaryShape_prod (n : Nat) (rid : Bool) (sh : List Nat) :
    (boundaryShape n rid sh).prod = features rid sh * (n - 1) := by
  unfold boundaryShape features
  cases rid
  · by_cases h : sh = []
    · subst h; simp
    · simp [h]
  · simp

omit [LinearOrder α] [Zero α] in
theorem flatten_length (q : Nat → List α) (c : Nat) (k : Nat)
    (h : ∀ j, j < k → (q j).length = c) : ((List.range k).map q).flatten.length = k * c := by
  rw [List.length_flatten, List.map_map, List.map_congr_left (g := fun _ => c)]
  · simp
  · intro j hj
    exact h j (List.mem_range.1 hj)

/-- **C72.** However the dataset is split into batches and however the batches are combined,
`quantiles` returns `num_buckets - 1` boundaries per feature in the documented shape: the inner
values of approximate quantiles of that feature's data. -/
theorem quantiles_are_approximate (api : SketchApi S α) (n : Nat) (hn : 1 ≤ n) (ε : ℚ)
    (hw rid : Bool) (sh : List Nat) (hf : 0 < features rid sh)
    {Rep : S → (Nat → List (α × ℚ)) → Prop}
    (C : Contract api ε (2 ^ 32) (features rid sh) Rep)
    (s1 : List (Sched (Input α))) (s2 : Sched Nat) (hv : ValidRun s1 s2)
    (hb : ∀ b ∈ allInputs s1, GoodBatch hw (features rid sh) b)
    (hm : ∀ j, j < features rid sh →
      (dataset hw (features rid sh) j (allInputs s1)).length ≤ 2 ^ 32)
    (hW : ∀ j, j < features rid sh → 0 < total (dataset hw (features rid sh) j (allInputs s1))) :
    ∃ q : Nat → List α,
      quantiles api n ε hw rid sh s1 s2
        = .ok ⟨boundaryShape n rid sh,
            ((List.range (features rid sh)).map (fun j => ((q j).drop 1).dropLast)).flatten⟩ ∧
      ∀ j, j < features rid sh →
        Approx ε n (dataset hw (features rid sh) j (allInputs s1)) (q j) := by
  unfold quantiles
  rw [quantilesParams_eq]
  obtain ⟨fin, h1, h2⟩ := analysis_total (combiner_total (p := ⟨n, ε, 2 ^ 32, hw, false,
      boundaryShape n rid sh, features rid sh⟩) hf C)
    (fun a l l' h hR => C.perm _ _ _ (fun j => dataset_perm hw _ j l l' h) hR) s1 s2 hv hb
  obtain ⟨q, hq, hA⟩ := C.quantiles fin _ n h2 hn hm
    (fun j _ => dataset_nonneg hw _ j _ hb) hW
  refine ⟨q, ?_, hA⟩
  rw [h1]
  show extractOutput api _ fin = _
  unfold extractOutput
  dsimp only
  rw [hq]
  have hne : ((List.range (features rid sh)).map q).isEmpty = false := by
    rw [List.isEmpty_eq_false_iff]
    simp only [ne_eq, List.map_eq_nil_iff, List.range_eq_nil]
    omega
  rw [hne]
  simp only [Bool.false_eq_true, if_false, List.map_map]
  unfold reshape
  rw [if_pos]
  · rfl
  · rw [boundaryShape_prod]
    apply flatten_length
    intro j hj
    simp [trim, (hA j hj).len]

/-- **C72.** Without any data the boundaries are zeros. -/
theorem quantiles_of_nothing (api : SketchApi S α) (n : Nat) (hn : 1 ≤ n) (ε : ℚ)
    (hw rid : Bool) (sh : List Nat) (hf : 0 < features rid sh)
    {Rep : S → (Nat → List (α × ℚ)) → Prop}
    (C : Contract api ε (2 ^ 32) (features rid sh) Rep)
    (s1 : List (Sched (Input α))) (s2 : Sched Nat) (hv : ValidRun s1 s2)
    (hb : ∀ b ∈ allInputs s1, GoodBatch hw (features rid sh) b)
    (he : ∀ j, j < features rid sh → dataset hw (features rid sh) j (allInputs s1) = []) :
    quantiles api n ε hw rid sh s1 s2
      = .ok ⟨boundaryShape n rid sh, List.replicate (features rid sh * (n - 1)) 0⟩ := by
  unfold quantiles
  rw [quantilesParams_eq]
  obtain ⟨fin, h1, h2⟩ := analysis_total (combiner_total (p := ⟨n, ε, 2 ^ 32, hw, false,
      boundaryShape n rid sh, features rid sh⟩) hf C)
    (fun a l l' h hR => C.perm _ _ _ (fun j => dataset_perm hw _ j l l' h) hR) s1 s2 hv hb
  rw [h1]
  show extractOutput api _ fin = _
  unfold extractOutput
  dsimp only
  rw [C.empty fin _ n h2 hn he, boundaryShape_prod]
  rfl

end quantiles

/-! ## Bucketize -/

section bucketize

variable [LinearOrder α] [Zero α]

omit [LinearOrder α] [Zero α] in
theorem splitRows_flatten (c : Nat) (rows : List (List α)) (h : ∀ r ∈ rows, r.length = c) :
    splitRows c rows.length rows.flatten = rows := by
  induction rows with
  | nil => rfl
  | cons r rows ih =>
    have hr := h r (List.mem_cons_self)
    have ih := ih (fun x hx => h x (List.mem_cons_of_mem _ hx))
    simp only [List.length_cons, List.flatten_cons, splitRows]
    rw [List.take_left' hr, List.drop_left' hr, ih]

/-- The error tolerance that `bucketize` documents: the one given; otherwise 0.01, or
`1/num_buckets` for more than 100 buckets. -/
def Spec.tolerance (epsilon : Option ℚ) (n : Nat) : ℚ :=
  match epsilon with
  | some e => e
  | none => if n ≤ 100 then 1 / 100 else 1 / n

omit [LinearOrder α] [Zero α] in
theorem tolerance_eq (epsilon : Option ℚ) (n : Nat) (hn : 1 ≤ n) :
    epsilon.getD (defaultEpsilon n) = tolerance epsilon n := by
  cases epsilon with
  | some e => rfl
  | none =>
    have hn0 : (0 : ℚ) < n := by exact_mod_cast hn
    simp only [Option.getD_none, defaultEpsilon, tolerance]
    split_ifs with h
    · apply min_eq_right
      rw [div_le_div_iff₀ (by norm_num) hn0]
      have : (n : ℚ) ≤ 100 := by exact_mod_cast h
      linarith
    · apply min_eq_left
      rw [div_le_div_iff₀ hn0 (by norm_num)]
      have : (100 : ℚ) ≤ n := by exact_mod_cast (by omega : 100 ≤ n)
      linarith

/-- **C72.** `bucketize` divides the data into approximately equal parts, however the dataset is
split and combined. With `elementwise` every position `j` of an instance has its own buckets,
otherwise all values share one set. Buckets are numbers below `num_buckets`, and without
`elementwise` the schema says so; they grow with the value, NaN gets the last one. The weight of the values in each bucket differs from
`1/num_buckets` of the total weight by at most twice the error tolerance, plus the weight of the
heaviest single value. -/
theorem bucketize_balanced (api : SketchApi S α) (composite : Bool) (n : Nat) (hn : 1 ≤ n)
    (epsilon : Option ℚ) (hε : 0 ≤ tolerance epsilon n) (hw elementwise : Bool)
    (hc : ¬ (composite = true ∧ elementwise = true)) (sh : List Nat)
    (hf : 0 < features (!elementwise) sh)
    {Rep : S → (Nat → List (α × ℚ)) → Prop}
    (C : Contract api (tolerance epsilon n) (2 ^ 32) (features (!elementwise) sh) Rep)
    (s1 : List (Sched (Input α))) (s2 : Sched Nat) (hv : ValidRun s1 s2)
    (hb : ∀ b ∈ allInputs s1, GoodBatch hw (features (!elementwise) sh) b)
    (hm : ∀ j, j < features (!elementwise) sh →
      (dataset hw (features (!elementwise) sh) j (allInputs s1)).length ≤ 2 ^ 32)
    (hW : ∀ j, j < features (!elementwise) sh →
      0 < total (dataset hw (features (!elementwise) sh) j (allInputs s1))) :
    ∃ bucket : Nat → Option α → Nat,
      (∀ x : List (Option α), (elementwise = true → x.length = sh.prod) →
        bucketize api composite n epsilon hw elementwise sh s1 s2 x
          = .ok (x.mapIdx (fun i v => bucket (if elementwise then i else 0) v),
              if elementwise then none else some (0, n - 1))) ∧
      ∀ j, j < features (!elementwise) sh →
        (∀ v, bucket j v < n) ∧ bucket j none = n - 1 ∧
        (∀ u v : α, u ≤ v → bucket j (some u) ≤ bucket j (some v)) ∧
        ∀ T, (∀ v, weight (dataset hw (features (!elementwise) sh) j (allInputs s1)) (· = v) ≤ T) →
          ∀ i, i < n →
          |weight (dataset hw (features (!elementwise) sh) j (allInputs s1))
              (fun v => bucket j (some v) = i)
            - total (dataset hw (features (!elementwise) sh) j (allInputs s1)) / n|
          ≤ 2 * tolerance epsilon n
              * total (dataset hw (features (!elementwise) sh) j (allInputs s1)) + T := by
  obtain ⟨q, hq, hA⟩ := quantiles_are_approximate api n hn (tolerance epsilon n) hw
    (!elementwise) sh hf C s1 s2 hv hb hm hW
  have hlen : ∀ j, j < features (!elementwise) sh → (trim (q j)).length = n - 1 := by
    intro j hj; simp [trim, (hA j hj).len]
  have hsorted : ∀ j, j < features (!elementwise) sh → (trim (q j)).Pairwise (· ≤ ·) := by
    intro j hj
    exact (hA j hj).sorted.sublist ((List.dropLast_sublist _).trans (List.drop_sublist _ _))
  have hrows : bucketizeRows api composite n epsilon hw elementwise sh s1 s2
      = .ok ((List.range (features (!elementwise) sh)).map (fun j => trim (q j))) := by
    unfold bucketizeRows
    rw [if_neg (by omega), if_neg (by simpa using hc)]
    simp only [Int.toNat_natCast]
    rw [tolerance_eq epsilon n hn, hq]
    have hsplit : splitRows (n - 1) (features (!elementwise) sh)
        ((List.range (features (!elementwise) sh)).map (fun j => trim (q j))).flatten
        = (List.range (features (!elementwise) sh)).map (fun j => trim (q j)) := by
      have := splitRows_flatten (n - 1)
        ((List.range (features (!elementwise) sh)).map (fun j => trim (q j))) (by
          intro r hr
          obtain ⟨j, hj, rfl⟩ := List.mem_map.1 hr
          exact hlen j (List.mem_range.1 hj))
      simpa using this
    cases elementwise
    · simp only [Bool.not_false, features, if_true] at hsplit ⊢
      exact congrArg Except.ok hsplit
    · simp only [Bool.not_true, features, Bool.false_eq_true, if_false] at hsplit ⊢
      exact congrArg Except.ok hsplit
  refine ⟨fun j v => searchsortedRight (trim (q j)) v, ?_, ?_⟩
  · intro x hx
    unfold bucketize
    rw [hrows]
    show Except.ok (bucketizeInstance _ _ _ x) = _
    congr 1
    unfold bucketizeInstance
    cases elementwise
    · simp only [Bool.false_eq_true, if_false, Bool.not_false, features, if_true, Prod.mk.injEq]
      refine ⟨?_, ?_⟩
      · rw [List.mapIdx_eq_zipIdx_map]
        apply List.ext_getElem
        · simp
        · intro i h1 h2
          simp [applyBuckets, assignBuckets]
      · simp only [applyBuckets, Int.toNat_natCast, Option.some.injEq, Prod.mk.injEq, true_and]
        omega
    · have hx := hx rfl
      simp only [Bool.not_true, features, Bool.false_eq_true, if_false, if_true, Prod.mk.injEq,
        and_true]
      apply List.ext_getElem
      · simp [hx]
      · intro i h1 h2
        simp [applyBuckets, assignBuckets]
  · intro j hj
    have hs := hsorted j hj
    have hl := hlen j hj
    refine ⟨?_, ?_, ?_, ?_⟩
    · intro v
      cases v with
      | none =>
        show searchsortedRight _ none < n
        rw [searchsortedRight_nan]; omega
      | some v =>
        have := (searchsortedRight_spec _ hs v).1
        show searchsortedRight _ (some v) < n
        omega
    · show searchsortedRight _ none = n - 1
      rw [searchsortedRight_nan]; omega
    · intro u v huv
      show searchsortedRight _ (some u) ≤ searchsortedRight _ (some v)
      rw [searchsortedRight_countP _ hs, searchsortedRight_countP _ hs]
      apply List.countP_mono_left
      intro b _ hb
      simp only [decide_eq_true_eq] at *
      exact hb.trans huv
    · intro T hT i hi
      exact bucket_weight _ hε n hn _ (dataset_nonneg hw _ j _ hb) (q j) (hA j hj) T hT i hi

/-- **C72.** Fewer than one bucket is rejected. -/
theorem bucketize_rejects (api : SketchApi S α) (composite : Bool) (n : Int) (hn : n < 1)
    (epsilon : Option ℚ) (hw elementwise : Bool) (sh : List Nat)
    (s1 : List (Sched (Input α))) (s2 : Sched Nat) (x : List (Option α)) :
    ∃ e, bucketize api composite n epsilon hw elementwise sh s1 s2 x = .error e := by
  refine ⟨"Invalid num_buckets", ?_⟩
  unfold bucketize bucketizeRows
  rw [if_pos hn]; rfl

/-- **C72.** A sparse or ragged column cannot be bucketized elementwise. -/
theorem bucketize_rejects_composite (api : SketchApi S α) (n : Int)
    (epsilon : Option ℚ) (hw : Bool) (sh : List Nat)
    (s1 : List (Sched (Input α))) (s2 : Sched Nat) (x : List (Option α)) :
    ∃ e, bucketize api true n epsilon hw true sh s1 s2 x = .error e := by
  unfold bucketize bucketizeRows
  by_cases hn : n < 1
  · exact ⟨_, by rw [if_pos hn]; rfl⟩
  · exact ⟨_, by rw [if_neg hn]; rfl⟩

end bucketize

/-! ## Weights with `elementwise` -/

/-- **C72** fails for weights with `elementwise`: `bucketize` documents that the weights must have
the same shape as `x`, but then the analysis fails as soon as an instance has more than one
value. (The weights must have one value per instance.) -/
theorem elementwise_weights_of_the_shape_of_x_fail [LinearOrder α] [Zero α]
    (api : SketchApi S α) (n : Nat) (hn : 1 ≤ n) (epsilon : Option ℚ) (sh : List Nat)
    (hf : 1 < sh.prod) {Rep : S → (Nat → List (α × ℚ)) → Prop}
    (C : Contract api (tolerance epsilon n) (2 ^ 32) sh.prod Rep)
    (b : Input α) (hne : b.values ≠ []) (hsame : b.weights.length = b.values.length)
    (x : List (Option α)) :
    ∃ e, bucketize api false n epsilon true true sh [.add .create b] (.add .create 0) x
      = .error e := by
  have hbad : b.values.length ≠ b.weights.length * sh.prod := by
    rw [hsame]
    have : 0 < b.values.length := List.length_pos_iff.2 hne
    intro h
    nlinarith
  obtain ⟨e, he⟩ := C.badWeights _ _ b.values b.weights C.new hbad
  refine ⟨e, ?_⟩
  unfold bucketize bucketizeRows
  rw [if_neg (by omega), if_neg (by simp)]
  simp only [Int.toNat_natCast]
  rw [tolerance_eq epsilon n hn]
  unfold quantiles
  rw [quantilesParams_eq]
  unfold analysis
  simp only [Sched.runList, Sched.run]
  have : (combiner api ⟨n, tolerance epsilon n, 2 ^ 32, true, false,
      boundaryShape n (!true) sh, features (!true) sh⟩).accumulateStage.addInput
      (combiner api ⟨n, tolerance epsilon n, 2 ^ 32, true, false,
      boundaryShape n (!true) sh, features (!true) sh⟩).accumulateStage.create b = .error e := he
  simp only [bind, Except.bind]
  rw [this]

/-! ## The contract can be met -/

section exact

variable [LinearOrder α] [Zero α]

/-- The least value such that the weight up to it is at least `t`. -/
def quantileOf (d : List (α × ℚ)) (t : ℚ) : α :=
  (((d.map (·.1)).filter (fun v => decide (t ≤ weight d (· ≤ v)))).min?).getD 0

/-- A sketch that keeps all the data. -/
def exact : SketchApi (Nat × (Nat → List (α × ℚ))) α where
  new := fun _ _ f => (f, fun _ => [])
  addValues := fun s v =>
    .ok (s.1, fun j => s.2 j ++ column s.1 j v (List.replicate (v.length / s.1) (some 1)))
  addWeighted := fun s v w =>
    if v.length = w.length * s.1 then .ok (s.1, fun j => s.2 j ++ column s.1 j v w)
    else .error "weights"
  merge := fun s t => .ok (s.1, fun j => s.2 j ++ t.2 j)
  compact := fun s => .ok s
  getQuantiles := fun s n =>
    if (List.range s.1).all (fun j => (s.2 j).isEmpty) then []
    else (List.range s.1).map (fun j => (List.range (n + 1)).map (fun i : Nat =>
      quantileOf (s.2 j) ((i : ℚ) / n * total (s.2 j))))

omit [Zero α] [LinearOrder α] in
theorem weight_perm {d d' : List (α × ℚ)} (h : d.Perm d') (P : α → Prop) [DecidablePred P] :
    weight d P = weight d' P := ((h.filter _).map _).sum_eq

omit [Zero α] [LinearOrder α] in
theorem total_perm {d d' : List (α × ℚ)} (h : d.Perm d') : total d = total d' :=
  (h.map _).sum_eq

omit [Zero α] in
theorem Approx.perm {ε : ℚ} {n : Nat} {d d' : List (α × ℚ)} {q : List α} (h : d.Perm d')
    (hq : Approx ε n d q) : Approx ε n d' q :=
  ⟨hq.len, hq.sorted, fun v hv => (h.map _).mem_iff.1 (hq.mem v hv), fun j v hv => by
    rw [← weight_perm h, ← weight_perm h, ← total_perm h]
    exact hq.rank j v hv⟩

omit [Zero α] in
/-- Below a value there is nothing, or what is below it is what is up to a smaller value. -/
theorem weight_lt_eq (d : List (α × ℚ)) (v : α) :
    weight d (· < v) = 0 ∨ ∃ u ∈ d.map (·.1), u < v ∧ weight d (· < v) = weight d (· ≤ u) := by
  by_cases h : ((d.map (·.1)).filter (· < v)) = []
  · left
    apply weight_false
    intro e he hlt
    rw [List.filter_eq_nil_iff] at h
    exact h e.1 (List.mem_map_of_mem he) (by simpa using hlt)
  · right
    obtain ⟨u, hu⟩ := Option.isSome_iff_exists.1 (List.isSome_max?_of_ne_nil h)
    rw [List.max?_eq_some_iff] at hu
    obtain ⟨hmem, hmax⟩ := hu
    rw [List.mem_filter] at hmem
    refine ⟨u, hmem.1, by simpa using hmem.2, ?_⟩
    apply weight_congr
    intro e he
    constructor
    · intro hlt
      exact hmax e.1 (List.mem_filter.2 ⟨List.mem_map_of_mem he, by simpa using hlt⟩)
    · intro hle
      exact lt_of_le_of_lt hle (by simpa using hmem.2)

theorem quantileOf_spec (d : List (α × ℚ)) (h0 : 0 < total d)
    (t : ℚ) (h1 : 0 ≤ t) (ht : t ≤ total d) :
    quantileOf d t ∈ d.map (·.1) ∧ weight d (· < quantileOf d t) ≤ t ∧
      t ≤ weight d (· ≤ quantileOf d t) ∧
      ∀ u ∈ d.map (·.1), t ≤ weight d (· ≤ u) → quantileOf d t ≤ u := by
  have hne : d.map (·.1) ≠ [] := by
    intro h
    rw [List.map_eq_nil_iff] at h
    subst h
    simp [total] at h0
  obtain ⟨m, hm⟩ := Option.isSome_iff_exists.1 (List.isSome_max?_of_ne_nil hne)
  rw [List.max?_eq_some_iff] at hm
  have hall : weight d (· ≤ m) = total d :=
    weight_true _ _ (fun e he => hm.2 e.1 (List.mem_map_of_mem he))
  have hfil : ((d.map (·.1)).filter (fun v => decide (t ≤ weight d (· ≤ v)))) ≠ [] := by
    apply List.ne_nil_of_mem (a := m)
    rw [List.mem_filter]
    exact ⟨hm.1, by rw [hall]; simpa using ht⟩
  obtain ⟨v, hv⟩ := Option.isSome_iff_exists.1 (List.isSome_min?_of_ne_nil hfil)
  have hq : quantileOf d t = v := by unfold quantileOf; rw [hv]; rfl
  rw [List.min?_eq_some_iff] at hv
  obtain ⟨hmem, hmin⟩ := hv
  rw [List.mem_filter] at hmem
  have hleast : ∀ u ∈ d.map (·.1), t ≤ weight d (· ≤ u) → v ≤ u := by
    intro u hu htu
    exact hmin u (List.mem_filter.2 ⟨hu, by simpa using htu⟩)
  rw [hq]
  refine ⟨hmem.1, ?_, by simpa using hmem.2, hleast⟩
  rcases weight_lt_eq d v with h | ⟨u, hu, hlt, he⟩
  · rw [h]; exact h1
  · by_contra hc
    push Not at hc
    have := hleast u hu (by rw [← he]; exact hc.le)
    exact absurd hlt (not_lt.2 this)

theorem exact_approx (ε : ℚ) (hε : 0 ≤ ε) (n : Nat) (hn : 1 ≤ n) (d : List (α × ℚ))
    (h0 : 0 < total d) :
    Approx ε n d ((List.range (n + 1)).map (fun i : Nat =>
      quantileOf d ((i : ℚ) / n * total d))) := by
  have hn0 : (0 : ℚ) < n := by exact_mod_cast hn
  have hb : ∀ i : Nat, i ≤ n → 0 ≤ (i : ℚ) / n * total d ∧ (i : ℚ) / n * total d ≤ total d := by
    intro i hi
    have h1 : (0 : ℚ) ≤ (i : ℚ) / n := by positivity
    have h2 : (i : ℚ) / n ≤ 1 := by
      rw [div_le_one hn0]; exact_mod_cast hi
    constructor
    · exact mul_nonneg h1 h0.le
    · nlinarith
  refine ⟨by simp, ?_, ?_, ?_⟩
  · rw [List.pairwise_map]
    refine List.Pairwise.imp_of_mem ?_ List.pairwise_lt_range
    intro i k hi hk hik
    rw [List.mem_range] at hi hk
    have si := quantileOf_spec d h0 _ (hb i (by omega)).1 (hb i (by omega)).2
    have sk := quantileOf_spec d h0 _ (hb k (by omega)).1 (hb k (by omega)).2
    apply si.2.2.2 _ sk.1
    refine le_trans ?_ sk.2.2.1
    have : (i : ℚ) ≤ k := by exact_mod_cast hik.le
    have : (i : ℚ) / n ≤ k / n := by gcongr
    nlinarith
  · intro v hv
    obtain ⟨i, hi, rfl⟩ := List.mem_map.1 hv
    rw [List.mem_range] at hi
    exact (quantileOf_spec d h0 _ (hb i (by omega)).1 (hb i (by omega)).2).1
  · intro j v hv
    rw [List.getElem?_map] at hv
    obtain ⟨j', hj', rfl⟩ := Option.map_eq_some_iff.1 hv
    have hlt : j < n + 1 := by
      by_contra hc
      rw [List.getElem?_eq_none (by simpa using hc)] at hj'
      cases hj'
    rw [List.getElem?_range hlt] at hj'
    cases hj'
    have sj := quantileOf_spec d h0 _ (hb j (by omega)).1 (hb j (by omega)).2
    have := mul_nonneg hε h0.le
    constructor
    · linarith [sj.2.1]
    · linarith [sj.2.2.1]

/-- Not vacuous: the sketch that keeps everything meets the contract. -/
theorem exact_contract (ε : ℚ) (hε : 0 ≤ ε) (m f : Nat) (hf : 0 < f) :
    Contract (exact (α := α)) ε m f (fun s d => s.1 = f ∧ ∀ j, (s.2 j).Perm (d j)) where
  new := ⟨rfl, fun _ => List.Perm.refl _⟩
  perm := fun s d d' h hs => ⟨hs.1, fun j => (hs.2 j).trans (h j)⟩
  add := by
    rintro ⟨f', sd⟩ d values k ⟨rfl, hs⟩ hk
    refine ⟨_, rfl, rfl, fun j => ?_⟩
    have : values.length / f' = k := by rw [hk]; exact Nat.mul_div_cancel _ hf
    show (sd j ++ column f' j values (List.replicate (values.length / f') (some 1))).Perm _
    rw [this]
    exact (hs j).append_right _
  addWeighted := by
    rintro ⟨f', sd⟩ d values weights ⟨rfl, hs⟩ hk
    exact ⟨_, if_pos hk, rfl, fun j => (hs j).append_right _⟩
  badWeights := by
    rintro ⟨f', sd⟩ d values weights ⟨rfl, hs⟩ hk
    exact ⟨_, if_neg hk⟩
  merge := by
    rintro ⟨f', sd⟩ ⟨f'', td⟩ d d' ⟨rfl, hs⟩ ⟨_, ht⟩
    exact ⟨_, rfl, rfl, fun j => (hs j).append (ht j)⟩
  compact := fun s d h => ⟨s, rfl, h⟩
  empty := by
    rintro ⟨f', sd⟩ d n ⟨rfl, hs⟩ _ he
    show (if _ then _ else _) = _
    rw [if_pos]
    rw [List.all_eq_true]
    intro j hj
    have := hs j
    rw [he j (List.mem_range.1 hj)] at this
    rw [this.eq_nil]
    rfl
  quantiles := by
    rintro ⟨f', sd⟩ d n ⟨rfl, hs⟩ hn _ _ hW
    refine ⟨fun j => (List.range (n + 1)).map (fun i : Nat =>
      quantileOf (sd j) ((i : ℚ) / n * total (sd j))), ?_, ?_⟩
    · show (if _ then _ else _) = _
      rw [if_neg]
      intro hall
      rw [List.all_eq_true] at hall
      have h0 := hall 0 (List.mem_range.2 hf)
      have hnil : sd 0 = [] := by simpa using h0
      have := hW 0 hf
      rw [← total_perm (hs 0)] at this
      change 0 < total (sd 0) at this
      rw [hnil] at this
      simp [total] at this
    · intro j hj
      apply Approx.perm (hs j)
      apply exact_approx ε hε n hn
      rw [total_perm (hs j)]
      exact hW j hj

end exact

/-- Not vacuous: two batches of two instances with two features and a missing value, in two
datasets. -/
example :
    let b1 : Input ℚ := ⟨[some 1, some 10, some 2, none], [some 1, some 2]⟩
    let b2 : Input ℚ := ⟨[some 3, some 30, some 4, some 40], [none, some 1]⟩
    let s1 : List (Sched (Input ℚ)) := [.add .create b1, .compact (.add .create b2)]
    let s2 : Sched Nat := .merge [.add .create 1, .add .create 0]
    ValidRun s1 s2 ∧ (∀ b ∈ allInputs s1, GoodBatch true 2 b) ∧
    dataset true 2 0 (allInputs s1) = [(1, 1), (2, 2), (4, 1)] ∧
    dataset true 2 1 (allInputs s1) = [(10, 1), (40, 1)] ∧
    (∀ j, j < 2 → 0 < total (dataset true 2 j (allInputs s1))) ∧
    (∀ j, j < 2 → (dataset true 2 j (allInputs s1)).length ≤ 2 ^ 32) ∧
    (bucketize (exact (α := ℚ)) false 2 none true true [2] s1 s2
      [some 1, some 39]).toOption = some ([0, 1], none) := by
  intro b1 b2 s1 s2
  refine ⟨⟨?_, ?_, ?_⟩, ?_, by decide +kernel, by decide +kernel, by decide +kernel,
    by decide +kernel, by decide +kernel⟩
  · intro s hs
    simp only [s1, List.mem_cons, List.not_mem_nil, or_false] at hs
    rcases hs with rfl | rfl
    · exact .add .create
    · exact .compact (.add .create)
  · refine .merge (by simp) ?_
    intro s hs
    simp only [List.mem_cons, List.not_mem_nil, or_false] at hs
    rcases hs with rfl | rfl <;> exact .add .create
  · decide +kernel
  · intro b hb
    have : b = b1 ∨ b = b2 := by
      simpa [s1, allInputs, Sched.inputs] using hb
    rcases this with rfl | rfl
    · exact ⟨⟨2, rfl⟩, fun _ => rfl, fun _ w hw => by
        simp [b1] at hw; rcases hw with rfl | rfl <;> norm_num⟩
    · exact ⟨⟨2, rfl⟩, fun _ => rfl, fun _ w hw => by
        simp [b2] at hw; rcases hw with rfl; norm_num⟩

/-- One bucket is accepted (the documentation asks for more than one): every value gets
bucket 0. -/
example : (bucketize (exact (α := ℚ)) false 1 none false false []
    [.add .create ⟨[some 1, some 5], []⟩] (.add .create 0) [some 3, none]).toOption
      = some ([0, 0], some (0, 0)) := by decide +kernel

end TFT.Quantiles
