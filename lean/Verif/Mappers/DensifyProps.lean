import Verif.Mappers.Densify
import Verif.Mappers.TensorScalingProps

/-!
# C93: densified and hashed tensors keep every value in its place

The result of `sparse_tensor_to_dense_with_shape` has the requested shape, every listed value at its index,
and the default everywhere else. A value that does not fit makes the call fail: none is dropped. The result
of `hash_strings` has the layout of its input and a bucket for each string that depends on nothing else.
-/

namespace TFT.Densify

variable {α : Type}

/-! ## Specification -/

namespace Spec

/-- The size of every dimension: the requested one, or that of the sparse tensor where none is requested. -/
def IsShape (denseShape : List Nat) (shape : List (Option Int)) (out : List Nat) : Prop :=
  out.length = shape.length ∧ ∀ (k : Nat) (s : Option Int) (n : Nat), shape[k]? = some s →
    out[k]? = some n → match s with
      | some m => m = (n : Int)
      | none => denseShape[k]? = some n

/-- An index is inside a shape: there are as many coordinates as dimensions and each is below its size. -/
def Inside (shape idx : List Nat) : Prop := List.Forall₂ (· < ·) idx shape

/-- The element of row-major data at an index. -/
def at? (shape : List Nat) (data : List α) (idx : List Nat) : Option α := data[Scaling.flatPos shape idx]?

end Spec

/-! ## Lemmas -/

theorem inBounds_iff (shape idx : List Nat) : inBounds shape idx = true ↔ Spec.Inside shape idx := by
  induction shape generalizing idx with
  | nil => cases idx <;> simp [inBounds, Spec.Inside]
  | cons n shape ih =>
    cases idx with
    | nil => simp [inBounds, Spec.Inside]
    | cons i idx => simp [inBounds, Spec.Inside, ih idx, Spec.Inside]

theorem newDenseShape_ok {denseShape : List Nat} {i : Nat} {shape : List (Option Int)} {out : List Int}
    (h : newDenseShape denseShape i shape = .ok out) :
    out.length = shape.length ∧ ∀ (k : Nat) (s : Option Int) (n : Int), shape[k]? = some s →
      out[k]? = some n → match s with
        | some m => m = n
        | none => ∃ d : Nat, denseShape[i + k]? = some d ∧ n = (d : Int) := by
  induction shape generalizing i out with
  | nil =>
    simp only [newDenseShape, Except.ok.injEq] at h
    subst h
    simp
  | cons size rest ih =>
    have key : ∃ (s : Int) (r : List Int), out = s :: r ∧ newDenseShape denseShape (i + 1) rest = .ok r ∧
        (match size with
          | some m => m = s
          | none => ∃ d : Nat, denseShape[i]? = some d ∧ s = (d : Int)) := by
      cases size with
      | none =>
        cases hd : denseShape[i]? with
        | none => simp [newDenseShape, hd, bind, Except.bind] at h
        | some d =>
          cases hr : newDenseShape denseShape (i + 1) rest with
          | error e => simp [newDenseShape, hd, hr, bind, Except.bind] at h
          | ok r =>
            simp [newDenseShape, hd, hr, bind, Except.bind] at h
            exact ⟨d, r, h.symm, rfl, d, rfl, rfl⟩
      | some m =>
        cases hr : newDenseShape denseShape (i + 1) rest with
        | error e => simp [newDenseShape, hr, bind, Except.bind] at h
        | ok r =>
          simp [newDenseShape, hr, bind, Except.bind] at h
          exact ⟨m, r, h.symm, rfl, rfl⟩
    obtain ⟨s, r, rfl, hr, hs⟩ := key
    obtain ⟨hl, hk⟩ := ih hr
    refine ⟨by simp [hl], fun k s' n h1 h2 => ?_⟩
    cases k with
    | zero =>
      simp only [List.getElem?_cons_zero, Option.some.injEq] at h1 h2
      subst h1 h2
      cases size <;> simpa using hs
    | succ k =>
      simp only [List.getElem?_cons_succ] at h1 h2
      have := hk k s' n h1 h2
      rw [show i + (k + 1) = i + 1 + k by omega]
      exact this

theorem newDenseShape_of {denseShape out : List Nat} {i : Nat} {shape : List (Option Int)}
    (hl : out.length = shape.length) (h : ∀ (k : Nat) (s : Option Int) (n : Nat), shape[k]? = some s →
      out[k]? = some n → match s with
        | some m => m = (n : Int)
        | none => denseShape[i + k]? = some n) :
    newDenseShape denseShape i shape = .ok (out.map Int.ofNat) := by
  induction shape generalizing i out with
  | nil =>
    cases out with
    | nil => rfl
    | cons _ _ => simp at hl
  | cons size rest ih =>
    cases out with
    | nil => simp at hl
    | cons n out =>
      have h0 := h 0 size n rfl rfl
      have hrest := ih (i := i + 1) (out := out) (by simpa using hl) (fun k s m h1 h2 => by
        have := h (k + 1) s m (by simpa using h1) (by simpa using h2)
        rw [show i + (k + 1) = i + 1 + k by omega] at this
        exact this)
      cases size with
      | none =>
        simp only [Nat.add_zero] at h0
        simp [newDenseShape, hrest, h0, bind, Except.bind]
      | some m =>
        simp only at h0
        simp [newDenseShape, hrest, h0, bind, Except.bind]

theorem isShape_iff {denseShape out : List Nat} {shape : List (Option Int)} :
    Spec.IsShape denseShape shape out ↔
      newDenseShape denseShape 0 shape = .ok (out.map Int.ofNat) := by
  constructor
  · rintro ⟨hl, h⟩
    exact newDenseShape_of hl (by simpa using h)
  · intro h
    obtain ⟨hl, hk⟩ := newDenseShape_ok h
    refine ⟨by simpa using hl, fun k s n h1 h2 => ?_⟩
    have := hk k s (Int.ofNat n) h1 (by simp [h2])
    cases s with
    | none =>
      obtain ⟨d, hd, e⟩ := this
      simp only [Int.ofNat_eq_natCast, Nat.cast_inj] at e
      subst e
      simpa using hd
    | some m => exact this

/-- The writes of `SparseToDense`. -/
def writes (shape : List Nat) (es : List (List Nat × α)) (data : List α) : List α :=
  es.foldl (fun data e => data.set (Scaling.flatPos shape e.1) e.2) data

theorem length_writes (shape : List Nat) (es : List (List Nat × α)) (data : List α) :
    (writes shape es data).length = data.length := by
  induction es generalizing data with
  | nil => rfl
  | cons e es ih =>
    have := ih (data.set (Scaling.flatPos shape e.1) e.2)
    simpa [writes] using this

theorem writes_other {shape idx : List Nat} {es : List (List Nat × α)} (data : List α)
    (hidx : Spec.Inside shape idx) (hin : ∀ e ∈ es, Spec.Inside shape e.1)
    (hne : ∀ e ∈ es, e.1 ≠ idx) : Spec.at? shape (writes shape es data) idx = Spec.at? shape data idx := by
  induction es generalizing data with
  | nil => rfl
  | cons e es ih =>
    have h1 := ih (data.set (Scaling.flatPos shape e.1) e.2)
      (fun e' he => hin e' (List.mem_cons_of_mem _ he)) (fun e' he => hne e' (List.mem_cons_of_mem _ he))
    have h2 : Scaling.flatPos shape e.1 ≠ Scaling.flatPos shape idx := fun h =>
      hne e List.mem_cons_self (Scaling.flatPos_inj (hin e List.mem_cons_self) hidx h)
    simp only [writes, List.foldl_cons] at h1 ⊢
    rw [h1]
    simp only [Spec.at?]
    rw [List.getElem?_set_ne h2]

theorem writes_mem {shape : List Nat} {es : List (List Nat × α)} (data : List α)
    (hlen : data.length = shape.prod) (hin : ∀ e ∈ es, Spec.Inside shape e.1)
    (hnd : (es.map Prod.fst).Nodup) {e : List Nat × α} (he : e ∈ es) :
    Spec.at? shape (writes shape es data) e.1 = some e.2 := by
  induction es generalizing data with
  | nil => cases he
  | cons e' es ih =>
    simp only [List.map_cons, List.nodup_cons] at hnd
    rcases List.mem_cons.1 he with rfl | he'
    · have h1 := writes_other (data.set (Scaling.flatPos shape e.1) e.2) (hin e List.mem_cons_self)
        (fun e' h => hin e' (List.mem_cons_of_mem _ h))
        (fun e' h heq => hnd.1 (heq ▸ List.mem_map_of_mem h))
      simp only [writes, List.foldl_cons] at h1 ⊢
      rw [h1]
      simp only [Spec.at?]
      rw [List.getElem?_set_self]
      rw [hlen]
      exact Scaling.flatPos_lt (hin e List.mem_cons_self)
    · have := ih (data.set (Scaling.flatPos shape e'.1) e'.2) (by simpa using hlen)
        (fun e h => hin e (List.mem_cons_of_mem _ h)) hnd.2 he'
      simpa [writes] using this

theorem sparseToDense_iff {rank : Nat} {indices : List (List Nat)} {outputShape : List Int}
    {values : List α} {default : α} {d : Nd α} :
    sparseToDense rank indices outputShape values default = .ok d ↔
      (∀ n ∈ outputShape, 0 ≤ n) ∧ outputShape.length = rank ∧ values.length = indices.length ∧
      (∀ idx ∈ indices, Spec.Inside (outputShape.map Int.toNat) idx) ∧ indices.Pairwise (· < ·) ∧
      d = ⟨outputShape.map Int.toNat, writes (outputShape.map Int.toNat) (indices.zip values)
        (List.replicate (outputShape.map Int.toNat).prod default)⟩ := by
  unfold sparseToDense
  split
  · rename_i h
    simp only [List.any_eq_true, decide_eq_true_eq] at h
    obtain ⟨n, hn, h0⟩ := h
    constructor
    · intro h; cases h
    · intro h; exact absurd (h.1 n hn) (by omega)
  · rename_i h
    have hpos : ∀ n ∈ outputShape, 0 ≤ n := by simpa using h
    split
    · rename_i h1
      constructor
      · intro h; cases h
      · intro h; exact absurd h.2.1 h1
    · rename_i h1
      split
      · rename_i h2
        constructor
        · intro h; cases h
        · intro h; exact absurd h.2.2.1 h2
      · rename_i h2
        simp only []
        split
        · rename_i h3
          constructor
          · intro h; cases h
          · intro h
            exfalso
            simp only [Bool.not_eq_true', List.all_eq_false] at h3
            obtain ⟨idx, hi, hb⟩ := h3
            exact hb ((inBounds_iff _ _).2 (h.2.2.2.1 idx hi))
        · rename_i h3
          have hin : ∀ idx ∈ indices, Spec.Inside (outputShape.map Int.toNat) idx := by
            intro idx hi
            simp only [Bool.not_eq_true', Bool.not_eq_false, List.all_eq_true] at h3
            exact (inBounds_iff _ _).1 (h3 idx hi)
          split
          · rename_i h4
            constructor
            · intro h; cases h
            · intro h; exact absurd h.2.2.2.2.1 h4
          · rename_i h4
            simp only [Except.ok.injEq]
            constructor
            · intro h
              exact ⟨hpos, not_not.1 h1, not_not.1 h2, hin, not_not.1 h4, h.symm⟩
            · intro h; exact h.2.2.2.2.2.symm

theorem map_toNat_ofNat (l : List Nat) : (l.map Int.ofNat).map Int.toNat = l := by
  induction l with
  | nil => rfl
  | cons a l ih => simpa using ih

theorem map_ofNat_toNat {l : List Int} (h : ∀ n ∈ l, 0 ≤ n) : (l.map Int.toNat).map Int.ofNat = l := by
  induction l with
  | nil => rfl
  | cons a l ih =>
    have h0 := h a List.mem_cons_self
    simp only [List.map_cons, ih (fun n hn => h n (List.mem_cons_of_mem _ hn)), List.cons.injEq, and_true]
    simpa using h0

/-! ## Properties -/

/-- **C93.** What a successful densification returns: the requested shape (with the sizes of the sparse
tensor where none is requested), every listed value at its index, the default at every other index. -/
theorem densify_places {indices : List (List Nat)} {values : List α} {denseShape : List Nat}
    {shape : List (Option Int)} {default : α} {d : Nd α}
    (h : sparseTensorToDenseWithShape (.sparse indices values denseShape) shape default = .ok d) :
    Spec.IsShape denseShape shape d.shape ∧ d.data.length = d.shape.prod ∧
    (∀ (k : Nat) (idx : List Nat) (v : α), indices[k]? = some idx → values[k]? = some v →
      Spec.Inside d.shape idx ∧ Spec.at? d.shape d.data idx = some v) ∧
    (∀ idx : List Nat, Spec.Inside d.shape idx → idx ∉ indices →
      Spec.at? d.shape d.data idx = some default) := by
  simp only [sparseTensorToDenseWithShape, bind, Except.bind] at h
  split at h
  · cases h
  · rename_i out hout
    obtain ⟨hpos, _, hlen, hin, hsorted, rfl⟩ := sparseToDense_iff.1 h
    have hfst : (indices.zip values).map Prod.fst = indices := List.map_fst_zip (by omega)
    have hin' : ∀ e ∈ indices.zip values, Spec.Inside (out.map Int.toNat) e.1 := fun e he =>
      hin e.1 (hfst ▸ List.mem_map_of_mem he)
    have hnd : indices.Nodup := hsorted.imp (fun hlt heq => by
      subst heq; exact absurd hlt (List.lt_irrefl _))
    refine ⟨isShape_iff.2 (by rw [map_ofNat_toNat hpos]; exact hout), by simp [length_writes],
      fun k idx v h1 h2 => ⟨hin idx (List.mem_of_getElem? h1), ?_⟩, fun idx hi hni => ?_⟩
    · have hmem : (idx, v) ∈ indices.zip values :=
        List.mem_of_getElem? (i := k) (by rw [List.getElem?_zip_eq_some]; exact ⟨h1, h2⟩)
      exact writes_mem _ (by simp) hin' (by rw [hfst]; exact hnd) hmem
    · show Spec.at? _ (writes _ _ _) idx = _
      rw [writes_other _ hi hin' (fun e he heq => hni (by
        rw [← heq, ← hfst]; exact List.mem_map_of_mem he))]
      simp only [Spec.at?]
      rw [List.getElem?_replicate, if_pos (Scaling.flatPos_lt hi)]

/-- **C93.** When densification succeeds: exactly if the requested shape has the rank of the tensor and no
negative size, every listed index is inside the resulting shape, and the indices are in row-major order
without repetition. In particular a value outside the requested shape makes the call fail: it is never
dropped. -/
theorem densify_succeeds_iff {indices : List (List Nat)} {values : List α} {denseShape : List Nat}
    {shape : List (Option Int)} {default : α} (hlen : values.length = indices.length) :
    (∃ d : Nd α,
      sparseTensorToDenseWithShape (.sparse indices values denseShape) shape default = .ok d) ↔
    shape.length = denseShape.length ∧ ∃ out : List Nat, Spec.IsShape denseShape shape out ∧
      (∀ idx ∈ indices, Spec.Inside out idx) ∧ indices.Pairwise (· < ·) := by
  constructor
  · rintro ⟨d, h⟩
    have hs := (densify_places h).1
    simp only [sparseTensorToDenseWithShape, bind, Except.bind] at h
    split at h
    · cases h
    · rename_i out hout
      obtain ⟨hpos, hr, _, hin, hsorted, rfl⟩ := sparseToDense_iff.1 h
      refine ⟨?_, _, hs, hin, hsorted⟩
      rw [← hr, (newDenseShape_ok hout).1]
  · rintro ⟨hr, out, hs, hin, hsorted⟩
    have hout := isShape_iff.1 hs
    refine ⟨⟨out, writes out (indices.zip values) (List.replicate out.prod default)⟩, ?_⟩
    simp only [sparseTensorToDenseWithShape, bind, Except.bind, hout]
    refine sparseToDense_iff.2 ⟨by simp, by simp [hs.1, hr], hlen, ?_, hsorted, ?_⟩
    · rw [map_toNat_ofNat]; exact hin
    · rw [map_toNat_ofNat]

/-- **C93.** Only sparse tensors are accepted. -/
theorem densify_rejects {x : Tensor α} {shape : List (Option Int)} {default : α}
    (h : ∀ (indices : List (List Nat)) (values : List α) (denseShape : List Nat),
      x ≠ .sparse indices values denseShape) :
    sparseTensorToDenseWithShape x shape default = .error "ValueError: input must be a SparseTensor" := by
  cases x with
  | dense _ _ => rfl
  | sparse i v s => exact absurd rfl (h i v s)
  | ragged _ _ => rfl

/-- **C93.** Hashing keeps the layout and gives each string a bucket below the number of buckets, which is
the same function of the string wherever it occurs, for tensors of every layout. -/
theorem hash_strings_buckets {Str : Type} (fast : Str → Nat) (strong : Nat → Nat → Str → Nat)
    (hashBuckets : Int) (key : Option (List Nat)) (hb : 1 ≤ hashBuckets)
    (hkey : ∀ k : List Nat, key = some k → k.length = 2) :
    ∃ bucket : Str → Nat, (∀ s : Str, (bucket s : Int) < hashBuckets) ∧
      (key = none → ∀ s : Str, bucket s = fast s % hashBuckets.toNat) ∧
      (∀ a b : Nat, key = some [a, b] → ∀ s : Str, bucket s = strong a b s % hashBuckets.toNat) ∧
      (∀ (shape : List Nat) (data : List Str),
        hashStrings fast strong true (.dense shape data) hashBuckets key =
          .ok (.dense shape (data.map bucket))) ∧
      (∀ (indices : List (List Nat)) (values : List Str) (denseShape : List Nat),
        hashStrings fast strong true (.sparse indices values denseShape) hashBuckets key =
          .ok (.sparse indices (values.map bucket) denseShape)) ∧
      (∀ (rowSplits : List (List Nat)) (values : List Str),
        hashStrings fast strong true (.ragged rowSplits values) hashBuckets key =
          .ok (.ragged rowSplits (values.map bucket))) := by
  have hlt : ∀ n : Nat, ((n % hashBuckets.toNat : Nat) : Int) < hashBuckets := fun n => by
    have := Nat.mod_lt n (show 0 < hashBuckets.toNat by omega)
    omega
  have hnot : ¬ hashBuckets < 1 := by omega
  cases key with
  | none =>
    refine ⟨fun s => fast s % hashBuckets.toNat, fun s => hlt _, fun _ _ => rfl,
      fun a b h => (nomatch h), ?_, ?_, ?_⟩ <;> intros <;>
      simp [hashStrings, toHashBucket, hnot, bind, Except.bind, Tensor.getValues, Tensor.wrap]
  | some k =>
    have hk := hkey k rfl
    match k, hk with
    | [a, b], _ =>
      refine ⟨fun s => strong a b s % hashBuckets.toNat, fun s => hlt _, fun h => (nomatch h),
        fun a' b' h s => (by cases h; rfl), ?_, ?_, ?_⟩ <;> intros <;>
        simp [hashStrings, toHashBucket, hnot, bind, Except.bind, Tensor.getValues, Tensor.wrap]

/-- **C93.** Tensors of another dtype, fewer than one bucket and keys that are not two numbers are
rejected. -/
theorem hash_strings_rejects {Str : Type} (fast : Str → Nat) (strong : Nat → Nat → Str → Nat)
    (isString : Bool) (x : Tensor Str) (hashBuckets : Int) (key : Option (List Nat))
    (h : isString = false ∨ hashBuckets < 1 ∨ ∃ k : List Nat, key = some k ∧ k.length ≠ 2) :
    ∃ e : Err, hashStrings fast strong isString x hashBuckets key = .error e := by
  cases isString with
  | false => exact ⟨_, rfl⟩
  | true =>
    have : ∀ s : List Str, ∃ e : Err, toHashBucket fast strong key hashBuckets s = .error e := by
      intro s
      rcases h with h | h | ⟨k, rfl, hk⟩
      · cases h
      · exact ⟨_, by simp [toHashBucket, h]; rfl⟩
      · unfold toHashBucket
        split
        · exact ⟨_, rfl⟩
        · match k, hk with
          | [], _ => exact ⟨_, rfl⟩
          | [_], _ => exact ⟨_, rfl⟩
          | [_, _], hk => exact absurd rfl hk
          | _ :: _ :: _ :: _, _ => exact ⟨_, rfl⟩
    cases x with
    | dense shape data =>
      obtain ⟨e, he⟩ := this data
      exact ⟨e, by simp [hashStrings, he, bind, Except.bind]⟩
    | sparse i v sh =>
      obtain ⟨e, he⟩ := this v
      exact ⟨e, by simp [hashStrings, he, bind, Except.bind, Tensor.getValues]⟩
    | ragged r v =>
      obtain ⟨e, he⟩ := this v
      exact ⟨e, by simp [hashStrings, he, bind, Except.bind, Tensor.getValues]⟩

/-! ## Non-vacuity -/

namespace Example

/-- A batch of two instances with two and one values. -/
def x : Tensor Int := .sparse [[0, 0], [0, 1], [1, 0]] [5, 6, 7] [2, 2]

-- padding to three columns
example : sparseTensorToDenseWithShape x [none, some 3] (-1) = .ok ⟨[2, 3], [5, 6, -1, 7, -1, -1]⟩ := by
  decide +kernel

-- one column is too few: the second value of the first instance is not dropped, the call fails
example : ∃ e : Err, sparseTensorToDenseWithShape x [none, some 1] (-1) = .error e :=
  ⟨"InvalidArgumentError: index is out of bounds", by decide +kernel⟩

example : Spec.IsShape [2, 2] [none, some 3] [2, 3] := isShape_iff.2 (by decide +kernel)

example : ∃ d : Nd Int, sparseTensorToDenseWithShape x [none, some 3] 0 = .ok d :=
  (densify_succeeds_iff (indices := [[0, 0], [0, 1], [1, 0]]) (values := [5, 6, 7])
    (denseShape := [2, 2]) (by rfl)).2 ⟨rfl, [2, 3], isShape_iff.2 (by decide +kernel), by
    simp [Spec.Inside], by decide +kernel⟩

example : hashStrings (Str := String) String.length (fun a b s => a + b + s.length) true
    (.ragged [[0, 2, 3]] ["a", "bcd", "a"]) 2 none = .ok (.ragged [[0, 2, 3]] [1, 1, 1]) := by
  decide +kernel

example : hashStrings (Str := String) String.length (fun a b s => a + b + s.length) true
    (.dense [1, 2] ["a", "bcd"]) 5 (some [1, 2]) = .ok (.dense [1, 2] [4, 1]) := by
  decide +kernel

end Example

end TFT.Densify
