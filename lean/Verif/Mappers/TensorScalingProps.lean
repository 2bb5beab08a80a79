import Verif.Mappers.TensorScaling
import Verif.Mappers.PerKeyScalingProps

/-!
# C86: scaling whole tensors
-/

namespace TFT.Scaling

open _root_.TFT.Spec (IsMinOf IsMaxOf mean variance finite colData columnData)

variable {α β γ σ : Type}

/-! ## Specification -/

/-- A position in an instance: the number of a value of a dense instance, in order, or the index of
a value of a sparse one. -/
abbrev Pos := Nat ⊕ List Nat

/-- The values of a batch at one position of the instances. -/
def Col.valuesAt (p : Pos) : Col α → List α
  | .dense _ rows => rows.flatMap (fun r =>
      match p with
      | .inl j => (r[j]?).toList
      | .inr _ => [])
  | .sparse _ entries => entries.filterMap (fun e => if Sum.inr e.1.tail = p then some e.2 else none)
  | .ragged _ _ => []

/-- The data of all batches that the scaling of the values at `p` is about: all values, or
(`elementwise`) those at the same position. -/
def scaleData (elementwise : Bool) (p : Pos) (batches : List (Col α)) : List α :=
  batches.flatMap (fun x => if elementwise then x.valuesAt p else x.flat)

/-- The tensor whose values are changed by the function for their position, and nothing else. -/
def Col.mapAt (f : Pos → α → β) : Col α → Col β
  | .dense shape rows => .dense shape (rows.map (fun r => r.mapIdx (fun j v => f (.inl j) v)))
  | .sparse shape entries => .sparse shape (entries.map (fun e => (e.1, f (.inr e.1.tail) e.2)))
  | .ragged splits values => .ragged splits (values.map (f (.inl 0)))

/-- A tensor with the right number of values, or with indices inside its dense shape. When scaling
elementwise, instances have the given shape, and the tensor is not ragged. -/
def Proper (elementwise : Bool) (shape : List Nat) : Col α → Prop
  | .dense sh rows => (∀ r ∈ rows, r.length = sh.prod) ∧ (elementwise = true → sh = shape)
  | .sparse sh entries => (∀ e ∈ entries, List.Forall₂ (· < ·) e.1 sh) ∧
      (elementwise = true → sh ≠ [] ∧ sh.tail = shape)
  | .ragged _ _ => elementwise = false

/-- `g` scales to `[a, b]` by the minimum and maximum of the data; without two different data it is
the sigmoid function, projected on the range. -/
def IsMinMaxScaled (a b : ℝ) (data : List ℚ) (g : ℝ → ℝ) : Prop :=
  (∃ lo hi : ℚ, IsMinOf lo data ∧ IsMaxOf hi data ∧ lo < hi ∧
    ∀ x, g x = a + (x - lo) / (hi - lo) * (b - a)) ∨
  ((∀ x ∈ data, ∀ y ∈ data, x = y) ∧ ∀ x, g x = a + Real.sigmoid x * (b - a))

/-- `g` subtracts the mean of the data and divides by the standard deviation, unless it is 0. Without
data, values stay as they are or become NaN. -/
def IsZScored (data : List ℚ) (g : ℝ → Option ℝ) : Prop :=
  (data ≠ [] → ∀ x, g x = some (if variance data = 0 then x - mean data
    else (x - mean data) / Real.sqrt (variance data))) ∧
  (data = [] → (∀ x, g x = some x) ∨ ∀ x, g x = none)

/-! ## Lemmas: positions and columns -/

theorem flatPos_lt {shape idx : List Nat} (h : List.Forall₂ (· < ·) idx shape) :
    flatPos shape idx < shape.prod := by
  induction h with
  | nil => simp [flatPos]
  | @cons i d idx shape hi _ ih =>
    simp only [flatPos, List.prod_cons]
    have : (i + 1) * shape.prod ≤ d * shape.prod := Nat.mul_le_mul_right _ hi
    rw [Nat.add_mul, Nat.one_mul] at this
    omega

theorem flatPos_inj {shape i j : List Nat} (hi : List.Forall₂ (· < ·) i shape)
    (hj : List.Forall₂ (· < ·) j shape) (h : flatPos shape i = flatPos shape j) : i = j := by
  induction hi generalizing j with
  | nil => cases hj; rfl
  | @cons a d i shape ha hi ih =>
    cases hj with
    | @cons b _ j _ hb hj =>
      simp only [flatPos] at h
      have h1 := flatPos_lt hi
      have h2 := flatPos_lt hj
      have hab : a = b := by
        rcases lt_trichotomy a b with hlt | heq | hlt
        · have : (a + 1) * shape.prod ≤ b * shape.prod := Nat.mul_le_mul_right _ hlt
          rw [Nat.add_mul, Nat.one_mul] at this
          omega
        · exact heq
        · have : (b + 1) * shape.prod ≤ a * shape.prod := Nat.mul_le_mul_right _ hlt
          rw [Nat.add_mul, Nat.one_mul] at this
          omega
      subst hab
      rw [ih hj (by omega)]

/-- The number of a position. -/
def posNum (shape : List Nat) : Pos → Nat
  | .inl j => j
  | .inr idx => flatPos shape idx

/-- The positions that instances of a tensor have. -/
inductive ValidPos : Layout → List Nat → Pos → Prop
  | dense (shape : List Nat) (j : Nat) (h : j < shape.prod) : ValidPos .dense shape (.inl j)
  | sparse (shape idx : List Nat) (h : List.Forall₂ (· < ·) idx shape) :
      ValidPos .sparse shape (.inr idx)

theorem ValidPos.lt {l : Layout} {shape : List Nat} {p : Pos} (h : ValidPos l shape p) :
    posNum shape p < shape.prod := by
  cases h with
  | dense _ _ h => exact h
  | sparse _ _ h => exact flatPos_lt h

theorem Forall₂_tail {R : Nat → Nat → Prop} {a b : List Nat} (h : List.Forall₂ R a b) :
    List.Forall₂ R a.tail b.tail := by
  cases h with
  | nil => exact .nil
  | cons _ h => exact h

theorem columns_length {shape : List Nat} {x : Col α} (h : Proper true shape x) :
    (x.columns false).length = shape.prod ∧ x.batchShape false = shape := by
  cases x with
  | dense sh rows =>
    obtain ⟨_, h⟩ := h
    rw [h rfl]
    simp [Col.columns, Col.batchShape, statShape]
  | sparse sh es =>
    obtain ⟨_, h⟩ := h
    rw [← (h rfl).2]
    simp [Col.columns, Col.batchShape, statShape]
  | ragged _ _ => cases h

theorem columns_at {shape : List Nat} {x : Col α} (h : Proper true shape x) {p : Pos}
    (hp : ValidPos x.layout shape p) :
    (x.columns false).getD (posNum shape p) [] = x.valuesAt p := by
  have hlt := hp.lt
  cases x with
  | dense sh rows =>
    obtain ⟨_, h⟩ := h
    obtain rfl := h rfl
    cases hp with
    | dense _ j hj =>
      simp only [Col.columns, posNum, Bool.false_eq_true, if_false, Col.valuesAt]
      rw [List.getD_eq_getElem _ _ (by simpa using hj)]
      simp only [List.getElem_map, List.getElem_range]
      rw [← List.filterMap_eq_flatMap_toList]
  | sparse sh es =>
    obtain ⟨he, h⟩ := h
    obtain ⟨hne, rfl⟩ := h rfl
    cases hp with
    | sparse _ idx hidx =>
      simp only [Col.columns, Bool.false_eq_true, if_false, Col.valuesAt]
      rw [List.getD_eq_getElem _ _ (by simpa using hlt)]
      simp only [List.getElem_map, List.getElem_range, posNum]
      clear hlt
      induction es with
      | nil => rfl
      | cons e es ih =>
        have ih := ih (fun x hx => he x (by simp [hx]))
        have hiff : flatPos sh.tail e.1.tail = flatPos sh.tail idx ↔ (Sum.inr e.1.tail : Pos) = .inr idx := by
          constructor
          · intro hh
            rw [flatPos_inj (Forall₂_tail (he e (by simp))) hidx hh]
          · intro hh
            rw [Sum.inr.inj hh]
        by_cases hc : flatPos sh.tail e.1.tail = flatPos sh.tail idx
        · rw [List.filter_cons_of_pos (by simpa using hc), List.map_cons, ih,
            List.filterMap_cons_some (b := e.2) (by rw [if_pos (hiff.1 hc)])]
        · rw [List.filter_cons_of_neg (by simpa using hc), ih,
            List.filterMap_cons_none (by rw [if_neg (fun hh => hc (hiff.2 hh))])]
  | ragged _ _ => cases h

theorem columns_reduce (x : Col α) : x.columns true = [x.flat] ∧ x.batchShape true = [] := by
  cases x <;> simp [Col.columns, Col.valueRows, Col.flat, Col.batchShape, statShape]

theorem valuesAt_invalid {shape : List Nat} {x : Col α} (h : Proper true shape x) {p : Pos}
    (hp : ¬ ValidPos x.layout shape p) : x.valuesAt p = [] := by
  cases x with
  | dense sh rows =>
    obtain ⟨hr, h⟩ := h
    obtain rfl := h rfl
    simp only [Col.valuesAt, List.flatMap_eq_nil_iff]
    intro r hrr
    cases p with
    | inl j =>
      have : sh.prod ≤ j := by
        by_contra hc
        exact hp (.dense _ _ (not_le.1 hc))
      simp [hr r hrr, this]
    | inr _ => rfl
  | sparse sh es =>
    obtain ⟨he, h⟩ := h
    obtain ⟨hne, rfl⟩ := h rfl
    simp only [Col.valuesAt, List.filterMap_eq_nil_iff]
    intro e hee
    rw [if_neg]
    intro hc
    subst hc
    exact hp (.sparse _ _ (Forall₂_tail (he e hee)))
  | ragged _ _ => cases h

/-! ## Lemmas: the statistic of every value -/

theorem seqExcept_map_ok {δ : Type} (l : List δ) (f : δ → Except Err γ) (g : δ → γ)
    (h : ∀ x ∈ l, f x = .ok (g x)) : seqExcept (l.map f) = .ok (l.map g) := by
  induction l with
  | nil => rfl
  | cons a l ih =>
    simp [seqExcept, h a (by simp), ih (fun x hx => h x (by simp [hx])), bind, Except.bind]

theorem withRows_dense {shape : List Nat} {rows : List (List α)} (out : List (List β)) :
    (Col.dense shape rows).withRows out = .dense shape out := rfl

theorem withRows_sparse {shape : List Nat} {es : List (List Nat × α)} (g : List Nat × α → β) :
    (Col.sparse shape es).withRows [es.map g] = .sparse shape (es.map (fun e => (e.1, g e))) := by
  simp only [Col.withRows, List.flatten_cons, List.flatten_nil, List.append_nil, List.zipWith_map_right]
  congr 1
  induction es with
  | nil => rfl
  | cons e es ih => simpa using ih

theorem zipWith_const {δ : Type} (r : List β) (v : σ) (f : β → σ → δ) :
    List.zipWith f r (r.map (fun _ => v)) = r.map (fun x => f x v) := by
  induction r with
  | nil => rfl
  | cons a r ih => simpa using ih

/-- A scalar statistic is used for all values. -/
theorem withStats_scalar {reduce : Bool} (f : σ → β → Except Err γ) (st : σ) (G : β → γ)
    (hG : ∀ v, f st v = .ok (G v)) {shape : List Nat} {x : Col β}
    (hx : Proper (!reduce) shape x) :
    withStats reduce f ⟨[], [st]⟩ x = .ok (x.mapAt (fun _ v => G v)) := by
  unfold withStats
  cases x with
  | dense sh rows =>
    simp only [statFor, if_true, scalarOf, bind, Except.bind, Col.valueRows]
    rw [List.zipWith_map_right]
    rw [show List.zipWith (fun (a : List β) (b : List β) => seqExcept (List.zipWith (fun v p => f p v) a
        (b.map (fun _ => st)))) rows rows
      = rows.map (fun r => seqExcept (List.zipWith (fun v p => f p v) r (r.map (fun _ => st)))) by
        rw [List.zipWith_self]]
    rw [seqExcept_map_ok rows _ (fun r => r.map G)]
    · simp only [withRows_dense, Col.mapAt]
      congr 2
      apply List.map_congr_left
      intro r _
      apply List.ext_getElem <;> simp
    · intro r _
      rw [zipWith_const]
      exact seqExcept_map_ok r _ G (fun v _ => hG v)
  | sparse sh es =>
    have hst : statFor reduce (⟨[], [st]⟩ : Nd σ) (.sparse sh es) = .ok [es.map (fun _ => st)] := by
      cases reduce with
      | true => rfl
      | false =>
        have hcan : canBroadcast [] sh = true := by simp [canBroadcast]
        simp only [statFor, Bool.false_eq_true, if_false, hcan, if_true, bind, Except.bind]
        rw [seqExcept_map_ok es _ (fun _ => st)]
        intro e he
        have hv := hx.1 e he
        have hz : (e.1.zip sh).all (fun d => decide (d.1 < d.2)) = true := by
          rw [List.all_eq_true]
          intro d hd
          have := List.forall₂_iff_zip.1 hv
          simpa using this.2 hd
        simp [gatherBroadcast, hv.length_eq, hz, flatPos]
    simp only [hst, bind, Except.bind, Col.valueRows, List.zipWith_cons_cons, List.zipWith_nil_left]
    have : List.zipWith (fun v p => f p v) (es.map Prod.snd) (es.map (fun _ => st))
        = es.map (fun e => f st e.2) := by
      rw [List.zipWith_map, List.zipWith_self]
    rw [this, seqExcept, seqExcept_map_ok es _ (fun e => G e.2) (fun e _ => hG e.2)]
    simp only [seqExcept, bind, Except.bind, withRows_sparse, Col.mapAt]
  | ragged sp vs =>
    have hr : reduce = true := by simpa [Proper] using hx
    subst hr
    simp only [statFor, if_true, scalarOf, bind, Except.bind, Col.valueRows, List.zipWith_cons_cons,
      List.zipWith_nil_left]
    rw [zipWith_const, seqExcept, seqExcept_map_ok vs _ G (fun v _ => hG v)]
    simp [seqExcept, bind, Except.bind, Col.withRows, Col.mapAt]

/-- Elementwise, every value meets the statistic of its position. -/
theorem withStats_positions (f : σ → β → Except Err γ) (s : Nd σ) (G : Nat → β → γ)
    {shape : List Nat} (hshape : s.shape = shape) (hlen : s.data.length = shape.prod)
    (hG : ∀ q st, s.data[q]? = some st → ∀ v, f st v = .ok (G q v)) {x : Col β}
    (hx : Proper true shape x) :
    withStats false f s x = .ok (x.mapAt (fun p v => G (posNum shape p) v)) := by
  unfold withStats
  cases x with
  | dense sh rows =>
    obtain ⟨hr, h⟩ := hx
    obtain rfl := h rfl
    have hst : statFor false s (.dense sh rows) = .ok (rows.map (fun _ => s.data)) := by
      simp only [statFor, hshape]
      split_ifs with h0
      · subst h0
        obtain ⟨v, hv⟩ := List.length_eq_one_iff.1 (by simpa using hlen)
        simp only [scalarOf, hv, bind, Except.bind, Except.ok.injEq]
        apply List.map_congr_left
        intro r hrr
        have := hr r hrr
        obtain ⟨w, rfl⟩ := List.length_eq_one_iff.1 (by simpa using this)
        rfl
      · rfl
    simp only [hst, bind, Except.bind, Col.valueRows]
    rw [List.zipWith_map_right, List.zipWith_self,
      seqExcept_map_ok rows _ (fun r => r.mapIdx (fun j v => G j v))]
    · rfl
    · intro r hrr
      apply seqExcept_ok
      rw [List.forall₂_iff_get]
      refine ⟨by simp [hr r hrr, hlen], ?_⟩
      intro i h1 h2
      simp only [List.get_eq_getElem, List.getElem_zipWith, List.getElem_mapIdx]
      exact hG i _ (List.getElem?_eq_getElem _) _
  | sparse sh es =>
    obtain ⟨he, h⟩ := hx
    obtain ⟨hne, hsh⟩ := h rfl
    obtain ⟨n, sh, rfl⟩ := List.exists_cons_of_ne_nil hne
    simp only [List.tail_cons] at hsh
    subst hsh
    have hcan : canBroadcast s.shape (n :: sh) = true := by
      rw [hshape]
      have hz : ∀ a b : Nat, (a, b) ∈ sh.zip sh → a = b := by
        intro a b hab
        obtain ⟨i, hi, hc⟩ := List.getElem_of_mem hab
        simp only [List.getElem_zip, Prod.mk.injEq] at hc
        exact hc.1.symm.trans hc.2
      simp only [canBroadcast, List.length_cons, Bool.and_eq_true, decide_eq_true_eq,
        List.all_eq_true, Bool.or_eq_true]
      refine ⟨by omega, ?_⟩
      rintro ⟨a, b⟩ hab
      rw [show sh.length + 1 - sh.length = 1 by omega] at hab
      exact .inl (hz a b hab)
    have hgather : ∀ e ∈ es, ∃ st, s.data[flatPos sh e.1.tail]? = some st ∧
        gatherBroadcast s (n :: sh) e.1 = .ok st := by
      intro e hee
      have hv := he e hee
      have hlt := flatPos_lt (Forall₂_tail hv)
      simp only [List.tail_cons] at hlt
      refine ⟨s.data[flatPos sh e.1.tail]'(by rw [hlen]; exact hlt), List.getElem?_eq_getElem _, ?_⟩
      have hz : (e.1.zip (n :: sh)).all (fun d => decide (d.1 < d.2)) = true := by
        rw [List.all_eq_true]
        intro d hd
        have := List.forall₂_iff_zip.1 hv
        simpa using this.2 hd
      have hzip : ∀ (d i : List Nat), List.Forall₂ (· < ·) i d →
          List.zipWith (fun d i => if d = 1 then 0 else i) d i = i := by
        intro d i hdi
        induction hdi with
        | nil => rfl
        | @cons a b i d hab _ ih =>
          simp only [List.zipWith_cons_cons, ih]
          split_ifs with h1
          · subst h1
            rw [Nat.lt_one_iff.1 hab]
          · rfl
      unfold gatherBroadcast
      rw [if_neg (by simp only [hv.length_eq, hz]; simp), hshape,
        show (n :: sh).length - sh.length = 1 by simp, List.drop_one,
        hzip sh e.1.tail (Forall₂_tail hv), List.getElem?_eq_getElem (by rw [hlen]; exact hlt)]
    by_cases hes : es = []
    · subst hes
      simp [statFor, hcan, seqExcept, bind, Except.bind, Col.valueRows, Col.withRows, Col.mapAt]
    obtain ⟨e0, he0⟩ := List.exists_mem_of_ne_nil _ hes
    obtain ⟨st0, -⟩ := hgather e0 he0
    have : Nonempty σ := ⟨st0⟩
    choose! st hst1 hst2 using hgather
    simp only [statFor, Bool.false_eq_true, if_false, hcan, if_true, bind, Except.bind]
    rw [seqExcept_map_ok es _ st hst2]
    simp only [Col.valueRows, List.zipWith_cons_cons, List.zipWith_nil_left]
    rw [List.zipWith_map, List.zipWith_self, seqExcept,
      seqExcept_map_ok es _ (fun e => G (flatPos sh e.1.tail) e.2)
        (fun e hee => hG _ _ (hst1 e hee) e.2)]
    simp only [seqExcept, bind, Except.bind, withRows_sparse, Col.mapAt, posNum]
  | ragged _ _ => cases hx

theorem mapAt_congr {l : Layout} {shape : List Nat} (f g : Pos → β → γ)
    (h : ∀ p, ValidPos l shape p → f p = g p) {x : Col β} (hl : x.layout = l)
    (hx : Proper true shape x) : x.mapAt f = x.mapAt g := by
  subst hl
  cases x with
  | dense sh rows =>
    obtain ⟨hr, h'⟩ := hx
    obtain rfl := h' rfl
    simp only [Col.mapAt]
    congr 1
    apply List.map_congr_left
    intro r hrr
    apply List.ext_getElem (by simp)
    intro i h1 h2
    simp only [List.getElem_mapIdx]
    rw [h _ (.dense _ _ (by simpa [hr r hrr] using h1))]
  | sparse sh es =>
    obtain ⟨he, h'⟩ := hx
    obtain ⟨hne, rfl⟩ := h' rfl
    simp only [Col.mapAt]
    congr 1
    apply List.map_congr_left
    intro e hee
    rw [h _ (.sparse _ _ (Forall₂_tail (he e hee)))]
  | ragged _ _ => cases hx

theorem colData_reduce (batches : List (Col α)) (p : Pos) :
    colData (batches.map (Col.columns true)) 0 = scaleData false p batches := by
  simp only [colData, scaleData, List.flatMap_map]
  apply List.flatMap_congr
  intro x _
  rw [(columns_reduce x).1]
  simp

theorem colData_positions {l : Layout} {shape : List Nat} (batches : List (Col α))
    (h : ∀ x ∈ batches, x.layout = l ∧ Proper true shape x) {p : Pos} (hp : ValidPos l shape p) :
    colData (batches.map (Col.columns false)) (posNum shape p) = scaleData true p batches := by
  simp only [colData, scaleData, List.flatMap_map]
  apply List.flatMap_congr
  intro x hx
  obtain ⟨h1, h2⟩ := h x hx
  subst h1
  exact columns_at h2 hp

theorem scaleData_invalid {l : Layout} {shape : List Nat} (batches : List (Col α))
    (h : ∀ x ∈ batches, x.layout = l ∧ Proper true shape x) {p : Pos} (hp : ¬ ValidPos l shape p) :
    scaleData true p batches = [] := by
  simp only [scaleData, List.flatMap_eq_nil_iff]
  intro x hx
  obtain ⟨h1, h2⟩ := h x hx
  subst h1
  exact valuesAt_invalid h2 hp

/-- From the statistics of the columns to the changed tensors. -/
theorem assemble {δ : Type} (elementwise : Bool) (layout : Layout) (shape : List Nat)
    (batches : List (Col δ)) (hb : ∀ x ∈ batches, x.layout = layout ∧ Proper elementwise shape x)
    (f : σ → β → Except Err γ) (s : Nd σ) (Q : List δ → (β → γ) → Prop)
    (h : (s.shape = statShape (!elementwise) shape ∧
        s.data.length = (statShape (!elementwise) shape).prod ∧
        ∀ q st, s.data[q]? = some st → ∃ g, (∀ v, f st v = .ok (g v)) ∧
          Q (colData (batches.map (Col.columns (!elementwise))) q) g) ∨
      (batches = [] ∧ ∃ st, s = ⟨[], [st]⟩ ∧ ∃ g, (∀ v, f st v = .ok (g v)) ∧ Q [] g))
    (hQ : ∃ g, Q [] g) :
    ∃ F : Pos → β → γ, (∀ p, Q (scaleData elementwise p batches) (F p)) ∧
      ∀ x : Col β, x.layout = layout → Proper elementwise shape x →
        withStats (!elementwise) f s x = .ok (x.mapAt F) := by
  classical
  rcases h with ⟨h1, h2, h3⟩ | ⟨rfl, st, rfl, g, hg, hq⟩
  · cases elementwise with
    | false =>
      simp only [Bool.not_false, statShape, if_true] at h1 h2 h3
      obtain ⟨st, hst⟩ := List.length_eq_one_iff.1 (by simpa using h2)
      obtain ⟨g, hg, hq⟩ := h3 0 st (by simp [hst])
      refine ⟨fun _ => g, fun p => ?_, fun x _ hx => ?_⟩
      · rw [← colData_reduce batches p]
        exact hq
      · have : s = ⟨[], [st]⟩ := by
          cases s
          simp only at h1 hst
          rw [h1, hst]
        rw [this]
        exact withStats_scalar f st g hg (reduce := true) hx
    | true =>
      simp only [Bool.not_true, statShape, Bool.false_eq_true, if_false] at h1 h2 h3
      have hex : ∀ q, ∃ g : β → γ, ∀ st, s.data[q]? = some st → (∀ v, f st v = .ok (g v)) ∧
          Q (colData (batches.map (Col.columns false)) q) g := by
        intro q
        cases hq : s.data[q]? with
        | none =>
          obtain ⟨g, _⟩ := hQ
          exact ⟨g, fun st h => by cases h⟩
        | some st =>
          obtain ⟨g, hg⟩ := h3 q st hq
          refine ⟨g, fun st' h => ?_⟩
          cases h
          exact hg
      choose G hG using hex
      obtain ⟨g0, hg0⟩ := hQ
      refine ⟨fun p => if ValidPos layout shape p then G (posNum shape p) else g0, fun p => ?_,
        fun x hl hx => ?_⟩
      · dsimp only
        split_ifs with hp
        · rw [← colData_positions batches hb hp]
          have hlt : posNum shape p < s.data.length := by rw [h2]; exact hp.lt
          exact (hG _ _ (List.getElem?_eq_getElem hlt)).2
        · rw [scaleData_invalid batches hb hp]
          exact hg0
      · rw [Bool.not_true, withStats_positions f s G h1 h2 (fun q st h v => (hG q st h).1 v) hx]
        congr 1
        apply mapAt_congr (l := layout) _ _ _ hl hx
        intro p hp
        simp [hp]
  · refine ⟨fun _ => g, fun p => hq, fun x _ hx => ?_⟩
    exact withStats_scalar f st g hg (reduce := !elementwise) (by simpa using hx)

/-! ## Lemmas: minima and maxima -/

theorem minMaxOn_total [LinearOrder α] {T : NumType α} {ok : α → Prop} (emb : ℚ → α)
    (elementwise : Bool) (shape : List Nat) (known : Option (List Nat))
    (hk : known = some shape ∨ known = none)
    (G : GoodValues T (statShape (!elementwise) shape) ok) (hemb : ∀ q, ok (emb q)) :
    Sched.Total (minMaxOn T emb (!elementwise) known) (fun x => Proper elementwise shape x)
      (fun a l => AccRel (minMaxRel T ok) T.default (statShape (!elementwise) shape)
        (!elementwise || known.isSome) 2 a
        (l.map (fun x => (x.columns (!elementwise)).map (List.map emb)))) := by
  have hT := minMax_total G (!elementwise || known.isSome)
  have hsh : (if (!elementwise) = true then some [] else known)
      = (if (!elementwise || known.isSome) = true then some (statShape (!elementwise) shape)
          else none) := by
    cases elementwise with
    | false => rfl
    | true => rcases hk with rfl | rfl <;> rfl
  have hmerge : (minMaxOn T emb (!elementwise) known).merge
      = (minMaxAnalyzer T (statShape (!elementwise) shape) (!elementwise || known.isSome)).merge := by
    unfold minMaxOn minMaxAnalyzer
    simp only [Combiner.onBatches, hsh]
  refine ⟨?_, ?_, ?_, fun a l h => ⟨a, rfl, h⟩⟩
  · have : (minMaxOn T emb (!elementwise) known).create
        = (minMaxAnalyzer T (statShape (!elementwise) shape) (!elementwise || known.isSome)).create := by
      unfold minMaxOn minMaxAnalyzer
      simp only [Combiner.onBatches, hsh]
    rw [this]
    exact hT.create
  · intro a l x ha hx
    have hcol : (x.columns (!elementwise)).length = (statShape (!elementwise) shape).prod ∧
        x.batchShape (!elementwise) = statShape (!elementwise) shape := by
      cases elementwise with
      | false => simp [(columns_reduce x).1, (columns_reduce x).2, statShape]
      | true => exact columns_length hx
    obtain ⟨a', h1, h2⟩ := hT.add a _ ((x.columns (!elementwise)).map (List.map emb)) ha
      ⟨by simpa using hcol.1, by
        intro c hc v hv
        obtain ⟨c', _, rfl⟩ := List.mem_map.1 hc
        obtain ⟨q, _, rfl⟩ := List.mem_map.1 hv
        exact hemb q⟩
    refine ⟨a', ?_, by simpa using h2⟩
    rw [← h1]
    unfold minMaxOn minMaxAnalyzer
    simp only [Combiner.onBatches, hsh, hcol.2]
  · intro as ls hne hF
    obtain ⟨a', h1, h2⟩ := hT.merge as
      (ls.map (List.map (fun x => (x.columns (!elementwise)).map (List.map emb)))) hne
      (by rw [List.forall₂_map_right_iff]; exact hF)
    refine ⟨a', by rw [hmerge]; exact h1, ?_⟩
    rw [List.map_flatten]
    exact h2

/-- What the final accumulator holds for a position with these data. -/
def MinMaxAt [LinearOrder α] (T : NumType α) (v w : α) (l : List α) : Prop :=
  (l = [] → v ≤ T.default ∧ w ≤ T.default) ∧
  (l ≠ [] → IsMinOf (T.cast (T.neg v)) l ∧ IsMaxOf (T.cast w) l)

theorem minMax_at [LinearOrder α] {T : NumType α} {out : List Nat} {ok : α → Prop}
    (G : GoodValues T out ok) {kn : Bool} {final : List (Nd α)} {ds : List (ColBatch α)}
    (hrel : AccRel (minMaxRel T ok) T.default out kn 2 final ds) :
    ∃ mm mx, final = [mm, mx] ∧
      ((mm.shape = out ∧ mm.data.length = out.prod ∧ mx.data.length = out.prod ∧
        ∀ q v w, mm.data[q]? = some v → mx.data[q]? = some w → MinMaxAt T v w (colData ds q)) ∨
      (ds = [] ∧ mm = Nd.scalar T.default ∧ mx = Nd.scalar T.default)) := by
  obtain ⟨mm, mx, rfl, -, hval⟩ := minMax_final G hrel
  refine ⟨mm, mx, rfl, ?_⟩
  rcases hrel with ⟨_, h2⟩ | ⟨_, h2, h3⟩
  · left
    have r0 := h2 0 mm (by simp)
    have r1 := h2 1 mx (by simp)
    refine ⟨r0.shape, r0.len, r1.len, ?_⟩
    intro q v w hv hw
    refine ⟨fun he => ⟨(r0.val q v hv).2.1 he, (r1.val q w hw).2.1 he⟩, fun hne => ?_⟩
    have hlt : q < out.prod := by
      rw [← r0.len]
      exact (List.getElem?_eq_some_iff.1 hv).1
    obtain ⟨lo, hi, e1, e2, e3, e4⟩ := hval q hne hlt
    rw [List.getElem?_map, hv] at e1
    rw [List.getElem?_map, hw] at e2
    cases e1
    cases e2
    exact ⟨e3, e4⟩
  · right
    simp only [List.replicate, List.cons.injEq, and_true] at h3
    exact ⟨h2, h3.1, h3.2⟩

/-- A pair of statistics that scales as the data demand. -/
def GoodPair (a b : ℝ) (data : List ℚ) (p : Option EFloat × Option EFloat) : Prop :=
  ∃ g, (∀ x, scaleValue a b p x = .ok (g x)) ∧ IsMinMaxScaled a b data g

theorem scaleByMinMax_sigmoid {a b : ℝ} (hab : a < b) (x : ℝ) {mn mx : EFloat} (h : ¬ mn < mx) :
    scaleByMinMax a b mn mx x = .ok (a + Real.sigmoid x * (b - a)) := by
  unfold scaleByMinMax
  rw [if_neg (not_le.2 hab), if_neg h]
  simp only [bind, Except.bind, Except.ok.injEq]
  ring

theorem good_fin {a b : ℝ} (hab : a < b) {data : List ℚ} {lo hi : ℚ} (hlo : IsMinOf lo data)
    (hhi : IsMaxOf hi data) : GoodPair a b data (some (fin lo), some (fin hi)) := by
  rcases lt_or_eq_of_le (hlo.2 _ hhi.1) with hlt | heq
  · refine ⟨fun x => a + (x - lo) / (hi - lo) * (b - a), fun x => ?_,
      .inl ⟨lo, hi, hlo, hhi, hlt, fun _ => rfl⟩⟩
    have hlt' : fin lo < fin hi := WithBot.coe_lt_coe.2 (WithTop.coe_lt_coe.2 hlt)
    show scaleByMinMax a b (fin lo) (fin hi) x = _
    unfold scaleByMinMax
    rw [if_neg (not_le.2 hab), if_pos hlt']
    simp only [fin, bind, Except.bind]
    show Except.ok _ = Except.ok _
    congr 1
    ring
  · subst heq
    refine ⟨fun x => a + Real.sigmoid x * (b - a), fun x => scaleByMinMax_sigmoid hab x (lt_irrefl _),
      .inr ⟨fun x hx y hy => ?_, fun _ => rfl⟩⟩
    rw [le_antisymm (hhi.2 x hx) (hlo.2 x hx), le_antisymm (hhi.2 y hy) (hlo.2 y hy)]

theorem good_nil {a b : ℝ} (hab : a < b) {p : Option EFloat × Option EFloat}
    (hp : p = (some ⊤, some ⊥) ∨ p.1 = none) : GoodPair a b [] p := by
  refine ⟨fun x => a + Real.sigmoid x * (b - a), fun x => ?_, .inr ⟨by simp, fun _ => rfl⟩⟩
  rcases hp with rfl | hp
  · exact scaleByMinMax_sigmoid hab x (by simp)
  · obtain ⟨p1, p2⟩ := p
    simp only at hp
    subst hp
    exact scaleByMinMax_sigmoid hab x (by simp)

theorem float_pair {a b : ℝ} (hab : a < b) {data : List ℚ} {v w : EFloat}
    (h : MinMaxAt floatType v w (data.map finiteFloat)) :
    GoodPair a b data (some (floatType.cast (floatType.neg v)), some (floatType.cast w)) := by
  by_cases hd : data = []
  · subst hd
    obtain ⟨h1, h2⟩ := h.1 rfl
    obtain rfl := le_bot_iff.1 h1
    obtain rfl := le_bot_iff.1 h2
    exact good_nil hab (.inl rfl)
  · obtain ⟨h1, h2⟩ := h.2 (by simpa using hd)
    obtain ⟨lo, hlo, e1⟩ := List.mem_map.1 h1.1
    obtain ⟨hi, hhi, e2⟩ := List.mem_map.1 h2.1
    rw [← e1] at h1 ⊢
    rw [← e2] at h2 ⊢
    exact good_fin hab
      ⟨hlo, fun x hx => (fin_le _ _).1 (h1.2 _ (List.mem_map.2 ⟨x, hx, rfl⟩))⟩
      ⟨hhi, fun x hx => (fin_le _ _).1 (h2.2 _ (List.mem_map.2 ⟨x, hx, rfl⟩))⟩

theorem sparse_pair {a b : ℝ} (hab : a < b) {data : List ℚ} {v w : WithBot ℚ}
    (h : MinMaxAt sparseFloatType v w (data.map (fun q : ℚ => (q : WithBot ℚ)))) :
    GoodPair a b data ((sparseFloatType.cast (sparseFloatType.neg v)).map finiteFloat,
      (sparseFloatType.cast w).map finiteFloat) := by
  by_cases hd : data = []
  · subst hd
    obtain ⟨h1, h2⟩ := h.1 rfl
    obtain rfl := le_bot_iff.1 h1
    exact good_nil hab (.inr rfl)
  · obtain ⟨h1, h2⟩ := h.2 (by simpa using hd)
    obtain ⟨lo, hlo, e1⟩ := List.mem_map.1 h1.1
    obtain ⟨hi, hhi, e2⟩ := List.mem_map.1 h2.1
    rw [← e1] at h1 ⊢
    rw [← e2] at h2 ⊢
    exact good_fin hab
      ⟨hlo, fun x hx => WithBot.coe_le_coe.1 (h1.2 _ (List.mem_map.2 ⟨x, hx, rfl⟩))⟩
      ⟨hhi, fun x hx => WithBot.coe_le_coe.1 (h2.2 _ (List.mem_map.2 ⟨x, hx, rfl⟩))⟩

theorem sparse_good (sh : List Nat) : GoodValues sparseFloatType sh (fun x => x ≠ ⊥) where
  lowest_le := le_refl _
  default_le := fun _ _ => bot_le
  default_le_neg := fun _ _ => bot_le
  antitone := by
    intro x y hx hy h
    obtain ⟨x, rfl⟩ := WithBot.ne_bot_iff_exists.1 hx
    obtain ⟨y, rfl⟩ := WithBot.ne_bot_iff_exists.1 hy
    have h' : x ≤ y := WithBot.coe_le_coe.1 h
    change ((-y : ℚ) : WithBot ℚ) ≤ ((-x : ℚ) : WithBot ℚ)
    exact_mod_cast neg_le_neg h'
  neg_neg := by
    intro x hx
    obtain ⟨x, rfl⟩ := WithBot.ne_bot_iff_exists.1 hx
    change ((-(-x) : ℚ) : WithBot ℚ) = x
    simp
  cast_id := fun _ _ => rfl
  not_default := by
    intro _ x hx
    obtain ⟨x, rfl⟩ := WithBot.ne_bot_iff_exists.1 hx
    exact WithBot.coe_ne_bot

theorem colData_map (f : α → β) (ds : List (ColBatch α)) (q : Nat) :
    colData (ds.map (fun b => b.map (List.map f))) q = (colData ds q).map f := by
  simp only [colData, List.flatMap_map, List.map_flatMap]
  apply List.flatMap_congr
  intro b _
  simp only [List.getD_eq_getElem?_getD, List.getElem?_map]
  cases b[q]? <;> rfl

/-- The statistics of the columns of all batches. -/
theorem minMaxOn_stats [LinearOrder α] {T : NumType α} {ok : α → Prop} (emb : ℚ → α)
    (conv : α → Option EFloat) {a b : ℝ}
    (elementwise : Bool) (shape : List Nat) (known : Option (List Nat))
    (hk : known = some shape ∨ known = none)
    (G : GoodValues T (statShape (!elementwise) shape) ok) (hemb : ∀ q, ok (emb q))
    (hpair : ∀ (data : List ℚ) v w, MinMaxAt T v w (data.map emb) →
      GoodPair a b data (conv (T.cast (T.neg v)), conv (T.cast w)))
    (s1 : List (Sched (Col ℚ))) (s2 : Sched Nat) (hv : ValidRun s1 s2)
    (hb : ∀ x ∈ allInputs s1, Proper elementwise shape x) :
    ∃ s, (do pairStats conv (← analysis (minMaxOn T emb (!elementwise) known) s1 s2)) = .ok s ∧
      ((s.shape = statShape (!elementwise) shape ∧
        s.data.length = (statShape (!elementwise) shape).prod ∧
        ∀ q st, s.data[q]? = some st →
          GoodPair a b (colData ((allInputs s1).map (Col.columns (!elementwise))) q) st) ∨
      (allInputs s1 = [] ∧ ∃ st, s = ⟨[], [st]⟩ ∧ GoodPair a b [] st)) := by
  obtain ⟨final, hfin, hrel⟩ := analysis_total (minMaxOn_total emb elementwise shape known hk G hemb)
    (fun a l l' h hr => AccRel.perm (minMaxLaw G) (h.map _) hr) s1 s2 hv hb
  obtain ⟨mm, mx, rfl, hor⟩ := minMax_at G hrel
  have hext : analysis (minMaxOn T emb (!elementwise) known) s1 s2
      = .ok [⟨mm.shape, mm.data.map (fun v => T.cast (T.neg v))⟩, ⟨mx.shape, mx.data.map T.cast⟩] := by
    rw [hfin]
    simp [minMaxOn, npCombiner, Combiner.onBatches, bind, Except.bind]
  rw [hext]
  refine ⟨_, rfl, ?_⟩
  rcases hor with ⟨h1, h2, h3, h4⟩ | ⟨h1, rfl, rfl⟩
  · left
    refine ⟨h1, by simp [h2, h3], ?_⟩
    intro q st hst
    simp only [List.getElem?_zip_eq_some, List.getElem?_map, Option.map_eq_some_iff] at hst
    obtain ⟨⟨_, ⟨v, hv', rfl⟩, e1⟩, ⟨_, ⟨w, hw, rfl⟩, e2⟩⟩ := hst
    obtain ⟨st1, st2⟩ := st
    simp only at e1 e2
    subst e1
    subst e2
    apply hpair
    have := h4 q v w hv' hw
    rw [← colData_map emb, List.map_map]
    exact this
  · right
    refine ⟨List.map_eq_nil_iff.1 h1, _, rfl, ?_⟩
    apply hpair [] T.default T.default
    exact ⟨fun _ => ⟨le_refl _, le_refl _⟩, fun h => absurd rfl h⟩

/-! ## C86 -/

/-- **C86** for `scale_by_min_max`, from the tensors of the dataset to the scaled tensors. The tensors are
dense, sparse or ragged, with finite values; elementwise scaling is for dense tensors and for sparse
ones whose instances have one shape in all batches. However the data are split into datasets and
batches and combined, the analysis succeeds; and every tensor of the same kind is scaled: it keeps its
layout, and each value is scaled by the minimum and maximum of all data, or of the data at its own
position. -/
theorem scale_by_min_max_of_tensors_partial (elementwise : Bool) (layout : Layout)
    (shape : List Nat) (known : Option (List Nat)) (hk : known = some shape ∨ known = none)
    (hr : elementwise = true → layout ≠ .ragged)
    (outputMin outputMax : ℝ) (hout : outputMin < outputMax)
    (s1 : List (Sched (Col ℚ))) (s2 : Sched Nat) (hv : ValidRun s1 s2)
    (hb : ∀ x ∈ allInputs s1, x.layout = layout ∧ Proper elementwise shape x) :
    ∃ stats, minMaxOfTensors layout (!elementwise) known s1 s2 = .ok stats ∧
    ∃ f : Pos → ℝ → ℝ,
      (∀ p, IsMinMaxScaled outputMin outputMax (scaleData elementwise p (allInputs s1)) (f p)) ∧
      ∀ x : Col ℝ, x.layout = layout → Proper elementwise shape x →
        scaleTensor outputMin outputMax (!elementwise) stats x = .ok (x.mapAt f) := by
  have key : ∃ s, minMaxOfTensors layout (!elementwise) known s1 s2 = .ok s ∧
      ((s.shape = statShape (!elementwise) shape ∧
        s.data.length = (statShape (!elementwise) shape).prod ∧
        ∀ q st, s.data[q]? = some st →
          GoodPair outputMin outputMax (colData ((allInputs s1).map (Col.columns (!elementwise))) q) st) ∨
      (allInputs s1 = [] ∧ ∃ st, s = ⟨[], [st]⟩ ∧ GoodPair outputMin outputMax [] st)) := by
    unfold minMaxOfTensors
    by_cases h1 : elementwise = true ∧ layout = .sparse
    · rw [if_pos (by simp [h1.1, h1.2])]
      exact minMaxOn_stats (fun q : ℚ => (q : WithBot ℚ)) (fun v : WithBot ℚ => v.map finiteFloat)
        elementwise shape known hk (sparse_good _) (fun _ => WithBot.coe_ne_bot)
        (fun _ _ _ h => sparse_pair hout h) s1 s2 hv (fun x hx => (hb x hx).2)
    · rw [if_neg (by simpa using h1), if_neg (by simpa using hr)]
      exact minMaxOn_stats finiteFloat some elementwise shape known hk (finite_good _)
        (fun q => ⟨q, rfl⟩) (fun _ _ _ h => float_pair hout h) s1 s2 hv (fun x hx => (hb x hx).2)
  obtain ⟨s, hs, hcase⟩ := key
  refine ⟨s, hs, ?_⟩
  obtain ⟨F, hF, hx⟩ := assemble elementwise layout shape (allInputs s1) hb
    (scaleValue outputMin outputMax) s (IsMinMaxScaled outputMin outputMax) hcase
    ((good_nil hout (p := (none, none)) (.inr rfl)).imp fun _ h => h.2)
  refine ⟨F, hF, fun x h1 h2 => ?_⟩
  unfold scaleTensor
  rw [if_neg (not_le.2 hout)]
  exact hx x h1 h2

/-! ## Lemmas: means and variances -/

theorem meanVar_total_length (stats : List Elem → MVCol) (cols : Nat) :
    Sched.Total (meanVarAnalyzer (List.map stats) cols)
      (fun b : Batch => b.length = cols ∧ ∀ col ∈ b, ExactCol (finite col) (stats col))
      (fun a l => MVInv a l ∧ a.length = cols) := by
  have T := meanVar_total stats cols
  refine ⟨⟨T.create, ?_⟩, ?_, ?_, ?_⟩
  · simp [meanVarAnalyzer, mvCombiner, Combiner.onBatches]
  · intro a l b ha hb
    obtain ⟨a', h1, h2⟩ := T.add a l b ha.1 hb.2
    refine ⟨a', h1, h2, ?_⟩
    cases h1
    exact combineAcc_length _ _ _ ha.2 (by simpa using hb.1)
  · intro as ls hne hF
    obtain ⟨a', h1, h2⟩ := T.merge as ls hne (hF.imp (fun _ _ h => h.1))
    refine ⟨a', h1, h2, ?_⟩
    have hlen : ∀ a ∈ as, a.length = cols := by
      clear h1 h2 hne
      induction hF with
      | nil => simp
      | cons h _ ih =>
        intro a ha
        rcases List.mem_cons.1 ha with rfl | ha
        · exact h.2
        · exact ih a ha
    cases as with
    | nil => exact absurd rfl hne
    | cons a as =>
      cases h1
      exact foldl_combine_length as cols (fun x hx => hlen x (by simp [hx])) a (hlen a (by simp))
  · intro a l ha
    obtain ⟨a', h1, h2⟩ := T.compact a l ha.1
    refine ⟨a', h1, h2, ?_⟩
    cases h1
    exact ha.2

theorem total_columns {Acc In Out B : Type} {c : Combiner Acc In Out} {P : In → Prop}
    {R : Acc → List In → Prop} (T : Sched.Total c P R) (f : B → In) :
    Sched.Total (c.onBatches f) (fun b => P (f b)) (fun a l => R a (l.map f)) := by
  refine ⟨T.create, ?_, ?_, fun a l h => T.compact a _ h⟩
  · intro a l b ha hb
    obtain ⟨a', h1, h2⟩ := T.add a _ (f b) ha hb
    exact ⟨a', h1, by simpa using h2⟩
  · intro as ls hne hF
    rw [List.map_flatten]
    exact T.merge as _ hne (by rw [List.forall₂_map_right_iff]; exact hF)

theorem zScore_isZScored {data : List ℚ} {m v : Num}
    (h1 : data ≠ [] → m = some (mean data) ∧ v = some (variance data))
    (h2 : data = [] → (m = none ∨ m = some 0) ∧ (v = none ∨ v = some 0)) :
    IsZScored data (zScore m v) := by
  refine ⟨fun hne x => ?_, fun he => ?_⟩
  · obtain ⟨rfl, rfl⟩ := h1 hne
    have hv := variance_nonneg data
    unfold zScore
    simp only [Option.bind_some]
    rw [if_neg (not_lt.2 hv)]
    congr 1
    by_cases h0 : variance data = 0
    · rw [if_pos h0, if_neg (by simp [h0])]
    · have : (0 : ℝ) < ((variance data : ℚ) : ℝ) := by
        exact_mod_cast lt_of_le_of_ne hv (Ne.symm h0)
      rw [if_neg h0, if_pos (Real.sqrt_pos.2 this).ne']
  · obtain ⟨hm, hv⟩ := h2 he
    rcases hm with rfl | rfl
    · exact .inr (fun _ => rfl)
    · rcases hv with rfl | rfl
      · exact .inr (fun _ => rfl)
      · exact .inl (fun x => by simp [zScore])

/-- **C86** for `scale_to_z_score`, from the tensors of the dataset to the scaled tensors. Values may be
NaN or infinite (`none`), except in sparse tensors scaled elementwise; elementwise scaling is for
dense tensors and for sparse ones whose instances have one, statically known, shape. However the
data are split into datasets and batches and combined, the analysis succeeds; and every tensor of the
same kind is scaled: it keeps its layout, and each finite value becomes its z-score with the mean
and variance of all finite data, or of those at its own position. -/
theorem scale_to_z_score_of_tensors_partial (elementwise : Bool) (layout : Layout)
    (shape : List Nat) (known : Option (List Nat)) (hk : elementwise = true → known = some shape)
    (hr : elementwise = true → layout ≠ .ragged)
    (s1 : List (Sched (Col Elem))) (s2 : Sched Nat) (hv : ValidRun s1 s2)
    (hb : ∀ x ∈ allInputs s1, x.layout = layout ∧ Proper elementwise shape x)
    (hnan : elementwise = true → layout = .sparse → ∀ x ∈ allInputs s1, none ∉ x.flat) :
    ∃ stats, meanVarOfTensors layout (!elementwise) known s1 s2 = .ok stats ∧
    ∃ f : Pos → ℝ → Option ℝ,
      (∀ p, IsZScored (finite (scaleData elementwise p (allInputs s1))) (f p)) ∧
      ∀ x : Col (Option ℝ), x.layout = layout → Proper elementwise shape x →
        zScoreTensor (!elementwise) stats x = .ok (x.mapAt (fun p v => v.bind (f p))) := by
  obtain ⟨stat, hstat, hexact⟩ : ∃ stat : List Elem → MVCol,
      (if !(!elementwise) && decide (layout = .sparse) then sparseStats else denseStats) = List.map stat ∧
      ∀ x ∈ allInputs s1, ∀ col ∈ x.columns (!elementwise), ExactCol (finite col) (stat col) := by
    by_cases h1 : elementwise = true ∧ layout = .sparse
    · refine ⟨reduceSparseCol, by rw [if_pos (by simp [h1.1, h1.2])]; rfl, ?_⟩
      intro x hx col hcol
      have hn := hnan h1.1 h1.2 x hx
      rw [reduceSparseCol_eq col]
      · exact reduceDenseCol_exact col
      · intro hmem
        apply hn
        rw [h1.1] at hcol
        have hl := (hb x hx).1
        rw [h1.2] at hl
        cases x with
        | sparse sh es =>
          simp only [Col.columns, Bool.not_true, Bool.false_eq_true, if_false, List.mem_map,
            List.mem_range] at hcol
          obtain ⟨j, _, rfl⟩ := hcol
          obtain ⟨e, he, h2⟩ := List.mem_map.1 hmem
          exact List.mem_map.2 ⟨e, (List.mem_filter.1 he).1, h2⟩
        | dense _ _ => cases hl
        | ragged _ _ => cases hl
    · refine ⟨reduceDenseCol, by rw [if_neg (by simpa using h1)]; rfl, ?_⟩
      intro x _ col _
      exact reduceDenseCol_exact col
  have hsh : (if (!elementwise) = true then some [] else known) = some (statShape (!elementwise) shape) := by
    cases elementwise with
    | false => rfl
    | true => simpa [statShape] using hk rfl
  obtain ⟨final, hfin, hinv, hlen⟩ := analysis_total
    (total_columns (meanVar_total_length stat (statShape (!elementwise) shape).prod)
      (Col.columns (α := Elem) (!elementwise)))
    (fun a l l' h hr => ⟨MVInv.perm a _ _ (h.map _) hr.1, hr.2⟩) s1 s2 hv (by
      intro x hx
      refine ⟨?_, hexact x hx⟩
      cases elementwise with
      | false => simp [(columns_reduce x).1, statShape]
      | true => exact (columns_length (hb x hx).2).1)
  have hrun : meanVarOfTensors layout (!elementwise) known s1 s2
      = .ok ⟨statShape (!elementwise) shape, (final.map MVCol.mean).zip (final.map MVCol.variance)⟩ := by
    unfold meanVarOfTensors
    rw [if_neg (by simpa using hr)]
    simp only [hstat, hsh, hfin]
    rfl
  refine ⟨_, hrun, ?_⟩
  obtain ⟨F, hF, hx⟩ := assemble elementwise layout shape (allInputs s1) hb zScoreOf
    ⟨statShape (!elementwise) shape, (final.map MVCol.mean).zip (final.map MVCol.variance)⟩
    (fun data (g : Option ℝ → Option ℝ) => ∃ g', IsZScored (finite data) g' ∧ g = fun v => v.bind g')
    (.inl ⟨rfl, by simp [hlen], by
      intro q st hst
      simp only [List.getElem?_zip_eq_some, List.getElem?_map, Option.map_eq_some_iff] at hst
      obtain ⟨⟨c, hc, e1⟩, ⟨c', hc', e2⟩⟩ := hst
      rw [hc] at hc'
      cases hc'
      refine ⟨fun v => v.bind (zScore st.1 st.2), fun v => rfl, zScore st.1 st.2, ?_, rfl⟩
      rw [← columnData_finite]
      obtain ⟨_, i2, i3⟩ := hinv q
      rw [List.getD_eq_getElem?_getD, hc] at i2 i3
      simp only [Option.getD_some] at i2 i3
      rw [← e1, ← e2]
      exact zScore_isZScored i2 i3⟩)
    ⟨fun v => v.bind some, some, ⟨fun h => absurd rfl h, fun _ => .inl fun _ => rfl⟩, rfl⟩
  choose g hg1 hg2 using hF
  refine ⟨g, hg1, fun x h1 h2 => ?_⟩
  have : F = fun p v => v.bind (g p) := by
    funext p
    rw [hg2 p]
  rw [← this]
  exact hx x h1 h2

/-- `scale_to_0_1` is `scale_by_min_max` to `[0, 1]`. -/
theorem scale_to_0_1_of_tensors_partial (elementwise : Bool) (layout : Layout)
    (shape : List Nat) (known : Option (List Nat)) (hk : known = some shape ∨ known = none)
    (hr : elementwise = true → layout ≠ .ragged)
    (s1 : List (Sched (Col ℚ))) (s2 : Sched Nat) (hv : ValidRun s1 s2)
    (hb : ∀ x ∈ allInputs s1, x.layout = layout ∧ Proper elementwise shape x) :
    ∃ stats, minMaxOfTensors layout (!elementwise) known s1 s2 = .ok stats ∧
    ∃ f : Pos → ℝ → ℝ,
      (∀ p, IsMinMaxScaled 0 1 (scaleData elementwise p (allInputs s1)) (f p)) ∧
      ∀ x : Col ℝ, x.layout = layout → Proper elementwise shape x →
        scaleTensor01 (!elementwise) stats x = .ok (x.mapAt f) :=
  scale_by_min_max_of_tensors_partial elementwise layout shape known hk hr 0 1 one_pos s1 s2 hv hb

/-- Elementwise scaling of ragged tensors is refused when the analysis is set up, whatever the data. -/
theorem elementwise_ragged_refused (known : Option (List Nat)) (s1 : List (Sched (Col ℚ)))
    (t1 : List (Sched (Col Elem))) (s2 : Sched Nat) :
    minMaxOfTensors .ragged false known s1 s2
      = .error "NotImplementedError: Elementwise min_and_max does not support RaggedTensors." ∧
    meanVarOfTensors .ragged false known t1 s2
      = .error "NotImplementedError: Elementwise mean_and_var does not support RaggedTensors." :=
  ⟨rfl, rfl⟩

/-- An empty output range is refused, whatever the tensor. -/
theorem scale_tensor_range_refused (outputMin outputMax : ℝ) (h : outputMax ≤ outputMin)
    (reduce : Bool) (s : Nd (Option EFloat × Option EFloat)) (x : Col ℝ) :
    scaleTensor outputMin outputMax reduce s x
      = .error "ValueError: output_min must be less than output_max" := by
  unfold scaleTensor
  rw [if_pos h]

/-- **C86 fails** for sparse tensors without a fixed width, scaled elementwise: if the widest instance
of the dataset has `w ≠ 1` values, then batches that are narrower or wider cannot be transformed. -/
theorem other_widths_fail (w w' n : Nat) (hw : w ≠ 1) (h : w ≠ w') (outputMin outputMax : ℝ)
    (hout : outputMin < outputMax) (data : List (Option EFloat × Option EFloat))
    (mv : List (Num × Num)) (es : List (List Nat × ℝ)) (es' : List (List Nat × Option ℝ)) :
    scaleTensor outputMin outputMax false ⟨[w], data⟩ (.sparse [n, w'] es)
      = .error "InvalidArgumentError: Incompatible shapes" ∧
    zScoreTensor false ⟨[w], mv⟩ (.sparse [n, w'] es')
      = .error "InvalidArgumentError: Incompatible shapes" := by
  have hc : canBroadcast [w] [n, w'] = false := by simp [canBroadcast, h, hw]
  constructor
  · unfold scaleTensor withStats
    rw [if_neg (not_le.2 hout)]
    simp [statFor, hc, bind, Except.bind]
  · unfold zScoreTensor withStats
    simp [statFor, hc, bind, Except.bind]

/-- Two batches of sparse tensors, of widths two and one. -/
def twoWidths (a b c : β) : List (Sched (Col β)) :=
  [.add (.add .create (.sparse [1, 2] [([0, 0], a), ([0, 1], b)])) (.sparse [1, 1] [([0, 0], c)])]

/-- Such data: the mean and variance of both positions are found, but the second batch of the dataset
itself cannot be transformed with them. -/
theorem z_score_of_two_widths_fails :
    meanVarOfTensors .sparse false none (twoWidths (some 1) (some 2) (some 3)) (.add .create 0)
      = .ok ⟨[2], [(some 2, some 1), (some 2, some 0)]⟩ ∧
    zScoreTensor false ⟨[2], [(some 2, some 1), (some 2, some 0)]⟩ (.sparse [1, 1] [([0, 0], some 3)])
      = .error "InvalidArgumentError: Incompatible shapes" :=
  ⟨by decide +kernel, (other_widths_fail 2 1 1 (by decide) (by decide) 0 1 one_pos [] _ [] _).2⟩

/-- The minima and maxima of such data are not even computed. -/
theorem min_max_of_two_widths_fails :
    (minMaxOfTensors .sparse false none (twoWidths 1 2 3) (.add .create 0)).toOption = none := by
  decide +kernel

/-- If all instances of the dataset have at most one value, wider batches are scaled without an error,
but their second values with the statistics of the first position. -/
theorem wider_batches_use_the_first_position (m v : Num) (x y : ℝ) :
    zScoreTensor false ⟨[1], [(m, v)]⟩ (.sparse [1, 2] [([0, 0], some x), ([0, 1], some y)])
      = .ok (.sparse [1, 2] [([0, 0], zScore m v x), ([0, 1], zScore m v y)]) := by
  simp [zScoreTensor, withStats, statFor, canBroadcast, gatherBroadcast, flatPos, seqExcept, zScoreOf,
    Col.valueRows, Col.withRows, bind, Except.bind]

/-! ## The hypotheses can be met -/

/-- Two datasets with dense batches of instances of shape `[2]`, one of them without instances. -/
def denseRun : List (Sched (Col ℚ)) :=
  [.merge [.add .create (.dense [2] [[1, 5], [3, 5]]), .add .create (.dense [2] [])],
   .add .create (.dense [2] [[-1, 5]])]

example : ValidRun denseRun (.merge [.add .create 1, .add .create 0]) ∧
    (∀ x ∈ allInputs denseRun, x.layout = .dense ∧ Proper true [2] x) ∧
    scaleData true (.inl 0) (allInputs denseRun) = [1, 3, -1] ∧
    scaleData true (.inl 1) (allInputs denseRun) = [5, 5, 5] ∧
    scaleData false (.inl 0) (allInputs denseRun) = [1, 5, 3, 5, -1, 5] := by
  refine ⟨⟨?_, ?_, by decide⟩, ?_, by decide +kernel, by decide +kernel, by decide +kernel⟩
  · intro s hs
    simp only [denseRun, List.mem_cons, List.not_mem_nil, or_false] at hs
    rcases hs with rfl | rfl
    · refine .merge (by simp) ?_
      intro s hs
      simp only [List.mem_cons, List.not_mem_nil, or_false] at hs
      rcases hs with rfl | rfl <;> exact .add .create
    · exact .add .create
  · refine .merge (by simp) ?_
    intro s hs
    simp only [List.mem_cons, List.not_mem_nil, or_false] at hs
    rcases hs with rfl | rfl <;> exact .add .create
  · intro x hx
    simp only [allInputs, denseRun, List.map_cons, List.map_nil, Sched.inputs, Sched.inputsList,
      List.nil_append, List.append_nil, List.cons_append, List.flatten_cons, List.flatten_nil,
      List.mem_cons, List.not_mem_nil, or_false] at hx
    rcases hx with rfl | rfl | rfl <;> exact ⟨rfl, by simp, fun _ => rfl⟩

/-- Sparse batches of different sizes with instances of shape `[2, 2]`. -/
example : (∀ x ∈ [Col.sparse [2, 2, 2] [([0, 1, 0], (1 : ℚ)), ([1, 0, 1], 2), ([1, 1, 0], 4)],
      .sparse [1, 2, 2] [([0, 1, 0], 7)]], x.layout = .sparse ∧ Proper true [2, 2] x) ∧
    scaleData true (.inr [1, 0])
      [Col.sparse [2, 2, 2] [([0, 1, 0], (1 : ℚ)), ([1, 0, 1], 2), ([1, 1, 0], 4)],
        .sparse [1, 2, 2] [([0, 1, 0], 7)]] = [1, 4, 7] := by
  refine ⟨?_, by decide +kernel⟩
  intro x hx
  simp only [List.mem_cons, List.not_mem_nil, or_false] at hx
  rcases hx with rfl | rfl <;> exact ⟨rfl, by simp, by simp⟩

end TFT.Scaling
