import Verif.Pipeline.Batch
import Verif.Combine.PackedLemmas
import Verif.Combine.PerKeyLemmas
import Mathlib.Data.List.Count
import Mathlib.Data.List.Range

/-!
# Properties of transformed batches (C36, C37, C44)
-/

set_option linter.unusedSectionVars false

namespace TFT.Batch

variable {K V : Type}

/-! ### C36: slicing -/

theorem rows_split (b : RecordBatch K V) (n : Nat) :
    (b.take n).rows ++ (b.drop n).rows = b.rows := by
  simp only [RecordBatch.rows, RecordBatch.take, RecordBatch.drop, List.map_map]
  by_cases h : n ≤ b.numRows
  · have hr : List.range b.numRows = List.range n ++ (List.range (b.numRows - n)).map (n + ·) := by
      conv_lhs => rw [show b.numRows = n + (b.numRows - n) by omega]
      rw [List.range_add]
    rw [hr, List.map_append, List.map_map, Nat.min_eq_left h]
    congr 1
    · apply List.map_congr_left
      intro i hi
      apply List.map_congr_left
      intro c _
      simp only [List.mem_range] at hi
      simp [hi]
    · apply List.map_congr_left
      intro i _
      simp
  · rw [Nat.min_eq_right (by omega), Nat.sub_eq_zero_of_le (by omega)]
    simp only [List.range_zero, List.map_nil, List.append_nil]
    apply List.map_congr_left
    intro i hi
    apply List.map_congr_left
    intro c _
    simp only [List.mem_range] at hi
    have : i < n := by omega
    simp [this]

/-- **C36** The pieces, one after the other, are the rows of the batch. (That slicing ends is
what Lean checked when it accepted the definition.) -/
theorem slices_concat (nbytes : RecordBatch K V → Nat) (limit : Nat) (b : RecordBatch K V) :
    (sliceLarge nbytes limit b).flatMap RecordBatch.rows = b.rows := by
  induction b using sliceLarge.induct nbytes limit with
  | case1 b h1 h2 =>
    rw [sliceLarge]; simp [h1, h2]
  | case2 b h1 h2 ih1 ih2 =>
    rw [sliceLarge, if_pos h1, dif_neg h2, List.flatMap_append, ih1, ih2, rows_split]
  | case3 b h1 =>
    rw [sliceLarge]; simp [h1]

/-- **C36** Every piece is within the limit or has a single row (at most one). -/
theorem slices_small (nbytes : RecordBatch K V → Nat) (limit : Nat) (b : RecordBatch K V) :
    ∀ p ∈ sliceLarge nbytes limit b, nbytes p ≤ limit ∨ p.numRows < 2 := by
  induction b using sliceLarge.induct nbytes limit with
  | case1 b h1 h2 => rw [sliceLarge]; simp [h1, h2]
  | case2 b h1 h2 ih1 ih2 =>
    rw [sliceLarge, if_pos h1, dif_neg h2]
    intro p hp
    rcases List.mem_append.mp hp with hp | hp
    · exact ih1 p hp
    · exact ih2 p hp
  | case3 b h1 => rw [sliceLarge]; simp [h1, Nat.not_lt.mp h1]

/-- **C36** Slicing adds no empty pieces, keeps the columns, and leaves a batch within the limit
alone. -/
theorem slices_shape (nbytes : RecordBatch K V → Nat) (limit : Nat) (b : RecordBatch K V) :
    (nbytes b ≤ limit → sliceLarge nbytes limit b = [b]) ∧
    (∀ p ∈ sliceLarge nbytes limit b, p.cols.map Prod.fst = b.cols.map Prod.fst ∧
      (0 < b.numRows → 0 < p.numRows)) := by
  refine ⟨fun h => by rw [sliceLarge, if_neg (by omega)], ?_⟩
  induction b using sliceLarge.induct nbytes limit with
  | case1 b h1 h2 => rw [sliceLarge]; simp [h1, h2]
  | case2 b h1 h2 ih1 ih2 =>
    rw [sliceLarge, if_pos h1, dif_neg h2]
    intro p hp
    rcases List.mem_append.mp hp with hp | hp
    · obtain ⟨ha, hb⟩ := ih1 p hp
      refine ⟨by rw [ha]; simp [RecordBatch.take], fun _ => hb ?_⟩
      simp only [RecordBatch.take]; omega
    · obtain ⟨ha, hb⟩ := ih2 p hp
      refine ⟨by rw [ha]; simp [RecordBatch.drop], fun _ => hb ?_⟩
      simp only [RecordBatch.drop]; omega
  | case3 b h1 => rw [sliceLarge]; simp [h1]

/-- A batch of five rows of 10 bytes each with a limit of 25 bytes. -/
example : (sliceLarge (fun b : RecordBatch Nat Nat => 10 * b.numRows) 25
    ⟨[(0, [some [1], some [2], none, some [4], some [5]])], 5⟩).map RecordBatch.numRows
      = [2, 1, 2] := by
  simp [sliceLarge, RecordBatch.take, RecordBatch.drop]

/-! ### C44: passthrough -/

/-- Specification: passthrough data can be attached to `n` rows if there is one element for every
row, or if all elements are the same (and there is one). -/
def Attachable (n : Nat) (data : List (Cell V)) : Prop :=
  data.length = n ∨ (data ≠ [] ∧ ∀ c ∈ data, ∀ c' ∈ data, c = c')

/-- Specification: the value attached to row `i`: the `i`-th element, or the common element. -/
def attachedValue (n : Nat) (data : List (Cell V)) (i : Nat) : Option (Cell V) :=
  if data.length = n then data[i]? else data[0]?

/-- The elements of a passthrough column are null or have length 1. -/
def Singletons (data : List (Cell V)) : Prop := ∀ c ∈ data, c = none ∨ ∃ v, c = some [v]

theorem firstElem_ok {c : Cell V} (h : c = none ∨ ∃ v, c = some [v]) :
    ∃ e, firstElem c = .ok e ∧ toCell e = c := by
  rcases h with rfl | ⟨v, rfl⟩
  · exact ⟨none, rfl, rfl⟩
  · exact ⟨some v, rfl, rfl⟩

theorem reduceUnary_ok_iff [DecidableEq V] (data : List (Cell V)) (h : Singletons data)
    (r : List (Cell V)) :
    reduceUnary data = .ok r ↔ ∃ c ∈ data, (∀ c' ∈ data, c' = c) ∧ r = [c] := by
  let g : Cell V → Option V := fun c => match firstElem c with | .ok e => e | .error _ => none
  have hg : ∀ c ∈ data, firstElem c = .ok (g c) ∧ toCell (g c) = c := by
    intro c hc
    obtain ⟨e, h1, h2⟩ := firstElem_ok (h c hc)
    have : g c = e := by simp only [g, h1]
    rw [this]
    exact ⟨h1, h2⟩
  have hs := seqExcept_ok_map data firstElem g (fun c hc => (hg c hc).1)
  unfold reduceUnary
  rw [hs]
  simp only [bind, Except.bind]
  constructor
  · intro hr
    split at hr
    · rename_i e he
      cases hr
      have hmem : ∀ x, x ∈ data.map g ↔ x = e := by
        intro x
        rw [← List.mem_dedup, he]
        simp
      obtain ⟨c, hc, hce⟩ := List.mem_map.mp ((hmem e).mpr rfl)
      have key : ∀ c' ∈ data, c' = toCell e := by
        intro c' hc'
        rw [← (hg c' hc').2, (hmem _).mp (List.mem_map_of_mem hc')]
      refine ⟨toCell e, ?_, key, rfl⟩
      rw [← key c hc]
      exact hc
    · cases hr
  · rintro ⟨c, hc, hall, rfl⟩
    have : (data.map g).dedup = [g c] := by
      have h1 : data.map g = List.replicate data.length (g c) := by
        rw [List.eq_replicate_iff]
        refine ⟨by simp, ?_⟩
        intro b hb
        obtain ⟨c', hc', rfl⟩ := List.mem_map.mp hb
        rw [hall c' hc']
      have h2 : data.length ≠ 0 := by
        intro h0
        have := List.eq_nil_of_length_eq_zero h0
        subst this
        simp at hc
      rw [h1, List.replicate_dedup h2]
    rw [this]
    simp [(hg c hc).2]

/-- What `attach` does, by cases. -/
theorem attach_ok_iff [DecidableEq V] (n : Nat) (data : List (Cell V)) (h : Singletons data)
    (r : List (Cell V) ⊕ List (Cell V)) :
    attach n data = .ok r ↔
      (data.length = n ∧ r = .inl data) ∨
      (data.length ≠ n ∧ ∃ c ∈ data, (∀ c' ∈ data, c' = c) ∧
        r = if n = 1 then .inl [c] else .inr [c]) := by
  unfold attach
  by_cases h1 : data.length = n
  · rw [if_neg (by simp [h1])]
    simp only [bind, Except.bind, h1, if_true]
    simp [eq_comm]
  · by_cases h2 : data.length = 1
    · rw [if_neg (by simp [h2])]
      simp only [bind, Except.bind, if_neg h1]
      obtain ⟨c, rfl⟩ := List.length_eq_one_iff.mp h2
      have : n ≠ 1 := by rintro rfl; exact h1 rfl
      have h1' : ¬ 1 = n := fun e => this e.symm
      simp [this, h1', eq_comm]
    · rw [if_pos ⟨h1, h2⟩]
      constructor
      · intro hr
        rw [bind_ok_iff] at hr
        obtain ⟨d, hd, hr⟩ := hr
        obtain ⟨c, hc, hall, rfl⟩ := (reduceUnary_ok_iff data h d).mp hd
        refine Or.inr ⟨h1, c, hc, hall, ?_⟩
        by_cases hn : n = 1
        · subst hn; simpa using hr.symm
        · have : ¬ 1 = n := fun e => hn e.symm
          simpa [this, hn] using hr.symm
      · rintro (⟨h', _⟩ | ⟨_, c, hc, hall, rfl⟩)
        · exact absurd h' h1
        · rw [bind_ok_iff]
          refine ⟨[c], (reduceUnary_ok_iff data h _).mpr ⟨c, hc, hall, rfl⟩, ?_⟩
          by_cases hn : n = 1
          · subst hn; simp
          · have : ¬ 1 = n := fun e => hn e.symm
            simp [this, hn]

/-- **C44** A column is attached iff it is attachable. -/
theorem attach_accepts_iff [DecidableEq V] (n : Nat) (data : List (Cell V)) (h : Singletons data) :
    (∃ r, attach n data = .ok r) ↔ Attachable n data := by
  constructor
  · rintro ⟨r, hr⟩
    rcases (attach_ok_iff n data h r).mp hr with ⟨h1, _⟩ | ⟨_, c, hc, hall, _⟩
    · exact Or.inl h1
    · exact Or.inr ⟨List.ne_nil_of_mem hc, fun a ha b hb => by rw [hall a ha, hall b hb]⟩
  · intro ha
    by_cases h1 : data.length = n
    · exact ⟨_, (attach_ok_iff n data h _).mpr (Or.inl ⟨h1, rfl⟩)⟩
    · rcases ha with h2 | ⟨hne, hall⟩
      · exact absurd h2 h1
      · obtain ⟨c, hc⟩ := List.exists_mem_of_ne_nil data hne
        exact ⟨_, (attach_ok_iff n data h _).mpr
          (Or.inr ⟨h1, c, hc, fun c' hc' => hall c' hc' c hc, rfl⟩)⟩

/-- The value of an attached column at row `i`. -/
def valueAt (i : Nat) : List (Cell V) ⊕ List (Cell V) → Option (Cell V)
  | .inl c => c[i]?
  | .inr u => u[0]?

theorem attach_value [DecidableEq V] (n : Nat) (data : List (Cell V)) (h : Singletons data)
    (r : List (Cell V) ⊕ List (Cell V)) (hr : attach n data = .ok r) (i : Nat) (hi : i < n) :
    valueAt i r = attachedValue n data i := by
  unfold attachedValue
  rcases (attach_ok_iff n data h r).mp hr with ⟨h1, rfl⟩ | ⟨h1, c, hc, hall, rfl⟩
  · rw [if_pos h1]; rfl
  · rw [if_neg h1]
    have h0 : data[0]? = some c := by
      cases data with
      | nil => simp at hc
      | cons a data => simp [hall a (by simp)]
    rw [h0]
    by_cases hn : n = 1
    · subst hn
      have : i = 0 := by omega
      subst this
      simp [valueAt]
    · simp [hn, valueAt]

/-- The columns and the unary features made from the passthrough data. -/
theorem attachAll_ok [DecidableEq V] (n : Nat) (ps : Dict K (List (Cell V)))
    (cols unary : Dict K (List (Cell V))) (h : attachAll n ps = .ok (cols, unary)) :
    (∀ c ∈ cols, c.2.length = n) ∧
    (∀ e, e ∈ cols → ∃ d, (e.1, d) ∈ ps ∧ attach n d = .ok (.inl e.2)) ∧
    (∀ e, e ∈ unary → ∃ d, (e.1, d) ∈ ps ∧ attach n d = .ok (.inr e.2)) ∧
    (∀ p ∈ ps, ∃ r, attach n p.2 = .ok r ∧
      ((∃ c, r = .inl c ∧ (p.1, c) ∈ cols) ∨ (∃ u, r = .inr u ∧ (p.1, u) ∈ unary))) ∧
    cols.length + unary.length = ps.length := by
  induction ps generalizing cols unary with
  | nil =>
    simp [attachAll] at h
    obtain ⟨rfl, rfl⟩ := h
    simp
  | cons p ps ih =>
    obtain ⟨k, data⟩ := p
    simp only [attachAll, bind_ok_iff] at h
    obtain ⟨a, ha, ⟨cols', unary'⟩, hrest, h⟩ := h
    obtain ⟨i1, i2, i3, i4, i5⟩ := ih cols' unary' hrest
    cases a with
    | inl c =>
      simp only [Except.ok.injEq, Prod.mk.injEq] at h
      obtain ⟨rfl, rfl⟩ := h
      have hlen : c.length = n := by
        unfold attach at ha
        rw [bind_ok_iff] at ha
        obtain ⟨d, _, hd⟩ := ha
        split at hd
        · cases hd; assumption
        · cases hd
      refine ⟨?_, ?_, ?_, ?_, ?_⟩
      · intro x hx
        rcases List.mem_cons.mp hx with rfl | hx
        · exact hlen
        · exact i1 x hx
      · intro x hx
        rcases List.mem_cons.mp hx with rfl | hx
        · exact ⟨data, by simp, ha⟩
        · obtain ⟨d, hd, h'⟩ := i2 x hx
          exact ⟨d, by simp [hd], h'⟩
      · intro x hx
        obtain ⟨d, hd, h'⟩ := i3 x hx
        exact ⟨d, by simp [hd], h'⟩
      · intro x hx
        rcases List.mem_cons.mp hx with rfl | hx
        · exact ⟨_, ha, Or.inl ⟨c, rfl, by simp⟩⟩
        · obtain ⟨r, hr, h'⟩ := i4 x hx
          refine ⟨r, hr, ?_⟩
          rcases h' with ⟨c', e, hm⟩ | ⟨u, e, hm⟩
          · exact Or.inl ⟨c', e, by simp [hm]⟩
          · exact Or.inr ⟨u, e, hm⟩
      · simp only [List.length_cons]; omega
    | inr u =>
      simp only [Except.ok.injEq, Prod.mk.injEq] at h
      obtain ⟨rfl, rfl⟩ := h
      refine ⟨i1, ?_, ?_, ?_, ?_⟩
      · intro x hx
        obtain ⟨d, hd, h'⟩ := i2 x hx
        exact ⟨d, by simp [hd], h'⟩
      · intro x hx
        rcases List.mem_cons.mp hx with rfl | hx
        · exact ⟨data, by simp, ha⟩
        · obtain ⟨d, hd, h'⟩ := i3 x hx
          exact ⟨d, by simp [hd], h'⟩
      · intro x hx
        rcases List.mem_cons.mp hx with rfl | hx
        · exact ⟨_, ha, Or.inr ⟨u, rfl, by simp⟩⟩
        · obtain ⟨r, hr, h'⟩ := i4 x hx
          refine ⟨r, hr, ?_⟩
          rcases h' with ⟨c', e, hm⟩ | ⟨u', e, hm⟩
          · exact Or.inl ⟨c', e, hm⟩
          · exact Or.inr ⟨u', e, by simp [hm]⟩
      · simp only [List.length_cons]; omega

theorem attachAll_accepts [DecidableEq V] (n : Nat) (ps : Dict K (List (Cell V)))
    (h : ∀ p ∈ ps, ∃ r, attach n p.2 = .ok r) : ∃ r, attachAll n ps = .ok r := by
  induction ps with
  | nil => exact ⟨_, rfl⟩
  | cons p ps ih =>
    obtain ⟨r, hr⟩ := h p (by simp)
    obtain ⟨⟨c, u⟩, h'⟩ := ih (fun q hq => h q (by simp [hq]))
    cases r with
    | inl x => exact ⟨_, by simp [attachAll, hr, h', bind, Except.bind]; rfl⟩
    | inr x => exact ⟨_, by simp [attachAll, hr, h', bind, Except.bind]; rfl⟩

section
variable {T : Type} [DecidableEq K] [DecidableEq V]
  (conv : Dict K (T ⊕ List (Cell V)) → Except Err (List (K × List (Cell V))))
  (nbytes : RecordBatch K V → Nat) (limit : Nat) (keys : List K)
  (batch : Dict K (T ⊕ List (Cell V)))

/-- The passthrough columns of a batch. -/
def passthroughOf (keys : List K) (batch : Dict K (T ⊕ List (Cell V))) :
    Dict K (List (Cell V)) :=
  keys.filterMap (fun k => match batch.lookup k with | some (.inr c) => some (k, c) | _ => none)

theorem mem_passthroughOf (k : K) (c : List (Cell V)) :
    (k, c) ∈ passthroughOf keys batch ↔ k ∈ keys ∧ batch.lookup k = some (.inr c) := by
  unfold passthroughOf
  rw [List.mem_filterMap]
  constructor
  · rintro ⟨k', hk', h⟩
    split at h
    · rename_i c' hc'
      simp at h
      obtain ⟨rfl, rfl⟩ := h
      exact ⟨hk', hc'⟩
    · cases h
  · rintro ⟨hk, hl⟩
    exact ⟨k, hk, by rw [hl]⟩

/-- **C44, C36** The rows that come out, taken over all slices: as many as the transformed columns
have; every row has the values of the transformed columns (those that the converter makes without
the passthrough data), for every passthrough column the value that belongs to the row, and nothing
else. -/
theorem convert_rows (out : List (RecordBatch K V × Dict K (List (Cell V))))
    (hs : ∀ k ∈ keys, ∀ c, batch.lookup k = some (.inr c) → Singletons c)
    (h : convertToRecordBatch conv nbytes limit keys batch = .ok out) :
    ∃ cols first, conv (batch.filter (fun e => e.1 ∉ keys)) = .ok cols ∧
      cols.head? = some first ∧
      (out.flatMap instanceDicts).length = first.2.length ∧
      ∀ i row, (out.flatMap instanceDicts)[i]? = some row →
        ∀ k v, (k, v) ∈ row ↔
          (∃ c, (k, c) ∈ cols ∧ v = c[i]?) ∨
          (k ∈ keys ∧ ∃ c, batch.lookup k = some (.inr c) ∧
            v = attachedValue first.2.length c i) := by
  have h' : (conv (batch.filter (fun e => e.1 ∉ keys)) >>= fun cols =>
      match cols.head? with
      | none => .error "IndexError: list index out of range"
      | some first => do
        let (extra, unary) ← attachAll first.2.length (passthroughOf keys batch)
        let rb ← fromArrays (cols ++ extra) first.2.length
        .ok ((sliceLarge nbytes limit rb).map (fun b => (b, unary)))) = .ok out := h
  rw [bind_ok_iff] at h'
  obtain ⟨cols, hcols, h'⟩ := h'
  cases hf : cols.head? with
  | none => rw [hf] at h'; cases h'
  | some first =>
    rw [hf] at h'
    simp only at h'
    rw [bind_ok_iff] at h'
    obtain ⟨⟨extra, unary⟩, hatt, h'⟩ := h'
    rw [bind_ok_iff] at h'
    obtain ⟨rb, hrb, h'⟩ := h'
    cases h'
    have hrb' : rb = ⟨cols ++ extra, first.2.length⟩ := by
      unfold fromArrays at hrb
      split at hrb
      · cases hrb; rfl
      · cases hrb
    obtain ⟨_, a2, a3, a4, _⟩ := attachAll_ok _ _ _ _ hatt
    have hflat : ((sliceLarge nbytes limit rb).map (fun b => (b, unary))).flatMap instanceDicts
        = rb.rows.map (fun row => row ++ unary.map (fun u => (u.1, u.2[0]?))) := by
      rw [← slices_concat nbytes limit rb, List.flatMap_map, List.map_flatMap]
      rfl
    refine ⟨cols, first, hcols, hf, ?_, ?_⟩
    · rw [hflat, hrb']; simp [RecordBatch.rows]
    · intro i row hrow k v
      rw [hflat, List.getElem?_map] at hrow
      have hi : i < first.2.length := by
        by_contra hge
        have : rb.rows[i]? = none := by
          rw [List.getElem?_eq_none]
          rw [hrb']; simp [RecordBatch.rows]; omega
        rw [this] at hrow
        cases hrow
      have hr : rb.rows[i]? = some (rb.cols.map (fun c => (c.1, c.2[i]?))) := by
        rw [hrb']
        simp [RecordBatch.rows, hi]
      rw [hr, hrb'] at hrow
      simp only [Option.map_some, Option.some.injEq] at hrow
      subst hrow
      simp only [List.mem_append, List.mem_map, List.map_append, Prod.mk.injEq]
      have hval : ∀ d r, (k, d) ∈ passthroughOf keys batch → attach first.2.length d = .ok r →
          valueAt i r = attachedValue first.2.length d i := by
        intro d r hd hr
        obtain ⟨hk, hl⟩ := (mem_passthroughOf keys batch k d).mp hd
        exact attach_value _ d (hs k hk d hl) r hr i hi
      constructor
      · rintro ((⟨c, hc, rfl, rfl⟩ | ⟨c, hc, rfl, rfl⟩) | ⟨u, hu, rfl, rfl⟩)
        · exact Or.inl ⟨c.2, hc, rfl⟩
        · obtain ⟨d, hd, hr⟩ := a2 c hc
          obtain ⟨hk, hl⟩ := (mem_passthroughOf keys batch _ d).mp hd
          exact Or.inr ⟨hk, d, hl, hval d _ hd hr⟩
        · obtain ⟨d, hd, hr⟩ := a3 u hu
          obtain ⟨hk, hl⟩ := (mem_passthroughOf keys batch _ d).mp hd
          exact Or.inr ⟨hk, d, hl, hval d _ hd hr⟩
      · rintro (⟨c, hc, rfl⟩ | ⟨hk, c, hl, rfl⟩)
        · exact Or.inl (Or.inl ⟨(k, c), hc, rfl, rfl⟩)
        · have hm := (mem_passthroughOf keys batch k c).mpr ⟨hk, hl⟩
          obtain ⟨r, hr, hcase⟩ := a4 _ hm
          have hv := hval c r hm hr
          rcases hcase with ⟨x, rfl, hx⟩ | ⟨x, rfl, hx⟩
          · exact Or.inl (Or.inr ⟨(k, x), hx, rfl, hv⟩)
          · exact Or.inr ⟨(k, x), hx, rfl, hv⟩

/-- **C44** When the converter gives columns of one length, the batch is accepted iff all its
passthrough data can be attached. -/
theorem convert_accepts_iff (cols : List (K × List (Cell V))) (first : K × List (Cell V))
    (hconv : conv (batch.filter (fun e => e.1 ∉ keys)) = .ok cols)
    (hfirst : cols.head? = some first) (hlen : ∀ c ∈ cols, c.2.length = first.2.length)
    (hs : ∀ k ∈ keys, ∀ c, batch.lookup k = some (.inr c) → Singletons c) :
    (∃ out, convertToRecordBatch conv nbytes limit keys batch = .ok out) ↔
      ∀ k ∈ keys, ∀ c, batch.lookup k = some (.inr c) → Attachable first.2.length c := by
  have hdef : convertToRecordBatch conv nbytes limit keys batch =
      (attachAll first.2.length (passthroughOf keys batch) >>= fun p =>
        fromArrays (cols ++ p.1) first.2.length >>= fun rb =>
        .ok ((sliceLarge nbytes limit rb).map (fun b => (b, p.2)))) := by
    unfold convertToRecordBatch passthroughOf
    simp only [hconv, bind, Except.bind, hfirst]
    rfl
  rw [hdef]
  constructor
  · rintro ⟨out, h⟩ k hk c hl
    rw [bind_ok_iff] at h
    obtain ⟨⟨extra, unary⟩, hatt, _⟩ := h
    obtain ⟨_, _, _, a4, _⟩ := attachAll_ok _ _ _ _ hatt
    obtain ⟨r, hr, _⟩ := a4 _ ((mem_passthroughOf keys batch k c).mpr ⟨hk, hl⟩)
    exact (attach_accepts_iff _ c (hs k hk c hl)).mp ⟨r, hr⟩
  · intro hall
    obtain ⟨⟨extra, unary⟩, hatt⟩ := attachAll_accepts first.2.length (passthroughOf keys batch) (by
      rintro ⟨k, c⟩ hm
      obtain ⟨hk, hl⟩ := (mem_passthroughOf keys batch k c).mp hm
      exact (attach_accepts_iff _ c (hs k hk c hl)).mpr (hall k hk c hl))
    obtain ⟨a1, _⟩ := attachAll_ok _ _ _ _ hatt
    refine ⟨(sliceLarge nbytes limit ⟨cols ++ extra, first.2.length⟩).map (fun b => (b, unary)), ?_⟩
    rw [hatt]
    have : fromArrays (cols ++ extra) first.2.length = .ok ⟨cols ++ extra, first.2.length⟩ := by
      unfold fromArrays
      rw [if_pos]
      simp only [List.all_append, Bool.and_eq_true, List.all_eq_true, decide_eq_true_eq]
      exact ⟨hlen, a1⟩
    simp only [bind, Except.bind, this]

end

/-- **C44** Passthrough keys that are also features of the input are rejected, others are not. -/
theorem check_passthrough_iff [DecidableEq K] (passthrough schema : List K) :
    checkPassthrough passthrough schema = .ok () ↔ ∀ k ∈ passthrough, k ∉ schema := by
  unfold checkPassthrough
  have : passthrough.filter (fun k => k ∉ schema) = passthrough ↔ ∀ k ∈ passthrough, k ∉ schema := by
    rw [List.filter_eq_self]; simp
  by_cases h : passthrough.filter (fun k => k ∉ schema) = passthrough
  · simp only [h, ne_eq, not_true_eq_false, if_false, true_iff]
    exact this.mp h
  · simp only [ne_eq, h, not_false_eq_true, if_true, reduceCtorEq, false_iff]
    exact fun h' => h (this.mpr h')

/-- The hypotheses are met: two transformed rows, a passthrough column of length two, one of
length three with equal values, and slicing to single rows. -/
example : ∃ out, convertToRecordBatch (T := List Nat) (K := Nat) (V := Nat)
    (fun d => .ok (d.filterMap (fun e => match e.2 with
      | .inl xs => some (e.1, xs.map (fun x => some [x])) | _ => none)))
    (fun b => b.numRows) 1 [7, 8]
    [(1, .inl [10, 20]), (7, .inr [some [1], none]), (8, .inr [some [5], some [5], some [5]])]
      = .ok out ∧ out.flatMap instanceDicts =
        [[(1, some (some [10])), (7, some (some [1])), (8, some (some [5]))],
         [(1, some (some [20])), (7, some none), (8, some (some [5]))]] := by
  refine ⟨_, rfl, ?_⟩
  simp [sliceLarge, RecordBatch.take, RecordBatch.drop, instanceDicts, RecordBatch.rows]
  decide

/-! ### C37: validation of sparse outputs -/

/-- Specification: the instances do not decrease, and the columns of every instance are, in order,
`0, 1, …, n - 1`. -/
def LeftAligned (indices : List (Int × Int)) : Prop :=
  (indices.map Prod.fst).Pairwise (· ≤ ·) ∧
  ∀ i, (indices.filter (fun p => p.1 = i)).map Prod.snd
    = (List.range (indices.countP (fun p => p.1 = i))).map (fun n : Nat => (n : Int))

/-- The three checks as a condition on neighbours. -/
def stepOk (a b : Int × Int) : Prop :=
  a.1 ≤ b.1 ∧ (a.1 = b.1 → b.2 = a.2 + 1) ∧ (a.1 ≠ b.1 → b.2 = 0)

theorem validate_iff_chain (x : Int × Int) (xs : List (Int × Int)) :
    validateVarlen 2 (x :: xs) = .ok () ↔ x.2 = 0 ∧ (x :: xs).IsChain stepOk := by
  have hdiff : ∀ p : Nat, (List.zipWith (fun a b : Int × Int => (b.1 - a.1, b.2 - a.2)) (x :: xs) xs)[p]?
      = match (x :: xs)[p]?, (x :: xs)[p + 1]? with
        | some a, some b => some (b.1 - a.1, b.2 - a.2)
        | _, _ => none := by
    intro p
    rw [List.getElem?_zipWith]
    simp only [List.getElem?_cons_succ]
    rcases (x :: xs)[p]? with _ | a <;> rcases xs[p]? with _ | b <;> rfl
  have hlen : (List.zipWith (fun a b : Int × Int => (b.1 - a.1, b.2 - a.2)) (x :: xs) xs).length
      = xs.length := by simp
  have hchain : (x :: xs).IsChain stepOk ↔ ∀ (p : Nat) a b, (x :: xs)[p]? = some a →
      (x :: xs)[p + 1]? = some b → stepOk a b := by
    rw [List.isChain_iff_getElem]
    constructor
    · intro h p a b ha hb
      obtain ⟨h1, rfl⟩ := List.getElem?_eq_some_iff.mp ha
      obtain ⟨h2, rfl⟩ := List.getElem?_eq_some_iff.mp hb
      exact h p h2
    · intro h p hp
      exact h p _ _ (List.getElem?_eq_getElem (by omega)) (List.getElem?_eq_getElem hp)
  rw [hchain]
  have hdef : validateVarlen 2 (x :: xs) =
      if (List.zipWith (fun a b : Int × Int => (b.1 - a.1, b.2 - a.2)) (x :: xs) xs).any
          (fun d => d.1 < 0) then
        .error "ValueError: Encountered decreasing instance indices"
      else if (List.zipWith (fun a b : Int × Int => (b.1 - a.1, b.2 - a.2)) (x :: xs) xs).any
          (fun d => d.1 = 0 && d.2 ≠ 1) then
        .error "ValueError: Encountered non-consecutive value indices"
      else if (((List.range
          (List.zipWith (fun a b : Int × Int => (b.1 - a.1, b.2 - a.2)) (x :: xs) xs).length).filter
          (fun p => (((List.zipWith (fun a b : Int × Int => (b.1 - a.1, b.2 - a.2))
            (x :: xs) xs)[p]?).getD (0, 0)).1 ≠ 0)).map (· + 1) ++ [0]).any
          (fun p => (((x :: xs)[p]?).getD (0, 0)).2 ≠ 0) then
        .error "ValueError: Encountered non-zero starting value indices"
      else .ok () := rfl
  rw [hdef]
  have hmem : ∀ d, d ∈ List.zipWith (fun a b : Int × Int => (b.1 - a.1, b.2 - a.2)) (x :: xs) xs ↔
      ∃ (p : Nat) (a b : Int × Int), (x :: xs)[p]? = some a ∧ (x :: xs)[p + 1]? = some b ∧
        d = (b.1 - a.1, b.2 - a.2) := by
    intro d
    rw [List.mem_iff_getElem?]
    constructor
    · rintro ⟨p, hp⟩
      rw [hdiff] at hp
      split at hp
      · rename_i a b ha hb
        exact ⟨p, a, b, ha, hb, by simpa using hp.symm⟩
      · cases hp
    · rintro ⟨p, a, b, ha, hb, rfl⟩
      exact ⟨p, by rw [hdiff, ha, hb]⟩
  by_cases c1 : (List.zipWith (fun a b : Int × Int => (b.1 - a.1, b.2 - a.2)) (x :: xs) xs).any
      (fun d => d.1 < 0) = true
  · rw [if_pos c1]
    simp only [reduceCtorEq, false_iff, not_and]
    intro _ hstep
    rw [List.any_eq_true] at c1
    obtain ⟨d, hd, hneg⟩ := c1
    obtain ⟨p, a, b, ha, hb, rfl⟩ := (hmem d).mp hd
    have := (hstep p a b ha hb).1
    simp at hneg
    omega
  · rw [if_neg c1]
    have n1 : ∀ (p : Nat) a b, (x :: xs)[p]? = some a → (x :: xs)[p + 1]? = some b → a.1 ≤ b.1 := by
      intro p a b ha hb
      by_contra hlt
      apply c1
      rw [List.any_eq_true]
      exact ⟨_, (hmem _).mpr ⟨p, a, b, ha, hb, rfl⟩, by simp; omega⟩
    by_cases c2 : (List.zipWith (fun a b : Int × Int => (b.1 - a.1, b.2 - a.2)) (x :: xs) xs).any
        (fun d => d.1 = 0 && d.2 ≠ 1) = true
    · rw [if_pos c2]
      simp only [reduceCtorEq, false_iff, not_and]
      intro _ hstep
      rw [List.any_eq_true] at c2
      obtain ⟨d, hd, hneg⟩ := c2
      obtain ⟨p, a, b, ha, hb, rfl⟩ := (hmem d).mp hd
      have := (hstep p a b ha hb).2.1
      simp at hneg
      omega
    · rw [if_neg c2]
      have n2 : ∀ (p : Nat) a b, (x :: xs)[p]? = some a → (x :: xs)[p + 1]? = some b → a.1 = b.1 →
          b.2 = a.2 + 1 := by
        intro p a b ha hb hab
        by_contra hne
        apply c2
        rw [List.any_eq_true]
        exact ⟨_, (hmem _).mpr ⟨p, a, b, ha, hb, rfl⟩, by simp; omega⟩
      rw [hlen]
      have h3 : ∀ p : Nat, p ∈ (List.range xs.length).filter (fun p =>
          (((List.zipWith (fun a b : Int × Int => (b.1 - a.1, b.2 - a.2)) (x :: xs) xs)[p]?).getD
            (0, 0)).1 ≠ 0) ↔
          ∃ a b, (x :: xs)[p]? = some a ∧ (x :: xs)[p + 1]? = some b ∧ a.1 ≠ b.1 := by
        intro p
        rw [List.mem_filter, List.mem_range]
        constructor
        · rintro ⟨hp, h⟩
          have ha := List.getElem?_eq_getElem (l := x :: xs) (i := p) (by simp; omega)
          have hb := List.getElem?_eq_getElem (l := x :: xs) (i := p + 1) (by simp; omega)
          refine ⟨_, _, ha, hb, ?_⟩
          rw [hdiff, ha, hb] at h
          simp at h
          intro e
          apply h
          simp [e]
        · rintro ⟨a, b, ha, hb, hne⟩
          obtain ⟨hb', _⟩ := List.getElem?_eq_some_iff.mp hb
          refine ⟨by simpa using hb', ?_⟩
          rw [hdiff, ha, hb]
          simp
          omega
      split
      · rename_i c3
        simp only [reduceCtorEq, false_iff, not_and]
        intro hx hstep
        rw [List.any_eq_true] at c3
        obtain ⟨q, hq, hne⟩ := c3
        rcases List.mem_append.mp hq with hq | hq
        · obtain ⟨p, hp, rfl⟩ := List.mem_map.mp hq
          obtain ⟨a, b, ha, hb, hab⟩ := (h3 p).mp hp
          rw [hb] at hne
          have := (hstep p a b ha hb).2.2 hab
          simp [this] at hne
        · simp at hq
          subst hq
          simp [hx] at hne
      · rename_i c3
        simp only [true_iff]
        have key : ∀ q, q ∈ (((List.range xs.length).filter (fun p =>
          (((List.zipWith (fun a b : Int × Int => (b.1 - a.1, b.2 - a.2)) (x :: xs) xs)[p]?).getD
            (0, 0)).1 ≠ 0)).map (· + 1) ++ [0]) → (((x :: xs)[q]?).getD (0, 0)).2 = 0 := by
          intro q hq
          by_contra hne
          apply c3
          rw [List.any_eq_true]
          exact ⟨q, hq, by simpa using hne⟩
        refine ⟨by simpa using key 0 (by simp), ?_⟩
        intro p a b ha hb
        refine ⟨n1 p a b ha hb, n2 p a b ha hb, ?_⟩
        intro hab
        have := key (p + 1) (List.mem_append.mpr (Or.inl (List.mem_map.mpr
          ⟨p, (h3 p).mpr ⟨a, b, ha, hb, hab⟩, rfl⟩)))
        rw [hb] at this
        simpa using this

/-- Adding an index at the end. -/
theorem leftAligned_snoc (l : List (Int × Int)) (x : Int × Int) :
    LeftAligned (l ++ [x]) ↔ LeftAligned l ∧ (∀ p ∈ l, p.1 ≤ x.1) ∧
      x.2 = l.countP (fun p => p.1 = x.1) := by
  unfold LeftAligned
  rw [List.map_append, List.pairwise_append]
  constructor
  · rintro ⟨⟨h1, _, h2⟩, h3⟩
    have hx := h3 x.1
    rw [List.filter_append, List.countP_append] at hx
    simp only [List.filter_cons, decide_true, if_true, List.filter_nil, List.map_append,
      List.map_cons, List.map_nil, List.countP_singleton, List.range_succ] at hx
    have hlast := List.append_inj' hx rfl
    refine ⟨⟨h1, ?_⟩, ?_, by simpa using hlast.2⟩
    · intro i
      by_cases hi : i = x.1
      · subst hi; exact hlast.1
      · have h := h3 i
        have hi' : ¬ x.1 = i := fun e => hi e.symm
        rw [List.filter_append, List.countP_append] at h
        simpa [hi'] using h
    · intro p hp
      exact h2 p.1 (List.mem_map_of_mem hp) x.1 (by simp)
  · rintro ⟨⟨h1, h2⟩, h3, h4⟩
    refine ⟨⟨h1, by simp, ?_⟩, ?_⟩
    · intro a ha b hb
      obtain ⟨p, hp, rfl⟩ := List.mem_map.mp ha
      simp at hb
      subst hb
      exact h3 p hp
    · intro i
      rw [List.filter_append, List.countP_append, List.map_append, h2 i]
      by_cases hi : i = x.1
      · subst hi
        simp [List.range_succ, h4]
      · have hi' : ¬ x.1 = i := fun e => hi e.symm
        simp [hi']

theorem chain_snoc (l : List (Int × Int)) (y x : Int × Int) :
    (l ++ [y] ++ [x]).IsChain stepOk ↔ (l ++ [y]).IsChain stepOk ∧ stepOk y x := by
  rw [List.isChain_append]
  simp

theorem leftAligned_iff_chain (l : List (Int × Int)) :
    LeftAligned l ↔ (∀ x ∈ l.head?, x.2 = 0) ∧ l.IsChain stepOk := by
  induction l using List.reverseRecOn with
  | nil => simp [LeftAligned]
  | append_singleton l x ih =>
    rw [leftAligned_snoc, ih]
    rcases List.eq_nil_or_concat l with rfl | ⟨l', y, rfl⟩
    · simp
    · rw [List.concat_eq_append] at ih ⊢
      have hhead : (l' ++ [y] ++ [x]).head? = (l' ++ [y]).head? := by
        cases l' <;> simp
      rw [chain_snoc, hhead]
      constructor
      · rintro ⟨⟨h1, h2⟩, h3, h4⟩
        refine ⟨h1, h2, ?_⟩
        have hl := ih.mpr ⟨h1, h2⟩
        obtain ⟨_, hy1, hy2⟩ := (leftAligned_snoc l' y).mp hl
        refine ⟨h3 y (by simp), ?_, ?_⟩
        · intro hyx
          rw [h4, hy2, ← hyx]
          simp [List.countP_append]
        · intro hne
          rw [h4]
          have : (l' ++ [y]).countP (fun p => p.1 = x.1) = 0 := by
            rw [List.countP_eq_zero]
            intro p hp
            have hpy : p.1 ≤ y.1 := by
              rcases List.mem_append.mp hp with hp | hp
              · exact hy1 p hp
              · simp at hp; rw [hp]
            have hyx := h3 y (by simp)
            simp
            omega
          rw [this]; rfl
      · rintro ⟨h1, h2, h3⟩
        have hl := ih.mpr ⟨h1, h2⟩
        obtain ⟨_, hy1, hy2⟩ := (leftAligned_snoc l' y).mp hl
        have hle : ∀ p ∈ l' ++ [y], p.1 ≤ y.1 := by
          intro p hp
          rcases List.mem_append.mp hp with hp | hp
          · exact hy1 p hp
          · simp at hp; rw [hp]
        refine ⟨⟨h1, h2⟩, fun p hp => le_trans (hle p hp) h3.1, ?_⟩
        by_cases hyx : y.1 = x.1
        · rw [h3.2.1 hyx, hy2, ← hyx]
          simp [List.countP_append]
        · rw [h3.2.2 hyx]
          have : (l' ++ [y]).countP (fun p => p.1 = x.1) = 0 := by
            rw [List.countP_eq_zero]
            intro p hp
            have := hle p hp
            have := h3.1
            simp
            omega
          rw [this]; rfl

/-- **C37** A sparse value with two dimensions is accepted iff its indices enumerate, row by row
in order, the columns `0, …, n - 1` of each row. -/
theorem varlen_accepts_iff (indices : List (Int × Int)) :
    validateVarlen 2 indices = .ok () ↔ LeftAligned indices := by
  cases indices with
  | nil => simp [validateVarlen, LeftAligned]
  | cons x xs =>
    rw [validate_iff_chain, leftAligned_iff_chain]
    simp

/-- **C37** Any other number of dimensions is rejected. -/
theorem varlen_rejects_width (width : Nat) (h : width ≠ 2) (indices : List (Int × Int)) :
    ∃ e, validateVarlen width indices = .error e := ⟨_, by rw [validateVarlen, if_pos h]⟩

example : LeftAligned [(0, 0), (0, 1), (2, 0)] := (varlen_accepts_iff _).mp rfl

example : ¬ LeftAligned [(0, 0), (1, 1)] := fun h => by
  have := (varlen_accepts_iff _).mpr h
  revert this
  decide

end TFT.Batch
