import Verif.Coders.SerializeExampleSpec
import Mathlib.Data.List.Sort
import Mathlib.Data.List.GetD
import Mathlib.Data.List.Induction
import Mathlib.Tactic.Ring

/-!
# C88: batches are serialized as Examples with their features
-/

namespace TFT.SerializeExample

open Spec

/-! ## The wire format -/

theorem varint_ne_nil (n : Nat) : varint n ≠ [] := by
  unfold varint
  split <;> simp

theorem readVarint_varint (n : Nat) (rest : Bytes) :
    readVarint (varint n ++ rest) = some (n, rest) := by
  induction n using Nat.strongRecOn with
  | ind n ih =>
    unfold varint
    split
    · rename_i h
      have : (UInt8.ofNat n).toNat = n := by
        rw [UInt8.toNat_ofNat']
        omega
      simp [readVarint, this, h]
    · rename_i h
      have h1 : (UInt8.ofNat (n % 128 + 128)).toNat = n % 128 + 128 := by
        rw [UInt8.toNat_ofNat']
        omega
      rw [List.cons_append, readVarint, h1, if_neg (by omega), ih (n / 128) (by omega)]
      simp only [Option.map_some, Option.some.injEq, Prod.mk.injEq, and_true]
      omega

theorem readFields_succ (fuel : Nat) (bytes : Bytes) (h : bytes ≠ []) :
    readFields (fuel + 1) bytes = match readVarint bytes with
      | none => none
      | some (tag, rest) =>
        if tag % 8 = 2 then
          match readVarint rest with
          | none => none
          | some (length, rest) =>
            if length ≤ rest.length then
              (readFields fuel (rest.drop length)).map
                (fun fs => (tag / 8, rest.take length) :: fs)
            else none
        else none := by
  cases bytes with
  | nil => exact absurd rfl h
  | cons b bs => rfl

theorem readFields_encoded (fs : List (Nat × Bytes)) (fuel : Nat)
    (h : (fs.flatMap (fun f => lenDelim f.1 f.2)).length ≤ fuel) :
    readFields fuel (fs.flatMap (fun f => lenDelim f.1 f.2)) = some fs := by
  induction fs generalizing fuel with
  | nil => cases fuel <;> rfl
  | cons f fs ih =>
    rw [List.flatMap_cons] at h ⊢
    have hne : lenDelim f.1 f.2 ≠ [] := by
      unfold lenDelim
      intro h0
      rw [List.append_eq_nil_iff, List.append_eq_nil_iff] at h0
      exact varint_ne_nil _ h0.1.1
    have hpos : 0 < (lenDelim f.1 f.2).length := List.length_pos_iff.2 hne
    rw [List.length_append] at h
    cases fuel with
    | zero => omega
    | succ fuel =>
      rw [readFields_succ _ _ (by simp [hne])]
      have e : lenDelim f.1 f.2 ++ fs.flatMap (fun f => lenDelim f.1 f.2)
          = varint (f.1 * 8 + 2) ++ (varint f.2.length
            ++ (f.2 ++ fs.flatMap (fun f => lenDelim f.1 f.2))) := by
        simp [lenDelim]
      rw [e, readVarint_varint]
      simp only
      rw [if_pos (by omega), readVarint_varint]
      simp only
      rw [if_pos (by simp), List.drop_left' rfl, List.take_left' rfl, ih fuel (by omega)]
      simp only [Option.map_some, Option.some.injEq, List.cons.injEq, and_true]
      rw [show (f.1 * 8 + 2) / 8 = f.1 by omega]

theorem fields_encoded (fs : List (Nat × Bytes)) :
    fields (fs.flatMap (fun f => lenDelim f.1 f.2)) = some fs :=
  readFields_encoded fs _ (Nat.le_refl _)

theorem fields_one (k : Nat) (b : Bytes) : fields (lenDelim k b) = some [(k, b)] := by
  have := fields_encoded [(k, b)]
  simpa using this

theorem fields_two (k k' : Nat) (b b' : Bytes) :
    fields (lenDelim k b ++ lenDelim k' b') = some [(k, b), (k', b')] := by
  have := fields_encoded [(k, b), (k', b')]
  simpa using this

theorem readFloats_raw (row : List Datum) (h : ∀ v ∈ row, HasType .float32 v) :
    readFloats (row.flatMap raw) = some row := by
  induction row with
  | nil => rfl
  | cons v row ih =>
    have hv := h v List.mem_cons_self
    cases v with
    | bytes b => exact hv.elim
    | int b => exact hv.elim
    | float x =>
      rw [List.flatMap_cons]
      show readFloats (_ :: _ :: _ :: _ :: row.flatMap raw) = _
      rw [readFloats, ih (fun v hv => h v (List.mem_cons_of_mem _ hv))]
      simp only [Option.map_some, Option.some.injEq, List.cons.injEq, and_true, Datum.float.injEq]
      apply BitVec.eq_of_toNat_eq
      rw [BitVec.toNat_ofNat]
      have := x.isLt
      simp only [UInt8.toNat_ofNat']
      omega

theorem readInts_raw (row : List Datum) (h : ∀ v ∈ row, HasType .int64 v) (fuel : Nat)
    (hf : (row.flatMap raw).length ≤ fuel) :
    readInts fuel (row.flatMap raw) = some row := by
  induction row generalizing fuel with
  | nil => cases fuel <;> rfl
  | cons v row ih =>
    have hv := h v List.mem_cons_self
    cases v with
    | bytes b => exact hv.elim
    | float b => exact hv.elim
    | int x =>
      rw [List.flatMap_cons] at hf ⊢
      have hpos : 0 < (raw (.int x)).length := List.length_pos_iff.2 (varint_ne_nil _)
      rw [List.length_append] at hf
      cases fuel with
      | zero => omega
      | succ fuel =>
        have e : readInts (fuel + 1) (raw (.int x) ++ row.flatMap raw)
            = match readVarint (raw (.int x) ++ row.flatMap raw) with
              | none => none
              | some (n, rest) =>
                (readInts fuel rest).map (fun ds => Datum.int (BitVec.ofNat 64 n) :: ds) := by
          cases hb : raw (.int x) ++ row.flatMap raw with
          | nil =>
            rw [List.append_eq_nil_iff] at hb
            exact absurd hb.1 (varint_ne_nil _)
          | cons b bs => rfl
        rw [e]
        show (match readVarint (varint x.toNat ++ row.flatMap raw) with
              | none => none
              | some (n, rest) =>
                (readInts fuel rest).map (fun ds => Datum.int (BitVec.ofNat 64 n) :: ds)) = _
        rw [readVarint_varint]
        simp only
        rw [ih (fun v hv => h v (List.mem_cons_of_mem _ hv)) fuel (by omega)]
        simp

theorem onlyField_packed (row : List Datum) :
    onlyField (encodeField 1 true row) = some (row.flatMap raw) := by
  unfold encodeField onlyField
  by_cases h : row = []
  · subst h; rfl
  · rw [if_neg h, if_pos rfl, fields_one]
    rfl

theorem fields_unpacked (k : Nat) (row : List Datum) :
    fields (encodeField k false row) = some (row.map (fun v => (k, raw v))) := by
  have e : encodeField k false row
      = (row.map (fun v => (k, raw v))).flatMap (fun f => lenDelim f.1 f.2) := by
    unfold encodeField
    by_cases h : row = []
    · subst h; rfl
    · rw [if_neg h, if_neg (by simp), List.flatMap_map]
  rw [e, fields_encoded]

/-- How a `Feature` with the given values is written. -/
def featureBytes : DType → List Datum → Bytes
  | .string, row => lenDelim 1 (encodeField 1 false row)
  | .float32, row => lenDelim 2 (encodeField 1 true row)
  | .int64, row => lenDelim 3 (encodeField 1 true row)
  | .other, _ => []

theorem readFeature_bytes (d : DType) (hd : d ≠ .other) (row : List Datum)
    (h : ∀ v ∈ row, HasType d v) : readFeature (featureBytes d row) = some (d, row) := by
  cases d with
  | string =>
    unfold readFeature featureBytes
    rw [fields_one]
    simp only
    rw [fields_unpacked]
    simp only
    rw [if_pos (by simp)]
    congr 2
    rw [List.map_map]
    conv => rhs; rw [← List.map_id row]
    apply List.map_congr_left
    intro v hv
    have := h v hv
    cases v with
    | bytes b => rfl
    | float b => exact this.elim
    | int b => exact this.elim
  | float32 =>
    unfold readFeature featureBytes
    rw [fields_one]
    simp only
    rw [onlyField_packed]
    simp only
    rw [readFloats_raw row h]
    rfl
  | int64 =>
    unfold readFeature featureBytes
    rw [fields_one]
    simp only
    rw [onlyField_packed]
    simp only
    rw [readInts_raw row h _ (Nat.le_refl _)]
    rfl
  | other => exact absurd rfl hd

/-! ## Encoding -/

theorem range_map_getD {α β : Type} (l : List α) (d : α) (f : α → β) :
    (List.range l.length).map (fun i : Nat => f (l.getD i d)) = l.map f := by
  apply List.ext_getElem
  · simp
  · intro i h1 h2
    simp only [List.getElem_map, List.getElem_range]
    congr 1
    rw [List.length_map] at h2
    exact List.getD_eq_getElem _ _ h2

theorem chunks {rows : List (List Datum)} {w : Nat} (h : ∀ row ∈ rows, row.length = w) :
    (List.range rows.length).map (fun i : Nat => (rows.flatten.drop (i * w)).take w) = rows := by
  induction rows with
  | nil => rfl
  | cons r rows ih =>
    have hr := h r List.mem_cons_self
    rw [List.length_cons, List.range_succ_eq_map, List.map_cons, List.map_map, List.flatten_cons]
    congr 1
    · rw [Nat.zero_mul, List.drop_zero, List.take_left' hr]
    · conv => rhs; rw [← ih (fun row hrow => h row (List.mem_cons_of_mem _ hrow))]
      apply List.map_congr_left
      intro i _
      simp only [Function.comp]
      rw [show (i + 1) * w = r.length + i * w by rw [hr]; ring, ← List.drop_drop,
        List.drop_left' rfl]

theorem fieldRows_dense (d : DType) (rest : List Nat) (rows : List (List Datum)) (hne : rows ≠ [])
    (h : ∀ row ∈ rows, row.length = rest.prod) :
    fieldRows { dtype := d, body := .dense (rows.length :: rest) rows.flatten } = .ok rows := by
  unfold fieldRows
  simp only
  rw [if_neg (by
    intro h0
    exact hne (List.length_eq_zero_iff.1 h0)), chunks h]

theorem fieldRows_string (bs : List Bytes) (hne : bs ≠ []) :
    fieldRows (stringTensor bs) = .ok (bs.map (fun b => [.bytes b])) := by
  have h := fieldRows_dense .string [] (bs.map (fun b => [Datum.bytes b])) (by simpa using hne)
    (by simp)
  have e : (bs.map (fun b => [Datum.bytes b])).flatten = bs.map .bytes := by
    induction bs with
    | nil => rfl
    | cons b bs ih =>
      by_cases hb : bs = []
      · subst hb; rfl
      · rw [List.map_cons, List.flatten_cons, ih hb, List.map_cons]
        · rfl
        · exact fieldRows_dense .string [] _ (by simpa using hb) (by simp)
  rw [List.length_map, e] at h
  exact h

theorem encodeProto_one (name mt : String) (t : Tensor) (rows : List (List Datum)) (k : Nat)
    (packed : Bool) (hr : fieldRows t = .ok rows) (hf : fieldOf mt name = some (k, packed)) :
    encodeProto [(name, t)] mt = .ok (rows.map (encodeField k packed)) := by
  unfold encodeProto
  rw [show sortFields [(name, t)] = [(name, t)] from rfl]
  rw [List.mapM_cons, List.mapM_nil]
  simp only [hr]
  show encodeMessages mt [(name, rows)] = _
  unfold encodeMessages
  simp only [List.all_nil, if_true]
  rw [List.mapM_cons, List.mapM_nil]
  simp only [hf]
  show Except.ok ((List.range rows.length).map (fun i : Nat =>
    encodeField k packed (rows.getD i []) ++ [])) = _
  simp only [List.append_nil]
  rw [range_map_getD]

theorem encodeProto_entry (keys values : List Bytes) (hl : keys.length = values.length)
    (hne : values ≠ []) :
    encodeProto [("key", stringTensor keys), ("value", stringTensor values)]
        "tensorflow.Features.FeatureEntry"
      = .ok ((List.range values.length).map (fun i : Nat =>
          lenDelim 1 (keys.getD i []) ++ lenDelim 2 (values.getD i []))) := by
  have hk : keys ≠ [] := by
    intro h
    rw [h] at hl
    exact hne (List.length_eq_zero_iff.1 hl.symm)
  unfold encodeProto
  rw [show sortFields [("key", stringTensor keys), ("value", stringTensor values)]
    = [("key", stringTensor keys), ("value", stringTensor values)] from by
      unfold sortFields
      rw [List.insertionSort_cons, List.insertionSort_cons, List.insertionSort_nil,
        List.orderedInsert_nil, List.orderedInsert_cons, if_pos (show "key" ≤ "value" by decide)]]
  rw [List.mapM_cons, List.mapM_cons, List.mapM_nil]
  simp only [fieldRows_string _ hk, fieldRows_string _ hne]
  show encodeMessages "tensorflow.Features.FeatureEntry"
    [("key", keys.map (fun b => [Datum.bytes b])), ("value", values.map (fun b => [Datum.bytes b]))]
      = _
  unfold encodeMessages
  simp only [List.all_cons, List.all_nil, Bool.and_true, List.length_map, hl, beq_self_eq_true,
    if_true]
  rw [List.mapM_cons, List.mapM_cons, List.mapM_nil]
  have h1 : fieldOf "tensorflow.Features.FeatureEntry" "key" = some (1, false) := by decide
  have h2 : fieldOf "tensorflow.Features.FeatureEntry" "value" = some (2, false) := by decide
  simp only [h1, h2]
  show Except.ok ((List.range values.length).map (fun i : Nat =>
    encodeField 1 false ((keys.map (fun b => [Datum.bytes b])).getD i []) ++
      (encodeField 2 false ((values.map (fun b => [Datum.bytes b])).getD i []) ++ []))) = _
  congr 1
  apply List.map_congr_left
  intro i hi
  rw [List.mem_range] at hi
  have g1 : (keys.map (fun b => [Datum.bytes b])).getD i [] = [Datum.bytes (keys.getD i [])] := by
    rw [List.getD_eq_getElem _ _ (by rw [List.length_map]; omega),
      List.getD_eq_getElem _ _ (by omega), List.getElem_map]
  have g2 : (values.map (fun b => [Datum.bytes b])).getD i []
      = [Datum.bytes (values.getD i [])] := by
    rw [List.getD_eq_getElem _ _ (by rw [List.length_map]; omega),
      List.getD_eq_getElem _ _ (by omega), List.getElem_map]
  rw [g1, g2]
  simp [encodeField, raw]

theorem serializeFeature_ok (t : Tensor) (rows : List (List Datum)) (hne : rows ≠ [])
    (hd : t.dtype ≠ .other) (hr : fieldRows t = .ok rows) :
    serializeFeature t = .ok (rows.map (featureBytes t.dtype)) := by
  unfold serializeFeature
  have step : ∀ (mt name : String) (packed : Bool) (k : Nat),
      fieldOf mt "value" = some (1, packed) → fieldOf "tensorflow.Feature" name = some (k, false) →
      (do let lists ← encodeProto [("value", t)] mt
          encodeProto [(name, stringTensor lists)] "tensorflow.Feature")
        = (Except.ok (rows.map (fun r => lenDelim k (encodeField 1 packed r))) :
            Except Err (List Bytes)) := by
    intro mt name packed k h1 h2
    rw [encodeProto_one _ _ _ _ _ _ hr h1]
    show encodeProto [(name, stringTensor (rows.map (encodeField 1 packed)))] "tensorflow.Feature"
      = _
    rw [encodeProto_one _ _ _ _ _ _ (fieldRows_string _ (by simpa using hne)) h2, List.map_map,
      List.map_map]
    congr 1
    apply List.map_congr_left
    intro r _
    simp [encodeField, raw]
  cases hdt : t.dtype with
  | string => exact step _ _ false 1 (by decide) (by decide)
  | float32 => exact step _ _ true 2 (by decide) (by decide)
  | int64 => exact step _ _ true 3 (by decide) (by decide)
  | other => exact absurd hdt hd

/-! ## Sparse tensors -/

/-- The indices of left-aligned rows, from row `k` on. -/
def rowIndices (k : Nat) (rows : List (List Datum)) : List (Nat × Nat) :=
  (rows.zipIdx k).flatMap (fun r => (List.range r.1.length).map (fun c : Nat => (r.2, c)))

theorem rowIndices_cons (k : Nat) (row : List Datum) (rows : List (List Datum)) :
    rowIndices k (row :: rows)
      = (List.range row.length).map (fun c : Nat => (k, c)) ++ rowIndices (k + 1) rows := by
  unfold rowIndices
  rw [List.zipIdx_cons, List.flatMap_cons]

theorem rowIndices_length (k : Nat) (rows : List (List Datum)) :
    (rowIndices k rows).length = rows.flatten.length := by
  induction rows generalizing k with
  | nil => rfl
  | cons row rows ih => rw [rowIndices_cons, List.flatten_cons]; simp [ih]

theorem mem_rowIndices {k : Nat} {rows : List (List Datum)} {e : Nat × Nat}
    (h : e ∈ rowIndices k rows) :
    k ≤ e.1 ∧ e.1 < k + rows.length ∧ ∃ row ∈ rows, e.2 < row.length := by
  induction rows generalizing k with
  | nil => simp [rowIndices] at h
  | cons row rows ih =>
    rw [rowIndices_cons, List.mem_append] at h
    rcases h with h | h
    · obtain ⟨c, hc, rfl⟩ := List.mem_map.1 h
      rw [List.mem_range] at hc
      exact ⟨Nat.le_refl _, by simp, row, List.mem_cons_self, hc⟩
    · obtain ⟨h1, h2, r, h3, h4⟩ := ih h
      rw [List.length_cons]
      exact ⟨by omega, by omega, r, List.mem_cons_of_mem _ h3, h4⟩

theorem increasing_of_pairwise (l : List (Nat × Nat))
    (h : l.Pairwise (fun a b => a.1 < b.1 ∨ (a.1 = b.1 ∧ a.2 < b.2))) : increasing l = true := by
  induction l with
  | nil => rfl
  | cons a l ih =>
    cases l with
    | nil => rfl
    | cons b l =>
      rw [List.pairwise_cons] at h
      unfold increasing
      rw [ih h.2]
      have := h.1 b List.mem_cons_self
      simpa using this

theorem increasing_rowIndices (k : Nat) (rows : List (List Datum)) :
    increasing (rowIndices k rows) = true := by
  apply increasing_of_pairwise
  induction rows generalizing k with
  | nil => simp [rowIndices]
  | cons row rows ih =>
    rw [rowIndices_cons, List.pairwise_append]
    refine ⟨?_, ih (k + 1), ?_⟩
    · rw [List.pairwise_map]
      exact List.pairwise_lt_range.imp (fun h => Or.inr ⟨rfl, h⟩)
    · intro a ha b hb
      obtain ⟨c, -, rfl⟩ := List.mem_map.1 ha
      have := (mem_rowIndices hb).1
      exact Or.inl (by simp only; omega)

theorem find_row (k r c : Nat) (row : List Datum) :
    ((((List.range row.length).map (fun c : Nat => (k, c))).zip row).find?
        (fun e => e.1 = (r, c))).map Prod.snd = if r = k then row[c]? else none := by
  induction row using List.reverseRecOn with
  | nil => simp
  | append_singleton row v ih =>
    rw [List.length_append, List.length_singleton, List.range_succ, List.map_append,
      List.zip_append (by simp), List.find?_append, Option.map_or, ih]
    by_cases hk : r = k
    · subst hk
      simp only [if_true]
      by_cases hc : c < row.length
      · rw [List.getElem?_append_left hc, List.getElem?_eq_getElem hc]
        rfl
      · rw [List.getElem?_eq_none (by omega), List.getElem?_append_right (by omega)]
        by_cases hc2 : c = row.length
        · subst hc2
          simp
        · have : c - row.length ≠ 0 := by omega
          have h2 : ¬ row.length = c := fun h => hc2 h.symm
          obtain ⟨d, hd⟩ := Nat.exists_eq_succ_of_ne_zero this
          simp [h2, hd]
    · have : ¬ k = r := fun h => hk h.symm
      simp [hk, this]

theorem find_rows (k r c : Nat) (rows : List (List Datum)) :
    (((rowIndices k rows).zip rows.flatten).find? (fun e => e.1 = (r, c))).map Prod.snd
      = if k ≤ r then (rows[r - k]?).bind (fun row => row[c]?) else none := by
  induction rows generalizing k with
  | nil => simp [rowIndices]
  | cons row rows ih =>
    rw [rowIndices_cons, List.flatten_cons, List.zip_append (by simp), List.find?_append,
      Option.map_or, find_row, ih]
    by_cases h1 : r = k
    · subst h1
      simp only [if_true, Nat.sub_self, List.getElem?_cons_zero, Option.bind_some, Nat.le_refl]
      rw [if_neg (by omega), Option.or_none]
    · rw [if_neg h1, Option.none_or]
      by_cases h2 : k ≤ r
      · rw [if_pos (by omega), if_pos h2]
        obtain ⟨d, hd⟩ : ∃ d, r - k = d + 1 := ⟨r - k - 1, by omega⟩
        rw [hd, List.getElem?_cons_succ, show r - (k + 1) = d by omega]
      · rw [if_neg (by omega), if_neg h2]

theorem count_rows (k r : Nat) (rows : List (List Datum)) :
    (rowIndices k rows).countP (fun e => e.1 == r)
      = if k ≤ r then (rows.getD (r - k) []).length else 0 := by
  induction rows generalizing k with
  | nil => simp [rowIndices]
  | cons row rows ih =>
    rw [rowIndices_cons, List.countP_append, ih, List.countP_map]
    by_cases h1 : r = k
    · subst h1
      rw [if_neg (by omega), if_pos (Nat.le_refl _), Nat.sub_self]
      simp [Function.comp_def]
    · have h0 : ¬ k = r := fun h => h1 h.symm
      have : (List.range row.length).countP ((fun e : Nat × Nat => e.1 == r) ∘ fun c => (k, c)) = 0 := by
        rw [List.countP_eq_zero]
        simp [h0]
      rw [this, Nat.zero_add]
      by_cases h2 : k ≤ r
      · rw [if_pos (by omega), if_pos h2]
        obtain ⟨d, hd⟩ : ∃ d, r - k = d + 1 := ⟨r - k - 1, by omega⟩
        rw [hd, List.getD_cons_succ, show r - (k + 1) = d by omega]
      · rw [if_neg (by omega), if_neg h2]

theorem fieldRows_sparse (d : DType) (hd : d ≠ .other) (rows : List (List Datum)) (cols : Nat)
    (h : ∀ row ∈ rows, row.length ≤ cols) :
    fieldRows { dtype := d, body := .sparse (rowIndices 0 rows) rows.flatten rows.length cols }
      = .ok rows := by
  obtain ⟨default, hdef⟩ : ∃ v, defaultValue d = some v := by
    cases d <;> first | exact ⟨_, rfl⟩ | exact absurd rfl hd
  unfold fieldRows
  simp only [hdef]
  rw [if_pos]
  · congr 1
    conv => rhs; rw [← List.map_id rows, ← range_map_getD rows [] id]
    apply List.map_congr_left
    intro r hr
    rw [List.mem_range] at hr
    rw [count_rows, if_pos (Nat.zero_le _), Nat.sub_zero]
    have hlen : (rows.getD r []).length ≤ cols := by
      rw [List.getD_eq_getElem _ _ hr]
      exact h _ (List.getElem_mem hr)
    simp only [id]
    apply List.ext_getElem
    · rw [List.length_take, List.length_map, List.length_range, Nat.min_eq_left hlen]
    · intro c h1 h2
      simp only [List.getElem_take, List.getElem_map, List.getElem_range]
      unfold cell
      rw [find_rows, if_pos (Nat.zero_le _), Nat.sub_zero, List.getElem?_eq_getElem hr]
      rw [List.getD_eq_getElem _ _ hr] at h2
      simp only [Option.bind_some]
      rw [List.getElem?_eq_getElem h2, Option.getD_some]
      congr 1
      exact (List.getD_eq_getElem _ _ hr).symm
  · rw [Bool.and_eq_true, Bool.and_eq_true]
    refine ⟨⟨increasing_rowIndices 0 rows, ?_⟩, by simp [rowIndices_length]⟩
    rw [List.all_eq_true]
    intro e he
    obtain ⟨-, h2, row, h3, h4⟩ := mem_rowIndices he
    have := h row h3
    simp only [Bool.and_eq_true, decide_eq_true_eq]
    omega

theorem fieldRows_of_hasRows (t : Tensor) (rows : List (List Datum)) (hne : rows ≠ [])
    (hd : t.dtype ≠ .other) (h : HasRows t rows) : fieldRows t = .ok rows := by
  obtain ⟨d, body⟩ := t
  obtain ⟨-, h⟩ := h
  cases body with
  | dense shape values =>
    obtain ⟨rest, rfl, h1, rfl⟩ := h
    exact fieldRows_dense d rest rows hne h1
  | sparse indices values n cols =>
    obtain ⟨rfl, h1, rfl, rfl⟩ := h
    exact fieldRows_sparse d hd rows cols h1

/-! ## Examples with all features -/

/-- The bytes of the entry of a feature in one Example. -/
def entryBytes (key : Bytes) (d : DType) (row : List Datum) : Bytes :=
  lenDelim 1 key ++ lenDelim 2 (featureBytes d row)

theorem serializeEntry_ok (key : Bytes) (t : Tensor) (rows : List (List Datum)) (hne : rows ≠ [])
    (hd : t.dtype ≠ .other) (h : fieldRows t = .ok rows) :
    serializeEntry (key, t) = .ok (rows.map (entryBytes key t.dtype)) := by
  unfold serializeEntry
  rw [serializeFeature_ok t rows hne hd h]
  show encodeProto [("key", stringTensor (List.replicate (rows.map (featureBytes t.dtype)).length
    key)), ("value", stringTensor (rows.map (featureBytes t.dtype)))] _ = _
  rw [encodeProto_entry _ _ (by simp) (by simpa using hne), List.length_map]
  congr 1
  rw [← range_map_getD rows [] (entryBytes key t.dtype)]
  apply List.map_congr_left
  intro i hi
  rw [List.mem_range] at hi
  unfold entryBytes
  rw [List.getD_eq_getElem _ _ (by rw [List.length_replicate]; exact hi), List.getElem_replicate,
    List.getD_eq_getElem _ _ (by rw [List.length_map]; exact hi), List.getElem_map,
    List.getD_eq_getElem _ _ hi]

theorem mapM_ok_map {α β : Type} (f : α → Except Err β) (g : α → β) (l : List α)
    (h : ∀ a ∈ l, f a = .ok (g a)) : l.mapM f = .ok (l.map g) := by
  induction l with
  | nil => rfl
  | cons a l ih =>
    rw [List.mapM_cons, h a List.mem_cons_self, ih (fun a ha => h a (List.mem_cons_of_mem _ ha))]
    rfl

theorem mapM_some_map {α β : Type} (f : α → Option β) (g : α → β) (l : List α)
    (h : ∀ a ∈ l, f a = some (g a)) : l.mapM f = some (l.map g) := by
  induction l with
  | nil => rfl
  | cons a l ih =>
    rw [List.mapM_cons, h a List.mem_cons_self, ih (fun a ha => h a (List.mem_cons_of_mem _ ha))]
    rfl

theorem serialize_rows (features : List (Bytes × Tensor)) (hne : features ≠ [])
    (n : Nat) (hn : 0 < n) (rows : Bytes → List (List Datum))
    (hrows : ∀ f ∈ features, f.2.dtype ≠ .other ∧ (rows f.1).length = n ∧
      fieldRows f.2 = .ok (rows f.1) ∧ ∀ row ∈ rows f.1, ∀ v ∈ row, HasType f.2.dtype v) :
    ∃ out, serializeExample features = .ok out ∧ out.length = n ∧
      ∀ i, (hi : i < out.length) → ∃ entries, readExample out[i] = some entries ∧
        entries.Perm (features.map (fun f => (f.1, f.2.dtype, (rows f.1).getD i []))) := by
  set sorted := features.insertionSort (fun a b => keyLe a.1 b.1) with hsorted
  have hperm : sorted.Perm features := List.perm_insertionSort _ _
  have hsne : sorted ≠ [] := by
    intro h
    rw [h] at hperm
    exact hne hperm.nil_eq.symm
  have hs : ∀ f ∈ sorted, f.2.dtype ≠ .other ∧ (rows f.1).length = n ∧
      fieldRows f.2 = .ok (rows f.1) ∧ ∀ row ∈ rows f.1, ∀ v ∈ row, HasType f.2.dtype v :=
    fun f hf => hrows f (hperm.mem_iff.1 hf)
  set columns := sorted.map (fun f => (rows f.1).map (entryBytes f.1 f.2.dtype)) with hcolumns
  have hentries : sorted.mapM serializeEntry = .ok columns := by
    apply mapM_ok_map
    intro f hf
    obtain ⟨h1, h2, h3, -⟩ := hs f hf
    exact serializeEntry_ok f.1 f.2 (rows f.1) (by
      intro h0
      rw [h0] at h2
      simp at h2
      omega) h1 h3
  have hlen : ∀ c ∈ columns, c.length = n := by
    intro c hc
    obtain ⟨f, hf, rfl⟩ := List.mem_map.1 hc
    rw [List.length_map]
    exact (hs f hf).2.1
  have hcne : columns ≠ [] := by
    rw [hcolumns]
    simpa using hsne
  set grid := (List.range n).map (fun i : Nat => columns.map (fun c => Datum.bytes (c.getD i [])))
    with hgrid
  have hstack : stackColumns columns = .ok { dtype := .string
                                             body := .dense (n :: [columns.length]) grid.flatten } := by
    cases hcol : columns with
    | nil => exact absurd hcol hcne
    | cons first rest =>
      have hfirst : first.length = n := hlen first (by rw [hcol]; exact List.mem_cons_self)
      unfold stackColumns
      simp only
      rw [if_pos, hfirst, hgrid, hcol, List.flatMap_def]
      rw [List.all_eq_true]
      intro c hc
      rw [hfirst, hlen c (by rw [hcol]; exact List.mem_cons_of_mem _ hc)]
      simp
  have hgne : grid ≠ [] := by
    rw [hgrid]
    intro h
    rw [List.map_eq_nil_iff, List.range_eq_nil] at h
    omega
  have hgl : grid.length = n := by rw [hgrid]; simp
  have hgrows : fieldRows { dtype := .string, body := .dense (n :: [columns.length]) grid.flatten }
      = .ok grid := by
    have := fieldRows_dense .string [columns.length] grid hgne (by
      intro row hrow
      rw [hgrid] at hrow
      obtain ⟨i, -, rfl⟩ := List.mem_map.1 hrow
      simp)
    rw [hgl] at this
    exact this
  have hser : encodeProto [("feature", { dtype := .string
                                         body := .dense (n :: [columns.length]) grid.flatten })]
      "tensorflow.Features" = .ok (grid.map (encodeField 1 false)) :=
    encodeProto_one _ _ _ _ _ _ hgrows (by decide)
  have hlast : encodeProto [("features", stringTensor (grid.map (encodeField 1 false)))]
      "tensorflow.Example" = .ok (grid.map (fun row => lenDelim 1 (encodeField 1 false row))) := by
    rw [encodeProto_one _ _ _ _ 1 false (fieldRows_string _ (by simpa using hgne)) (by decide),
      List.map_map, List.map_map]
    congr 1
    apply List.map_congr_left
    intro row _
    simp [encodeField, raw]
  refine ⟨grid.map (fun row => lenDelim 1 (encodeField 1 false row)), ?_, ?_, ?_⟩
  · unfold serializeExample
    rw [← hsorted, hentries]
    show (stackColumns columns).bind _ = _
    rw [hstack]
    show (encodeProto [("feature", _)] "tensorflow.Features").bind _ = _
    rw [hser]
    exact hlast
  · rw [List.length_map, hgl]
  · intro i hi
    rw [List.length_map, hgl] at hi
    refine ⟨sorted.map (fun f => (f.1, f.2.dtype, (rows f.1).getD i [])), ?_, hperm.map _⟩
    rw [List.getElem_map]
    have hg : grid[i]'(by rw [hgl]; exact hi)
        = sorted.map (fun f => Datum.bytes (entryBytes f.1 f.2.dtype ((rows f.1).getD i []))) := by
      simp only [hgrid, List.getElem_map, List.getElem_range]
      rw [hcolumns, List.map_map]
      apply List.map_congr_left
      intro f hf
      have hl := (hs f hf).2.1
      simp only [Function.comp]
      rw [List.getD_eq_getElem _ _ (by rw [List.length_map, hl]; exact hi), List.getElem_map,
        List.getD_eq_getElem _ _ (by rw [hl]; exact hi)]
    rw [hg]
    unfold readExample
    rw [fields_one]
    simp only
    rw [fields_unpacked]
    simp only
    rw [if_pos (by simp), List.map_map, List.map_map]
    rw [List.mapM_map]
    apply mapM_some_map
    intro f hf
    obtain ⟨h1, h2, -, h3⟩ := hs f hf
    simp only [Function.comp, raw]
    unfold readEntry entryBytes
    rw [fields_two]
    simp only
    rw [readFeature_bytes _ h1]
    · rfl
    · intro v hv
      rw [List.getD_eq_getElem _ _ (by rw [h2]; exact hi)] at hv
      exact h3 _ (List.getElem_mem _) v hv

/-- **C88**, partial: a batch of any number of instances, with any number of dense and sparse
features, is serialized as one Example for every instance, and a reader of Examples finds in it
exactly the features, with their types and with the values of that instance in their order. Missing:
sparse instances with gaps (`gaps_are_wrong`), and empty batches (`empty_batch_refused`). -/
theorem serialize_example_partial (features : List (Bytes × Tensor)) (hne : features ≠ [])
    (n : Nat) (hn : 0 < n) (rows : Bytes → List (List Datum))
    (hrows : ∀ f ∈ features, f.2.dtype ≠ .other ∧ (rows f.1).length = n ∧ HasRows f.2 (rows f.1)) :
    ∃ out, serializeExample features = .ok out ∧ out.length = n ∧
      ∀ i, (hi : i < out.length) → ∃ entries, readExample out[i] = some entries ∧
        entries.Perm (features.map (fun f => (f.1, f.2.dtype, (rows f.1).getD i []))) := by
  refine serialize_rows features hne n hn rows (fun f hf => ?_)
  obtain ⟨h1, h2, h3⟩ := hrows f hf
  refine ⟨h1, h2, fieldRows_of_hasRows _ _ ?_ h1 h3, h3.1⟩
  intro h0
  rw [h0] at h2
  simp at h2
  omega

/-! ## What is refused, and what goes wrong -/

theorem mapM_error {α β : Type} (f : α → Except Err β) (l : List α)
    (h : ∃ a ∈ l, ∃ e, f a = .error e) : ∃ e, l.mapM f = .error e := by
  induction l with
  | nil => obtain ⟨a, ha, -⟩ := h; cases ha
  | cons b l ih =>
    rw [List.mapM_cons]
    cases hb : f b with
    | error e => exact ⟨e, rfl⟩
    | ok v =>
      obtain ⟨a, ha, e, he⟩ := h
      rcases List.mem_cons.1 ha with rfl | ha
      · rw [hb] at he; cases he
      · obtain ⟨e', he'⟩ := ih ⟨a, ha, e, he⟩
        exact ⟨e', by simp [he', bind, Except.bind]⟩

theorem serialize_error (features : List (Bytes × Tensor))
    (h : ∃ f ∈ features, ∃ e, serializeEntry f = .error e) :
    ∃ e, serializeExample features = .error e := by
  obtain ⟨f, hf, he⟩ := h
  obtain ⟨e, he⟩ := mapM_error serializeEntry
    (features.insertionSort (fun a b => keyLe a.1 b.1))
    ⟨f, (List.perm_insertionSort _ _).mem_iff.2 hf, he⟩
  refine ⟨e, ?_⟩
  unfold serializeExample
  rw [he]
  rfl

/-- **C88**: values of other types than strings, floats and integers of 64 bits are refused. -/
theorem other_types_refused (features : List (Bytes × Tensor))
    (h : ∃ f ∈ features, f.2.dtype = .other) : ∃ e, serializeExample features = .error e := by
  obtain ⟨f, hf, hd⟩ := h
  refine serialize_error features ⟨f, hf, ?_⟩
  unfold serializeEntry serializeFeature
  rw [hd]
  exact ⟨_, rfl⟩

/-- **C88**: without features nothing is serialized. -/
theorem no_features_refused : ∃ e, serializeExample [] = .error e := ⟨_, rfl⟩

/-- **C88**: features with different numbers of instances are refused. -/
theorem different_batches_refused (features : List (Bytes × Tensor))
    (rows : Bytes → List (List Datum))
    (hrows : ∀ f ∈ features, f.2.dtype ≠ .other ∧ rows f.1 ≠ [] ∧ HasRows f.2 (rows f.1))
    (h : ∃ f ∈ features, ∃ g ∈ features, (rows f.1).length ≠ (rows g.1).length) :
    ∃ e, serializeExample features = .error e := by
  unfold serializeExample
  have hp : ∀ f, f ∈ features.insertionSort (fun a b => keyLe a.1 b.1) ↔ f ∈ features :=
    fun f => (List.perm_insertionSort _ _).mem_iff
  generalize features.insertionSort (fun a b => keyLe a.1 b.1) = sorted at hp ⊢
  rw [mapM_ok_map serializeEntry (fun f => (rows f.1).map (entryBytes f.1 f.2.dtype)) sorted (by
    intro f hf
    obtain ⟨h1, h2, h3⟩ := hrows f ((hp f).1 hf)
    exact serializeEntry_ok f.1 f.2 _ h2 h1 (fieldRows_of_hasRows _ _ h2 h1 h3))]
  obtain ⟨f, hf, g, hg, hfg⟩ := h
  have herr : ∃ e, stackColumns (sorted.map (fun f => (rows f.1).map (entryBytes f.1 f.2.dtype)))
      = .error e := by
    cases hcol : sorted.map (fun f => (rows f.1).map (entryBytes f.1 f.2.dtype)) with
    | nil => exact ⟨_, rfl⟩
    | cons first rest =>
      unfold stackColumns
      simp only
      rw [if_neg]
      · exact ⟨_, rfl⟩
      · intro hall
        rw [List.all_eq_true] at hall
        have key : ∀ x ∈ features, (rows x.1).length = first.length := by
          intro x hx
          have hm : (rows x.1).map (entryBytes x.1 x.2.dtype) ∈ first :: rest := by
            rw [← hcol]
            exact List.mem_map.2 ⟨x, (hp x).2 hx, rfl⟩
          rcases List.mem_cons.1 hm with h0 | h0
          · rw [← h0, List.length_map]
          · have := hall _ h0
            rw [beq_iff_eq, List.length_map] at this
            exact this
        exact hfg ((key f hf).trans (key g hg).symm)
  obtain ⟨e, he⟩ := herr
  refine ⟨e, ?_⟩
  show (stackColumns _).bind _ = _
  rw [he]
  rfl

/-- **C88 fails**: a batch without instances is not serialized as no Examples, but refused. -/
theorem empty_batch_refused (features : List (Bytes × Tensor))
    (h : ∃ f ∈ features, (∃ rest values, f.2.body = .dense (0 :: rest) values) ∨
      (∃ cols, f.2.body = .sparse [] [] 0 cols)) :
    ∃ e, serializeExample features = .error e := by
  obtain ⟨⟨key, d, body⟩, hf, hb⟩ := h
  refine serialize_error features ⟨_, hf, ?_⟩
  simp only at hb
  rcases hb with ⟨rest, values, rfl⟩ | ⟨cols, rfl⟩
  · cases d <;> exact ⟨_, rfl⟩
  · cases d <;> exact ⟨_, rfl⟩

/-- **C88 fails**: a sparse instance whose only value is not in the first column is serialized with
the default value in its place. -/
theorem gaps_are_wrong (key : Bytes) (v : BitVec 64) :
    ∃ out, serializeExample [(key, { dtype := .int64, body := .sparse [(0, 1)] [.int v] 1 2 })]
        = .ok [out] ∧ readExample out = some [(key, .int64, [.int 0])] := by
  obtain ⟨out, h1, h2, h3⟩ := serialize_rows
    [(key, { dtype := .int64, body := .sparse [(0, 1)] [.int v] 1 2 })] (by simp) 1 (by omega)
    (fun _ => [[.int 0]]) (by
      intro f hf
      rw [List.mem_singleton] at hf
      subst hf
      refine ⟨by simp, rfl, rfl, ?_⟩
      intro row hrow x hx
      simp only [List.mem_singleton] at hrow
      subst hrow
      rw [List.mem_singleton] at hx
      subst hx
      trivial)
  obtain ⟨o, rfl⟩ := List.length_eq_one_iff.1 h2
  obtain ⟨entries, h4, h5⟩ := h3 0 (by simp)
  refine ⟨o, h1, ?_⟩
  have h6 := List.perm_singleton.1 h5
  subst h6
  exact h4

/-- Two instances with a dense feature of strings, a dense one of floats and a sparse one of
integers. -/
def exampleBatch : List (Bytes × Tensor) :=
  [([119], { dtype := .int64, body := .sparse [(0, 0), (0, 1)] [.int 300, .int 7] 2 3 }),
   ([97], { dtype := .string, body := .dense [2] [.bytes [120, 121], .bytes []] }),
   ([98], { dtype := .float32, body := .dense [2, 1, 1] [.float 1, .float 1065353216] })]

/-- The hypotheses can be met. -/
example : ∀ f ∈ exampleBatch, f.2.dtype ≠ .other ∧
    ((fun k : Bytes => if k = [119] then [[.int 300, .int 7], []]
      else if k = [97] then [[.bytes [120, 121]], [.bytes []]]
      else [[Datum.float 1], [.float 1065353216]]) f.1).length = 2 ∧
    HasRows f.2 ((fun k : Bytes => if k = [119] then [[.int 300, .int 7], []]
      else if k = [97] then [[.bytes [120, 121]], [.bytes []]]
      else [[Datum.float 1], [.float 1065353216]]) f.1) := by
  intro f hf
  simp only [exampleBatch, List.mem_cons, List.not_mem_nil, or_false] at hf
  rcases hf with rfl | rfl | rfl
  · refine ⟨by simp, rfl, ?_, rfl, by decide, rfl, rfl⟩
    intro row hrow v hv
    simp at hrow
    rcases hrow with rfl | rfl <;> simp at hv
    rcases hv with rfl | rfl <;> trivial
  · refine ⟨by simp, rfl, ?_, [], rfl, by decide, rfl⟩
    intro row hrow v hv
    simp at hrow
    rcases hrow with rfl | rfl <;> simp at hv <;> subst hv <;> trivial
  · refine ⟨by simp, rfl, ?_, [1, 1], rfl, by decide, rfl⟩
    intro row hrow v hv
    simp at hrow
    rcases hrow with rfl | rfl <;> simp at hv <;> subst hv <;> trivial

/-- What is read from its second Example. -/
example : ((serializeExample exampleBatch).toOption.bind (fun out => (out[1]?).bind readExample))
    = some [([97], .string, [.bytes []]), ([98], .float32, [.float 1065353216]),
        ([119], .int64, [])] := by
  decide +kernel

end TFT.SerializeExample
