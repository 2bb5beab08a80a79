import Verif.Coders.Csv
import Mathlib.Data.List.Forall2
import Mathlib.Data.List.Nodup

/-!
# Properties of the CSV coder

Property C61: a line written by the CSV coder, read back by a CSV reader, has one field per column, in
the order of the columns, and every field shows the value of its column. A column with several values
is itself a CSV record with the secondary delimiter.

It does not hold for every use of the coder: `extra_values_are_dropped`, `zero_is_dropped`,
`uncovered_column_reads_None` and `failed_encode_spoils_the_next` are counterexamples.
-/

namespace TFT.Csv

namespace Spec

/-- Where a CSV reader is in a record. -/
inductive Reading
  | startRecord
  | startField
  | inField
  | inQuoted
  | afterQuote
  deriving DecidableEq

/-- A CSV reader (as `csv.reader`, or RFC 4180) for one record: `"` is 34, a line feed 10, a carriage
return 13. A quoted field may hold everything, with quotes doubled. A line break outside quotes would
end the record. -/
def readFrom (d : Nat) : Reading → Text → List Text → Text → Option (List Text)
  | .startRecord, _, done, [] => some done
  | .inQuoted, _, _, [] => none
  | .startField, cur, done, [] => some (done ++ [cur])
  | .inField, cur, done, [] => some (done ++ [cur])
  | .afterQuote, cur, done, [] => some (done ++ [cur])
  | .inQuoted, cur, done, c :: t =>
    if c = 34 then readFrom d .afterQuote cur done t else readFrom d .inQuoted (cur ++ [c]) done t
  | .afterQuote, cur, done, c :: t =>
    if c = 34 then readFrom d .inQuoted (cur ++ [c]) done t
    else if c = d then readFrom d .startField [] (done ++ [cur]) t
    else if c = 10 ∨ c = 13 then none
    else readFrom d .inField (cur ++ [c]) done t
  | .inField, cur, done, c :: t =>
    if c = d then readFrom d .startField [] (done ++ [cur]) t
    else if c = 10 ∨ c = 13 then none
    else readFrom d .inField (cur ++ [c]) done t
  | .startField, cur, done, c :: t =>
    if c = 34 then readFrom d .inQuoted cur done t
    else if c = d then readFrom d .startField [] (done ++ [cur]) t
    else if c = 10 ∨ c = 13 then none
    else readFrom d .inField (cur ++ [c]) done t
  | .startRecord, cur, done, c :: t =>
    if c = 34 then readFrom d .inQuoted cur done t
    else if c = d then readFrom d .startField [] (done ++ [cur]) t
    else if c = 10 ∨ c = 13 then none
    else readFrom d .inField (cur ++ [c]) done t

/-- The fields of a record. -/
def readRecord (d : Nat) (t : Text) : Option (List Text) := readFrom d .startRecord [] [] t

/-- A delimiter is any character but a quote and a line break. -/
def Delimiter (d : Nat) : Prop := d ≠ 34 ∧ d ≠ 10 ∧ d ≠ 13

instance (d : Nat) : Decidable (Delimiter d) := by unfold Delimiter; infer_instance

/-- The feature that a column belongs to, and the name by which it is declared multivalent: the columns
of a sparse feature go by the name of the feature. -/
inductive Column : Feature → String → String → Prop
  | fixed (name shape) : Column (.fixed name shape) name name
  | varLen (name) : Column (.varLen name) name name
  | index (name keys v key) (h : key ∈ keys) : Column (.sparse name keys v) key name
  | value (name keys v) : Column (.sparse name keys v) v name

/-- The columns that the schema describes, in order. -/
def columnsOf : Feature → List String
  | .fixed name _ => [name]
  | .varLen name => [name]
  | .sparse _ keys v => keys ++ [v]
  | .other _ => []

/-- The values that an instance has for a column: one for a scalar, the elements of a list for a vector
and for a feature of variable length, all elements of a higher-rank tensor. -/
def Values {α : Type} (py : Py α) : Feature → α → List α → Prop
  | .fixed _ [], v, vs => vs = [v]
  | .fixed _ [_], v, vs => py.items v = .ok vs
  | .fixed _ (_ :: _ :: _), v, vs => py.flatten v = .ok vs
  | _, v, vs => py.items v = .ok vs

/-- The number of values of a feature of fixed length. -/
def Count : Feature → Nat → Prop
  | .fixed _ shape, n => n = shape.prod
  | _, _ => True

/-- `field` shows the value that the instance has for the column: all its values as a record of the
secondary delimiter when it is declared multivalent, its first value otherwise, nothing when there is
no value. -/
def Shows {α : Type} (py : Py α) (cfg : Config) (inst : List (String × α)) (f : Feature)
    (column declared : String) (field : Text) : Prop :=
  ∃ v vs, inst.lookup column = some v ∧ Values py f v vs ∧ Count f vs.length ∧
    (declared ∈ cfg.multivalent → ∃ s texts, cfg.secondary = some s ∧
      List.Forall₂ (fun x t => py.toStr x = .ok t) vs texts ∧ readRecord s field = some texts) ∧
    (declared ∉ cfg.multivalent →
      (∀ x xs, vs = x :: xs → py.toStr x = .ok field) ∧ (vs = [] → field = []))

/-- The columns of variable length that are not declared multivalent are given as Python lists or
tuples, which are true exactly when they have elements. (A NumPy array is not: it is true when its only
element is.) -/
def ListsOnly {α : Type} (py : Py α) (cfg : Config) (inst : List (String × α)) : Prop :=
  ∀ f ∈ cfg.spec, ∀ column declared v, (∀ n shape, f ≠ .fixed n shape) → Column f column declared →
    declared ∉ cfg.multivalent → inst.lookup column = some v →
    ∃ vs, py.items v = .ok vs ∧ py.truthy v = .ok !vs.isEmpty

end Spec

open Spec

/-! ## The writer and the reader -/

theorem readFrom_quoted (d : Nat) (f : Text) : ∀ (cur : Text) (done : List Text) (rest : Text),
    readFrom d .inQuoted cur done (double f ++ 34 :: rest) =
      readFrom d .afterQuote (cur ++ f) done rest := by
  induction f with
  | nil => intro cur done rest; simp [double, readFrom]
  | cons c f ih =>
    intro cur done rest
    by_cases hc : c = 34
    · subst hc
      have := ih (cur ++ [34]) done rest
      simpa [double, quote, readFrom] using this
    · have hb : (c == quote) = false := by simpa [quote] using hc
      have := ih (cur ++ [c]) done rest
      simpa [double, hb, readFrom, hc] using this

theorem readFrom_plain (d : Nat) (f : Text) (hf : needsQuotes d f = false) :
    ∀ (cur : Text) (done : List Text) (rest : Text),
    readFrom d .inField cur done (f ++ rest) = readFrom d .inField (cur ++ f) done rest := by
  induction f with
  | nil => intro cur done rest; simp
  | cons c f ih =>
    intro cur done rest
    simp only [needsQuotes, List.any_cons, Bool.or_eq_false_iff, beq_eq_false_iff_ne, quote, lf, cr] at hf
    obtain ⟨⟨⟨⟨h1, h2⟩, h3⟩, h4⟩, h5⟩ := hf
    have := ih (by simpa [needsQuotes, quote, lf, cr] using h5) (cur ++ [c]) done rest
    simpa [readFrom, h1, h3, h4] using this

/-- Reading a field that is followed by a delimiter. -/
theorem readFrom_field (d : Nat) (hd : Delimiter d) (st : Reading)
    (hst : st = .startRecord ∨ st = .startField) (f : Text) (done : List Text) (rest : Text) :
    readFrom d st [] done (writeField d f ++ d :: rest) =
      readFrom d .startField [] (done ++ [f]) rest := by
  obtain ⟨h1, h2, h3⟩ := hd
  unfold writeField
  by_cases hq : needsQuotes d f = true
  · rw [if_pos hq]
    have := readFrom_quoted d f [] done (d :: rest)
    rcases hst with rfl | rfl <;> simp [quote, readFrom, this, h1]
  · have hq' : needsQuotes d f = false := by simpa using hq
    rw [if_neg hq]
    cases f with
    | nil => rcases hst with rfl | rfl <;> simp [readFrom, h1]
    | cons c f =>
      have hc := hq'
      simp only [needsQuotes, List.any_cons, Bool.or_eq_false_iff, beq_eq_false_iff_ne, quote, lf, cr]
        at hc
      obtain ⟨⟨⟨⟨k1, k2⟩, k3⟩, k4⟩, k5⟩ := hc
      have := readFrom_plain d f (by simpa [needsQuotes, quote, lf, cr] using k5) [c] done (d :: rest)
      rcases hst with rfl | rfl <;> simp [readFrom, k1, k2, k3, k4, this]

/-- Reading the last field. -/
theorem readFrom_last (d : Nat) (hd : Delimiter d) (st : Reading)
    (hst : st = .startRecord ∨ st = .startField) (f : Text) (done : List Text)
    (hf : st = .startRecord → f ≠ []) :
    readFrom d st [] done (writeField d f) = some (done ++ [f]) := by
  obtain ⟨h1, h2, h3⟩ := hd
  unfold writeField
  by_cases hq : needsQuotes d f = true
  · rw [if_pos hq]
    have := readFrom_quoted d f [] done []
    rcases hst with rfl | rfl <;> simp [quote, readFrom, this]
  · have hq' : needsQuotes d f = false := by simpa using hq
    rw [if_neg hq]
    cases f with
    | nil =>
      rcases hst with rfl | rfl
      · exact absurd rfl (hf rfl)
      · simp [readFrom]
    | cons c f =>
      have hc := hq'
      simp only [needsQuotes, List.any_cons, Bool.or_eq_false_iff, beq_eq_false_iff_ne, quote, lf, cr]
        at hc
      obtain ⟨⟨⟨⟨k1, k2⟩, k3⟩, k4⟩, k5⟩ := hc
      have := readFrom_plain d f (by simpa [needsQuotes, quote, lf, cr] using k5) [c] done []
      simp only [List.append_nil] at this
      rcases hst with rfl | rfl <;> simp [readFrom, k1, k2, k3, k4, this]

theorem readFrom_join (d : Nat) (hd : Delimiter d) (fs : List Text) :
    ∀ (st : Reading) (done : List Text), (st = .startRecord ∨ st = .startField) → fs ≠ [] →
    (st = .startRecord → fs ≠ [[]]) →
    readFrom d st [] done (joinFields d fs) = some (done ++ fs) := by
  induction fs with
  | nil => intro st done _ h; exact absurd rfl h
  | cons f fs ih =>
    intro st done hst _ hne
    cases fs with
    | nil =>
      have : st = .startRecord → f ≠ [] := fun h e => hne h (by rw [e])
      simpa [joinFields] using readFrom_last d hd st hst f done this
    | cons g fs =>
      have h1 := readFrom_field d hd st hst f done (joinFields d (g :: fs))
      have h2 := ih .startField (done ++ [f]) (Or.inr rfl) (by simp) (by simp)
      simp only [joinFields]
      rw [h1, h2]
      simp

/-- **C61, the record.** What `csv.writer` writes for a row, a CSV reader reads back as the same row:
no field is lost, split or joined, whatever delimiters, quotes and line breaks are in the fields. -/
theorem row_round_trip (d : Nat) (hd : Delimiter d) (fs : List Text) :
    readRecord d (writeRow d fs) = some fs := by
  unfold readRecord writeRow
  cases fs with
  | nil => simp [joinFields, readFrom]
  | cons f fs =>
    by_cases he : joinFields d (f :: fs) = []
    · have hfs : fs = [] ∧ f = [] := by
        cases fs with
        | nil =>
          refine ⟨rfl, ?_⟩
          simp only [joinFields, writeField] at he
          by_cases hq : needsQuotes d f = true
          · rw [if_pos hq] at he; simp at he
          · rwa [if_neg hq] at he
        | cons g fs => simp [joinFields] at he
      obtain ⟨rfl, rfl⟩ := hfs
      simp [joinFields, writeField, needsQuotes, quote, readFrom]
    · have hb : (joinFields d (f :: fs)).isEmpty = false := by
        simpa [List.isEmpty_iff] using he
      simp only [hb, Bool.and_false, Bool.false_eq_true, if_false]
      have := readFrom_join d hd (f :: fs) .startRecord [] (Or.inl rfl) (by simp) (by
        rintro _ e
        rw [e] at he
        simp [joinFields, writeField, needsQuotes] at he)
      simpa using this

/-- Different rows are written differently. -/
theorem rows_are_distinguished (d : Nat) (hd : Delimiter d) (fs gs : List Text)
    (h : writeRow d fs = writeRow d gs) : fs = gs := by
  have h1 := row_round_trip d hd fs
  rw [h, row_round_trip d hd gs] at h1
  exact (Option.some.inj h1).symm

example : Delimiter 44 ∧ writeRow 44 [[97, 34, 44], [], [98]] =
    [34, 97, 34, 34, 44, 34, 44, 44, 98] := by decide

/-! ## Lemmas on the buffers -/

theorem sequence_ok {β : Type} : ∀ (xs : List (Except Exc β)) (ys : List β),
    sequence xs = .ok ys → List.Forall₂ (fun x y => x = Except.ok y) xs ys := by
  intro xs
  induction xs with
  | nil => intro ys h; cases h; exact .nil
  | cons x xs ih =>
    intro ys h
    cases x with
    | error e => cases h
    | ok y =>
      simp only [sequence] at h
      cases hs : sequence xs with
      | error e => rw [hs] at h; cases h
      | ok zs =>
        rw [hs] at h
        cases h
        exact .cons rfl (ih zs hs)

theorem sequence_map_ok {β : Type} (ys : List β) :
    sequence (ys.map (fun y => (Except.ok y : Except Exc β))) = .ok ys := by
  induction ys with
  | nil => rfl
  | cons y ys ih => simp only [List.map_cons, sequence, ih]

theorem write_empty (t : Text) : Buffer.empty.write t = ⟨t, t.length⟩ := by
  simp [Buffer.write, Buffer.empty]

/-- With an empty buffer, a record gives the row's text or an error, and unless that error is that the
text cannot be encoded, the buffer is empty again. -/
theorem encodeRecord_empty (d : Nat) (record : List (Except Exc Text)) (b : Buffer)
    (r : Except Exc Text) (h : encodeRecord d .empty record = (b, r)) :
    (∀ t, r = .ok t → ∃ fs, sequence record = .ok fs ∧ t = writeRow d fs ∧ b = .empty) ∧
    (∀ e, r = .error e → b = .empty ∨ e = .unicodeError) := by
  unfold encodeRecord at h
  cases hs : sequence record with
  | error e =>
    rw [hs] at h
    simp only [Prod.mk.injEq] at h
    obtain ⟨rfl, rfl⟩ := h
    exact ⟨by rintro t ⟨⟩, fun _ _ => Or.inl rfl⟩
  | ok fs =>
    rw [hs] at h
    simp only [write_empty] at h
    by_cases hu : (writeRow d fs).any isSurrogate = true
    · rw [if_pos hu] at h
      simp only [Prod.mk.injEq] at h
      obtain ⟨rfl, rfl⟩ := h
      exact ⟨by rintro t ⟨⟩, by rintro e ⟨⟩; exact Or.inr rfl⟩
    · rw [if_neg hu] at h
      simp only [Prod.mk.injEq] at h
      obtain ⟨rfl, rfl⟩ := h
      refine ⟨?_, by rintro e ⟨⟩⟩
      rintro t ⟨⟩
      exact ⟨fs, rfl, rfl, by simp [Buffer.seek, Buffer.truncate, Buffer.empty]⟩

theorem encodeValue_empty {α : Type} (py : Py α) (secondary : Option Nat) (h : Handler) (values : α)
    (b : Buffer) (r : Except Exc Text) (he : encodeValue py secondary h .empty values = (b, r)) :
    (∀ t, r = .ok t → b = .empty) ∧ (∀ e, r = .error e → b = .empty ∨ e = .unicodeError) := by
  have triv : ∀ {x : Except Exc Text}, (Buffer.empty, x) = (b, r) →
      (∀ t, r = .ok t → b = .empty) ∧ (∀ e, r = .error e → b = .empty ∨ e = .unicodeError) := by
    intro x hx
    simp only [Prod.mk.injEq] at hx
    obtain ⟨rfl, rfl⟩ := hx
    exact ⟨fun _ _ => rfl, fun _ _ => Or.inl rfl⟩
  have recd : ∀ (s : Nat) (l : List (Except Exc Text)), encodeRecord s .empty l = (b, r) →
      (∀ t, r = .ok t → b = .empty) ∧ (∀ e, r = .error e → b = .empty ∨ e = .unicodeError) := by
    intro s l hx
    have := encodeRecord_empty s l b r hx
    refine ⟨fun t ht => ?_, this.2⟩
    obtain ⟨_, _, _, hb⟩ := this.1 t ht
    exact hb
  unfold encodeValue at he
  cases hk : h.kind with
  | fixed rank size =>
    rw [hk] at he
    simp only at he
    cases hf : flattened py rank values with
    | error e => rw [hf] at he; exact triv he
    | ok vs =>
      rw [hf] at he
      simp only at he
      by_cases hl : vs.length ≠ size
      · rw [if_pos hl] at he; exact triv he
      · rw [if_neg hl] at he
        cases hm : h.multi <;> cases secondary <;> rw [hm] at he <;> simp only at he
        · exact triv he
        · exact triv he
        · exact triv he
        · exact recd _ _ he
  | varLen =>
    rw [hk] at he
    simp only at he
    have plain : (match py.truthy values with
        | .error e => (Buffer.empty, (Except.error e : Except Exc Text))
        | .ok false => (Buffer.empty, .ok [])
        | .ok true =>
          match py.items values with
          | .error e => (Buffer.empty, .error e)
          | .ok vs => (Buffer.empty, first vs >>= py.toStr)) = (b, r) →
        (∀ t, r = .ok t → b = .empty) ∧ (∀ e, r = .error e → b = .empty ∨ e = .unicodeError) := by
      intro hx
      cases ht : py.truthy values with
      | error e => rw [ht] at hx; exact triv hx
      | ok bb =>
        rw [ht] at hx
        cases bb with
        | false => exact triv hx
        | true =>
          simp only at hx
          cases hi : py.items values with
          | error e => rw [hi] at hx; exact triv hx
          | ok vs => rw [hi] at hx; exact triv hx
    cases hm : h.multi <;> cases secondary <;> rw [hm] at he <;> simp only at he
    · exact plain he
    · exact plain he
    · exact plain he
    · cases hi : py.items values with
      | error e => rw [hi] at he; exact triv he
      | ok vs => rw [hi] at he; exact recd _ _ he

theorem withName_unicode (name : String) (e : Exc) : withName name e = .unicodeError ↔ e = .unicodeError := by
  cases e <;> simp [withName]

theorem encodeLoop_empty {α : Type} (py : Py α) (secondary : Option Nat) (inst : List (String × α)) :
    ∀ (hs : List Handler) (row : List (Option Text)) (b : Buffer) (r : Except Exc (List (Option Text))),
    encodeLoop py secondary inst hs .empty row = (b, r) →
    (∀ t, r = .ok t → b = .empty) ∧ (∀ e, r = .error e → b = .empty ∨ e = .unicodeError) := by
  intro hs
  induction hs with
  | nil =>
    intro row b r h
    simp only [encodeLoop, Prod.mk.injEq] at h
    obtain ⟨rfl, rfl⟩ := h
    exact ⟨fun _ _ => rfl, by rintro e ⟨⟩⟩
  | cons hd hs ih =>
    intro row b r h
    simp only [encodeLoop] at h
    cases hl : inst.lookup hd.name with
    | none =>
      rw [hl] at h
      simp only [Prod.mk.injEq] at h
      obtain ⟨rfl, rfl⟩ := h
      exact ⟨by rintro t ⟨⟩, fun _ _ => Or.inl rfl⟩
    | some values =>
      rw [hl] at h
      simp only at h
      cases hv : encodeValue py secondary hd .empty values with
      | mk b' r' =>
        have := encodeValue_empty py secondary hd values b' r' hv
        rw [hv] at h
        cases r' with
        | error e =>
          simp only [Prod.mk.injEq] at h
          obtain ⟨rfl, rfl⟩ := h
          refine ⟨by rintro t ⟨⟩, ?_⟩
          rintro e' ⟨⟩
          rcases this.2 e rfl with h1 | h1
          · exact Or.inl h1
          · exact Or.inr ((withName_unicode _ _).2 h1)
        | ok t =>
          simp only at h
          rw [this.1 t rfl] at h
          exact ih _ _ _ h

theorem encode_fresh {α : Type} (py : Py α) (c : Coder) (inst : List (String × α)) (s : State)
    (r : Except Exc Text) (h : encode py c .fresh inst = (s, r)) (hr : r ≠ .error .unicodeError) :
    s = .fresh := by
  unfold encode at h
  simp only [State.fresh] at h
  cases hl : encodeLoop py c.config.secondary inst c.handlers .empty
      (List.replicate c.config.columns.length none) with
  | mk b' r' =>
    have := encodeLoop_empty py _ inst c.handlers _ b' r' hl
    rw [hl] at h
    cases r' with
    | error e =>
      simp only [Prod.mk.injEq] at h
      obtain ⟨rfl, rfl⟩ := h
      rcases this.2 e rfl with h1 | h1
      · rw [h1]; rfl
      · exact absurd (by rw [h1]) hr
    | ok row =>
      simp only [Prod.mk.injEq] at h
      obtain ⟨rfl, rfl⟩ := h
      have h2 := encodeRecord_empty c.config.delimiter
        (row.map (fun t => .ok (t.getD noneText))) _ _ rfl
      rw [this.1 row rfl]
      have hb : (encodeRecord c.config.delimiter .empty
          (row.map (fun t => .ok (t.getD noneText)))).1 = .empty := by
        cases h3 : (encodeRecord c.config.delimiter .empty
            (row.map (fun t => .ok (t.getD noneText)))).2 with
        | ok t =>
          obtain ⟨_, _, _, hb⟩ := h2.1 t h3
          exact hb
        | error e =>
          rcases h2.2 e h3 with h4 | h4
          · exact h4
          · exact absurd (by rw [h3, h4]) hr
      rw [hb]; rfl

/-- **C61, history (partial).** The line of an instance does not depend on the instances that the same
coder encoded or failed to encode before — provided no earlier line failed because it could not be
converted to bytes. Missing: that case, where it is false (`failed_encode_spoils_the_next`). -/
theorem encode_ignores_history_partial {α : Type} (py : Py α) (c : Coder)
    (history : List (List (String × α))) (inst : List (String × α))
    (h : .error .unicodeError ∉ (encodeAll py c .fresh history).2) :
    (encode py c (encodeAll py c .fresh history).1 inst).2 = (encode py c .fresh inst).2 := by
  suffices (encodeAll py c .fresh history).1 = .fresh by rw [this]
  induction history with
  | nil => rfl
  | cons x xs ih =>
    simp only [encodeAll, List.mem_cons, not_or] at h
    have h1 : (encode py c .fresh x).1 = .fresh :=
      encode_fresh py c x _ _ rfl (fun e => h.1 e.symm)
    simp only [encodeAll]
    rw [h1] at h ⊢
    exact ih h.2

/-! ## The fields -/

theorem indexOf_some (columns : List String) (name : String) :
    ∀ i, indexOf columns name = some i → columns[i]? = some name := by
  induction columns with
  | nil => intro i h; cases h
  | cons c cs ih =>
    intro i h
    simp only [indexOf] at h
    cases hi : indexOf cs name with
    | some j =>
      rw [hi] at h
      cases h
      simpa using ih j hi
    | none =>
      rw [hi] at h
      simp only at h
      by_cases hc : c = name
      · rw [if_pos hc] at h; cases h; simp [hc]
      · rw [if_neg hc] at h; cases h

theorem index_ok (columns : List String) (name : String) (i : Nat) (h : index columns name = .ok i) :
    columns[i]? = some name := by
  unfold index at h
  cases hi : indexOf columns name with
  | none => rw [hi] at h; cases h
  | some j => rw [hi] at h; cases h; exact indexOf_some _ _ _ hi

/-- What a handler is for: the column `h.name` of feature `f`. -/
def Serves (cfg : Config) (f : Feature) (h : Handler) : Prop :=
  ∃ declared, Column f h.name declared ∧ cfg.columns[h.index]? = some h.name ∧
    h.multi = cfg.multivalent.contains declared ∧
    (∀ n shape, f = .fixed n shape → h.kind = .fixed shape.length shape.prod) ∧
    ((∀ n shape, f ≠ .fixed n shape) → h.kind = .varLen)

theorem sizeOfShape_eq (shape : List Nat) : sizeOfShape shape = shape.prod := by
  unfold sizeOfShape
  rw [List.prod_eq_foldl]

theorem handlersOf_serves (cfg : Config) (f : Feature) (hs : List Handler)
    (h : handlersOf cfg f = .ok hs) :
    (∀ x ∈ hs, Serves cfg f x) ∧ hs.map Handler.name = columnsOf f := by
  cases f with
  | fixed name shape =>
    simp only [handlersOf] at h
    cases hi : index cfg.columns name with
    | error e => rw [hi] at h; cases h
    | ok i =>
      rw [hi] at h
      cases h
      refine ⟨?_, rfl⟩
      intro x hx
      simp only [List.mem_singleton] at hx
      subst hx
      refine ⟨name, .fixed name shape, index_ok _ _ _ hi, rfl, ?_, ?_⟩
      · rintro n s ⟨⟩; rw [sizeOfShape_eq]
      · intro hn; exact absurd rfl (hn name shape)
  | varLen name =>
    simp only [handlersOf] at h
    cases hi : index cfg.columns name with
    | error e => rw [hi] at h; cases h
    | ok i =>
      rw [hi] at h
      cases h
      refine ⟨?_, rfl⟩
      intro x hx
      simp only [List.mem_singleton] at hx
      subst hx
      exact ⟨name, .varLen name, index_ok _ _ _ hi, rfl, by rintro n s ⟨⟩, fun _ => rfl⟩
  | sparse name keys v =>
    simp only [handlersOf] at h
    cases hq : sequence (keys.map (fun key => do
        let i ← index cfg.columns key
        .ok (⟨key, .varLen, i, cfg.multivalent.contains name⟩ : Handler))) with
    | error e => rw [hq] at h; cases h
    | ok ks =>
      rw [hq] at h
      cases hi : index cfg.columns v with
      | error e =>
        rw [hi] at h; cases h
      | ok i =>
        rw [hi] at h
        cases h
        have hk := sequence_ok _ _ hq
        have hall : ∀ (l : List String) (m : List Handler),
            List.Forall₂ (fun x y => x = Except.ok y) (l.map (fun key => (do
              let i ← index cfg.columns key
              .ok (⟨key, .varLen, i, cfg.multivalent.contains name⟩ : Handler) :
                Except Exc Handler))) m →
            m.map Handler.name = l ∧ ∀ x ∈ m, x.name ∈ l ∧ cfg.columns[x.index]? = some x.name ∧
              x.multi = cfg.multivalent.contains name ∧ x.kind = .varLen := by
          intro l
          induction l with
          | nil => intro m hm; cases hm; simp
          | cons k l ih =>
            intro m hm
            cases hm with
            | cons h1 h2 =>
              rename_i b m'
              obtain ⟨i1, i2⟩ := ih _ h2
              simp only at h1
              cases hi : index cfg.columns k with
              | error e => rw [hi] at h1; cases h1
              | ok i =>
                rw [hi] at h1
                cases h1
                refine ⟨by simp [i1], ?_⟩
                intro x hx
                rcases List.mem_cons.1 hx with rfl | hx
                · exact ⟨List.mem_cons_self .., index_ok _ _ _ hi, rfl, rfl⟩
                · obtain ⟨j1, j2⟩ := i2 x hx
                  exact ⟨List.mem_cons_of_mem _ j1, j2⟩
        obtain ⟨h1, h2⟩ := hall _ _ hk
        refine ⟨?_, by simp [h1, columnsOf]⟩
        intro x hx
        rcases List.mem_append.1 hx with hx | hx
        · obtain ⟨j1, j2, j3, j4⟩ := h2 x hx
          exact ⟨name, .index name keys v _ j1, j2, j3, by rintro n s ⟨⟩, fun _ => j4⟩
        · simp only [List.mem_singleton] at hx
          subst hx
          exact ⟨name, .value name keys v, index_ok _ _ _ hi, rfl, by rintro n s ⟨⟩, fun _ => rfl⟩
  | other name => cases h

theorem make_serves (cfg : Config) (c : Coder) (h : make cfg = .ok c) :
    c.config = cfg ∧ (cfg.multivalent ≠ [] → ∃ s, cfg.secondary = some s) ∧
    (∀ x ∈ c.handlers, ∃ f ∈ cfg.spec, Serves cfg f x) ∧
    c.handlers.map Handler.name = cfg.spec.flatMap columnsOf := by
  unfold make at h
  by_cases hm : cfg.secondary = none ∧ cfg.multivalent ≠ []
  · rw [if_pos hm] at h; cases h
  · rw [if_neg hm] at h
    cases hs : sequence (cfg.spec.map (handlersOf cfg)) with
    | error e => rw [hs] at h; cases h
    | ok hss =>
      rw [hs] at h
      cases h
      have hk := sequence_ok _ _ hs
      have hall : ∀ (l : List Feature) (m : List (List Handler)),
          List.Forall₂ (fun x y => x = Except.ok y) (l.map (handlersOf cfg)) m →
          (∀ x ∈ m.flatten, ∃ f ∈ l, Serves cfg f x) ∧
          m.flatten.map Handler.name = l.flatMap columnsOf := by
        intro l
        induction l with
        | nil => intro m hm; cases hm; simp
        | cons f l ih =>
          intro m hm
          cases hm with
          | cons h1 h2 =>
            rename_i b m'
            obtain ⟨i1, i2⟩ := ih _ h2
            obtain ⟨j1, j2⟩ := handlersOf_serves cfg f b h1
            refine ⟨?_, by simp [i2, j2]⟩
            intro x hx
            simp only [List.flatten_cons, List.mem_append] at hx
            rcases hx with hx | hx
            · exact ⟨f, List.mem_cons_self .., j1 x hx⟩
            · obtain ⟨g, hg, hs⟩ := i1 x hx
              exact ⟨g, List.mem_cons_of_mem _ hg, hs⟩
      obtain ⟨h1, h2⟩ := hall _ _ hk
      refine ⟨rfl, ?_, h1, h2⟩
      intro hne
      cases hsec : cfg.secondary with
      | none => exact absurd ⟨hsec, hne⟩ hm
      | some s => exact ⟨s, rfl⟩

/-- What the loop over the handlers leaves in the row. -/
theorem encodeLoop_ok {α : Type} (py : Py α) (secondary : Option Nat) (inst : List (String × α)) :
    ∀ (hs : List Handler) (row : List (Option Text)) (b : Buffer) (row' : List (Option Text)),
    (hs.map Handler.index).Nodup → (∀ h ∈ hs, h.index < row.length) →
    encodeLoop py secondary inst hs .empty row = (b, .ok row') →
    row'.length = row.length ∧
    (∀ h ∈ hs, ∃ v t b', inst.lookup h.name = some v ∧
      encodeValue py secondary h .empty v = (b', .ok t) ∧ row'[h.index]? = some (some t)) ∧
    (∀ i : Nat, (∀ h ∈ hs, h.index ≠ i) → row'[i]? = row[i]?) := by
  intro hs
  induction hs with
  | nil =>
    intro row b row' _ _ h
    simp only [encodeLoop, Prod.mk.injEq, Except.ok.injEq] at h
    obtain ⟨_, rfl⟩ := h
    simp
  | cons hd hs ih =>
    intro row b row' hn hlt h
    simp only [encodeLoop] at h
    cases hl : inst.lookup hd.name with
    | none => rw [hl] at h; simp at h
    | some v =>
      rw [hl] at h
      simp only at h
      cases hv : encodeValue py secondary hd .empty v with
      | mk b' r' =>
        rw [hv] at h
        cases r' with
        | error e => simp at h
        | ok t =>
          have hb := (encodeValue_empty py secondary hd v b' (.ok t) hv).1 t rfl
          subst hb
          simp only at h
          simp only [List.map_cons, List.nodup_cons, List.mem_map, not_exists, not_and] at hn
          obtain ⟨i1, i2, i3⟩ := ih _ _ _ hn.2 (by
            intro x hx
            simpa using hlt x (List.mem_cons_of_mem _ hx)) h
          have hdlt := hlt hd (List.mem_cons_self ..)
          refine ⟨by simpa using i1, ?_, ?_⟩
          · intro x hx
            rcases List.mem_cons.1 hx with rfl | hx
            · refine ⟨v, t, _, hl, hv, ?_⟩
              rw [i3 x.index (fun y hy => hn.1 y hy)]
              simp [hdlt]
            · exact i2 x hx
          · intro i hi
            rw [i3 i (fun y hy => hi y (List.mem_cons_of_mem _ hy))]
            exact List.getElem?_set_ne (hi hd (List.mem_cons_self ..))

theorem flattened_values {α : Type} (py : Py α) (n : String) (shape : List Nat) (v : α) (vs : List α)
    (h : flattened py shape.length v = .ok vs) : Values py (.fixed n shape) v vs := by
  unfold flattened at h
  match shape with
  | [] => simp only [List.length_nil, if_true, Except.ok.injEq] at h; exact h.symm
  | [a] => simpa [Values] using h
  | a :: b :: l => simpa [Values] using h

theorem first_bind {α : Type} (py : Py α) (vs : List α) (t : Text)
    (h : (first vs >>= py.toStr) = .ok t) :
    (∀ x xs, vs = x :: xs → py.toStr x = .ok t) ∧ vs ≠ [] := by
  cases vs with
  | nil => cases h
  | cons x xs =>
    refine ⟨?_, by simp⟩
    rintro y ys ⟨⟩
    exact h

theorem forall₂_map_ok {α : Type} (py : Py α) : ∀ (vs : List α) (ts : List Text),
    List.Forall₂ (fun x y => x = Except.ok y) (vs.map py.toStr) ts →
    List.Forall₂ (fun x t => py.toStr x = .ok t) vs ts := by
  intro vs
  induction vs with
  | nil => intro ts h; cases h; exact .nil
  | cons v vs ih =>
    intro ts h
    cases h with
    | cons h1 h2 => exact .cons h1 (ih _ h2)

/-- What a handler writes shows the value of its column. -/
theorem encodeValue_shows {α : Type} (py : Py α) (cfg : Config) (inst : List (String × α))
    (hlists : ListsOnly py cfg inst) (hsec : ∀ s, cfg.secondary = some s → Delimiter s)
    (hm : cfg.multivalent ≠ [] → ∃ s, cfg.secondary = some s)
    (f : Feature) (hf : f ∈ cfg.spec) (h : Handler) (declared : String) (hcol : Column f h.name declared)
    (hmulti : h.multi = cfg.multivalent.contains declared)
    (hfixed : ∀ n shape, f = .fixed n shape → h.kind = .fixed shape.length shape.prod)
    (hvar : (∀ n shape, f ≠ .fixed n shape) → h.kind = .varLen)
    (v : α) (t : Text) (b : Buffer) (hv : inst.lookup h.name = some v)
    (he : encodeValue py cfg.secondary h .empty v = (b, .ok t)) :
    Shows py cfg inst f h.name declared t := by
  have hrec : ∀ (s : Nat) (vs : List α) , cfg.secondary = some s →
      encodeRecord s .empty (vs.map py.toStr) = (b, .ok t) →
      ∃ s texts, cfg.secondary = some s ∧
        List.Forall₂ (fun x t => py.toStr x = .ok t) vs texts ∧ readRecord s t = some texts := by
    intro s vs hs hr
    obtain ⟨fs, h1, h2, _⟩ := (encodeRecord_empty s _ b _ hr).1 t rfl
    exact ⟨s, fs, hs, forall₂_map_ok py _ _ (sequence_ok _ _ h1),
      by rw [h2]; exact row_round_trip s (hsec s hs) fs⟩
  unfold encodeValue at he
  by_cases hff : ∃ n shape, f = .fixed n shape
  · obtain ⟨n, shape, rfl⟩ := hff
    rw [hfixed n shape rfl] at he
    simp only at he
    cases hfl : flattened py shape.length v with
    | error e => rw [hfl] at he; simp at he
    | ok vs =>
      rw [hfl] at he
      simp only at he
      by_cases hl : vs.length ≠ shape.prod
      · rw [if_pos hl] at he; simp at he
      · rw [if_neg hl] at he
        refine ⟨v, vs, hv, flattened_values py n shape v vs hfl, not_not.1 hl, ?_, ?_⟩
        · intro hd
          obtain ⟨s, hs⟩ := hm (List.ne_nil_of_mem hd)
          have hmt : h.multi = true := by rw [hmulti]; simpa using hd
          rw [hmt, hs] at he
          exact hrec s vs hs he
        · intro hd
          have hmt : h.multi = false := by rw [hmulti]; simpa using hd
          rw [hmt] at he
          simp only [Prod.mk.injEq] at he
          obtain ⟨h1, h2⟩ := first_bind py vs t he.2
          exact ⟨h1, fun h => absurd h h2⟩
  · have hk := hvar (fun n shape e => hff ⟨n, shape, e⟩)
    rw [hk] at he
    simp only at he
    have hvals : ∀ vs, py.items v = .ok vs → Values py f v vs := by
      intro vs hi
      cases f with
      | fixed n s => exact absurd ⟨n, s, rfl⟩ hff
      | varLen n => exact hi
      | sparse n k w => exact hi
      | other n => exact hi
    have hcnt : ∀ n, Count f n := by
      intro n
      cases f with
      | fixed n s => exact absurd ⟨n, s, rfl⟩ hff
      | varLen n => trivial
      | sparse n k w => trivial
      | other n => trivial
    by_cases hd : declared ∈ cfg.multivalent
    · obtain ⟨s, hs⟩ := hm (List.ne_nil_of_mem hd)
      have hmt : h.multi = true := by rw [hmulti]; simpa using hd
      rw [hmt, hs] at he
      simp only at he
      cases hi : py.items v with
      | error e => rw [hi] at he; simp at he
      | ok vs =>
        rw [hi] at he
        exact ⟨v, vs, hv, hvals vs hi, hcnt _, fun _ => hrec s vs hs he, fun h => absurd hd h⟩
    · have hmt : h.multi = false := by rw [hmulti]; simpa using hd
      rw [hmt] at he
      simp only at he
      obtain ⟨vs, hi, ht⟩ := hlists f hf h.name declared v (fun n shape e => hff ⟨n, shape, e⟩) hcol hd hv
      rw [ht, hi] at he
      refine ⟨v, vs, hv, hvals vs hi, hcnt _, fun h => absurd h hd, fun _ => ?_⟩
      cases vs with
      | nil =>
        simp only [List.isEmpty_nil, Bool.not_true, Prod.mk.injEq, Except.ok.injEq] at he
        exact ⟨(by rintro x xs ⟨⟩), fun _ => he.2.symm⟩
      | cons x xs =>
        simp only [List.isEmpty_cons, Bool.not_false, Prod.mk.injEq] at he
        obtain ⟨h1, h2⟩ := first_bind py (x :: xs) t he.2
        exact ⟨h1, fun h => absurd h h2⟩

theorem index_inj (columns : List String) (hs : List Handler) (hn : (hs.map Handler.name).Nodup)
    (hc : ∀ h ∈ hs, columns[h.index]? = some h.name) : (hs.map Handler.index).Nodup := by
  induction hs with
  | nil => simp
  | cons h hs ih =>
    simp only [List.map_cons, List.nodup_cons, List.mem_map, not_exists, not_and] at hn ⊢
    refine ⟨?_, ih hn.2 (fun x hx => hc x (List.mem_cons_of_mem _ hx))⟩
    intro x hx e
    apply hn.1 x hx
    have h1 := hc x (List.mem_cons_of_mem _ hx)
    rw [e, hc h (List.mem_cons_self ..)] at h1
    exact (Option.some.inj h1).symm

theorem column_mem (f : Feature) (column declared : String) (h : Column f column declared) :
    column ∈ columnsOf f := by
  cases h <;> simp_all [columnsOf]

theorem column_declared (f : Feature) (column d1 d2 : String) (h1 : Column f column d1)
    (h2 : Column f column d2) : d1 = d2 := by
  cases h1 <;> cases h2 <;> rfl

theorem feature_unique (l : List Feature) (hn : (l.flatMap columnsOf).Nodup) (f g : Feature)
    (hf : f ∈ l) (hg : g ∈ l) (column : String) (h1 : column ∈ columnsOf f)
    (h2 : column ∈ columnsOf g) : f = g := by
  induction l with
  | nil => cases hf
  | cons a l ih =>
    simp only [List.flatMap_cons, List.nodup_append] at hn
    rcases List.mem_cons.1 hf with hfa | hf'
    · rcases List.mem_cons.1 hg with hga | hg'
      · rw [hfa, hga]
      · rw [hfa] at h1
        exact absurd rfl (hn.2.2 column h1 column (List.mem_flatMap.2 ⟨g, hg', h2⟩))
    · rcases List.mem_cons.1 hg with hga | hg'
      · rw [hga] at h2
        exact absurd rfl (hn.2.2 column h2 column (List.mem_flatMap.2 ⟨f, hf', h1⟩))
      · exact ih hn.2.1 hf' hg'

/-- **C61, the line (partial).** The line of an instance, read by a CSV reader, has exactly one field
per column, in the order of `column_names`. The field of every column that the schema describes shows
that column's value: all its values for a multivalent column, its first value otherwise. Missing: the
other values of a column that is not declared multivalent are not in the line
(`extra_values_are_dropped`), and columns that the schema does not describe read `None`
(`uncovered_column_reads_None`); an array in place of a list may lose a zero (`zero_is_dropped`). -/
theorem line_round_trip_partial {α : Type} (py : Py α) (cfg : Config) (c : Coder)
    (hmake : make cfg = .ok c) (hd : Delimiter cfg.delimiter)
    (hsec : ∀ s, cfg.secondary = some s → Delimiter s)
    (hcols : cfg.columns.Nodup) (hnames : (cfg.spec.flatMap columnsOf).Nodup)
    (inst : List (String × α)) (hlists : ListsOnly py cfg inst) (line : Text)
    (h : (encode py c .fresh inst).2 = .ok line) :
    ∃ fields, readRecord cfg.delimiter line = some fields ∧ fields.length = cfg.columns.length ∧
      ∀ (i : Nat) (column : String), cfg.columns[i]? = some column → ∃ field, fields[i]? = some field ∧
        (∀ f ∈ cfg.spec, ∀ declared, Column f column declared →
          Shows py cfg inst f column declared field) ∧
        ((∀ f ∈ cfg.spec, ∀ declared, ¬ Column f column declared) → field = noneText) := by
  obtain ⟨hcfg, hm, hserve, hmapnames⟩ := make_serves cfg c hmake
  have hix : ∀ x ∈ c.handlers, cfg.columns[x.index]? = some x.name := by
    intro x hx
    obtain ⟨f, _, _, _, h1, _⟩ := hserve x hx
    exact h1
  have hnd := index_inj cfg.columns c.handlers (by rw [hmapnames]; exact hnames) hix
  unfold encode at h
  rw [hcfg] at h
  simp only [State.fresh] at h
  cases hl : encodeLoop py cfg.secondary inst c.handlers .empty
      (List.replicate cfg.columns.length none) with
  | mk b' r' =>
    rw [hl] at h
    cases r' with
    | error e => simp at h
    | ok row =>
      simp only at h
      obtain ⟨fs, h1, h2, _⟩ := (encodeRecord_empty cfg.delimiter _ _ _ rfl).1 line h
      have hfs : fs = row.map (fun t => t.getD noneText) := by
        have := sequence_map_ok (row.map (fun t => t.getD noneText))
        rw [List.map_map] at this
        have h3 : sequence (row.map (fun t => (Except.ok (t.getD noneText) : Except Exc Text))) = .ok fs := h1
        have h4 : sequence (row.map (fun t => (Except.ok (t.getD noneText) : Except Exc Text))) =
          .ok (row.map (fun t => t.getD noneText)) := this
        rw [h3] at h4
        exact Except.ok.inj h4
      obtain ⟨l1, l2, l3⟩ := encodeLoop_ok py cfg.secondary inst c.handlers _ _ _ hnd (by
        intro x hx
        have := hix x hx
        rw [List.getElem?_eq_some_iff] at this
        obtain ⟨hlt, _⟩ := this
        simpa using hlt) hl
      refine ⟨fs, ?_, ?_, ?_⟩
      · rw [h2]; exact row_round_trip _ hd fs
      · rw [hfs]; simpa using l1
      · intro i column hi
        have hilt : i < cfg.columns.length := by
          rw [List.getElem?_eq_some_iff] at hi
          exact hi.1
        have hrow : ∃ o, row[i]? = some o := by
          have : i < row.length := by rw [l1]; simpa using hilt
          exact ⟨row[i], List.getElem?_eq_getElem this⟩
        obtain ⟨o, ho⟩ := hrow
        refine ⟨o.getD noneText, by rw [hfs]; simp [ho], ?_, ?_⟩
        · intro f hf declared hcol
          have hmem : column ∈ c.handlers.map Handler.name := by
            rw [hmapnames]
            exact List.mem_flatMap.2 ⟨f, hf, column_mem f column declared hcol⟩
          obtain ⟨x, hx, hxn⟩ := List.mem_map.1 hmem
          have hxi : x.index = i := by
            have h3 := hix x hx
            rw [hxn, ← hi] at h3
            exact (List.getElem?_inj (by
              have := hix x hx
              rw [List.getElem?_eq_some_iff] at this
              exact this.1) hcols).1 h3
          obtain ⟨v, t, bb, hv, het, hrt⟩ := l2 x hx
          rw [hxi, ho] at hrt
          have hot : o = some t := Option.some.inj hrt
          obtain ⟨g, hg, declared', hc, _, hmu, hfx, hva⟩ := hserve x hx
          have hgf : g = f := feature_unique cfg.spec hnames g f hg hf column
            (by rw [← hxn]; exact column_mem g _ _ hc) (column_mem f _ _ hcol)
          subst hgf
          subst hxn
          have hdd : declared' = declared := column_declared g _ _ _ hc hcol
          subst hdd
          rw [hot]
          exact encodeValue_shows py cfg inst hlists hsec hm g hg x declared' hc hmu hfx hva v t bb hv het
        · intro hno
          have : ∀ x ∈ c.handlers, x.index ≠ i := by
            intro x hx e
            obtain ⟨f, hf, declared, hc, h3, _⟩ := hserve x hx
            rw [e, hi] at h3
            have : column = x.name := Option.some.inj h3
            exact hno f hf declared (by rw [this]; exact hc)
          have h4 := l3 i this
          rw [ho] at h4
          have : o = none := by
            rw [List.getElem?_replicate] at h4
            rw [if_pos hilt] at h4
            exact Option.some.inj h4
          rw [this]; rfl

/-! ## Instances that are accepted -/

/-- No lone surrogates. -/
def Clean (t : Text) : Prop := t.any isSurrogate = false

theorem clean_append (s t : Text) : Clean (s ++ t) ↔ Clean s ∧ Clean t := by
  simp [Clean, List.any_append]

theorem clean_cons (c : Nat) (t : Text) : Clean (c :: t) ↔ isSurrogate c = false ∧ Clean t := by
  simp [Clean]

theorem clean_double (t : Text) (h : Clean t) : Clean (double t) := by
  induction t with
  | nil => rfl
  | cons c t ih =>
    rw [clean_cons] at h
    simp only [double]
    by_cases hc : (c == quote) = true
    · rw [if_pos hc]
      exact (clean_cons _ _).2 ⟨rfl, (clean_cons _ _).2 ⟨rfl, ih h.2⟩⟩
    · rw [if_neg hc]
      exact (clean_cons _ _).2 ⟨h.1, ih h.2⟩

theorem clean_writeField (d : Nat) (t : Text) (h : Clean t) : Clean (writeField d t) := by
  unfold writeField
  by_cases hq : needsQuotes d t = true
  · rw [if_pos hq]
    exact (clean_cons _ _).2 ⟨rfl, (clean_append _ _).2 ⟨clean_double t h, rfl⟩⟩
  · rw [if_neg hq]; exact h

theorem clean_join (d : Nat) (hd : isSurrogate d = false) (fs : List Text) (h : ∀ f ∈ fs, Clean f) :
    Clean (joinFields d fs) := by
  induction fs with
  | nil => rfl
  | cons f fs ih =>
    have hf := clean_writeField d f (h f (List.mem_cons_self ..))
    have hi := ih (fun g hg => h g (List.mem_cons_of_mem _ hg))
    cases fs with
    | nil => exact hf
    | cons g fs => exact (clean_append _ _).2 ⟨hf, (clean_cons _ _).2 ⟨hd, hi⟩⟩

theorem clean_writeRow (d : Nat) (hd : isSurrogate d = false) (fs : List Text)
    (h : ∀ f ∈ fs, Clean f) : Clean (writeRow d fs) := by
  unfold writeRow
  simp only
  by_cases hc : (!fs.isEmpty && (joinFields d fs).isEmpty) = true
  · rw [if_pos hc]; rfl
  · rw [if_neg hc]; exact clean_join d hd fs h

theorem encodeRecord_clean (d : Nat) (hd : isSurrogate d = false) (fs : List Text)
    (h : ∀ f ∈ fs, Clean f) (record : List (Except Exc Text)) (hs : sequence record = .ok fs) :
    ∃ t, encodeRecord d .empty record = (.empty, .ok t) ∧ Clean t := by
  have hc := clean_writeRow d hd fs h
  refine ⟨writeRow d fs, ?_, hc⟩
  unfold encodeRecord
  rw [hs]
  simp only [write_empty]
  rw [if_neg (by rw [hc]; simp)]
  simp [Buffer.seek, Buffer.truncate, Buffer.empty]

theorem sequence_of_forall₂ {α : Type} (py : Py α) (vs : List α) (ts : List Text)
    (h : List.Forall₂ (fun x t => py.toStr x = .ok t) vs ts) :
    sequence (vs.map py.toStr) = .ok ts := by
  induction h with
  | nil => rfl
  | cons h1 _ ih => simp only [List.map_cons, h1, sequence, ih]

namespace Spec

/-- UTF-8 can express the character: it is not a surrogate. -/
def Encodable (c : Nat) : Prop := c < 0xD800 ∨ 0xDFFF < c

/-- The instance has an acceptable value for the column: as many values as the schema says, all
convertible to text that UTF-8 can express, and at least one when the feature has a fixed length and is
not declared multivalent. -/
def Acceptable {α : Type} (py : Py α) (cfg : Config) (inst : List (String × α)) (f : Feature)
    (column declared : String) : Prop :=
  ∃ v vs texts, inst.lookup column = some v ∧ Values py f v vs ∧ Count f vs.length ∧
    List.Forall₂ (fun x t => py.toStr x = .ok t) vs texts ∧ (∀ t ∈ texts, ∀ c ∈ t, Encodable c) ∧
    (declared ∉ cfg.multivalent → (∃ n shape, f = .fixed n shape) → vs ≠ [])

end Spec

theorem not_surrogate (c : Nat) (h : Encodable c) : isSurrogate c = false := by
  simp only [isSurrogate, Bool.and_eq_false_iff, decide_eq_false_iff_not]
  rcases h with h | h <;> omega

theorem clean_of_encodable (t : Text) (h : ∀ c ∈ t, Encodable c) : Clean t := by
  unfold Clean
  rw [List.any_eq_false]
  intro c hc
  rw [not_surrogate c (h c hc)]
  simp

theorem values_flattened {α : Type} (py : Py α) (n : String) (shape : List Nat) (v : α) (vs : List α)
    (h : Values py (.fixed n shape) v vs) : flattened py shape.length v = .ok vs := by
  unfold flattened
  match shape with
  | [] => simp only [List.length_nil, if_true, Except.ok.injEq]; exact h.symm
  | [a] => simpa [Values] using h
  | a :: b :: l => simpa [Values] using h

theorem first_ok {α : Type} (py : Py α) (vs : List α) (texts : List Text) (hne : vs ≠ [])
    (h : List.Forall₂ (fun x t => py.toStr x = .ok t) vs texts) (hc : ∀ t ∈ texts, Clean t) :
    ∃ t, (first vs >>= py.toStr) = .ok t ∧ Clean t := by
  cases h with
  | nil => exact absurd rfl hne
  | cons h1 h2 => exact ⟨_, h1, hc _ (List.mem_cons_self ..)⟩

theorem encodeValue_ok {α : Type} (py : Py α) (cfg : Config) (inst : List (String × α))
    (hlists : ListsOnly py cfg inst) (hsec : ∀ s, cfg.secondary = some s → isSurrogate s = false)
    (hm : cfg.multivalent ≠ [] → ∃ s, cfg.secondary = some s)
    (f : Feature) (hf : f ∈ cfg.spec) (h : Handler) (declared : String)
    (hcol : Column f h.name declared) (hmulti : h.multi = cfg.multivalent.contains declared)
    (hfixed : ∀ n shape, f = .fixed n shape → h.kind = .fixed shape.length shape.prod)
    (hvar : (∀ n shape, f ≠ .fixed n shape) → h.kind = .varLen)
    (hacc : Acceptable py cfg inst f h.name declared) :
    ∃ v t, inst.lookup h.name = some v ∧
      encodeValue py cfg.secondary h .empty v = (.empty, .ok t) ∧ Clean t := by
  obtain ⟨v, vs, texts, hv, hvals, hcnt, hts, henc, hne⟩ := hacc
  have hclean : ∀ t ∈ texts, Clean t := fun t ht => clean_of_encodable t (henc t ht)
  have hseq := sequence_of_forall₂ py vs texts hts
  unfold encodeValue
  by_cases hff : ∃ n shape, f = .fixed n shape
  · obtain ⟨n, shape, rfl⟩ := hff
    rw [hfixed n shape rfl]
    have hfl := values_flattened py n shape v vs hvals
    have hlen : ¬ vs.length ≠ shape.prod := not_not.2 hcnt
    by_cases hd : declared ∈ cfg.multivalent
    · obtain ⟨s, hs⟩ := hm (List.ne_nil_of_mem hd)
      have hmt : h.multi = true := by rw [hmulti]; simpa using hd
      obtain ⟨t, h1, h2⟩ := encodeRecord_clean s (hsec s hs) texts hclean _ hseq
      refine ⟨v, t, hv, ?_, h2⟩
      simp only [hfl, hmt, hs]
      rw [if_neg hlen]
      exact h1
    · have hmt : h.multi = false := by rw [hmulti]; simpa using hd
      obtain ⟨t, h1, h2⟩ := first_ok py vs texts (hne hd ⟨n, shape, rfl⟩) hts hclean
      refine ⟨v, t, hv, ?_, h2⟩
      simp only [hfl, hmt]
      rw [if_neg hlen, h1]
  · rw [hvar (fun n shape e => hff ⟨n, shape, e⟩)]
    have hi : py.items v = .ok vs := by
      cases f with
      | fixed n s => exact absurd ⟨n, s, rfl⟩ hff
      | varLen n => exact hvals
      | sparse n k w => exact hvals
      | other n => exact hvals
    by_cases hd : declared ∈ cfg.multivalent
    · obtain ⟨s, hs⟩ := hm (List.ne_nil_of_mem hd)
      have hmt : h.multi = true := by rw [hmulti]; simpa using hd
      obtain ⟨t, h1, h2⟩ := encodeRecord_clean s (hsec s hs) texts hclean _ hseq
      exact ⟨v, t, hv, by simp only [hmt, hs, hi]; exact h1, h2⟩
    · have hmt : h.multi = false := by rw [hmulti]; simpa using hd
      obtain ⟨vs', hi', ht⟩ := hlists f hf h.name declared v (fun n shape e => hff ⟨n, shape, e⟩) hcol hd hv
      rw [hi] at hi'
      have : vs = vs' := Except.ok.inj hi'
      subst this
      cases vs with
      | nil => exact ⟨v, [], hv, by simp [hmt, ht], rfl⟩
      | cons x xs =>
        obtain ⟨t, h1, h2⟩ := first_ok py (x :: xs) texts (by simp) hts hclean
        exact ⟨v, t, hv, by simp [hmt, ht, hi, h1], h2⟩

theorem encodeLoop_succeeds {α : Type} (py : Py α) (secondary : Option Nat) (inst : List (String × α)) :
    ∀ (hs : List Handler) (row : List (Option Text)), (∀ t, some t ∈ row → Clean t) →
    (∀ h ∈ hs, ∃ v t, inst.lookup h.name = some v ∧
      encodeValue py secondary h .empty v = (.empty, .ok t) ∧ Clean t) →
    ∃ row', encodeLoop py secondary inst hs .empty row = (.empty, .ok row') ∧
      (∀ t, some t ∈ row' → Clean t) := by
  intro hs
  induction hs with
  | nil => intro row hrow _; exact ⟨row, rfl, hrow⟩
  | cons h hs ih =>
    intro row hrow hall
    obtain ⟨v, t, hv, he, hc⟩ := hall h (List.mem_cons_self ..)
    simp only [encodeLoop, hv, he]
    refine ih _ ?_ (fun x hx => hall x (List.mem_cons_of_mem _ hx))
    intro u hu
    rcases List.mem_or_eq_of_mem_set hu with h1 | h1
    · exact hrow u h1
    · rw [Option.some.inj h1]; exact hc

/-- **C61, acceptance.** Every instance with acceptable values for all columns that the schema describes
is encoded. -/
theorem acceptable_instances_are_encoded {α : Type} (py : Py α) (cfg : Config) (c : Coder)
    (hmake : make cfg = .ok c) (hd : Encodable cfg.delimiter)
    (hsec : ∀ s, cfg.secondary = some s → Encodable s)
    (inst : List (String × α)) (hlists : ListsOnly py cfg inst)
    (hacc : ∀ f ∈ cfg.spec, ∀ column declared, Column f column declared →
      Acceptable py cfg inst f column declared) :
    ∃ line, (encode py c .fresh inst).2 = .ok line := by
  obtain ⟨hcfg, hm, hserve, _⟩ := make_serves cfg c hmake
  obtain ⟨row, h1, h2⟩ := encodeLoop_succeeds py cfg.secondary inst c.handlers
    (List.replicate cfg.columns.length none) (by simp [List.mem_replicate]) (by
      intro x hx
      obtain ⟨f, hf, declared, hcol, _, hmu, hfx, hva⟩ := hserve x hx
      exact encodeValue_ok py cfg inst hlists (fun s hs => not_surrogate s (hsec s hs)) hm f hf x declared hcol hmu hfx hva
        (hacc f hf x.name declared hcol))
  have hseq : sequence (row.map (fun t => (Except.ok (t.getD noneText) : Except Exc Text))) =
      .ok (row.map (fun t => t.getD noneText)) := by
    have := sequence_map_ok (row.map (fun t => t.getD noneText))
    rw [List.map_map] at this
    exact this
  obtain ⟨t, h3, _⟩ := encodeRecord_clean cfg.delimiter (not_surrogate _ hd) _ (by
    intro g hg
    obtain ⟨o, ho, rfl⟩ := List.mem_map.1 hg
    cases o with
    | none => rfl
    | some u => exact h2 u ho) _ hseq
  refine ⟨t, ?_⟩
  unfold encode
  rw [hcfg]
  simp only [State.fresh, h1, h3]

/-- **C61, errors.** A feature of fixed length with the wrong number of values is rejected: an instance
for which a line is written has the number of values that the schema says for every such feature. -/
theorem fixed_length_is_checked {α : Type} (py : Py α) (cfg : Config) (c : Coder)
    (hmake : make cfg = .ok c) (hd : Delimiter cfg.delimiter)
    (hsec : ∀ s, cfg.secondary = some s → Delimiter s)
    (hcols : cfg.columns.Nodup) (hnames : (cfg.spec.flatMap columnsOf).Nodup)
    (inst : List (String × α)) (hlists : ListsOnly py cfg inst) (line : Text)
    (h : (encode py c .fresh inst).2 = .ok line) (name : String) (shape : List Nat)
    (hf : Feature.fixed name shape ∈ cfg.spec) (hc : name ∈ cfg.columns) :
    ∃ v vs, inst.lookup name = some v ∧ Values py (.fixed name shape) v vs ∧ vs.length = shape.prod := by
  obtain ⟨fields, _, _, hall⟩ := line_round_trip_partial py cfg c hmake hd hsec hcols hnames inst hlists line h
  obtain ⟨i, hi, hi'⟩ := List.getElem_of_mem hc
  obtain ⟨field, _, hs, _⟩ := hall i name (by rw [List.getElem?_eq_getElem hi, hi'])
  obtain ⟨v, vs, h1, h2, h3, _⟩ := hs _ hf name (.fixed name shape)
  exact ⟨v, vs, h1, h2, h3⟩

/-- **C61, construction.** A coder is only made when every column that the schema needs is among the
column names, and multivalent columns come with a secondary delimiter. -/
theorem construction_is_checked (cfg : Config) (c : Coder) (h : make cfg = .ok c) :
    (∀ f ∈ cfg.spec, ∀ column declared, Column f column declared → column ∈ cfg.columns) ∧
    (cfg.multivalent ≠ [] → cfg.secondary ≠ none) := by
  obtain ⟨_, h1, h2, h3⟩ := make_serves cfg c h
  constructor
  · intro f hf column declared hc
    have : column ∈ c.handlers.map Handler.name := by
      rw [h3]; exact List.mem_flatMap.2 ⟨f, hf, column_mem f column declared hc⟩
    obtain ⟨x, hx, rfl⟩ := List.mem_map.1 this
    obtain ⟨_, _, _, _, h4, _⟩ := h2 x hx
    exact List.mem_of_getElem? h4
  · intro hne e
    obtain ⟨s, hs⟩ := h1 hne
    rw [e] at hs
    cases hs

/-! ## Counterexamples and non-vacuity -/

namespace Example

/-- Python objects for the examples: text, integers, `None`, lists and one-dimensional arrays of
integers. -/
inductive Obj
  | text (t : Text)
  | int (n : Nat)
  | list (l : List Nat)
  | texts (l : List Text)
  | array (l : List Nat)
  deriving DecidableEq

/-- The decimal digits of small numbers, enough for the examples. -/
def digit (n : Nat) : Text := [48 + n]

/-- `str`, iteration, `bool` and flattening of the example objects. -/
def py : Py Obj where
  toStr
    | .text t => .ok t
    | .int n => .ok (digit n)
    | _ => .error (.other "not used")
  items
    | .list l => .ok (l.map .int)
    | .texts l => .ok (l.map .text)
    | .array l => .ok (l.map .int)
    | .text t => .ok (t.map (fun c => .text [c]))
    | .int _ => .error (.typeError none)
  truthy
    | .text t => .ok !t.isEmpty
    | .int n => .ok (n != 0)
    | .list l => .ok !l.isEmpty
    | .texts l => .ok !l.isEmpty
    | .array [] => .ok false
    | .array [n] => .ok (n != 0)
    | .array _ => .error (.valueError "The truth value of an array is ambiguous")
  flatten
    | .list l => .ok (l.map .int)
    | .array l => .ok (l.map .int)
    | _ => .error (.other "not used")

/-- Four columns: a scalar, a vector of two, a multivalent column, and a column that the schema does not
describe. Delimiters `,` and `|`. -/
def cfg : Config where
  columns := ["id", "unknown", "tags", "pair"]
  spec := [.fixed "id" [], .varLen "tags", .fixed "pair" [2]]
  delimiter := 44
  secondary := some 124
  multivalent := ["tags"]

/-- The coder of `cfg`. -/
def coder : Coder := ⟨cfg, [⟨"id", .fixed 0 1, 0, false⟩, ⟨"tags", .varLen, 2, true⟩,
  ⟨"pair", .fixed 1 2, 3, false⟩]⟩

theorem make_cfg : make cfg = .ok coder := by
  simp [make, cfg, sequence, handlersOf, index, indexOf, coder, sizeOfShape]
  rfl

/-- An instance with quotes and both delimiters in its texts. -/
def inst : List (String × Obj) :=
  [("id", .text [97, 44, 34]), ("tags", .texts [[98, 124], [], [34]]), ("pair", .list [1, 2])]

example : (encode py coder .fresh inst).2.toOption = some
    ([34, 97, 44, 34, 34, 34] ++ [44] ++ noneText ++ [44] ++
      ([34] ++ [34, 34, 98, 124, 34, 34] ++ [124] ++ [124] ++
        [34, 34, 34, 34, 34, 34, 34, 34] ++ [34]) ++ [44] ++ [49]) := by decide +kernel

example : Delimiter cfg.delimiter ∧ (∀ s, cfg.secondary = some s → Delimiter s) ∧
    cfg.columns.Nodup ∧ (cfg.spec.flatMap columnsOf).Nodup ∧ ListsOnly py cfg inst := by
  refine ⟨by decide, ?_, by decide, by decide, ?_⟩
  · rintro s ⟨⟩; decide
  · intro f hf column declared v hne hc hd hl
    simp only [cfg, List.mem_cons, List.not_mem_nil, or_false] at hf
    rcases hf with rfl | rfl | rfl
    · exact absurd rfl (hne _ _)
    · cases hc; exact absurd (by simp [cfg]) hd
    · exact absurd rfl (hne _ _)

/-- The instance meets the hypotheses of `acceptable_instances_are_encoded`. -/
example : ∀ f ∈ cfg.spec, ∀ column declared, Column f column declared →
    Acceptable py cfg inst f column declared := by
  intro f hf column declared hc
  simp only [cfg, List.mem_cons, List.not_mem_nil, or_false] at hf
  rcases hf with rfl | rfl | rfl
  · cases hc
    exact ⟨.text [97, 44, 34], [.text [97, 44, 34]], [[97, 44, 34]], rfl, rfl, rfl,
      .cons rfl .nil, by simp [Encodable], by simp⟩
  · cases hc
    exact ⟨.texts [[98, 124], [], [34]], _, [[98, 124], [], [34]], rfl, rfl, trivial,
      .cons rfl (.cons rfl (.cons rfl .nil)), by simp [Encodable],
      fun h => absurd (by simp [cfg]) h⟩
  · cases hc
    exact ⟨.list [1, 2], _, [[49], [50]], rfl, rfl, rfl, .cons rfl (.cons rfl .nil),
      by simp [Encodable], by simp⟩

end Example

open Example

/-- **C61 fails: values are dropped.** A vector of two in a column that is not declared multivalent is
written as its first value only, without an error: two different instances give the same line. -/
theorem extra_values_are_dropped :
    ∃ (a b : List (String × Obj)) (line : Text), a.lookup "pair" ≠ b.lookup "pair" ∧
      (encode py coder .fresh a).2 = .ok line ∧ (encode py coder .fresh b).2 = .ok line :=
  ⟨[("id", .int 7), ("tags", .texts []), ("pair", .list [1, 2])],
   [("id", .int 7), ("tags", .texts []), ("pair", .list [1, 3])],
   [55, 44] ++ noneText ++ [44, 44, 49], by decide, rfl, rfl⟩

/-- **C61 fails: a column without a feature.** A column that the schema does not describe is written as
the text `None`, which a reader cannot tell from the string "None". -/
theorem uncovered_column_reads_None :
    ∃ fields, readRecord 44 (((encode py coder .fresh inst).2.toOption).getD []) = some fields ∧
      cfg.columns[1]? = some "unknown" ∧ fields[1]? = some noneText :=
  ⟨[[97, 44, 34], noneText, [34, 98, 124, 34] ++ [124] ++ [124] ++ [34, 34, 34, 34], [49]],
    by decide +kernel, rfl, rfl⟩

/-- A coder with one column of variable length. -/
def oneColumn : Coder := ⟨⟨["x"], [.varLen "x"], 44, none, []⟩, [⟨"x", .varLen, 0, false⟩]⟩

/-- **C61 fails: zero is lost.** For a feature of variable length given as a NumPy array, as the
pipelines of the library produce them, the single value 0 is written as an empty field, like no value;
and two values raise an error where a list would give the first of them. -/
theorem zero_is_dropped :
    make oneColumn.config = .ok oneColumn ∧
    (encode py oneColumn .fresh [("x", .array [0])]).2 =
      (encode py oneColumn .fresh [("x", .array [])]).2 ∧
    (encode py oneColumn .fresh [("x", .list [0])]).2 ≠
      (encode py oneColumn .fresh [("x", .list [])]).2 ∧
    (encode py oneColumn .fresh [("x", .array [1, 2])]).2.toOption = none ∧
    (encode py oneColumn .fresh [("x", .list [1, 2])]).2.toOption = some [49] := by
  refine ⟨?_, rfl, ?_, by decide +kernel, by decide +kernel⟩
  · rfl
  · intro h
    have : (encode py oneColumn .fresh [("x", .list [0])]).2.toOption =
      (encode py oneColumn .fresh [("x", .list [])]).2.toOption := by rw [h]
    revert this
    decide +kernel

theorem encodeRecord_poisoned (d : Nat) (b : Buffer) (record : List (Except Exc Text))
    (hp : b.pos = b.data.length) (hs : b.data.any isSurrogate = true) :
    (∃ e, (encodeRecord d b record).2 = .error e) ∧
    (encodeRecord d b record).1.pos = (encodeRecord d b record).1.data.length ∧
    (encodeRecord d b record).1.data.any isSurrogate = true := by
  unfold encodeRecord
  cases sequence record with
  | error e => exact ⟨⟨e, rfl⟩, hp, hs⟩
  | ok fs =>
    have h1 : (b.write (writeRow d fs)).data = b.data ++ writeRow d fs := by
      simp [Buffer.write, hp]
    have h2 : (b.write (writeRow d fs)).data.any isSurrogate = true := by
      rw [h1, List.any_append, hs]; rfl
    simp only
    rw [if_pos h2]
    exact ⟨⟨_, rfl⟩, by rw [h1]; simp [Buffer.write, hp], h2⟩

theorem encodeAll_poisoned {α : Type} (py : Py α) (c : Coder) (insts : List (List (String × α))) :
    ∀ s : State, s.line.pos = s.line.data.length → s.line.data.any isSurrogate = true →
    ∀ r ∈ (encodeAll py c s insts).2, ∃ e, r = .error e := by
  induction insts with
  | nil => intro s _ _ r hr; cases hr
  | cons x xs ih =>
    intro s hp hs r hr
    have key : (∃ e, (encode py c s x).2 = .error e) ∧
        (encode py c s x).1.line.pos = (encode py c s x).1.line.data.length ∧
        (encode py c s x).1.line.data.any isSurrogate = true := by
      unfold encode
      cases encodeLoop py c.config.secondary x c.handlers s.inner
          (List.replicate c.config.columns.length none) with
      | mk b' r' =>
        cases r' with
        | error e => exact ⟨⟨e, rfl⟩, hp, hs⟩
        | ok row => exact encodeRecord_poisoned _ _ _ hp hs
    simp only [encodeAll, List.mem_cons] at hr
    rcases hr with rfl | hr
    · exact key.1
    · exact ih _ key.2.1 key.2.2 r hr

/-- **C61 fails: history.** After one text with a lone surrogate was rejected, the coder rejects every
later instance as well, because the rejected text stays in its buffer. -/
theorem failed_encode_spoils_the_next :
    ∃ (before inst : List (String × Obj)),
      (encode py oneColumn .fresh before).2 = .error .unicodeError ∧
      (encode py oneColumn .fresh inst).2.toOption = some [98] ∧
      ∀ later : List (List (String × Obj)), ∀ r ∈ (encodeAll py oneColumn
        (encode py oneColumn .fresh before).1 later).2, ∃ e, r = .error e :=
  ⟨[("x", .texts [[97, 0xD800]])], [("x", .texts [[98]])], rfl, by decide +kernel, fun later =>
    encodeAll_poisoned py oneColumn later _ (by decide +kernel) (by decide +kernel)⟩

/-- The history theorem is not vacuous: a history with an ordinary line and with a type error. -/
example : (encodeAll py oneColumn .fresh [[("x", .texts [[97]])], [("x", .int 3)], []]).2.map
      Except.toOption = [some [97], none, none] ∧
    .error .unicodeError ∉ (encodeAll py oneColumn .fresh [[("x", .texts [[97]])], [("x", .int 3)], []]).2 := by
  refine ⟨by decide +kernel, ?_⟩
  simp only [encodeAll, List.mem_cons, List.not_mem_nil, or_false, not_or]
  refine ⟨?_, ?_, ?_⟩ <;> (intro h; cases h)

end TFT.Csv
