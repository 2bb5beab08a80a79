import Verif.Cache.Coders
import Mathlib.Tactic.Ring
import Mathlib.Tactic.Linarith

/-!
# Properties of the cache coders (C27)
-/

set_option linter.unusedSectionVars false

namespace TFT.Coders

theorem toLE_length (k n : Nat) : (toLE k n).length = k := by
  induction k generalizing n with
  | zero => rfl
  | succ k ih => simp [toLE, ih]

theorem fromLE_toLE (k n : Nat) (h : n < 256 ^ k) : fromLE (toLE k n) = n := by
  induction k generalizing n with
  | zero => simp at h; simp [toLE, fromLE, h]
  | succ k ih =>
    simp only [toLE, fromLE]
    rw [ih (n / 256) (by rw [Nat.div_lt_iff_lt_mul (by decide)]; rw [pow_succ] at h; exact h)]
    omega

theorem unpackQ_toLE (n : Nat) (h : n < 2 ^ 63) : unpackQ (toLE 8 n) = n := by
  unfold unpackQ
  rw [fromLE_toLE 8 n (lt_of_lt_of_le h (by norm_num))]
  simp only [if_pos h]

/-- **C27** The key/value coder: every pair of byte strings of representable lengths is encoded,
and decoding gives it back. -/
theorem kv_round_trip (token value : Bytes) (ht : token.length < 2 ^ 63)
    (hv : value.length < 2 ^ 63) :
    ∃ bs, encodeKV (token, value) = .ok bs ∧ decodeKV bs = .ok (token, value) := by
  refine ⟨toLE 8 token.length ++ toLE 8 value.length ++ token ++ value, ?_, ?_⟩
  · simp only [encodeKV, packQ, if_pos ht, if_pos hv, bind, Except.bind]
  · have h8 : (toLE 8 token.length).length = 8 := toLE_length _ _
    have h8' : (toLE 8 value.length).length = 8 := toLE_length _ _
    have h16 : (toLE 8 token.length ++ toLE 8 value.length).length = 16 := by
      simp [h8, h8']
    have htake : (toLE 8 token.length ++ toLE 8 value.length ++ token ++ value).take 16
        = toLE 8 token.length ++ toLE 8 value.length := by
      rw [List.append_assoc, List.take_left' h16]
    have hdrop : (toLE 8 token.length ++ toLE 8 value.length ++ token ++ value).drop 16
        = token ++ value := by
      rw [List.append_assoc, List.drop_left' h16]
    have ha : unpackQ ((toLE 8 token.length ++ toLE 8 value.length).take 8) = token.length := by
      rw [List.take_left' h8, unpackQ_toLE _ ht]
    have hb : unpackQ ((toLE 8 token.length ++ toLE 8 value.length).drop 8) = value.length := by
      rw [List.drop_left' h8, unpackQ_toLE _ hv]
    unfold decodeKV
    simp only [htake, hdrop, ha, hb, h16]
    rw [if_neg (by omega), if_neg (by omega)]
    simp

/-- **C27** Lengths that do not fit are an error, not a truncated entry. -/
theorem kv_too_long (token value : Bytes) (h : 2 ^ 63 ≤ token.length ∨ 2 ^ 63 ≤ value.length) :
    ∃ e, encodeKV (token, value) = .error e := by
  unfold encodeKV packQ
  by_cases ht : token.length < 2 ^ 63
  · by_cases hv : value.length < 2 ^ 63
    · omega
    · exact ⟨_, by simp only [if_pos ht, if_neg hv, bind, Except.bind]; rfl⟩
  · exact ⟨_, by simp only [if_neg ht, bind, Except.bind]; rfl⟩

/-- **C27** Different pairs have different encodings. -/
theorem kv_injective (a b : Bytes × Bytes) (bs : Bytes) (ha : encodeKV a = .ok bs)
    (hb : encodeKV b = .ok bs) : a = b := by
  have key : ∀ a : Bytes × Bytes, encodeKV a = .ok bs → decodeKV bs = .ok a := by
    intro a h
    by_cases ht : 2 ^ 63 ≤ a.1.length ∨ 2 ^ 63 ≤ a.2.length
    · obtain ⟨e, he⟩ := kv_too_long a.1 a.2 ht
      have : encodeKV a = .error e := he
      rw [h] at this; cases this
    · obtain ⟨bs', h1, h2⟩ := kv_round_trip a.1 a.2 (by omega) (by omega)
      have : encodeKV a = .ok bs' := h1
      rw [h] at this
      cases this
      exact h2
  have := key a ha
  rw [key b hb] at this
  cases this
  rfl

theorem toLE_fromLE (bs : Bytes) : toLE bs.length (fromLE bs) = bs := by
  induction bs with
  | nil => rfl
  | cons b bs ih =>
    simp only [List.length_cons, toLE, fromLE]
    have h1 : (b.val + 256 * fromLE bs) % 256 = b.val := by omega
    have h2 : (b.val + 256 * fromLE bs) / 256 = fromLE bs := by omega
    simp only [h1, h2, ih]

/-- **C27** A damaged entry is an error: decoding succeeds exactly on the encoding of a pair,
followed perhaps by more bytes, and gives this pair. In particular no proper prefix of an
encoding decodes. -/
theorem decode_kv_iff (bs token value : Bytes) :
    decodeKV bs = .ok (token, value) ↔
      ∃ enc more, encodeKV (token, value) = .ok enc ∧ bs = enc ++ more := by
  constructor
  · intro h
    unfold decodeKV at h
    simp only at h
    split at h
    · cases h
    rename_i h16
    split at h
    · cases h
    rename_i hneg
    split at h
    · cases h
    rename_i hlen
    simp only [Except.ok.injEq, Prod.mk.injEq] at h
    obtain ⟨ht, hv⟩ := h
    have hl16 : 16 ≤ bs.length := by
      rw [List.length_take] at h16
      omega
    -- the two lengths
    have hQ : ∀ p : Bytes, p.length = 8 → 0 ≤ unpackQ p →
        (unpackQ p).toNat < 2 ^ 63 ∧ toLE 8 (unpackQ p).toNat = p := by
      intro p hp h0
      have hlt : fromLE p < 256 ^ p.length := by
        clear h0 hp
        induction p with
        | nil => simp [fromLE]
        | cons b p ih =>
          simp only [fromLE, List.length_cons, pow_succ]
          have := b.isLt
          omega
      unfold unpackQ at h0 ⊢
      by_cases hc : fromLE p < 2 ^ 63
      · simp only [if_pos hc, Int.toNat_natCast]
        refine ⟨hc, ?_⟩
        have := toLE_fromLE p
        rwa [hp] at this
      · simp only [if_neg hc] at h0
        rw [hp] at hlt
        norm_num at hlt h0
        omega
    have p1 : ((bs.take 16).take 8).length = 8 := by simp; omega
    have p2 : ((bs.take 16).drop 8).length = 8 := by simp; omega
    push Not at hneg
    obtain ⟨l1, e1⟩ := hQ _ p1 hneg.1
    obtain ⟨l2, e2⟩ := hQ _ p2 hneg.2
    generalize hlt' : (unpackQ ((bs.take 16).take 8)).toNat = lt at *
    generalize hlv' : (unpackQ ((bs.take 16).drop 8)).toNat = lv at *
    have hlen' : lt + lv ≤ (bs.drop 16).length := not_lt.1 hlen
    have tl : token.length = lt := by
      rw [← ht, List.length_take]
      omega
    have vl : value.length = lv := by
      rw [← hv, List.length_take, List.length_drop]
      omega
    refine ⟨toLE 8 token.length ++ toLE 8 value.length ++ token ++ value,
      ((bs.drop 16).drop lt).drop lv, ?_, ?_⟩
    · have a1 : token.length < 2 ^ 63 := by rw [tl]; exact l1
      have a2 : value.length < 2 ^ 63 := by rw [vl]; exact l2
      simp only [encodeKV, packQ, if_pos a1, if_pos a2, bind, Except.bind]
    · rw [tl, vl, e1, e2, List.take_append_drop, ← ht, ← hv]
      simp only [List.append_assoc, List.take_append_drop]
  · rintro ⟨enc, more, h, rfl⟩
    by_cases hl : 2 ^ 63 ≤ token.length ∨ 2 ^ 63 ≤ value.length
    · obtain ⟨e, he⟩ := kv_too_long token value hl
      rw [h] at he
      cases he
    obtain ⟨enc', h1, h2⟩ := kv_round_trip token value (by omega) (by omega)
    rw [h] at h1
    obtain rfl := Except.ok.inj h1
    have hok : 16 ≤ enc.length ∧ 0 ≤ unpackQ ((enc.take 16).take 8) ∧
        0 ≤ unpackQ ((enc.take 16).drop 8) ∧
        (unpackQ ((enc.take 16).take 8)).toNat + (unpackQ ((enc.take 16).drop 8)).toNat ≤
          (enc.drop 16).length ∧
        (enc.drop 16).take (unpackQ ((enc.take 16).take 8)).toNat = token ∧
        ((enc.drop 16).drop (unpackQ ((enc.take 16).take 8)).toNat).take
          (unpackQ ((enc.take 16).drop 8)).toNat = value := by
      unfold decodeKV at h2
      simp only at h2
      split at h2
      · cases h2
      rename_i c1
      split at h2
      · cases h2
      rename_i c2
      split at h2
      · cases h2
      rename_i c3
      simp only [Except.ok.injEq, Prod.mk.injEq] at h2
      push Not at c2
      refine ⟨?_, c2.1, c2.2, not_lt.1 c3, h2.1, h2.2⟩
      rw [List.length_take] at c1
      omega
    obtain ⟨q1, q2, q3, q4, q5, q6⟩ := hok
    have t16 : (enc ++ more).take 16 = enc.take 16 := List.take_append_of_le_length q1
    have d16 : (enc ++ more).drop 16 = enc.drop 16 ++ more := List.drop_append_of_le_length q1
    unfold decodeKV
    simp only [t16, d16]
    rw [if_neg (by rw [List.length_take]; omega), if_neg (by push Not; exact ⟨q2, q3⟩),
      if_neg (by rw [List.length_append]; omega),
      List.take_append_of_le_length (by omega),
      List.drop_append_of_le_length (by omega),
      List.take_append_of_le_length (by rw [List.length_drop]; omega), q5, q6]

/-- A truncated entry. -/
example : (decodeKV [1, 0, 0, 0, 0, 0, 0, 0, 1, 0, 0, 0, 0, 0, 0, 0, 97]).toOption = none := by
  decide +kernel

/-- A coder that gives back what it encoded. -/
def RoundTrips {A : Type} (c : Coder A) (a : A) : Prop :=
  ∀ bs, c.encode a = .ok bs → c.decode bs = .ok a

/-- **C27** The per-key coder round-trips every key, if the coder of the values does. -/
theorem per_key_round_trip {A : Type} (c : Coder A) (key : Bytes) (a : A) (h : RoundTrips c a) :
    RoundTrips (perKeyCoder c) (key, a) := by
  intro bs hbs
  simp only [perKeyCoder, bind, Except.bind] at hbs ⊢
  cases hv : c.encode a with
  | error e => rw [hv] at hbs; cases hbs
  | ok v =>
    rw [hv] at hbs
    simp only at hbs
    by_cases hl : 2 ^ 63 ≤ key.length ∨ 2 ^ 63 ≤ v.length
    · obtain ⟨e, he⟩ := kv_too_long key v hl
      rw [hbs] at he; cases he
    · obtain ⟨bs', h1, h2⟩ := kv_round_trip key v (by omega) (by omega)
      rw [hbs] at h1
      cases h1
      rw [h2]
      simp only [h v hv]

/-- **C27** The per-key coder encodes whenever the coder of the values does, up to the limit on
lengths. -/
theorem per_key_encodes {A : Type} (c : Coder A) (key : Bytes) (a : A) (v : Bytes)
    (hv : c.encode a = .ok v) (hk : key.length < 2 ^ 63) (hl : v.length < 2 ^ 63) :
    ∃ bs, (perKeyCoder c).encode (key, a) = .ok bs := by
  obtain ⟨bs, h, _⟩ := kv_round_trip key v hk hl
  exact ⟨bs, by simp [perKeyCoder, bind, Except.bind, hv, h]⟩

/-- **C27** The vocabulary coder round-trips every token and value, for string and for integer
vocabularies, also for the accumulators of weighted vocabularies. -/
theorem vocabulary_round_trip {R : Type} (json : JsonCodec R) (isString : Bool)
    (acc : Token R × Value R) : RoundTrips (vocabularyCoder json isString) acc := by
  obtain ⟨token, value⟩ := acc
  intro bs hbs
  have hval : Value.ofJson value.toJson = .ok value := by
    cases value <;> rfl
  -- the bytes of the token
  obtain ⟨t, ht, henc⟩ : ∃ t, encodeKV (t, json.dumps value.toJson) = .ok bs ∧
      ((isString = true ∧ token = .bytes t) ∨
        (isString = false ∧ ∃ x, token = .number x ∧ t = json.dumps (.num x))) := by
    cases token with
    | bytes b =>
      cases isString with
      | true =>
        simp only [vocabularyCoder, bind, Except.bind, if_true] at hbs
        exact ⟨b, hbs, Or.inl ⟨rfl, rfl⟩⟩
      | false => simp [vocabularyCoder, bind, Except.bind] at hbs
    | number x =>
      cases isString with
      | true => simp [vocabularyCoder, bind, Except.bind] at hbs
      | false =>
        simp only [vocabularyCoder, bind, Except.bind, Bool.false_eq_true, if_false] at hbs
        exact ⟨_, hbs, Or.inr ⟨rfl, x, rfl, rfl⟩⟩
  have hdec : decodeKV bs = .ok (t, json.dumps value.toJson) := by
    by_cases hl : 2 ^ 63 ≤ t.length ∨ 2 ^ 63 ≤ (json.dumps value.toJson).length
    · obtain ⟨e, he⟩ := kv_too_long t _ hl
      rw [ht] at he; cases he
    · obtain ⟨bs', h1, h2⟩ := kv_round_trip t (json.dumps value.toJson) (by omega) (by omega)
      rw [ht] at h1
      cases h1
      exact h2
  rcases henc with ⟨rfl, rfl⟩ | ⟨rfl, x, rfl, rfl⟩
  · simp [vocabularyCoder, bind, Except.bind, hdec, json.law, hval]
  · simp [vocabularyCoder, bind, Except.bind, hdec, json.law, hval]

/-! ### The hypotheses are met -/

example : encodeKV ([97, 98], [1]) = .ok
    ([2, 0, 0, 0, 0, 0, 0, 0, 1, 0, 0, 0, 0, 0, 0, 0] ++ [97, 98] ++ [1]) := by decide

example : decodeKV ([2, 0, 0, 0, 0, 0, 0, 0, 0, 0, 0, 0, 0, 0, 0, 0] ++ [97, 98]) =
    .ok ([97, 98], []) := by decide

/-- A coder of numbers as unary byte strings, for the examples. -/
def unary : Coder Nat where
  encode n := .ok (List.replicate n 1)
  decode bs := .ok bs.length

example : ∃ bs, (perKeyCoder unary).encode ([7, 0, 255], 5) = .ok bs ∧
    (perKeyCoder unary).decode bs = .ok ([7, 0, 255], 5) := by
  obtain ⟨bs, h⟩ := per_key_encodes unary [7, 0, 255] 5 _ rfl (by decide) (by decide)
  exact ⟨bs, h, per_key_round_trip unary _ _ (by
    intro bs h
    simp only [unary, Except.ok.injEq] at h
    subst h
    simp [unary]) bs h⟩

/-! A JSON codec exists: the text Python writes for numbers and lists, `[1, [2, 3]]`, determines
the value, when the text of a number does. -/

section
variable {R : Type} (repr : R → Bytes)

mutual
def dumpsText : Json R → Bytes
  | .num x => repr x
  | .list [] => [91, 93]
  | .list (x :: xs) => 91 :: (dumpsText x ++ dumpsTail xs)
def dumpsTail : List (Json R) → Bytes
  | [] => [93]
  | x :: xs => 44 :: 32 :: (dumpsText x ++ dumpsTail xs)
end

/-- No comma, bracket or space. -/
def numeric (b : Fin 256) : Bool := b ≠ 44 ∧ b ≠ 91 ∧ b ≠ 93 ∧ b ≠ 32

def Stops (r : Bytes) : Prop := ∀ b ∈ r.head?, numeric b = false

theorem takeWhile_stops (a r : Bytes) (ha : ∀ b ∈ a, numeric b = true) (hr : Stops r) :
    (a ++ r).takeWhile numeric = a := by
  rw [List.takeWhile_append_of_pos ha]
  cases r with
  | nil => simp
  | cons b r => simp [hr b (by simp)]

theorem stops_tail (xs : List (Json R)) (r : Bytes) : Stops (dumpsTail repr xs ++ r) := by
  cases xs <;> · intro b hb; simp [dumpsTail] at hb; subst hb; decide

variable (hnum : ∀ x, repr x ≠ [] ∧ ∀ b ∈ repr x, numeric b = true)
  (hinj : Function.Injective repr)
include hnum hinj

theorem num_ne_bracket (x : R) (r s : Bytes) : repr x ++ r ≠ 91 :: s := by
  intro h
  obtain ⟨hne, hb⟩ := hnum x
  cases hx : repr x with
  | nil => exact hne hx
  | cons b bs =>
    rw [hx] at h hb
    simp at h
    have := hb b (by simp)
    rw [h.1] at this
    revert this; decide

mutual
theorem dumpsText_prefix (x y : Json R) (r s : Bytes) (hr : Stops r) (hs : Stops s)
    (h : dumpsText repr x ++ r = dumpsText repr y ++ s) : x = y ∧ r = s := by
  match x, y with
  | .num a, .num b =>
    simp only [dumpsText] at h
    have h1 := takeWhile_stops _ r (hnum a).2 hr
    rw [h, takeWhile_stops _ s (hnum b).2 hs] at h1
    rw [h1] at h
    exact ⟨by rw [hinj h1], List.append_cancel_left h⟩
  | .num a, .list [] =>
    simp only [dumpsText] at h
    exact absurd h (num_ne_bracket repr hnum hinj _ _ _)
  | .num a, .list (y :: ys) =>
    simp only [dumpsText] at h
    exact absurd h (num_ne_bracket repr hnum hinj _ _ _)
  | .list [], .num a =>
    simp only [dumpsText] at h
    exact absurd h.symm (num_ne_bracket repr hnum hinj _ _ _)
  | .list (y :: ys), .num a =>
    simp only [dumpsText] at h
    exact absurd h.symm (num_ne_bracket repr hnum hinj _ _ _)
  | .list [], .list [] => simpa [dumpsText] using h
  | .list [], .list (.num b :: ys) =>
    simp only [dumpsText, List.cons_append, List.append_assoc] at h
    obtain ⟨hne, hb⟩ := hnum b
    cases hx : repr b with
    | nil => exact absurd hx hne
    | cons c cs =>
      rw [hx] at h hb
      simp at h
      have := hb c (by simp)
      rw [← h.1] at this
      exact absurd this (by decide)
  | .list [], .list (.list [] :: ys) => simp [dumpsText] at h
  | .list [], .list (.list (z :: zs) :: ys) => simp [dumpsText] at h
  | .list (.num b :: ys), .list [] =>
    simp only [dumpsText, List.cons_append, List.append_assoc] at h
    obtain ⟨hne, hb⟩ := hnum b
    cases hx : repr b with
    | nil => exact absurd hx hne
    | cons c cs =>
      rw [hx] at h hb
      simp at h
      have := hb c (by simp)
      rw [h.1] at this
      exact absurd this (by decide)
  | .list (.list [] :: ys), .list [] => simp [dumpsText] at h
  | .list (.list (z :: zs) :: ys), .list [] => simp [dumpsText] at h
  | .list (x :: xs), .list (y :: ys) =>
    simp only [dumpsText, List.cons_append, List.append_assoc, List.cons.injEq, true_and] at h
    obtain ⟨h1, h2⟩ := dumpsText_prefix x y _ _ (stops_tail repr _ _) (stops_tail repr _ _) h
    obtain ⟨h3, h4⟩ := dumpsTail_prefix xs ys r s hr hs h2
    exact ⟨by rw [h1, h3], h4⟩

theorem dumpsTail_prefix (xs ys : List (Json R)) (r s : Bytes) (hr : Stops r) (hs : Stops s)
    (h : dumpsTail repr xs ++ r = dumpsTail repr ys ++ s) : xs = ys ∧ r = s := by
  match xs, ys with
  | [], [] => simpa [dumpsTail] using h
  | [], y :: ys => simp [dumpsTail] at h
  | x :: xs, [] => simp [dumpsTail] at h
  | x :: xs, y :: ys =>
    simp only [dumpsTail, List.cons_append, List.append_assoc, List.cons.injEq, true_and] at h
    obtain ⟨h1, h2⟩ := dumpsText_prefix x y _ _ (stops_tail repr _ _) (stops_tail repr _ _) h
    obtain ⟨h3, h4⟩ := dumpsTail_prefix xs ys r s hr hs h2
    exact ⟨by rw [h1, h3], h4⟩
end

/-- The text of a JSON value determines it. -/
theorem dumpsText_injective : Function.Injective (dumpsText repr) := by
  intro x y h
  exact (dumpsText_prefix repr hnum hinj x y [] [] (by intro b hb; simp at hb)
    (by intro b hb; simp at hb) (by simpa using h)).1

open Classical in
/-- So there is a decoder of JSON text. -/
noncomputable def textCodec : JsonCodec R where
  dumps := dumpsText repr
  loads bs := if h : ∃ j, dumpsText repr j = bs then .ok h.choose else .error "JSONDecodeError"
  law j := by
    have h : ∃ i, dumpsText repr i = dumpsText repr j := ⟨j, rfl⟩
    rw [dif_pos h]
    exact congrArg _ (dumpsText_injective repr hnum hinj h.choose_spec)
end

/-- Numbers in unary. -/
example : ∃ json : JsonCodec Nat, ∃ bs,
    (vocabularyCoder json true).encode (.bytes [104, 105], .accumulator (.list [.num 3]) (.list
      [.num 1]) (.list [.num 0]) (.num 3)) = .ok bs ∧
    (vocabularyCoder json true).decode bs = .ok (.bytes [104, 105], .accumulator (.list [.num 3])
      (.list [.num 1]) (.list [.num 0]) (.num 3)) := by
  let repr : Nat → Bytes := fun n => List.replicate (n + 1) 49
  have hnum : ∀ x, repr x ≠ [] ∧ ∀ b ∈ repr x, numeric b = true := by
    intro x
    refine ⟨by simp [repr], ?_⟩
    intro b hb
    simp only [repr, List.mem_replicate] at hb
    rw [hb.2]
    decide
  have hinj : Function.Injective repr := by
    intro a b h
    have := congrArg List.length h
    simpa [repr] using this
  refine ⟨textCodec repr hnum hinj, ?_⟩
  obtain ⟨bs, hbs, _⟩ := kv_round_trip [104, 105] (dumpsText repr (.list [.list [.num 3],
    .list [.num 1], .list [.num 0], .num 3])) (by decide) (by decide)
  have he : (vocabularyCoder (textCodec repr hnum hinj) true).encode (.bytes [104, 105],
      .accumulator (.list [.num 3]) (.list [.num 1]) (.list [.num 0]) (.num 3)) = .ok bs := hbs
  exact ⟨bs, he, vocabulary_round_trip _ _ _ bs he⟩

end TFT.Coders
