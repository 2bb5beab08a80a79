import Verif.Mappers.TypedBuckets
import Verif.Mappers.BucketsProps
import Mathlib.Data.Int.Log
import Mathlib.Tactic.Linarith
import Mathlib.Tactic.NormNum
import Mathlib.Tactic.Positivity

/-!
# C17 for values and boundaries of any types

The exact statement holds whenever the two types have a common type that holds the values; otherwise a value counts as
at a boundary if the two are equal after rounding.
-/

namespace TFT.Buckets

/-! ## Specification -/

/-- The floats with `p` binary digits (without a smallest exponent). -/
def Representable (p : Nat) (q : ℚ) : Prop := ∃ m e : ℤ, |m| < 2 ^ p ∧ q = m * (2 : ℚ) ^ e

/-- What is needed of rounding: it keeps the order and the numbers that need no rounding. All rounding modes of IEEE
754 are such. -/
structure IsRounding (p : Nat) (r : ℚ → ℚ) : Prop where
  mono : Monotone r
  fixes : ∀ q, Representable p q → r q = q

/-- Rounding to a nearest float, as TensorFlow does. -/
def IsNearest (p : Nat) (r : ℚ → ℚ) : Prop :=
  ∀ q, Representable p (r q) ∧ ∀ s, Representable p s → |r q - q| ≤ |s - q|

/-- The numbers of a type. -/
def Holds : Dtype → Ext → Prop
  | .int signed bits, v => ∃ n : ℤ, v = finite n ∧ minInt signed bits ≤ n ∧ (n : ℚ) ≤ (Dtype.int signed bits).max
  | .float p e, v => v = ⊥ ∨ v = ⊤ ∨ ∃ q, v = finite q ∧ Representable p q ∧ |q| ≤ (Dtype.float p e).max

/-- The type in which values are compared: the one with the larger numbers. -/
def common (xType bType : Dtype) : Dtype := if xType.max > bType.max then xType else bType

/-- The float that a number becomes. -/
def rounded (r : ℚ → ℚ) : Ext → Ext
  | some (some q) => finite (r q)
  | v => v

/-! ## Lemmas -/

theorem finite_le (a b : ℚ) : finite a ≤ finite b ↔ a ≤ b := ext_le a b

theorem finite_inj (a b : ℚ) : finite a = finite b ↔ a = b := by
  rw [le_antisymm_iff, le_antisymm_iff, finite_le, finite_le]

theorem ext_cases (v : Ext) : v = ⊥ ∨ v = ⊤ ∨ ∃ q, v = finite q := by
  match v with
  | none => exact .inl rfl
  | some none => exact .inr (.inl rfl)
  | some (some q) => exact .inr (.inr ⟨q, rfl⟩)

theorem finite_lt_top (q : ℚ) : finite q < ⊤ := WithBot.coe_lt_coe.2 (WithTop.coe_lt_top q)

theorem bot_lt_finite (q : ℚ) : ⊥ < finite q := WithBot.bot_lt_coe _

theorem nearest_isRounding {p : Nat} {r : ℚ → ℚ} (h : IsNearest p r) : IsRounding p r := by
  constructor
  · intro a b hab
    by_contra hlt
    rw [not_le] at hlt
    rcases hab.lt_or_eq with hab | rfl
    · have h1 := (h a).2 (r b) (h b).1
      have h2 := (h b).2 (r a) (h a).1
      rw [← sq_le_sq] at h1 h2
      nlinarith
    · exact lt_irrefl _ hlt
  · intro q hq
    have := (h q).2 q hq
    rw [sub_self, abs_zero] at this
    linarith [abs_nonpos_iff.1 this]

theorem rounded_bot (r : ℚ → ℚ) : rounded r ⊥ = ⊥ := rfl
theorem rounded_top (r : ℚ → ℚ) : rounded r ⊤ = ⊤ := rfl
theorem rounded_finite (r : ℚ → ℚ) (q : ℚ) : rounded r (finite q) = finite (r q) := rfl

theorem rounded_mono {p : Nat} {r : ℚ → ℚ} (h : IsRounding p r) : Monotone (rounded r) := by
  intro a b hab
  rcases ext_cases a with rfl | rfl | ⟨q, rfl⟩
  · exact bot_le
  · rw [top_le_iff.1 hab]
  · rcases ext_cases b with rfl | rfl | ⟨s, rfl⟩
    · exact absurd hab (not_le.2 (bot_lt_finite q))
    · exact le_top
    · exact (finite_le _ _).2 (h.mono ((finite_le _ _).1 hab))

theorem rounded_holds {p e : Nat} {r : ℚ → ℚ} (h : IsRounding p r) {v : Ext} (hv : Holds (.float p e) v) :
    rounded r v = v := by
  rcases hv with rfl | rfl | ⟨q, rfl, hq, -⟩
  · rfl
  · rfl
  · rw [rounded_finite, h.fixes q hq]

theorem castExt_float {c : Casts} {src : Dtype} {p e : Nat} (h : IsRounding p (c.round p)) {v : Ext}
    (hv : Holds src v) : castExt c src (.float p e) v = rounded (c.round p) v := by
  unfold castExt
  split_ifs with hs
  · subst hs
    exact (rounded_holds h hv).symm
  · rcases ext_cases v with rfl | rfl | ⟨q, rfl⟩ <;> rfl

theorem truncate_int (n : ℤ) : truncate (n : ℚ) = n := by
  unfold truncate
  split_ifs <;> simp

theorem wrap_holds {signed : Bool} {bits : Nat} {n : ℤ} (h1 : minInt signed bits ≤ n)
    (h2 : (n : ℚ) ≤ (Dtype.int signed bits).max) (hb : 0 < bits) : wrap signed bits n = n := by
  have hp : (2 : ℤ) ^ bits = 2 ^ (bits - 1) * 2 := by
    rw [← pow_succ]
    congr 1
    omega
  cases signed with
  | true =>
    simp only [minInt, if_true, Dtype.max, wrap] at *
    have h2' : n ≤ 2 ^ (bits - 1) - 1 := by exact_mod_cast h2
    rw [Int.emod_eq_of_lt (by linarith) (by linarith)]
    ring
  | false =>
    simp only [minInt, Bool.false_eq_true, if_false, Dtype.max, wrap] at *
    have h2' : n ≤ 2 ^ bits - 1 := by exact_mod_cast h2
    exact Int.emod_eq_of_lt h1 (by linarith)

/-- Types with at least one bit. -/
def Proper : Dtype → Prop
  | .int _ bits => 0 < bits
  | .float _ _ => True

theorem castExt_holds {c : Casts} {src dst : Dtype} (hd : Proper dst)
    (hr : ∀ p e, dst = .float p e → IsRounding p (c.round p)) {v : Ext}
    (hs : Holds src v) (hv : Holds dst v) : castExt c src dst v = v := by
  cases dst with
  | float p e =>
    rw [castExt_float (hr p e rfl) hs]
    exact rounded_holds (hr p e rfl) hv
  | int signed bits =>
    obtain ⟨n, rfl, h1, h2⟩ := hv
    unfold castExt
    split_ifs with heq
    · rfl
    · cases src with
      | int s b =>
        show finite ((wrap signed bits ⌊(n : ℚ)⌋ : ℤ) : ℚ) = _
        rw [Int.floor_intCast, wrap_holds h1 h2 hd]
      | float p e =>
        show (if minInt signed bits ≤ truncate (n : ℚ) ∧ (truncate (n : ℚ) : ℚ) ≤ (Dtype.int signed bits).max then
          finite (truncate (n : ℚ)) else _) = _
        rw [truncate_int, if_pos ⟨h1, h2⟩]

theorem bucket_count (bs : List Ext) (hs : bs.Pairwise (· ≤ ·)) (v : Ext) :
    assignBuckets (some v) [bs] .right = bs.countP (fun b => decide (b ≤ v)) :=
  ((apply_buckets_spec bs hs (some v)).2.2.2.2 v rfl).1

/-! ## Property C17 -/

/-- **C17** for all types: if the type in which values are compared holds the value and the boundaries, then the bucket
is the number of boundaries that are at most the value. -/
theorem apply_buckets_typed_exact (c : Casts) (xType bType : Dtype) (hx : Proper xType) (hb : Proper bType)
    (hr : ∀ p e, common xType bType = .float p e → IsRounding p (c.round p))
    (bs : List Ext) (hs : bs.Pairwise (· ≤ ·)) (hbs : ∀ b ∈ bs, Holds bType b ∧ Holds (common xType bType) b)
    (v : Ext) (hv : Holds xType v ∧ Holds (common xType bType) v) :
    (applyBucketsTyped c xType bType (some v) [bs] bs.length).bucket = bs.countP (fun b => decide (b ≤ v)) := by
  show assignBucketsTyped c xType bType (some v) [bs] .right = _
  unfold assignBucketsTyped
  unfold common at *
  split_ifs with h
  · simp only [h, if_true] at hr hbs hv
    have hid : bs.map (castExt c bType xType) = bs := by
      conv_rhs => rw [← List.map_id bs]
      exact List.map_congr_left (fun b hb => castExt_holds hx hr (hbs b hb).1 (hbs b hb).2)
    rw [List.map_singleton, hid]
    exact bucket_count bs hs v
  · simp only [h, if_false] at hr hbs hv
    show assignBuckets (some (castExt c xType bType v)) [bs] .right = _
    rw [castExt_holds hb hr hv.1 hv.2]
    exact bucket_count bs hs v

/-- **C17** for all types, compared as floats: a boundary counts if it is at most the value or equal to it after
rounding. The result is in the published domain, and larger values have larger buckets. NaN gets the last bucket. -/
theorem apply_buckets_typed_rounded (c : Casts) (xType bType : Dtype) (p e : Nat)
    (hc : common xType bType = .float p e) (hr : IsRounding p (c.round p))
    (bs : List Ext) (hs : bs.Pairwise (· ≤ ·)) (hbs : ∀ b ∈ bs, Holds bType b) (v w : Ext) (hv : Holds xType v)
    (hw : Holds xType w) :
    let bucket := fun x => (applyBucketsTyped c xType bType x [bs] bs.length).bucket
    bucket (some v) = bs.countP (fun b => decide (b ≤ v ∨ rounded (c.round p) b = rounded (c.round p) v)) ∧
    bucket (some v) ≤ bs.length ∧ (v ≤ w → bucket (some v) ≤ bucket (some w)) ∧ bucket none = bs.length := by
  intro bucket
  have key : ∀ u, Holds xType u → bucket (some u)
      = bs.countP (fun b => decide (rounded (c.round p) b ≤ rounded (c.round p) u)) := by
    intro u hu
    show assignBucketsTyped c xType bType (some u) [bs] .right = _
    unfold assignBucketsTyped
    unfold common at hc
    split_ifs at hc ⊢ with h
    · subst hc
      rw [List.map_singleton, List.map_congr_left (g := rounded (c.round p)) (fun b hb => castExt_float hr (hbs b hb)),
        bucket_count _ (List.pairwise_map.2 (hs.imp (fun h => rounded_mono hr h))), List.countP_map,
        rounded_holds hr hu]
      rfl
    · subst hc
      show assignBuckets (some (castExt c xType _ u)) [bs] .right = _
      rw [castExt_float hr hu, bucket_count bs hs]
      apply List.countP_congr
      intro b hb
      rw [rounded_holds hr (hbs b hb)]
  have hcount : bucket (some v)
      = bs.countP (fun b => decide (b ≤ v ∨ rounded (c.round p) b = rounded (c.round p) v)) := by
    rw [key v hv]
    apply List.countP_congr
    intro b hb
    simp only [decide_eq_true_eq]
    constructor
    · intro h
      rcases le_or_gt b v with h' | h'
      · exact .inl h'
      · exact .inr (le_antisymm h (rounded_mono hr h'.le))
    · rintro (h | h)
      · exact rounded_mono hr h
      · exact h.le
  refine ⟨hcount, ?_, ?_, ?_⟩
  · rw [hcount]
    exact List.countP_le_length
  · intro h
    rw [key v hv, key w hw]
    apply List.countP_mono_left
    intro b _ hb
    simp only [decide_eq_true_eq] at *
    exact hb.trans (rounded_mono hr h)
  · show assignBucketsTyped c xType bType none [bs] .right = _
    unfold assignBucketsTyped
    unfold common at hc
    split_ifs at hc ⊢ with h
    · show searchsortedRight _ none = _
      rw [searchsortedRight_nan]
      simp
    · subst hc
      show searchsortedRight _ none = _
      rw [searchsortedRight_nan]
      simp

/-! ## Rounding exists, and what it does to integers -/

/-- Rounding half up. -/
def roundUp (p : Nat) (q : ℚ) : ℚ :=
  if q = 0 then 0 else round (q / 2 ^ (Int.log 2 |q| + 1 - p)) * (2 : ℚ) ^ (Int.log 2 |q| + 1 - p)

/-- The hypothesis about rounding can be met. -/
theorem roundUp_nearest (p : Nat) (hp : 0 < p) : IsNearest p (roundUp p) := by
  intro q
  unfold roundUp
  split_ifs with hq
  · subst hq
    refine ⟨⟨0, 0, by simp, by simp⟩, fun s _ => by simp⟩
  · set e : ℤ := Int.log 2 |q| + 1 - p with he
    have hq' : 0 < |q| := abs_pos.2 hq
    have h2 : (0 : ℚ) < 2 ^ e := zpow_pos (by norm_num) _
    have lo : (2 : ℚ) ^ (p - 1) ≤ |q / 2 ^ e| := by
      rw [abs_div, abs_of_pos h2, le_div_iff₀ h2, ← zpow_natCast, ← zpow_add₀ (by norm_num)]
      have := Int.zpow_log_le_self (b := 2) (by norm_num) hq'
      rw [show ((p - 1 : ℕ) : ℤ) + e = Int.log 2 |q| by omega]
      exact_mod_cast this
    have hi : |q / 2 ^ e| < (2 : ℚ) ^ p := by
      rw [abs_div, abs_of_pos h2, div_lt_iff₀ h2, ← zpow_natCast, ← zpow_add₀ (by norm_num)]
      have := Int.lt_zpow_succ_log_self (b := 2) (by norm_num) |q|
      rw [show (p : ℤ) + e = Int.log 2 |q| + 1 by omega]
      exact_mod_cast this
    generalize ht : q / 2 ^ e = t at lo hi ⊢
    have hqt : q = t * 2 ^ e := by
      rw [← ht]
      field_simp
    have hnear := abs_sub_round t
    have hm : |round t| ≤ (2 : ℤ) ^ p := by
      have h1 : |(round t : ℚ)| < 2 ^ p + 1 := by
        have := abs_sub_abs_le_abs_sub (round t : ℚ) t
        rw [abs_sub_comm] at this
        linarith
      have : |round t| < (2 : ℤ) ^ p + 1 := by exact_mod_cast h1
      omega
    refine ⟨?_, ?_⟩
    · rcases hm.lt_or_eq with hlt | heq
      · exact ⟨_, _, hlt, rfl⟩
      · have hp1 : (2 : ℤ) ^ p = 2 ^ (p - 1) * 2 := by
          rw [← pow_succ]
          congr 1
          omega
        have hpos : (0 : ℤ) < 2 ^ (p - 1) := by positivity
        rcases abs_eq (by positivity) |>.1 heq with h | h
        · refine ⟨2 ^ (p - 1), e + 1, ?_, ?_⟩
          · rw [abs_of_pos hpos]
            linarith
          · rw [h, hp1, zpow_add₀ (by norm_num)]
            push_cast
            ring
        · refine ⟨-2 ^ (p - 1), e + 1, ?_, ?_⟩
          · rw [abs_neg, abs_of_pos hpos]
            linarith
          · rw [h, hp1, zpow_add₀ (by norm_num)]
            push_cast
            ring
    · rintro s ⟨m', e', hm', rfl⟩
      have hscale : ∀ a : ℚ, |a * 2 ^ e - q| = |t - a| * 2 ^ e := by
        intro a
        rw [hqt, ← sub_mul, abs_mul, abs_of_pos h2, abs_sub_comm]
      have hs : (m' : ℚ) * 2 ^ e' = (m' * 2 ^ (e' - e)) * 2 ^ e := by
        rw [mul_assoc, ← zpow_add₀ (by norm_num)]
        congr 2
        ring
      rw [hs, hscale, hscale]
      apply mul_le_mul_of_nonneg_right _ h2.le
      rcases le_or_gt e e' with hle | hlt
      · obtain ⟨d, hd⟩ := Int.eq_ofNat_of_zero_le (sub_nonneg.2 hle)
        have : (m' : ℚ) * 2 ^ (e' - e) = ((m' * 2 ^ d : ℤ) : ℚ) := by
          rw [hd]
          push_cast
          rfl
        rw [this]
        exact round_le t _
      · have hsmall : |(m' : ℚ) * 2 ^ (e' - e)| ≤ 2 ^ (p - 1) := by
          have h3 : (2 : ℚ) ^ (e' - e) ≤ 2 ^ (-1 : ℤ) := zpow_le_zpow_right₀ (by norm_num) (by omega)
          have h4 : |(m' : ℚ)| ≤ 2 ^ p := by exact_mod_cast hm'.le
          have hp1 : (2 : ℚ) ^ p = 2 ^ (p - 1) * 2 := by
            rw [← pow_succ]
            congr 1
            omega
          rw [abs_mul, abs_of_pos (zpow_pos (by norm_num : (0 : ℚ) < 2) _)]
          calc |(m' : ℚ)| * 2 ^ (e' - e) ≤ 2 ^ p * 2 ^ (-1 : ℤ) :=
                mul_le_mul h4 h3 (zpow_pos (by norm_num) _).le (by positivity)
            _ = 2 ^ (p - 1) := by
                rw [hp1]
                norm_num
                ring
        have hstep : |t - round t| ≤ |t| - 2 ^ (p - 1) := by
          rcases le_or_gt 0 t with h | h
          · rw [abs_of_nonneg h] at lo ⊢
            have := round_le t (2 ^ (p - 1))
            push_cast at this
            rwa [abs_of_nonneg (sub_nonneg.2 lo)] at this
          · rw [abs_of_neg h] at lo ⊢
            have := round_le t (-2 ^ (p - 1))
            push_cast at this
            rw [abs_of_nonpos (by linarith : t - -2 ^ (p - 1) ≤ 0)] at this
            linarith
        have := abs_sub_abs_le_abs_sub t (m' * 2 ^ (e' - e))
        linarith

theorem representable_int (p : Nat) (hp : 0 < p) (n : ℤ) (hn : |n| ≤ 2 ^ p) : Representable p n := by
  rcases hn.lt_or_eq with h | h
  · exact ⟨n, 0, h, by simp⟩
  · have h1 : (1 : ℤ) < 2 ^ p := one_lt_pow₀ (by norm_num) (by omega)
    rcases abs_eq (by positivity) |>.1 h with h | h
    · exact ⟨1, p, by simpa using h1, by rw [h]; simp⟩
    · exact ⟨-1, p, by simpa using h1, by rw [h]; simp⟩

/-- The usual case: integers of up to 24 bits in buckets whose boundaries are `float32`. -/
theorem apply_buckets_small_integers (c : Casts) (hr : IsRounding 24 (c.round 24)) (bs : List Ext)
    (hs : bs.Pairwise (· ≤ ·)) (hbs : ∀ b ∈ bs, Holds .float32 b) (n : ℤ) (hn : |n| ≤ 2 ^ 24) :
    (applyBucketsTyped c .int64 .float32 (some (finite n)) [bs] bs.length).bucket
      = bs.countP (fun b => decide (b ≤ finite n)) := by
  have hc : common .int64 .float32 = .float32 := by decide +kernel
  apply apply_buckets_typed_exact c .int64 .float32 (by show 0 < 64; norm_num) trivial
  · rintro p e h
    rw [hc] at h
    cases h
    exact hr
  · exact hs
  · intro b hb
    rw [hc]
    exact ⟨hbs b hb, hbs b hb⟩
  · rw [hc]
    have hn' := abs_le.1 hn
    refine ⟨⟨n, rfl, ?_, ?_⟩, .inr (.inr ⟨n, rfl, representable_int 24 (by norm_num) n hn, ?_⟩)⟩
    · have : minInt true 64 = -2 ^ 63 := by decide +kernel
      rw [this]
      linarith
    · have h : ((n : ℤ) : ℚ) ≤ 2 ^ 24 := by exact_mod_cast hn'.2
      refine h.trans (by decide +kernel)
    · have h : |((n : ℤ) : ℚ)| ≤ 2 ^ 24 := by exact_mod_cast hn
      refine h.trans (by decide +kernel)

/-! ## Where the property fails -/

/-- 33554435 is rounded to 33554436. -/
theorem nearest_33554435 (r : ℚ → ℚ) (h : IsNearest 24 r) : r 33554435 = 33554436 := by
  obtain ⟨⟨m, e, hm, hq⟩, hle⟩ := h 33554435
  have hd := hle 33554436 ⟨8388609, 2, by norm_num, by norm_num⟩
  rw [show |(33554436 : ℚ) - 33554435| = 1 by norm_num, abs_le] at hd
  have he : 2 ≤ e := by
    by_contra hlt
    have h1 : (2 : ℚ) ^ e ≤ 2 ^ (1 : ℤ) := zpow_le_zpow_right₀ (by norm_num) (by omega)
    have h2 : (0 : ℚ) < 2 ^ e := zpow_pos (by norm_num) _
    have h3 : (m : ℚ) ≤ 2 ^ 24 - 1 := by
      have := (abs_lt.1 hm).2
      have : m ≤ 2 ^ 24 - 1 := by omega
      exact_mod_cast this
    norm_num at h1 h3
    have : (m : ℚ) * 2 ^ e ≤ 16777215 * 2 := by
      rcases le_or_gt 0 (m : ℚ) with h0 | h0
      · exact mul_le_mul h3 h1 h2.le (by norm_num)
      · nlinarith
    rw [← hq] at this
    linarith [hd.1]
  obtain ⟨d, hd'⟩ := Int.eq_ofNat_of_zero_le (sub_nonneg.2 he)
  have hk : r 33554435 = ((4 * (m * 2 ^ d) : ℤ) : ℚ) := by
    rw [hq, show e = 2 + (d : ℤ) by omega, zpow_add₀ (by norm_num)]
    push_cast
    norm_num
    ring
  rw [hk] at hd ⊢
  generalize m * 2 ^ d = k at hd ⊢
  have h1 : (33554434 : ℤ) ≤ 4 * k := by
    have : (33554434 : ℚ) ≤ ((4 * k : ℤ) : ℚ) := by linarith [hd.1]
    exact_mod_cast this
  have h2 : 4 * k ≤ (33554436 : ℤ) := by
    have : ((4 * k : ℤ) : ℚ) ≤ 33554436 := by linarith [hd.2]
    exact_mod_cast this
  have : 4 * k = (33554436 : ℤ) := by omega
  rw [this]
  norm_num

/-- **C17** fails for large integers: 33554435 is below the boundary 33554436 and gets the bucket above it. -/
theorem large_integer_wrong_bucket (c : Casts) (hc : IsNearest 24 (c.round 24)) :
    Holds .int64 (finite 33554435) ∧ Holds .float32 (finite 33554436) ∧ finite 33554435 < finite 33554436 ∧
    (applyBucketsTyped c .int64 .float32 (some (finite 33554435)) [[finite 33554436]] 1).bucket = 1 := by
  refine ⟨⟨33554435, by norm_num [finite], by decide +kernel, by decide +kernel⟩,
    .inr (.inr ⟨33554436, rfl, ⟨8388609, 2, by norm_num, by norm_num⟩, by decide +kernel⟩), by decide +kernel, ?_⟩
  show assignBucketsTyped c .int64 .float32 (some (finite 33554435)) [[finite 33554436]] .right = 1
  unfold assignBucketsTyped
  rw [if_neg (by decide +kernel)]
  show assignBuckets (some (finite (c.round 24 33554435))) [[finite 33554436]] .right = 1
  rw [nearest_33554435 _ hc]
  decide +kernel

/-- **C17** fails for negative values and unsigned boundaries: the value wraps and gets the last bucket. -/
theorem negative_value_wrong_bucket (c : Casts) :
    Holds .int64 (finite (-1)) ∧ Holds .uint64 (finite 5) ∧ finite (-1) < finite 5 ∧
    (applyBucketsTyped c .int64 .uint64 (some (finite (-1))) [[finite 5]] 1).bucket = 1 := by
  refine ⟨⟨-1, by norm_num [finite], by decide +kernel, by decide +kernel⟩,
    ⟨5, by norm_num [finite], by decide +kernel, by decide +kernel⟩, by decide +kernel, ?_⟩
  show assignBucketsTyped c .int64 .uint64 (some (finite (-1))) [[finite 5]] .right = 1
  unfold assignBucketsTyped
  rw [if_neg (by decide +kernel)]
  show assignBuckets (some (finite ((wrap false 64 ⌊(-1 : ℚ)⌋ : ℤ) : ℚ))) [[finite 5]] .right = 1
  decide +kernel

/-- **C17** fails for integers and boundaries of type `float16`: the boundaries are truncated, and 0 gets the bucket above
the boundary 1/2. -/
theorem truncated_boundary_wrong_bucket (c : Casts) :
    Holds .int32 (finite 0) ∧ Holds .float16 (finite (1 / 2)) ∧ finite 0 < finite (1 / 2) ∧
    (applyBucketsTyped c .int32 .float16 (some (finite 0)) [[finite (1 / 2)]] 1).bucket = 1 := by
  refine ⟨⟨0, by norm_num [finite], by decide +kernel, by decide +kernel⟩,
    .inr (.inr ⟨1 / 2, rfl, ⟨1, -1, by norm_num, by norm_num⟩, by decide +kernel⟩), by decide +kernel, ?_⟩
  show assignBucketsTyped c .int32 .float16 (some (finite 0)) [[finite (1 / 2)]] .right = 1
  unfold assignBucketsTyped
  rw [if_pos (by decide +kernel)]
  show assignBuckets (some (finite 0)) [[if minInt true 32 ≤ truncate (1 / 2) ∧
    (truncate (1 / 2) : ℚ) ≤ (Dtype.int true 32).max then finite (truncate (1 / 2)) else _]] .right = 1
  rw [if_pos (by decide +kernel)]
  decide +kernel

/-- Not vacuous: the hypotheses of `apply_buckets_typed_exact` and `apply_buckets_typed_rounded` for `int64` values and
`float32` boundaries. -/
example : IsRounding 24 ((⟨roundUp, fun _ _ => 0⟩ : Casts).round 24) ∧ common .int64 .float32 = .float32 ∧
    [finite (1 / 2), finite 33554436].Pairwise (· ≤ ·) ∧
    (∀ b ∈ [finite (1 / 2), finite 33554436], Holds .float32 b) ∧ Holds .int64 (finite 33554435) ∧
    Holds .int64 (finite 7) ∧ Holds .float32 (finite 7) := by
  refine ⟨nearest_isRounding (roundUp_nearest 24 (by norm_num)), by decide +kernel, by decide +kernel, ?_,
    ⟨33554435, by norm_num [finite], by decide +kernel, by decide +kernel⟩,
    ⟨7, by norm_num [finite], by decide +kernel, by decide +kernel⟩,
    .inr (.inr ⟨7, rfl, ⟨7, 0, by norm_num, by norm_num⟩, by decide +kernel⟩)⟩
  intro b hb
  simp only [List.mem_cons, List.not_mem_nil, or_false] at hb
  rcases hb with rfl | rfl
  · exact .inr (.inr ⟨1 / 2, rfl, ⟨1, -1, by norm_num, by norm_num⟩, by decide +kernel⟩)
  · exact .inr (.inr ⟨33554436, rfl, ⟨8388609, 2, by norm_num, by norm_num⟩, by decide +kernel⟩)

end TFT.Buckets
