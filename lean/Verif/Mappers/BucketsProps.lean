import Verif.Mappers.Buckets
import Mathlib.Data.List.Sort
import Mathlib.Tactic.Linarith
import Mathlib.Tactic.FieldSimp
import Mathlib.Algebra.Order.Field.Basic
import Mathlib.Tactic.Ring
import Mathlib.Data.List.GetD

/-!
# C17, C18: buckets and interpolation
-/

namespace TFT.Buckets

section assign

variable {α : Type} [LinearOrder α]

/-- What the position means, for sorted boundaries. -/
theorem searchsortedRight_spec (bs : List α) (hs : bs.Pairwise (· ≤ ·)) (v : α) :
    searchsortedRight bs (some v) ≤ bs.length ∧
    (∀ i (h : i < bs.length), i < searchsortedRight bs (some v) ↔ bs[i] ≤ v) := by
  unfold searchsortedRight
  simp only [Option.any_some]
  induction bs with
  | nil => simp
  | cons b bs ih =>
    rw [List.pairwise_cons] at hs
    obtain ⟨hb, hs⟩ := hs
    obtain ⟨ih1, ih2⟩ := ih hs
    rw [List.takeWhile_cons]
    by_cases h : v < b
    · simp only [h, decide_true, Bool.not_true, Bool.false_eq_true, if_false, List.length_nil,
        Nat.zero_le, true_and, Nat.not_lt_zero, false_iff, not_le]
      intro i hi
      cases i with
      | zero => exact h
      | succ i => exact lt_of_lt_of_le h (hb _ (by simp))
    · simp only [h, decide_false, Bool.not_false, if_true, List.length_cons]
      refine ⟨by omega, ?_⟩
      intro i hi
      cases i with
      | zero => simp [not_lt.1 h]
      | succ i =>
        have := ih2 i (by simpa using hi)
        simp only [List.getElem_cons_succ, Nat.succ_lt_succ_iff]
        exact this

theorem searchsortedRight_nan (bs : List α) : searchsortedRight bs none = bs.length := by
  unfold searchsortedRight
  induction bs with
  | nil => rfl
  | cons b bs ih => simpa using ih

theorem searchsortedRight_countP (bs : List α) (hs : bs.Pairwise (· ≤ ·)) (v : α) :
    searchsortedRight bs (some v) = bs.countP (fun b => decide (b ≤ v)) := by
  unfold searchsortedRight
  simp only [Option.any_some]
  induction bs with
  | nil => simp
  | cons b bs ih =>
    rw [List.pairwise_cons] at hs
    rw [List.takeWhile_cons, List.countP_cons]
    by_cases h : v < b
    · have h0 : bs.countP (fun b => decide (b ≤ v)) = 0 := by
        rw [List.countP_eq_zero]
        intro x hx
        simp only [decide_eq_true_eq, not_le]
        exact lt_of_lt_of_le h (hs.1 x hx)
      simp [h, h0, not_le.2 h]
    · simp [h, not_lt.1 h, ih hs.2]

/-- **C17.** For sorted boundaries (one row): the bucket of `v` is the number of boundaries
that are at most `v`; bucket `i` means that `v` is at or above boundary `i-1` and below boundary
`i`; NaN gets the last bucket; the result lies in the published domain. -/
theorem apply_buckets_spec (bs : List α) (hs : bs.Pairwise (· ≤ ·)) (x : Option α) :
    let r := applyBuckets x [bs] bs.length
    (r.minValue ≤ r.bucket ∧ (r.bucket : Int) ≤ r.maxValue) ∧
    r.minValue = 0 ∧ r.maxValue = bs.length ∧
    (x = none → r.bucket = bs.length) ∧
    (∀ v, x = some v → r.bucket = bs.countP (fun b => decide (b ≤ v)) ∧
      (∀ i (h : i < bs.length), i + 1 = r.bucket → bs[i] ≤ v) ∧
      (∀ h : r.bucket < bs.length, v < bs[r.bucket])) := by
  intro r
  have hle : r.bucket ≤ bs.length := by
    show searchsortedRight [bs].flatten x ≤ _
    unfold searchsortedRight
    simpa using (List.takeWhile_sublist _).length_le
  refine ⟨⟨by simp [r, applyBuckets], by show (r.bucket : Int) ≤ (bs.length : Int); exact_mod_cast hle⟩, rfl, rfl, ?_, ?_⟩
  · rintro rfl
    show searchsortedRight [bs].flatten none = _
    rw [searchsortedRight_nan]; simp
  · rintro v rfl
    have he : r.bucket = searchsortedRight bs (some v) := by
      show searchsortedRight [bs].flatten (some v) = _
      simp
    have hsp := searchsortedRight_spec bs hs v
    refine ⟨he.trans (searchsortedRight_countP bs hs v), ?_, ?_⟩
    · intro i h hi
      exact (hsp.2 i h).1 (by omega)
    · intro h
      by_contra hc
      have := (hsp.2 _ h).2 (not_lt.1 hc)
      omega

/-- **C17**, monotonicity. -/
theorem apply_buckets_monotone (bs : List α) (hs : bs.Pairwise (· ≤ ·)) (v w : α) (h : v ≤ w) :
    (applyBuckets (some v) [bs] bs.length).bucket
      ≤ (applyBuckets (some w) [bs] bs.length).bucket := by
  rw [((apply_buckets_spec bs hs (some v)).2.2.2.2 v rfl).1,
    ((apply_buckets_spec bs hs (some w)).2.2.2.2 w rfl).1]
  apply List.countP_mono_left
  intro b _ hb
  simp only [decide_eq_true_eq] at *
  exact hb.trans h

/-- Not vacuous: the example of the documentation. -/
example : [(2 : ℚ), 5, 10].Pairwise (· ≤ ·) ∧
    [some 4, none, some 1, some 7, some 10].map
      (fun x => (applyBuckets x [[(2 : ℚ), 5, 10]] 3).bucket) = [1, 3, 0, 2, 3] := by
  decide +kernel

/-- **C17** fails for boundaries given as a column: the value gets bucket 2, but the published
maximum is 1. -/
theorem apply_buckets_column_wrong :
    (applyBuckets (some (7 : ℚ)) [[2], [5]] 1).bucket = 2 ∧
    (applyBuckets (some (7 : ℚ)) [[2], [5]] 1).maxValue = 1 := by
  decide +kernel

end assign

/-! ## Interpolation -/

/-- A finite float. -/
def fin (q : ℚ) : Option Ext := some (some (some q))

theorem finiteBoundaries_fin (bs : List ℚ) : finiteBoundaries (bs.map fin) = bs := by
  unfold finiteBoundaries
  induction bs with
  | nil => rfl
  | cons b bs ih => simp [toFinite, fin, ih]

theorem ext_le (a b : ℚ) : (((a : WithTop ℚ) : Ext) ≤ ((b : WithTop ℚ) : Ext)) ↔ a ≤ b := by
  rw [WithBot.coe_le_coe, WithTop.coe_le_coe]

/-- Position among the finite boundaries. -/
def pos (bs : List ℚ) (x : Option Ext) : Nat :=
  searchsortedRight (bs.map (fun q : ℚ => ((q : WithTop ℚ) : Ext))) x

theorem pairwise_ext {bs : List ℚ} (hs : bs.Pairwise (· ≤ ·)) :
    (bs.map (fun q : ℚ => ((q : WithTop ℚ) : Ext))).Pairwise (· ≤ ·) := by
  rw [List.pairwise_map]
  exact hs.imp (fun {a b} h => (ext_le a b).2 h)

theorem pos_le (bs : List ℚ) (x : Option Ext) : pos bs x ≤ bs.length := by
  unfold pos searchsortedRight
  refine le_trans (List.takeWhile_sublist _).length_le ?_
  rw [List.length_map]

theorem pos_lt_iff (bs : List ℚ) (hs : bs.Pairwise (· ≤ ·)) (v : Ext) (i : Nat)
    (h : i < bs.length) : i < pos bs (some v) ↔ ((bs[i] : WithTop ℚ) : Ext) ≤ v := by
  have := (searchsortedRight_spec _ (pairwise_ext hs) v).2 i (by simpa using h)
  simpa [pos] using this

theorem getD_last (bs : List ℚ) (i : Nat) (h : i < bs.length) :
    (bs ++ bs.getLast?.toList).getD i 0 = bs[i] := by
  rw [List.getD_eq_getElem _ _ (by simp; omega), List.getElem_append_left h]

theorem getD_first (bs : List ℚ) (i : Nat) (h : i < bs.length) :
    (bs.head?.toList ++ bs).getD (i + 1) 0 = bs[i] := by
  cases bs with
  | nil => simp at h
  | cons b bs =>
    simp only [List.head?_cons, Option.toList_some, List.singleton_append]
    rw [List.getD_cons_succ, List.getD_eq_getElem _ _ h]

/-- Between two boundaries a value is finite. -/
theorem between_finite (bs : List ℚ) (hs : bs.Pairwise (· ≤ ·)) (x : Option Ext)
    (h0 : pos bs x ≠ 0) (hn : pos bs x ≠ bs.length) :
    ∃ (q : ℚ) (i : Nat) (hi : i + 1 < bs.length), x = fin q ∧ pos bs x = i + 1 ∧
      bs[i] ≤ q ∧ q < bs[i + 1] := by
  have hlt : pos bs x < bs.length := lt_of_le_of_ne (pos_le bs x) hn
  cases x with
  | none =>
    exfalso; apply hn
    show searchsortedRight _ none = _
    rw [searchsortedRight_nan]; simp
  | some v =>
    obtain ⟨i, hi⟩ := Nat.exists_eq_succ_of_ne_zero h0
    have hi1 : i < bs.length := by omega
    have hi2 : i + 1 < bs.length := by omega
    have h1 := (pos_lt_iff bs hs v i hi1).1 (by omega)
    have h2 : ¬ (((bs[i + 1]'(by omega) : ℚ) : WithTop ℚ) : Ext) ≤ v := by
      intro h
      have := (pos_lt_iff bs hs v (i + 1) (by omega)).2 h
      omega
    rw [not_le] at h2
    cases v using WithBot.recBotCoe with
    | bot => exact absurd h1 (WithBot.not_coe_le_bot _)
    | coe v =>
      cases v using WithTop.recTopCoe with
      | top =>
        rw [WithBot.coe_lt_coe] at h2
        exact absurd h2 (not_lt.2 le_top)
      | coe q =>
        refine ⟨q, i, hi2, rfl, by omega, (ext_le _ _).1 h1, ?_⟩
        exact not_le.1 (mt (ext_le (bs[i + 1]'hi2) q).2 (not_le.2 h2))

/-- Interpolation, case by case. -/
theorem interpolate_cases (bs : List ℚ) (hs : bs.Pairwise (· ≤ ·)) (hne : bs ≠ [])
    (h1 : bs.length ≠ 1) (x : Option Ext) (hx : x ≠ none) :
    (pos bs x = 0 → interpolate (bs.map fin) x = .ok 0) ∧
    (pos bs x = bs.length → interpolate (bs.map fin) x = .ok 1) ∧
    (∀ (q : ℚ) (i : Nat) (hi : i + 1 < bs.length), x = fin q → pos bs x = i + 1 →
      interpolate (bs.map fin) x
        = .ok ((i + (q - bs[i]) / (bs[i + 1] - bs[i])) / (bs.length - 1))) := by
  have hn : bs.length ≠ 0 := by simpa using hne
  have hcast : ((max (bs.length - 1) 1 : Nat) : ℚ) = (bs.length : ℚ) - 1 := by
    have : max (bs.length - 1) 1 = bs.length - 1 := by omega
    rw [this, Nat.cast_sub (by omega)]; simp
  have hpos : (0 : ℚ) < (bs.length : ℚ) - 1 := by
    have : (2 : ℚ) ≤ bs.length := by exact_mod_cast (show 2 ≤ bs.length by omega)
    linarith
  have hposdef : searchsortedRight (bs.map (fun q : ℚ => ((q : WithTop ℚ) : Ext))) x = pos bs x := rfl
  unfold interpolate
  simp only [finiteBoundaries_fin, if_neg hn, hposdef, if_neg h1, if_neg hx]
  refine ⟨?_, ?_, ?_⟩
  · intro h; simp [h]
  · intro h
    simp only [h, hn, or_true, if_true, add_zero, hcast]
    rw [Nat.cast_sub (by omega)]
    simp only [Nat.cast_one, Except.ok.injEq]
    exact div_self hpos.ne'
  · intro q i hi hq h
    have hw : bs[i + 1] - bs[i] ≠ 0 := by
      obtain ⟨q', j, hj, -, hj2, h5, h6⟩ := between_finite bs hs x (by omega) (by omega)
      have : j = i := by omega
      subst this
      exact (sub_pos.2 (lt_of_le_of_lt h5 h6)).ne'
    have hmid : ¬ (i + 1 = 0 ∨ i + 1 = bs.length) := by omega
    simp only [h, if_neg hmid, getD_last bs (i + 1) hi, getD_first bs i (by omega), if_neg hw, hcast,
      Nat.add_sub_cancel]
    rw [hq]
    simp [toFinite, fin]

/-- **C18.** For strictly increasing finite boundaries (at least two) interpolation succeeds for
every float that is not NaN and gives a value in `[0,1]`: 0 at or below the lowest boundary, 1 at
or above the highest, `i/(n-1)` at boundary `i`. -/
theorem interpolate_spec (bs : List ℚ) (hs : bs.Pairwise (· < ·)) (h2 : 2 ≤ bs.length)
    (x : Ext) :
    ∃ v, interpolate (bs.map fin) (some x) = .ok v ∧ 0 ≤ v ∧ v ≤ 1 ∧
      (x ≤ ((bs[0] : WithTop ℚ) : Ext) → v = 0) ∧
      (((bs[bs.length - 1] : WithTop ℚ) : Ext) ≤ x → v = 1) ∧
      (∀ i (h : i < bs.length), x = ((bs[i] : WithTop ℚ) : Ext) → v = i / (bs.length - 1)) := by
  have hne : bs ≠ [] := by rintro rfl; simp at h2
  have hpos : (0 : ℚ) < (bs.length : ℚ) - 1 := by
    have : (2 : ℚ) ≤ bs.length := by exact_mod_cast h2
    linarith
  have hs' : bs.Pairwise (· ≤ ·) := hs.imp le_of_lt
  obtain ⟨c0, cn, ci⟩ := interpolate_cases bs hs' hne (by omega) (some x) (by simp)
  have hmono : ∀ (i j : Nat) (hi : i < bs.length) (hj : j < bs.length), bs[i] ≤ bs[j] → i ≤ j := by
    intro i j hi hj h
    by_contra hc
    have := List.pairwise_iff_getElem.1 hs j i hj hi (by omega)
    linarith
  have hmono' : ∀ (i j : Nat) (hi : i < bs.length) (hj : j < bs.length), i ≤ j → bs[i] ≤ bs[j] := by
    intro i j hi hj h
    rcases Nat.lt_or_eq_of_le h with h | rfl
    · exact (List.pairwise_iff_getElem.1 hs i j hi hj h).le
    · exact le_refl _
  by_cases hp0 : pos bs (some x) = 0
  · refine ⟨0, c0 hp0, le_refl _, zero_le_one, fun _ => rfl, ?_, ?_⟩
    · intro h
      have := (pos_lt_iff bs hs' x (bs.length - 1) (by omega)).2 h
      omega
    · rintro i h rfl
      have := (pos_lt_iff bs hs' _ i h).2 (le_refl _)
      omega
  · by_cases hpn : pos bs (some x) = bs.length
    · refine ⟨1, cn hpn, zero_le_one, le_refl _, ?_, fun _ => rfl, ?_⟩
      · intro h
        have h3 := (pos_lt_iff bs hs' x 1 (by omega)).1 (by omega)
        have := (ext_le _ _).1 (h3.trans h)
        have := hmono 1 0 (by omega) (by omega) this
        omega
      · rintro i h rfl
        have h3 := (ext_le _ _).1 ((pos_lt_iff bs hs' _ (bs.length - 1) (by omega)).1
          (by rw [hpn]; omega))
        have := hmono _ _ (by omega) h h3
        have : i = bs.length - 1 := by omega
        subst this
        rw [Nat.cast_sub (by omega), Nat.cast_one, div_self hpos.ne']
    · obtain ⟨q, i, hi, hq, hpi, hlo, hhi⟩ := between_finite bs hs' (some x) hp0 hpn
      have hx : x = ((q : WithTop ℚ) : Ext) := Option.some.inj hq
      have hw : 0 < bs[i + 1] - bs[i] := by linarith
      have hfr0 : 0 ≤ (q - bs[i]) / (bs[i + 1] - bs[i]) := div_nonneg (by linarith) hw.le
      have hfr1 : (q - bs[i]) / (bs[i + 1] - bs[i]) ≤ 1 := by
        rw [div_le_one hw]; linarith
      have hin : (i : ℚ) + 1 ≤ bs.length - 1 := by
        have : (i : ℚ) + 1 + 1 ≤ bs.length := by exact_mod_cast (show i + 1 + 1 ≤ bs.length by omega)
        linarith
      refine ⟨_, ci q i hi hq hpi, ?_, ?_, ?_, ?_, ?_⟩
      · apply div_nonneg _ hpos.le
        have : (0 : ℚ) ≤ i := by positivity
        linarith
      · rw [div_le_one hpos]; linarith
      · intro h
        rw [hx, ext_le] at h
        have h0 := hmono i 0 (by omega) (by omega) (hlo.trans h)
        have : i = 0 := by omega
        subst this
        have : q = bs[0] := le_antisymm h hlo
        simp [this]
      · intro h
        rw [hx, ext_le] at h
        have := hmono _ _ (by omega) hi (h.trans hhi.le)
        have he : i + 1 = bs.length - 1 := by omega
        have : bs[i + 1] = bs[bs.length - 1] := by congr
        linarith
      · intro k hk h
        rw [hx] at h
        have hqk : q = bs[k] := le_antisymm ((ext_le _ _).1 h.le) ((ext_le _ _).1 h.ge)
        have h1 := hmono i k (by omega) hk (by rw [← hqk]; exact hlo)
        have h3 : k ≤ i := by
          by_contra hc
          have := hmono' (i + 1) k hi hk (by omega)
          linarith
        have : k = i := by omega
        subst this
        simp [hqk]

/-- **C18**, range: for all boundaries in order, repeated ones too (as quantiles may give), every
float that is not NaN is mapped into `[0,1]`: 0 below the lowest boundary, 1 from the highest one on,
and in between the `k`-th boundary that is not above the value gives the interval to interpolate in. -/
theorem interpolate_range (bs : List ℚ) (hs : bs.Pairwise (· ≤ ·)) (h2 : 2 ≤ bs.length) (x : Ext) :
    ∃ v, interpolate (bs.map fin) (some x) = .ok v ∧ 0 ≤ v ∧ v ≤ 1 ∧
      (x < ((bs[0] : WithTop ℚ) : Ext) → v = 0) ∧
      (((bs[bs.length - 1] : WithTop ℚ) : Ext) ≤ x → v = 1) ∧
      (∀ (q : ℚ) (i : Nat) (hi : i + 1 < bs.length), x = ((q : WithTop ℚ) : Ext) → bs[i] ≤ q →
        q < bs[i + 1] → v = (i + (q - bs[i]) / (bs[i + 1] - bs[i])) / (bs.length - 1)) := by
  have hne : bs ≠ [] := by rintro rfl; simp at h2
  have hpos : (0 : ℚ) < (bs.length : ℚ) - 1 := by
    have : (2 : ℚ) ≤ bs.length := by exact_mod_cast h2
    linarith
  obtain ⟨c0, cn, ci⟩ := interpolate_cases bs hs hne (by omega) (some x) (by simp)
  by_cases hp0 : pos bs (some x) = 0
  · refine ⟨0, c0 hp0, le_refl _, zero_le_one, fun _ => rfl, ?_, ?_⟩
    · intro h
      have := (pos_lt_iff bs hs x (bs.length - 1) (by omega)).2 h
      omega
    · rintro q i hi rfl h5 -
      have := (pos_lt_iff bs hs _ i (by omega)).2 ((ext_le _ _).2 h5)
      omega
  · by_cases hpn : pos bs (some x) = bs.length
    · refine ⟨1, cn hpn, zero_le_one, le_refl _, ?_, fun _ => rfl, ?_⟩
      · intro h
        have h3 := (pos_lt_iff bs hs x 0 (by omega)).1 (by omega)
        exact absurd h3 (not_le.2 h)
      · rintro q i hi rfl - h6
        have := (pos_lt_iff bs hs ((q : WithTop ℚ) : Ext) (i + 1) hi).1 (by omega)
        exact absurd ((ext_le _ _).1 this) (not_le.2 h6)
    · obtain ⟨q, i, hi, hq, hpi, hlo, hhi⟩ := between_finite bs hs (some x) hp0 hpn
      have hx : x = ((q : WithTop ℚ) : Ext) := Option.some.inj hq
      have hw : 0 < bs[i + 1] - bs[i] := by linarith
      have hfr0 : 0 ≤ (q - bs[i]) / (bs[i + 1] - bs[i]) := div_nonneg (by linarith) hw.le
      have hfr1 : (q - bs[i]) / (bs[i + 1] - bs[i]) ≤ 1 := by
        rw [div_le_one hw]; linarith
      have hin : (i : ℚ) + 1 ≤ bs.length - 1 := by
        have : (i : ℚ) + 1 + 1 ≤ bs.length := by exact_mod_cast (show i + 1 + 1 ≤ bs.length by omega)
        linarith
      refine ⟨_, ci q i hi hq hpi, ?_, ?_, ?_, ?_, ?_⟩
      · apply div_nonneg _ hpos.le
        have : (0 : ℚ) ≤ i := by positivity
        linarith
      · rw [div_le_one hpos]; linarith
      · intro h
        have h3 := (pos_lt_iff bs hs x 0 (by omega)).1 (by omega)
        exact absurd h3 (not_le.2 h)
      · intro h
        have := (pos_lt_iff bs hs x (bs.length - 1) (by omega)).2 h
        omega
      · intro q' j hj hq' h5 h6
        have hqq : q' = q := by
          rw [hx] at hq'
          exact le_antisymm ((ext_le _ _).1 hq'.ge) ((ext_le _ _).1 hq'.le)
        subst hqq
        have h7 := (pos_lt_iff bs hs x j (by omega)).2 (by rw [hx]; exact (ext_le _ _).2 h5)
        have h8 : ¬ j + 1 < pos bs (some x) := by
          intro h
          have := (pos_lt_iff bs hs x (j + 1) hj).1 h
          rw [hx] at this
          exact absurd ((ext_le _ _).1 this) (not_le.2 h6)
        have : j = i := by omega
        subst this
        rfl

/-- **C18**, monotonicity, for all boundaries in order (repeated ones too). -/
theorem interpolate_monotone (bs : List ℚ) (hs : bs.Pairwise (· ≤ ·)) (h2 : 2 ≤ bs.length)
    (x y : Ext) (hxy : x ≤ y) (v w : ℚ)
    (hv : interpolate (bs.map fin) (some x) = .ok v)
    (hw : interpolate (bs.map fin) (some y) = .ok w) : v ≤ w := by
  have hne : bs ≠ [] := by rintro rfl; simp at h2
  have hpos : (0 : ℚ) < (bs.length : ℚ) - 1 := by
    have : (2 : ℚ) ≤ bs.length := by exact_mod_cast h2
    linarith
  obtain ⟨x0, xn, xi⟩ := interpolate_cases bs hs hne (by omega) (some x) (by simp)
  obtain ⟨y0, yn, yi⟩ := interpolate_cases bs hs hne (by omega) (some y) (by simp)
  obtain ⟨v', hv', hv0, hv1, -⟩ := interpolate_range bs hs h2 x
  obtain ⟨w', hw', hw0, hw1, -⟩ := interpolate_range bs hs h2 y
  rw [hv] at hv'; rw [hw] at hw'
  obtain rfl := Except.ok.inj hv'
  obtain rfl := Except.ok.inj hw'
  have hple : pos bs (some x) ≤ pos bs (some y) := by
    by_contra hc
    have hlt : pos bs (some y) < bs.length := by have := pos_le bs (some x); omega
    have h1 := (pos_lt_iff bs hs x _ hlt).1 (by omega)
    have := (pos_lt_iff bs hs y _ hlt).2 (h1.trans hxy)
    omega
  by_cases hx0 : pos bs (some x) = 0
  · rw [x0 hx0] at hv; obtain rfl := Except.ok.inj hv; exact hw0
  by_cases hyn : pos bs (some y) = bs.length
  · rw [yn hyn] at hw; obtain rfl := Except.ok.inj hw; exact hv1
  have hxn : pos bs (some x) ≠ bs.length := by have := pos_le bs (some y); omega
  obtain ⟨p, i, hi, hp, hpi, hlo, hhi⟩ := between_finite bs hs (some x) hx0 hxn
  obtain ⟨q, j, hj, hq, hqj, hlo', hhi'⟩ := between_finite bs hs (some y) (by omega) hyn
  rw [xi p i hi hp hpi] at hv
  rw [yi q j hj hq hqj] at hw
  obtain rfl := Except.ok.inj hv
  obtain rfl := Except.ok.inj hw
  have hpq : p ≤ q := by
    have hx : x = ((p : WithTop ℚ) : Ext) := Option.some.inj hp
    have hy : y = ((q : WithTop ℚ) : Ext) := Option.some.inj hq
    rw [hx, hy, ext_le] at hxy
    exact hxy
  apply div_le_div_of_nonneg_right _ hpos.le
  have hwi : 0 < bs[i + 1] - bs[i] := by linarith
  have hwj : 0 < bs[j + 1] - bs[j] := by linarith
  by_cases hij : i = j
  · subst hij
    have : (p - bs[i]) / (bs[i + 1] - bs[i]) ≤ (q - bs[i]) / (bs[i + 1] - bs[i]) :=
      div_le_div_of_nonneg_right (by linarith) hwi.le
    linarith
  · have h1 : (p - bs[i]) / (bs[i + 1] - bs[i]) ≤ 1 := by rw [div_le_one hwi]; linarith
    have h3 : 0 ≤ (q - bs[j]) / (bs[j + 1] - bs[j]) := div_nonneg (by linarith) hwj.le
    have : (i : ℚ) + 1 ≤ j := by exact_mod_cast (show i + 1 ≤ j by omega)
    linarith

/-- **C18** with a single boundary: a step at the boundary. -/
theorem interpolate_single (b : ℚ) (x : Ext) :
    interpolate [fin b] (some x) = .ok (if x < ((b : WithTop ℚ) : Ext) then 0 else 1) := by
  have hs : [b].Pairwise (· ≤ ·) := by simp
  have hp := pos_lt_iff [b] hs x 0 (by simp)
  have hle := pos_le [b] (some x)
  have hf : finiteBoundaries [fin b] = [b] := finiteBoundaries_fin [b]
  have hpd : searchsortedRight ([b].map (fun q : ℚ => ((q : WithTop ℚ) : Ext))) (some x)
      = pos [b] (some x) := rfl
  simp only [List.length_singleton, List.getElem_cons_zero] at hp hle
  unfold interpolate
  simp only [hf, hpd, List.length_singleton, one_ne_zero, if_false]
  by_cases h : x < ((b : WithTop ℚ) : Ext)
  · have : pos [b] (some x) = 0 := by
      by_contra hc
      exact absurd (hp.1 (by omega)) (not_le.2 h)
    simp [this, h]
  · have : pos [b] (some x) = 1 := by
      have := hp.2 (not_lt.1 h); omega
    simp [this, h]

/-- NaN is mapped to 1/2 if there are at least two boundaries; with a single boundary it is
mapped to 1, against the documentation. -/
theorem interpolate_nan (bs : List ℚ) (h : bs ≠ []) :
    interpolate (bs.map fin) none = .ok (if bs.length = 1 then 1 else 1 / 2) := by
  have hn : bs.length ≠ 0 := by simpa using h
  unfold interpolate
  simp only [finiteBoundaries_fin, searchsortedRight_nan, List.length_map, hn, or_true,
    if_true, if_false]

/-- A float is finite. -/
def IsFinite (b : Option Ext) : Prop := b ≠ none ∧ b ≠ some ⊥ ∧ b ≠ some ((⊤ : WithTop ℚ) : Ext)

/-- **C18** Boundaries that are infinite or NaN do not count: if the finite ones are `fs`, in this
order, the result is that for the boundaries `fs`. -/
theorem interpolate_finite_boundaries [DecidablePred IsFinite] (boundaries : List (Option Ext))
    (fs : List ℚ) (h : boundaries.filter (fun b => decide (IsFinite b)) = fs.map fin)
    (x : Option Ext) : interpolate boundaries x = interpolate (fs.map fin) x := by
  have key : ∀ (bs : List (Option Ext)),
      finiteBoundaries bs = finiteBoundaries (bs.filter (fun b => decide (IsFinite b))) := by
    intro bs
    induction bs with
    | nil => rfl
    | cons b bs ih =>
      unfold finiteBoundaries at ih ⊢
      by_cases hb : IsFinite b
      · rw [List.filter_cons, if_pos (by simpa using hb), List.filterMap_cons, List.filterMap_cons, ih]
      · rw [List.filter_cons, if_neg (by simpa using hb), List.filterMap_cons]
        have : toFinite b = none := by
          rcases b with _ | _ | _ | q
          · rfl
          · rfl
          · rfl
          · exact absurd ⟨by simp, ⟨(by rintro ⟨⟩), (by rintro ⟨⟩)⟩⟩ hb
        rw [this, ih]
  unfold interpolate
  rw [key boundaries, h]

/-- **C18** Without a finite boundary there is an error for every value. -/
theorem interpolate_no_boundary (boundaries : List (Option Ext)) (h : ∀ b ∈ boundaries, ¬ IsFinite b)
    (x : Option Ext) : ∃ e, interpolate boundaries x = .error e := by
  classical
  rw [interpolate_finite_boundaries boundaries [] (by
    rw [List.map_nil, List.filter_eq_nil_iff]; intro b hb; simpa using h b hb)]
  exact ⟨_, rfl⟩

/-- Not vacuous: infinite boundaries and NaN around finite ones. -/
example : interpolate [some ⊥, fin 1, none, fin 3, some ((⊤ : WithTop ℚ) : Ext)] (fin 2)
      = interpolate ([1, 3].map fin) (fin 2) ∧
    interpolate ([1, 3].map fin) (fin 2) = .ok (1 / 2) := by
  decide +kernel

/-- Boundaries that are not strictly increasing (which quantiles may give) break the documented
rule that values at the lowest boundary are mapped to 0. -/
theorem interpolate_repeated : interpolate ([1, 1, 2].map fin) (fin 1) = .ok (1 / 2) := by
  decide +kernel

/-- Not vacuous. -/
example : [(1 : ℚ), 3, 7].Pairwise (· < ·) ∧
    interpolate ([1, 3, 7].map fin) (fin 4) = .ok (5 / 8) ∧
    interpolate ([1, 3, 7].map fin) (some ⊥) = .ok 0 := by
  decide +kernel

end TFT.Buckets
