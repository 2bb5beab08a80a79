import Verif.Combine.WeightedMean
import Verif.Combine.SchedLemmas
import Mathlib.Data.List.GetD
import Mathlib.Tactic.FieldSimp
import Mathlib.Tactic.Ring
import Mathlib.Tactic.Linarith
import Mathlib.Tactic.Positivity
import Mathlib.Algebra.Order.Field.Rat
import Mathlib.Algebra.Order.BigOperators.Group.List

/-! # C05: weighted label means do not depend on the schedule -/

namespace TFT

namespace Spec

/-- Total weight of the rows. -/
def totalWeight (rows : List WRow) : ℚ := (rows.map WRow.weight).sum

/-- Total weight of the rows that have label `l`. -/
def labelWeight (rows : List WRow) (l : Nat) : ℚ :=
  ((rows.filter (fun r => r.label = l)).map WRow.weight).sum

end Spec

open Spec

theorem sumPositive_eq (rows : List WRow) (l : Nat) : sumPositive rows l = labelWeight rows l := by
  induction rows with
  | nil => rfl
  | cons r rows ih =>
    by_cases h : r.label = l
    · simp only [sumPositive, labelWeight] at *; simp [h, ih]
    · simp only [sumPositive, labelWeight] at *; simp [h, ih]

theorem totalWeight_append (a b : List WRow) :
    totalWeight (a ++ b) = totalWeight a + totalWeight b := by simp [totalWeight]

theorem labelWeight_append (a b : List WRow) (l : Nat) :
    labelWeight (a ++ b) l = labelWeight a l + labelWeight b l := by simp [labelWeight]

theorem totalWeight_nonneg {rows : List WRow} (h : ∀ r ∈ rows, 0 ≤ r.weight) :
    0 ≤ totalWeight rows := by
  apply List.sum_nonneg
  simpa using h

theorem labelWeight_nonneg {rows : List WRow} (h : ∀ r ∈ rows, 0 ≤ r.weight) (l : Nat) :
    0 ≤ labelWeight rows l := by
  apply List.sum_nonneg
  intro x hx
  obtain ⟨r, hr, rfl⟩ := List.mem_map.1 hx
  exact h r (List.mem_filter.1 hr).1

theorem labelWeight_le {rows : List WRow} (h : ∀ r ∈ rows, 0 ≤ r.weight) (l : Nat) :
    labelWeight rows l ≤ totalWeight rows := by
  induction rows with
  | nil => simp [labelWeight, totalWeight]
  | cons r rows ih =>
    have h1 := ih (fun x hx => h x (by simp [hx]))
    have h2 := h r (by simp)
    simp only [labelWeight, totalWeight] at *
    by_cases hl : r.label = l
    · simp [hl, h1]
    · simp only [List.filter_cons, hl, decide_false, Bool.false_eq_true, if_false, List.map_cons,
        List.sum_cons]; linarith

/-- The denominators: total weight, or number of rows when there are no weights. -/
def denom (cw : Bool) (rows : List WRow) : ℚ := if cw then totalWeight rows else rows.length

/-- Which rows may occur. Without weights every row counts 1. -/
def RowsOk (cw : Bool) (rows : List WRow) : Prop :=
  ∀ r ∈ rows, if cw then 0 ≤ r.weight else r.weight = 1

theorem RowsOk.nonneg {cw rows} (h : RowsOk cw rows) : ∀ r ∈ rows, 0 ≤ r.weight := by
  intro r hr
  have := h r hr
  cases cw
  · simp only [Bool.false_eq_true, if_false] at this; rw [this]; norm_num
  · simpa using this

theorem RowsOk.total {rows} (h : RowsOk false rows) : totalWeight rows = rows.length := by
  induction rows with
  | nil => simp [totalWeight]
  | cons r rows ih =>
    have h1 := ih (fun x hx => h x (by simp [hx]))
    have h2 := h r (by simp)
    simp only [Bool.false_eq_true, if_false] at h2
    simp only [totalWeight, List.map_cons, List.sum_cons, List.length_cons, Nat.cast_add,
      Nat.cast_one] at *
    rw [h1, h2]; ring

theorem RowsOk.denom {cw rows} (h : RowsOk cw rows) : denom cw rows = totalWeight rows := by
  cases cw
  · simp [TFT.denom, h.total]
  · simp [TFT.denom]

/-- `x` is `q`, or possibly NaN when `w = 0`. -/
def NumRel (w q : ℚ) (x : Num) : Prop := x = some q ∨ (w = 0 ∧ x = none)

/-- The accumulator is right for the rows. -/
def WInv (cw : Bool) (a : WMAcc) (rows : List WRow) : Prop :=
  RowsOk cw rows ∧ a.count = rows.length ∧
  (cw = true → NumRel rows.length (totalWeight rows / rows.length) a.weight) ∧
  (∀ l, NumRel (totalWeight rows) (labelWeight rows l / totalWeight rows) (a.mean.getD l (some 0)))

/-- After `nan_to_num`. -/
def WExact (cw : Bool) (a : WMAcc) (rows : List WRow) : Prop :=
  RowsOk cw rows ∧ a.count = rows.length ∧
  (cw = true → a.weight = some (totalWeight rows / rows.length)) ∧
  (∀ l, a.mean.getD l (some 0) = some (labelWeight rows l / totalWeight rows))

theorem NumRel.nan {w q x} (h : NumRel w q x) (h0 : w = 0 → q = 0) : x.nanToNum = some q := by
  rcases h with h | ⟨h1, h2⟩
  · simp [h, Num.nanToNum]
  · simp [h2, Num.nanToNum, h0 h1]

theorem WInv.exact {cw a rows} (h : WInv cw a rows) : WExact cw (a.nanToNum cw) rows := by
  obtain ⟨h0, h1, h2, h3⟩ := h
  refine ⟨h0, h1, ?_, ?_⟩
  · intro hcw
    subst hcw
    simp only [WMAcc.nanToNum, if_true]
    apply (h2 rfl).nan
    intro h; rw [h]; simp
  · intro l
    have hl := (h3 l).nan (by intro h; rw [h]; simp)
    rcases lt_or_ge l a.mean.length with hj | hj
    · simpa [WMAcc.nanToNum, hj] using hl
    · rw [List.getD_eq_default _ _ (by simpa [WMAcc.nanToNum] using hj)]
      rw [List.getD_eq_default _ _ hj] at hl
      simpa [Num.nanToNum] using hl

theorem WExact.inv {cw a rows} (h : WExact cw a rows) : WInv cw a rows :=
  ⟨h.1, h.2.1, fun hc => .inl (h.2.2.1 hc), fun l => .inl (h.2.2.2 l)⟩

theorem padMean_getD (n : Nat) (m : List Num) (j : Nat) :
    (padMean n m).getD j (some 0) = m.getD j (some 0) := by
  unfold padMean
  rcases lt_or_ge j m.length with hj | hj
  · simp [List.getD_eq_getElem?_getD, List.getElem?_append_left hj]
  · simp only [List.getD_eq_getElem?_getD, List.getElem?_append_right hj,
      List.getElem?_eq_none_iff.2 hj, List.getElem?_replicate]
    split <;> rfl

theorem zipMean_getD (f : Num → Num → Num) (a b : List Num) (j : Nat) :
    (List.zipWith f (padMean b.length a) (padMean a.length b)).getD j (some 0)
      = f (a.getD j (some 0)) (b.getD j (some 0)) ∨ 
    (j ≥ max a.length b.length ∧
      (List.zipWith f (padMean b.length a) (padMean a.length b)).getD j (some 0) = some 0) := by
  have hla : (padMean b.length a).length = max a.length b.length := by simp [padMean]; omega
  have hlb : (padMean a.length b).length = max a.length b.length := by simp [padMean]; omega
  have hl : (List.zipWith f (padMean b.length a) (padMean a.length b)).length
      = max a.length b.length := by simp [hla, hlb]
  rcases lt_or_ge j (max a.length b.length) with hj | hj
  · left
    rw [List.getD_eq_getElem _ _ (by omega), List.getElem_zipWith, ← padMean_getD b.length a,
      ← padMean_getD a.length b, List.getD_eq_getElem _ _ (by omega),
      List.getD_eq_getElem _ _ (by omega)]
  · right
    exact ⟨hj, List.getD_eq_default _ _ (by omega)⟩

theorem WInv.perm {cw a rows rows'} (h : rows.Perm rows') (g : WInv cw a rows) :
    WInv cw a rows' := by
  have ht : totalWeight rows = totalWeight rows' := (h.map _).sum_eq
  have hl : ∀ l, labelWeight rows l = labelWeight rows' l := fun l =>
    ((h.filter _).map _).sum_eq
  obtain ⟨h0, h1, h2, h3⟩ := g
  refine ⟨fun r hr => h0 r (h.mem_iff.2 hr), by rw [h1, h.length_eq], ?_, ?_⟩
  · rw [← ht, ← h.length_eq]; exact h2
  · intro l; rw [← ht, ← hl]; exact h3 l

/-- The combination formulas, for `a.count ≠ 0`. -/
theorem combine_core {cw a b ra rb} (ha : WExact cw a ra) (hb : WExact cw b rb)
    (hne : a.count ≠ 0) :
    WInv cw
      (if cw then
        { count := a.count + b.count
          weight := Num.add a.weight (Num.mul (Num.div (some (b.count : ℚ))
            (some ((a.count + b.count : Nat) : ℚ))) (Num.sub b.weight a.weight))
          mean := List.zipWith (fun am bm => Num.add am
            (Num.mul (Num.div (Num.mul (some (b.count : ℚ)) b.weight)
              (Num.mul (some ((a.count + b.count : Nat) : ℚ))
                (Num.add a.weight (Num.mul (Num.div (some (b.count : ℚ))
            (some ((a.count + b.count : Nat) : ℚ))) (Num.sub b.weight a.weight)))))
              (Num.sub bm am))) (padMean b.mean.length a.mean) (padMean a.mean.length b.mean) }
      else
        { count := a.count + b.count
          weight := some 1
          mean := List.zipWith (fun am bm => Num.add am
            (Num.mul (Num.div (some (b.count : ℚ)) (some ((a.count + b.count : Nat) : ℚ)))
              (Num.sub bm am))) (padMean b.mean.length a.mean) (padMean a.mean.length b.mean) } :
        WMAcc) (ra ++ rb) := by
  obtain ⟨a0, a1, a2, a3⟩ := ha
  obtain ⟨b0, b1, b2, b3⟩ := hb
  have hok : RowsOk cw (ra ++ rb) := by
    intro r hr
    rcases List.mem_append.1 hr with h | h
    · exact a0 r h
    · exact b0 r h
  have hN : ((ra.length : ℚ) + rb.length) ≠ 0 := by
    have : ra.length + rb.length ≠ 0 := by omega
    exact_mod_cast this
  have hra : (ra.length : ℚ) ≠ 0 := by
    have : ra.length ≠ 0 := by omega
    exact_mod_cast this
  have wa := totalWeight_nonneg a0.nonneg
  have wb := totalWeight_nonneg b0.nonneg
  have cond : totalWeight ra = 0 → ∀ l, labelWeight ra l = 0 := fun h l =>
    le_antisymm (h ▸ labelWeight_le a0.nonneg l) (labelWeight_nonneg a0.nonneg l)
  have condb : totalWeight rb = 0 → ∀ l, labelWeight rb l = 0 := fun h l =>
    le_antisymm (h ▸ labelWeight_le b0.nonneg l) (labelWeight_nonneg b0.nonneg l)
  -- entries past both vectors belong to labels that do not occur
  have out : ∀ l, l ≥ max a.mean.length b.mean.length → 
      labelWeight ra l / totalWeight ra = 0 ∧ labelWeight rb l / totalWeight rb = 0 := by
    intro l hl
    have h1 := a3 l
    have h2 := b3 l
    rw [List.getD_eq_default _ _ (by omega)] at h1 h2
    exact ⟨(Option.some.inj h1).symm, (Option.some.inj h2).symm⟩
  have zero_of : ∀ (r : List WRow) (l : Nat),
      (totalWeight r = 0 → ∀ l, labelWeight r l = 0) → labelWeight r l / totalWeight r = 0 →
      labelWeight r l = 0 := by
    intro r l hc h
    by_cases hw : totalWeight r = 0
    · exact hc hw l
    · exact (div_eq_zero_iff.1 h).resolve_right hw
  have avg : ∀ l, totalWeight ra + totalWeight rb ≠ 0 →
      labelWeight ra l / totalWeight ra + totalWeight rb / (totalWeight ra + totalWeight rb) *
        (labelWeight rb l / totalWeight rb - labelWeight ra l / totalWeight ra)
      = (labelWeight ra l + labelWeight rb l) / (totalWeight ra + totalWeight rb) := by
    intro l hW
    by_cases h1 : totalWeight ra = 0
    · have h2 : totalWeight rb ≠ 0 := by intro h; apply hW; rw [h1, h]; simp
      rw [cond h1 l, h1]; field_simp; ring
    · by_cases h2 : totalWeight rb = 0
      · rw [condb h2 l, h2]; simp
      · field_simp; ring
  cases cw with
  | true =>
    have hwt : Num.add a.weight (Num.mul (Num.div (some (b.count : ℚ))
            (some ((a.count + b.count : Nat) : ℚ))) (Num.sub b.weight a.weight))
        = some ((totalWeight ra + totalWeight rb) / (ra.length + rb.length)) := by
      rw [a2 rfl, b2 rfl, a1, b1]
      simp only [Num.add, Num.mul, Num.div, Num.sub, Nat.cast_add, hN, if_false]
      congr 1
      rcases eq_or_ne rb [] with hrb | hrb
      · subst hrb; simp [totalWeight]
      · have : (rb.length : ℚ) ≠ 0 := by simpa using hrb
        field_simp; ring
    refine ⟨hok, by simp [a1, b1], ?_, ?_⟩
    · intro _
      left
      simp only [if_true]
      rw [hwt, totalWeight_append]; simp
    · intro l
      simp only [if_true]
      rw [totalWeight_append, labelWeight_append, hwt]
      rcases zipMean_getD (fun am bm => Num.add am
            (Num.mul (Num.div (Num.mul (some (b.count : ℚ)) b.weight)
              (Num.mul (some ((a.count + b.count : Nat) : ℚ))
                (some ((totalWeight ra + totalWeight rb) / (ra.length + rb.length)))))
              (Num.sub bm am))) a.mean b.mean l with h | ⟨hl, h⟩
      · rw [h, a3, b3, b2 rfl, a1, b1]
        simp only [Num.add, Num.mul, Num.div, Num.sub, Nat.cast_add]
        by_cases hW : totalWeight ra + totalWeight rb = 0
        · right; exact ⟨hW, by simp [hW]⟩
        · left
          have e1 : ((ra.length : ℚ) + rb.length) *
              ((totalWeight ra + totalWeight rb) / (ra.length + rb.length))
              = totalWeight ra + totalWeight rb := by field_simp
          have e2 : (rb.length : ℚ) * (totalWeight rb / rb.length) = totalWeight rb := by
            rcases eq_or_ne rb [] with hrb | hrb
            · subst hrb; simp [totalWeight]
            · have : (rb.length : ℚ) ≠ 0 := by simpa using hrb
              field_simp
          rw [e1, e2]
          simp only [hW, if_false]
          rw [avg l hW]
      · rw [h]
        obtain ⟨h1, h2⟩ := out l hl
        left
        rw [zero_of ra l cond h1, zero_of rb l condb h2]; simp
  | false =>
    have ta := a0.total
    have tb := b0.total
    refine ⟨hok, by simp [a1, b1], by simp, ?_⟩
    intro l
    simp only [Bool.false_eq_true, if_false]
    rw [totalWeight_append, labelWeight_append]
    rcases zipMean_getD (fun am bm => Num.add am
            (Num.mul (Num.div (some (b.count : ℚ)) (some ((a.count + b.count : Nat) : ℚ)))
              (Num.sub bm am))) a.mean b.mean l with h | ⟨hl, h⟩
    · rw [h, a3, b3, a1, b1]
      left
      have hW : totalWeight ra + totalWeight rb ≠ 0 := by rw [ta, tb]; exact hN
      rw [← avg l hW]
      simp only [Num.add, Num.mul, Num.div, Num.sub, Nat.cast_add, ta, tb, hN, if_false]
    · rw [h]
      obtain ⟨h1, h2⟩ := out l hl
      left
      rw [zero_of ra l cond h1, zero_of rb l condb h2]; simp

theorem combineWM_inv {cw a b ra rb} (ha : WInv cw a ra) (hb : WInv cw b rb) :
    WInv cw (combineWM cw a b) (ra ++ rb) := by
  have ha' := ha.exact
  have hb' := hb.exact
  unfold combineWM
  simp only
  generalize a.nanToNum cw = a at *
  generalize b.nanToNum cw = b at *
  by_cases h : a.count < b.count
  · simp only [h, if_true]
    have h0 : b.count ≠ 0 := by omega
    simp only [h0, if_false]
    exact (combine_core hb' ha' h0).perm List.perm_append_comm
  · simp only [h, if_false]
    by_cases h0 : a.count = 0
    · simp only [h0, if_true]
      have : ra = [] := List.length_eq_zero_iff.1 (by rw [← ha'.2.1]; exact h0)
      subst this
      simpa using hb'.inv
    · simp only [h0, if_false]
      exact combine_core ha' hb' h0

/-- A batch that may occur: row labels are below the width, weights are fine. -/
def BatchOk (cw : Bool) (b : WBatch) : Prop :=
  RowsOk cw b.rows ∧ ∀ r ∈ b.rows, r.label < b.width

theorem weightedStats_inv {cw b} (h : BatchOk cw b) : WInv cw (weightedStats cw b) b.rows := by
  obtain ⟨h0, h1⟩ := h
  have hout : ∀ l, b.width ≤ l → labelWeight b.rows l = 0 := by
    intro l hl
    have : b.rows.filter (fun r => decide (r.label = l)) = [] := by
      apply List.filter_eq_nil_iff.2
      intro r hr
      have := h1 r hr
      simp; omega
    simp [labelWeight, this]
  have hmean : ∀ (q : ℚ), q = totalWeight b.rows → ∀ l, NumRel (totalWeight b.rows)
      (labelWeight b.rows l / totalWeight b.rows)
      ((((List.range b.width).map (sumPositive b.rows)).map
        (fun s => Num.div (some s) (some q))).getD l (some 0)) := by
    intro q hq l
    subst hq
    rcases lt_or_ge l b.width with hl | hl
    · rw [List.getD_eq_getElem _ _ (by simpa using hl)]
      simp only [List.getElem_map, List.getElem_range, sumPositive_eq, Num.div]
      by_cases hw : totalWeight b.rows = 0
      · right; simp [hw]
      · left; simp [hw]
    · rw [List.getD_eq_default _ _ (by simpa using hl)]
      left; rw [hout l hl]; simp
  cases cw with
  | true =>
    refine ⟨h0, rfl, ?_, ?_⟩
    · intro _
      simp only [weightedStats, if_true, Num.div]
      by_cases hw : (b.rows.length : ℚ) = 0
      · right; simp [hw]
      · left; simp [hw, totalWeight]
    · exact hmean _ rfl
  | false =>
    refine ⟨h0, rfl, by simp, ?_⟩
    exact hmean _ h0.total.symm

theorem wm_total (cw : Bool) :
    Sched.Total ((wmCombiner cw).onBatches (weightedStats cw)) (BatchOk cw)
      (fun a bs => WInv cw a (bs.flatMap WBatch.rows)) where
  create := by
    refine ⟨by simp [RowsOk], rfl, ?_, ?_⟩
    · intro _; left; simp [wmCombiner, Combiner.onBatches, totalWeight]
    · intro l; left; simp [wmCombiner, Combiner.onBatches, totalWeight, labelWeight]
  add := by
    intro a l b h hb
    refine ⟨_, rfl, ?_⟩
    simpa using combineWM_inv h (weightedStats_inv hb)
  merge := by
    intro as ls hne h
    cases h with
    | nil => exact absurd rfl hne
    | @cons a l as ls h hs =>
      refine ⟨_, rfl, ?_⟩
      clear hne
      have gen : ∀ (as : List WMAcc) (ls : List (List WBatch)),
          List.Forall₂ (fun a bs => WInv cw a (bs.flatMap WBatch.rows)) as ls → ∀ a l,
          WInv cw a (l.flatMap WBatch.rows) →
          WInv cw (as.foldl (combineWM cw) a) ((l ++ ls.flatten).flatMap WBatch.rows) := by
        intro as ls hs
        induction hs with
        | nil => intro a l h; simpa using h
        | @cons b m as ls hb _ ih =>
          intro a l h
          have := ih (combineWM cw a b) (l ++ m) (by simpa using combineWM_inv h hb)
          simpa using this
      simpa using gen as ls hs a l h
  compact := fun a _ h => ⟨a, rfl, h⟩

/-- **C05**. For every allowed run over batches of the rows of one token, with weights
(`cw = true`, weights not negative) or without (every row counts 1): the run succeeds, the
count is the number of rows, with weights the mean weight is the average weight, and entry `l`
of the mean is the share of the total weight that has label `l`. -/
theorem weighted_mean_schedule_independent (cw : Bool) (s1 : List (Sched WBatch)) (s2 : Sched Nat)
    (hv : ValidRun s1 s2) (hb : ∀ b ∈ allInputs s1, BatchOk cw b)
    (hw : 0 < totalWeight ((allInputs s1).flatMap WBatch.rows)) :
    ∃ r, analysis ((wmCombiner cw).onBatches (weightedStats cw)) s1 s2 = .ok r ∧
      r.count = ((allInputs s1).flatMap WBatch.rows).length ∧
      (cw = true → r.weight = some (totalWeight ((allInputs s1).flatMap WBatch.rows) /
        ((allInputs s1).flatMap WBatch.rows).length)) ∧
      ∀ l, r.mean.getD l (some 0) = some
        (labelWeight ((allInputs s1).flatMap WBatch.rows) l /
          totalWeight ((allInputs s1).flatMap WBatch.rows)) := by
  obtain ⟨final, hfin, h0, h1, h2, h3⟩ := analysis_total (wm_total cw)
    (fun a l l' h g => WInv.perm (h.flatMap_right _) g) s1 s2 hv hb
  have hne : ((allInputs s1).flatMap WBatch.rows).length ≠ 0 := by
    intro h
    rw [List.length_eq_zero_iff.1 h] at hw
    simp [totalWeight] at hw
  refine ⟨final, hfin, h1, ?_, ?_⟩
  · intro hc
    rcases h2 hc with h | ⟨h, _⟩
    · exact h
    · exact absurd (by exact_mod_cast h) hne
  · intro l
    rcases h3 l with h | ⟨h, _⟩
    · exact h
    · exact absurd h (ne_of_gt hw)

/-- The hypotheses are met by batches of different label widths. -/
example :
    let s1 : List (Sched WBatch) :=
      [.add (.add .create ⟨[⟨2, 0⟩, ⟨1, 1⟩], 2⟩) ⟨[⟨5, 2⟩], 3⟩, .add .create ⟨[⟨0, 0⟩], 1⟩]
    (∀ b ∈ allInputs s1, BatchOk true b) ∧ 0 < totalWeight ((allInputs s1).flatMap WBatch.rows) ∧
    analysis ((wmCombiner true).onBatches (weightedStats true)) s1 (.add (.add .create 1) 0)
      = .ok ⟨4, [some (1 / 4), some (1 / 8), some (5 / 8)], some 2⟩ := by
  refine ⟨?_, by decide +kernel, by decide +kernel⟩
  intro b hb
  simp only [allInputs, Sched.inputs, List.map_cons, List.map_nil, List.flatten_cons,
    List.flatten_nil, List.nil_append, List.append_nil, List.cons_append, List.mem_cons,
    List.not_mem_nil, or_false] at hb
  rcases hb with rfl | rfl | rfl <;>
    simp [BatchOk, RowsOk]

end TFT
