import Verif.Combine.TypedSum
import Verif.Combine.NumPyProps
import Verif.Combine.PerKeyLemmas
import Mathlib.Data.Int.ModEq
import Mathlib.Algebra.Order.BigOperators.Group.List

/-!
# C02 with the integer types of the code

The sum of integers is the exact total as long as no batch overflows the type of the column; 64 bit
integers wrap around once, for every schedule; for smaller types the sum of a batch wraps around in the
small type before it is widened, and the result depends on the batches.
-/

namespace TFT.TypedSum

open Spec

variable {β : Type}

/-! ## Specification -/

/-- The numbers of an integer type. -/
def Fits (t : IntType) (n : Int) : Prop :=
  if t.signed then -(2 ^ (t.bits - 1)) ≤ n ∧ n < 2 ^ (t.bits - 1) else 0 ≤ n ∧ n < 2 ^ t.bits

instance (t : IntType) (n : Int) : Decidable (Fits t n) := by unfold Fits; infer_instance

/-- The sum of the values of a batch at a position. -/
def batchSum (b : ColBatch Int) (p : Nat) : Int := (b.getD p []).sum

/-- The sum of all values of the data at a position. -/
def total (s1 : List (Sched (ColBatch Int))) (p : Nat) : Int := (colData (allInputs s1) p).sum

/-- A run over batches of the shape `sh`; without a known shape there is at least one batch. -/
structure Run (sh : List Nat) (known : Bool) (s1 : List (Sched (ColBatch β))) (s2 : Sched Nat) :
    Prop where
  valid : ValidRun s1 s2
  wide : ∀ b ∈ allInputs s1, b.length = sh.prod
  some : known = true ∨ allInputs s1 ≠ []

/-! ## Lemmas -/

theorem wrap_modEq (t : IntType) (n : Int) : wrap t n ≡ n [ZMOD 2 ^ t.bits] := by
  unfold wrap
  split
  · have := Int.bmod_emod (x := n) (m := 2 ^ t.bits)
    unfold Int.ModEq
    push_cast at this
    exact this
  · exact Int.mod_modEq _ _

theorem wrap_congr (t : IntType) {a b : Int} (h : a ≡ b [ZMOD 2 ^ t.bits]) : wrap t a = wrap t b := by
  unfold wrap
  split
  · rw [← Int.emod_bmod (x := a), ← Int.emod_bmod (x := b)]
    push_cast
    rw [h]
  · exact h

theorem wrap_fits (t : IntType) (ht : 0 < t.bits) (n : Int) : Fits t (wrap t n) := by
  obtain ⟨k, hk⟩ : ∃ k, t.bits = k + 1 := ⟨t.bits - 1, by omega⟩
  have h2 : (2 : Int) ^ t.bits = 2 * 2 ^ k := by rw [hk, pow_succ]; ring
  have hpos : (0 : Int) < 2 ^ k := by positivity
  unfold Fits wrap
  split
  · rw [hk, Nat.add_sub_cancel]
    have h3 : ((2 ^ (k + 1) : Nat) : Int) = 2 * 2 ^ k := by push_cast; rw [pow_succ]; ring
    have l := Int.le_bmod (x := n) (m := 2 ^ (k + 1)) (by positivity)
    have u := Int.bmod_lt (x := n) (m := 2 ^ (k + 1)) (by positivity)
    rw [h3] at l u
    constructor <;> omega
  · exact ⟨Int.emod_nonneg _ (by positivity), Int.emod_lt_of_pos _ (by positivity)⟩

theorem wrap_of_fits (t : IntType) (ht : 0 < t.bits) (n : Int) (h : Fits t n) : wrap t n = n := by
  have hw := wrap_fits t ht n
  have hm := wrap_modEq t n
  obtain ⟨k, hk⟩ : ∃ k, t.bits = k + 1 := ⟨t.bits - 1, by omega⟩
  have h2 : (2 : Int) ^ t.bits = 2 * 2 ^ k := by rw [hk, pow_succ]; ring
  have hpos : (0 : Int) < 2 ^ k := by positivity
  unfold Fits at h hw
  rw [hk, Nat.add_sub_cancel] at h hw
  rw [← hk, h2] at h hw
  obtain ⟨c, hc⟩ := hm.symm.dvd
  rw [h2] at hc
  have hc0 : c = 0 := by
    split at h
    · rename_i hs
      rw [if_pos hs] at hw
      by_contra hne
      rcases lt_or_gt_of_ne hne with hlt | hlt
      · have : 2 * 2 ^ k * c ≤ 2 * 2 ^ k * (-1) := by
          apply mul_le_mul_of_nonneg_left (by omega) (by positivity)
        omega
      · have : 2 * 2 ^ k * 1 ≤ 2 * 2 ^ k * c := by
          apply mul_le_mul_of_nonneg_left (by omega) (by positivity)
        omega
    · rename_i hs
      rw [if_neg hs] at hw
      by_contra hne
      rcases lt_or_gt_of_ne hne with hlt | hlt
      · have : 2 * 2 ^ k * c ≤ 2 * 2 ^ k * (-1) := by
          apply mul_le_mul_of_nonneg_left (by omega) (by positivity)
        omega
      · have : 2 * 2 ^ k * 1 ≤ 2 * 2 ^ k * c := by
          apply mul_le_mul_of_nonneg_left (by omega) (by positivity)
        omega
  rw [hc0] at hc
  omega

theorem sumLaw (t : IntType) (sh : List Nat) :
    ColLaw (β := Int) (fun a b => wrap t (a + b)) 0 sh 1
      (fun _ v l => v ≡ l.sum [ZMOD 2 ^ t.bits]) where
  nil := by intro _; exact Int.ModEq.refl _
  perm := by intro _ v l m h hv; rw [← h.sum_eq]; exact hv
  app := by
    intro _ a b l m ha hb
    rw [List.sum_append]
    exact (wrap_modEq t _).trans (ha.add hb)
  drop := by
    intro _ m hm _ _ a l ha
    obtain ⟨v, hv, h0⟩ := hm 0 (by omega)
    rw [List.sum_append]
    have := ha.add (h0 rfl ▸ hv)
    simpa using this

/-- The sum of numbers that are given one per batch. -/
theorem combined (t : IntType) (sh : List Nat) (known : Bool) (s1 : List (Sched (ColBatch Int)))
    (s2 : Sched Nat) (h : Run sh known s1 s2)
    (hone : ∀ b ∈ allInputs s1, ∀ c ∈ b, ∃ v, c = [v]) :
    analysis ((npCombiner (fun a b => wrap t (a + b)) 0 [if known then some sh else none]
        (wrap t)).onBatches (fun cols : ColBatch Int => [⟨sh, cols.map List.sum⟩])) s1 s2
      = .ok [⟨sh, (List.range sh.prod).map (fun p => wrap t (colData (allInputs s1) p).sum)⟩] := by
  have ht : Sched.Total ((npCombiner (fun a b => wrap t (a + b)) 0 [if known then some sh else none]
        (wrap t)).onBatches (fun cols : ColBatch Int => [⟨sh, cols.map List.sum⟩]))
      (fun b => b.length = sh.prod)
      (AccRel (fun _ v l => v ≡ l.sum [ZMOD 2 ^ t.bits]) 0 sh known 1) := by
    refine np_total (k := 1) (by omega) (sumLaw t sh) (wrap t) _ _ ?_
    intro b hb
    refine ⟨rfl, ?_⟩
    intro j a ha
    have hj : j = 0 := by
      have := (List.getElem?_eq_some_iff.1 ha).1
      simpa using this
    subst hj
    simp only [List.getElem?_cons_zero, Option.some.injEq] at ha
    subst ha
    refine ⟨rfl, by simpa using hb, ?_⟩
    intro p v hv
    rw [List.getElem?_map, Option.map_eq_some_iff] at hv
    obtain ⟨c, hc, rfl⟩ := hv
    simp [colData, List.getD_eq_getElem?_getD, hc]
  obtain ⟨final, hfin, hrel⟩ := analysis_total ht
    (fun a l l' h => AccRel.perm (sumLaw t sh) h) s1 s2 h.valid h.wide
  rw [hfin]
  rcases hrel with ⟨h1, h2⟩ | ⟨h1, h2, _⟩
  · obtain ⟨a, rfl⟩ := List.length_eq_one_iff.1 h1
    have ha := h2 0 a (by simp)
    obtain ⟨shape, data⟩ := a
    have e1 := ha.shape
    have e2 := ha.len
    simp only at e1 e2
    subst e1
    have e3 : data.map (wrap t) = (List.range shape.prod).map
        (fun p => wrap t (colData (allInputs s1) p).sum) := by
      apply List.ext_getElem
      · simp [e2]
      · intro p h1 h2
        have hp : p < data.length := by simpa using h1
        have := ha.val p data[p] (List.getElem?_eq_getElem hp)
        simpa using wrap_congr t this
    simp [Combiner.onBatches, npCombiner, e3]
  · rcases h.some with hne | hne
    · simp [h1] at hne
    · exact absurd h2 hne

/-- What is computed: the sum, in the output type, of the sums of the batches in their type. -/
theorem sum_result (layout : Layout) (t t' : IntType) (ht : batchType layout t = .ok t')
    (sh : List Nat) (known : Bool) (s1 : List (Sched (ColBatch Int))) (s2 : Sched Nat)
    (h : Run sh known s1 s2) :
    ∃ c, sum layout t sh known = .ok c ∧ analysis c s1 s2 = .ok [⟨sh, (List.range sh.prod).map
      (fun p => wrap (outputType t') ((allInputs s1).map (fun b => wrap t' (batchSum b p))).sum)⟩] := by
  refine ⟨_, by unfold sum; rw [ht]; rfl, ?_⟩
  let f : ColBatch Int → ColBatch Int := fun cols => cols.map (fun c => [wrap t' c.sum])
  have hr : Run sh known (s1.map (Sched.map f)) s2 := by
    refine ⟨h.valid.map f, ?_, ?_⟩
    · rw [allInputs_map]
      intro b hb
      obtain ⟨b', hb', rfl⟩ := List.mem_map.1 hb
      simpa [f] using h.wide b' hb'
    · rw [allInputs_map]
      rcases h.some with hk | hk
      · exact .inl hk
      · exact .inr (by simpa using hk)
  have hc := combined (outputType t') sh known _ s2 hr (by
    rw [allInputs_map]
    intro b hb c hc
    obtain ⟨b', _, rfl⟩ := List.mem_map.1 hb
    obtain ⟨c', _, rfl⟩ := List.mem_map.1 hc
    exact ⟨_, rfl⟩)
  rw [analysis_onBatches] at hc ⊢
  rw [List.map_map] at hc
  have e : s1.map (Sched.map (fun cols : ColBatch Int =>
        [(⟨sh, cols.map (fun c => wrap t' c.sum)⟩ : Nd Int)]))
      = s1.map (Sched.map (fun cols : ColBatch Int => [(⟨sh, cols.map List.sum⟩ : Nd Int)])
          ∘ Sched.map f) := by
    apply List.map_congr_left
    intro s _
    simp only [Function.comp_apply]
    rw [Sched.map_map]
    congr 1
    funext cols
    simp [f]
  rw [e, hc, allInputs_map]
  congr 3
  apply List.map_congr_left
  intro p hp
  congr 1
  have hw := h.wide
  generalize allInputs s1 = l at hw
  induction l with
  | nil => rfl
  | cons b l ih =>
    have ih' := ih (fun b hb => hw b (by simp [hb]))
    simp only [colData, List.map_cons, List.flatMap_cons, List.sum_append, List.sum_cons] at ih' ⊢
    rw [ih']
    congr 1
    have hlen := hw b (by simp)
    have hpl : p < b.length := by rw [hlen]; exact List.mem_range.1 hp
    simp [f, batchSum, List.getD_eq_getElem?_getD, hpl]

theorem total_eq (s1 : List (Sched (ColBatch Int))) (p : Nat) :
    total s1 p = ((allInputs s1).map (fun b => batchSum b p)).sum := by
  unfold total batchSum
  generalize allInputs s1 = l
  induction l with
  | nil => rfl
  | cons b l ih => simpa [colData, List.flatMap_cons] using ih

/-! ## Properties -/

/-- **C02** for `tft.sum` of integers: the sum of a column, or of every position, is the exact total
for every division into datasets and batches and every schedule, if no batch has a sum that overflows
the type of the column and the total does not overflow 64 bits (for unsigned types: is below 2^53). -/
theorem integer_sum_is_exact (layout : Layout) (t : IntType) (hb : t.bits ∈ [8, 16, 32, 64])
    (hl : layout = .whole ∨ layout = .dense ∨ (layout = .sparse ∧ (t.signed = true ∨ t.bits ≤ 16)))
    (sh : List Nat) (known : Bool) (s1 : List (Sched (ColBatch Int))) (s2 : Sched Nat)
    (h : Run sh known s1 s2)
    (hbatch : ∀ b ∈ allInputs s1, ∀ p, p < sh.prod → Fits t (batchSum b p))
    (htotal : ∀ p, p < sh.prod → -(2 ^ 63) ≤ total s1 p ∧
      total s1 p < if t.signed then 2 ^ 63 else 2 ^ 53) :
    ∃ c, sum layout t sh known = .ok c ∧
      analysis c s1 s2 = .ok [⟨sh, (List.range sh.prod).map (fun p => total s1 p)⟩] := by
  have hpos : 0 < t.bits := by
    simp only [List.mem_cons, List.not_mem_nil, or_false] at hb; omega
  have hcase : ∃ t', batchType layout t = .ok t' ∧ 0 < t'.bits ∧
      (∀ n, Fits t n → wrap t' n = n) ∧ (t' = t ∨ t' = ⟨true, 64⟩) := by
    rcases hl with rfl | rfl | ⟨rfl, hl⟩
    · exact ⟨t, rfl, hpos, fun n => wrap_of_fits t hpos n, .inl rfl⟩
    · exact ⟨t, rfl, hpos, fun n => wrap_of_fits t hpos n, .inl rfl⟩
    · by_cases hs : t.signed = true
      · refine ⟨t, by simp [batchType, hs], hpos, fun n => wrap_of_fits t hpos n, .inl rfl⟩
      · have hs' : t.signed = false := by simpa using hs
        have h16 : t.bits = 8 ∨ t.bits = 16 := by
          simp only [List.mem_cons, List.not_mem_nil, or_false] at hb
          rcases hl with hl | hl
          · exact absurd hl hs
          · omega
        refine ⟨⟨true, 64⟩, by simp [batchType, hs', h16], by norm_num, ?_, .inr rfl⟩
        intro n hn
        apply wrap_of_fits _ (by norm_num)
        unfold Fits at hn ⊢
        rw [if_neg (by simp [hs'])] at hn
        rw [if_pos rfl]
        rcases h16 with e | e <;> rw [e] at hn <;> norm_num at hn ⊢ <;> omega
  obtain ⟨t', h1, h2, h3, h4⟩ := hcase
  obtain ⟨c, c1, c2⟩ := sum_result layout t t' h1 sh known s1 s2 h
  refine ⟨c, c1, ?_⟩
  rw [c2]
  congr 3
  apply List.map_congr_left
  intro p hp
  have hp := List.mem_range.1 hp
  have e : (allInputs s1).map (fun b => wrap t' (batchSum b p))
      = (allInputs s1).map (fun b => batchSum b p) :=
    List.map_congr_left (fun b hb => h3 _ (hbatch b hb p hp))
  rw [e, ← total_eq]
  apply wrap_of_fits _ (by simp [outputType])
  obtain ⟨l, u⟩ := htotal p hp
  have hnn : t.signed = false → 0 ≤ total s1 p := by
    intro hs
    rw [total_eq]
    apply List.sum_nonneg
    intro x hx
    obtain ⟨b, hb, rfl⟩ := List.mem_map.1 hx
    have := hbatch b hb p hp
    unfold Fits at this
    rw [if_neg (by simp [hs])] at this
    exact this.1
  unfold Fits outputType
  by_cases hs : t'.signed = true
  · rw [if_pos hs]
    simp only
    norm_num at l u ⊢
    refine ⟨l, lt_of_lt_of_le u ?_⟩
    split <;> norm_num
  · rw [if_neg hs]
    have ht : t' = t := by
      rcases h4 with h4 | h4
      · exact h4
      · rw [h4] at hs; exact absurd rfl hs
    subst ht
    rw [if_neg hs] at u
    simp only
    refine ⟨hnn (by simpa using hs), lt_trans u (by norm_num)⟩

/-- **C02** for integers of 64 bits: for every division into batches and every schedule the result is
the number of 64 bits that agrees with the total modulo 2^64, so it does not depend on them even if the
sums overflow. -/
theorem sum_of_64_bits_is_total_modulo (layout : Layout) (signed : Bool)
    (hl : layout = .whole ∨ (signed = true ∧ (layout = .dense ∨ layout = .sparse)))
    (sh : List Nat) (known : Bool) (s1 : List (Sched (ColBatch Int))) (s2 : Sched Nat)
    (h : Run sh known s1 s2) :
    ∃ c r, sum layout ⟨signed, 64⟩ sh known = .ok c ∧ analysis c s1 s2 = .ok [⟨sh, r⟩] ∧
      r.length = sh.prod ∧
      ∀ p v, r[p]? = some v → Fits ⟨signed, 64⟩ v ∧ (2 ^ 64 : Int) ∣ v - total s1 p := by
  have h1 : batchType layout ⟨signed, 64⟩ = .ok ⟨signed, 64⟩ := by
    rcases hl with rfl | ⟨rfl, rfl | rfl⟩ <;> rfl
  obtain ⟨c, c1, c2⟩ := sum_result layout _ _ h1 sh known s1 s2 h
  refine ⟨c, _, c1, c2, by simp, ?_⟩
  intro p v hv
  rw [List.getElem?_map, Option.map_eq_some_iff] at hv
  obtain ⟨q, hq, rfl⟩ := hv
  have hq' : q = p := by
    obtain ⟨h5, h6⟩ := List.getElem?_eq_some_iff.1 hq
    simpa using h6.symm
  subst hq'
  refine ⟨wrap_fits _ (by norm_num [outputType]) _, ?_⟩
  have hm : ((allInputs s1).map (fun b => wrap ⟨signed, 64⟩ (batchSum b q))).sum
      ≡ ((allInputs s1).map (fun b => batchSum b q)).sum [ZMOD 2 ^ 64] := by
    generalize allInputs s1 = l
    induction l with
    | nil => exact Int.ModEq.refl _
    | cons b l ih =>
      simp only [List.map_cons, List.sum_cons]
      exact (wrap_modEq ⟨signed, 64⟩ _).add ih
  rw [total_eq]
  exact ((wrap_modEq (outputType ⟨signed, 64⟩) _).trans hm).symm.dvd

/-- **C02, negative** For the smaller integer types a batch is summed in the type of the column and
only then widened: the same two values give one result if they are in one batch, and another one, the
total, if they are in two. -/
theorem narrow_sum_depends_on_batches (t : IntType) (hb : t.bits ∈ [8, 16, 32]) :
    ∃ v, Fits t v ∧
      let one : List (Sched (ColBatch Int)) := [.add .create [[v, v]]]
      let two : List (Sched (ColBatch Int)) := [.add (.add .create [[v]]) [[v]]]
      let s2 : Sched Nat := .add .create 0
      Run [] true one s2 ∧ Run [] true two s2 ∧ total one 0 = total two 0 ∧
      ∃ c, sum .whole t [] true = .ok c ∧ analysis c two s2 = .ok [⟨[], [v + v]⟩] ∧
        ∃ r, analysis c one s2 = .ok [⟨[], [r]⟩] ∧ r ≠ v + v := by
  have hv1 : ∀ v : Int, ValidRun [Sched.add .create [[v, v]]] (.add .create 0) := fun v =>
    ⟨by intro s hs; simp only [List.mem_singleton] at hs; subst hs; exact .add .create,
      .add .create, List.Perm.refl _⟩
  have hv2 : ∀ v : Int, ValidRun [Sched.add (.add .create [[v]]) [[v]]] (.add .create 0) := fun v =>
    ⟨by intro s hs; simp only [List.mem_singleton] at hs; subst hs; exact .add (.add .create),
      .add .create, List.Perm.refl _⟩
  have hr1 : ∀ v : Int, Run [] true [Sched.add .create [[v, v]]] (.add .create 0) := fun v =>
    ⟨hv1 v, by simp [allInputs, Sched.inputs], .inl rfl⟩
  have hr2 : ∀ v : Int, Run [] true [Sched.add (.add .create [[v]]) [[v]]] (.add .create 0) := fun v =>
    ⟨hv2 v, by simp [allInputs, Sched.inputs], .inl rfl⟩
  obtain ⟨signed, bits⟩ := t
  have main : ∀ v : Int, wrap ⟨signed, bits⟩ v = v → wrap ⟨signed, 64⟩ (v + v) = v + v →
      wrap ⟨signed, 64⟩ (wrap ⟨signed, bits⟩ (v + v)) ≠ v + v →
      let one : List (Sched (ColBatch Int)) := [.add .create [[v, v]]]
      let two : List (Sched (ColBatch Int)) := [.add (.add .create [[v]]) [[v]]]
      let s2 : Sched Nat := .add .create 0
      Run [] true one s2 ∧ Run [] true two s2 ∧ total one 0 = total two 0 ∧
      ∃ c, sum .whole ⟨signed, bits⟩ [] true = .ok c ∧ analysis c two s2 = .ok [⟨[], [v + v]⟩] ∧
        ∃ r, analysis c one s2 = .ok [⟨[], [r]⟩] ∧ r ≠ v + v := by
    intro v w1 w2 w3
    obtain ⟨c, c1, c2⟩ := sum_result .whole ⟨signed, bits⟩ _ rfl [] true _ _ (hr1 v)
    obtain ⟨d, d1, d2⟩ := sum_result .whole ⟨signed, bits⟩ _ rfl [] true _ _ (hr2 v)
    rw [c1] at d1
    cases d1
    refine ⟨hr1 v, hr2 v, by simp [total, colData, allInputs, Sched.inputs], c, c1, ?_, _, ?_, w3⟩
    · rw [d2]
      simp [allInputs, Sched.inputs, batchSum, outputType, w1, w2]
    · rw [c2]
      simp [allInputs, Sched.inputs, batchSum, outputType]
  simp only [List.mem_cons, List.not_mem_nil, or_false] at hb
  rcases hb with rfl | rfl | rfl <;> cases signed
  · exact ⟨200, by decide, main 200 (by decide) (by decide) (by decide)⟩
  · exact ⟨100, by decide, main 100 (by decide) (by decide) (by decide)⟩
  · exact ⟨60000, by decide, main 60000 (by decide) (by decide) (by decide)⟩
  · exact ⟨30000, by decide, main 30000 (by decide) (by decide) (by decide)⟩
  · exact ⟨4000000000, by decide, main 4000000000 (by decide) (by decide) (by decide)⟩
  · exact ⟨2000000000, by decide, main 2000000000 (by decide) (by decide) (by decide)⟩

/-- The result is wrong without any overflow of 64 bits: two values 200 of type uint8 in one batch have
the sum 144. -/
example : ((sum .whole ⟨false, 8⟩ [] true).toOption.bind (fun c =>
    (analysis c [.add .create [[200, 200]]] (.add .create 0)).toOption)) = some [⟨[], [144]⟩] := by
  decide +kernel

/-- The same values in a sparse tensor, summed by position: these are cast first, and the sum is 400. -/
example : ((sum .sparse ⟨false, 8⟩ [1] true).toOption.bind (fun c =>
    (analysis c [.add .create [[200, 200]]] (.add .create 0)).toOption)) = some [⟨[1], [400]⟩] := by
  decide +kernel

/-- **C02** for `tft.size`: ones are counted in 64 bits, whatever the type of the column; the result is
the number of values at the position. -/
theorem size_is_exact (layout : Layout) (hl : layout ≠ .ragged) (sh : List Nat) (known : Bool)
    (s1 : List (Sched (ColBatch β))) (s2 : Sched Nat) (h : Run sh known s1 s2)
    (htotal : ∀ p, p < sh.prod → (colData (allInputs s1) p).length < 2 ^ 63) :
    ∃ c, size β layout sh known = .ok c ∧ analysis c s1 s2 = .ok [⟨sh, (List.range sh.prod).map
      (fun p => ((colData (allInputs s1) p).length : Int))⟩] := by
  let f : ColBatch β → ColBatch Int := fun cols => cols.map (fun c => c.map (fun _ => (1 : Int)))
  have hr : Run sh known (s1.map (Sched.map f)) s2 := by
    refine ⟨h.valid.map f, ?_, ?_⟩
    · rw [allInputs_map]
      intro b hb
      obtain ⟨b', hb', rfl⟩ := List.mem_map.1 hb
      simpa [f] using h.wide b' hb'
    · rw [allInputs_map]
      rcases h.some with hk | hk
      · exact .inl hk
      · exact .inr (by simpa using hk)
  have hlen : ∀ p, total (s1.map (Sched.map f)) p = ((colData (allInputs s1) p).length : Int) := by
    intro p
    unfold total
    rw [allInputs_map]
    generalize allInputs s1 = l
    induction l with
    | nil => rfl
    | cons b l ih =>
      simp only [colData, List.map_cons, List.flatMap_cons, List.sum_append, List.length_append,
        Nat.cast_add] at ih ⊢
      rw [ih]
      congr 1
      by_cases hp : p < b.length
      · simp [f, List.getD_eq_getElem?_getD, hp]
      · simp [f, List.getD_eq_getElem?_getD, hp]
  have hsub : ∀ b ∈ allInputs (s1.map (Sched.map f)), ∀ p,
      0 ≤ batchSum b p ∧ batchSum b p ≤ total (s1.map (Sched.map f)) p := by
    intro b hb p
    have hnn : ∀ b ∈ allInputs (s1.map (Sched.map f)), 0 ≤ batchSum b p := by
      rw [allInputs_map]
      intro b hb
      obtain ⟨b', _, rfl⟩ := List.mem_map.1 hb
      unfold batchSum
      apply List.sum_nonneg
      intro x hx
      by_cases hp : p < b'.length
      · simp [f, List.getD_eq_getElem?_getD, hp] at hx
        omega
      · simp [f, List.getD_eq_getElem?_getD, hp] at hx
    refine ⟨hnn b hb, ?_⟩
    rw [total_eq]
    exact List.single_le_sum (fun x hx => by
      obtain ⟨b', hb', rfl⟩ := List.mem_map.1 hx
      exact hnn b' hb') _ (List.mem_map.2 ⟨b, hb, rfl⟩)
  obtain ⟨c, c1, c2⟩ := integer_sum_is_exact layout ⟨true, 64⟩ (by simp)
    (by cases layout with
      | whole => exact .inl rfl
      | dense => exact .inr (.inl rfl)
      | sparse => exact .inr (.inr ⟨rfl, .inl rfl⟩)
      | ragged => exact absurd rfl hl) sh known _ s2 hr
    (by
      intro b hb p hp
      obtain ⟨h1, h2⟩ := hsub b hb p
      rw [hlen] at h2
      have := htotal p hp
      unfold Fits
      simp only [if_true]
      norm_num at this ⊢
      omega)
    (by
      intro p hp
      rw [hlen]
      have := htotal p hp
      simp only [if_true]
      norm_num at this ⊢
      omega)
  refine ⟨c.onBatches f, by unfold size; rw [c1]; rfl, ?_⟩
  rw [analysis_onBatches, c2]
  congr 3
  exact List.map_congr_left (fun p _ => hlen p)

/-- **C02** What `sum` and `size` refuse: ragged tensors by position, and sparse ones of uint32 and
uint64. Everything else is accepted. -/
theorem sum_accepts_iff (layout : Layout) (t : IntType) (hb : t.bits ∈ [8, 16, 32, 64])
    (sh : List Nat) (known : Bool) :
    (∃ c, sum layout t sh known = .ok c) ↔
      layout ≠ .ragged ∧ ¬ (layout = .sparse ∧ t.signed = false ∧ 32 ≤ t.bits) := by
  obtain ⟨signed, bits⟩ := t
  simp only [List.mem_cons, List.not_mem_nil, or_false] at hb
  unfold sum batchType
  cases layout <;> cases signed <;> rcases hb with rfl | rfl | rfl | rfl <;>
    simp [bind, Except.bind]

/-- The hypotheses of `integer_sum_is_exact` are met: two batches of int8, in two datasets. -/
example :
    let s1 : List (Sched (ColBatch Int)) := [.add .create [[100, 20], [-3]], .add .create [[100], []]]
    let s2 : Sched Nat := .merge [.add .create 1, .add .create 0]
    Run [2] true s1 s2 ∧ (∀ b ∈ allInputs s1, ∀ p, p < 2 → Fits ⟨true, 8⟩ (batchSum b p)) ∧
    total s1 0 = 220 ∧ total s1 1 = -3 := by
  refine ⟨⟨⟨?_, ?_, by decide⟩, by decide, .inl rfl⟩, by decide, by decide, by decide⟩
  · intro s hs
    simp only [List.mem_cons, List.not_mem_nil, or_false] at hs
    rcases hs with rfl | rfl <;> exact .add .create
  · refine .merge (by simp) ?_
    intro s hs
    simp only [List.mem_cons, List.not_mem_nil, or_false] at hs
    rcases hs with rfl | rfl <;> exact .add .create

end TFT.TypedSum
