import Verif.Vocab.Approximate
import Verif.Vocab.ReduceProps
import Verif.Combine.SchedLemmas
import Mathlib.Algebra.BigOperators.Group.Finset.Piecewise
import Mathlib.Algebra.Order.BigOperators.Group.Finset
import Mathlib.Tactic.Linarith

/-!
# Approximate vocabularies are as accurate as documented (C92)

`enc` is how values are written as tokens (injective: the identity for strings, decimal digits for
integers).
-/

namespace TFT.ApproxVocab

open TFT.Vocab TFT.Reduce TFT.Spec

variable {S T B Line : Type} [DecidableEq T] [LinearOrder B]

/-! ## Specification -/

namespace Spec

/-- The tokens of all batches, each with its weight (1 if there are no weights), without those that
are dropped. -/
def written (enc : T → B) (drop : T → Bool) (hasWeights : Bool) (batches : List (Batch T)) :
    List (B × ℚ) :=
  batches.flatMap (fun b =>
    ((b.values.zip (if hasWeights then b.weights else b.values.map (fun _ => 1))).filter
      (fun p => !drop p.1)).map (fun p => (enc p.1, p.2)))

/-- The sum of the weights. -/
def total (d : List (B × ℚ)) : ℚ := (d.map Prod.snd).sum

/-- The sum of the weights of token `t`: its true frequency in data, and in the rows of an estimate
the count of its row (0 if it has none). -/
def freq (d : List (B × ℚ)) (t : B) : ℚ := frequency true d t

/-- What the documentation of `approximate_vocabulary` promises
(`experimental/analyzers.py:360-369`): at most `k` tokens of the data with lower bounds of their
frequencies, off by at most `δ`, and `δ ≤ (m - m') / (k + 1)` where `m` is the total frequency in the
data and `m'` that of the rows. -/
structure Estimates (k : Nat) (d rows : List (B × ℚ)) (δ : ℚ) : Prop where
  size : rows.length ≤ k
  once : (rows.map Prod.fst).Nodup
  occurs : ∀ r ∈ rows, r.1 ∈ d.map Prod.fst
  counts : ∀ r ∈ rows, 0 ≤ r.2
  lower : ∀ t, freq rows t ≤ freq d t
  upper : ∀ t, freq d t ≤ freq rows t + δ
  delta : δ * (k + 1) ≤ total d - total rows

/-- Largest count first, equal counts in reverse lexicographic order. -/
def Ordered (rows : List (B × ℚ)) : Prop :=
  rows.Pairwise (fun a b => b.2 < a.2 ∨ (b.2 = a.2 ∧ b.1 < a.1))

/-- **The contract of `tfx_bsl.sketches.MisraGriesSketch`** (trusted; C++ code outside of the
repository), for sketches made with `new k`. `Rep s d` says that the sketch has seen the tokens `d`
with their weights, in some order. -/
structure Contract (api : SketchApi S T B) (enc : T → B) (k : Nat)
    (Rep : S → List (B × ℚ) → Prop) : Prop where
  /-- A new sketch has seen nothing. -/
  new : Rep (api.new k) []
  /-- The order does not matter. -/
  perm : ∀ s d d', d.Perm d' → Rep s d → Rep s d'
  /-- `AddValues` with one weight for every value, none of them negative. -/
  add : ∀ s d (items : List T) (ws : List ℚ), Rep s d → items.length = ws.length →
    (∀ w ∈ ws, 0 ≤ w) → ∃ s', api.addValues s items ws = .ok s' ∧ Rep s' (d ++ (items.map enc).zip ws)
  /-- `Merge`. -/
  merge : ∀ s t d d', Rep s d → Rep t d' → ∃ s', api.merge s t = .ok s' ∧ Rep s' (d ++ d')
  /-- `Estimate`. -/
  estimate : ∀ s d, Rep s d →
    ∃ rows, api.estimate s = .ok rows ∧ Ordered rows ∧ ∃ δ, Estimates k d rows δ

/-- A batch is as the API requires: one weight for every value, none of them negative. -/
def GoodBatch (hasWeights : Bool) (b : Batch T) : Prop :=
  hasWeights = true → b.values.length = b.weights.length ∧ ∀ w ∈ b.weights, 0 ≤ w

/-- The entries of the file for the rows of an estimate: count and token, or the placeholder if there
are no rows. -/
def entries (dummy : ℚ × B) (rows : List (B × ℚ)) : List (ℚ × B) :=
  if rows = [] then [dummy] else rows.map (fun r => (r.2, r.1))

end Spec

open Spec

/-! ## Frequencies and totals -/

theorem freq_append (a b : List (B × ℚ)) (t : B) : freq (a ++ b) t = freq a t + freq b t := by
  simp [freq, frequency]

theorem freq_cons (p : B × ℚ) (d : List (B × ℚ)) (t : B) :
    freq (p :: d) t = (if p.1 = t then p.2 else 0) + freq d t := by
  unfold freq frequency
  by_cases h : p.1 = t <;> simp [h]

theorem freq_nil (t : B) : freq ([] : List (B × ℚ)) t = 0 := by simp [freq, frequency]

theorem freq_of_not_mem (d : List (B × ℚ)) (t : B) (h : t ∉ d.map Prod.fst) : freq d t = 0 := by
  induction d with
  | nil => exact freq_nil t
  | cons p d ih =>
    simp only [List.map_cons, List.mem_cons, not_or] at h
    rw [freq_cons, if_neg (fun hp => h.1 hp.symm), ih h.2, add_zero]

theorem freq_nonneg (d : List (B × ℚ)) (hd : ∀ p ∈ d, 0 ≤ p.2) (t : B) : 0 ≤ freq d t := by
  induction d with
  | nil => rw [freq_nil]
  | cons p d ih =>
    rw [freq_cons]
    have h1 := hd p (by simp)
    have h2 := ih (fun q hq => hd q (by simp [hq]))
    split <;> linarith

theorem freq_pos (d : List (B × ℚ)) (hd : ∀ p ∈ d, 0 < p.2) (t : B) (ht : t ∈ d.map Prod.fst) :
    0 < freq d t := by
  induction d with
  | nil => simp at ht
  | cons p d ih =>
    rw [freq_cons]
    have h1 := hd p (by simp)
    have h2 : 0 ≤ freq d t := freq_nonneg d (fun q hq => (hd q (by simp [hq])).le) t
    by_cases hp : p.1 = t
    · rw [if_pos hp]; linarith
    · rw [if_neg hp, zero_add]
      refine ih (fun q hq => hd q (by simp [hq])) ?_
      rcases List.mem_map.1 ht with ⟨q, hq, rfl⟩
      rcases List.mem_cons.1 hq with rfl | hq
      · exact absurd rfl hp
      · exact List.mem_map.2 ⟨q, hq, rfl⟩

theorem total_eq_sum (d : List (B × ℚ)) (F : Finset B) (h : ∀ p ∈ d, p.1 ∈ F) :
    total d = ∑ t ∈ F, freq d t := by
  induction d with
  | nil => simp [total, freq_nil]
  | cons p d ih =>
    have ih' := ih (fun q hq => h q (by simp [hq]))
    simp only [freq_cons, Finset.sum_add_distrib, Finset.sum_ite_eq, h p (by simp), if_true]
    rw [← ih']
    simp [total]

theorem total_congr (a b : List (B × ℚ)) (h : ∀ t, freq a t = freq b t) : total a = total b := by
  have ha := total_eq_sum a ((a ++ b).map Prod.fst).toFinset (fun p hp => by
    simp only [List.mem_toFinset, List.mem_map, List.mem_append]
    exact ⟨p, .inl hp, rfl⟩)
  have hb := total_eq_sum b ((a ++ b).map Prod.fst).toFinset (fun p hp => by
    simp only [List.mem_toFinset, List.mem_map, List.mem_append]
    exact ⟨p, .inr hp, rfl⟩)
  rw [ha, hb]
  exact Finset.sum_congr rfl (fun t _ => h t)

theorem total_nonneg (d : List (B × ℚ)) (hd : ∀ p ∈ d, 0 ≤ p.2) : 0 ≤ total d := by
  unfold total
  apply List.sum_nonneg
  intro w hw
  obtain ⟨p, hp, rfl⟩ := List.mem_map.1 hw
  exact hd p hp

theorem freq_perm {a b : List (B × ℚ)} (h : a.Perm b) (t : B) : freq a t = freq b t := by
  unfold freq frequency
  exact ((h.filter _).map _).sum_eq

theorem total_perm {a b : List (B × ℚ)} (h : a.Perm b) : total a = total b :=
  (h.map _).sum_eq

theorem Spec.Estimates.congr {k : Nat} {d d' rows : List (B × ℚ)} {δ : ℚ} (h : Estimates k d rows δ)
    (hf : ∀ t, freq d t = freq d' t) (hm : ∀ t, t ∈ d.map Prod.fst → t ∈ d'.map Prod.fst) :
    Estimates k d' rows δ :=
  ⟨h.size, h.once, fun r hr => hm _ (h.occurs r hr), h.counts, fun t => hf t ▸ h.lower t,
    fun t => hf t ▸ h.upper t, total_congr d d' hf ▸ h.delta⟩

/-- Tokens with more than their share are listed. -/
theorem Spec.Estimates.heavy {k : Nat} {d rows : List (B × ℚ)} {δ : ℚ} (h : Estimates k d rows δ)
    (t : B) (ht : total d < freq d t * (k + 1)) :
    t ∈ rows.map Prod.fst := by
  by_contra hn
  have h0 := freq_of_not_mem rows t hn
  have h1 := h.upper t
  have h2 := h.delta
  have h3 := total_nonneg rows h.counts
  have h4 : (0 : ℚ) < (k : ℚ) + 1 := by positivity
  rw [h0, zero_add] at h1
  nlinarith

/-- An estimate of data with at most `k` different tokens is exact. -/
theorem Spec.Estimates.exact {k : Nat} {d rows : List (B × ℚ)} {δ : ℚ} (h : Estimates k d rows δ)
    (hn : (d.map Prod.fst).toFinset.card ≤ k) (t : B) : freq rows t = freq d t := by
  set F := (d.map Prod.fst).toFinset with hF
  have hd : total d = ∑ t ∈ F, freq d t := total_eq_sum d F (fun p hp => by
    rw [hF, List.mem_toFinset]; exact List.mem_map.2 ⟨p, hp, rfl⟩)
  have hr : total rows = ∑ t ∈ F, freq rows t := total_eq_sum rows F (fun p hp => by
    rw [hF, List.mem_toFinset]; exact h.occurs p hp)
  have hdiff : total d - total rows ≤ F.card * δ := by
    rw [hd, hr, ← Finset.sum_sub_distrib, ← nsmul_eq_mul]
    exact Finset.sum_le_card_nsmul _ _ _ (fun t _ => by have := h.upper t; linarith)
  have hδ0 : 0 ≤ δ := by have h1 := h.lower t; have h2 := h.upper t; linarith
  have hc : (F.card : ℚ) ≤ k := by exact_mod_cast hn
  have hδ : δ = 0 := by
    have h1 := h.delta
    nlinarith
  have h1 := h.lower t
  have h2 := h.upper t
  linarith

/-! ## What the sketch sees of a batch -/

theorem freq_map_enc (enc : T → B) (henc : Function.Injective enc) (l : List (T × ℚ)) (t : T) :
    freq (l.map (fun p => (enc p.1, p.2))) (enc t)
      = ((l.filter (fun p => decide (p.1 = t))).map Prod.snd).sum := by
  induction l with
  | nil => simp [freq_nil]
  | cons p l ih =>
    rw [List.map_cons, freq_cons, ih]
    by_cases h : p.1 = t
    · simp [h]
    · simp [h, henc.eq_iff]

theorem freq_map_nodup (enc : T → B) (henc : Function.Injective enc) (us : List T) (hnd : us.Nodup)
    (f : T → ℚ) (t : T) :
    freq (us.map (fun u => (enc u, f u))) (enc t) = if t ∈ us then f t else 0 := by
  induction us with
  | nil => simp [freq_nil]
  | cons u us ih =>
    rw [List.nodup_cons] at hnd
    rw [List.map_cons, freq_cons, ih hnd.2]
    by_cases h : u = t
    · subst h
      simp [hnd.1]
    · simp [henc.eq_iff, h, List.mem_cons, Ne.symm h]

/-- Grouping by token keeps the frequencies. -/
theorem freq_grouped (enc : T → B) (henc : Function.Injective enc) (l : List (T × ℚ)) (b : B) :
    freq ((uniqFirst (l.map Prod.fst)).map (fun t =>
        (enc t, ((l.filter (fun p => decide (p.1 = t))).map Prod.snd).sum))) b
      = freq (l.map (fun p => (enc p.1, p.2))) b := by
  by_cases hb : ∃ t ∈ l.map Prod.fst, enc t = b
  · obtain ⟨t, ht, rfl⟩ := hb
    rw [freq_map_nodup enc henc _ (nodup_uniqFirst _)
        (fun t => ((l.filter (fun p => decide (p.1 = t))).map Prod.snd).sum) t,
      if_pos ((mem_uniqFirst _ _).2 ht), freq_map_enc enc henc]
  · rw [freq_of_not_mem, freq_of_not_mem]
    · intro h
      simp only [List.map_map, List.mem_map, Function.comp_apply] at h
      obtain ⟨p, hp, hpb⟩ := h
      exact hb ⟨p.1, List.mem_map.2 ⟨p, hp, rfl⟩, hpb⟩
    · intro h
      simp only [List.map_map, List.mem_map, Function.comp_apply, mem_uniqFirst] at h
      obtain ⟨t, ⟨p, hp, rfl⟩, hpb⟩ := h
      exact hb ⟨p.1, List.mem_map.2 ⟨p, hp, rfl⟩, hpb⟩

/-- The weights that count for a batch. -/
def weightsOf (hw : Bool) (b : Batch T) : List ℚ :=
  if hw then b.weights else b.values.map (fun _ => 1)

/-- The weighted values of a batch that are not dropped. -/
def kept (drop : T → Bool) (hw : Bool) (b : Batch T) : List (T × ℚ) :=
  (b.values.zip (weightsOf hw b)).filter (fun p => !drop p.1)

theorem count_eq_sum (l : List T) (t : T) :
    ((l.count t : Nat) : ℚ)
      = (((l.map (fun x => (x, (1 : ℚ)))).filter (fun p => decide (p.1 = t))).map Prod.snd).sum := by
  induction l with
  | nil => simp
  | cons a l ih =>
    by_cases h : a = t
    · subst h
      simp only [List.count_cons_self, Nat.cast_add, Nat.cast_one, List.map_cons, decide_true,
        List.filter_cons_of_pos, List.sum_cons, ih]
      ring
    · simp [h, ih]

theorem analyzerInputs_eq (drop : T → Bool) (hw : Bool) (b : Batch T) (hb : GoodBatch hw b) :
    analyzerInputs drop hw b = .ok (uniqFirst ((kept drop hw b).map Prod.fst),
      (uniqFirst ((kept drop hw b).map Prod.fst)).map (fun t =>
        (((kept drop hw b).filter (fun p => decide (p.1 = t))).map Prod.snd).sum)) := by
  cases hw with
  | true =>
    have hlen := (hb rfl).1
    have h := weighted_reduction_eq drop true (b.values.zip b.weights)
    rw [List.map_fst_zip (le_of_eq hlen), List.map_snd_zip (le_of_eq hlen.symm)] at h
    unfold analyzerInputs
    simp only [if_true]
    rw [h]
    simp [bind, Except.bind, kept, weightsOf]
  | false =>
    have hk : kept drop false b = (b.values.filter (fun t => !drop t)).map (fun x => (x, (1 : ℚ))) := by
      simp only [kept, weightsOf, Bool.false_eq_true, if_false]
      generalize b.values = l
      induction l with
      | nil => rfl
      | cons a l ih =>
        simp only [List.map_cons, List.zip_cons_cons, List.filter_cons]
        by_cases h : drop a = true
        · simp only [h, Bool.not_true, Bool.false_eq_true, if_false, ih]
        · simp only [h, Bool.not_false, if_true, ih, List.map_cons]
    have hf : (kept drop false b).map Prod.fst = b.values.filter (fun t => !drop t) := by
      rw [hk, List.map_map]; exact List.map_id _
    rw [hf, hk]
    unfold analyzerInputs reduceBatchWeightedCounts
    simp only [Bool.false_eq_true, if_false, if_true, bind, Except.bind, Option.isSome_none,
      uniqueWithCounts, List.map_map, Except.ok.injEq, Prod.mk.injEq, true_and]
    apply List.map_congr_left
    intro t _
    exact count_eq_sum _ t

theorem written_single (enc : T → B) (drop : T → Bool) (hw : Bool) (b : Batch T) :
    written enc drop hw [b] = (kept drop hw b).map (fun p => (enc p.1, p.2)) := by
  simp [written, kept, weightsOf]

theorem written_append (enc : T → B) (drop : T → Bool) (hw : Bool) (l l' : List (Batch T)) :
    written enc drop hw (l ++ l') = written enc drop hw l ++ written enc drop hw l' := by
  simp [written]

theorem kept_nonneg (drop : T → Bool) (hw : Bool) (b : Batch T) (hb : GoodBatch hw b) :
    ∀ p ∈ kept drop hw b, 0 ≤ p.2 := by
  intro p hp
  have hp' := (List.of_mem_zip (List.mem_filter.1 hp).1).2
  cases hw with
  | true => exact (hb rfl).2 _ hp'
  | false =>
    simp only [weightsOf, Bool.false_eq_true, if_false, List.mem_map] at hp'
    obtain ⟨_, _, h⟩ := hp'
    rw [← h]; exact zero_le_one

/-! ## The combiner -/

/-- The sketch has seen data with the same tokens and frequencies as the batches. -/
def Seen (enc : T → B) (drop : T → Bool) (hw : Bool) (Rep : S → List (B × ℚ) → Prop) (s : S)
    (l : List (Batch T)) : Prop :=
  ∃ d, Rep s d ∧ (∀ t, freq d t = freq (written enc drop hw l) t) ∧
    (∀ t, t ∈ d.map Prod.fst ↔ t ∈ (written enc drop hw l).map Prod.fst)

theorem Seen.perm {enc : T → B} {drop : T → Bool} {hw : Bool} {Rep : S → List (B × ℚ) → Prop} {s : S}
    {l l' : List (Batch T)} (h : l.Perm l') (hs : Seen enc drop hw Rep s l) :
    Seen enc drop hw Rep s l' := by
  obtain ⟨d, h1, h2, h3⟩ := hs
  have hp : (written enc drop hw l).Perm (written enc drop hw l') := h.flatMap_right _
  exact ⟨d, h1, fun t => (h2 t).trans (freq_perm hp t), fun t => (h3 t).trans (hp.map _).mem_iff⟩

theorem mergeInto_ok {api : SketchApi S T B} {enc : T → B} {k : Nat}
    {Rep : S → List (B × ℚ) → Prop} (C : Contract api enc k Rep) (drop : T → Bool) (hw : Bool)
    (as : List S) (ls : List (List (Batch T))) (h : List.Forall₂ (Seen enc drop hw Rep) as ls) :
    ∀ (a : S) (l : List (Batch T)), Seen enc drop hw Rep a l →
    ∃ r, mergeInto api a as = .ok r ∧ Seen enc drop hw Rep r (l ++ ls.flatten) := by
  induction h with
  | nil =>
    intro a l ha
    exact ⟨a, rfl, by simpa using ha⟩
  | cons h1 _ ih =>
    rename_i b l' bs ls' _
    intro a l ha
    obtain ⟨d, hd1, hd2, hd3⟩ := ha
    obtain ⟨d', hd1', hd2', hd3'⟩ := h1
    obtain ⟨r, hr, hrep⟩ := C.merge a b d d' hd1 hd1'
    obtain ⟨r', hr', hrep'⟩ := ih r (l ++ l') ⟨_, hrep, fun t => by
        rw [written_append, freq_append, freq_append, hd2, hd2'], fun t => by
        rw [written_append, List.map_append, List.map_append, List.mem_append, List.mem_append,
          hd3, hd3']⟩
    refine ⟨r', ?_, ?_⟩
    · show (api.merge a b >>= fun r => mergeInto api r bs) = _
      rw [hr]; exact hr'
    · simpa [List.append_assoc] using hrep'

theorem combiner_total {api : SketchApi S T B} {enc : T → B} (henc : Function.Injective enc) {k : Nat}
    {Rep : S → List (B × ℚ) → Prop} (C : Contract api enc k Rep) (drop : T → Bool) (hw : Bool)
    (dummy : ℚ × B) :
    Sched.Total (combiner api k drop hw dummy) (GoodBatch hw) (Seen enc drop hw Rep) := by
  refine ⟨⟨[], C.new, fun t => by simp [written], fun t => by simp [written]⟩, ?_, ?_, ?_⟩
  · intro a l b ha hb
    have hin := analyzerInputs_eq drop hw b hb
    have hnn := kept_nonneg drop hw b hb
    have hfr := freq_grouped enc henc (kept drop hw b)
    have hws := written_single enc drop hw b
    show ∃ a', (analyzerInputs drop hw b >>= fun next => addInput api a next) = _ ∧ _
    rw [hin]
    generalize hus : uniqFirst ((kept drop hw b).map Prod.fst) = us at hfr
    have hmem : ∀ t, t ∈ us ↔ t ∈ (kept drop hw b).map Prod.fst := fun t => by
      rw [← hus]; exact mem_uniqFirst _ _
    obtain ⟨d, hd1, hd2, hd3⟩ := ha
    simp only [bind, Except.bind, addInput]
    cases us with
    | nil =>
      refine ⟨a, rfl, d, hd1, fun t => ?_, fun t => ?_⟩
      · rw [written_append, freq_append, hd2, hws, ← hfr]
        simp [freq_nil]
      · have hk : kept drop hw b = [] := by
          cases hk : kept drop hw b with
          | nil => rfl
          | cons p ps => exact absurd ((hmem p.1).2 (by simp [hk])) (by simp)
        rw [written_append, List.map_append, List.mem_append, hd3, hws, hk]
        simp
    | cons u us =>
      simp only [List.isEmpty_cons, Bool.false_eq_true, if_false]
      obtain ⟨s', h1, h2⟩ := C.add a d (u :: us) ((u :: us).map (fun t : T =>
          (((kept drop hw b).filter (fun p : T × ℚ => decide (p.1 = t))).map Prod.snd).sum)) hd1 (by simp) (by
          intro w hw'
          obtain ⟨t, _, rfl⟩ := List.mem_map.1 hw'
          apply List.sum_nonneg
          intro w hw'
          obtain ⟨p, hp, rfl⟩ := List.mem_map.1 hw'
          exact hnn p (List.mem_filter.1 hp).1)
      refine ⟨s', h1, _, h2, fun t => ?_, fun t => ?_⟩
      · rw [written_append, freq_append, freq_append, hd2, hws, ← hfr, List.zip_map']
      · rw [written_append, List.map_append, List.map_append, List.mem_append, List.mem_append,
          hd3, hws, List.zip_map', List.map_map, List.map_map]
        refine or_congr Iff.rfl ?_
        simp only [List.mem_map, Function.comp_apply, hmem]
        constructor
        · rintro ⟨_, ⟨p, hp, rfl⟩, rfl⟩
          exact ⟨p, hp, rfl⟩
        · rintro ⟨p, hp, rfl⟩
          exact ⟨_, ⟨p, hp, rfl⟩, rfl⟩
  · intro as ls hne h
    cases h with
    | nil => exact absurd rfl hne
    | cons h1 h2 => exact mergeInto_ok C drop hw _ _ h2 _ _ h1
  · intro a l ha
    exact ⟨a, rfl, ha⟩

/-! ## The file -/

theorem ordered_precedes {rows : List (B × ℚ)} (h : Ordered rows) :
    (rows.map (fun r => (r.2, r.1))).Pairwise precedes := by
  rw [List.pairwise_map]
  refine List.Pairwise.imp ?_ h
  rintro a b (h | ⟨h1, h2⟩)
  · exact .inl h
  · exact .inr ⟨h1, h2.le⟩

theorem entries_sorted {dummy : ℚ × B} {rows : List (B × ℚ)} (h : Ordered rows) :
    (entries dummy rows).Pairwise precedes := by
  unfold entries
  split
  · simp
  · exact ordered_precedes h

/-- The output of the combiner for every run. -/
theorem analysis_ok {api : SketchApi S T B} {enc : T → B} (henc : Function.Injective enc) {k : Nat}
    {Rep : S → List (B × ℚ) → Prop} (C : Contract api enc k Rep) (drop : T → Bool) (hw : Bool)
    (dummy : ℚ × B) (s1 : List (Sched (Batch T))) (s2 : Sched Nat) (hv : ValidRun s1 s2)
    (hb : ∀ b ∈ allInputs s1, GoodBatch hw b) :
    ∃ rows δ, Ordered rows ∧ Estimates k (written enc drop hw (allInputs s1)) rows δ ∧
      analysis (combiner api k drop hw dummy) s1 s2 = .ok (entries dummy rows) := by
  obtain ⟨fin, h1, d, hd1, hd2, hd3⟩ := analysis_total (combiner_total henc C drop hw dummy)
    (fun a l l' h hR => Seen.perm h hR) s1 s2 hv hb
  obtain ⟨rows, hr, ho, δ, hE⟩ := C.estimate fin d hd1
  refine ⟨rows, δ, ho, hE.congr hd2 (fun t => (hd3 t).1), ?_⟩
  rw [h1]
  show extractOutput api dummy fin = _
  unfold extractOutput
  rw [hr]
  cases rows <;> simp [bind, Except.bind, entries]

theorem check_ok {topK : Option Int} {fileFormat : String} {dtype : Dtype} {k : Nat}
    (hk : topK = some (k : Int)) (h1 : 1 ≤ k) (h2 : k ≤ 200000)
    (hf : fileFormat = "text" ∨ fileFormat = "tfrecord_gzip") (hd : dtype ≠ .other) :
    checkArguments topK fileFormat dtype = .ok k := by
  unfold checkArguments
  rw [hk]
  dsimp only
  rw [if_neg (by omega), if_neg (by omega), if_neg (not_not.2 hf), if_neg hd]
  simp

namespace Spec

/-- The call is one that the documentation allows. -/
structure Accepted (c : Call B) (k : Nat) : Prop where
  topK : c.topK = some (k : Int)
  pos : 1 ≤ k
  max : k ≤ 200000
  format : c.fileFormat = "text" ∨ c.fileFormat = "tfrecord_gzip"
  dtype : c.dtype ≠ .other

/-- The data of a call: string tokens that a text file cannot hold do not count. -/
def data (enc : T → B) (unwritable : T → Bool) (c : Call B) (batches : List (Batch T)) :
    List (B × ℚ) :=
  written enc (fun t => decide (c.dtype = .string) && decide (c.fileFormat = "text") && unwritable t)
    c.hasWeights batches

end Spec

theorem dropped_eq (unwritable : T → Bool) (dtype : Dtype) (fileFormat : String) :
    dropped unwritable dtype fileFormat
      = fun t => decide (dtype = .string) && decide (fileFormat = "text") && unwritable t := by
  funext t
  unfold dropped
  by_cases h1 : dtype = .string <;> by_cases h2 : fileFormat = "text" <;> simp [h1, h2]

/-- **C92.** For every dataset, every division into datasets and batches and every run that Beam may
make, `approximate_vocabulary` writes a file with estimates as accurate as documented, largest
estimate first (or only the placeholder if there are none). -/
theorem approximate_vocabulary_estimates (api : SketchApi S T B) (enc : T → B)
    (henc : Function.Injective enc) (unwritable : T → Bool) (dummy : ℚ × B) (fmt : ℚ × B → Line)
    (divide : List (ℚ × B) → List (List (ℚ × B))) (c : Call B) (k : Nat) (hc : Accepted c k)
    (hr : c.reserved = none) {Rep : S → List (B × ℚ) → Prop} (C : Contract api enc k Rep)
    (s1 : List (Sched (Batch T))) (s2 : Sched Nat) (hv : ValidRun s1 s2)
    (hb : ∀ b ∈ allInputs s1, GoodBatch c.hasWeights b) :
    ∃ (rows : List (B × ℚ)) (δ : ℚ), Ordered rows ∧
      Estimates k (data enc unwritable c (allInputs s1)) rows δ ∧
      approximateVocabulary api unwritable dummy fmt divide c s1 s2
        = .ok ((entries dummy rows).map fmt) := by
  obtain ⟨rows, δ, ho, hE, h⟩ := analysis_ok henc C (dropped unwritable c.dtype c.fileFormat)
    c.hasWeights dummy s1 s2 hv hb
  refine ⟨rows, δ, ho, ?_, ?_⟩
  · rw [dropped_eq] at hE; exact hE
  · unfold approximateVocabulary
    rw [check_ok hc.topK hc.pos hc.max hc.format hc.dtype]
    simp only [bind, Except.bind]
    rw [h, hr]
    rfl

/-- **C92.** Reserved tokens come first, in their order and with frequency -1; the rest is what the
file would hold without them, less the tokens that are reserved. -/
theorem approximate_vocabulary_reserved (api : SketchApi S T B) (enc : T → B)
    (henc : Function.Injective enc) (unwritable : T → Bool) (dummy : ℚ × B) (fmt : ℚ × B → Line)
    (divide : List (ℚ × B) → List (List (ℚ × B))) (hdiv : ∀ l, (divide l).flatten.Perm l)
    (c : Call B) (k : Nat) (hc : Accepted c k)
    (r : List B) (hr : c.reserved = some r)
    {Rep : S → List (B × ℚ) → Prop} (C : Contract api enc k Rep)
    (s1 : List (Sched (Batch T))) (s2 : Sched Nat) (hv : ValidRun s1 s2)
    (hb : ∀ b ∈ allInputs s1, GoodBatch c.hasWeights b) :
    ∃ usual : List (ℚ × B),
      approximateVocabulary api unwritable dummy id divide { c with reserved := none } s1 s2
        = .ok usual ∧
      approximateVocabulary api unwritable dummy fmt divide c s1 s2
        = .ok ((r.map (fun t => ((-1 : ℚ), t)) ++ usual.filter (fun e => decide (e.2 ∉ r))).map fmt) := by
  obtain ⟨rows, δ, ho, hE, h⟩ := analysis_ok henc C (dropped unwritable c.dtype c.fileFormat)
    c.hasWeights dummy s1 s2 hv hb
  refine ⟨entries dummy rows, ?_, ?_⟩
  · unfold approximateVocabulary
    dsimp only
    rw [check_ok hc.topK hc.pos hc.max hc.format hc.dtype]
    simp only [bind, Except.bind]
    rw [h]
    simp [orderAndWrite]
  · unfold approximateVocabulary
    rw [check_ok hc.topK hc.pos hc.max hc.format hc.dtype]
    simp only [bind, Except.bind]
    rw [h, hr]
    simp only [orderAndWrite, Option.isNone_some, Bool.and_false, Bool.false_eq_true, if_false,
      orderElements, Except.ok.injEq]
    have hse : (sortEntries (none : Option (B → Nat))) = fun l => l.insertionSort precedes := rfl
    rw [hse]
    congr 1
    have hperm : ((divide (entries dummy rows)).map (fun l => l.insertionSort precedes)).flatMap
        (fun b => b.filter (fun p => !decide (p.2 ∈ r)))
        |>.Perm ((entries dummy rows).filter (fun e => decide (e.2 ∉ r))) := by
      have h1 : ((divide (entries dummy rows)).map (fun l => l.insertionSort precedes)).flatten.Perm
          (entries dummy rows) := by
        refine List.Perm.trans ?_ (hdiv (entries dummy rows))
        generalize divide (entries dummy rows) = ls
        induction ls with
        | nil => exact List.Perm.refl _
        | cons l ls ih =>
          simp only [List.map_cons, List.flatten_cons]
          exact (List.perm_insertionSort _ l).append ih
      have h2 := h1.filter (fun e => decide (e.2 ∉ r))
      rw [List.filter_flatten] at h2
      simpa [List.flatMap_def] using h2
    beta_reduce
    rw [sorted_eq_of_perm hperm, sort_of_sorted ((entries_sorted ho).filter _)]
    unfold maybeAddDummy
    rw [if_neg]
    intro h0
    obtain ⟨h1, h2⟩ := List.append_eq_nil_iff.1 h0
    rw [List.map_eq_nil_iff.1 h1] at h2
    have h3 : entries dummy rows = [] := by simpa using h2
    unfold entries at h3
    split at h3
    · simp at h3
    · rename_i h4
      exact h4 (by simpa using h3)

/-- **C92.** Every token whose frequency is more than one part in `top_k + 1` of the total is in the
vocabulary. -/
theorem frequent_tokens_are_listed (api : SketchApi S T B) (enc : T → B)
    (henc : Function.Injective enc) (unwritable : T → Bool) (dummy : ℚ × B)
    (divide : List (ℚ × B) → List (List (ℚ × B))) (c : Call B) (k : Nat) (hc : Accepted c k)
    (hr : c.reserved = none) {Rep : S → List (B × ℚ) → Prop} (C : Contract api enc k Rep)
    (s1 : List (Sched (Batch T))) (s2 : Sched Nat) (hv : ValidRun s1 s2)
    (hb : ∀ b ∈ allInputs s1, GoodBatch c.hasWeights b) :
    ∃ tokens : List B,
      approximateVocabulary api unwritable dummy Prod.snd divide c s1 s2 = .ok tokens ∧
      ∀ t : B, total (data enc unwritable c (allInputs s1))
          < freq (data enc unwritable c (allInputs s1)) t * (k + 1) → t ∈ tokens := by
  obtain ⟨rows, δ, _, hE, h⟩ := approximate_vocabulary_estimates api enc henc unwritable dummy
    Prod.snd divide c k hc hr C s1 s2 hv hb
  refine ⟨_, h, fun t ht => ?_⟩
  have hm := hE.heavy t ht
  unfold entries
  split
  · rename_i h0
    rw [h0] at hm
    simp at hm
  · rw [List.map_map]
    exact hm

/-- **C92.** If `top_k` is at least the number of different tokens the result is exact: all tokens with
their true frequencies, most frequent first, equally frequent ones in reverse lexicographic order, just
as in the file of `tft.vocabulary`. -/
theorem few_tokens_are_exact (api : SketchApi S T B) (enc : T → B)
    (henc : Function.Injective enc) (unwritable : T → Bool) (dummy : ℚ × B) (fmt : ℚ × B → Line)
    (divide : List (ℚ × B) → List (List (ℚ × B))) (c : Call B) (k : Nat) (hc : Accepted c k)
    (hr : c.reserved = none) {Rep : S → List (B × ℚ) → Prop} (C : Contract api enc k Rep)
    (s1 : List (Sched (Batch T))) (s2 : Sched Nat) (hv : ValidRun s1 s2)
    (hb : ∀ b ∈ allInputs s1, GoodBatch c.hasWeights b)
    (hpos : ∀ p ∈ data enc unwritable c (allInputs s1), 0 < p.2)
    (hn : ((data enc unwritable c (allInputs s1)).map Prod.fst).toFinset.card ≤ k) :
    let d := data enc unwritable c (allInputs s1)
    ∃ tokens : List B, IsRanking (freq d) (fun t => t ∈ d.map Prod.fst) tokens ∧
      approximateVocabulary api unwritable dummy fmt divide c s1 s2
        = .ok ((if tokens = [] then [dummy] else tokens.map (fun t => (freq d t, t))).map fmt) := by
  intro d
  obtain ⟨rows, δ, ho, hE, h⟩ := approximate_vocabulary_estimates api enc henc unwritable dummy
    fmt divide c k hc hr C s1 s2 hv hb
  have hex := hE.exact hn
  have hrow : ∀ r ∈ rows, r.2 = freq d r.1 := by
    intro r hr'
    rw [← hex]
    obtain ⟨a, b, rfl⟩ := List.append_of_mem hr'
    have hnd := hE.once
    rw [List.map_append, List.map_cons, List.nodup_middle, List.nodup_cons] at hnd
    rw [freq_append, freq_cons, if_pos rfl, freq_of_not_mem a, freq_of_not_mem b]
    · ring
    · exact fun h => hnd.1 (List.mem_append.2 (.inr h))
    · exact fun h => hnd.1 (List.mem_append.2 (.inl h))
  refine ⟨rows.map Prod.fst, ⟨fun t => ⟨?_, fun ht => ?_⟩, ?_⟩, ?_⟩
  · intro ht
    obtain ⟨r, hr', rfl⟩ := List.mem_map.1 ht
    exact hE.occurs r hr'
  · by_contra hn'
    have h0 := freq_of_not_mem rows t hn'
    rw [hex] at h0
    exact absurd h0 (freq_pos d hpos t ht).ne'
  · rw [List.pairwise_map]
    refine ho.imp_of_mem ?_
    intro a b ha hb' hab
    unfold Outranks
    rw [← hrow a ha, ← hrow b hb']
    exact hab
  · rw [h]
    unfold entries
    by_cases h0 : rows = []
    · simp [h0]
    · rw [if_neg h0, if_neg (by simpa using h0), List.map_map (l := rows) (f := Prod.fst)]
      congr 2
      apply List.map_congr_left
      intro r hr'
      simp [hrow r hr']

/-- **C92.** Two analyses of the same data, divided and combined in any two ways, give a token
frequencies that differ by at most one part in `top_k + 1` of the total. -/
theorem runs_agree (api : SketchApi S T B) (enc : T → B)
    (henc : Function.Injective enc) (unwritable : T → Bool) (dummy : ℚ × B)
    (divide divide' : List (ℚ × B) → List (List (ℚ × B))) (c : Call B) (k : Nat) (hc : Accepted c k)
    (hr : c.reserved = none) {Rep : S → List (B × ℚ) → Prop} (C : Contract api enc k Rep)
    (s1 s1' : List (Sched (Batch T))) (s2 s2' : Sched Nat) (hv : ValidRun s1 s2)
    (hv' : ValidRun s1' s2') (hb : ∀ b ∈ allInputs s1, GoodBatch c.hasWeights b)
    (hb' : ∀ b ∈ allInputs s1', GoodBatch c.hasWeights b)
    (hsame : (data enc unwritable c (allInputs s1)).Perm (data enc unwritable c (allInputs s1'))) :
    ∃ rows rows' : List (B × ℚ),
      approximateVocabulary api unwritable dummy id divide c s1 s2 = .ok (entries dummy rows) ∧
      approximateVocabulary api unwritable dummy id divide' c s1' s2' = .ok (entries dummy rows') ∧
      ∀ t : B, (freq rows t - freq rows' t) * (k + 1) ≤ total (data enc unwritable c (allInputs s1)) ∧
        (freq rows' t - freq rows t) * (k + 1) ≤ total (data enc unwritable c (allInputs s1)) := by
  obtain ⟨rows, δ, _, hE, h⟩ := approximate_vocabulary_estimates api enc henc unwritable dummy
    id divide c k hc hr C s1 s2 hv hb
  obtain ⟨rows', δ', _, hE', h'⟩ := approximate_vocabulary_estimates api enc henc unwritable dummy
    id divide' c k hc hr C s1' s2' hv' hb'
  refine ⟨rows, rows', by simpa using h, by simpa using h', fun t => ?_⟩
  have hf := freq_perm hsame t
  have ht := total_perm hsame
  have h1 := total_nonneg rows hE.counts
  have h2 := total_nonneg rows' hE'.counts
  have a1 := hE.lower t
  have a2 := hE.upper t
  have a3 := hE.delta
  have b1 := hE'.lower t
  have b2 := hE'.upper t
  have b3 := hE'.delta
  have hk : (0 : ℚ) < (k : ℚ) + 1 := by positivity
  constructor
  · have : freq rows t - freq rows' t ≤ δ' := by linarith
    nlinarith
  · have : freq rows' t - freq rows t ≤ δ := by linarith
    nlinarith

/-- **C92.** What `approximate_vocabulary` rejects, whatever the data: a `top_k` that is missing, not
positive or larger than 200000, an unknown file format, and values that are neither strings nor
integers. -/
theorem approximate_vocabulary_rejects (api : SketchApi S T B) (unwritable : T → Bool)
    (dummy : ℚ × B) (fmt : ℚ × B → Line) (divide : List (ℚ × B) → List (List (ℚ × B))) (c : Call B)
    (h : c.topK = none ∨ (∃ k, c.topK = some k ∧ (k ≤ 0 ∨ 200000 < k)) ∨
      (c.fileFormat ≠ "text" ∧ c.fileFormat ≠ "tfrecord_gzip") ∨ c.dtype = .other)
    (s1 : List (Sched (Batch T))) (s2 : Sched Nat) :
    ∃ e, approximateVocabulary api unwritable dummy fmt divide c s1 s2 = .error e := by
  have hcheck : ∃ e, checkArguments c.topK c.fileFormat c.dtype = .error e := by
    unfold checkArguments
    split
    · exact ⟨_, rfl⟩
    · rename_i k hk
      split
      · exact ⟨_, rfl⟩
      · split
        · exact ⟨_, rfl⟩
        · split
          · exact ⟨_, rfl⟩
          · split
            · exact ⟨_, rfl⟩
            · exfalso
              rename_i h1 h2 h3 h4
              simp only [not_not] at h3
              rcases h with h | ⟨k', h, h'⟩ | ⟨h, h'⟩ | h
              · rw [hk] at h; simp at h
              · rw [hk] at h
                obtain rfl := Option.some.inj h
                omega
              · rcases h3 with h3 | h3
                · exact h h3
                · exact h' h3
              · exact h4 h
  obtain ⟨e, he⟩ := hcheck
  refine ⟨e, ?_⟩
  unfold approximateVocabulary
  rw [he]
  rfl

/-- **C92, the code disagrees with its documentation.** `compute_and_apply_approximate_vocabulary`
promises the full vocabulary if `top_k` is not given (`experimental/mappers.py:59-60`), but a call with
the default always fails. -/
theorem default_top_k_fails (api : SketchApi S T B) (unwritable : T → Bool)
    (dummy : ℚ × B) (fmt : ℚ × B → Line) (divide : List (ℚ × B) → List (List (ℚ × B))) (c : Call B)
    (hc : c.topK = defaultTopK) (s1 : List (Sched (Batch T))) (s2 : Sched Nat) :
    ∃ e, approximateVocabulary api unwritable dummy fmt divide c s1 s2 = .error e :=
  approximate_vocabulary_rejects api unwritable dummy fmt divide c (.inl hc) s1 s2

/-- **C92, the code disagrees with its intent.** The default names of the files are swapped: the file
without frequencies is called `approx_vocab_frequency_…` and the one with frequencies `approx_vocab_…`,
the opposite of what `tft.vocabulary` does. -/
theorem default_names_are_swapped (storeFrequency : Bool) :
    filenamePrefix storeFrequency = "approx_" ++ exactFilenamePrefix (!storeFrequency) := by
  cases storeFrequency <;> decide +kernel

end TFT.ApproxVocab
