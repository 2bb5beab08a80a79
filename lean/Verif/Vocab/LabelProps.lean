import Verif.Vocab.Props

/-!
# Vocabularies with labels, and which parameters are accepted (C57)
-/

namespace TFT.Vocab

open TFT.Spec

set_option linter.unusedSectionVars false

variable {T B H Key Line : Type} [DecidableEq T] [LinearOrder B] [LinearOrder H] [DecidableEq Key]

/-! ## Specification -/

/-- The token occurs, its informativeness reaches the threshold (if one is given), and it is among
the `topK` most informative tokens that do. -/
def MostInformative (info : B → ℚ) (thr : Option ℚ) (topK : Option Nat) (toks : Finset B) (t : B) :
    Prop :=
  (t ∈ toks ∧ ∀ x, thr = some x → x ≤ info t) ∧
  ∀ k, topK = some k →
    (toks.filter (fun u => (∀ x, thr = some x → x ≤ info u) ∧ Outranks info u t)).card < k

/-! ## Theorems -/

theorem getTopK_ok_iff (topK : Option Int) (thr : Option ℚ) :
    (∃ r, getTopKAndThreshold topK thr = .ok r) ↔
      (∀ k, topK = some k → 0 < k) ∧ (∀ x, thr = some x → 0 ≤ x) := by
  unfold getTopKAndThreshold
  cases topK with
  | none =>
    cases thr with
    | none => simp [bind, Except.bind, pure, Except.pure]
    | some x => by_cases h : x < 0 <;> simp [bind, Except.bind, pure, Except.pure, h] <;> linarith
  | some k =>
    by_cases hk : k ≤ 0
    · cases thr with
      | none => simp [bind, Except.bind, pure, Except.pure, hk]
      | some x =>
        by_cases h : x < 0 <;> simp [bind, Except.bind, pure, Except.pure, h, hk]
    · cases thr with
      | none => simp [bind, Except.bind, pure, Except.pure, hk]; omega
      | some x =>
        by_cases h : x < 0
        · simp [bind, Except.bind, pure, Except.pure, h, hk]
        · simp only [bind, Except.bind, pure, Except.pure, h, hk]
          simp
          exact ⟨by omega, by linarith⟩

/-- **C57** The parameters that `tft.vocabulary` accepts: `top_k` positive, thresholds not negative,
the same for coverage, and `key_fn` given exactly if there is a coverage parameter that is not 0. -/
theorem params_accept_iff (topK ck : Option Int) (thr ct : Option ℚ) (f : Option (B → Key))
    (labels : Bool) :
    (∃ P, vocabularyParams topK thr ck ct f labels = .ok P) ↔
      (∀ k, topK = some k → 0 < k) ∧ (∀ x, thr = some x → 0 ≤ x) ∧
      (∀ k, ck = some k → 0 < k) ∧ (∀ x, ct = some x → 0 ≤ x) ∧
      (f.isSome ↔ (∃ k, ck = some k ∧ k ≠ 0) ∨ (∃ x, ct = some x ∧ x ≠ 0)) := by
  have e1 := getTopK_ok_iff topK thr
  have e2 := getTopK_ok_iff ck ct
  have e3 : (truthyInt ck || truthyRat ct) = true ↔
      (∃ k, ck = some k ∧ k ≠ 0) ∨ (∃ x, ct = some x ∧ x ≠ 0) := by
    unfold truthyInt truthyRat
    cases ck <;> cases ct <;> simp
  rw [← e3]
  unfold vocabularyParams
  constructor
  · rintro ⟨P, h⟩
    obtain ⟨⟨k, t⟩, h1, h⟩ := bind_ok_iff.1 h
    have h1' := e1.1 ⟨_, h1⟩
    simp only at h
    by_cases c1 : ((truthyInt ck || truthyRat ct) && f.isNone) = true
    · rw [if_pos c1] at h; cases h
    rw [if_neg c1] at h
    by_cases c2 : (f.isSome && !(truthyInt ck || truthyRat ct)) = true
    · rw [if_pos c2] at h; cases h
    rw [if_neg c2] at h
    obtain ⟨⟨k', t'⟩, h2, h⟩ := bind_ok_iff.1 h
    have h2' := e2.1 ⟨_, h2⟩
    refine ⟨h1'.1, h1'.2, h2'.1, h2'.2, ?_⟩
    cases f <;> cases hb : (truthyInt ck || truthyRat ct) <;> simp_all
  · rintro ⟨a, b, c, d, e⟩
    obtain ⟨⟨k, t⟩, h1⟩ := e1.2 ⟨a, b⟩
    obtain ⟨⟨k', t'⟩, h2⟩ := e2.2 ⟨c, d⟩
    rw [h1, h2]
    have c1 : ¬ ((truthyInt ck || truthyRat ct) && f.isNone) = true := by
      cases f <;> simp_all
    have c2 : ¬ (f.isSome && !(truthyInt ck || truthyRat ct)) = true := by
      cases f with
      | none => simp
      | some f => simp [e.1 rfl]
    simp only [bind, Except.bind]
    rw [if_neg c1, if_neg c2]
    cases labels <;> simp

/-- Accepted and rejected parameters. -/
example : (∃ P, vocabularyParams (Key := Nat) (B := Nat) (some 3) (some 2) none none none false = .ok P)
    ∧ ¬ (∃ P, vocabularyParams (Key := Nat) (B := Nat) (some 0) none none none none true = .ok P)
    ∧ ¬ (∃ P, vocabularyParams (Key := Nat) (B := Nat) none none (some 2) none none true = .ok P) := by
  simp only [params_accept_iff]
  simp

theorem labelParams_ok {topK : Option Int} {thr : Option ℚ} {P : PruneParams Key B}
    (hP : vocabularyParams topK thr none none none true = .ok P) :
    P = ⟨topK.map Int.toNat, 0, orMinusInf thr, none, 0, ⊥, none⟩ := by
  have hp := (params_accept_iff topK none thr none (none : Option (B → Key)) true).1 ⟨P, hP⟩
  unfold vocabularyParams getTopKAndThreshold at hP
  cases topK with
  | none =>
    cases thr with
    | none =>
      simp only [truthyInt, truthyRat] at hP
      simp [bind, Except.bind, pure, Except.pure] at hP
      rw [← hP]; rfl
    | some x =>
      have : ¬ x < 0 := not_lt.2 (hp.2.1 x rfl)
      simp only [truthyInt, truthyRat] at hP
      simp [bind, Except.bind, pure, Except.pure, this] at hP
      rw [← hP]; rfl
  | some k =>
    have hk : ¬ k ≤ 0 := not_le.2 (hp.1 k rfl)
    cases thr with
    | none =>
      simp only [truthyInt, truthyRat] at hP
      simp [bind, Except.bind, pure, Except.pure, hk] at hP
      rw [← hP]; rfl
    | some x =>
      have : ¬ x < 0 := not_lt.2 (hp.2.1 x rfl)
      simp only [truthyInt, truthyRat] at hP
      simp [bind, Except.bind, pure, Except.pure, hk, this] at hP
      rw [← hP]; rfl

theorem passB_info (thr : Option ℚ) (i fr : ℚ) (hf : 0 ≤ fr) :
    passB 0 (orMinusInf thr) (.infoAndFreq i fr) = decide (∀ x, thr = some x → x ≤ i) := by
  unfold passB passesThresholds
  cases thr with
  | none =>
    rw [if_neg]
    · simp
    · rintro (h | h)
      · exact lt_irrefl _ h
      · exact absurd h (lt_irrefl _)
  | some x =>
    have hx : (⊥ : WithBot ℚ) < orMinusInf (some x) := WithBot.bot_lt_coe x
    rw [if_pos (Or.inr hx)]
    simp [hf, orMinusInf]

/-- **C57** `tft.vocabulary` with labels: the thresholds are thresholds of the informativeness, not
of the frequency. For all informativeness and frequencies of the tokens and all batchings, the file
lists exactly the tokens that reach the threshold and are among the `top_k` most informative ones,
most informative first, with their informativeness. -/
theorem labelled_vocabulary_contents (enc : T → B) (henc : Function.Injective enc) (dummy : ℚ × B)
    (fmt : ℚ × B → Line) (topK : Option Int) (thr : Option ℚ) (P : PruneParams Key B)
    (hP : vocabularyParams topK thr none none none true = .ok P)
    (toks : List T) (hnd : toks.Nodup) (info fr : B → ℚ) (hfr : ∀ t ∈ toks, 0 ≤ fr (enc t)) :
    ∃ tokens, IsRanking info
        (MostInformative info thr (topK.map Int.toNat) (toks.map enc).toFinset) tokens ∧
      ∀ batches, batches.flatten.Perm (prune enc dummy P
          (toks.map (fun t => (Indicator.infoAndFreq (info (enc t)) (fr (enc t)), t)))) →
        vocabularyFile enc dummy P (none : Option (B → H)) fmt none
            (toks.map (fun t => (Indicator.infoAndFreq (info (enc t)) (fr (enc t)), t))) batches
          = .ok ((if tokens = [] then [dummy] else tokens.map (fun t => (info t, t))).map fmt) := by
  have hPe := labelParams_ok hP
  subst hPe
  set counts := toks.map (fun t => (Indicator.infoAndFreq (info (enc t)) (fr (enc t)), t)) with hcounts
  set ind : B → Indicator := fun b => .infoAndFreq (info b) (fr b) with hind
  have hc : counts.map (fun p => (p.1, enc p.2)) = (toks.map enc).map (fun b => (ind b, b)) := by
    simp [hcounts, hind]
  set l := (toks.map enc).filter (fun b => passB 0 (orMinusInf thr) (ind b)) with hl
  have hlnd : l.Nodup := (hnd.map henc).filter _
  have hml : ∀ u, u ∈ l ↔ u ∈ (toks.map enc).toFinset ∧ ∀ x, thr = some x → x ≤ info u := by
    intro u
    rw [hl, List.mem_filter, List.mem_toFinset]
    constructor
    · rintro ⟨hu, hp⟩
      obtain ⟨t, ht, rfl⟩ := List.mem_map.1 hu
      rw [hind, passB_info _ _ _ (hfr t ht), decide_eq_true_eq] at hp
      exact ⟨hu, hp⟩
    · rintro ⟨hu, hp⟩
      refine ⟨hu, ?_⟩
      obtain ⟨t, ht, rfl⟩ := List.mem_map.1 hu
      rw [hind, passB_info _ _ _ (hfr t ht), decide_eq_true_eq]
      exact hp
  have hbest : ∀ t, t ∈ bestOf info l (topK.map Int.toNat) ↔
      MostInformative info thr (topK.map Int.toNat) (toks.map enc).toFinset t := by
    intro t
    rw [mem_bestOf info l hlnd, hml]
    unfold MostInformative
    have : l.toFinset.filter (fun u => Outranks info u t)
        = (toks.map enc).toFinset.filter
            (fun u => (∀ x, thr = some x → x ≤ info u) ∧ Outranks info u t) := by
      ext u
      simp only [Finset.mem_filter]
      rw [List.mem_toFinset, hml]
      tauto
    rw [this]
  have hsc : scoreOf ind = info := rfl
  refine ⟨ranked info (bestOf info l (topK.map Int.toNat)),
    ranked_isRanking _ _ (nodup_bestOf _ _ hlnd _) _ hbest, ?_⟩
  intro batches hb
  unfold vocabularyFile prune at *
  simp only at hb ⊢
  rw [standard_arm (Key := Key) enc dummy 0 _ counts (toks.map enc) ind hc] at hb ⊢
  cases topK with
  | none =>
    simp only [Option.map_none, Option.isSome_none, Bool.false_and, Bool.false_eq_true, if_false]
      at hb ⊢
    unfold orderAndWrite inputIsSorted
    simp only [Option.isSome_none, Bool.false_and, Bool.false_eq_true, if_false]
    rw [sort_path_none dummy ind _ batches hb]
    unfold maybeAddDummy
    simp only [List.map_eq_nil_iff]
    rfl
  | some k =>
    have hs : ranked info (bestOf info l ((some k).map Int.toNat))
        = bestOf info l ((some k).map Int.toNat) := by
      apply ranked_of_sorted
      exact (ranked_sorted info l hlnd).sublist (List.take_sublist _ _)
    rw [hs]
    unfold orderAndWrite inputIsSorted
    simp only [Option.map_some, Option.isSome_some, Option.isSome_none, Option.isNone_none,
      Bool.not_false, Bool.and_self, if_true, Bool.false_eq_true, if_false, Bool.true_and,
      List.isEmpty_iff]
    rfl

/-- Three tokens, of which the most frequent one is the least informative and not listed. -/
example : ∃ lines, vocabularyFile (Key := Nat) (H := Nat) id (0, 0)
      ⟨some 2, 0, ((1 : ℚ) : WithBot ℚ), none, 0, ⊥, none⟩ none Prod.snd none
      [(.infoAndFreq (1/2) 90, 7), (.infoAndFreq 3 2, 8), (.infoAndFreq 4 1, 9)]
      [[(3, 8), (4, 9)]] = .ok lines ∧ lines = [9, 8] := by
  refine ⟨_, rfl, ?_⟩
  decide +kernel

end TFT.Vocab
