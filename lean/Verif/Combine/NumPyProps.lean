import Verif.Combine.NumPyLemmas

/-!
# C02 and C03: `sum`, `size`, `min`, `max` for every schedule

`s1`, `s2` are an arbitrary run (see `ValidRun`); a batch is well-formed for a tensor of
instance shape `shape` when it has one column per entry of the shape.
-/

namespace TFT

open Spec

variable {β : Type}

theorem sumLaw (g : β → ℚ) (sh : List Nat) :
    ColLaw (β := β) (· + ·) (0 : ℚ) sh 1 (fun _ v l => v = (l.map g).sum) where
  nil := by simp
  perm := by intro _ v l m h hv; rw [hv]; exact (h.map g).sum_eq
  app := by intro _ a b l m ha hb; simp [ha, hb]
  drop := by
    intro _ m hm _ _ a l ha
    obtain ⟨v, hv, h0⟩ := hm 0 (by omega)
    have : (m.map g).sum = 0 := by rw [← hv]; exact h0 rfl
    simp [ha, this]

theorem sum_total (g : β → ℚ) (sh : List Nat) (known : Bool) :
    Sched.Total ((npCombiner (· + ·) (0 : ℚ) [if known then some sh else none] id).onBatches
        (fun cols : ColBatch β => [⟨sh, cols.map (fun c => (c.map g).sum)⟩]))
      (fun b => b.length = sh.prod)
      (AccRel (fun _ v l => v = (l.map g).sum) 0 sh known 1) := by
  refine np_total (k := 1) (by omega) (sumLaw g sh) id _ _ ?_
  intro b hb
  refine ⟨rfl, ?_⟩
  intro j a ha
  have hj : j = 0 := by
    have := (List.getElem?_eq_some_iff.1 ha).1
    simpa using this
  subst hj
  simp only [List.getElem?_cons_zero, Option.some.injEq] at ha
  subst ha
  refine ⟨rfl, by simpa using hb, ?_⟩
  intro p v hv
  rw [List.getElem?_map, Option.map_eq_some_iff] at hv
  obtain ⟨c, hc, rfl⟩ := hv
  simp [colData, List.getD_eq_getElem?_getD, hc]

/-- The claim of C02 about an analyzer with one output of shape `sh`: every allowed run
succeeds and entry `p` of the result is the total of `g` over all values at position `p`.
Excluded: no batch at all for a tensor whose shape is not known statically. -/
def ComputesTotal (an : Combiner (List (Nd ℚ)) (ColBatch β) (List (Nd ℚ))) (sh : List Nat)
    (known : Bool) (g : β → ℚ) : Prop :=
  ∀ (s1 : List (Sched (ColBatch β))) (s2 : Sched Nat), ValidRun s1 s2 →
    (∀ b ∈ allInputs s1, b.length = sh.prod) →
    (known = true ∨ allInputs s1 ≠ []) →
    analysis an s1 s2 =
      .ok [⟨sh, (List.range sh.prod).map (fun p => ((colData (allInputs s1) p).map g).sum)⟩]

theorem computesTotal (g : β → ℚ) (sh : List Nat) (known : Bool) :
    ComputesTotal ((npCombiner (· + ·) (0 : ℚ) [if known then some sh else none] id).onBatches
        (fun cols : ColBatch β => [⟨sh, cols.map (fun c => (c.map g).sum)⟩])) sh known g := by
  intro s1 s2 hv hP hne
  obtain ⟨final, hfin, hrel⟩ := analysis_total (sum_total g sh known)
    (fun a l l' h => AccRel.perm (sumLaw g sh) h) s1 s2 hv hP
  rw [hfin]
  rcases hrel with ⟨h1, h2⟩ | ⟨h1, h2, _⟩
  · obtain ⟨a, rfl⟩ := List.length_eq_one_iff.1 h1
    have ha := h2 0 a (by simp)
    obtain ⟨shape, data⟩ := a
    have e1 := ha.shape
    have e2 := ha.len
    simp only at e1 e2
    subst e1
    have e3 : data = (List.range shape.prod).map
        (fun p => ((colData (allInputs s1) p).map g).sum) := by
      apply List.ext_getElem
      · simp [e2]
      · intro p h1 h2
        have := ha.val p data[p] (List.getElem?_eq_getElem h1)
        simpa using this
    simp [Combiner.onBatches, npCombiner, e3]
  · rcases hne with hne | hne
    · simp [h1] at hne
    · exact absurd h2 hne

/-- **C02** for `tft.sum`, reduced over everything (`sh = []`) or elementwise. -/
theorem sum_schedule_independent (sh : List Nat) (known : Bool) :
    ComputesTotal (sumAnalyzer sh known) sh known id := by
  have := computesTotal (β := ℚ) id sh known
  simpa [sumAnalyzer] using this

/-- **C02** for `tft.size`: the total is the number of values. -/
theorem size_schedule_independent (sh : List Nat) (known : Bool) :
    ComputesTotal (sizeAnalyzer β sh known) sh known (fun _ => 1) := by
  have := computesTotal (β := β) (fun _ => 1) sh known
  simpa [sizeAnalyzer, sumAnalyzer, Combiner.onBatches, Function.comp_def] using this

/-- A run with two datasets, an empty batch, a batch that sums to the default value 0, merges
and a compaction. -/
def sumRun1 : List (Sched (ColBatch ℚ)) :=
  [.merge [.add .create [[1, -1]], .compact (.add (.add .create [[2]]) [[]])],
   .add .create [[6]]]

theorem sumRun_valid : ValidRun sumRun1 (.merge [.add .create 1, .add .create 0]) where
  merges1 := by
    intro s hs
    simp only [sumRun1, List.mem_cons, List.not_mem_nil, or_false] at hs
    rcases hs with rfl | rfl
    · refine .merge (by simp) ?_
      intro s hs
      simp only [List.mem_cons, List.not_mem_nil, or_false] at hs
      rcases hs with rfl | rfl
      · exact .add .create
      · exact .compact (.add (.add .create))
    · exact .add .create
  merges2 := by
    refine .merge (by simp) ?_
    intro s hs
    simp only [List.mem_cons, List.not_mem_nil, or_false] at hs
    rcases hs with rfl | rfl <;> exact .add .create
  once := by decide

example : ValidRun sumRun1 (.merge [.add .create 1, .add .create 0]) ∧
    (∀ b ∈ allInputs sumRun1, b.length = ([] : List Nat).prod) ∧
    analysis (sumAnalyzer [] true) sumRun1 (.merge [.add .create 1, .add .create 0])
      = .ok [⟨[], [8]⟩] :=
  ⟨sumRun_valid, by decide, by decide +kernel⟩

/-! ## min and max -/

variable {α : Type} [LinearOrder α]

/-- Values of a dtype on which the reduction through `0 - x` and the default value are sound. -/
structure GoodValues (T : NumType α) (sh : List Nat) (ok : α → Prop) : Prop where
  lowest_le : T.lowest ≤ T.default
  default_le : ∀ x, ok x → T.default ≤ x
  default_le_neg : ∀ x, ok x → T.default ≤ T.neg x
  antitone : ∀ x y, ok x → ok y → x ≤ y → T.neg y ≤ T.neg x
  neg_neg : ∀ x, ok x → T.neg (T.neg x) = x
  cast_id : ∀ x, ok x → T.cast x = x
  not_default : sh = [] → ∀ x, ok x → T.neg x ≠ T.default

/-- `v` is the largest of the values `f x`, or at most the default if there are none. -/
def MaxRel (T : NumType α) (ok : α → Prop) (f : α → α) (v : α) (l : List α) : Prop :=
  (∀ x ∈ l, ok x) ∧ (l = [] → v ≤ T.default) ∧ (l ≠ [] → IsMaxOf v (l.map f))

theorem MaxRel.app {T : NumType α} {ok : α → Prop} {f : α → α}
    (hd : ∀ x, ok x → T.default ≤ f x) {a b : α} {l m : List α}
    (ha : MaxRel T ok f a l) (hb : MaxRel T ok f b m) : MaxRel T ok f (max a b) (l ++ m) := by
  obtain ⟨a1, a2, a3⟩ := ha
  obtain ⟨b1, b2, b3⟩ := hb
  refine ⟨?_, ?_, ?_⟩
  · intro x hx
    rcases List.mem_append.1 hx with h | h
    · exact a1 x h
    · exact b1 x h
  · intro h
    obtain ⟨h1, h2⟩ := List.append_eq_nil_iff.1 h
    exact max_le (a2 h1) (b2 h2)
  · intro _
    rcases eq_or_ne l [] with hl | hl
    · subst hl
      rcases eq_or_ne m [] with hm | hm
      · subst hm; simp at *
      · have hb' := b3 hm
        have : max a b = b := by
          apply max_eq_right
          obtain ⟨x, hx, hbx⟩ := List.mem_map.1 hb'.1
          calc a ≤ T.default := a2 rfl
            _ ≤ f x := hd x (b1 x hx)
            _ = b := hbx
        rw [this]; simpa using hb'
    · have ha' := a3 hl
      rcases eq_or_ne m [] with hm | hm
      · subst hm
        have : max a b = a := by
          apply max_eq_left
          obtain ⟨x, hx, hax⟩ := List.mem_map.1 ha'.1
          calc b ≤ T.default := b2 rfl
            _ ≤ f x := hd x (a1 x hx)
            _ = a := hax
        rw [this]; simpa using ha'
      · have hb' := b3 hm
        refine ⟨?_, ?_⟩
        · rw [List.map_append, List.mem_append]
          rcases max_choice a b with h | h <;> rw [h]
          · exact .inl ha'.1
          · exact .inr hb'.1
        · intro x hx
          rw [List.map_append, List.mem_append] at hx
          rcases hx with hx | hx
          · exact le_trans (ha'.2 x hx) (le_max_left _ _)
          · exact le_trans (hb'.2 x hx) (le_max_right _ _)

theorem MaxRel.perm {T : NumType α} {ok : α → Prop} {f : α → α} {v : α} {l m : List α}
    (h : l.Perm m) (hv : MaxRel T ok f v l) : MaxRel T ok f v m := by
  obtain ⟨h1, h2, h3⟩ := hv
  refine ⟨fun x hx => h1 x (h.mem_iff.2 hx), ?_, ?_⟩
  · rintro rfl; exact h2 h.eq_nil
  · intro hm
    have hl : l ≠ [] := by rintro rfl; exact hm h.nil_eq.symm
    obtain ⟨k1, k2⟩ := h3 hl
    exact ⟨(h.map f).mem_iff.1 k1, fun x hx => k2 x ((h.map f).mem_iff.2 hx)⟩

theorem reduceMax_rel {T : NumType α} {ok : α → Prop} {f : α → α} (hlow : T.lowest ≤ T.default)
    (hd : ∀ x, ok x → T.default ≤ f x) (l : List α) (hok : ∀ x ∈ l, ok x) :
    MaxRel T ok f (reduceMax T (l.map f)) l := by
  have gen : ∀ (m l : List α) (v : α), (∀ x ∈ m, ok x) → MaxRel T ok f v l →
      MaxRel T ok f ((m.map f).foldl max v) (l ++ m) := by
    intro m
    induction m with
    | nil => intro l v _ h; simpa using h
    | cons x m ih =>
      intro l v hm h
      have hx : MaxRel T ok f (f x) [x] := by
        refine ⟨by simpa using hm x (by simp), by simp, fun _ => ?_⟩
        exact ⟨by simp, by simp⟩
      have := ih (l ++ [x]) (max v (f x)) (fun y hy => hm y (by simp [hy])) (h.app hd hx)
      simpa using this
  have := gen l [] T.lowest hok ⟨by simp, fun _ => hlow, by simp⟩
  simpa [reduceMax] using this

/-- Output 0 of the combiner is about `0 - x`, output 1 about `x`. -/
def minMaxRel (T : NumType α) (ok : α → Prop) (j : Nat) (v : α) (l : List α) : Prop :=
  MaxRel T ok (if j = 0 then T.neg else id) v l

theorem minMaxLaw {T : NumType α} {sh : List Nat} {ok : α → Prop} (G : GoodValues T sh ok) :
    ColLaw (β := α) max T.default sh 2 (minMaxRel T ok) where
  nil := by intro j; exact ⟨by simp, fun _ => le_refl _, by simp⟩
  perm := by intro j v l m h hv; exact MaxRel.perm h hv
  app := by
    intro j a b l m ha hb
    refine MaxRel.app ?_ ha hb
    intro x hx
    split
    · exact G.default_le_neg x hx
    · exact G.default_le x hx
  drop := by
    intro hsh m hm j _ a l ha
    obtain ⟨v, hv, h0⟩ := hm 0 (by omega)
    have hv0 := h0 rfl
    subst hv0
    have hm0 : m = [] := by
      by_contra hne
      obtain ⟨x, hx, he⟩ := List.mem_map.1 (hv.2.2 hne).1
      exact G.not_default hsh x (hv.1 x hx) (by simpa using he)
    subst hm0
    simpa using ha

theorem minMax_total {T : NumType α} {sh : List Nat} {ok : α → Prop} (G : GoodValues T sh ok)
    (known : Bool) :
    Sched.Total (minMaxAnalyzer T sh known)
      (fun b => b.length = sh.prod ∧ ∀ c ∈ b, ∀ x ∈ c, ok x)
      (AccRel (minMaxRel T ok) T.default sh known 2) := by
  have h := np_total (k := 2) (known := known) (by omega) (minMaxLaw G) id
    (minusMinAndMax T sh) (fun b => b.length = sh.prod ∧ ∀ c ∈ b, ∀ x ∈ c, ok x) (by
      rintro b ⟨hb, hok⟩
      refine ⟨rfl, ?_⟩
      intro j a ha
      have hdata : ∀ (f : α → α), (∀ x, ok x → T.default ≤ f x) → ∀ p v,
          (b.map (fun c => reduceMax T (c.map f)))[p]? = some v →
          MaxRel T ok f v (colData [b] p) := by
        intro f hf p v hv
        rw [List.getElem?_map, Option.map_eq_some_iff] at hv
        obtain ⟨c, hc, rfl⟩ := hv
        have : colData [b] p = c := by
          simp [colData, List.getD_eq_getElem?_getD, hc]
        rw [this]
        exact reduceMax_rel G.lowest_le hf c (hok c (List.mem_of_getElem? hc))
      have hj : j = 0 ∨ j = 1 := by
        have := (List.getElem?_eq_some_iff.1 ha).1
        simp [minusMinAndMax] at this
        omega
      rcases hj with rfl | rfl
      · simp only [minusMinAndMax, List.getElem?_cons_zero, Option.some.injEq] at ha
        subst ha
        exact ⟨rfl, by simpa using hb, hdata T.neg G.default_le_neg⟩
      · simp only [minusMinAndMax, List.getElem?_cons_succ, List.getElem?_cons_zero,
          Option.some.injEq] at ha
        subst ha
        refine ⟨rfl, by simpa using hb, ?_⟩
        have := hdata id G.default_le
        simpa [minMaxRel] using this)
  exact ⟨h.create, h.add, h.merge, h.compact⟩

/-- The claim of C03: every allowed run succeeds, and for every position that has data the
results are the smallest and the largest value of the whole dataset at that position. -/
def ComputesMinMax (T : NumType α) (sh : List Nat) (known : Bool) (ok : α → Prop) : Prop :=
  ∀ (s1 : List (Sched (ColBatch α))) (s2 : Sched Nat), ValidRun s1 s2 →
    (∀ b ∈ allInputs s1, b.length = sh.prod ∧ ∀ c ∈ b, ∀ x ∈ c, ok x) →
    ∃ mins maxs, analysis (minMaxAnalyzer T sh known) s1 s2 = .ok [mins, maxs] ∧
      ∀ p, colData (allInputs s1) p ≠ [] → p < sh.prod →
        ∃ lo hi, mins.data[p]? = some lo ∧ maxs.data[p]? = some hi ∧
          IsMinOf lo (colData (allInputs s1) p) ∧ IsMaxOf hi (colData (allInputs s1) p)

/-- The final accumulator of `min`/`max` holds the extremes of every position that has data. -/
theorem minMax_final {T : NumType α} {sh : List Nat} {ok : α → Prop} (G : GoodValues T sh ok)
    {known : Bool} {final : List (Nd α)} {ds : List (ColBatch α)}
    (hrel : AccRel (minMaxRel T ok) T.default sh known 2 final ds) :
    ∃ mm mx, final = [mm, mx] ∧
      (ds ≠ [] → mm.data.length = sh.prod ∧ mx.data.length = sh.prod) ∧
      ∀ p, colData ds p ≠ [] → p < sh.prod →
        ∃ lo hi, (mm.data.map (fun v => T.cast (T.neg v)))[p]? = some lo ∧
          (mx.data.map T.cast)[p]? = some hi ∧
          IsMinOf lo (colData ds p) ∧ IsMaxOf hi (colData ds p) := by
  have hlen : final.length = 2 := by
    rcases hrel with h | h
    · exact h.1
    · simp [h.2.2]
  obtain ⟨mm, mx, rfl⟩ := List.length_eq_two.1 hlen
  refine ⟨mm, mx, rfl, ?_, ?_⟩
  · intro hne
    rcases hrel with ⟨_, h2⟩ | ⟨_, h2, _⟩
    · exact ⟨(h2 0 mm (by simp)).len, (h2 1 mx (by simp)).len⟩
    · exact absurd h2 hne
  · intro p hne hp
    rcases hrel with ⟨_, h2⟩ | ⟨_, h2, _⟩
    · have r0 := h2 0 mm (by simp)
      have r1 := h2 1 mx (by simp)
      have hp0 : p < mm.data.length := by rw [r0.len]; exact hp
      have hp1 : p < mx.data.length := by rw [r1.len]; exact hp
      obtain ⟨hok, _, k0⟩ := r0.val p _ (List.getElem?_eq_getElem hp0)
      obtain ⟨_, _, k1⟩ := r1.val p _ (List.getElem?_eq_getElem hp1)
      have k0 := k0 hne
      have k1 := k1 hne
      simp only [Nat.one_ne_zero, if_true, if_false, List.map_id] at k0 k1
      obtain ⟨x, hx, hmx⟩ := List.mem_map.1 k0.1
      have hokx := hok x hx
      have e0 : T.cast (T.neg mm.data[p]) = x := by
        rw [← hmx, G.neg_neg x hokx, G.cast_id x hokx]
      have e1 : T.cast mx.data[p] = mx.data[p] := G.cast_id _ (hok _ k1.1)
      refine ⟨x, mx.data[p], by simp [hp0, e0], by simp [hp1, e1], ⟨hx, ?_⟩, k1⟩
      intro y hy
      have hle := k0.2 _ (List.mem_map_of_mem hy)
      rw [← hmx] at hle
      by_contra hlt
      have hlt := not_le.1 hlt
      have h3 := G.antitone y x (hok y hy) hokx (le_of_lt hlt)
      have : T.neg y = T.neg x := le_antisymm hle h3
      have := congrArg T.neg this
      rw [G.neg_neg _ (hok y hy), G.neg_neg _ hokx] at this
      exact absurd this (ne_of_lt hlt)
    · rw [h2] at hne; simp [colData] at hne

theorem computesMinMax {T : NumType α} {sh : List Nat} {ok : α → Prop} (G : GoodValues T sh ok)
    (known : Bool) : ComputesMinMax T sh known ok := by
  intro s1 s2 hv hP
  obtain ⟨final, hfin, hrel⟩ := analysis_total (minMax_total G known)
    (fun a l l' h => AccRel.perm (minMaxLaw G) h) s1 s2 hv hP
  obtain ⟨mm, mx, rfl, -, hval⟩ := minMax_final G hrel
  refine ⟨⟨mm.shape, mm.data.map (fun v => T.cast (T.neg v))⟩, ⟨mx.shape, mx.data.map T.cast⟩,
    ?_, hval⟩
  rw [hfin]
  simp [minMaxAnalyzer, npCombiner, Combiner.onBatches, bind, Except.bind]

theorem EFloat.neg_antitone (x y : EFloat) (h : x ≤ y) : EFloat.neg y ≤ EFloat.neg x := by
  rcases x with _ | _ | x
  · change _ ≤ (⊤ : EFloat); exact le_top
  · have : y = ⊤ := top_le_iff.1 h
    subst this; exact bot_le
  · rcases y with _ | _ | y
    · exact absurd (le_bot_iff.1 h) (by simp)
    · exact bot_le
    · have h' : (x : ℚ) ≤ y := by
        have := WithBot.coe_le_coe.1 h
        exact WithTop.coe_le_coe.1 this
      change ((( -y : ℚ) : WithTop ℚ) : EFloat) ≤ (((-x : ℚ) : WithTop ℚ) : EFloat)
      exact_mod_cast neg_le_neg h'

theorem EFloat.neg_neg (x : EFloat) : EFloat.neg (EFloat.neg x) = x := by
  rcases x with _ | _ | x
  · rfl
  · rfl
  · simp [EFloat.neg]; rfl

theorem EFloat.neg_ne_bot (x : EFloat) (h : x ≠ ⊤) : EFloat.neg x ≠ ⊥ := by
  rcases x with _ | _ | x
  · exact WithBot.coe_ne_bot
  · exact absurd rfl h
  · exact WithBot.coe_ne_bot

/-- **C03** for float tensors reduced over all dimensions, partial: no value is `+inf` (nor
NaN). The claim fails for `+inf`, see `float_max_wrong`. -/
theorem float_min_max_partial (known : Bool) :
    ComputesMinMax floatType [] known (fun x => x ≠ ⊤) :=
  computesMinMax
    { lowest_le := le_refl _
      default_le := fun _ _ => bot_le
      default_le_neg := fun _ _ => bot_le
      antitone := fun x y _ _ h => EFloat.neg_antitone x y h
      neg_neg := fun x _ => EFloat.neg_neg x
      cast_id := fun _ _ => rfl
      not_default := fun _ x hx => EFloat.neg_ne_bot x hx } known

/-- **C03** for float tensors, elementwise (instance shape of rank at least 1): all values
except NaN, including infinities. -/
theorem float_elementwise_min_max (sh : List Nat) (hsh : sh ≠ []) (known : Bool) :
    ComputesMinMax floatType sh known (fun _ => True) :=
  computesMinMax
    { lowest_le := le_refl _
      default_le := fun _ _ => bot_le
      default_le_neg := fun _ _ => bot_le
      antitone := fun x y _ _ h => EFloat.neg_antitone x y h
      neg_neg := fun x _ => EFloat.neg_neg x
      cast_id := fun _ _ => rfl
      not_default := fun h => absurd h hsh } known

/-- **C03** for float `SparseTensor`s, elementwise: columns may have missing values. -/
theorem sparse_float_min_max (sh : List Nat) (hsh : sh ≠ []) (known : Bool) :
    ComputesMinMax sparseFloatType sh known (fun x => x ≠ ⊥) :=
  computesMinMax
    { lowest_le := le_refl _
      default_le := fun _ _ => bot_le
      default_le_neg := fun _ _ => bot_le
      antitone := by
        intro x y hx hy h
        obtain ⟨x, rfl⟩ := WithBot.ne_bot_iff_exists.1 hx
        obtain ⟨y, rfl⟩ := WithBot.ne_bot_iff_exists.1 hy
        have h' : x ≤ y := WithBot.coe_le_coe.1 h
        change ((-y : ℚ) : WithBot ℚ) ≤ ((-x : ℚ) : WithBot ℚ)
        exact_mod_cast neg_le_neg h'
      neg_neg := by
        intro x hx
        obtain ⟨x, rfl⟩ := WithBot.ne_bot_iff_exists.1 hx
        change ((-(-x) : ℚ) : WithBot ℚ) = x
        simp
      cast_id := fun _ _ => rfl
      not_default := fun h => absurd h hsh } known

/-- **C03** for signed integers, partial: reduced over all dimensions, the largest and the
smallest value of the dtype are excluded. See `int_max_wrong`, `int_min_wrong`. -/
theorem int_min_max_partial (bits : Nat) (known : Bool) :
    ComputesMinMax (signedType bits) [] known
      (fun x => -(2 ^ (bits - 1)) < x ∧ x < 2 ^ (bits - 1) - 1) := by
  refine computesMinMax ⟨?_, ?_, ?_, ?_, ?_, ?_, ?_⟩ known <;> simp only [signedType]
  · omega
  · rintro x ⟨h1, h2⟩; omega
  · rintro x ⟨h1, h2⟩; split <;> omega
  · rintro x y ⟨h1, h2⟩ ⟨h3, h4⟩ h; split <;> split <;> omega
  · rintro x ⟨h1, h2⟩
    have : x ≠ -(2 ^ (bits - 1)) := by omega
    have : -x ≠ -(2 ^ (bits - 1)) := by omega
    simp [*]
  · intros; rfl
  · rintro _ x ⟨h1, h2⟩
    split <;> omega

/-- **C03** for signed integers, elementwise, partial: only the smallest value of the dtype is
excluded. -/
theorem int_elementwise_min_max_partial (bits : Nat) (sh : List Nat) (hsh : sh ≠ [])
    (known : Bool) :
    ComputesMinMax (signedType bits) sh known
      (fun x => -(2 ^ (bits - 1)) < x ∧ x ≤ 2 ^ (bits - 1) - 1) := by
  refine computesMinMax ⟨?_, ?_, ?_, ?_, ?_, ?_, fun h => absurd h hsh⟩ known <;>
    simp only [signedType]
  · omega
  · rintro x ⟨h1, h2⟩; omega
  · rintro x ⟨h1, h2⟩; split <;> omega
  · rintro x y ⟨h1, h2⟩ ⟨h3, h4⟩ h; split <;> split <;> omega
  · rintro x ⟨h1, h2⟩
    have : x ≠ -(2 ^ (bits - 1)) := by omega
    have : -x ≠ -(2 ^ (bits - 1)) := by omega
    simp [*]
  · intros; rfl

/-- **C03** for `uint8` and `uint16`, partial: reduced over all dimensions, the largest value
of the dtype is excluded. See `uint8_max_wrong`. -/
theorem uint_min_max_partial (bits : Nat) (hb : bits ≤ 16) (known : Bool) :
    ComputesMinMax (unsignedType bits) [] known (fun x => 0 ≤ x ∧ x < 2 ^ bits - 1) := by
  have h16 : (2 : Int) ^ bits ≤ 2 ^ 16 := by exact_mod_cast Nat.pow_le_pow_right (by omega) hb
  norm_num at h16
  refine computesMinMax ⟨?_, ?_, ?_, ?_, ?_, ?_, ?_⟩ known <;> simp only [unsignedType]
  · omega
  · rintro x ⟨h1, h2⟩; omega
  · rintro x ⟨h1, h2⟩; split <;> omega
  · rintro x y ⟨h1, h2⟩ ⟨h3, h4⟩ h; split <;> split <;> omega
  · rintro x ⟨h1, h2⟩
    have e1 : x ≠ -(2 ^ 31) := by omega
    have e2 : -x ≠ -(2 ^ 31) := by omega
    rw [if_neg e1, if_neg e2, _root_.neg_neg]
  · rintro x ⟨h1, h2⟩; exact Int.emod_eq_of_lt h1 (by omega)
  · rintro _ x ⟨h1, h2⟩
    split <;> omega

/-- **C03** for `uint8` and `uint16`, elementwise. -/
theorem uint_elementwise_min_max (bits : Nat) (hb : bits ≤ 16) (sh : List Nat) (hsh : sh ≠ [])
    (known : Bool) :
    ComputesMinMax (unsignedType bits) sh known (fun x => 0 ≤ x ∧ x < 2 ^ bits) := by
  have h16 : (2 : Int) ^ bits ≤ 2 ^ 16 := by exact_mod_cast Nat.pow_le_pow_right (by omega) hb
  norm_num at h16
  refine computesMinMax ⟨?_, ?_, ?_, ?_, ?_, ?_, fun h => absurd h hsh⟩ known <;>
    simp only [unsignedType]
  · omega
  · rintro x ⟨h1, h2⟩; omega
  · rintro x ⟨h1, h2⟩; split <;> omega
  · rintro x y ⟨h1, h2⟩ ⟨h3, h4⟩ h; split <;> split <;> omega
  · rintro x ⟨h1, h2⟩
    have e1 : x ≠ -(2 ^ 31) := by omega
    have e2 : -x ≠ -(2 ^ 31) := by omega
    rw [if_neg e1, if_neg e2, _root_.neg_neg]
  · rintro x ⟨h1, h2⟩; exact Int.emod_eq_of_lt h1 h2

/-- **C03** for `int16`, partial: reduced over all dimensions, the largest and the smallest value
of the dtype are excluded. See `int16_max_wrong`. -/
theorem int16_min_max_partial (known : Bool) :
    ComputesMinMax int16Type [] known (fun x => -(2 ^ 15) < x ∧ x < 2 ^ 15 - 1) := by
  refine computesMinMax ⟨?_, ?_, ?_, ?_, ?_, ?_, ?_⟩ known <;> simp only [int16Type]
  · omega
  · rintro x ⟨h1, h2⟩; omega
  · rintro x ⟨h1, h2⟩; split <;> omega
  · rintro x y ⟨h1, h2⟩ ⟨h3, h4⟩ h; split <;> split <;> omega
  · rintro x ⟨h1, h2⟩
    have e1 : x ≠ -(2 ^ 31) := by omega
    have e2 : -x ≠ -(2 ^ 31) := by omega
    rw [if_neg e1, if_neg e2, _root_.neg_neg]
  · rintro x ⟨h1, h2⟩; omega
  · rintro _ x ⟨h1, h2⟩
    split <;> omega

/-- **C03** for `int16`, elementwise, partial: only the smallest value of the dtype is
excluded. -/
theorem int16_elementwise_min_max_partial (sh : List Nat) (hsh : sh ≠ []) (known : Bool) :
    ComputesMinMax int16Type sh known (fun x => -(2 ^ 15) < x ∧ x < 2 ^ 15) := by
  refine computesMinMax ⟨?_, ?_, ?_, ?_, ?_, ?_, fun h => absurd h hsh⟩ known <;>
    simp only [int16Type]
  · omega
  · rintro x ⟨h1, h2⟩; omega
  · rintro x ⟨h1, h2⟩; split <;> omega
  · rintro x y ⟨h1, h2⟩ ⟨h3, h4⟩ h; split <;> split <;> omega
  · rintro x ⟨h1, h2⟩
    have e1 : x ≠ -(2 ^ 31) := by omega
    have e2 : -x ≠ -(2 ^ 31) := by omega
    rw [if_neg e1, if_neg e2, _root_.neg_neg]
  · rintro x ⟨h1, h2⟩; omega

/-- The run used below: two datasets, one batch each. -/
def twoBatches {γ : Type} (x y : γ) : List (Sched (ColBatch γ)) :=
  [.add .create [[x]], .add .create [[y]]]

theorem twoBatches_valid {γ : Type} (x y : γ) :
    ValidRun (twoBatches x y) (.add (.add .create 0) 1) where
  merges1 := by
    intro s hs
    simp only [twoBatches, List.mem_cons, List.not_mem_nil, or_false] at hs
    rcases hs with rfl | rfl <;> exact .add .create
  merges2 := .add (.add .create)
  once := by simp [twoBatches, Sched.inputs, List.range_succ]

/-- The hypotheses of the partial theorems are met by a non-trivial run. -/
example : ValidRun (twoBatches (3 : Int) (-4)) (.add (.add .create 0) 1) ∧
    (∀ b ∈ allInputs (twoBatches (3 : Int) (-4)), b.length = ([] : List Nat).prod ∧
      ∀ c ∈ b, ∀ x ∈ c, -(2 ^ (64 - 1)) < x ∧ x < 2 ^ (64 - 1) - 1) ∧
    analysis (minMaxAnalyzer (signedType 64) [] true) (twoBatches 3 (-4)) (.add (.add .create 0) 1)
      = .ok [⟨[], [-4]⟩, ⟨[], [3]⟩] :=
  ⟨twoBatches_valid _ _, by decide, by decide +kernel⟩

/-- A single-value analysis that is not right refutes the claim. -/
theorem not_computesMinMax {γ : Type} [LinearOrder γ] (T : NumType γ) (ok : γ → Prop) (x y lo hi : γ)
    (hx : ok x) (hy : ok y)
    (hrun : analysis (minMaxAnalyzer T [] true) (twoBatches x y) (.add (.add .create 0) 1)
      = .ok [⟨[], [lo]⟩, ⟨[], [hi]⟩])
    (hbad : ¬ (IsMinOf lo [x, y] ∧ IsMaxOf hi [x, y])) : ¬ ComputesMinMax T [] true ok := by
  intro h
  have hin : allInputs (twoBatches x y) = [[[x]], [[y]]] := by
    simp [allInputs, twoBatches, Sched.inputs]
  obtain ⟨mins, maxs, h1, h2⟩ := h (twoBatches x y) (.add (.add .create 0) 1)
    (twoBatches_valid x y) (by rw [hin]; simp [hx, hy])
  rw [hrun] at h1
  simp only [Except.ok.injEq, List.cons.injEq, and_true] at h1
  obtain ⟨rfl, rfl⟩ := h1
  have hc : colData (allInputs (twoBatches x y)) 0 = [x, y] := by rw [hin]; simp [colData]
  obtain ⟨lo', hi', e1, e2, e3, e4⟩ := h2 0 (by rw [hc]; simp) (by simp)
  simp only [List.getElem?_cons_zero, Option.some.injEq] at e1 e2
  subst e1 e2
  rw [hc] at e3 e4
  exact hbad ⟨e3, e4⟩

/-- **C03 fails** for floats: batches `[+inf]` and `[5]` give max 5. -/
theorem float_max_wrong : ¬ ComputesMinMax floatType [] true (fun _ => True) :=
  not_computesMinMax floatType _ ⊤ ((5 : ℚ) : WithTop ℚ) ((5 : ℚ) : WithTop ℚ) ((5 : ℚ) : WithTop ℚ)
    trivial trivial (by decide +kernel) (by
      rintro ⟨_, _, h⟩
      have := h ⊤ (by simp)
      exact absurd this (by decide +kernel))

/-- **C03 fails** for `int64`: batches `[INT64_MAX]` and `[5]` give max 5. -/
theorem int_max_wrong :
    ¬ ComputesMinMax (signedType 64) [] true (fun x => -(2 ^ 63) ≤ x ∧ x < 2 ^ 63) :=
  not_computesMinMax (signedType 64) _ (2 ^ 63 - 1) 5 5 5 (by decide) (by decide)
    (by decide +kernel) (by
      rintro ⟨_, _, h⟩
      exact absurd (h (2 ^ 63 - 1) (by simp)) (by decide))

/-- **C03 fails** for `int64` at the smallest value: batches `[INT64_MIN]` and `[5]` give min 5. -/
theorem int_min_wrong :
    ¬ ComputesMinMax (signedType 64) [] true (fun x => -(2 ^ 63) ≤ x ∧ x < 2 ^ 63 - 1) :=
  not_computesMinMax (signedType 64) _ (-(2 ^ 63)) 5 5 5 (by decide) (by decide)
    (by decide +kernel) (by
      rintro ⟨⟨_, h⟩, _⟩
      exact absurd (h (-(2 ^ 63)) (by simp)) (by decide))

/-- **C03 fails** for `int16`: batches `[32767]` and `[5]` give max 5. -/
theorem int16_max_wrong :
    ¬ ComputesMinMax int16Type [] true (fun x => -(2 ^ 15) ≤ x ∧ x < 2 ^ 15) :=
  not_computesMinMax int16Type _ (2 ^ 15 - 1) 5 5 5 (by decide) (by decide)
    (by decide +kernel) (by
      rintro ⟨_, _, h⟩
      exact absurd (h (2 ^ 15 - 1) (by simp)) (by decide))

/-- **C03 fails** for `uint8`: an image that is white everywhere (255) gets max 1. -/
theorem uint8_max_wrong :
    ¬ ComputesMinMax (unsignedType 8) [] true (fun x => 0 ≤ x ∧ x < 2 ^ 8) :=
  not_computesMinMax (unsignedType 8) _ 255 255 255 1 (by decide) (by decide)
    (by decide +kernel) (by
      rintro ⟨_, h, _⟩
      exact absurd h (by decide))

/-- Arrays of different shapes are never combined silently: adding a batch to an accumulator that
is not the default one succeeds exactly if the shapes agree, and then the result is entry by
entry. -/
theorem np_add_ok_iff {α : Type} [DecidableEq α] (op : α → α → α) (d : α)
    (shapes : List (Option (List Nat))) (cast : α → α) (a b : Nd α) (ha : a ≠ Nd.scalar d)
    (r : List (Nd α)) :
    (npCombiner op d shapes cast).addInput [a] [b] = .ok r ↔
      a.shape = b.shape ∧ r = [⟨a.shape, List.zipWith op a.data b.data⟩] := by
  have h : isDefaultAcc d [a] = false := by simpa [isDefaultAcc, isDefaultSub] using ha
  by_cases hs : a.shape = b.shape
  · simp only [npCombiner, h, Nd.reduce0, seqExcept, Nd.combine2, List.foldlM, hs, if_true, bind,
      Except.bind, List.zipWith, pure, Except.pure, Bool.false_eq_true, if_false,
      Except.ok.injEq, true_and]
    exact eq_comm
  · simp [npCombiner, h, Nd.reduce0, seqExcept, Nd.combine2, List.foldlM, hs, bind, Except.bind]

/-- The same for merging two accumulators that are not the default one. -/
theorem np_merge_ok_iff {α : Type} [DecidableEq α] (op : α → α → α) (d : α)
    (shapes : List (Option (List Nat))) (cast : α → α) (a b : Nd α) (ha : a ≠ Nd.scalar d)
    (hb : b ≠ Nd.scalar d) (r : List (Nd α)) :
    (npCombiner op d shapes cast).merge [[a], [b]] = .ok r ↔
      a.shape = b.shape ∧ r = [⟨a.shape, List.zipWith op a.data b.data⟩] := by
  have h : isDefaultAcc d [a] = false := by simpa [isDefaultAcc, isDefaultSub] using ha
  have h' : isDefaultAcc d [b] = false := by simpa [isDefaultAcc, isDefaultSub] using hb
  have hz : zipStar [[a], [b]] = [[a, b]] := by simp [zipStar, zipLen]
  by_cases hs : a.shape = b.shape
  · simp only [npCombiner, h, h', List.filter_cons, Bool.not_false, if_true, List.filter_nil,
      List.isEmpty_cons, Bool.false_eq_true, if_false, hz, List.map_cons, List.map_nil,
      Nd.reduce0, seqExcept, Nd.combine2, List.foldlM, hs, bind,
      Except.bind, pure, Except.pure, Except.ok.injEq, true_and]
    exact eq_comm
  · simp [npCombiner, h, h', hz, Nd.reduce0, seqExcept, Nd.combine2, List.foldlM, hs, bind,
      Except.bind]

/-- Elementwise sums of batches with 2 and with 3 columns: an error, not a wrong sum. -/
example : ((npCombiner (· + ·) (0 : ℚ) [none] id).addInput [⟨[2], [1, 2]⟩]
    [⟨[3], [1, 2, 3]⟩]).toOption = none := by decide +kernel

end TFT
