import Verif.Mappers.BucketsProps
import Verif.Combine.PerKeyLemmas

/-!
# C19, C20: bucketize_per_key
-/

namespace TFT.Buckets

/-! ## Rows -/

theorem foldl_min_first (a : ℚ) (l : List ℚ) (h : ∀ b ∈ l, a ≤ b) : l.foldl min a = a := by
  induction l with
  | nil => rfl
  | cons b l ih =>
    rw [List.foldl_cons, min_eq_left (h b (by simp))]
    exact ih (fun c hc => h c (by simp [hc]))

theorem foldl_max_last (a : ℚ) (l : List ℚ) (h : (a :: l).Pairwise (· < ·)) :
    l.foldl max a = (a :: l).getLast (by simp) := by
  induction l generalizing a with
  | nil => rfl
  | cons b l ih =>
    rw [List.pairwise_cons] at h
    rw [List.foldl_cons, max_eq_right (h.1 b (by simp)).le, ih b h.2]
    exact (List.getLast_cons (List.cons_ne_nil b l)).symm

/-- Facts about a strictly increasing row with at least two boundaries: it is scaled so that the
first boundary goes to the key's number and the last one to the next number. -/
theorem row_scaling (r : List ℚ) (hs : r.Pairwise (· < ·)) (h2 : 2 ≤ r.length) (k : Nat) :
    0 < rowScale r ∧ r[0] * rowScale r + rowShift r k = k ∧
    r[r.length - 1] * rowScale r + rowShift r k = k + 1 := by
  match r, h2 with
  | a :: b :: l, h2 =>
    have hmin : rowMin (a :: b :: l) = a := by
      unfold rowMin
      apply foldl_min_first
      intro c hc
      rcases List.mem_cons.1 hc with rfl | hc
      · exact le_refl _
      · exact ((List.pairwise_cons.1 hs).1 c hc).le
    have hmax : rowMax (a :: b :: l) = (a :: b :: l)[(a :: b :: l).length - 1] := by
      unfold rowMax
      simp only [List.headD_cons, List.foldl_cons, max_self]
      rw [← List.foldl_cons (f := max), foldl_max_last a (b :: l) hs, List.getLast_eq_getElem]
    have hlt : a < (a :: b :: l)[(a :: b :: l).length - 1] :=
      List.pairwise_iff_getElem.1 hs 0 _ (by simp) (by simp) (by simp)
    set z := (a :: b :: l)[(a :: b :: l).length - 1] with hz
    have hd : z - a ≠ 0 := (sub_pos.2 hlt).ne'
    have hsc : rowScale (a :: b :: l) = 1 / (z - a) := by
      unfold rowScale
      rw [hmin, hmax, if_pos hd]
    unfold rowShift
    rw [hsc, hmin]
    refine ⟨by have := sub_pos.2 hlt; positivity, ?_, ?_⟩
    · simp
    · field_simp
      ring

/-- The position of a value on the joined axis. -/
def place (r : List ℚ) (k : Nat) (x : ℚ) : ℚ := x * rowScale r + rowShift r k

theorem place_le (r : List ℚ) (hs : r.Pairwise (· < ·)) (h2 : 2 ≤ r.length) (k : Nat) (x y : ℚ) :
    place r k x ≤ place r k y ↔ x ≤ y := by
  have h := (row_scaling r hs h2 k).1
  unfold place
  constructor
  · intro h1
    have : x * rowScale r ≤ y * rowScale r := by linarith
    exact le_of_mul_le_mul_right this h
  · intro h1
    have := mul_le_mul_of_nonneg_right h1 h.le
    linarith

theorem place_lt (r : List ℚ) (hs : r.Pairwise (· < ·)) (h2 : 2 ≤ r.length) (k : Nat) (x y : ℚ) :
    place r k x < place r k y ↔ x < y := by
  rw [← not_le, ← not_le, place_le r hs h2]

theorem place_first (r : List ℚ) (hs : r.Pairwise (· < ·)) (h2 : 2 ≤ r.length) (k : Nat) :
    place r k r[0] = k := (row_scaling r hs h2 k).2.1

theorem place_last (r : List ℚ) (hs : r.Pairwise (· < ·)) (h2 : 2 ≤ r.length) (k : Nat) :
    place r k r[r.length - 1] = k + 1 := (row_scaling r hs h2 k).2.2

theorem mem_tail_place (r : List ℚ) (hs : r.Pairwise (· < ·)) (h2 : 2 ≤ r.length) (k : Nat)
    (b : ℚ) (hb : b ∈ r.tail) : (k : ℚ) < place r k b ∧ place r k b ≤ k + 1 := by
  obtain ⟨i, hi, rfl⟩ := List.getElem_of_mem hb
  rw [List.length_tail] at hi
  rw [List.getElem_tail]
  constructor
  · rw [← place_first r hs h2 k, place_lt r hs h2]
    exact List.pairwise_iff_getElem.1 hs 0 (i + 1) (by omega) (by omega) (by omega)
  · rw [← place_last r hs h2 k, place_le r hs h2]
    by_cases h : i + 1 = r.length - 1
    · exact le_of_eq (by congr)
    · exact (List.pairwise_iff_getElem.1 hs (i + 1) (r.length - 1) (by omega) (by omega)
        (by omega)).le

/-- All rows are strictly increasing and have `c ≥ 2` boundaries. -/
structure GoodRows (rows : List (List ℚ)) (c : Nat) : Prop where
  two : 2 ≤ c
  strict : ∀ r ∈ rows, r.Pairwise (· < ·)
  len : ∀ r ∈ rows, r.length = c

theorem GoodRows.tail {r : List ℚ} {rows : List (List ℚ)} {c : Nat} (h : GoodRows (r :: rows) c) :
    GoodRows rows c :=
  ⟨h.two, fun s hs => h.strict s (by simp [hs]), fun s hs => h.len s (by simp [hs])⟩

theorem scaledFrom_gt (k : Nat) (rows : List (List ℚ)) (c : Nat) (h : GoodRows rows c) :
    ∀ b ∈ scaledFrom k rows, (k : ℚ) < b := by
  induction rows generalizing k with
  | nil => simp [scaledFrom]
  | cons r rows ih =>
    intro b hb
    rw [scaledFrom, List.mem_append] at hb
    have hr := h.strict r (by simp)
    have hl : 2 ≤ r.length := by rw [h.len r (by simp)]; exact h.two
    rcases hb with hb | hb
    · obtain ⟨y, hy, rfl⟩ := List.mem_map.1 hb
      exact (mem_tail_place r hr hl k y hy).1
    · have := ih (k + 1) h.tail b hb
      push_cast at this
      linarith

theorem scaledFrom_sorted (k : Nat) (rows : List (List ℚ)) (c : Nat) (h : GoodRows rows c) :
    (scaledFrom k rows).Pairwise (· ≤ ·) := by
  induction rows generalizing k with
  | nil => simp [scaledFrom]
  | cons r rows ih =>
    have hr := h.strict r (by simp)
    have hl : 2 ≤ r.length := by rw [h.len r (by simp)]; exact h.two
    rw [scaledFrom, List.pairwise_append]
    refine ⟨?_, ih (k + 1) h.tail, ?_⟩
    · rw [List.pairwise_map]
      refine (hr.sublist (List.tail_sublist r)).imp ?_
      intro a b hab
      exact (place_le r hr hl k a b).2 hab.le
    · intro a ha b hb
      obtain ⟨y, hy, rfl⟩ := List.mem_map.1 ha
      have h1 := (mem_tail_place r hr hl k y hy).2
      have h2 := scaledFrom_gt (k + 1) rows c h.tail b hb
      push_cast at h2
      unfold place at h1
      linarith

/-- Boundaries at or below `t`. -/
def below (t : ℚ) (l : List ℚ) : Nat := l.countP (fun b => decide (b ≤ t))

theorem below_append (t : ℚ) (l l' : List ℚ) : below t (l ++ l') = below t l + below t l' := by
  unfold below; exact List.countP_append

theorem below_scaledFrom_zero (t : ℚ) (k : Nat) (rows : List (List ℚ)) (c : Nat)
    (h : GoodRows rows c) (ht : t ≤ k) : below t (scaledFrom k rows) = 0 := by
  unfold below
  rw [List.countP_eq_zero]
  intro b hb
  have := scaledFrom_gt k rows c h b hb
  simp only [decide_eq_true_eq, not_le]
  linarith

theorem scaledFrom_append (k : Nat) (a b : List (List ℚ)) :
    scaledFrom k (a ++ b) = scaledFrom k a ++ scaledFrom (k + a.length) b := by
  induction a generalizing k with
  | nil => simp [scaledFrom]
  | cons r a ih =>
    rw [List.cons_append, scaledFrom, scaledFrom, ih, List.append_assoc, List.length_cons]
    congr 3
    omega

/-- Rows before key `k + n` lie at or below `k + n`. -/
theorem below_prior (t : ℚ) (k : Nat) (rows : List (List ℚ)) (c : Nat) (h : GoodRows rows c)
    (ht : ((k + rows.length : Nat) : ℚ) ≤ t) :
    below t (scaledFrom k rows) = (c - 1) * rows.length := by
  induction rows generalizing k with
  | nil => simp [scaledFrom, below]
  | cons r rows ih =>
    have hr := h.strict r (by simp)
    have hlc := h.len r (by simp)
    have hl : 2 ≤ r.length := by rw [hlc]; exact h.two
    rw [scaledFrom, below_append, ih (k + 1) h.tail (by
      rw [List.length_cons] at ht
      have : k + 1 + rows.length = k + (rows.length + 1) := by omega
      rw [this]; exact ht)]
    have : below t (r.tail.map (fun b => b * rowScale r + rowShift r k)) = r.tail.length := by
      unfold below
      rw [List.countP_eq_length.2, List.length_map]
      intro b hb
      obtain ⟨y, hy, rfl⟩ := List.mem_map.1 hb
      have h1 := (mem_tail_place r hr hl k y hy).2
      unfold place at h1
      simp only [decide_eq_true_eq]
      have : ((k + 1 : Nat) : ℚ) ≤ ((k + (r :: rows).length : Nat) : ℚ) := by
        exact_mod_cast (by simp)
      push_cast at this ht
      linarith
    rw [this, List.length_tail, hlc, List.length_cons]
    ring

/-- Below key `k + n`, the last boundary of the rows before it is missed. -/
theorem below_prior_lt (t : ℚ) (k : Nat) (rows : List (List ℚ)) (c : Nat) (h : GoodRows rows c)
    (hne : rows ≠ []) (ht : t < ((k + rows.length : Nat) : ℚ)) :
    below t (scaledFrom k rows) + 1 ≤ (c - 1) * rows.length := by
  obtain ⟨init, r, rfl⟩ : ∃ init r, rows = init ++ [r] :=
    ⟨rows.dropLast, rows.getLast hne, (List.dropLast_append_getLast hne).symm⟩
  have hr := h.strict r (by simp)
  have hlc := h.len r (by simp)
  have h2 := h.two
  have hl : 2 ≤ r.length := by rw [hlc]; exact h.two
  have hinit : below t (scaledFrom k init) ≤ (c - 1) * init.length := by
    have hlen : ∀ (k : Nat) (rs : List (List ℚ)), (∀ r ∈ rs, r.length = c) →
        (scaledFrom k rs).length = (c - 1) * rs.length := by
      intro k rs
      induction rs generalizing k with
      | nil => simp [scaledFrom]
      | cons r rs ih =>
        intro hrs
        rw [scaledFrom, List.length_append, List.length_map, List.length_tail, hrs r (by simp),
          ih _ (fun r hr => hrs r (by simp [hr])), List.length_cons]
        ring
    rw [← hlen k init (fun s hs => h.len s (by simp [hs]))]
    exact List.countP_le_length
  have hlast : below t (r.tail.map (fun b => b * rowScale r + rowShift r (k + init.length)))
      + 1 ≤ c - 1 := by
    obtain ⟨ini, hini⟩ : ∃ ini, r.tail = ini ++ [r[r.length - 1]] := by
      have hn : r.tail ≠ [] := by
        intro h0
        have := congrArg List.length h0
        rw [List.length_tail] at this
        simp at this; omega
      refine ⟨r.tail.dropLast, ?_⟩
      have := List.dropLast_append_getLast hn
      rw [List.getLast_eq_getElem, List.getElem_tail] at this
      have e : r.tail.length - 1 + 1 = r.length - 1 := by rw [List.length_tail]; omega
      conv_lhs => rw [← this]
      simp only [e]
    have hz : below t ([r[r.length - 1]].map
        (fun b => b * rowScale r + rowShift r (k + init.length))) = 0 := by
      have := place_last r hr hl (k + init.length)
      unfold place at this
      unfold below
      simp only [List.map_cons, List.map_nil, this]
      rw [List.countP_eq_zero]
      intro b hb
      rw [List.mem_singleton] at hb
      subst hb
      simp only [decide_eq_true_eq, not_le]
      simp only [List.length_append, List.length_singleton] at ht
      push_cast at ht ⊢
      linarith
    have hle : below t (ini.map (fun b => b * rowScale r + rowShift r (k + init.length)))
        ≤ ini.length := by
      have := List.countP_le_length (p := fun b => decide (b ≤ t))
        (l := ini.map (fun b => b * rowScale r + rowShift r (k + init.length)))
      rwa [List.length_map] at this
    have hlen : ini.length + 1 = c - 1 := by
      have := congrArg List.length hini
      rw [List.length_tail, List.length_append, List.length_singleton] at this
      omega
    rw [hini, List.map_append, below_append, hz]
    omega
  rw [scaledFrom_append, below_append, List.length_append]
  simp only [scaledFrom, List.append_nil, List.length_singleton]
  rw [Nat.mul_add, Nat.mul_one]
  omega

/-! ## The corrected bucket -/

theorem join_bucket (rows : List (List ℚ)) (c : Nat) (h : GoodRows rows c) (i : Nat)
    (hi : i < rows.length) (x : ℚ) :
    min (max ((searchsortedRight (0 :: scaledFrom 0 rows) (some (place rows[i] i x)) : Int)
      - (c - 1) * i) 0) c = (below x rows[i] : Int) := by
  have hr := h.strict rows[i] (List.getElem_mem hi)
  have hlc := h.len rows[i] (List.getElem_mem hi)
  have h2 := h.two
  have hl : 2 ≤ rows[i].length := by rw [hlc]; exact h2
  have hsorted : (0 :: scaledFrom 0 rows).Pairwise (· ≤ ·) := by
    rw [List.pairwise_cons]
    refine ⟨fun b hb => ?_, scaledFrom_sorted 0 rows c h⟩
    have := scaledFrom_gt 0 rows c h b hb
    push_cast at this
    exact this.le
  rw [searchsortedRight_countP _ hsorted]
  set t := place rows[i] i x with ht
  have hsplit : rows = rows.take i ++ rows[i] :: rows.drop (i + 1) := by
    rw [← List.drop_eq_getElem_cons hi, List.take_append_drop]
  have hti : (rows.take i).length = i := by rw [List.length_take]; omega
  have hgt : GoodRows (rows.take i) c := ⟨h2, fun r hr => h.strict r (List.mem_of_mem_take hr),
    fun r hr => h.len r (List.mem_of_mem_take hr)⟩
  have hgd : GoodRows (rows.drop (i + 1)) c := ⟨h2,
    fun r hr => h.strict r (List.mem_of_mem_drop hr), fun r hr => h.len r (List.mem_of_mem_drop hr)⟩
  have hcount : (0 :: scaledFrom 0 rows).countP (fun b => decide (b ≤ t))
      = (if 0 ≤ t then 1 else 0) + below t (scaledFrom 0 (rows.take i))
        + below x rows[i].tail + below t (scaledFrom (i + 1) (rows.drop (i + 1))) := by
    rw [List.countP_cons]
    conv_lhs => rw [hsplit]
    rw [scaledFrom_append, hti, scaledFrom, Nat.zero_add]
    rw [List.countP_append, List.countP_append]
    have hown : (rows[i].tail.map (fun b => b * rowScale rows[i] + rowShift rows[i] i)).countP
        (fun b => decide (b ≤ t)) = below x rows[i].tail := by
      unfold below
      rw [List.countP_map]
      apply List.countP_congr
      intro b _
      simp only [Function.comp_apply, decide_eq_true_eq]
      exact place_le rows[i] hr hl i b x
    rw [hown]
    unfold below
    simp only [decide_eq_true_eq]
    omega
  have hhead : below x rows[i] = (if rows[i][0] ≤ x then 1 else 0) + below x rows[i].tail := by
    have : rows[i] = rows[i][0] :: rows[i].tail := by
      have hcons : ∀ (r : List ℚ) (h : 0 < r.length), r = r[0] :: r.tail := by
        intro r h
        cases r with
        | nil => simp at h
        | cons a l => simp
      exact hcons _ (by omega)
    unfold below
    conv_lhs => rw [this]
    rw [List.countP_cons]
    simp only [decide_eq_true_eq]
    omega
  have htaillen : below x rows[i].tail ≤ c - 1 := by
    have := List.countP_le_length (p := fun b => decide (b ≤ x)) (l := rows[i].tail)
    rw [List.length_tail, hlc] at this
    exact this
  have hfirst : rows[i][0] ≤ x ↔ (i : ℚ) ≤ t := by
    rw [← place_le rows[i] hr hl i, place_first rows[i] hr hl i]
  have hcast : ((c : Int) - 1) * i = (((c - 1) * i : Nat) : Int) := by
    push_cast [Nat.cast_sub (by omega : 1 ≤ c)]
    ring
  rw [hcount, hcast]
  by_cases hx : (i : ℚ) ≤ t
  · -- at or above the first boundary of the key
    have h0 : (0 : ℚ) ≤ t := le_trans (by positivity) hx
    have hprior : below t (scaledFrom 0 (rows.take i)) = (c - 1) * i := by
      have := below_prior t 0 (rows.take i) c hgt (by rw [hti, Nat.zero_add]; exact hx)
      rwa [hti] at this
    rw [hhead, if_pos (hfirst.2 hx), if_pos h0, hprior]
    by_cases hafter : t ≤ ((i + 1 : Nat) : ℚ)
    · rw [below_scaledFrom_zero t (i + 1) _ c hgd hafter]
      push_cast
      have : ((below x rows[i].tail : Nat) : Int) ≤ ((c - 1 : Nat) : Int) := by
        exact_mod_cast htaillen
      have hc1 : ((c - 1 : Nat) : Int) = (c : Int) - 1 := by omega
      rw [max_eq_left (by omega), min_eq_left (by omega)]
      omega
    · have hall : below x rows[i].tail = c - 1 := by
        unfold below
        rw [List.countP_eq_length.2, List.length_tail, hlc]
        intro b hb
        simp only [decide_eq_true_eq]
        rw [← place_le rows[i] hr hl i]
        have := (mem_tail_place rows[i] hr hl i b hb).2
        push_cast at hafter
        rw [not_le] at hafter
        linarith
      rw [hall]
      push_cast
      have hc1 : ((c - 1 : Nat) : Int) = (c : Int) - 1 := by omega
      have hb0 : (0 : Int) ≤ (below t (scaledFrom (i + 1) (rows.drop (i + 1))) : Int) := by positivity
      rw [hc1]
      rw [max_eq_left (by linarith [show (0 : Int) ≤ c by positivity])]
      rw [min_eq_right (by linarith)]
      ring
  · -- below the first boundary
    rw [not_le] at hx
    have hx' : ¬ rows[i][0] ≤ x := fun h => absurd (hfirst.1 h) (not_le.2 hx)
    have hxtail : below x rows[i].tail = 0 := by
      unfold below
      rw [List.countP_eq_zero]
      intro b hb
      simp only [decide_eq_true_eq, not_le]
      rw [← place_lt rows[i] hr hl i]
      have := (mem_tail_place rows[i] hr hl i b hb).1
      linarith
    have hafter : below t (scaledFrom (i + 1) (rows.drop (i + 1))) = 0 :=
      below_scaledFrom_zero t (i + 1) _ c hgd (by push_cast; linarith)
    rw [hhead, if_neg hx', hxtail, hafter]
    have hle : (if 0 ≤ t then 1 else 0) + below t (scaledFrom 0 (rows.take i)) ≤ (c - 1) * i := by
      cases i with
      | zero =>
        have : ¬ (0 ≤ t) := by push_cast at hx; exact not_le.2 hx
        simp [this, scaledFrom, below]
      | succ i =>
        have hne : rows.take (i + 1) ≠ [] := by
          intro h0; rw [h0] at hti; simp at hti
        have := below_prior_lt t 0 (rows.take (i + 1)) c hgt hne (by
          rw [hti, Nat.zero_add]; exact hx)
        rw [hti] at this
        split <;> omega
    push_cast
    have hle' : ((if 0 ≤ t then (1 : Int) else 0) + (below t (scaledFrom 0 (rows.take i)) : Int))
        ≤ (((c - 1) * i : Nat) : Int) := by
      have := Int.ofNat_le.2 hle
      push_cast at this ⊢
      exact this
    push_cast at hle'
    rw [max_eq_right (by linarith), min_eq_left (by positivity)]

/-! ## Key lookup -/

theorem lookupKey_foldl {K : Type} [DecidableEq K] (key : K) (vocab : List K) (k : Nat) (a : Int)
    (ha : a < k) (hnd : vocab.Nodup) :
    ((vocab.zipIdx k).map (fun ki => if key = ki.1 then (ki.2 : Int) else -1)).foldl max a
      = if key ∈ vocab then ((k + vocab.idxOf key : Nat) : Int) else max a (if vocab = [] then a else -1) := by
  induction vocab generalizing k a with
  | nil => simp
  | cons v vocab ih =>
    rw [List.nodup_cons] at hnd
    rw [List.zipIdx_cons, List.map_cons, List.foldl_cons]
    by_cases hv : key = v
    · subst hv
      have hmem : key ∈ key :: vocab := by simp
      have hpast : ∀ (l : List K) (j : Nat) (b : Int), key ∉ l → -1 ≤ b →
          ((l.zipIdx j).map (fun ki => if key = ki.1 then (ki.2 : Int) else -1)).foldl max b = b := by
        intro l
        induction l with
        | nil => intros; rfl
        | cons u l ihl =>
          intro j b hu hb
          simp only [List.mem_cons, not_or] at hu
          rw [List.zipIdx_cons, List.map_cons, List.foldl_cons]
          simp only [hu.1, if_false]
          rw [max_eq_left hb]
          exact ihl (j + 1) b hu.2 hb
      simp only [if_true, hmem, List.idxOf_cons_self, Nat.add_zero]
      rw [max_eq_right ha.le, hpast vocab (k + 1) _ hnd.1 (by omega)]
    · simp only [hv, if_false]
      rw [ih (k + 1) (max a (-1)) (by push_cast; omega) hnd.2]
      by_cases hm : key ∈ vocab
      · simp only [hm, List.mem_cons, or_true, if_true]
        rw [List.idxOf_cons_ne _ (fun h => hv h.symm)]
        push_cast
        ring
      · simp only [hm, hv, List.mem_cons, or_self, if_false, reduceCtorEq]
        split <;> simp

/-- The position of a key in a vocabulary without repetitions, or -1. -/
theorem lookupKey_eq {K : Type} [DecidableEq K] (key : K) (vocab : List K) (hnd : vocab.Nodup) :
    lookupKey key vocab = if key ∈ vocab then (vocab.idxOf key : Int) else -1 := by
  unfold lookupKey
  have := lookupKey_foldl key vocab 0 (-1) (by simp) hnd
  rw [this]
  by_cases h : key ∈ vocab <;> simp [h]

/-! ## Strictly increasing rows -/

theorem cumsumFrom_length (a : ℚ) (l : List ℚ) : (cumsumFrom a l).length = l.length := by
  induction l generalizing a with
  | nil => rfl
  | cons d l ih => simp [cumsumFrom, ih]

theorem cumsumFrom_sorted (a : ℚ) (l : List ℚ) (h : ∀ d ∈ l, 0 < d) :
    (a :: cumsumFrom a l).Pairwise (· < ·) := by
  induction l generalizing a with
  | nil => simp [cumsumFrom]
  | cons d l ih =>
    have := ih (a + d) (fun e he => h e (by simp [he]))
    have hd := h d (by simp)
    rw [cumsumFrom, List.pairwise_cons]
    refine ⟨?_, this⟩
    intro b hb
    rcases List.mem_cons.1 hb with rfl | hb
    · linarith
    · have := (List.pairwise_cons.1 this).1 b hb
      linarith

theorem rowEpsilon_pos (row : List ℚ) : 0 < rowEpsilon row := by
  unfold rowEpsilon
  simp only
  split
  · norm_num
  · rename_i h; exact not_le.1 h

/-- Every row is made strictly increasing, keeping its length and its first boundary. -/
theorem strictRow_spec (row : List ℚ) (h : row ≠ []) :
    ∃ r, strictRow row = .ok r ∧ r.Pairwise (· < ·) ∧ r.length = row.length ∧
      r.head? = row.head? := by
  cases row with
  | nil => exact absurd rfl h
  | cons first rest =>
    refine ⟨_, rfl, ?_, ?_, rfl⟩
    · have := cumsumFrom_sorted 0 ((diffs (first :: rest)).map
        (fun d => max d (rowEpsilon (first :: rest)))) (by
        intro d hd
        obtain ⟨e, _, rfl⟩ := List.mem_map.1 hd
        exact lt_of_lt_of_le (rowEpsilon_pos _) (le_max_right _ _))
      have h2 := this.map (fun s => s + first) (S := (· < ·)) (by intro a b hab; linarith)
      simpa using h2
    · simp [cumsumFrom_length, diffs]

theorem cumsum_diffs (first a : ℚ) (row : List ℚ) :
    (cumsumFrom (a - first) (diffs (a :: row))).map (fun s => s + first) = row := by
  induction row generalizing a with
  | nil => rfl
  | cons b row ih =>
    have h := ih b
    simp only [diffs, List.tail_cons, List.zipWith_cons_cons, cumsumFrom, List.map_cons] at h ⊢
    rw [show a - first + (b - a) = b - first by ring, h]
    simp

/-- Rows whose neighbouring boundaries are far enough apart are left as they are. -/
theorem strictRow_id (row : List ℚ) (h : row ≠ []) (hd : ∀ d ∈ diffs row, rowEpsilon row ≤ d) :
    strictRow row = .ok row := by
  cases row with
  | nil => exact absurd rfl h
  | cons first rest =>
    have e : (diffs (first :: rest)).map (fun d => max d (rowEpsilon (first :: rest)))
        = diffs (first :: rest) := by
      conv_rhs => rw [← List.map_id (diffs (first :: rest))]
      apply List.map_congr_left
      intro d hd'
      exact max_eq_left (hd d hd')
    unfold strictRow
    simp only
    rw [e]
    have := cumsum_diffs first first rest
    rw [sub_self] at this
    rw [this]

theorem cumsumFrom_step (acc : ℚ) (ds : List ℚ) (i : Nat) (h : i + 1 < (acc :: cumsumFrom acc ds).length)
    (hd : i < ds.length) :
    (acc :: cumsumFrom acc ds)[i + 1] - (acc :: cumsumFrom acc ds)[i] = ds[i] := by
  induction ds generalizing acc i with
  | nil => simp at hd
  | cons d ds ih =>
    cases i with
    | zero => simp [cumsumFrom]
    | succ i =>
      have := ih (acc + d) i (by simpa [cumsumFrom] using h) (by simpa using hd)
      simpa [cumsumFrom] using this

/-- **C19** How rows are made strictly increasing: the first boundary stays, and the distance of
neighbours is raised to at least a millionth of the range of the row (a millionth if that is empty). -/
theorem strictRow_gaps (row : List ℚ) (h : row ≠ []) :
    ∃ r, strictRow row = .ok r ∧ ∃ hl : r.length = row.length, r.head? = row.head? ∧
      ∀ (i : Nat) (hi : i + 1 < row.length), r[i + 1] - r[i] = max (row[i + 1] - row[i])
        (if row.getLast h ≤ row.head h then 1 / 1000000
          else (row.getLast h - row.head h) / 1000000) := by
  obtain ⟨r, hr, -, hl, hh⟩ := strictRow_spec row h
  refine ⟨r, hr, hl, hh, ?_⟩
  cases row with
  | nil => exact absurd rfl h
  | cons first rest =>
    have hr' : r = (0 :: cumsumFrom 0 ((diffs (first :: rest)).map
        (fun d => max d (rowEpsilon (first :: rest))))).map (fun s => s + first) := by
      simp only [strictRow, Except.ok.injEq] at hr
      rw [← hr]; simp
    subst hr'
    intro i hi
    have hlen : i < (diffs (first :: rest)).length := by simp [diffs] at hi ⊢; omega
    have := cumsumFrom_step 0 ((diffs (first :: rest)).map
        (fun d => max d (rowEpsilon (first :: rest)))) i (by
          simpa [cumsumFrom_length] using hlen) (by simpa using hlen)
    rw [List.getElem_map, List.getElem_map, add_sub_add_right_eq_sub, this, List.getElem_map]
    congr 1
    · simp [diffs]
    · have hlast : (first :: rest).getLastD 0 = (first :: rest).getLast h := by
        rw [List.getLastD_eq_getLast?, List.getLast?_eq_some_getLast h]; rfl
      have hhead : (first :: rest).headD 0 = (first :: rest).head h := rfl
      unfold rowEpsilon
      simp only
      split_ifs with h1 h2 h2
      · rfl
      · rw [hlast, hhead] at h1; linarith
      · rw [hlast, hhead] at h1; linarith
      · rw [hlast, hhead]; ring

/-! ## The properties -/

/-- **C19**, part that holds: for at least three buckets (two boundaries per key). The bucket of
`x` is the number of its own key's boundaries (made strictly increasing row by row, see
`strictRow_id`) that are at most `x`, whatever the other keys are; unseen keys get -1.
(`per_key_two_buckets_wrong` shows that the code is wrong for two buckets.) -/
theorem bucketize_per_key_own_boundaries_partial {K : Type} [DecidableEq K] (vocab : List K)
    (hnd : vocab.Nodup) (hne : vocab ≠ []) (rowOf : K → List ℚ) (cols : Nat) (hcols : 2 ≤ cols)
    (hlen : ∀ k ∈ vocab, (rowOf k).length = cols) (x : ℚ) (key : K) :
    (key ∈ vocab → ∃ own, strictRow (rowOf key) = .ok own ∧
      bucketizePerKey vocab (vocab.map rowOf) cols x key
        = .ok (own.countP (fun b => decide (b ≤ x)) : Int)) ∧
    (key ∉ vocab → bucketizePerKey vocab (vocab.map rowOf) cols x key = .ok (-1)) := by
  have hrow : ∀ k ∈ vocab, ∃ r, strictRow (rowOf k) = .ok r ∧ r.Pairwise (· < ·) ∧
      r.length = cols := by
    intro k hk
    have hl := hlen k hk
    obtain ⟨r, h1, h2, h3, -⟩ := strictRow_spec (rowOf k) (by
      intro h0; rw [h0] at hl; simp at hl; omega)
    exact ⟨r, h1, h2, h3.trans hl⟩
  classical
  let own : K → List ℚ := fun k => if h : k ∈ vocab then (hrow k h).choose else []
  have hown : ∀ k ∈ vocab, strictRow (rowOf k) = .ok (own k) ∧ (own k).Pairwise (· < ·) ∧
      (own k).length = cols := by
    intro k hk
    simp only [own, hk, dif_pos]
    exact (hrow k hk).choose_spec
  have hrows : seqExcept ((vocab.map rowOf).map strictRow) = .ok (vocab.map own) := by
    rw [List.map_map]
    apply seqExcept_ok_map
    intro k hk
    exact (hown k hk).1
  have hgood : GoodRows (vocab.map own) cols :=
    ⟨hcols, fun r hr => by obtain ⟨k, hk, rfl⟩ := List.mem_map.1 hr; exact (hown k hk).2.1,
      fun r hr => by obtain ⟨k, hk, rfl⟩ := List.mem_map.1 hr; exact (hown k hk).2.2⟩
  have hscale : ∀ i (hi : i < vocab.length),
      ((vocab.map own).map rowScale)[i]? = some (rowScale (own vocab[i])) := by
    intro i hi; simp [hi]
  have hshift : ∀ i (hi : i < vocab.length),
      ((vocab.map own).zipIdx.map (fun ri => rowShift ri.1 ri.2))[i]?
        = some (rowShift (own vocab[i]) i) := by
    intro i hi; simp [hi]
  unfold bucketizePerKey joinBoundaryRows
  rw [hrows]
  simp only [bind, Except.bind]
  unfold applyBucketsWithKeys
  simp only [lookupKey_eq key vocab hnd]
  refine ⟨?_, ?_⟩
  · intro hk
    have hi := List.idxOf_lt_length_iff.2 hk
    refine ⟨own key, (hown key hk).1, ?_⟩
    simp only [hk, if_true]
    have hnn : ¬ ((vocab.idxOf key : Int) < 0) := by omega
    simp only [hnn, if_false, Int.toNat_natCast, hscale _ hi, hshift _ hi, Except.ok.injEq]
    have hj := join_bucket (vocab.map own) cols hgood (vocab.idxOf key) (by simpa using hi) x
    simp only [List.getElem_map, List.getElem_idxOf] at hj ⊢
    unfold assignBuckets
    simp only [List.flatten_cons, List.flatten_nil, List.append_nil]
    have e1 : (((cols + 1 : Nat) : Int) - 1) = (cols : Int) := by push_cast; ring
    rw [e1]
    exact hj
  · intro hk
    have h0 : 0 < vocab.length := List.length_pos_iff.2 hne
    simp only [hk, if_false, Int.reduceNeg, Int.reduceLT, if_true, hscale 0 h0, hshift 0 h0]

/-- **C19** fails for two buckets: the median of key `2` is 10, but the value 9 gets bucket 1
because the key is the second one of the vocabulary. -/
theorem per_key_two_buckets_wrong :
    strictRow [10] = .ok [10] ∧ [(10 : ℚ)].countP (fun b => decide (b ≤ 9)) = 0 ∧
    bucketizePerKey [1, 2] [[5], [10]] 1 9 2 = .ok 1 := by
  decide +kernel

/-- **C19**, two buckets: what the code does instead. The bucket is 1 from the boundary of the key
minus the position of the key in the vocabulary on, so it is right for the first key only. -/
theorem per_key_two_buckets_exact {K : Type} [DecidableEq K] (vocab : List K) (hnd : vocab.Nodup)
    (boundary : K → ℚ) (x : ℚ) (key : K) (hk : key ∈ vocab) :
    bucketizePerKey vocab (vocab.map (fun k => [boundary k])) 1 x key
      = .ok (if boundary key - (vocab.idxOf key : ℚ) ≤ x then 1 else 0) := by
  have hrows : seqExcept ((vocab.map (fun k => [boundary k])).map strictRow)
      = .ok (vocab.map (fun k => [boundary k])) := by
    rw [List.map_map]
    apply seqExcept_ok_map
    intro k _
    rfl
  have hi := List.idxOf_lt_length_iff.2 hk
  have hs : ∀ b : ℚ, rowScale [b] = 1 := by
    intro b; simp [rowScale, rowMax, rowMin]
  have hsc : ∀ n, ∀ ks : List K, scaledFrom n (ks.map (fun k => [boundary k])) = [] := by
    intro n ks
    induction ks generalizing n with
    | nil => rfl
    | cons k ks ih => simp [scaledFrom, ih]
  unfold bucketizePerKey joinBoundaryRows
  rw [hrows]
  simp only [bind, Except.bind, hsc]
  unfold applyBucketsWithKeys
  simp only [lookupKey_eq key vocab hnd, hk, if_true]
  have hnn : ¬ ((vocab.idxOf key : Int) < 0) := by omega
  have e1 : ((vocab.map (fun k => [boundary k])).map rowScale)[vocab.idxOf key]? = some 1 := by
    simp [hi, hs]
  have e2 : ((vocab.map (fun k => [boundary k])).zipIdx.map
      (fun ri => rowShift ri.1 ri.2))[vocab.idxOf key]?
        = some ((vocab.idxOf key : ℚ) - boundary key) := by
    simp [hi, rowShift, hs, rowMin]
  simp only [hnn, if_false, Int.toNat_natCast, e1, e2, Except.ok.injEq]
  unfold assignBuckets searchsortedRight
  by_cases hx : boundary key - (vocab.idxOf key : ℚ) ≤ x
  · rw [if_pos hx]
    have : ¬ (x + ((vocab.idxOf key : ℚ) - boundary key) < 0) := by linarith
    simp [List.takeWhile_cons, this]
  · rw [if_neg hx]
    have : x + ((vocab.idxOf key : ℚ) - boundary key) < 0 := by linarith
    simp [List.takeWhile_cons, this]

/-- Not vacuous. -/
example : [30, 10, 20].Nodup ∧ 20 ∈ [30, 10, 20] ∧
    bucketizePerKey [30, 10, 20] [[1], [10], [-5]] 1 (-6) 20 = .ok 1 := by
  decide +kernel

/-- **C20**, part that holds: for keys seen in the analysis the bucket is in the published
domain. -/
theorem per_key_in_domain_partial {K : Type} [DecidableEq K] (vocab : List K) (j : Joined)
    (x : ℚ) (key : K) (b : Int) (hj : 0 < j.numBuckets) (hnd : vocab.Nodup) (hk : key ∈ vocab)
    (h : applyBucketsWithKeys x key vocab j = .ok b) :
    (perKeyDomain j).1 ≤ b ∧ b ≤ (perKeyDomain j).2 := by
  unfold applyBucketsWithKeys at h
  simp only [lookupKey_eq key vocab hnd, hk, if_true] at h
  have hnn : ¬ ((vocab.idxOf key : Int) < 0) := by omega
  split at h
  · simp only [hnn, if_false, Except.ok.injEq] at h
    unfold perKeyDomain
    subst h
    constructor
    · apply le_min
      · exact le_max_right _ _
      · simp only; omega
    · exact min_le_right _ _
  · cases h

/-- **C20** fails for unseen keys: the value is -1, the published minimum 0. -/
theorem per_key_out_of_domain : ∃ j, joinBoundaryRows [[1, 2], [3, 4]] 2 = .ok j ∧
    applyBucketsWithKeys 2 7 [1, 2] j = .ok (-1) ∧ perKeyDomain j = (0, 2) := by
  refine ⟨_, rfl, ?_, ?_⟩ <;> decide +kernel

/-- Not vacuous: three keys, three boundaries each, one row with a repeated boundary. -/
example : bucketizePerKey [30, 10, 20] [[1, 2, 3], [10, 10, 20], [-5, 0, 5]] 3 2 20 = .ok 2 ∧
    bucketizePerKey [30, 10, 20] [[1, 2, 3], [10, 10, 20], [-5, 0, 5]] 3 9 10 = .ok 0 ∧
    bucketizePerKey [30, 10, 20] [[1, 2, 3], [10, 10, 20], [-5, 0, 5]] 3 99 30 = .ok 3 ∧
    bucketizePerKey [30, 10, 20] [[1, 2, 3], [10, 10, 20], [-5, 0, 5]] 3 99 40 = .ok (-1) := by
  decide +kernel

end TFT.Buckets
