import Verif.Cache.NumpyCoderProps
import Verif.Combine.MeanVarProps

/-!
# C82 for `mean` and `var`: the arrays, from the batches to the output

`Combine/MeanVar` models the accumulators of `WeightedMeanAndVarCombiner` as lists of columns. Here the
program on numpy arrays of any rank, with its padding and broadcasting, is proved to compute those columns,
with accumulators that may be read from the cache.
-/

namespace TFT.Coders

open TFT

/-! ## Broadcasting -/

section broadcasting

variable {R : Type}

theorem chunks_one (k : Nat) (x : List R) (h : x.length = k) : chunks 1 k x = [x] := by
  rw [chunks_succ]
  simp [chunks, ← h]

theorem axis_chunks (n k : Nat) (x : List R) (h : x.length = n * k) :
    (if n = 1 then List.replicate n x else chunks n k x) = chunks n k x := by
  split
  · rename_i hn
    subst hn
    rw [chunks_one k x (by simpa using h)]
    rfl
  · rfl

theorem axis_same (n : Nat) : broadcastAxis n n = .ok n := by simp [broadcastAxis]

theorem axis_right (n : Nat) : broadcastAxis n 1 = .ok n := by
  unfold broadcastAxis
  split
  · rfl
  · rfl

theorem axis_left (n : Nat) : broadcastAxis 1 n = .ok n := by
  unfold broadcastAxis
  split
  · rename_i h; rw [h]
  · rfl

theorem broadcastShape_same (s : List Nat) : broadcastData.broadcastShape s s = .ok s := by
  induction s with
  | nil => rfl
  | cons n s ih => simp [broadcastData.broadcastShape, ih, axis_same, bind, Except.bind]

theorem broadcastShape_right (s : List Nat) :
    broadcastData.broadcastShape s (List.replicate s.length 1) = .ok s := by
  induction s with
  | nil => rfl
  | cons n s ih =>
    simp only [List.length_cons, List.replicate_succ, broadcastData.broadcastShape, ih, axis_right, bind,
      Except.bind]

theorem broadcastShape_left (s : List Nat) :
    broadcastData.broadcastShape (List.replicate s.length 1) s = .ok s := by
  induction s with
  | nil => rfl
  | cons n s ih =>
    simp only [List.length_cons, List.replicate_succ, broadcastData.broadcastShape, ih, axis_left, bind,
      Except.bind]

theorem seqExcept_zipWith {α β γ : Type} (f : α → β → Except Err γ) (g : α → β → γ) :
    ∀ (xs : List α) (ys : List β), (∀ x ∈ xs, ∀ y ∈ ys, f x y = .ok (g x y)) →
      seqExcept (List.zipWith f xs ys) = .ok (List.zipWith g xs ys)
  | [], _, _ => rfl
  | _ :: _, [], _ => rfl
  | x :: xs, y :: ys, h => by
    simp only [List.zipWith_cons_cons, seqExcept, h x (by simp) y (by simp), bind, Except.bind,
      seqExcept_zipWith f g xs ys (fun x hx y hy => h x (by simp [hx]) y (by simp [hy]))]

theorem zipWith_chunks (op : R → R → R) (n k : Nat) (x y : List R) (hx : x.length = n * k)
    (hy : y.length = n * k) :
    (List.zipWith (List.zipWith op) (chunks n k x) (chunks n k y)).flatten = List.zipWith op x y := by
  induction n generalizing x y with
  | zero =>
    have h1 : x = [] := by simpa using hx
    subst h1
    simp [chunks]
  | succ n ih =>
    rw [chunks_succ, chunks_succ, List.zipWith_cons_cons, List.flatten_cons,
      ih _ _ (by rw [List.length_drop, hx, Nat.succ_mul]; omega)
        (by rw [List.length_drop, hy, Nat.succ_mul]; omega), ← List.zipWith_append]
    · rw [List.take_append_drop, List.take_append_drop]
    · rw [List.length_take, List.length_take, hx, hy]

theorem broadcastData_same (op : R → R → R) (s : List Nat) (x y : List R) (hx : x.length = s.prod)
    (hy : y.length = s.prod) : broadcastData op s s x y = .ok (s, List.zipWith op x y) := by
  induction s generalizing x y with
  | nil => rfl
  | cons n s ih =>
    rw [List.prod_cons] at hx hy
    simp only [broadcastData, axis_same, bind, Except.bind, axis_chunks n s.prod x hx,
      axis_chunks n s.prod y hy, broadcastShape_same]
    rw [seqExcept_zipWith _ (fun u v => (s, List.zipWith op u v)) _ _
      (fun u hu v hv => ih u v (mem_chunks_length _ _ _ hx u hu) (mem_chunks_length _ _ _ hy v hv))]
    simp only
    rw [List.map_zipWith]
    exact congrArg (fun d => Except.ok (n :: s, d)) (zipWith_chunks op n s.prod x y hx hy)

theorem zipWith_replicate_right {α β γ : Type} (f : α → β → γ) (xs : List α) (y : β) :
    List.zipWith f xs (List.replicate xs.length y) = xs.map (fun x => f x y) := by
  induction xs with
  | nil => rfl
  | cons x xs ih => simp [List.replicate_succ, ih]

theorem zipWith_replicate_left {α β γ : Type} (f : α → β → γ) (x : α) (ys : List β) :
    List.zipWith f (List.replicate ys.length x) ys = ys.map (fun y => f x y) := by
  induction ys with
  | nil => rfl
  | cons y ys ih => simp [List.replicate_succ, ih]

theorem broadcastData_right (op : R → R → R) (s : List Nat) (x : List R) (v : R)
    (hx : x.length = s.prod) :
    broadcastData op s (List.replicate s.length 1) x [v] = .ok (s, x.map (fun u => op u v)) := by
  induction s generalizing x with
  | nil =>
    simp only [List.prod_nil] at hx
    match x, hx with
    | [u], _ => rfl
  | cons n s ih =>
    rw [List.prod_cons] at hx
    simp only [List.length_cons, List.replicate_succ, broadcastData, axis_right, bind, Except.bind,
      axis_chunks n s.prod x hx, broadcastShape_right]
    have hlen : (chunks n s.prod x).length = n := chunks_length _ _ _
    have hrep : List.replicate n [v] = List.replicate (chunks n s.prod x).length [v] := by rw [hlen]
    rw [if_true, hrep, zipWith_replicate_right,
      seqExcept_map_ok (fun u => broadcastData op s (List.replicate s.length 1) u [v])
        (fun u => (s, u.map (fun u => op u v))) (chunks n s.prod x)
        (fun u hu => ih u (mem_chunks_length _ _ _ hx u hu))]
    simp only [List.map_map, Function.comp_def]
    rw [← List.map_flatten, chunks_flatten n s.prod x hx]

theorem broadcastData_left (op : R → R → R) (s : List Nat) (y : List R) (v : R)
    (hy : y.length = s.prod) :
    broadcastData op (List.replicate s.length 1) s [v] y = .ok (s, y.map (fun u => op v u)) := by
  induction s generalizing y with
  | nil =>
    simp only [List.prod_nil] at hy
    match y, hy with
    | [u], _ => rfl
  | cons n s ih =>
    rw [List.prod_cons] at hy
    simp only [List.length_cons, List.replicate_succ, broadcastData, axis_left, bind, Except.bind,
      axis_chunks n s.prod y hy, broadcastShape_left]
    have hlen : (chunks n s.prod y).length = n := chunks_length _ _ _
    have hrep : List.replicate n [v] = List.replicate (chunks n s.prod y).length [v] := by rw [hlen]
    rw [if_true, hrep, zipWith_replicate_left,
      seqExcept_map_ok (fun u => broadcastData op (List.replicate s.length 1) s [v] u)
        (fun u => (s, u.map (fun u => op v u))) (chunks n s.prod y)
        (fun u hu => ih u (mem_chunks_length _ _ _ hy u hu))]
    simp only [List.map_map, Function.comp_def]
    rw [← List.map_flatten, chunks_flatten n s.prod y hy]

variable {P : Type}

theorem broadcast_same (op : R → R → R) (s : List Nat) (ps : List P) (f g : P → R)
    (h : ps.length = s.prod) :
    broadcast op ⟨s, ps.map f⟩ ⟨s, ps.map g⟩ = .ok ⟨s, ps.map (fun p => op (f p) (g p))⟩ := by
  simp only [broadcast, Nat.sub_self, List.replicate_zero, List.nil_append]
  rw [broadcastData_same op s _ _ (by simpa using h) (by simpa using h)]
  simp only [bind, Except.bind, List.zipWith_map_left, List.zipWith_map_right, List.zipWith_self]

theorem broadcast_right (op : R → R → R) (s : List Nat) (ps : List P) (f g : P → R) (v : R)
    (h : ps.length = s.prod) (hv : ∀ p ∈ ps, g p = v) :
    broadcast op ⟨s, ps.map f⟩ ⟨[], [v]⟩ = .ok ⟨s, ps.map (fun p => op (f p) (g p))⟩ := by
  simp only [broadcast, List.length_nil, Nat.sub_zero, Nat.zero_sub, List.replicate_zero,
    List.nil_append, List.append_nil]
  rw [broadcastData_right op s _ v (by simpa using h)]
  simp only [bind, Except.bind, List.map_map]
  refine congrArg (fun d => Except.ok (⟨s, d⟩ : Nd R)) (List.map_congr_left ?_)
  intro p hp
  rw [hv p hp]
  rfl

theorem broadcast_left (op : R → R → R) (s : List Nat) (ps : List P) (f g : P → R) (v : R)
    (h : ps.length = s.prod) (hv : ∀ p ∈ ps, f p = v) :
    broadcast op ⟨[], [v]⟩ ⟨s, ps.map g⟩ = .ok ⟨s, ps.map (fun p => op (f p) (g p))⟩ := by
  simp only [broadcast, List.length_nil, Nat.sub_zero, Nat.zero_sub, List.replicate_zero,
    List.nil_append, List.append_nil]
  rw [broadcastData_left op s _ v (by simpa using h)]
  simp only [bind, Except.bind, List.map_map]
  refine congrArg (fun d => Except.ok (⟨s, d⟩ : Nd R)) (List.map_congr_left ?_)
  intro p hp
  rw [hv p hp]
  rfl

end broadcasting

/-! ## Layouts: which shapes the arrays of an analyzer have -/

/-- The shapes of the arrays of an analyzer: `sh n` is the shape of an array with `n` entries, `ok n` says
that there are such arrays, `cols` is the number of entries of a fresh accumulator. -/
structure Layout where
  sh : Nat → List Nat
  ok : Nat → Prop
  cols : Nat
  okCols : ok cols
  least : ∀ n, ok n → cols ≤ n
  prod : ∀ n, ok n → (sh n).prod = n
  max : ∀ n m, ok n → ok m → ok (max n m)
  pad : ∀ (n m : Nat) (x y : List Num), ok n → ok m → x.length = n → y.length = m →
    padToMatch (some 0) ⟨sh n, x⟩ ⟨sh m, y⟩ =
      .ok (⟨sh (Max.max n m), x ++ List.replicate (m - n) (some 0)⟩,
        ⟨sh (Max.max n m), y ++ List.replicate (n - m) (some 0)⟩)

/-- All arrays have the same shape. -/
def Layout.known (shape : List Nat) : Layout where
  sh := fun _ => shape
  ok := fun n => n = shape.prod
  cols := shape.prod
  okCols := rfl
  least := by intro n h; exact le_of_eq h.symm
  prod := by intro n h; exact h.symm
  max := by intro n m h1 h2; rw [h1, h2, Nat.max_self]
  pad := by
    intro n m x y hn hm _ _
    rw [hn, hm]
    simp [padToMatch]

theorem chunks_ones {α : Type} (x : List α) : (chunks x.length 1 x).flatten = x :=
  chunks_flatten _ _ _ (by simp)

theorem npPad_vector (x : List Num) (k : Nat) :
    npPad (some 0) ⟨[x.length], x⟩ [k] =
      .ok ⟨[x.length + k], x ++ List.replicate k (some 0)⟩ := by
  simp only [npPad, List.length_cons, List.length_nil, Nat.zero_add, if_true, List.headD_cons,
    List.replicate_one, padData, List.zipWith_cons_cons, List.zipWith_nil_left, List.prod_nil,
    Nat.mul_one, List.map_id', chunks_ones]

/-- All arrays are vectors, of any length. -/
def Layout.vector : Layout where
  sh := fun n => [n]
  ok := fun _ => True
  cols := 0
  okCols := trivial
  least := by intro n _; exact Nat.zero_le n
  prod := by intro n _; simp
  max := by intro _ _ _ _; trivial
  pad := by
    intro n m x y _ _ hx hy
    subst hx hy
    unfold padToMatch
    by_cases h : x.length = y.length
    · simp [h]
    · have h1 : ¬ ([x.length] : List Nat) = [y.length] := by simpa using h
      simp only [h1, if_false, List.zip_cons_cons, List.zip_nil_left, List.isEmpty_cons, Bool.false_eq_true,
        List.map_cons, List.map_nil, npPad_vector, bind, Except.bind]
      have h2 : x.length + (y.length - x.length) = Max.max x.length y.length := by omega
      have h3 : y.length + (x.length - y.length) = Max.max x.length y.length := by omega
      rw [h2, h3]

/-- The count of a column as a float. -/
def cnt (c : MVCol) : Num := some (c.count : ℚ)

/-- The arrays of an accumulator with these columns. The count of a fresh accumulator and the weight of a
batch are 0-dim. -/
def Columns (lay : Layout) (arrays : List (Nd Num)) (acc : MVAcc) : Prop :=
  lay.ok acc.length ∧ ∃ c w,
    arrays = [c, ⟨lay.sh acc.length, acc.map MVCol.mean⟩, ⟨lay.sh acc.length, acc.map MVCol.variance⟩, w] ∧
    (c = ⟨lay.sh acc.length, acc.map cnt⟩ ∨
      (c = ⟨[], [some 0]⟩ ∧ acc.length = lay.cols ∧ ∀ col ∈ acc, col.count = 0)) ∧
    (w.shape = [] ∨ w.shape = lay.sh acc.length) ∧ w.data.length = w.shape.prod

theorem total_counts (acc : MVAcc) (s : List Nat) : total ⟨s, acc.map cnt⟩ = some (countSum acc : ℚ) := by
  have h : ∀ (acc : MVAcc) (q : ℚ), (acc.map cnt).foldl Num.add (some q) =
      some (q + (countSum acc : ℚ)) := by
    intro acc
    induction acc with
    | nil => intro q; simp [countSum]
    | cons c acc ih =>
      intro q
      have h1 : Num.add (some q) (cnt c) = some (q + (c.count : ℚ)) := rfl
      rw [List.map_cons, List.foldl_cons, h1, ih]
      simp only [countSum, List.map_cons, List.sum_cons, Nat.cast_add, add_assoc]
  simpa [total] using h acc 0

theorem total_fresh : total ⟨[], [some 0]⟩ = some 0 := by
  simp [total, Num.add]

theorem countSum_zero {acc : MVAcc} (h : ∀ col ∈ acc, col.count = 0) : countSum acc = 0 := by
  rw [countSum, List.sum_eq_zero]
  intro x hx
  obtain ⟨c, hc, rfl⟩ := List.mem_map.1 hx
  exact h c hc

theorem total_columns {lay : Layout} {c : Nd Num} {acc : MVAcc}
    (h : c = ⟨lay.sh acc.length, acc.map cnt⟩ ∨
      (c = ⟨[], [some 0]⟩ ∧ acc.length = lay.cols ∧ ∀ col ∈ acc, col.count = 0)) :
    total c = some (countSum acc : ℚ) := by
  rcases h with h | ⟨h, _, h0⟩
  · rw [h, total_counts]
  · rw [h, total_fresh, countSum_zero h0]; rfl

theorem padded_map (f : MVCol → Num) (hf : f MVCol.zero = some 0) (a : MVAcc) (n : Nat) :
    (padTo n a).map f = a.map f ++ List.replicate (n - a.length) (some 0) := by
  simp [padTo, hf]

theorem padded_length (a b : MVAcc) : (padTo b.length a).length = max a.length b.length := by
  simp only [padTo, List.length_append, List.length_replicate]
  omega

theorem map_fst_zip' {α β γ : Type} (f : α → γ) (xs : List α) (ys : List β) (h : xs.length = ys.length) :
    (List.zip xs ys).map (fun p => f p.1) = xs.map f := by
  have : (fun p : α × β => f p.1) = f ∘ Prod.fst := rfl
  rw [this, ← List.map_map, List.map_fst_zip (le_of_eq h)]

theorem map_snd_zip' {α β γ : Type} (f : β → γ) (xs : List α) (ys : List β) (h : xs.length = ys.length) :
    (List.zip xs ys).map (fun p => f p.2) = ys.map f := by
  have : (fun p : α × β => f p.2) = f ∘ Prod.snd := rfl
  rw [this, ← List.map_map, List.map_snd_zip (le_of_eq h.symm)]

theorem padded_same (a b : MVAcc) : (padTo b.length a).length = (padTo a.length b).length := by
  rw [padded_length, padded_length, max_comm]

theorem pad_field (lay : Layout) (f : MVCol → Num) (hf : f MVCol.zero = some 0) (a b : MVAcc)
    (ha : lay.ok a.length) (hb : lay.ok b.length) :
    padToMatch (some 0) ⟨lay.sh a.length, a.map f⟩ ⟨lay.sh b.length, b.map f⟩ =
      .ok (⟨lay.sh (max a.length b.length),
          (List.zip (padTo b.length a) (padTo a.length b)).map (fun p => f p.1)⟩,
        ⟨lay.sh (max a.length b.length),
          (List.zip (padTo b.length a) (padTo a.length b)).map (fun p => f p.2)⟩) := by
  rw [lay.pad a.length b.length _ _ ha hb (by simp) (by simp)]
  rw [map_fst_zip' f _ _ (padded_same a b), map_snd_zip' f _ _ (padded_same a b), padded_map f hf,
    padded_map f hf]

theorem padToMatch_fresh (s : List Nat) (x : List Num) :
    padToMatch (some 0) ⟨s, x⟩ ⟨[], [some 0]⟩ = .ok (⟨s, x⟩, ⟨[], [some 0]⟩) := by
  unfold padToMatch
  simp only [List.zip_nil_right, List.isEmpty_nil, if_true, bind, Except.bind]
  split <;> rfl

/-- The program on arrays computes the columns. -/
theorem combineTuples_columns (lay : Layout) (a b : MVAcc) (ha : lay.ok a.length) (hb : lay.ok b.length)
    (t u : MeanVarTuple)
    (ht1 : t.count = ⟨lay.sh a.length, a.map cnt⟩)
    (ht2 : t.mean = ⟨lay.sh a.length, a.map MVCol.mean⟩)
    (ht3 : t.variance.asArray = .ok ⟨lay.sh a.length, a.map MVCol.variance⟩)
    (hu1 : u.count = ⟨lay.sh b.length, b.map cnt⟩ ∨
      (u.count = ⟨[], [some 0]⟩ ∧ b.length = lay.cols ∧ ∀ col ∈ b, col.count = 0))
    (hu2 : u.mean = ⟨lay.sh b.length, b.map MVCol.mean⟩)
    (hu3 : u.variance.asArray = .ok ⟨lay.sh b.length, b.map MVCol.variance⟩) :
    ∃ arrays, combineTuples true false t u = .ok arrays ∧
      Columns lay arrays (List.zipWith (combineCol true false) (padTo b.length a) (padTo a.length b)) := by
  set ps := List.zip (padTo b.length a) (padTo a.length b) with hps
  set s := lay.sh (max a.length b.length) with hs
  have hlen : ps.length = max a.length b.length := by
    rw [hps, List.length_zip, padded_length, padded_length, max_comm b.length, min_self]
  have hprod : ps.length = s.prod := by rw [hlen, hs, lay.prod _ (lay.max _ _ ha hb)]
  have hbr := fun (op : Num → Num → Num) (f g : MVCol × MVCol → Num) =>
    broadcast_same op s ps f g hprod
  have hcount : ∃ ac bc, padToMatch (some 0) t.count u.count = .ok (ac, bc) ∧
      broadcast Num.add ac bc = .ok ⟨s, ps.map (fun p => Num.add (cnt p.1) (cnt p.2))⟩ ∧
      broadcast Num.div bc ⟨s, ps.map (fun p => Num.add (cnt p.1) (cnt p.2))⟩ =
        .ok ⟨s, ps.map (fun p => Num.div (cnt p.2) (Num.add (cnt p.1) (cnt p.2)))⟩ := by
    rw [ht1]
    rcases hu1 with hu1 | ⟨hu1, hcols, hzero⟩
    · rw [hu1]
      exact ⟨_, _, pad_field lay cnt rfl a b ha hb, hbr _ _ _, hbr _ _ _⟩
    · rw [hu1]
      have hle : b.length ≤ a.length := by rw [hcols]; exact lay.least _ ha
      have hmax : max a.length b.length = a.length := max_eq_left hle
      have hz : ∀ p ∈ ps, cnt p.2 = some 0 := by
        intro p hp
        have : p.2 ∈ padTo a.length b := (List.of_mem_zip hp).2
        rcases List.mem_append.1 this with h | h
        · simp [cnt, hzero _ h]
        · rw [(List.mem_replicate.1 h).2]; rfl
      have e1 : (⟨lay.sh a.length, a.map cnt⟩ : Nd Num) = ⟨s, ps.map (fun p => cnt p.1)⟩ := by
        rw [hs, hmax, hps, map_fst_zip' cnt _ _ (padded_same a b)]
        simp [padTo, Nat.sub_eq_zero_of_le hle]
      rw [e1]
      exact ⟨_, _, padToMatch_fresh _ _, broadcast_right _ s ps _ (fun p => cnt p.2) _ hprod hz,
        broadcast_left _ s ps (fun p => cnt p.2) _ _ hprod hz⟩
  obtain ⟨ac, bc, hc1, hc2, hc3⟩ := hcount
  have hz : (List.zipWith (combineCol true false) (padTo b.length a) (padTo a.length b)) =
      ps.map (fun p => combineCol true false p.1 p.2) := by
    rw [hps, List.zip, List.map_zipWith]
  have hzl : (ps.map (fun p => combineCol true false p.1 p.2)).length = max a.length b.length := by
    rw [List.length_map, hlen]
  refine ⟨[⟨s, (ps.map (fun p => combineCol true false p.1 p.2)).map cnt⟩,
    ⟨s, (ps.map (fun p => combineCol true false p.1 p.2)).map MVCol.mean⟩,
    ⟨s, (ps.map (fun p => combineCol true false p.1 p.2)).map MVCol.variance⟩,
    Nd.full s (some 1)], ?_, ?_⟩
  · unfold combineTuples
    rw [hc1, ht2, hu2, pad_field lay MVCol.mean rfl a b ha hb, ← hps, ← hs, ht3, hu3]
    simp only [bind, Except.bind, pure, Except.pure, hc2, hc3, hbr, if_true, if_false, Bool.false_eq_true,
      pad_field lay MVCol.variance rfl a b ha hb, ← hps, ← hs, List.map_map]
    have hcnt : ∀ p : MVCol × MVCol, Num.add (cnt p.1) (cnt p.2) = cnt (combineCol true false p.1 p.2) := by
      intro p
      simp [cnt, Num.add, combineCol]
    have e : ps.map (fun p => Num.add (cnt p.1) (cnt p.2)) =
        ps.map (cnt ∘ fun p => combineCol true false p.1 p.2) :=
      List.map_congr_left (fun p _ => hcnt p)
    rw [e]
    rfl
  · rw [hz]
    refine ⟨by rw [hzl]; exact lay.max _ _ ha hb, _, Nd.full s (some 1), ?_, Or.inl rfl, Or.inr ?_, ?_⟩
    · rw [hzl]
    · rw [hzl]; rfl
    · simp [Nd.full]

theorem nan_columns {lay : Layout} {x : List (Item Num)} {arrays : List (Nd Num)} {acc : MVAcc}
    (hx : StandsFor x arrays) (h : Columns lay arrays acc) :
    ∃ (t : MeanVarTuple) (v w : Nd Num), makeNanToNum true false x = .ok t ∧
      t.variance.asArray = .ok v ∧ t.weight.asArray = .ok w ∧
      Columns lay [t.count, t.mean, v, w] (acc.map (MVCol.nanToNum true false)) := by
  obtain ⟨hok, c, w, rfl, hc, hw⟩ := h
  obtain ⟨x1, y1, h1, hx1, rfl⟩ := List.forall₂_cons_right_iff.1 hx
  obtain ⟨x2, y2, h2, hx2, rfl⟩ := List.forall₂_cons_right_iff.1 hx1
  obtain ⟨x3, y3, h3, hx3, rfl⟩ := List.forall₂_cons_right_iff.1 hx2
  obtain ⟨x4, y4, h4, hx4, rfl⟩ := List.forall₂_cons_right_iff.1 hx3
  obtain rfl := List.forall₂_nil_right_iff.1 hx4
  refine ⟨⟨c, ⟨lay.sh acc.length, (acc.map MVCol.mean).map Num.nanToNum⟩,
    .array ⟨lay.sh acc.length, (acc.map MVCol.variance).map Num.nanToNum⟩, x4⟩,
    ⟨lay.sh acc.length, (acc.map MVCol.variance).map Num.nanToNum⟩, w, ?_, rfl, h4, ?_⟩
  · simp [makeNanToNum, Item.nanToNumIf, Item.nanToNum, h1, h2, h3, bind, Except.bind, Except.map]
  · refine ⟨by simpa using hok, c, w, ?_, ?_, by simpa using hw⟩
    · simp [MVCol.nanToNum, Function.comp_def]
    · rcases hc with hc | ⟨hc, hl, hz⟩
      · left
        rw [hc]
        simp [cnt, MVCol.nanToNum, Function.comp_def]
      · right
        refine ⟨hc, by simpa using hl, ?_⟩
        intro col hcol
        obtain ⟨c', hc', rfl⟩ := List.mem_map.1 hcol
        exact hz c' hc'

theorem numLt_cast (n m : Nat) : numLt (some (n : ℚ)) (some (m : ℚ)) = decide (n < m) := by
  simp [numLt]

theorem combine_ordered (lay : Layout) (t u : MeanVarTuple) (v w v' w' : Nd Num) (a b : MVAcc)
    (h1 : t.variance.asArray = .ok v) (_h2 : t.weight.asArray = .ok w)
    (h3 : u.variance.asArray = .ok v') (h4 : u.weight.asArray = .ok w')
    (ha : Columns lay [t.count, t.mean, v, w] a) (hb : Columns lay [u.count, u.mean, v', w'] b) :
    ∃ r arrays, (if total t.count = some 0 then Except.ok u.items
        else (combineTuples true false t u >>= fun r => .ok (r.map .array))) = .ok r ∧
      StandsFor r arrays ∧
      Columns lay arrays (if countSum a = 0 then b
        else List.zipWith (combineCol true false) (padTo b.length a) (padTo a.length b)) := by
  obtain ⟨hoka, c, w1, he, hc, hw⟩ := ha
  obtain ⟨hokb, c', w1', he', hc', hw'⟩ := hb
  simp only [List.cons.injEq, and_true] at he he'
  obtain ⟨rfl, hm, rfl, rfl⟩ := he
  obtain ⟨rfl, hm', rfl, rfl⟩ := he'
  rw [total_columns hc]
  by_cases h0 : countSum a = 0
  · rw [if_pos h0, if_pos (by simp [h0])]
    refine ⟨_, [u.count, u.mean, _, w'], rfl, ?_, hokb, u.count, w', by rw [hm'], hc', hw'⟩
    exact .cons rfl (.cons rfl (.cons h3 (.cons h4 .nil)))
  · have hne : ¬ (some (countSum a : ℚ) : Num) = some 0 := by simpa using h0
    rw [if_neg h0, if_neg hne]
    have hcf : t.count = ⟨lay.sh a.length, a.map cnt⟩ := by
      rcases hc with hc | ⟨_, _, hz⟩
      · exact hc
      · exact absurd (countSum_zero hz) h0
    obtain ⟨arrays, g1, g2⟩ := combineTuples_columns lay a b hoka hokb t u hcf hm h1 hc' hm' h3
    rw [g1]
    exact ⟨_, arrays, rfl, computed_stands arrays, g2⟩

theorem combineItems_columns (lay : Layout) {x y : List (Item Num)} {xs ys : List (Nd Num)} {a b : MVAcc}
    (hx : StandsFor x xs) (hy : StandsFor y ys) (ha : Columns lay xs a) (hb : Columns lay ys b) :
    ∃ r arrays, combineItems true false x y = .ok r ∧ StandsFor r arrays ∧
      Columns lay arrays (combineAcc true false a b) := by
  obtain ⟨t, v, w, h1, h2, h3, h4⟩ := nan_columns hx ha
  obtain ⟨u, v', w', g1, g2, g3, g4⟩ := nan_columns hy hb
  have ht : total t.count = some (countSum (a.map (MVCol.nanToNum true false)) : ℚ) := by
    obtain ⟨_, c, _, he, hc, _⟩ := h4
    simp only [List.cons.injEq] at he
    rw [he.1]; exact total_columns hc
  have hu : total u.count = some (countSum (b.map (MVCol.nanToNum true false)) : ℚ) := by
    obtain ⟨_, c, _, he, hc, _⟩ := g4
    simp only [List.cons.injEq] at he
    rw [he.1]; exact total_columns hc
  simp only [combineItems, h1, g1, bind, Except.bind, ht, hu, numLt_cast, decide_eq_true_eq, combineAcc]
  by_cases hlt : countSum (a.map (MVCol.nanToNum true false)) < countSum (b.map (MVCol.nanToNum true false))
  · simp only [hlt, if_true]
    exact combine_ordered lay u t _ _ _ _ _ _ g2 g3 h2 h3 g4 h4
  · simp only [hlt, if_false]
    exact combine_ordered lay t u _ _ _ _ _ _ h2 h3 g2 g3 h4 g4

theorem combineItems_plain {xs ys : List (Nd Num)} {r : List (Item Num)}
    (h : combineItems true false (xs.map .array) (ys.map .array) = .ok r) :
    ∃ zs : List (Nd Num), r = zs.map .array := by
  have hn : ∀ (xs : List (Nd Num)) (t : MeanVarTuple), makeNanToNum true false (xs.map .array) = .ok t →
      ∃ zs : List (Nd Num), t.items = zs.map .array := by
    intro xs t h
    match xs with
    | [c, m, v, w] =>
      simp only [List.map_cons, List.map_nil, makeNanToNum, Item.nanToNumIf, if_true, Item.nanToNum,
        Item.asArray, bind, Except.bind, Except.map, Bool.false_eq_true, if_false, Except.ok.injEq] at h
      subst h
      exact ⟨[_, _, _, _], rfl⟩
    | [] => cases h
    | [_] => cases h
    | [_, _] => cases h
    | [_, _, _] => cases h
    | _ :: _ :: _ :: _ :: _ :: _ => cases h
  have hord : ∀ (t u : MeanVarTuple), (∃ zs : List (Nd Num), u.items = zs.map .array) →
      (if total t.count = some 0 then Except.ok u.items
        else (combineTuples true false t u >>= fun r => .ok (r.map .array))) = .ok r →
      ∃ zs : List (Nd Num), r = zs.map .array := by
    intro t u ⟨zs, hz⟩ h
    split at h
    · cases h; exact ⟨zs, hz⟩
    · obtain ⟨r', _, h2⟩ := bind_ok_iff.1 h
      cases h2
      exact ⟨r', rfl⟩
  simp only [combineItems] at h
  obtain ⟨t, h1, h⟩ := bind_ok_iff.1 h
  obtain ⟨u, h2, h⟩ := bind_ok_iff.1 h
  by_cases hlt : numLt (total t.count) (total u.count) = true
  · simp only [hlt, if_true] at h
    exact hord u t (hn _ _ h1) h
  · simp only [hlt] at h
    exact hord t u (hn _ _ h2) h

theorem stands_plain {R : Type} {xs ys : List (Nd R)} (h : StandsFor (xs.map .array) ys) : xs = ys := by
  rw [StandsFor, List.forall₂_map_left_iff] at h
  induction h with
  | nil => rfl
  | cons h _ ih => rw [ih]; cases h; rfl

/-! ## Runs -/

theorem run_same_inputs {S T X Y O P I : Type} (c : Combiner S X O) (c' : Combiner T Y P) (f : I → X)
    (g : I → Y) (Q : S → T → Prop) (ok : I → Prop) (h0 : Q c.create c'.create)
    (h1 : ∀ a b, Q a b → ∀ i, ok i → Same Q (c.addInput a (f i)) (c'.addInput b (g i)))
    (h2 : ∀ as bs, List.Forall₂ Q as bs → Same Q (c.merge as) (c'.merge bs))
    (h3 : ∀ a b, Q a b → Same Q (c.compact a) (c'.compact b)) (s : Sched I)
    (hok : ∀ i ∈ s.inputs, ok i) : Same Q ((s.map f).run c) ((s.map g).run c') := by
  induction s using Sched.ind with
  | h0 => exact .ok _ _ h0
  | h1 s i ih =>
    simp only [Sched.inputs, List.mem_append, List.mem_singleton] at hok
    exact (ih (fun j hj => hok j (Or.inl hj))).bind (fun a b hab => h1 a b hab i (hok i (Or.inr rfl)))
  | h2 ss ih =>
    simp only [Sched.inputs] at hok
    have hl : Same (List.Forall₂ Q) (Sched.runList c (Sched.mapList f ss))
        (Sched.runList c' (Sched.mapList g ss)) := by
      induction ss with
      | nil => exact .ok _ _ .nil
      | cons s ss ih2 =>
        simp only [Sched.inputsList, List.mem_append] at hok
        exact (ih s (by simp) (fun i hi => hok i (Or.inl hi))).bind (fun a b hab =>
          (ih2 (fun t ht => ih t (by simp [ht])) (fun i hi => hok i (Or.inr hi))).bind
            (fun as bs hs => .ok _ _ (.cons hab hs)))
    exact hl.bind h2
  | h3 s ih => exact (ih hok).bind h3

theorem runList_same_inputs {S T X Y O P I : Type} (c : Combiner S X O) (c' : Combiner T Y P) (f : I → X)
    (g : I → Y) (Q : S → T → Prop) (ok : I → Prop) (h0 : Q c.create c'.create)
    (h1 : ∀ a b, Q a b → ∀ i, ok i → Same Q (c.addInput a (f i)) (c'.addInput b (g i)))
    (h2 : ∀ as bs, List.Forall₂ Q as bs → Same Q (c.merge as) (c'.merge bs))
    (h3 : ∀ a b, Q a b → Same Q (c.compact a) (c'.compact b)) (ss : List (Sched I))
    (hok : ∀ i ∈ allInputs ss, ok i) :
    Same (List.Forall₂ Q) (Sched.runList c (ss.map (Sched.map f)))
      (Sched.runList c' (ss.map (Sched.map g))) := by
  induction ss with
  | nil => exact .ok _ _ .nil
  | cons s ss ih =>
    simp only [allInputs, List.map_cons, List.flatten_cons, List.mem_append] at hok
    exact (run_same_inputs c c' f g Q ok h0 h1 h2 h3 s (fun i hi => hok i (Or.inl hi))).bind (fun a b hab =>
      (ih (fun i hi => hok i (Or.inr hi))).bind (fun as bs hs => .ok _ _ (.cons hab hs)))

theorem same_of_ok {S T : Type} {Q : S → T → Prop} {x : Except Err S} {a : S} {b : T} (h : x = .ok a)
    (hq : Q a b) : Same Q x (.ok b) := by
  rw [h]; exact .ok _ _ hq

theorem sched_map_id {I : Type} (s : Sched I) : s.map id = s := by
  induction s using Sched.ind with
  | h0 => rfl
  | h1 s i ih => simp [Sched.map, ih]
  | h2 ss ih =>
    rw [Sched.map, Sched.mapList_eq]
    congr 1
    conv_rhs => rw [← List.map_id ss]
    exact List.map_congr_left ih
  | h3 s ih => simp [Sched.map, ih]

/-- A tuple of arrays with these columns. -/
def PlainCols (lay : Layout) (a : MeanVarAccumulator) (acc : MVAcc) : Prop :=
  ∃ arrays : List (Nd Num), a = .tuple (arrays.map .array) ∧ Columns lay arrays acc

/-- A tuple that stands for arrays with these columns. -/
def TupleCols (lay : Layout) (a : MeanVarAccumulator) (acc : MVAcc) : Prop :=
  ∃ x arrays, a = .tuple x ∧ StandsFor x arrays ∧ Columns lay arrays acc

/-- An accumulator that stands for arrays with these columns. -/
def StandCols (lay : Layout) (a : MeanVarAccumulator) (acc : MVAcc) : Prop :=
  ∃ x arrays, a.items = .ok x ∧ StandsFor x arrays ∧ Columns lay arrays acc

theorem plain_list {lay : Layout} {as : List MeanVarAccumulator} {cols : List MVAcc}
    (h : List.Forall₂ (PlainCols lay) as cols) :
    ∃ accs : List (List (Nd Num)), as = accs.map (fun a => .tuple (a.map .array)) ∧
      List.Forall₂ (Columns lay) accs cols := by
  induction h with
  | nil => exact ⟨[], rfl, .nil⟩
  | cons h _ ih =>
    obtain ⟨accs, rfl, h2⟩ := ih
    obtain ⟨arrays, rfl, h1⟩ := h
    exact ⟨arrays :: accs, rfl, .cons h1 h2⟩

theorem TupleCols.stand {lay : Layout} {a : MeanVarAccumulator} {acc : MVAcc} (h : TupleCols lay a acc) :
    StandCols lay a acc := by
  obtain ⟨x, arrays, rfl, h1, h2⟩ := h
  exact ⟨x, arrays, rfl, h1, h2⟩

theorem combine_stand {lay : Layout} {a b : MeanVarAccumulator} {acc acc' : MVAcc}
    (ha : StandCols lay a acc) (hb : StandCols lay b acc') :
    ∃ r, combineAccumulators true false a b = .ok r ∧ TupleCols lay r (combineAcc true false acc acc') := by
  obtain ⟨x, xs, h1, h2, h3⟩ := ha
  obtain ⟨y, ys, g1, g2, g3⟩ := hb
  obtain ⟨r, arrays, k1, k2, k3⟩ := combineItems_columns lay h2 g2 h3 g3
  refine ⟨.tuple r, ?_, r, arrays, rfl, k2, k3⟩
  simp [combineAccumulators, h1, g1, k1, bind, Except.bind]

theorem combine_plain {lay : Layout} {a b : MeanVarAccumulator} {acc acc' : MVAcc}
    (ha : PlainCols lay a acc) (hb : PlainCols lay b acc') :
    ∃ r, combineAccumulators true false a b = .ok r ∧ PlainCols lay r (combineAcc true false acc acc') := by
  obtain ⟨xs, rfl, h3⟩ := ha
  obtain ⟨ys, rfl, g3⟩ := hb
  obtain ⟨r, arrays, k1, k2, k3⟩ :=
    combineItems_columns lay (computed_stands xs) (computed_stands ys) h3 g3
  obtain ⟨zs, rfl⟩ := combineItems_plain k1
  obtain rfl := stands_plain k2
  refine ⟨.tuple (zs.map .array), ?_, zs, rfl, k3⟩
  simp [combineAccumulators, MeanVarAccumulator.items, k1, bind, Except.bind]

theorem fold_plain {lay : Layout} {a : MeanVarAccumulator} {acc : MVAcc} (ha : PlainCols lay a acc)
    {rest : List MeanVarAccumulator} {accs : List MVAcc} (h : List.Forall₂ (PlainCols lay) rest accs) :
    ∃ r, rest.foldlM (combineAccumulators true false) a = .ok r ∧
      PlainCols lay r (accs.foldl (combineAcc true false) acc) := by
  induction h generalizing a acc with
  | nil => exact ⟨a, rfl, ha⟩
  | cons h _ ih =>
    obtain ⟨r, h1, h2⟩ := combine_plain ha h
    obtain ⟨r', h3, h4⟩ := ih h2
    refine ⟨r', ?_, h4⟩
    rw [List.foldlM_cons, h1]
    exact h3

theorem fold_stand {lay : Layout} {a : MeanVarAccumulator} {acc : MVAcc} (ha : TupleCols lay a acc)
    {rest : List MeanVarAccumulator} {accs : List MVAcc} (h : List.Forall₂ (StandCols lay) rest accs) :
    ∃ r, rest.foldlM (combineAccumulators true false) a = .ok r ∧
      TupleCols lay r (accs.foldl (combineAcc true false) acc) := by
  induction h generalizing a acc with
  | nil => exact ⟨a, rfl, ha⟩
  | cons h _ ih =>
    obtain ⟨r, h1, h2⟩ := combine_stand ha.stand h
    obtain ⟨r', h3, h4⟩ := ih h2
    refine ⟨r', ?_, h4⟩
    rw [List.foldlM_cons, h1]
    exact h3

/-- What `mean` and `var` give to the combiner for a dense batch (analyzers.py:978-987): the counts, means
and variances of the columns, as arrays of this shape, and a weight 0. -/
def batchArrays (shape : List Nat) (b : Batch) : List (Nd Num) :=
  [⟨shape, b.map (fun col => some ((reduceDenseCol col).count : ℚ))⟩,
   ⟨shape, b.map (fun col => (reduceDenseCol col).mean)⟩,
   ⟨shape, b.map (fun col => (reduceDenseCol col).variance)⟩,
   ⟨[], [some 0]⟩]

theorem batchArrays_columns (lay : Layout) (b : Batch) (h : lay.ok b.length) :
    Columns lay (batchArrays (lay.sh b.length) b) (denseStats b) := by
  refine ⟨by simpa [denseStats] using h, _, ⟨[], [some 0]⟩, ?_, Or.inl rfl, Or.inl rfl, rfl⟩
  simp [batchArrays, denseStats, cnt, Function.comp_def]

theorem columns_fine {lay : Layout} (hsh : ∀ n, lay.ok n → ∀ i : Nat, (lay.sh n)[i]? = some 0 →
    i + 1 = (lay.sh n).length) {arrays : List (Nd Num)} {acc : MVAcc} (h : Columns lay arrays acc) :
    (∀ a ∈ arrays, Solid a) ∧ Distinct arrays := by
  obtain ⟨hok, c, w, rfl, hc, hw, hwl⟩ := h
  have hp := lay.prod _ hok
  have hs := hsh _ hok
  have hcs : Solid c ∧ (c.shape = [] ∨ c.shape = lay.sh acc.length) := by
    rcases hc with rfl | ⟨rfl, _, _⟩
    · exact ⟨⟨by simp [hp], hs⟩, Or.inr rfl⟩
    · exact ⟨⟨rfl, by simp⟩, Or.inl rfl⟩
  have hws : Solid w := by
    refine ⟨hwl, ?_⟩
    rcases hw with hw | hw <;> rw [hw]
    · simp
    · exact hs
  refine ⟨?_, ?_⟩
  · intro a ha
    simp only [List.mem_cons, List.not_mem_nil, or_false] at ha
    rcases ha with rfl | rfl | rfl | rfl
    · exact hcs.1
    · exact ⟨by simp [hp], hs⟩
    · exact ⟨by simp [hp], hs⟩
    · exact hws
  · cases hshape : lay.sh acc.length with
    | nil =>
      left
      refine ⟨[], ?_⟩
      intro a ha
      simp only [List.mem_cons, List.not_mem_nil, or_false] at ha
      rcases ha with rfl | rfl | rfl | rfl
      · rcases hcs.2 with h | h
        · exact h
        · rw [h, hshape]
      · rfl
      · rfl
      · rcases hw with h | h
        · exact h
        · rw [h, hshape]
    | cons n rest =>
      by_cases h1 : c.shape = []
      · right
        exact ⟨c, by simp, ⟨n :: rest, acc.map MVCol.mean⟩, by simp, by simp [h1]⟩
      · by_cases h2 : w.shape = []
        · right
          exact ⟨w, by simp, ⟨n :: rest, acc.map MVCol.mean⟩, by simp, by simp [h2]⟩
        · left
          refine ⟨n :: rest, ?_⟩
          intro a ha
          simp only [List.mem_cons, List.not_mem_nil, or_false] at ha
          rcases ha with rfl | rfl | rfl | rfl
          · rcases hcs.2 with h | h
            · exact absurd h h1
            · rw [h, hshape]
          · rfl
          · rfl
          · rcases hw with h | h
            · exact absurd h h2
            · rw [h, hshape]

theorem meanVar_layout (lay : Layout) (hsh : ∀ n, lay.ok n → ∀ i : Nat, (lay.sh n)[i]? = some 0 →
    i + 1 = (lay.sh n).length) (outputShape : List (Option Nat))
    (hcreate : outputShape.map (fun dim => dim.getD 0) = lay.sh lay.cols) (json : JsonCodec Num)
    (s1 : List (Sched Batch)) (s2 : Sched Nat) (hv : ValidRun s1 s2)
    (hb : ∀ b ∈ allInputs s1, lay.ok b.length) :
    ∃ accs : List (List (Nd Num)),
      Sched.runList (meanVarArrays true false outputShape).accumulateStage
          (s1.map (Sched.map (fun b => batchArrays (lay.sh b.length) b))) =
        .ok (accs.map (fun a => .tuple (a.map .array))) ∧
      ∀ seen, List.Forall₂ (MeanVarHolds json) accs seen →
        ∃ means vars : List Num, lay.ok means.length ∧ vars.length = means.length ∧
          ((s2.map (fun i => seen[i]?)).run (meanVarArrays true false outputShape).mergeStage >>=
              (meanVarArrays true false outputShape).extract) =
            .ok [⟨lay.sh means.length, means⟩, ⟨lay.sh means.length, vars⟩] ∧
          analysis (meanVarAnalyzer denseStats lay.cols) s1 s2 = .ok (.meanVar means vars) := by
  have hfresh : Columns lay [⟨[], [some 0]⟩, Nd.full (lay.sh lay.cols) (some 0),
      Nd.full (lay.sh lay.cols) (some 0), ⟨[], [some 0]⟩] (List.replicate lay.cols MVCol.zero) := by
    refine ⟨by simpa using lay.okCols, ⟨[], [some 0]⟩, ⟨[], [some 0]⟩, ?_, Or.inr ⟨rfl, by simp, ?_⟩,
      Or.inl rfl, rfl⟩
    · simp [Nd.full, lay.prod _ lay.okCols, MVCol.zero]
    · intro col hcol
      rw [(List.mem_replicate.1 hcol).2]; rfl
  have hcr : createMeanVar outputShape = [⟨[], [some 0]⟩, Nd.full (lay.sh lay.cols) (some 0),
      Nd.full (lay.sh lay.cols) (some 0), ⟨[], [some 0]⟩].map .array := by
    simp [createMeanVar, hcreate]
  obtain ⟨means, vars, hfinal, _⟩ := mean_var_schedule_independent lay.cols s1 s2 hv (fun _ _ => trivial)
  obtain ⟨cols, hcols, hrest⟩ := bind_ok_iff.1 hfinal
  obtain ⟨final, hrun, hext⟩ := bind_ok_iff.1 hrest
  have h1 : Same (List.Forall₂ (PlainCols lay))
      (Sched.runList (meanVarArrays true false outputShape).accumulateStage
        (s1.map (Sched.map (fun b => batchArrays (lay.sh b.length) b))))
      (Sched.runList (meanVarAnalyzer denseStats lay.cols).accumulateStage (s1.map (Sched.map id))) := by
    refine runList_same_inputs _ _ _ _ (PlainCols lay) (fun b => lay.ok b.length) ⟨_, by
      exact congrArg MeanVarAccumulator.tuple hcr, hfresh⟩ ?_ ?_ (fun a b h => .ok _ _ h) s1 hb
    · intro a acc ha b hb
      obtain ⟨r, k1, k2⟩ := combine_plain ha ⟨_, rfl, batchArrays_columns lay b hb⟩
      have : (meanVarArrays true false outputShape).accumulateStage.addInput a
          (batchArrays (lay.sh b.length) b) = .ok r := k1
      rw [this]
      exact .ok _ _ k2
    · intro as accs h
      cases h with
      | nil => exact .error _
      | cons h hs =>
        obtain ⟨r, k1, k2⟩ := fold_plain h hs
        exact same_of_ok k1 k2
  have hid : s1.map (Sched.map id) = s1 := by
    conv_rhs => rw [← List.map_id s1]
    exact List.map_congr_left (fun s _ => sched_map_id s)
  rw [hid, hcols] at h1
  cases hx : Sched.runList (meanVarArrays true false outputShape).accumulateStage
      (s1.map (Sched.map (fun b => batchArrays (lay.sh b.length) b))) with
  | error e => rw [hx] at h1; cases h1
  | ok as =>
    rw [hx] at h1
    cases h1 with
    | ok _ _ h1 =>
      obtain ⟨accs, rfl, hacc⟩ := plain_list h1
      refine ⟨accs, rfl, ?_⟩
      intro seen hseen
      have hst : List.Forall₂ (StandCols lay) seen cols := by
        clear hx h1 hrun hcols hrest
        induction hacc generalizing seen with
        | nil => cases hseen; exact .nil
        | cons h _ ih =>
          cases hseen with
          | cons hh hs =>
            refine .cons ?_ (ih _ hs)
            cases hh with
            | computed => exact ⟨_, _, rfl, computed_stands _, h⟩
            | cached d hd =>
              obtain ⟨g1, g2⟩ := columns_fine hsh h
              obtain ⟨d', items, k1, k2, k3⟩ := accumulators_survive_the_cache json false _ g1 g2
              rw [k1] at hd
              obtain rfl := Except.ok.inj hd
              exact ⟨_, _, k2, k3, h⟩
      have h2 : Same (TupleCols lay)
          ((s2.map (fun i => seen[i]?)).run (meanVarArrays true false outputShape).mergeStage)
          ((s2.map (fun i => cols[i]?)).run (meanVarAnalyzer denseStats lay.cols).mergeStage) := by
        refine run_same _ _ _ _ (TupleCols lay) ⟨_, _, congrArg MeanVarAccumulator.tuple hcr,
          computed_stands _, hfresh⟩ ?_ ?_ (fun a b h => .ok _ _ h) s2
        · intro a acc ha i
          have hl := hst.length_eq
          by_cases hi : i < seen.length
          · have hi' : i < cols.length := hl ▸ hi
            rw [List.getElem?_eq_getElem hi, List.getElem?_eq_getElem hi']
            obtain ⟨r, k1, k2⟩ := fold_stand ha (.cons (hst.get hi hi') .nil)
            exact same_of_ok k1 k2
          · rw [List.getElem?_eq_none (by omega), List.getElem?_eq_none (by omega)]
            exact .ok _ _ ha
        · intro as accs h
          cases h with
          | nil => exact .error _
          | cons h hs =>
            obtain ⟨r, k1, k2⟩ := fold_stand h (hs.imp (fun _ _ h => h.stand))
            exact same_of_ok k1 k2
      rw [hrun] at h2
      cases hy : (s2.map (fun i => seen[i]?)).run (meanVarArrays true false outputShape).mergeStage with
      | error e => rw [hy] at h2; cases h2
      | ok acc =>
        rw [hy] at h2
        cases h2 with
        | ok _ _ h2 =>
          obtain ⟨x, arrays, rfl, hsx, hok, c, w, rfl, hc, hw⟩ := h2
          have he : (.meanVar (final.map MVCol.mean) (final.map MVCol.variance) : MVOut) =
              .meanVar means vars := Except.ok.inj hext
          obtain ⟨rfl, rfl⟩ := MVOut.meanVar.inj he
          refine ⟨_, _, by simpa using hok, by simp, ?_, hfinal⟩
          obtain ⟨x1, y1, h1, hx1, rfl⟩ := List.forall₂_cons_right_iff.1 hsx
          obtain ⟨x2, y2, h2, hx2, rfl⟩ := List.forall₂_cons_right_iff.1 hx1
          obtain ⟨x3, y3, h3, hx3, rfl⟩ := List.forall₂_cons_right_iff.1 hx2
          obtain ⟨x4, y4, h4, hx4, rfl⟩ := List.forall₂_cons_right_iff.1 hx3
          obtain rfl := List.forall₂_nil_right_iff.1 hx4
          simp only [meanVarArrays, extractMeanVar, bind, Except.bind, Bool.not_false, Bool.and_self,
            if_true, List.map_cons, List.map_nil, seqExcept, h2, h3, List.length_map]

/-! ## C82 -/

/-- The means and variances of all the data, column by column; a column without data has NaN or 0. -/
def MeansAndVariances (batches : List Batch) (means vars : List Num) : Prop :=
  ∀ j,
    (Spec.columnData batches j ≠ [] →
      means[j]? = some (some (Spec.mean (Spec.columnData batches j))) ∧
      vars[j]? = some (some (Spec.variance (Spec.columnData batches j)))) ∧
    (Spec.columnData batches j = [] →
      (∀ m, means[j]? = some m → m = none ∨ m = some 0) ∧
      (∀ v, vars[j]? = some v → v = none ∨ v = some 0))

/-- **C82** for `mean` and `var` of arrays of known shape, of any rank (also shape `()`, with
`reduce_instance_dims=True`): for all batches, all schedules of both stages, and whichever of the datasets'
accumulators are read from the cache, every stage succeeds and the output has that shape and holds the
population means and variances of the columns. Only the last dimension may be 0. -/
theorem mean_and_variance_of_arrays_through_the_cache (shape : List Nat)
    (hshape : ∀ i : Nat, shape[i]? = some 0 → i + 1 = shape.length) (json : JsonCodec Num)
    (s1 : List (Sched Batch)) (s2 : Sched Nat) (hv : ValidRun s1 s2)
    (hb : ∀ b ∈ allInputs s1, b.length = shape.prod) :
    ∃ accs : List (List (Nd Num)),
      Sched.runList (meanVarArrays true false (shape.map some)).accumulateStage
          (s1.map (Sched.map (batchArrays shape))) =
        .ok (accs.map (fun a => .tuple (a.map .array))) ∧
      ∀ seen, List.Forall₂ (MeanVarHolds json) accs seen →
        ∃ means vars : List Num, means.length = shape.prod ∧ vars.length = shape.prod ∧
          ((s2.map (fun i => seen[i]?)).run (meanVarArrays true false (shape.map some)).mergeStage >>=
              (meanVarArrays true false (shape.map some)).extract) =
            .ok [⟨shape, means⟩, ⟨shape, vars⟩] ∧
          MeansAndVariances (allInputs s1) means vars := by
  obtain ⟨accs, h1, h2⟩ := meanVar_layout (Layout.known shape) (fun _ _ => hshape) (shape.map some)
    (by simp [Layout.known]) json s1 s2 hv hb
  refine ⟨accs, h1, ?_⟩
  intro seen hseen
  obtain ⟨means, vars, k1, k2, k3, k4⟩ := h2 seen hseen
  obtain ⟨means', vars', g1, g2⟩ :=
    mean_var_schedule_independent (Layout.known shape).cols s1 s2 hv (fun _ _ => trivial)
  rw [k4] at g1
  obtain ⟨rfl, rfl⟩ := MVOut.meanVar.inj (Except.ok.inj g1)
  exact ⟨means, vars, k1, k2.trans k1, k3, g2⟩

/-- **C82** for `mean` and `var` of vectors of unknown length, which may differ between batches. -/
theorem mean_and_variance_of_vectors_through_the_cache (json : JsonCodec Num)
    (s1 : List (Sched Batch)) (s2 : Sched Nat) (hv : ValidRun s1 s2) :
    ∃ accs : List (List (Nd Num)),
      Sched.runList (meanVarArrays true false [none]).accumulateStage
          (s1.map (Sched.map (fun b => batchArrays [b.length] b))) =
        .ok (accs.map (fun a => .tuple (a.map .array))) ∧
      ∀ seen, List.Forall₂ (MeanVarHolds json) accs seen →
        ∃ means vars : List Num, vars.length = means.length ∧
          ((s2.map (fun i => seen[i]?)).run (meanVarArrays true false [none]).mergeStage >>=
              (meanVarArrays true false [none]).extract) =
            .ok [⟨[means.length], means⟩, ⟨[means.length], vars⟩] ∧
          MeansAndVariances (allInputs s1) means vars := by
  obtain ⟨accs, h1, h2⟩ := meanVar_layout Layout.vector
    (by intro n _ i hi; cases i with
        | zero => rfl
        | succ i => simp [Layout.vector] at hi) [none]
    (by simp [Layout.vector]) json s1 s2 hv (fun _ _ => trivial)
  refine ⟨accs, h1, ?_⟩
  intro seen hseen
  obtain ⟨means, vars, k1, k2, k3, k4⟩ := h2 seen hseen
  obtain ⟨means', vars', g1, g2⟩ :=
    mean_var_schedule_independent (Layout.vector).cols s1 s2 hv (fun _ _ => trivial)
  rw [k4] at g1
  obtain ⟨rfl, rfl⟩ := MVOut.meanVar.inj (Except.ok.inj g1)
  exact ⟨means, vars, k2, k3, g2⟩

/-! ## The cache changes the outcome -/

/-- The accumulator of a dataset with one batch of two instances of shape `(2, 3)`. -/
def someRows : List (Nd Num) :=
  [⟨[2, 3], List.replicate 6 (some 2)⟩, ⟨[2, 3], [some 1, some 2, some 3, some 4, some 5, some 6]⟩,
   ⟨[2, 3], List.replicate 6 (some 0)⟩, ⟨[2, 3], List.replicate 6 (some 1)⟩]

/-- The accumulator of a dataset without instances, where the first dimension is unknown. -/
def noRows : List (Nd Num) :=
  [⟨[], [some 0]⟩, ⟨[0, 3], []⟩, ⟨[0, 3], []⟩, ⟨[], [some 0]⟩]

/-- `noRows` is the accumulator that the stage of a dataset without batches returns. -/
theorem noRows_created :
    Sched.run (meanVarArrays true false [none, some 3]).accumulateStage .create =
      .ok (.tuple (noRows.map .array)) := rfl

/-- What is read after `noRows` was written has lost the dimension 3. -/
theorem noRows_read (json : JsonCodec Num) :
    decodeNumpy json false (encodeNumpy json noRows) =
      .ok (.objects ⟨[4], [.num (some 0), .list [], .list [], .num (some 0)]⟩) := by
  simp only [decodeNumpy, encodeNumpy, json.law, bind, Except.bind, noRows]
  rfl

/-- **C82 fails** for elementwise statistics of rank 2 or more with an unknown dimension: the mean of a
dataset and an empty dataset is computed without the cache, but raises an error when the accumulator of
the empty dataset is read from the cache. -/
theorem cached_empty_dataset_breaks_mean (json : JsonCodec Num) :
    ∃ (d : Decoded Num) (s : Sched Nat),
      decodeNumpy json false (encodeNumpy json noRows) = .ok d ∧
      (((s.map (fun i => [MeanVarAccumulator.tuple (someRows.map .array),
            .tuple (noRows.map .array)][i]?)).run (meanVarStage true false [none, some 3]) >>=
          (meanVarStage true false [none, some 3]).extract).toOption =
        some [⟨[2, 3], [some 1, some 2, some 3, some 4, some 5, some 6]⟩,
          ⟨[2, 3], List.replicate 6 (some 0)⟩]) ∧
      ((s.map (fun i => [MeanVarAccumulator.tuple (someRows.map .array), .cached d][i]?)).run
          (meanVarStage true false [none, some 3])).toOption = none := by
  refine ⟨_, .add (.add .create 0) 1, noRows_read json, ?_, ?_⟩
  · decide +kernel
  · decide +kernel

/-! ## Examples -/

/-- Two datasets of vectors of different lengths, with a NaN, in several batches. -/
example : ValidRun (In := Batch)
    [.add (.add .create [[some 1, some 3]]) [[some 2], [some 5]], .merge [.create, .add .create [[none], [some 7]]]]
    (.merge [.add .create 1, .compact (.add .create 0)]) where
  merges1 := by
    intro s hs
    simp only [List.mem_cons, List.not_mem_nil, or_false] at hs
    rcases hs with rfl | rfl
    · exact .add (.add .create)
    · refine .merge (by simp) ?_
      intro s hs
      simp only [List.mem_cons, List.not_mem_nil, or_false] at hs
      rcases hs with rfl | rfl
      · exact .create
      · exact .add .create
  merges2 := by
    refine .merge (by simp) ?_
    intro s hs
    simp only [List.mem_cons, List.not_mem_nil, or_false] at hs
    rcases hs with rfl | rfl
    · exact .add .create
    · exact .compact (.add .create)
  once := by decide

/-- Arrays of shape `(2, 3)` meet the condition on shapes, and so do arrays of shape `(2, 0)`. -/
example : (∀ i : Nat, ([2, 3] : List Nat)[i]? = some 0 → i + 1 = 2) ∧
    (∀ i : Nat, ([2, 0] : List Nat)[i]? = some 0 → i + 1 = 2) := by
  constructor
  · intro i hi
    match i with
    | 0 => simp at hi
    | 1 => simp at hi
    | i + 2 => simp at hi
  · intro i hi
    match i with
    | 0 => simp at hi
    | 1 => rfl
    | i + 2 => simp at hi

/-- The program on arrays, from the cache, on two datasets. -/
example (json : JsonCodec Num) :
    ∃ d, decodeNumpy json false (encodeNumpy json (batchArrays [2] [[some 1, some 3], [some 5]])) = .ok d ∧
      ((Sched.run (meanVarStage true false [none])
          (.add (.add .create (some (.cached d))) (some (.tuple ((batchArrays [1] [[some 5]]).map .array)))) >>=
        (meanVarStage true false [none]).extract).toOption =
        some [⟨[2], [some 3, some 5]⟩, ⟨[2], [some (8 / 3), some 0]⟩]) := by
  refine ⟨_, by simp only [decodeNumpy, encodeNumpy, json.law]; rfl, ?_⟩
  decide +kernel

end TFT.Coders
