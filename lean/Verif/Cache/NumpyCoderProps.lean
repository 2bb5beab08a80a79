import Verif.Cache.NumpyCoder
import Verif.Cache.RunProps
import Verif.Combine.CovarianceProps

/-!
# C82: accumulators read from the cache

Every accumulator of the combiners that use `JsonNumpyCacheCoder` is merged from the cache as if it had
not been written and read.
-/

namespace TFT.Coders

open TFT

/-! ## Specification -/

/-- An array with as many entries as its shape says, of which only the last dimension may be 0. -/
structure Solid {R : Type} (a : Nd R) : Prop where
  entries : a.data.length = a.shape.prod
  nonempty : ∀ i : Nat, a.shape[i]? = some 0 → i + 1 = a.shape.length

/-- Arrays that all have the same shape, or of which two differ in the first dimension (as an array of
rank 0 differs from all others). -/
def Distinct {R : Type} (acc : List (Nd R)) : Prop :=
  (∃ sh, ∀ a ∈ acc, a.shape = sh) ∨ ∃ a ∈ acc, ∃ b ∈ acc, a.shape.head? ≠ b.shape.head?

/-- The elements of an accumulator stand for these arrays. -/
def StandsFor {R : Type} (items : List (Item R)) (arrays : List (Nd R)) : Prop :=
  List.Forall₂ (fun x a => x.asArray = .ok a) items arrays

/-- The shape up to the first dimension that is 0. -/
def untilZero : List Nat → List Nat
  | [] => []
  | 0 :: _ => [0]
  | (n + 1) :: sh => (n + 1) :: untilZero sh

/-! ## numpy -/

section numpy

variable {R : Type}

theorem chunks_length {α : Type} (n k : Nat) (data : List α) : (chunks n k data).length = n := by
  simp [chunks]

theorem chunks_succ {α : Type} (n k : Nat) (data : List α) :
    chunks (n + 1) k data = data.take k :: chunks n k (data.drop k) := by
  simp only [chunks, List.range_succ_eq_map, List.map_cons, List.map_map, Nat.zero_mul, List.drop_zero,
    List.cons.injEq, true_and]
  apply List.map_congr_left
  intro i _
  simp only [Function.comp_apply, List.drop_drop]
  congr 2
  rw [Nat.succ_mul]; omega

theorem chunks_flatten {α : Type} (n k : Nat) (data : List α) (h : data.length = n * k) :
    (chunks n k data).flatten = data := by
  induction n generalizing data with
  | zero =>
    have : data = [] := by simpa using h
    subst this; simp [chunks]
  | succ n ih =>
    rw [chunks_succ, List.flatten_cons, ih _ (by rw [List.length_drop, h, Nat.succ_mul]; omega),
      List.take_append_drop]

theorem mem_chunks_length {α : Type} (n k : Nat) (data : List α) (h : data.length = n * k) :
    ∀ c ∈ chunks n k data, c.length = k := by
  induction n generalizing data with
  | zero => intro c hc; simp [chunks] at hc
  | succ n ih =>
    intro c hc
    rw [chunks_succ] at hc
    rcases List.mem_cons.1 hc with rfl | hc
    · rw [List.length_take, h, Nat.succ_mul]; omega
    · exact ih _ (by rw [List.length_drop, h, Nat.succ_mul]; omega) c hc

theorem chunks_of_flatten {α : Type} (k : Nat) (ls : List (List α)) (h : ∀ l ∈ ls, l.length = k) :
    chunks ls.length k ls.flatten = ls := by
  induction ls with
  | nil => simp [chunks]
  | cons l ls ih =>
    have hl : l.length = k := h l (by simp)
    rw [List.length_cons, chunks_succ, List.flatten_cons, List.take_left' hl, List.drop_left' hl,
      ih (fun l hl => h l (by simp [hl]))]

theorem npShapes_eq (xs : List (Json R)) (ss : List (List Nat))
    (h : List.Forall₂ (fun x s => npShape x = .ok s) xs ss) : npShapes xs = .ok ss := by
  induction h with
  | nil => rfl
  | cons h _ ih => simp [npShapes, h, ih, bind, Except.bind]

theorem numbersList_eq (xs : List (Json R)) : numbersList xs = (xs.map numbers).flatten := by
  induction xs with
  | nil => rfl
  | cons x xs ih => simp [numbersList, ih]

theorem listShape_same (n : Nat) (s : List Nat) :
    listShape (List.replicate (n + 1) s) = .ok ((n + 1) :: s) := by
  simp [listShape, List.replicate_succ]

theorem npShape_list (xs : List (Json R)) (s : List Nat) (hx : xs ≠ [])
    (h : ∀ x ∈ xs, npShape x = .ok s) : npShape (.list xs) = .ok (xs.length :: s) := by
  have h1 : npShapes xs = .ok (List.replicate xs.length s) := by
    refine npShapes_eq _ _ ?_
    clear hx
    induction xs with
    | nil => simp
    | cons x xs ih =>
      rw [List.length_cons, List.replicate_succ]
      exact .cons (h x (by simp)) (ih (fun y hy => h y (by simp [hy])))
  obtain ⟨n, hn⟩ : ∃ n, xs.length = n + 1 := ⟨xs.length - 1, by
    have := List.length_pos_of_ne_nil hx; omega⟩
  simp only [npShape, h1, bind, Except.bind]
  rw [hn, listShape_same]

theorem tolist_shape (sh : List Nat) (data : List R) (h : data.length = sh.prod) :
    npShape (tolist sh data) = .ok (untilZero sh) ∧ numbers (tolist sh data) = data := by
  induction sh generalizing data with
  | nil =>
    obtain ⟨x, rfl⟩ := List.length_eq_one_iff.1 (by simpa using h)
    simp [tolist, npShape, numbers, untilZero]
  | cons n sh ih =>
    have hc := mem_chunks_length n sh.prod data (by simpa using h)
    refine ⟨?_, ?_⟩
    · cases n with
      | zero => simp [tolist, chunks, npShape, npShapes, listShape, untilZero, bind, Except.bind]
      | succ n =>
        have := npShape_list ((chunks (n + 1) sh.prod data).map (tolist sh)) (untilZero sh)
          (by simp [chunks_succ]) (by
            intro x hx
            obtain ⟨c, hcm, rfl⟩ := List.mem_map.1 hx
            exact (ih c (hc c hcm)).1)
        simpa [tolist, chunks_length, untilZero] using this
    · simp only [tolist, numbers, numbersList_eq, List.map_map]
      rw [List.map_congr_left (g := id) (by
        intro c hcm
        exact (ih c (hc c hcm)).2), List.map_id, chunks_flatten n sh.prod data (by simpa using h)]

theorem untilZero_prod (sh : List Nat) : (untilZero sh).prod = sh.prod := by
  induction sh with
  | nil => rfl
  | cons n sh ih => cases n <;> simp [untilZero, ih]

theorem untilZero_eq {sh : List Nat} :
    untilZero sh = sh ↔ ∀ i : Nat, sh[i]? = some 0 → i + 1 = sh.length := by
  induction sh with
  | nil => simp [untilZero]
  | cons n sh ih =>
    cases n with
    | zero =>
      simp only [untilZero, List.cons.injEq, true_and]
      constructor
      · rintro h i hi
        cases i with
        | zero => simp [← h]
        | succ i => simp [← h] at hi
      · intro h
        have := h 0 (by simp)
        simp only [List.length_cons] at this
        exact (List.length_eq_zero_iff.1 (by omega)).symm
    | succ n =>
      simp only [untilZero, List.cons.injEq, true_and, ih]
      constructor
      · rintro h i hi
        cases i with
        | zero => simp at hi
        | succ i =>
          have := h i (by simpa using hi)
          simp only [List.length_cons]; omega
      · intro h i hi
        have := h (i + 1) (by simpa using hi)
        simp only [List.length_cons] at this; omega

theorem npArray_tolist (a : Nd R) (h : a.data.length = a.shape.prod) :
    npArray (tolist a.shape a.data) = .ok ⟨untilZero a.shape, a.data⟩ := by
  obtain ⟨h1, h2⟩ := tolist_shape a.shape a.data h
  simp [npArray, h1, h2, bind, Except.bind]

theorem commonPrefix_self (s : List Nat) : commonPrefix s s = s := by
  induction s with
  | nil => rfl
  | cons a s ih => simp [commonPrefix, ih]

theorem commonShape_replicate (n : Nat) (s : List Nat) :
    commonShape (List.replicate (n + 1) s) = s := by
  induction n with
  | zero => rfl
  | succ n ih =>
    rw [List.replicate_succ, List.replicate_succ, commonShape]
    · rw [← List.replicate_succ, ih, commonPrefix_self]
    · simp

theorem commonPrefix_head {s t : List Nat} (h : commonPrefix s t ≠ []) :
    s.head? = (commonPrefix s t).head? ∧ t.head? = (commonPrefix s t).head? := by
  match s, t with
  | [], _ => simp [commonPrefix] at h
  | a :: s, [] => simp [commonPrefix] at h
  | a :: s, b :: t =>
    by_cases hab : a = b
    · subst hab; simp [commonPrefix]
    · simp [commonPrefix, hab] at h

theorem commonShape_head {ss : List (List Nat)} (h : commonShape ss ≠ []) :
    ∀ s ∈ ss, s.head? = (commonShape ss).head? := by
  induction ss with
  | nil => simp
  | cons s ss ih =>
    cases ss with
    | nil => intro t ht; simp at ht; subst ht; rfl
    | cons t ss =>
      rw [commonShape] at h ⊢
      · obtain ⟨h1, h2⟩ := commonPrefix_head h
        have hne : commonShape (t :: ss) ≠ [] := by
          intro h0; rw [h0] at h; cases s <;> simp [commonPrefix] at h
        intro u hu
        rcases List.mem_cons.1 hu with rfl | hu
        · exact h1
        · rw [ih hne u hu, h2]
      · simp
      · simp

theorem forall₂_mem_left {α β : Type} {r : α → β → Prop} {l : List α} {m : List β}
    (h : List.Forall₂ r l m) {x : α} (hx : x ∈ l) : ∃ y ∈ m, r x y := by
  induction h with
  | nil => simp at hx
  | cons h1 _ ih =>
    rcases List.mem_cons.1 hx with rfl | hx
    · exact ⟨_, by simp, h1⟩
    · obtain ⟨y, hy, h⟩ := ih hx
      exact ⟨y, by simp [hy], h⟩

theorem objectShapes_eq (xs : List (Json R)) : objectShapes xs = xs.map objectShape := by
  induction xs with
  | nil => rfl
  | cons x xs ih => simp [objectShapes, ih]

mutual

theorem objectShape_eq : ∀ (j : Json R) (s : List Nat), npShape j = .ok s →
    objectShape j = s ∧ objectsAt s.length j = (numbers j).map Json.num
  | .num x, s, h => by
    simp only [npShape, Except.ok.injEq] at h
    subst h
    simp [objectShape, objectsAt, numbers]
  | .list xs, s, h => by
    simp only [npShape] at h
    obtain ⟨ss, h1, h2⟩ := bind_ok_iff.1 h
    have h3 := objectShapes_list xs ss h1
    cases ss with
    | nil =>
      simp only [listShape, Except.ok.injEq] at h2
      subst h2
      have : xs = [] := by
        have := h3.length_eq; simpa using this
      subst this
      simp [objectShape, objectShapes, commonShape, objectsAt, numbers, numbersList]
    | cons t ts =>
      simp only [listShape] at h2
      split at h2
      · rename_i hall
        simp only [Except.ok.injEq] at h2
        subst h2
        have hts : t :: ts = List.replicate (ts.length + 1) t := by
          rw [List.replicate_succ, List.cons.injEq]
          refine ⟨rfl, List.eq_replicate_iff.2 ⟨rfl, ?_⟩⟩
          intro u hu
          simpa using List.all_eq_true.1 hall u hu
        have hlen : xs.length = ts.length + 1 := by simpa using h3.length_eq
        have hsh : objectShapes xs = t :: ts := by
          rw [objectShapes_eq]
          have : List.Forall₂ (fun x s => objectShape x = s) xs (t :: ts) := h3.imp (fun _ _ h => h.1)
          rw [← List.forall₂_eq_eq_eq, List.forall₂_map_left_iff]
          exact this
        refine ⟨?_, ?_⟩
        · rw [objectShape, hsh, hts, commonShape_replicate, hlen]
        · rw [List.length_cons, objectsAt, numbers, numbersList_eq, List.map_flatten, List.map_map,
            List.flatMap_def]
          congr 1
          rw [hts] at h3
          apply List.map_congr_left
          intro x hx
          obtain ⟨u, hu, hx'⟩ := forall₂_mem_left h3 hx
          obtain rfl := List.eq_of_mem_replicate hu
          exact hx'.2
      · cases h2

theorem objectShapes_list : ∀ (xs : List (Json R)) (ss : List (List Nat)), npShapes xs = .ok ss →
    List.Forall₂ (fun x s => objectShape x = s ∧ objectsAt s.length x = (numbers x).map Json.num) xs ss
  | [], ss, h => by
    simp only [npShapes, Except.ok.injEq] at h
    subst h; exact .nil
  | x :: xs, ss, h => by
    simp only [npShapes] at h
    obtain ⟨s, h1, h⟩ := bind_ok_iff.1 h
    obtain ⟨ss', h2, h⟩ := bind_ok_iff.1 h
    simp only [Except.ok.injEq] at h
    subst h
    exact .cons (objectShape_eq x s h1) (objectShapes_list xs ss' h2)

end

theorem mapM_number (xs : List R) : (xs.map Json.num).mapM Json.number? = some xs := by
  induction xs with
  | nil => rfl
  | cons x xs ih => simp [List.mapM_cons, Json.number?, ih]

theorem chunks_map {α β : Type} (f : α → β) (n k : Nat) (data : List α) :
    chunks n k (data.map f) = (chunks n k data).map (List.map f) := by
  simp [chunks, List.map_take, List.map_drop]

theorem untilZero_head (sh : List Nat) : (untilZero sh).head? = sh.head? := by
  cases sh with
  | nil => rfl
  | cons n sh => cases n <;> rfl

/-- Arrays of the same shape become one array. -/
theorem decode_same (object : Bool) (acc : List (Nd R)) (sh : List Nat)
    (hw : ∀ a ∈ acc, a.data.length = a.shape.prod) (hsh : ∀ a ∈ acc, a.shape = sh)
    (json : JsonCodec R) :
    ∃ d items, decodeNumpy json object (encodeNumpy json acc) = .ok d ∧ d.items = .ok items ∧
      StandsFor items (acc.map (fun a => ⟨untilZero a.shape, a.data⟩)) ∧
      (object = false → items = acc.map (fun a => .array ⟨untilZero a.shape, a.data⟩)) := by
  cases acc with
  | nil =>
    cases object with
    | false =>
      refine ⟨.array ⟨[0], []⟩, [], ?_, ?_, .nil, fun _ => rfl⟩
      · simp [decodeNumpy, encodeNumpy, json.law, bind, Except.bind, npArray, npShape, npShapes,
          listShape, numbers, numbersList]
      · simp [Decoded.items, chunks]
    | true =>
      refine ⟨.objects ⟨[0], []⟩, [], ?_, ?_, .nil, fun h => by cases h⟩
      · simp [decodeNumpy, encodeNumpy, json.law, bind, Except.bind, npObjectArray, objectShape,
          objectShapes, commonShape, objectsAt]
      · simp [Decoded.items]
  | cons a0 rest =>
    generalize hacc : a0 :: rest = acc at *
    have hne : acc ≠ [] := by rw [← hacc]; simp
    have h1 : npShape (.list (acc.map (fun a => tolist a.shape a.data)))
        = .ok (acc.length :: untilZero sh) := by
      have := npShape_list (acc.map (fun a => tolist a.shape a.data)) (untilZero sh)
        (by simpa using hne) (by
          intro x hx
          obtain ⟨a, ha, rfl⟩ := List.mem_map.1 hx
          rw [(tolist_shape a.shape a.data (hw a ha)).1, hsh a ha])
      simpa using this
    have h2 : numbers (.list (acc.map (fun a => tolist a.shape a.data)))
        = (acc.map Nd.data).flatten := by
      simp only [numbers, numbersList_eq, List.map_map]
      congr 1
      apply List.map_congr_left
      intro a ha
      exact (tolist_shape a.shape a.data (hw a ha)).2
    have h3 : chunks acc.length (untilZero sh).prod (acc.map Nd.data).flatten = acc.map Nd.data := by
      have := chunks_of_flatten (untilZero sh).prod (acc.map Nd.data) (by
        intro l hl
        obtain ⟨a, ha, rfl⟩ := List.mem_map.1 hl
        rw [untilZero_prod, hw a ha, hsh a ha])
      simpa using this
    cases object with
    | false =>
      refine ⟨.array ⟨acc.length :: untilZero sh, (acc.map Nd.data).flatten⟩,
        acc.map (fun a => .array ⟨untilZero a.shape, a.data⟩), ?_, ?_, ?_, fun _ => rfl⟩
      · simp only [decodeNumpy, encodeNumpy, json.law, bind, Except.bind, npArray, h1, h2]
        rfl
      · simp only [Decoded.items, h3, List.map_map]
        congr 1
        apply List.map_congr_left
        intro a ha
        simp [hsh a ha]
      · rw [StandsFor, List.forall₂_map_left_iff, List.forall₂_map_right_iff, List.forall₂_same]
        intro a _; rfl
    | true =>
      obtain ⟨h4, h5⟩ := objectShape_eq _ _ h1
      rw [h2] at h5
      have hd : decodeNumpy json true (encodeNumpy json acc) = .ok (.objects
          ⟨acc.length :: untilZero sh, (acc.map Nd.data).flatten.map Json.num⟩) := by
        simp only [decodeNumpy, encodeNumpy, json.law, bind, Except.bind, npObjectArray, h4, h5]
        rfl
      cases hz : untilZero sh with
      | nil =>
        rw [hz] at hd
        refine ⟨_, _, hd, rfl, ?_, fun h => by cases h⟩
        rw [StandsFor, List.map_map, List.forall₂_map_left_iff, List.forall₂_map_right_iff]
        have hs0 : ∀ a ∈ acc, ∃ x, a.data = [x] ∧ untilZero a.shape = [] := by
          intro a ha
          have := hw a ha
          rw [← untilZero_prod, hsh a ha, hz] at this
          obtain ⟨x, hx⟩ := List.length_eq_one_iff.1 (by simpa using this)
          exact ⟨x, hx, by rw [hsh a ha, hz]⟩
        clear hd h1 h2 h3 h4 h5 hacc hne hsh hw
        induction acc with
        | nil => simp
        | cons a acc ih =>
          obtain ⟨x, hx, hs⟩ := hs0 a (by simp)
          rw [List.map_cons, List.flatten_cons, hx, List.singleton_append]
          refine .cons ?_ (ih (fun b hb => hs0 b (by simp [hb])))
          simp [Item.asArray, npArray, npShape, numbers, bind, Except.bind, hs, hx]
      | cons m t =>
        rw [hz] at hd h3
        refine ⟨_, _, hd, rfl, ?_, fun h => by cases h⟩
        rw [chunks_map, h3, StandsFor, List.map_map, List.forall₂_map_left_iff, List.forall₂_map_left_iff,
          List.forall₂_map_right_iff, List.forall₂_same]
        intro a ha
        simp only [Function.comp_apply, Item.asArray, mapM_number, hsh a ha, hz]

/-- Arrays that differ in the first dimension become Python lists. -/
theorem decode_different (object : Bool) (acc : List (Nd R))
    (hw : ∀ a ∈ acc, a.data.length = a.shape.prod) (a b : Nd R) (ha : a ∈ acc) (hb : b ∈ acc)
    (hab : a.shape.head? ≠ b.shape.head?) (json : JsonCodec R) :
    ∃ d items, decodeNumpy json object (encodeNumpy json acc) = .ok d ∧ d.items = .ok items ∧
      StandsFor items (acc.map (fun a => ⟨untilZero a.shape, a.data⟩)) ∧
      items = acc.map (fun a => .object (tolist a.shape a.data)) := by
  have hs : npShapes (acc.map (fun a => tolist a.shape a.data))
      = .ok (acc.map (fun a => untilZero a.shape)) := by
    refine npShapes_eq _ _ ?_
    rw [List.forall₂_map_left_iff, List.forall₂_map_right_iff, List.forall₂_same]
    intro a ha
    exact (tolist_shape a.shape a.data (hw a ha)).1
  have h1 : ∃ e, npArray (.list (acc.map (fun a => tolist a.shape a.data))) = .error e := by
    simp only [npArray, npShape, hs, bind, Except.bind]
    cases acc with
    | nil => simp at ha
    | cons a0 rest =>
      simp only [List.map_cons, listShape, List.length_map]
      by_cases hall : ((rest.map (fun a => untilZero a.shape)).all
          (fun t => t == untilZero a0.shape)) = true
      · exfalso
        have key : ∀ c ∈ a0 :: rest, c.shape.head? = a0.shape.head? := by
          intro c hc
          rcases List.mem_cons.1 hc with rfl | hc
          · rfl
          · have := List.all_eq_true.1 hall (untilZero c.shape)
              (List.mem_map.2 ⟨c, hc, rfl⟩)
            rw [← untilZero_head, ← untilZero_head a0.shape]
            simp only [beq_iff_eq] at this
            rw [this]
        exact hab ((key a ha).trans (key b hb).symm)
      · rw [if_neg hall]; exact ⟨_, rfl⟩
  have h2 : objectShapes (acc.map (fun a => tolist a.shape a.data))
      = acc.map (fun a => untilZero a.shape) := by
    rw [objectShapes_eq, List.map_map]
    apply List.map_congr_left
    intro c hc
    exact (objectShape_eq _ _ (tolist_shape c.shape c.data (hw c hc)).1).1
  have h3 : commonShape (acc.map (fun a => untilZero a.shape)) = [] := by
    by_contra hne
    have hh := commonShape_head hne
    have e1 := hh (untilZero a.shape) (List.mem_map.2 ⟨a, ha, rfl⟩)
    have e2 := hh (untilZero b.shape) (List.mem_map.2 ⟨b, hb, rfl⟩)
    rw [untilZero_head] at e1 e2
    exact hab (e1.trans e2.symm)
  have h4 : npObjectArray (.list (acc.map (fun a => tolist a.shape a.data)))
      = ⟨[acc.length], acc.map (fun a => tolist a.shape a.data)⟩ := by
    simp only [npObjectArray, objectShape, h2, h3, List.length_map, List.length_cons, List.length_nil,
      objectsAt, Nd.mk.injEq, true_and]
    exact List.flatMap_singleton' _
  have h5 : decodeNumpy json object (encodeNumpy json acc)
      = .ok (.objects ⟨[acc.length], acc.map (fun a => tolist a.shape a.data)⟩) := by
    obtain ⟨e, he⟩ := h1
    simp only [decodeNumpy, encodeNumpy, json.law, bind, Except.bind, he, h4, ite_self]
  refine ⟨_, _, h5, rfl, ?_, by simp [List.map_map]⟩
  rw [StandsFor, List.map_map, List.forall₂_map_left_iff, List.forall₂_map_right_iff, List.forall₂_same]
  intro c hc
  exact npArray_tolist c (hw c hc)

/-- What is read from the cache, for all arrays: the entries are those written, and the shape ends at
the first dimension that is 0. -/
theorem decode_encode_arrays (object : Bool) (acc : List (Nd R))
    (hw : ∀ a ∈ acc, a.data.length = a.shape.prod) (hd : Distinct acc) (json : JsonCodec R) :
    ∃ d items, decodeNumpy json object (encodeNumpy json acc) = .ok d ∧ d.items = .ok items ∧
      StandsFor items (acc.map (fun a => ⟨untilZero a.shape, a.data⟩)) := by
  rcases hd with ⟨sh, hsh⟩ | ⟨a, ha, b, hb, hab⟩
  · obtain ⟨d, items, h1, h2, h3, _⟩ := decode_same object acc sh hw hsh json
    exact ⟨d, items, h1, h2, h3⟩
  · obtain ⟨d, items, h1, h2, h3, _⟩ := decode_different object acc hw a b ha hb hab json
    exact ⟨d, items, h1, h2, h3⟩

/-- **C82**, the coder: an accumulator is read back as written, by either coder. -/
theorem accumulators_survive_the_cache (json : JsonCodec R) (object : Bool) (acc : List (Nd R))
    (hs : ∀ a ∈ acc, Solid a) (hd : Distinct acc) :
    ∃ d items, decodeNumpy json object (encodeNumpy json acc) = .ok d ∧ d.items = .ok items ∧
      StandsFor items acc := by
  obtain ⟨d, items, h1, h2, h3⟩ :=
    decode_encode_arrays object acc (fun a ha => (hs a ha).entries) hd json
  refine ⟨d, items, h1, h2, ?_⟩
  have : acc.map (fun a : Nd R => (⟨untilZero a.shape, a.data⟩ : Nd R)) = acc := by
    conv_rhs => rw [← List.map_id acc]
    apply List.map_congr_left
    intro a ha
    rw [untilZero_eq.2 (hs a ha).nonempty]
    rfl
  rwa [this] at h3

end numpy

/-! ## Combiners -/

section npCombiner

variable {R : Type} [DecidableEq R]

theorem seqExcept_map_ok {α β : Type} (f : α → Except Err β) (g : α → β) (l : List α)
    (h : ∀ x ∈ l, f x = .ok (g x)) : seqExcept (l.map f) = .ok (l.map g) := by
  induction l with
  | nil => rfl
  | cons x l ih =>
    simp [seqExcept, h x (by simp), ih (fun y hy => h y (by simp [hy])), bind, Except.bind]

theorem zipLen_map {α β : Type} (f : α → β) (ls : List (List α)) :
    zipLen (ls.map (List.map f)) = zipLen ls := by
  induction ls with
  | nil => rfl
  | cons l ls ih =>
    cases ls with
    | nil => simp [zipLen]
    | cons m ls => simp only [List.map_cons, zipLen] at ih ⊢; rw [ih]; simp

theorem zipStar_map {α β : Type} (f : α → β) (ls : List (List α)) :
    zipStar (ls.map (List.map f)) = (zipStar ls).map (List.map f) := by
  simp only [zipStar, zipLen_map, List.map_map]
  apply List.map_congr_left
  intro j _
  simp only [Function.comp_apply, List.map_filterMap, List.filterMap_map]
  congr 1
  funext l
  simp

theorem nonDefaults_arrays (nan : Bool) (d : R) (accs : List (List (Nd R)))
    (h : ∀ acc ∈ accs, acc ≠ []) :
    nonDefaults nan d (accs.map (List.map Item.array))
      = .ok ((accs.filter (fun acc => !isDefaultAcc d acc)).map (List.map Item.array)) := by
  induction accs with
  | nil => rfl
  | cons acc accs ih =>
    have h1 : isDefaultItems nan d (acc.map Item.array) = .ok (isDefaultAcc d acc) := by
      cases acc with
      | nil => exact absurd rfl (h [] (by simp))
      | cons a acc => rfl
    simp only [List.map_cons, nonDefaults, h1, ih (fun a ha => h a (by simp [ha])), bind, Except.bind,
      List.filter_cons]
    cases isDefaultAcc d acc <;> simp

omit [DecidableEq R] in
theorem reduceItems_arrays (op : R → R → R) (xs : List (Nd R)) :
    reduceItems op (xs.map Item.array) = Nd.reduce0 op xs := by
  have : seqExcept ((xs.map Item.array).map Item.asArray) = .ok xs := by
    rw [List.map_map]
    exact (seqExcept_map_ok (Item.asArray ∘ Item.array) id xs (fun x _ => rfl)).trans
      (by rw [List.map_id])
  simp only [reduceItems, this, bind, Except.bind]

theorem npMerge_arrays (op : R → R → R) (nan : Bool) (d : R) (shapes : List (Option (List Nat)))
    (cast : R → R) (xs : List (Accumulator R)) (accs : List (List (Nd R)))
    (h : List.Forall₂ (fun x acc => x.items = .ok (acc.map Item.array) ∧ acc ≠ []) xs accs) :
    npMerge op nan d shapes xs = (npCombiner op d shapes cast).merge accs := by
  have h1 : seqExcept (xs.map Accumulator.items) = .ok (accs.map (List.map Item.array)) := by
    induction h with
    | nil => rfl
    | cons h _ ih => simp [seqExcept, h.1, ih, bind, Except.bind]
  have h2 : ∀ acc ∈ accs, acc ≠ [] := by
    intro acc hacc
    obtain ⟨x, _, hx⟩ := forall₂_mem_left h.flip hacc
    exact hx.2
  simp only [npMerge, h1, nonDefaults_arrays nan d accs h2, bind, Except.bind, npCombiner,
    List.isEmpty_map]
  split
  · rfl
  · rw [zipStar_map, List.map_map]
    congr 1
    apply List.map_congr_left
    intro xs _
    exact reduceItems_arrays op xs

theorem seqExcept_length {α : Type} {l : List (Except Err α)} {r : List α}
    (h : seqExcept l = .ok r) : r.length = l.length := by
  induction l generalizing r with
  | nil => simp only [seqExcept, Except.ok.injEq] at h; subst h; rfl
  | cons x l ih =>
    simp only [seqExcept] at h
    obtain ⟨y, _, h⟩ := bind_ok_iff.1 h
    obtain ⟨ys, h2, h⟩ := bind_ok_iff.1 h
    simp only [Except.ok.injEq] at h
    subst h
    simp [ih h2]

theorem zipLen_pos {α : Type} (ls : List (List α)) (hne : ls ≠ []) (h : ∀ l ∈ ls, l ≠ []) :
    0 < zipLen ls := by
  induction ls with
  | nil => exact absurd rfl hne
  | cons l ls ih =>
    have hl : 0 < l.length := List.length_pos_of_ne_nil (h l (by simp))
    cases ls with
    | nil => exact hl
    | cons m ls =>
      simp only [zipLen]
      exact Nat.lt_min.2 ⟨hl, ih (by simp) (fun x hx => h x (by simp [hx]))⟩

theorem np_merge_nonempty (op : R → R → R) (d : R) (shapes : List (Option (List Nat)))
    (hsh : shapes ≠ []) (cast : R → R) (accs : List (List (Nd R))) (h : ∀ acc ∈ accs, acc ≠ [])
    (r : List (Nd R)) (hr : (npCombiner op d shapes cast).merge accs = .ok r) : r ≠ [] := by
  simp only [npCombiner] at hr
  split at hr
  · simp only [Except.ok.injEq] at hr; subst hr; simpa using hsh
  · rename_i hne
    have hl := seqExcept_length hr
    have := zipLen_pos (accs.filter (fun acc => !isDefaultAcc d acc)) (by simpa using hne)
      (fun l hl => h l (List.mem_of_mem_filter hl))
    intro h0
    subst h0
    simp only [List.length_nil, List.length_map, zipStar, List.length_range] at hl
    omega

/-- The accumulator is this list of arrays, or what is read from the cache after it was written. -/
inductive Holds (json : JsonCodec R) (object : Bool) (arrays : List (Nd R)) : Accumulator R → Prop
  | computed : Holds json object arrays (.computed arrays)
  | cached (d : Decoded R) (h : decodeNumpy json object (encodeNumpy json arrays) = .ok d) :
      Holds json object arrays (.cached d)

theorem map_bind {α β γ : Type} (x : Except Err α) (f : α → β) (k : β → Except Err γ) :
    (x.map f >>= k) = (x >>= fun a => k (f a)) := by cases x <;> rfl

/-- **C82** for `sum`, `size`, `min`, `max` and everything else that `NumPyCombiner` computes: the merge
stage has the same outcome, whichever of the accumulators come from the cache. -/
theorem reductions_of_cached_accumulators (op : R → R → R) (nan : Bool) (d : R)
    (shapes : List (Option (List Nat))) (hshapes : shapes ≠ []) (cast : R → R) (json : JsonCodec R)
    (accs : Nat → Option (List (Nd R)))
    (haccs : ∀ i acc, accs i = some acc →
      acc ≠ [] ∧ (∀ a ∈ acc, Solid a) ∧ ∃ sh, ∀ a ∈ acc, a.shape = sh)
    (seen : Nat → Option (Accumulator R))
    (hseen : ∀ i, Option.Rel (Holds json false) (accs i) (seen i)) (s : Sched Nat) :
    ((s.map seen).run (npStage op nan d shapes cast) >>= (npStage op nan d shapes cast).extract) =
      ((s.map accs).run (npCombiner op d shapes cast).mergeStage >>=
        (npCombiner op d shapes cast).extract) := by
  have hitems : ∀ acc x, acc ≠ [] → (∀ a ∈ acc, Solid a) → (∃ sh, ∀ a ∈ acc, a.shape = sh) →
      Holds json false acc x → x.items = .ok (acc.map Item.array) := by
    intro acc x _ hs ⟨sh, hsh⟩ hx
    cases hx with
    | computed => rfl
    | cached dd h =>
      obtain ⟨d', items, h1, h2, _, h4⟩ :=
        decode_same false acc sh (fun a ha => (hs a ha).entries) hsh json
      rw [h1] at h
      obtain rfl := Except.ok.inj h
      simp only [Accumulator.items, h2, h4 rfl]
      congr 1
      apply List.map_congr_left
      intro a ha
      rw [untilZero_eq.2 (hs a ha).nonempty]
  have key : ∀ s : Sched Nat,
      (s.map seen).run (npStage op nan d shapes cast)
        = ((s.map accs).run (npCombiner op d shapes cast).mergeStage).map Accumulator.computed ∧
      ∀ r, (s.map accs).run (npCombiner op d shapes cast).mergeStage = .ok r → r ≠ [] := by
    intro s
    induction s using Sched.ind with
    | h0 =>
      refine ⟨rfl, ?_⟩
      intro r hr
      simp only [Sched.map, Sched.run, Combiner.mergeStage, npCombiner, Except.ok.injEq] at hr
      subst hr; simpa using hshapes
    | h1 s i ih =>
      simp only [Sched.map, Sched.run]
      rw [ih.1, map_bind]
      cases hrun : (s.map accs).run (npCombiner op d shapes cast).mergeStage with
      | error e => exact ⟨rfl, by intro r hr; cases hr⟩
      | ok acc =>
        have hacc := ih.2 acc hrun
        have hs := hseen i
        cases ha : accs i with
        | none =>
          rw [ha] at hs
          cases hx : seen i with
          | some x => rw [hx] at hs; cases hs
          | none =>
            have hm := npMerge_arrays op nan d shapes cast [.computed acc] [acc]
              (.cons ⟨rfl, hacc⟩ .nil)
            refine ⟨?_, ?_⟩
            · simp only [bind, Except.bind, npStage, Combiner.mergeStage, Option.toList, hm]
              cases (npCombiner op d shapes cast).merge [acc] <;> rfl
            · intro r hr
              exact np_merge_nonempty op d shapes hshapes cast [acc] (by simpa using hacc) r hr
        | some acc' =>
          rw [ha] at hs
          cases hx : seen i with
          | none => rw [hx] at hs; cases hs
          | some x =>
            rw [hx] at hs
            cases hs with
            | some hs =>
              obtain ⟨h1, h2, h3⟩ := haccs i acc' ha
              have hm := npMerge_arrays op nan d shapes cast [.computed acc, x] [acc, acc']
                (.cons ⟨rfl, hacc⟩ (.cons ⟨hitems acc' x h1 h2 h3 hs, h1⟩ .nil))
              refine ⟨?_, ?_⟩
              · simp only [bind, Except.bind, npStage, Combiner.mergeStage, Option.toList, hm]
                cases (npCombiner op d shapes cast).merge [acc, acc'] <;> rfl
              · intro r hr
                exact np_merge_nonempty op d shapes hshapes cast [acc, acc']
                  (by simpa using ⟨hacc, h1⟩) r hr
    | h2 ss ih =>
      have hl : Sched.runList (npStage op nan d shapes cast) (Sched.mapList seen ss)
          = (Sched.runList (npCombiner op d shapes cast).mergeStage
              (Sched.mapList accs ss)).map (List.map Accumulator.computed) ∧
          ∀ rs, Sched.runList (npCombiner op d shapes cast).mergeStage (Sched.mapList accs ss)
            = .ok rs → ∀ r ∈ rs, r ≠ [] := by
        induction ss with
        | nil =>
          refine ⟨rfl, ?_⟩
          intro rs hrs
          simp only [Sched.mapList, Sched.runList, Except.ok.injEq] at hrs
          subst hrs; simp
        | cons s ss ih2 =>
          obtain ⟨i1, i2⟩ := ih s (by simp)
          obtain ⟨j1, j2⟩ := ih2 (fun t ht => ih t (by simp [ht]))
          simp only [Sched.mapList, Sched.runList]
          rw [i1, j1, map_bind]
          cases h1 : (s.map accs).run (npCombiner op d shapes cast).mergeStage with
          | error e => exact ⟨rfl, by intro rs hrs; cases hrs⟩
          | ok r =>
            cases h2 : Sched.runList (npCombiner op d shapes cast).mergeStage
                (Sched.mapList accs ss) with
            | error e => exact ⟨rfl, by intro rs hrs; cases hrs⟩
            | ok rs =>
              refine ⟨rfl, ?_⟩
              intro rs' hrs
              simp only [bind, Except.bind, Except.ok.injEq] at hrs
              subst hrs
              intro x hx
              rcases List.mem_cons.1 hx with rfl | hx
              · exact i2 _ h1
              · exact j2 _ h2 x hx
      simp only [Sched.map, Sched.run]
      rw [hl.1, map_bind]
      cases hrun : Sched.runList (npCombiner op d shapes cast).mergeStage (Sched.mapList accs ss) with
      | error e => exact ⟨rfl, by intro r hr; cases hr⟩
      | ok rs =>
        have hrs := hl.2 rs hrun
        have hm := npMerge_arrays op nan d shapes cast (rs.map .computed) rs (by
          rw [List.forall₂_map_left_iff, List.forall₂_same]
          intro r hr
          exact ⟨rfl, hrs r hr⟩)
        refine ⟨?_, ?_⟩
        · simp only [bind, Except.bind, npStage, Combiner.mergeStage, hm]
          cases (npCombiner op d shapes cast).merge rs <;> rfl
        · intro r hr
          exact np_merge_nonempty op d shapes hshapes cast rs hrs r hr
    | h3 s ih =>
      simp only [Sched.map, Sched.run]
      rw [ih.1, map_bind]
      cases hrun : (s.map accs).run (npCombiner op d shapes cast).mergeStage with
      | error e => exact ⟨rfl, by intro r hr; cases hr⟩
      | ok acc =>
        refine ⟨rfl, ?_⟩
        intro r hr
        exact ih.2 r (by rw [hrun]; exact hr)
  rw [(key s).1, map_bind]
  cases (s.map accs).run (npCombiner op d shapes cast).mergeStage with
  | error e => rfl
  | ok acc =>
    simp only [bind, Except.bind, npStage, Accumulator.items, npCombiner, List.map_map]
    exact seqExcept_map_ok (Item.astype cast ∘ Item.array)
      (fun a => (⟨a.shape, a.data.map cast⟩ : Nd R)) acc (fun a _ => rfl)

end npCombiner

/-! ## Two combiners that do the same on related accumulators -/

/-- The same exception, or related results. -/
inductive Same {S T : Type} (Q : S → T → Prop) : Except Err S → Except Err T → Prop
  | error (e : Err) : Same Q (.error e) (.error e)
  | ok (a : S) (b : T) (h : Q a b) : Same Q (.ok a) (.ok b)

theorem Same.bind {S T S' T' : Type} {Q : S → T → Prop} {Q' : S' → T' → Prop} {x : Except Err S}
    {y : Except Err T} (h : Same Q x y) {f : S → Except Err S'} {g : T → Except Err T'}
    (hfg : ∀ a b, Q a b → Same Q' (f a) (g b)) : Same Q' (x >>= f) (y >>= g) := by
  cases h with
  | error e => exact .error e
  | ok a b h => exact hfg a b h

theorem Same.eq {S : Type} {x y : Except Err S} (h : Same (fun a b => a = b) x y) : x = y := by
  cases h with
  | error e => rfl
  | ok a b h => rw [h]

/-- Simulation of combiners. -/
theorem run_same {S T X Y O P I : Type} (c : Combiner S X O) (c' : Combiner T Y P) (f : I → X) (g : I → Y)
    (Q : S → T → Prop) (h0 : Q c.create c'.create)
    (h1 : ∀ a b, Q a b → ∀ i, Same Q (c.addInput a (f i)) (c'.addInput b (g i)))
    (h2 : ∀ as bs, List.Forall₂ Q as bs → Same Q (c.merge as) (c'.merge bs))
    (h3 : ∀ a b, Q a b → Same Q (c.compact a) (c'.compact b)) (s : Sched I) :
    Same Q ((s.map f).run c) ((s.map g).run c') := by
  induction s using Sched.ind with
  | h0 => exact .ok _ _ h0
  | h1 s i ih => exact ih.bind (fun a b hab => h1 a b hab i)
  | h2 ss ih =>
    have hl : Same (List.Forall₂ Q) (Sched.runList c (Sched.mapList f ss))
        (Sched.runList c' (Sched.mapList g ss)) := by
      induction ss with
      | nil => exact .ok _ _ .nil
      | cons s ss ih2 =>
        exact (ih s (by simp)).bind (fun a b hab =>
          (ih2 (fun t ht => ih t (by simp [ht]))).bind (fun as bs hs => .ok _ _ (.cons hab hs)))
    exact hl.bind h2
  | h3 s ih => exact ih.bind h3

section covariance

theorem fold_add {I : Type} (idx : List I) (sh : List Nat) (rest : List (I → ℚ)) (φ : I → ℚ) :
    (rest.map (fun ψ => (⟨sh, idx.map ψ⟩ : Nd ℚ))).foldlM (Nd.combine2 (· + ·)) ⟨sh, idx.map φ⟩
      = .ok ⟨sh, idx.map (fun i => ((φ :: rest).map (fun ψ => ψ i)).sum)⟩ := by
  induction rest generalizing φ with
  | nil => simp [pure, Except.pure]
  | cons ψ rest ih =>
    have h : Nd.combine2 (· + ·) (⟨sh, idx.map φ⟩ : Nd ℚ) ⟨sh, idx.map ψ⟩
        = .ok ⟨sh, idx.map (fun i => φ i + ψ i)⟩ := by
      simp [Nd.combine2, List.zipWith_map, List.zipWith_self]
    rw [List.map_cons, List.foldlM_cons, h]
    simp only [bind, Except.bind]
    rw [ih]
    simp [add_assoc]

theorem reduce_add {I : Type} (idx : List I) (sh : List Nat) (fs : List (I → ℚ)) (h : fs ≠ []) :
    Nd.reduce0 (· + ·) (fs.map (fun φ => (⟨sh, idx.map φ⟩ : Nd ℚ)))
      = .ok ⟨sh, idx.map (fun i => (fs.map (fun φ => φ i)).sum)⟩ := by
  cases fs with
  | nil => exact absurd rfl h
  | cons φ rest => exact fold_add idx sh rest φ

theorem stands_read {R : Type} {items : List (Item R)} {arrays : List (Nd R)}
    (h : StandsFor items arrays) : seqExcept (items.map Item.asArray) = .ok arrays := by
  unfold StandsFor at h
  induction h with
  | nil => rfl
  | cons h _ ih => simp [seqExcept, h, ih, bind, Except.bind]

theorem reduceItems_stands {R : Type} (op : R → R → R) (items : List (Item R)) (arrays : List (Nd R))
    (h : StandsFor items arrays) : reduceItems op items = Nd.reduce0 op arrays := by
  simp only [reduceItems, stands_read h, bind, Except.bind]

theorem zipStar_three {α β : Type} (xs : List β) (h : xs ≠ []) (f g k : β → α) :
    zipStar (xs.map (fun x => [f x, g x, k x])) = [xs.map f, xs.map g, xs.map k] := by
  have hz : zipLen (xs.map (fun x => [f x, g x, k x])) = 3 :=
    zipLen_eq _ 3 (by simpa using h) (by
      intro l hl
      obtain ⟨x, _, rfl⟩ := List.mem_map.1 hl
      rfl)
  have h3 : List.range 3 = [0, 1, 2] := rfl
  simp only [zipStar, hz, h3, List.map_cons, List.map_nil, List.filterMap_map]
  congr 1
  · rw [← List.filterMap_eq_map]; rfl
  · congr 1
    · rw [← List.filterMap_eq_map]; rfl
    · congr 1
      rw [← List.filterMap_eq_map]; rfl

/-- The accumulator stands for the arrays of `c`. -/
def CovHolds {d : Nat} (x : Accumulator ℚ) (c : CovAcc d) : Prop :=
  ∃ items, x.items = .ok items ∧ StandsFor items (covArrays c)

theorem covArrays_products {d : Nat} (c : CovAcc d) :
    (List.finRange d).flatMap (fun i => (List.finRange d).map (c.sumProduct i)) =
      ((List.finRange d).flatMap (fun i => (List.finRange d).map (fun j => (i, j)))).map
        (fun p => c.sumProduct p.1 p.2) := by
  rw [List.map_flatMap]
  congr 1
  funext i
  rw [List.map_map]; rfl

theorem covHolds_split {d : Nat} {xs : List (Accumulator ℚ)} {cs : List (CovAcc d)}
    (h : List.Forall₂ CovHolds xs cs) :
    ∃ ts : List (Item ℚ × Item ℚ × Item ℚ),
      seqExcept (xs.map Accumulator.items) = .ok (ts.map (fun t => [t.1, t.2.1, t.2.2])) ∧
      ts.length = cs.length ∧
      StandsFor (ts.map (fun t => t.1)) (cs.map (fun c => ⟨[d, d],
        ((List.finRange d).flatMap (fun i => (List.finRange d).map (fun j => (i, j)))).map
          (fun p => c.sumProduct p.1 p.2)⟩)) ∧
      StandsFor (ts.map (fun t => t.2.1))
        (cs.map (fun c => ⟨[d], (List.finRange d).map c.sumVectors⟩)) ∧
      StandsFor (ts.map (fun t => t.2.2)) (cs.map (fun c => ⟨[], [()].map (fun _ => c.count)⟩)) := by
  induction h with
  | nil => exact ⟨[], rfl, rfl, .nil, .nil, .nil⟩
  | @cons x c xs cs hx _ ih =>
    obtain ⟨ts, h1, h2, h3, h4, h5⟩ := ih
    obtain ⟨items, hi, hs⟩ := hx
    unfold StandsFor covArrays at hs
    obtain ⟨p, i1, hp, s1, rfl⟩ := List.forall₂_cons_right_iff.1 hs
    obtain ⟨v, i2, hv, s2, rfl⟩ := List.forall₂_cons_right_iff.1 s1
    obtain ⟨n, i3, hn, s3, rfl⟩ := List.forall₂_cons_right_iff.1 s2
    obtain rfl := List.forall₂_nil_right_iff.1 s3
    rw [covArrays_products] at hp
    refine ⟨(p, v, n) :: ts, ?_, by simp [h2], .cons hp h3, .cons hv h4, .cons hn h5⟩
    simp [seqExcept, hi, h1, bind, Except.bind]

theorem covMerge_same {d : Nat} {xs : List (Accumulator ℚ)} {cs : List (CovAcc d)}
    (h : List.Forall₂ CovHolds xs cs) :
    Same (fun r c => r = covArrays c) (covMergeItems xs) (covMerge cs) := by
  obtain ⟨ts, h1, h2, h3, h4, h5⟩ := covHolds_split h
  unfold covMergeItems covMerge
  rw [h1]
  cases hcs : cs with
  | nil =>
    have : ts = [] := by rw [hcs] at h2; simpa using h2
    subst this
    exact .error _
  | cons c0 rest =>
    rw [← hcs]
    have hne : cs ≠ [] := by rw [hcs]; simp
    have hts : ts ≠ [] := by
      intro h0; rw [h0] at h2; exact hne (List.length_eq_zero_iff.1 h2.symm)
    simp only [bind, Except.bind]
    rw [zipStar_three ts hts]
    have e1 := reduce_add ((List.finRange d).flatMap (fun i => (List.finRange d).map (fun j => (i, j))))
      [d, d] (cs.map (fun c => fun p : Fin d × Fin d => c.sumProduct p.1 p.2)) (by simpa using hne)
    have e2 := reduce_add (List.finRange d) [d] (cs.map (fun c => c.sumVectors)) (by simpa using hne)
    have e3 := reduce_add [()] [] (cs.map (fun c => fun _ => c.count)) (by simpa using hne)
    rw [List.map_map] at e1 e2 e3
    simp only [reduceItems_stands _ _ _ h3, reduceItems_stands _ _ _ h4, reduceItems_stands _ _ _ h5]
    simp only [Function.comp_def] at e1 e2 e3
    rw [e1, e2, e3]
    simp only [List.isEmpty_iff, hne, if_false]
    refine .ok _ _ ?_
    simp only [covArrays, List.map_map, List.map_flatMap]
    rfl

/-- The accumulator holds the arrays of `c`, just computed or read from the cache. -/
def CovSeen (json : JsonCodec ℚ) {d : Nat} (c : CovAcc d) (x : Accumulator ℚ) : Prop :=
  Holds json true (covArrays c) x

theorem covArrays_solid {d : Nat} (hd : 0 < d) (c : CovAcc d) :
    (∀ a ∈ covArrays c, Solid a) ∧ Distinct (covArrays c) := by
  refine ⟨?_, .inr ⟨⟨[d], (List.finRange d).map c.sumVectors⟩, by simp [covArrays],
    ⟨[], [c.count]⟩, by simp [covArrays], by simp⟩⟩
  intro a ha
  simp only [covArrays, List.mem_cons, List.not_mem_nil, or_false] at ha
  rcases ha with rfl | rfl | rfl
  · refine ⟨by rw [covArrays_products]; simp [List.length_flatMap], ?_⟩
    rintro (_ | _ | i) hi <;> simp at hi <;> omega
  · refine ⟨by simp, ?_⟩
    rintro (_ | i) hi <;> simp at hi ⊢
  · refine ⟨by simp, ?_⟩
    rintro i hi; simp at hi

theorem covSeen_holds {json : JsonCodec ℚ} {d : Nat} (hd : 0 < d) {c : CovAcc d} {x : Accumulator ℚ}
    (h : CovSeen json c x) : CovHolds x c := by
  cases h with
  | computed =>
    refine ⟨_, rfl, ?_⟩
    rw [StandsFor, List.forall₂_map_left_iff, List.forall₂_same]
    intro a _; rfl
  | cached dd h =>
    obtain ⟨h1, h2⟩ := covArrays_solid hd c
    obtain ⟨d', items, g1, g2, g3⟩ := accumulators_survive_the_cache json true (covArrays c) h1 h2
    rw [g1] at h
    obtain rfl := Except.ok.inj h
    exact ⟨items, g2, g3⟩

theorem grid_getD {α : Type} (d : Nat) (f : Fin d → Fin d → α) (z : α) (i j : Fin d) :
    (((List.finRange d).flatMap (fun i => (List.finRange d).map (f i))).getD (i.val * d + j.val) z)
      = f i j := by
  have h1 : (List.finRange d).flatMap (fun i => (List.finRange d).map (f i))
      = ((List.finRange d).map (fun i => (List.finRange d).map (f i))).flatten := List.flatMap_def ..
  have h2 := chunks_of_flatten d ((List.finRange d).map (fun i => (List.finRange d).map (f i))) (by
    intro l hl
    obtain ⟨i, _, rfl⟩ := List.mem_map.1 hl
    simp)
  rw [← h1] at h2
  have h3 := congrArg (fun l => (l[i.val]?).bind (fun r => r[j.val]?)) h2
  simp only [chunks, List.length_map, List.length_finRange, List.getElem?_map,
    List.getElem?_range i.isLt, Option.map_some, Option.bind_some, List.getElem?_take, j.isLt, if_true,
    List.getElem?_drop] at h3
  rw [List.getD_eq_getElem?_getD, h3]
  simp

/-- **C82** for `covariance`: the merge stage has the same outcome, whichever of the accumulators come
from the cache. -/
theorem covariance_of_cached_accumulators (d : Nat) (hd : 0 < d) (json : JsonCodec ℚ)
    (accs : Nat → Option (CovAcc d)) (seen : Nat → Option (Accumulator ℚ))
    (hseen : ∀ i, Option.Rel (fun c x => Holds json true (covArrays c) x) (accs i) (seen i))
    (s : Sched Nat) :
    ((s.map seen).run (covStage d) >>= (covStage d).extract) =
      ((s.map accs).run (covCombiner d).mergeStage >>= (covCombiner d).extract) := by
  have hcomp : ∀ c : CovAcc d, CovHolds (.computed (covArrays c)) c := fun c =>
    covSeen_holds hd (json := json) .computed
  have hmerge : ∀ (xs : List (Accumulator ℚ)) (cs : List (CovAcc d)), List.Forall₂ CovHolds xs cs →
      Same CovHolds ((covStage d).merge xs) (covMerge cs) := by
    intro xs cs h
    have := (covMerge_same h).bind (Q' := CovHolds (d := d)) (f := fun r => .ok (.computed r))
      (g := fun c => .ok c) (by rintro r c rfl; exact .ok _ _ (hcomp c))
    have e : (covMerge cs >>= fun c => Except.ok c) = covMerge cs := by cases covMerge cs <;> rfl
    rw [e] at this
    exact this
  refine Same.eq ((run_same (covStage d) (covCombiner d).mergeStage seen accs CovHolds (hcomp _) ?_
    hmerge (fun a b hab => .ok _ _ hab) s).bind ?_)
  · intro a b hab i
    have hs := hseen i
    cases ha : accs i with
    | none =>
      rw [ha] at hs
      cases hx : seen i with
      | some x => rw [hx] at hs; cases hs
      | none => exact hmerge [a] [b] (.cons hab .nil)
    | some c =>
      rw [ha] at hs
      cases hx : seen i with
      | none => rw [hx] at hs; cases hs
      | some x =>
        rw [hx] at hs
        cases hs with
        | some hs => exact hmerge [a, x] [b, c] (.cons hab (.cons (covSeen_holds hd hs) .nil))
  · rintro a c ⟨items, h1, h2⟩
    have h3 := stands_read h2
    simp only [covStage, covCombiner, h1, h3, bind, Except.bind, covArrays]
    refine .ok _ _ ?_
    congr 1
    obtain ⟨p, v, n⟩ := c
    simp only [CovAcc.mk.injEq]
    refine ⟨?_, ?_, rfl⟩
    · funext i j; exact grid_getD d p 0 i j
    · funext i; simp [List.getD_eq_getElem?_getD]

end covariance

section meanVar

/-- Two elements that stand for the same array. -/
def ItemRel (x y : Item Num) : Prop := ∃ a, x.asArray = .ok a ∧ y.asArray = .ok a

/-- Two tuples that stand for the same arrays. -/
structure TupleRel (t u : MeanVarTuple) : Prop where
  count : t.count = u.count
  mean : t.mean = u.mean
  variance : ItemRel t.variance u.variance
  weight : ItemRel t.weight u.weight

theorem nanToNum_same {x y : Item Num} (h : ItemRel x y) : x.nanToNum = y.nanToNum := by
  obtain ⟨a, h1, h2⟩ := h
  simp [Item.nanToNum, h1, h2]

theorem nanToNum_ok {x y : Item Num} (h : ItemRel x y) : ∃ a, x.nanToNum = .ok a := by
  obtain ⟨a, h1, _⟩ := h
  exact ⟨_, by simp only [Item.nanToNum, h1, bind, Except.bind]; rfl⟩

theorem optional_same (b : Bool) {x y : Item Num} (h : ItemRel x y) :
    Same ItemRel (x.nanToNumIf b) (y.nanToNumIf b) := by
  unfold Item.nanToNumIf
  cases b with
  | false => exact .ok _ _ h
  | true =>
    obtain ⟨a, ha⟩ := nanToNum_ok h
    simp only [if_true, ← nanToNum_same h, ha]
    exact .ok _ _ ⟨a, rfl, rfl⟩

theorem makeNanToNum_same (cv cw : Bool) {x y : List (Item Num)} (h : List.Forall₂ ItemRel x y) :
    Same TupleRel (makeNanToNum cv cw x) (makeNanToNum cv cw y) := by
  match x, y, h with
  | [], [], _ => exact .error _
  | [_], [_], _ => exact .error _
  | [_, _], [_, _], _ => exact .error _
  | [_, _, _], [_, _, _], _ => exact .error _
  | [c, m, v, w], [c', m', v', w'], .cons hc (.cons hm (.cons hv (.cons hw .nil))) =>
    simp only [makeNanToNum]
    refine (optional_same cv hv).bind (fun v1 v2 h1 => (optional_same cw hw).bind (fun w1 w2 h2 => ?_))
    obtain ⟨a, ha1, ha2⟩ := hc
    obtain ⟨b, hb⟩ := nanToNum_ok hm
    rw [ha1, ha2, ← nanToNum_same hm, hb]
    exact .ok _ _ ⟨rfl, rfl, h1, h2⟩
  | _ :: _ :: _ :: _ :: _ :: _, _ :: _ :: _ :: _ :: _ :: _, _ => exact .error _

theorem combineTuples_same (cv cw : Bool) {a a' b b' : MeanVarTuple} (ha : TupleRel a a')
    (hb : TupleRel b b') : combineTuples cv cw a b = combineTuples cv cw a' b' := by
  obtain ⟨x1, h1, h2⟩ := ha.variance
  obtain ⟨x2, h3, h4⟩ := ha.weight
  obtain ⟨x3, h5, h6⟩ := hb.variance
  obtain ⟨x4, h7, h8⟩ := hb.weight
  simp only [combineTuples, ha.count, hb.count, ha.mean, hb.mean, h1, h2, h3, h4, h5, h6, h7, h8]

theorem items_rel {t u : MeanVarTuple} (h : TupleRel t u) : List.Forall₂ ItemRel t.items u.items :=
  .cons ⟨_, rfl, by rw [h.count]; rfl⟩ (.cons ⟨_, rfl, by rw [h.mean]; rfl⟩
    (.cons h.variance (.cons h.weight .nil)))

theorem combineItems_same (cv cw : Bool) {x x' y y' : List (Item Num)}
    (hx : List.Forall₂ ItemRel x x') (hy : List.Forall₂ ItemRel y y') :
    Same (List.Forall₂ ItemRel) (combineItems cv cw x y) (combineItems cv cw x' y') := by
  have main : ∀ a a' b b' : MeanVarTuple, TupleRel a a' → TupleRel b b' →
      Same (List.Forall₂ ItemRel)
        (if total a.count = some 0 then Except.ok b.items
          else (combineTuples cv cw a b >>= fun r => .ok (r.map .array)))
        (if total a'.count = some 0 then Except.ok b'.items
          else (combineTuples cv cw a' b' >>= fun r => .ok (r.map .array))) := by
    intro a a' b b' ha hb
    rw [← ha.count]
    split
    · exact .ok _ _ (items_rel hb)
    · rw [combineTuples_same cv cw ha hb]
      cases combineTuples cv cw a' b' with
      | error e => exact .error e
      | ok r =>
        refine .ok _ _ ?_
        rw [List.forall₂_map_left_iff, List.forall₂_map_right_iff, List.forall₂_same]
        intro a _
        exact ⟨a, rfl, rfl⟩
  refine (makeNanToNum_same cv cw hx).bind (fun a a' ha =>
    (makeNanToNum_same cv cw hy).bind (fun b b' hb => ?_))
  simp only [ha.count, hb.count]
  split
  · exact main b b' a a' hb ha
  · exact main a a' b b' ha hb

/-- The accumulator is a tuple of these arrays, or what is read from the cache after it was written. -/
inductive MeanVarHolds (json : JsonCodec Num) (arrays : List (Nd Num)) : MeanVarAccumulator → Prop
  | computed : MeanVarHolds json arrays (.tuple (arrays.map .array))
  | cached (d : Decoded Num) (h : decodeNumpy json false (encodeNumpy json arrays) = .ok d) :
      MeanVarHolds json arrays (.cached d)

theorem forall₂_of_stands {x y : List (Item Num)} {as : List (Nd Num)} (hx : StandsFor x as)
    (hy : StandsFor y as) : List.Forall₂ ItemRel x y := by
  unfold StandsFor at hx hy
  induction hx generalizing y with
  | nil => obtain rfl := List.forall₂_nil_right_iff.1 hy; exact .nil
  | @cons x a xs as h _ ih =>
    obtain ⟨z, zs, hz, hs, rfl⟩ := List.forall₂_cons_right_iff.1 hy
    exact .cons ⟨a, h, hz⟩ (ih hs)

theorem computed_stands {R : Type} (arrays : List (Nd R)) :
    StandsFor (arrays.map .array) arrays := by
  rw [StandsFor, List.forall₂_map_left_iff, List.forall₂_same]
  intro a _; rfl

/-- Both accumulators are tuples of the same arrays. -/
def BothTuples (a b : MeanVarAccumulator) : Prop :=
  ∃ x y, a = .tuple x ∧ b = .tuple y ∧ List.Forall₂ ItemRel x y

/-- Both accumulators stand for the same arrays. -/
def BothStand (a b : MeanVarAccumulator) : Prop :=
  ∃ x y, a.items = .ok x ∧ b.items = .ok y ∧ List.Forall₂ ItemRel x y

theorem BothTuples.stand {a b : MeanVarAccumulator} (h : BothTuples a b) : BothStand a b := by
  obtain ⟨x, y, rfl, rfl, h⟩ := h
  exact ⟨x, y, rfl, rfl, h⟩

theorem combineAccumulators_same (cv cw : Bool) {a a' b b' : MeanVarAccumulator} (ha : BothStand a a')
    (hb : BothStand b b') :
    Same BothTuples (combineAccumulators cv cw a b) (combineAccumulators cv cw a' b') := by
  obtain ⟨x, x', h1, h2, h3⟩ := ha
  obtain ⟨y, y', h4, h5, h6⟩ := hb
  simp only [combineAccumulators, h1, h2, h4, h5, bind, Except.bind]
  exact (combineItems_same cv cw h3 h6).bind (fun r r' h => .ok _ _ ⟨r, r', rfl, rfl, h⟩)

theorem mergeMeanVar_same (cv cw : Bool) {a a' : MeanVarAccumulator} (ha : BothTuples a a')
    {rest rest' : List MeanVarAccumulator} (h : List.Forall₂ BothStand rest rest') :
    Same BothTuples (mergeMeanVar cv cw (a :: rest)) (mergeMeanVar cv cw (a' :: rest')) := by
  simp only [mergeMeanVar]
  induction h generalizing a a' with
  | nil => exact .ok _ _ ha
  | cons h _ ih =>
    rw [List.foldlM_cons, List.foldlM_cons]
    exact (combineAccumulators_same cv cw ha.stand h).bind (fun x y hxy => ih hxy)

/-- **C82** for `mean`, `var` and the weighted mean: the merge stage has the same outcome, whichever of
the accumulators come from the cache, as long as only last dimensions are 0. -/
theorem mean_and_variance_of_cached_accumulators_partial (cv cw : Bool)
    (outputShape : List (Option Nat)) (json : JsonCodec Num) (accs : Nat → Option (List (Nd Num)))
    (haccs : ∀ i acc, accs i = some acc → (∀ a ∈ acc, Solid a) ∧ Distinct acc)
    (seen : Nat → Option MeanVarAccumulator)
    (hseen : ∀ i, Option.Rel (MeanVarHolds json) (accs i) (seen i)) (s : Sched Nat) :
    ((s.map seen).run (meanVarStage cv cw outputShape) >>= (meanVarStage cv cw outputShape).extract) =
      ((s.map (fun i => (accs i).map (fun acc => .tuple (acc.map .array)))).run
          (meanVarStage cv cw outputShape) >>= (meanVarStage cv cw outputShape).extract) := by
  have hcreate : BothTuples (meanVarStage cv cw outputShape).create
      (meanVarStage cv cw outputShape).create := by
    refine ⟨_, _, rfl, rfl, ?_⟩
    simp only [createMeanVar]
    exact .cons ⟨_, rfl, rfl⟩ (.cons ⟨_, rfl, rfl⟩ (.cons ⟨_, rfl, rfl⟩ (.cons ⟨_, rfl, rfl⟩ .nil)))
  refine Same.eq ((run_same (meanVarStage cv cw outputShape) (meanVarStage cv cw outputShape) seen
    (fun i => (accs i).map (fun acc => .tuple (acc.map .array))) BothTuples hcreate ?_ ?_
    (fun a b hab => .ok _ _ hab) s).bind ?_)
  · intro a b hab i
    have hs := hseen i
    cases ha : accs i with
    | none =>
      rw [ha] at hs
      cases hx : seen i with
      | some x => rw [hx] at hs; cases hs
      | none => exact mergeMeanVar_same cv cw hab .nil
    | some acc =>
      rw [ha] at hs
      cases hx : seen i with
      | none => rw [hx] at hs; cases hs
      | some x =>
        rw [hx] at hs
        cases hs with
        | some hs =>
          refine mergeMeanVar_same cv cw hab (.cons ?_ .nil)
          cases hs with
          | computed => exact ⟨_, _, rfl, rfl, forall₂_of_stands (computed_stands acc) (computed_stands acc)⟩
          | cached d h =>
            obtain ⟨h1, h2⟩ := haccs i acc ha
            obtain ⟨d', items, g1, g2, g3⟩ := accumulators_survive_the_cache json false acc h1 h2
            rw [g1] at h
            obtain rfl := Except.ok.inj h
            exact ⟨_, _, g2, rfl, forall₂_of_stands g3 (computed_stands acc)⟩
  · intro as bs h
    cases h with
    | nil => exact .error _
    | cons h hs => exact mergeMeanVar_same cv cw h (hs.imp (fun _ _ h => h.stand))
  · rintro a b ⟨x, y, rfl, rfl, h⟩
    match x, y, h with
    | [], [], _ => exact .error _
    | [_], [_], _ => exact .error _
    | [_, _], [_, _], _ => exact .error _
    | [_, _, _], [_, _, _], _ => exact .error _
    | [c, m, v, w], [c', m', v', w'],
        .cons ⟨_, hc, hc'⟩ (.cons ⟨_, hm, hm'⟩ (.cons ⟨_, hv, hv'⟩ (.cons ⟨_, hw, hw'⟩ .nil))) =>
      simp only [meanVarStage, Combiner.mergeStage, meanVarArrays, extractMeanVar]
      split <;>
        simp only [List.map_cons, List.map_nil, seqExcept, hc, hc', hm, hm', hv, hv', hw, hw', bind,
          Except.bind] <;> exact .ok _ _ rfl
    | _ :: _ :: _ :: _ :: _ :: _, _ :: _ :: _ :: _ :: _ :: _, _ => exact .error _

end meanVar

/-! ## Examples -/

/-- A pair of vectors, read from the cache and added up with another one. -/
example (json : JsonCodec ℚ) :
    ∃ d, decodeNumpy json false (encodeNumpy json [⟨[2], [1, 2]⟩, ⟨[2], [3, 4]⟩]) = .ok d ∧
      ((Sched.run (npStage (· + ·) false (0 : ℚ) [some [2], some [2]] id)
          (.add (.add .create (some (.cached d))) (some (.computed [⟨[2], [5, 6]⟩, ⟨[2], [7, 8]⟩]))) >>=
        (npStage (· + ·) false (0 : ℚ) [some [2], some [2]] id).extract).toOption =
        some [⟨[2], [6, 8]⟩, ⟨[2], [10, 12]⟩]) := by
  refine ⟨_, by simp only [decodeNumpy, encodeNumpy, json.law]; rfl, ?_⟩
  decide +kernel

/-- The accumulators of that example meet the conditions. -/
example : ([⟨[2], [1, 2]⟩, ⟨[2], [3, 4]⟩] : List (Nd ℚ)) ≠ [] ∧
    (∀ a ∈ ([⟨[2], [1, 2]⟩, ⟨[2], [3, 4]⟩] : List (Nd ℚ)), Solid a) ∧
    ∃ sh, ∀ a ∈ ([⟨[2], [1, 2]⟩, ⟨[2], [3, 4]⟩] : List (Nd ℚ)), a.shape = sh := by
  have h : ∀ i : Nat, ([2] : List Nat)[i]? = some 0 → i + 1 = 1 := by
    intro i hi
    match i with
    | 0 => rfl
    | i + 1 => simp at hi
  refine ⟨by simp, ?_, [2], by simp⟩
  intro a ha
  simp only [List.mem_cons, List.not_mem_nil, or_false] at ha
  rcases ha with rfl | rfl
  · exact ⟨rfl, h⟩
  · exact ⟨rfl, h⟩

/-- Every accumulator of `covariance` can be read from the cache. -/
example (json : JsonCodec ℚ) (c : CovAcc 2) : ∃ d, Holds json true (covArrays c) (.cached d) := by
  obtain ⟨h1, h2⟩ := covArrays_solid (by decide) c
  obtain ⟨d, _, h, _⟩ := accumulators_survive_the_cache json true (covArrays c) h1 h2
  exact ⟨d, .cached d h⟩

end TFT.Coders
