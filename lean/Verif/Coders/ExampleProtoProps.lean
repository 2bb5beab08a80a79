import Verif.Coders.ExampleProto
import Verif.Combine.PackedLemmas

/-!
# Properties of `ExampleProtoCoder` (C39)
-/

namespace TFT.ExampleCoder

variable {S : Type} (accept : Accept S) (flatten : Flatten S)

/-- Specification: the values of a feature, each converted. -/
def convertAll (k : Kind) : List S → Except Err (List S)
  | [] => .ok []
  | x :: xs =>
    match accept k x with
    | .error e => .error e
    | .ok y =>
      match convertAll k xs with
      | .error e => .error e
      | .ok ys => .ok (y :: ys)

/-- Specification: the values of a one-dimensional feature: a list, or an array with one dimension. -/
def listed : PyVal S → Except Err (List S)
  | .list l => .ok l
  | .array shape flat =>
    if shape.length = 1 then .ok flat
    else .error "TypeError: iteration over a 0-d array or rows of an array"
  | .none => .error "TypeError: object of type 'NoneType' has no len()"
  | .scalar _ => .error "TypeError: object has no len()"

/-- Specification: the value of a feature without dimensions: a scalar, or an array of any shape with
exactly one element. -/
def single : PyVal S → Except Err S
  | .scalar s => .ok s
  | .array _ flat =>
    match flat.head? with
    | some s => if flat.length = 1 then .ok s
      else .error "ValueError: can only convert an array of size 1 to a Python scalar"
    | none => .error "ValueError: can only convert an array of size 1 to a Python scalar"
  | .none => .error "TypeError: None has type NoneType"
  | .list _ => .error "TypeError: list"

/-- Specification: how one feature is encoded: an empty feature for `None` in a variable-length
feature, otherwise the converted values as a list of the feature's kind; a fixed-length feature must
have the right number of values. There is no state. -/
def encodeFeature (h : Handler) (v : PyVal S) : Except Err (Option (Kind × List S)) :=
  match h.fixed with
  | some (rank, size) =>
    if rank = 0 then
      match single v with
      | .error e => .error e
      | .ok s => (convertAll accept h.kind [s]).map (fun l => some (h.kind, l))
    else
      match (if rank = 1 then listed v else flatten h.kind v) with
      | .error e => .error e
      | .ok flat =>
        if flat.length ≠ size then .error "ValueError: FixedLenFeature got wrong number of values"
        else (convertAll accept h.kind flat).map (fun l => some (h.kind, l))
  | none =>
    match v with
    | .none => .ok none
    | v =>
      match (match v with | .scalar s => Except.ok [s] | v => listed v) with
      | .error e => .error e
      | .ok flat => (convertAll accept h.kind flat).map (fun l => some (h.kind, l))

/-- Specification: an instance is encoded feature by feature. -/
def encodeInstance (inst : List (String × PyVal S)) :
    List Handler → Except Err (List (String × Option (Kind × List S)))
  | [] => .ok []
  | h :: hs =>
    match inst.lookup h.name with
    | none => .error "KeyError"
    | some v =>
      match encodeFeature accept flatten h v with
      | .error e => .error e
      | .ok f =>
        match encodeInstance inst hs with
        | .error e => .error e
        | .ok fs => .ok ((h.name, f) :: fs)

theorem elements_eq (v : PyVal S) : elements v = listed v := by
  cases v with
  | array shape flat =>
    match shape with
    | [] => rfl
    | [_] => rfl
    | _ :: _ :: _ => simp [elements, listed]
  | _ => rfl

theorem scalarOf_eq (v : PyVal S) : scalarOf v = single v := by
  cases v with
  | array shape flat =>
    match flat with
    | [] => rfl
    | [_] => rfl
    | _ :: _ :: _ => simp [scalarOf, single]
  | _ => rfl

/-- The reference of handler `i` belongs to its feature. -/
def Live (h : Handler) (i : Nat) (st : State S) : Prop :=
  st.refs i = (st.features h.name).generation

/-- A step of handler `i` leaves everything of other features alone. -/
def Only (h : Handler) (i : Nat) (st st' : State S) : Prop :=
  (∀ n, n ≠ h.name → st'.features n = st.features n) ∧ (∀ j, j ≠ i → st'.refs j = st.refs j)

theorem Only.refl (h : Handler) (i : Nat) (st : State S) : Only h i st st :=
  ⟨fun _ _ => rfl, fun _ _ => rfl⟩

theorem Only.trans {h : Handler} {i : Nat} {a b c : State S} (h1 : Only h i a b)
    (h2 : Only h i b c) : Only h i a c :=
  ⟨fun n hn => (h2.1 n hn).trans (h1.1 n hn), fun j hj => (h2.2 j hj).trans (h1.2 j hj)⟩

theorem write_live (h : Handler) (i : Nat) (f : List S → List S) (st : State S)
    (hl : Live h i st) :
    Live h i (write h i f st) ∧ Only h i st (write h i f st) ∧
    ((write h i f st).features h.name).content = 
      some (h.kind, f (current h.kind (st.features h.name).content)) := by
  unfold Live at hl
  unfold write
  simp only [hl, if_true]
  refine ⟨?_, ⟨?_, ?_⟩, ?_⟩
  · simp [Live, hl]
  · intro n hn; simp [Function.update_of_ne hn]
  · intro j _; rfl
  · simp

theorem extend_live (h : Handler) (i : Nat) (xs : List S) (st : State S) (l : List S)
    (hl : Live h i st) (hc : (st.features h.name).content = some (h.kind, l)) :
    Live h i (extend accept h i xs st).2 ∧ Only h i st (extend accept h i xs st).2 ∧
    (match convertAll accept h.kind xs with
      | .error e => (extend accept h i xs st).1 = .error e
      | .ok ys => (extend accept h i xs st).1 = .ok () ∧
          ((extend accept h i xs st).2.features h.name).content = some (h.kind, l ++ ys)) := by
  induction xs generalizing st l with
  | nil => exact ⟨hl, Only.refl h i st, rfl, by simpa [extend] using hc⟩
  | cons x xs ih =>
    simp only [extend, convertAll]
    cases hx : accept h.kind x with
    | error e => exact ⟨hl, Only.refl h i st, rfl⟩
    | ok y =>
      obtain ⟨w1, w2, w3⟩ := write_live h i (· ++ [y]) st hl
      rw [hc] at w3
      simp only [current, if_true] at w3
      obtain ⟨i1, i2, i3⟩ := ih (write h i (· ++ [y]) st) (l ++ [y]) w1 w3
      refine ⟨i1, w2.trans i2, ?_⟩
      simp only
      cases hys : convertAll accept h.kind xs with
      | error e => rw [hys] at i3; exact i3
      | ok ys =>
        rw [hys] at i3
        exact ⟨i3.1, by rw [i3.2]; simp⟩

/-- One handler: the result is that of the specification, its reference stays live, other features
and references are untouched. -/
theorem encodeValue_spec (h : Handler) (i : Nat) (v : PyVal S) (st : State S) (hl : Live h i st) :
    Live h i (encodeValue accept flatten h i v st).2 ∧
    Only h i st (encodeValue accept flatten h i v st).2 ∧
    (match encodeFeature accept flatten h v with
      | .error e => (encodeValue accept flatten h i v st).1 = .error e
      | .ok f => (encodeValue accept flatten h i v st).1 = .ok () ∧
          ((encodeValue accept flatten h i v st).2.features h.name).content = f) := by
  obtain ⟨w1, w2, w3⟩ := write_live h i (fun _ => []) st hl
  have hext : ∀ flat : List S,
      Live h i (extend accept h i flat (write h i (fun _ => []) st)).2 ∧
      Only h i st (extend accept h i flat (write h i (fun _ => []) st)).2 ∧
      (match (convertAll accept h.kind flat).map (fun l => some (h.kind, l)) with
        | .error e => (extend accept h i flat (write h i (fun _ => []) st)).1 = .error e
        | .ok f => (extend accept h i flat (write h i (fun _ => []) st)).1 = .ok () ∧
          ((extend accept h i flat (write h i (fun _ => []) st)).2.features h.name).content = f) := by
    intro flat
    obtain ⟨e1, e2, e3⟩ := extend_live accept h i flat _ [] w1 w3
    refine ⟨e1, w2.trans e2, ?_⟩
    cases hc : convertAll accept h.kind flat with
    | error e => rw [hc] at e3; exact e3
    | ok ys => rw [hc] at e3; exact e3
  unfold encodeValue encodeFeature
  cases hf : h.fixed with
  | some rs =>
    obtain ⟨rank, size⟩ := rs
    simp only [encodeFixed]
    by_cases h0 : rank = 0
    · simp only [if_pos h0, scalarOf_eq]
      cases hs : single v with
      | error e => exact ⟨w1, w2, rfl⟩
      | ok s => exact hext [s]
    · simp only [if_neg h0, elements_eq]
      cases hs : (if rank = 1 then listed v else flatten h.kind v) with
      | error e => exact ⟨w1, w2, rfl⟩
      | ok flat =>
        simp only
        by_cases hlen : flat.length ≠ size
        · simp only [if_pos hlen]; exact ⟨w1, w2, trivial⟩
        · simp only [if_neg hlen]; exact hext flat
  | none =>
    simp only [encodeVarLen]
    cases v with
    | none =>
      refine ⟨?_, ⟨?_, ?_⟩, rfl, ?_⟩
      · simp [Live, clear]
      · intro n hn; simp [clear, Function.update_of_ne hn]
      · intro j hj; simp [clear, Function.update_of_ne hj]
      · simp [clear]
    | scalar s => exact hext [s]
    | list l => exact hext l
    | array shape flat =>
      simp only [elements_eq]
      cases he : listed (PyVal.array shape flat) with
      | error e => exact ⟨w1, w2, rfl⟩
      | ok fl => exact hext fl

/-- All references are live. -/
def AllLive (handlers : List Handler) (i : Nat) (st : State S) : Prop :=
  ∀ (j : Nat) h, handlers[j]? = some h → Live h (i + j) st

theorem loop_spec (inst : List (String × PyVal S)) (hs : List Handler) (i : Nat) (st : State S)
    (hn : (hs.map Handler.name).Nodup) (hl : AllLive hs i st) :
    AllLive hs i (encodeLoop accept flatten inst hs i st).2 ∧
    (∀ n, n ∉ hs.map Handler.name →
      (encodeLoop accept flatten inst hs i st).2.features n = st.features n) ∧
    (∀ j, j < i → (encodeLoop accept flatten inst hs i st).2.refs j = st.refs j) ∧
    (match encodeInstance accept flatten inst hs with
      | .error e => (encodeLoop accept flatten inst hs i st).1 = .error e
      | .ok fs => (encodeLoop accept flatten inst hs i st).1 = .ok () ∧
          hs.map (fun h => (h.name,
            ((encodeLoop accept flatten inst hs i st).2.features h.name).content)) = fs) := by
  induction hs generalizing i st with
  | nil => exact ⟨hl, fun _ _ => rfl, fun _ _ => rfl, rfl, rfl⟩
  | cons h hs ih =>
    simp only [List.map_cons, List.nodup_cons] at hn
    simp only [encodeLoop, encodeInstance]
    cases hv : inst.lookup h.name with
    | none => exact ⟨hl, fun _ _ => rfl, fun _ _ => rfl, rfl⟩
    | some v =>
      have hlive : Live h i st := by simpa using hl 0 h rfl
      obtain ⟨e1, e2, e3⟩ := encodeValue_spec accept flatten h i v st hlive
      simp only
      cases hev : encodeValue accept flatten h i v st with
      | mk r st' =>
        rw [hev] at e1 e2 e3
        simp only at e1 e2 e3
        have hl' : AllLive hs (i + 1) st' := by
          intro j g hg
          have hg' : (h :: hs)[j + 1]? = some g := by simpa using hg
          have hlg := hl (j + 1) g hg'
          have hne : g.name ≠ h.name := by
            intro e
            apply hn.1
            rw [← e]
            exact List.mem_map_of_mem (List.mem_of_getElem? hg)
          have hlg' : Live g (i + 1 + j) st := by
            rw [show i + 1 + j = i + (j + 1) by omega]; exact hlg
          unfold Live at hlg' ⊢
          rw [e2.1 g.name hne, e2.2 (i + 1 + j) (by omega)]
          exact hlg'
        cases hr : encodeFeature accept flatten h v with
        | error e =>
          rw [hr] at e3
          simp only at e3
          subst e3
          refine ⟨?_, ?_, ?_, rfl⟩
          · intro j g hg
            cases j with
            | zero =>
              simp only [List.getElem?_cons_zero, Option.some.injEq] at hg
              subst hg
              exact e1
            | succ j =>
              have := hl' j g (by simpa using hg)
              rw [show i + (j + 1) = i + 1 + j by omega]; exact this
          · intro n hnn
            simp only [List.map_cons, List.mem_cons, not_or] at hnn
            exact e2.1 n hnn.1
          · intro j hj
            exact e2.2 j (by omega)
        | ok f =>
          rw [hr] at e3
          simp only at e3
          obtain ⟨rfl, e4⟩ := e3
          obtain ⟨i1, i2, i3, i4⟩ := ih (i + 1) st' hn.2 hl'
          have hfeat := i2 h.name hn.1
          refine ⟨?_, ?_, ?_, ?_⟩
          · intro j g hg
            cases j with
            | zero =>
              simp only [List.getElem?_cons_zero, Option.some.injEq] at hg
              subst hg
              exact (i3 i (by omega)).trans
                (Eq.trans e1 (congrArg Feature.generation hfeat.symm))
            | succ j =>
              have := i1 j g (by simpa using hg)
              rw [show i + (j + 1) = i + 1 + j by omega]; exact this
          · intro n hnn
            simp only [List.map_cons, List.mem_cons, not_or] at hnn
            exact (i2 n hnn.2).trans (e2.1 n hnn.1)
          · intro j hj
            exact (i3 j (by omega)).trans (e2.2 j (by omega))
          · cases hi : encodeInstance accept flatten inst hs with
            | error e => rw [hi] at i4; exact i4
            | ok fs =>
              rw [hi] at i4
              refine ⟨i4.1, ?_⟩
              simp only [List.map_cons]
              rw [hfeat, e4, i4.2]

theorem encode_spec (handlers : List Handler) (hn : (handlers.map Handler.name).Nodup)
    (inst : List (String × PyVal S)) (st : State S) (hl : AllLive handlers 0 st) :
    (encode accept flatten handlers inst st).1 = encodeInstance accept flatten inst handlers ∧
    AllLive handlers 0 (encode accept flatten handlers inst st).2 := by
  obtain ⟨l1, _, _, l4⟩ := loop_spec accept flatten inst handlers 0 st hn hl
  unfold encode
  cases hr : encodeLoop accept flatten inst handlers 0 st with
  | mk r st' =>
    rw [hr] at l1 l4
    simp only at l1 l4
    cases hi : encodeInstance accept flatten inst handlers with
    | error e =>
      rw [hi] at l4
      simp only at l4
      subst l4
      exact ⟨rfl, l1⟩
    | ok fs =>
      rw [hi] at l4
      simp only at l4
      obtain ⟨rfl, l5⟩ := l4
      exact ⟨by simp [l5], l1⟩

/-- **C39** Whatever instances a coder has encoded or failed to encode before, `encode` returns (or
raises) what the specification, which has no state, says for the schema and the instance. The features
written by the schema's handlers must have different names; without that the claim is false, see
`shared_name_depends_on_history`. -/
theorem encode_history_independent_partial (handlers : List Handler)
    (hn : (handlers.map Handler.name).Nodup) (before : List (List (String × PyVal S)))
    (inst : List (String × PyVal S)) :
    (encode accept flatten handlers inst
      (before.foldl (fun st i => (encode accept flatten handlers i st).2) (init S))).1
      = encodeInstance accept flatten inst handlers := by
  have hl : ∀ (before : List (List (String × PyVal S))) (st : State S), AllLive handlers 0 st →
      AllLive handlers 0
        (before.foldl (fun st i => (encode accept flatten handlers i st).2) st) := by
    intro before
    induction before with
    | nil => exact fun st h => h
    | cons b bs ih => exact fun st h => ih _ (encode_spec accept flatten handlers hn b st h).2
  exact (encode_spec accept flatten handlers hn inst _
    (hl before (init S) (fun _ _ _ => rfl))).1

/-- Two handlers of one feature name (a schema with explicit tensor representations may use one
column for two tensors). A `None` in the first clears the feature, which detaches the list that the
second handler refers to. From then on what the second handler writes is lost: a fresh coder gives
the values as floats, this one as integers. -/
def shared : List Handler := [⟨"k", .int64, none⟩, ⟨"k", .float, some (1, 1)⟩]

/-- All values are accepted. -/
def anything : Accept Int := fun _ x => .ok x

/-- Flattening of flat values. -/
def flat : Flatten Int := fun _ v => elements v

/-- **C39 needs different names**: with a shared name the result depends on a previously failed
call. -/
theorem shared_name_depends_on_history :
    (encode anything flat shared [("k", .list [5])] (init Int)).1
      = .ok [("k", some (.float, [5])), ("k", some (.float, [5]))] ∧
    (encode anything flat shared [("k", .list [5])]
      (encode anything flat shared [("k", .none)] (init Int)).2).1
      = .ok [("k", some (.int64, [5])), ("k", some (.int64, [5]))] := ⟨rfl, rfl⟩

/-- A coder with a scalar, a variable-length and a fixed-length feature, after an instance with
`None` and one that fails in the middle. -/
example : (encode anything flat
    [⟨"s", .int64, some (0, 1)⟩, ⟨"v", .float, none⟩, ⟨"f", .bytes, some (1, 2)⟩]
    [("s", .scalar 1), ("v", .list [2, 3]), ("f", .list [4, 5])]
    ([[("s", .scalar 9), ("v", .none), ("f", .list [7, 7])],
      [("s", .scalar 8), ("v", .scalar 8), ("f", .list [7, 7, 7])]].foldl
      (fun st i => (encode anything flat
        [⟨"s", .int64, some (0, 1)⟩, ⟨"v", .float, none⟩, ⟨"f", .bytes, some (1, 2)⟩] i st).2)
      (init Int))).1
    = .ok [("s", some (.int64, [1])), ("v", some (.float, [2, 3])), ("f", some (.bytes, [4, 5]))] :=
  rfl

end TFT.ExampleCoder
