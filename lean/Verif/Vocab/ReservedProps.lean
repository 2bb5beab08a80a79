import Verif.Vocab.Reserved
import Verif.Vocab.Props
import Verif.Output.VocabAccessProps
import Mathlib.Data.List.Forall2
import Mathlib.Tactic.CongrExclamation

/-!
# Vocabularies get their own reserved tokens (C96)
-/

namespace TFT.Reserved

open TFT.Vocab TFT.VocabAccess

/-! ## Specification -/

/-- The name of the file of a vocabulary, without the suffix of compressed files: the argument
`vocab_filename` or the name made of the scope, made safe (C63). -/
def Spec.nameOf (K : Classes) (c : Call) : Text := stem K c.request

/-- Different vocabularies with reserved tokens have different names. -/
def Spec.DistinctNames (K : Classes) (cs : List Call) : Prop :=
  cs.Pairwise (fun c d => c.reserved.isSome → d.reserved.isSome →
    Spec.nameOf K c ≠ Spec.nameOf K d)

/-- The reserved tokens given in the first call of a name, for a call that has some. -/
def Spec.firstGiven (K : Classes) (cs : List Call) (c : Call) : Option Arg :=
  c.reserved.bind (fun _ =>
    cs.findSome? (fun d => if Spec.nameOf K d = Spec.nameOf K c then d.reserved else none))

/-- The tokens are given as a list, or not at all. -/
def Spec.Listed (c : Call) : Prop := ∀ a, c.reserved = some a → ∃ l, a = .tokens l

/-- Calls as they are made: the entries are batched, and vocabularies that are shuffled are not
taken to be sorted. -/
def Spec.Made (c : Call) : Prop :=
  c.batches.flatten.Perm c.counts ∧ (c.sorted = true → c.fingerprint = none)

/-! ## The collections -/

theorem registry_aux (K : Classes) (cs : List Call) (g : Registry) :
    cs.foldl (fun g c => match c.reserved with
      | none => g
      | some a => register g (c.registered K) a) g =
    ⟨g.names ++ (cs.filterMap (fun c => c.reserved.map (fun a => (c.registered K, a.toTensor)))).map Prod.fst,
     g.tensors ++ (cs.filterMap (fun c => c.reserved.map (fun a => (c.registered K, a.toTensor)))).map Prod.snd⟩ := by
  induction cs generalizing g with
  | nil => simp
  | cons c cs ih =>
    rw [List.foldl_cons, ih]
    cases h : c.reserved with
    | none => simp [h]
    | some a => simp [h, register]

theorem fetch_pairs (l : List (Text × Tensor)) (n : Text) :
    fetch ⟨l.map Prod.fst, l.map Prod.snd⟩ n =
      match l.find? (fun p => p.1 = n) with
      | none => .error "ValueError"
      | some p => run p.2 := by
  unfold fetch
  simp only [List.length_map, ne_eq, not_true, if_false]
  induction l with
  | nil => simp
  | cons p l ih =>
    by_cases h : p.1 = n
    · simp [h]
    · have h' : (p.1 == n) = false := by simpa using h
      simp only [List.map_cons, List.idxOf_cons, h', cond_false, List.getElem?_cons_succ,
        List.find?_cons, h, decide_false]
      exact ih

theorem find_registered (K : Classes) (cs : List Call) (n : Text) :
    ((cs.filterMap (fun c => c.reserved.map (fun a => (c.registered K, a.toTensor)))).find?
      (fun p => p.1 = n)).map Prod.snd =
    (cs.findSome? (fun d => if Spec.nameOf K d = n then d.reserved else none)).map Arg.toTensor := by
  induction cs with
  | nil => rfl
  | cons c cs ih =>
    cases h : c.reserved with
    | none => simp [h]; simpa using ih
    | some a =>
      by_cases hn : Spec.nameOf K c = n
      · have : c.registered K = n := hn
        simp [h, hn, this]
      · have : ¬ c.registered K = n := hn
        simp [h, hn, this]; simpa using ih

theorem fetch_registry (K : Classes) (cs : List Call) (n : Text) :
    fetch (registry K cs) n =
      match cs.findSome? (fun d => if Spec.nameOf K d = n then d.reserved else none) with
      | none => .error "ValueError"
      | some a => run a.toTensor := by
  have hreg : registry K cs = _ := registry_aux K cs {}
  rw [hreg]
  simp only [List.nil_append]
  rw [fetch_pairs]
  have := find_registered K cs n
  revert this
  cases (cs.filterMap (fun c => c.reserved.map (fun a => (c.registered K, a.toTensor)))).find?
      (fun p => p.1 = n) <;>
  cases cs.findSome? (fun d => if Spec.nameOf K d = n then d.reserved else none) <;>
  simp
  intro h; rw [h]

theorem extracted_registry (K : Classes) (cs : List Call) (c : Call) (hc : c ∈ cs) :
    extracted K (registry K cs) c =
      match Spec.firstGiven K cs c with
      | none => .ok none
      | some a => (run a.toTensor).map some := by
  unfold extracted Spec.firstGiven
  cases h : c.reserved with
  | none => rfl
  | some b =>
    simp only [Option.bind_some]
    rw [fetch_registry]
    have hs : Spec.nameOf K c = c.registered K := rfl
    rw [← hs]
    cases hf : cs.findSome? (fun d => if Spec.nameOf K d = Spec.nameOf K c then d.reserved else none) with
    | some a => rfl
    | none =>
      rw [List.findSome?_eq_none_iff] at hf
      simpa [h] using hf c hc

theorem all_iff (f : Call → Except String (List Bytes)) (cs : List Call) (files : List (List Bytes)) :
    all f cs = .ok files ↔ List.Forall₂ (fun c l => f c = .ok l) cs files := by
  induction cs generalizing files with
  | nil => cases files <;> simp [all]
  | cons c cs ih =>
    unfold all
    cases hf : f c with
    | error e =>
      simp only [Except.bind, reduceCtorEq, false_iff]
      intro h
      cases h with
      | cons h _ => rw [hf] at h; exact absurd h (by simp)
    | ok l =>
      simp only [Except.bind]
      cases hr : all f cs with
      | error e =>
        simp only [Except.map, reduceCtorEq, false_iff]
        intro h
        cases h with
        | cons _ h => rw [(ih _).2 h] at hr; exact absurd hr (by simp)
      | ok ls =>
        simp only [Except.map, Except.ok.injEq]
        constructor
        · rintro rfl; exact .cons hf ((ih ls).1 hr)
        · intro h
          cases h with
          | cons h h' =>
            rw [hf, Except.ok.injEq] at h
            have := (ih _).2 h'
            rw [hr, Except.ok.injEq] at this
            rw [h, this]

theorem alone_iff (K : Classes) (w : ℚ × Bytes → Bytes) (c : Call) (f : List Bytes) :
    analyze K w [c] = .ok [f] ↔ vocabulary K w (registry K [c]) c = .ok f := by
  unfold analyze
  rw [all_iff]
  simp

theorem firstGiven_alone (K : Classes) (c : Call) : Spec.firstGiven K [c] c = c.reserved := by
  unfold Spec.firstGiven
  cases h : c.reserved <;> simp [h]

theorem write_reserved (w : ℚ × Bytes → Bytes) (c : Call) (x : Option Arg) (v : Option Value) :
    write w { c with reserved := x } v = write w c v := by
  match v with
  | none => rfl
  | some (.vector _) => rfl
  | some (.scalar _) => rfl
  | some (.more _) => rfl

/-! ## The properties -/

/-- **C96**, in general: the files are those of the calls made one by one, each with the reserved tokens
of the first call that has some and the same name. -/
theorem first_given_tokens_are_used (K : Classes) (w : ℚ × Bytes → Bytes) (cs : List Call)
    (files : List (List Bytes)) :
    analyze K w cs = .ok files ↔
      List.Forall₂ (fun c f => analyze K w [{ c with reserved := Spec.firstGiven K cs c }] = .ok [f])
        cs files := by
  unfold analyze
  rw [all_iff]
  have key : ∀ c ∈ cs, ∀ f, (vocabulary K w (registry K cs) c = .ok f ↔
      analyze K w [{ c with reserved := Spec.firstGiven K cs c }] = .ok [f]) := by
    intro c hc f
    rw [alone_iff]
    unfold vocabulary
    rw [extracted_registry K cs c hc, extracted_registry K _ _ (List.mem_singleton.2 rfl),
      firstGiven_alone]
    have : write w { c with reserved := Spec.firstGiven K cs c } = write w c :=
      funext (write_reserved w c _)
    rw [this]
  suffices ∀ l : List Call, (∀ c ∈ l, c ∈ cs) → ∀ files,
      (List.Forall₂ (fun c l => vocabulary K w (registry K cs) c = .ok l) l files ↔
      List.Forall₂ (fun c f => analyze K w [{ c with reserved := Spec.firstGiven K cs c }] = .ok [f])
        l files) from this cs (fun _ h => h) files
  intro l
  induction l with
  | nil => intro _ files; cases files <;> simp
  | cons c l ih =>
    intro hl files
    cases files with
    | nil => simp
    | cons f files =>
      rw [List.forall₂_cons, List.forall₂_cons, key c (hl c (by simp)) f,
        ih (fun x hx => hl x (by simp [hx])) files]

theorem firstGiven_own (K : Classes) (cs : List Call) (hd : Spec.DistinctNames K cs) (c : Call)
    (hc : c ∈ cs) : Spec.firstGiven K cs c = c.reserved := by
  unfold Spec.firstGiven
  cases h : c.reserved with
  | none => rfl
  | some a =>
    simp only [Option.bind_some]
    induction cs with
    | nil => simp at hc
    | cons d cs ih =>
      unfold Spec.DistinctNames at hd
      rw [List.pairwise_cons] at hd
      rcases List.mem_cons.1 hc with rfl | hc'
      · simp [h]
      · have hne : (if Spec.nameOf K d = Spec.nameOf K c then d.reserved else none) = none := by
          cases hr : d.reserved with
          | none => simp
          | some b => rw [if_neg (hd.1 c hc' (by simp [hr]) (by simp [h]))]
        rw [List.findSome?_cons, hne]
        exact ih hd.2 hc'

/-- **C96**: vocabularies with different names do not disturb each other. Whatever the other calls are,
the file of each is the one that it would get alone in `preprocessing_fn`, and the analysis fails only
if it fails for one of them alone. -/
theorem vocabularies_are_independent (K : Classes) (w : ℚ × Bytes → Bytes) (cs : List Call)
    (hd : Spec.DistinctNames K cs) (files : List (List Bytes)) :
    analyze K w cs = .ok files ↔
      List.Forall₂ (fun c f => analyze K w [c] = .ok [f]) cs files := by
  rw [first_given_tokens_are_used]
  suffices ∀ l : List Call, (∀ c ∈ l, c ∈ cs) → ∀ files,
      (List.Forall₂ (fun c f => analyze K w [{ c with reserved := Spec.firstGiven K cs c }] = .ok [f])
        l files ↔ List.Forall₂ (fun c f => analyze K w [c] = .ok [f]) l files) from
    this cs (fun _ h => h) files
  intro l
  induction l with
  | nil => intro _ files; cases files <;> simp
  | cons c l ih =>
    intro hl files
    cases files with
    | nil => simp
    | cons f files =>
      rw [List.forall₂_cons, List.forall₂_cons, ih (fun x hx => hl x (by simp [hx])) files,
        firstGiven_own K cs hd c (hl c (by simp))]

theorem alone_listed (K : Classes) (w : ℚ × Bytes → Bytes) (c : Call)
    (r : List Bytes) (hr : c.reserved = some (.tokens r)) :
    analyze K w [c] = .ok [((maybeAddDummy c.dummy (r.map (fun t => ((-1 : ℚ), t)) ++
      sortEntries c.fingerprint ((c.batches.map (sortEntries c.fingerprint)).flatMap
        (fun b => b.filter (fun p => !decide (p.2 ∈ r)))))).map
          (fun e => if c.storeFrequency then w e else e.2))] := by
  rw [alone_iff]
  unfold vocabulary
  rw [extracted_registry K _ _ (List.mem_singleton.2 rfl), firstGiven_alone, hr]
  simp only [Arg.toTensor, run, if_true, Except.map, Except.bind, write, orderAndWrite,
    Option.isNone_some, Bool.and_false, Bool.false_eq_true, if_false, orderElements]
  unfold line
  congr!

/-- **C96**: the lines of each vocabulary in a `preprocessing_fn` with any number of them. The tokens
of its own call come first, in their order, with frequency -1; then the other entries of its own data.
A vocabulary without reserved tokens has the entries of its data, whatever other calls reserve. -/
theorem reserved_tokens_are_own (K : Classes) (w : ℚ × Bytes → Bytes) (cs : List Call)
    (hd : Spec.DistinctNames K cs) (hl : ∀ c ∈ cs, Spec.Listed c) (hm : ∀ c ∈ cs, Spec.Made c) :
    ∃ files, analyze K w cs = .ok files ∧
      List.Forall₂ (fun c f => ∃ rest : List (ℚ × Bytes),
        f = (match c.reserved with
          | some (.tokens r) => r.map (fun t => ((-1 : ℚ), t)) ++ rest
          | _ => rest).map (fun e => if c.storeFrequency then w e else e.2) ∧
        (c.reserved = none → c.counts ≠ [] → rest.Perm c.counts) ∧
        (∀ r, c.reserved = some (.tokens r) → r ≠ [] →
          rest.Perm (c.counts.filter (fun e => e.2 ∉ r)))) cs files := by
  have one : ∀ c ∈ cs, ∃ f, analyze K w [c] = .ok [f] ∧ ∃ rest : List (ℚ × Bytes),
        f = (match c.reserved with
          | some (.tokens r) => r.map (fun t => ((-1 : ℚ), t)) ++ rest
          | _ => rest).map (fun e => if c.storeFrequency then w e else e.2) ∧
        (c.reserved = none → c.counts ≠ [] → rest.Perm c.counts) ∧
        (∀ r, c.reserved = some (.tokens r) → r ≠ [] →
          rest.Perm (c.counts.filter (fun e => e.2 ∉ r))) := by
    intro c hc
    obtain ⟨hb, hs⟩ := hm c hc
    cases hr : c.reserved with
    | some a =>
      obtain ⟨r, rfl⟩ := hl c hc a hr
      refine ⟨_, alone_listed K w c r hr, ?_⟩
      have hp : (sortEntries c.fingerprint ((c.batches.map (sortEntries c.fingerprint)).flatMap
          (fun b => b.filter (fun p => !decide (p.2 ∈ r))))).Perm
          (c.counts.filter (fun e => e.2 ∉ r)) := by
        refine (sortEntries_perm _ _).trans ?_
        have : ∀ bs : List (List (ℚ × Bytes)), bs.flatMap (fun b => b.filter (fun p => !decide (p.2 ∈ r)))
            = bs.flatten.filter (fun p => !decide (p.2 ∈ r)) := by
          intro bs; simp [List.flatMap, List.filter_flatten]
        rw [this]
        have h2 := ((presorted_perm c.fingerprint c.batches).trans hb).filter (fun p => !decide (p.2 ∈ r))
        simpa using h2
      by_cases hr0 : r = []
      · refine ⟨maybeAddDummy c.dummy (sortEntries c.fingerprint
          ((c.batches.map (sortEntries c.fingerprint)).flatMap
            (fun b => b.filter (fun p => !decide (p.2 ∈ r))))), by subst hr0; simp, by simp, ?_⟩
        intro r' h' hne
        simp only [Option.some.injEq, Arg.tokens.injEq] at h'
        exact absurd (h' ▸ hr0) hne
      · refine ⟨sortEntries c.fingerprint ((c.batches.map (sortEntries c.fingerprint)).flatMap
          (fun b => b.filter (fun p => !decide (p.2 ∈ r)))), ?_, by simp, ?_⟩
        · simp [maybeAddDummy, hr0]
        · intro r' h' _
          simp only [Option.some.injEq, Arg.tokens.injEq] at h'
          exact h' ▸ hp
    | none =>
      have hv : ∃ rest : List (ℚ × Bytes), analyze K w [c] =
          .ok [rest.map (fun e => if c.storeFrequency then w e else e.2)] ∧
          (c.counts ≠ [] → rest.Perm c.counts) := by
        by_cases hsd : c.sorted = true
        · refine ⟨c.counts, ?_, fun _ => List.Perm.refl _⟩
          rw [alone_iff]
          unfold vocabulary
          rw [extracted_registry K _ _ (List.mem_singleton.2 rfl), firstGiven_alone, hr]
          simp only [Except.bind, write, orderAndWrite, hsd, hs hsd, Option.isNone_none, Bool.and_true,
            if_true, Option.isSome_none, Bool.false_eq_true, if_false]
          rfl
        · refine ⟨maybeAddDummy c.dummy (sortEntries c.fingerprint
            (c.batches.map (sortEntries c.fingerprint)).flatten), ?_, fun hne => ?_⟩
          · rw [alone_iff]
            unfold vocabulary
            rw [extracted_registry K _ _ (List.mem_singleton.2 rfl), firstGiven_alone, hr]
            simp only [Except.bind, write, orderAndWrite, hsd, Bool.false_and, Bool.false_eq_true,
              if_false, orderElements]
            rfl
          · have hp := (sortEntries_perm c.fingerprint _).trans
              ((presorted_perm c.fingerprint c.batches).trans hb)
            have : sortEntries c.fingerprint (c.batches.map (sortEntries c.fingerprint)).flatten ≠ [] := by
              intro h0
              rw [h0] at hp
              exact hne hp.symm.eq_nil
            unfold maybeAddDummy
            rw [if_neg this]
            exact hp
      obtain ⟨rest, h1, h2⟩ := hv
      exact ⟨_, h1, rest, rfl, fun _ => h2, by simp⟩
  have build : ∀ l : List Call, (∀ c ∈ l, c ∈ cs) → ∃ files,
      List.Forall₂ (fun c f => analyze K w [c] = .ok [f] ∧ ∃ rest : List (ℚ × Bytes),
        f = (match c.reserved with
          | some (.tokens r) => r.map (fun t => ((-1 : ℚ), t)) ++ rest
          | _ => rest).map (fun e => if c.storeFrequency then w e else e.2) ∧
        (c.reserved = none → c.counts ≠ [] → rest.Perm c.counts) ∧
        (∀ r, c.reserved = some (.tokens r) → r ≠ [] →
          rest.Perm (c.counts.filter (fun e => e.2 ∉ r)))) l files := by
    intro l
    induction l with
    | nil => intro _; exact ⟨[], .nil⟩
    | cons c l ih =>
      intro h
      obtain ⟨fs, hfs⟩ := ih (fun x hx => h x (by simp [hx]))
      obtain ⟨f, hf⟩ := one c (h c (by simp))
      exact ⟨f :: fs, .cons hf hfs⟩
  obtain ⟨files, hf⟩ := build cs (fun _ h => h)
  exact ⟨files, (vocabularies_are_independent K w cs hd files).2 (hf.imp (fun _ _ h => h.1)),
    hf.imp (fun _ _ h => h.2)⟩

/-- **C96**: reserved tokens that are known only after the analysis (a tensor that depends on features
or on other analyzers), or that are a matrix, stop the whole analysis. -/
theorem unknown_tokens_are_refused (K : Classes) (w : ℚ × Bytes → Bytes) (cs : List Call)
    (hd : Spec.DistinctNames K cs) (c : Call) (hc : c ∈ cs) (t : Tensor)
    (hr : c.reserved = some (.tensor t)) (ht : t.known = false ∨ ∃ n, t.value = .more n)
    (files : List (List Bytes)) : analyze K w cs ≠ .ok files := by
  intro h
  rw [vocabularies_are_independent K w cs hd] at h
  have : ∃ f, analyze K w [c] = .ok [f] := by
    clear hd
    induction h with
    | nil => simp at hc
    | cons h1 _ ih =>
      rcases List.mem_cons.1 hc with rfl | hc
      · exact ⟨_, h1⟩
      · exact ih hc
  obtain ⟨f, hf⟩ := this
  rw [alone_iff] at hf
  unfold vocabulary at hf
  rw [extracted_registry K _ _ (List.mem_singleton.2 rfl), firstGiven_alone, hr] at hf
  rcases ht with hk | ⟨n, hv⟩
  · simp [Arg.toTensor, run, hk, Except.map, Except.bind] at hf
  · cases hk : t.known <;> simp [Arg.toTensor, run, hk, hv, Except.map, Except.bind, write] at hf

/-- **C96** fails for a text in place of a list, although a text is a sequence of texts: one line is
written for each byte, with the number of the byte, before the entries of the data, while the size
counts one token. -/
theorem text_becomes_numbers (K : Classes) (w : ℚ × Bytes → Bytes) (c : Call) (hm : Spec.Made c)
    (s : Bytes) (hs : s ≠ []) (hf : c.storeFrequency = false) (hr : c.reserved = some (.text s)) :
    ∃ rest, analyze K w [c] = .ok [s.map (fun b => (Nat.toDigits 10 b).map Char.toNat) ++ rest] ∧
      rest.Perm (c.counts.map Prod.snd) ∧ reservedSize c = 1 := by
  refine ⟨(sortEntries c.fingerprint (c.batches.map (sortEntries c.fingerprint)).flatten).map Prod.snd,
    ?_, ((sortEntries_perm c.fingerprint _).trans
      ((presorted_perm c.fingerprint c.batches).trans hm.1)).map _,
    by simp [reservedSize, hr, Arg.toTensor, Value.size]⟩
  rw [alone_iff]
  unfold vocabulary
  rw [extracted_registry K _ _ (List.mem_singleton.2 rfl), firstGiven_alone, hr]
  simp only [Arg.toTensor, run, if_true, Except.map, Except.bind, write]
  unfold maybeAddDummy
  rw [if_neg (by simp [hs])]
  have hl : line w c = Prod.snd := by funext e; simp [line, hf]
  simp [hl, decimal, Function.comp_def]

/-! ## Cases -/

/-- Two vocabularies with reserved tokens and one without, with a file name, with the default name
and with a scope. -/
def Cases.calls : List Call :=
  [{ name := some "a b".toList, scope := "vocabulary".toList, reserved := some (.tokens [[5], [1]]),
     sorted := false, dummy := (1, [0]), counts := [(2, [1]), (3, [2])],
     batches := [[(2, [1])], [(3, [2])]] },
   { name := none, scope := "vocabulary_1".toList, reserved := none,
     sorted := true, dummy := (1, [0]), counts := [(4, [5])], batches := [[(4, [5])]] },
   { name := none, scope := "vocabulary_2".toList, reserved := some (.tokens [[7]]),
     sorted := true, dummy := (1, [0]), counts := [(4, [5])], batches := [[(4, [5])]] }]

instance (K : Classes) (cs : List Call) : Decidable (Spec.DistinctNames K cs) := by
  unfold Spec.DistinctNames; infer_instance

/-- The hypotheses are met, and the files are as expected. -/
theorem Cases.calls_ok : Spec.DistinctNames VocabAccess.Cases.ascii calls ∧
    (∀ c ∈ calls, Spec.Listed c) ∧ (∀ c ∈ calls, Spec.Made c) ∧
    analyze VocabAccess.Cases.ascii Prod.snd calls = .ok [[[5], [1], [2]], [[5]], [[7], [5]]] := by
  refine ⟨by decide +kernel, ?_, ?_, ?_⟩
  · intro c hc a ha
    simp only [calls, List.mem_cons, List.not_mem_nil, or_false] at hc
    rcases hc with rfl | rfl | rfl <;> simp_all
    · exact ⟨_, ha.symm⟩
    · exact ⟨_, ha.symm⟩
  · intro c hc
    simp only [calls, List.mem_cons, List.not_mem_nil, or_false] at hc
    rcases hc with rfl | rfl | rfl <;> simp [Spec.Made]
  · have h : (analyze VocabAccess.Cases.ascii Prod.snd calls).toOption =
        some [[[5], [1], [2]], [[5]], [[7], [5]]] := by decide +kernel
    revert h
    cases analyze VocabAccess.Cases.ascii Prod.snd calls <;> simp [Except.toOption]

/-- The same name in both file formats: two different files. -/
def Cases.formats : List Call :=
  [{ name := some "v".toList, scope := "vocabulary".toList, reserved := some (.tokens [[5]]),
     sorted := false, dummy := (1, [0]), counts := [(2, [1])], batches := [[(2, [1])]] },
   { name := some "v".toList, scope := "vocabulary_1".toList, format := .tfrecordGzip,
     reserved := some (.tokens [[7], [8]]), sorted := false, dummy := (1, [0]),
     counts := [(2, [1])], batches := [[(2, [1])]] }]

/-- **C96** fails for two vocabularies of the same name in different formats: they have files of their
own, but the second gets the reserved tokens of the first, and its size counts those of its own. -/
theorem same_name_takes_other_tokens :
    (Cases.formats.map (fun c => fileName VocabAccess.Cases.ascii c.request)).Nodup ∧
    analyze VocabAccess.Cases.ascii Prod.snd Cases.formats = .ok [[[5], [1]], [[5], [1]]] ∧
    Cases.formats.map reservedSize = [1, 2] := by
  refine ⟨by decide +kernel, ?_, by decide +kernel⟩
  have h : (analyze VocabAccess.Cases.ascii Prod.snd Cases.formats).toOption =
      some [[[5], [1]], [[5], [1]]] := by decide +kernel
  revert h
  cases analyze VocabAccess.Cases.ascii Prod.snd Cases.formats <;> simp [Except.toOption]

/-- A call for the other theorems: "ab" in place of a list, and a tensor that is not known. -/
theorem Cases.others :
    (∃ rest, analyze VocabAccess.Cases.ascii Prod.snd
      [{ name := none, scope := "v".toList, reserved := some (.text [97, 98]), sorted := false,
         dummy := (1, [0]), counts := [(2, [1])], batches := [[(2, [1])]] }] =
        .ok [[57, 55] :: [57, 56] :: rest]) ∧
    (∀ files, analyze VocabAccess.Cases.ascii Prod.snd
      [{ name := none, scope := "v".toList, reserved := some (.tensor ⟨.vector [[1]], false⟩),
         sorted := false, dummy := (1, [0]), counts := [(2, [1])], batches := [[(2, [1])]] }]
        ≠ .ok files) := by
  constructor
  · obtain ⟨rest, h, -, -⟩ := text_becomes_numbers VocabAccess.Cases.ascii Prod.snd
      { name := none, scope := "v".toList, reserved := some (.text [97, 98]), sorted := false,
        dummy := (1, [0]), counts := [(2, [1])], batches := [[(2, [1])]] } (by simp [Spec.Made]) [97, 98] (by simp) rfl rfl
    refine ⟨rest, h.trans ?_⟩
    have h97 : (Nat.toDigits 10 97).map Char.toNat = [57, 55] := by decide +kernel
    have h98 : (Nat.toDigits 10 98).map Char.toNat = [57, 56] := by decide +kernel
    simp [h97, h98]
  · intro files
    exact unknown_tokens_are_refused _ _ _ (by simp [Spec.DistinctNames]) _ (List.mem_singleton.2 rfl)
      _ rfl (Or.inl rfl) files

end TFT.Reserved
