import Verif.Combine.Packed
import Verif.Combine.SchedLemmas

namespace TFT

theorem bind_ok_iff {α β : Type} {x : Except Err α} {f : α → Except Err β} {y : β} :
    (x >>= f) = .ok y ↔ ∃ a, x = .ok a ∧ f a = .ok y := by
  cases x with
  | error e => simp [bind, Except.bind]
  | ok a => simp [bind, Except.bind]

theorem seqExcept_ok_iff {β : Type} (xs : List (Except Err β)) (ys : List β) :
    seqExcept xs = .ok ys ↔ List.Forall₂ (fun x y => x = .ok y) xs ys := by
  induction xs generalizing ys with
  | nil => cases ys <;> simp [seqExcept]
  | cons x xs ih =>
    simp only [seqExcept, bind_ok_iff]
    constructor
    · rintro ⟨y, rfl, ys', h, h'⟩
      cases h'
      exact .cons rfl ((ih ys').1 h)
    · intro h
      cases h with
      | cons h hs => exact ⟨_, h, _, (ih _).2 hs, rfl⟩

theorem runList_ok_iff {Acc In Out : Type} (c : Combiner Acc In Out) (ss : List (Sched In))
    (as : List Acc) :
    Sched.runList c ss = .ok as ↔ List.Forall₂ (fun s a => s.run c = .ok a) ss as := by
  induction ss generalizing as with
  | nil => cases as <;> simp [Sched.runList]
  | cons s ss ih =>
    simp only [Sched.runList, bind_ok_iff]
    constructor
    · rintro ⟨a, h, as', hs, h'⟩
      cases h'
      exact .cons h ((ih _).1 hs)
    · intro h
      cases h with
      | cons h hs => exact ⟨_, h, _, (ih _).2 hs, rfl⟩

theorem forall₂_iff_getElem? {α β : Type} {R : α → β → Prop} {l : List α} {m : List β} :
    List.Forall₂ R l m ↔ l.length = m.length ∧
      ∀ (i : Nat) a b, l[i]? = some a → m[i]? = some b → R a b := by
  rw [List.forall₂_iff_get]
  constructor
  · rintro ⟨h, g⟩
    refine ⟨h, ?_⟩
    intro i a b ha hb
    obtain ⟨h1, rfl⟩ := List.getElem?_eq_some_iff.1 ha
    obtain ⟨h2, rfl⟩ := List.getElem?_eq_some_iff.1 hb
    exact g i h1 h2
  · rintro ⟨h, g⟩
    refine ⟨h, ?_⟩
    intro i h1 h2
    exact g i _ _ (List.getElem?_eq_getElem h1) (List.getElem?_eq_getElem h2)

theorem forall₂_exists {α β : Type} {R : α → β → Prop} {l : List α} (h : ∀ a ∈ l, ∃ b, R a b) :
    ∃ m, List.Forall₂ R l m := by
  induction l with
  | nil => exact ⟨[], .nil⟩
  | cons a l ih =>
    obtain ⟨b, hb⟩ := h a (by simp)
    obtain ⟨m, hm⟩ := ih (fun x hx => h x (by simp [hx]))
    exact ⟨b :: m, .cons hb hm⟩

theorem zipLen_eq_length {β : Type} {n : Nat} (ls : List (List β)) (hne : ls ≠ [])
    (h : ∀ l ∈ ls, l.length = n) : zipLen ls = n := by
  induction ls with
  | nil => exact absurd rfl hne
  | cons l ls ih =>
    cases ls with
    | nil => simpa [zipLen] using h l (by simp)
    | cons l' ls =>
      simp only [zipLen]
      rw [ih (by simp) (fun x hx => h x (by simp [hx])), h l (by simp)]; simp

/-- Column `i` of a rectangular list of lists. -/
theorem zipStar_getElem? {β : Type} {n i : Nat} (ls : List (List β)) (hne : ls ≠ [])
    (h : ∀ l ∈ ls, l.length = n) (hi : i < n) :
    (zipStar ls)[i]? = some (ls.filterMap (fun l => l[i]?)) := by
  simp [zipStar, zipLen_eq_length ls hne h, hi]

theorem zipStar_length {β : Type} {n : Nat} (ls : List (List β)) (hne : ls ≠ [])
    (h : ∀ l ∈ ls, l.length = n) : (zipStar ls).length = n := by
  simp [zipStar, zipLen_eq_length ls hne h]

theorem col_forall₂ {α β : Type} {n i : Nat} (hi : i < n) {R : α → β → Prop}
    (ss : List α) (as : List (List β)) (hl : ∀ a ∈ as, a.length = n)
    (h : List.Forall₂ (fun s a => ∀ b, a[i]? = some b → R s b) ss as) :
    List.Forall₂ R ss (as.filterMap (fun l => l[i]?)) := by
  induction h with
  | nil => exact .nil
  | @cons s a ss as h _ ih =>
    have ha := hl a (by simp)
    have : a[i]? = some a[i] := List.getElem?_eq_getElem (by omega)
    rw [List.filterMap_cons, this]
    exact .cons (h _ this) (ih (fun x hx => hl x (by simp [hx])))

/-- `P` acts on lists of accumulators as the combiners `cs` do side by side, for inputs that
satisfy `Pre`. -/
structure IsTuple {Acc X O Out : Type} (P : Combiner (List Acc) X O)
    (cs : List (Combiner Acc X Out)) (Pre : X → Prop) : Prop where
  create : P.create = cs.map Combiner.create
  add : ∀ accs e accs', accs.length = cs.length → Pre e →
    (P.addInput accs e = .ok accs' ↔ accs'.length = cs.length ∧
      ∀ (i : Nat) c a a', cs[i]? = some c → accs[i]? = some a → accs'[i]? = some a' →
        c.addInput a e = .ok a')
  merge : P.merge = tupleMerge (cs.map Combiner.merge)
  compact : P.compact = tupleCompact (cs.map Combiner.compact)

theorem tupleCompact_iff {Acc : Type} (fs : List (Acc → Except Err Acc)) (acc acc' : List Acc)
    (hl : acc.length = fs.length) :
    tupleCompact fs acc = .ok acc' ↔ acc'.length = fs.length ∧
      ∀ (i : Nat) f a a', fs[i]? = some f → acc[i]? = some a → acc'[i]? = some a' → f a = .ok a' := by
  unfold tupleCompact
  rw [seqExcept_ok_iff, forall₂_iff_getElem?]
  simp only [List.length_zipWith, hl, Nat.min_self, List.getElem?_zipWith]
  constructor
  · rintro ⟨h1, h2⟩
    refine ⟨h1.symm, ?_⟩
    intro i f a a' hf ha ha'
    exact h2 i (f a) a' (by simp [hf, ha]) ha'
  · rintro ⟨h1, h2⟩
    refine ⟨h1.symm, ?_⟩
    intro i x a' hx ha'
    cases hf : fs[i]? with
    | none => simp [hf] at hx
    | some f =>
      cases ha : acc[i]? with
      | none => simp [hf, ha] at hx
      | some a =>
        simp only [hf, ha, Option.some.injEq] at hx
        rw [← hx]; exact h2 i f a a' hf ha ha'

/-- The packed run succeeds with accumulators `accs` iff every combiner alone succeeds with its
own accumulator. -/
theorem IsTuple.run_iff {Acc X O Out : Type} {P : Combiner (List Acc) X O}
    {cs : List (Combiner Acc X Out)} {Pre : X → Prop} (T : IsTuple P cs Pre) (s : Sched X)
    (hs : s.MergesSome) (hP : ∀ e ∈ s.inputs, Pre e) (accs : List Acc) :
    s.run P = .ok accs ↔ List.Forall₂ (fun c a => s.run c = .ok a) cs accs := by
  induction s using Sched.ind generalizing accs with
  | h0 =>
    simp only [Sched.run, T.create, Except.ok.injEq]
    constructor
    · rintro rfl
      rw [List.forall₂_map_right_iff]
      exact List.forall₂_same.2 (fun c _ => rfl)
    · intro h
      clear T hs hP
      induction h with
      | nil => rfl
      | cons h _ ih => simp [h, ih]
  | h1 s b ih =>
    cases hs with
    | add hs =>
      have hP' : ∀ e ∈ s.inputs, Pre e := fun e he => hP e (by simp [Sched.inputs, he])
      have hb : Pre b := hP b (by simp [Sched.inputs])
      simp only [Sched.run, bind_ok_iff]
      constructor
      · rintro ⟨acc0, h0, h1⟩
        have h0' := (ih hs hP' acc0).1 h0
        have hl := h0'.length_eq
        obtain ⟨h2, h3⟩ := (T.add acc0 b accs hl.symm hb).1 h1
        rw [forall₂_iff_getElem?] at h0' ⊢
        refine ⟨h2.symm, ?_⟩
        intro i c a' hc ha'
        have hi : i < acc0.length := by
          have := (List.getElem?_eq_some_iff.1 hc).1; omega
        exact ⟨acc0[i], h0'.2 i c _ hc (List.getElem?_eq_getElem hi),
          h3 i c _ a' hc (List.getElem?_eq_getElem hi) ha'⟩
      · intro h
        obtain ⟨acc0, h0⟩ : ∃ acc0, List.Forall₂ (fun c a => s.run c = .ok a) cs acc0 := by
          apply forall₂_exists
          intro c hc
          obtain ⟨i, hi, rfl⟩ := List.mem_iff_getElem.1 hc
          have hi' : i < accs.length := h.length_eq ▸ hi
          obtain ⟨a, ha, _⟩ := (forall₂_iff_getElem?.1 h).2 i _ _ (List.getElem?_eq_getElem hi)
            (List.getElem?_eq_getElem hi')
          exact ⟨a, ha⟩
        refine ⟨acc0, (ih hs hP' acc0).2 h0, (T.add acc0 b accs h0.length_eq.symm hb).2
          ⟨h.length_eq.symm, ?_⟩⟩
        intro i c a a' hc ha ha'
        obtain ⟨a1, h1, h2⟩ := (forall₂_iff_getElem?.1 h).2 i c a' hc ha'
        have h3 := (forall₂_iff_getElem?.1 h0).2 i c a hc ha
        rw [h3] at h1
        cases h1
        exact h2
  | h3 s ih =>
    cases hs with
    | compact hs =>
      have hP' : ∀ e ∈ s.inputs, Pre e := fun e he => hP e (by simpa [Sched.inputs] using he)
      simp only [Sched.run, bind_ok_iff, T.compact]
      constructor
      · rintro ⟨acc0, h0, h1⟩
        have h0' := (ih hs hP' acc0).1 h0
        have hl := h0'.length_eq
        obtain ⟨h2, h3⟩ := (tupleCompact_iff _ _ _ (by simpa using hl.symm)).1 h1
        rw [forall₂_iff_getElem?] at h0' ⊢
        refine ⟨by simpa using h2.symm, ?_⟩
        intro i c a' hc ha'
        have hi : i < acc0.length := by
          have := (List.getElem?_eq_some_iff.1 hc).1; omega
        exact ⟨acc0[i], h0'.2 i c _ hc (List.getElem?_eq_getElem hi),
          h3 i c.compact _ a' (by simp [hc]) (List.getElem?_eq_getElem hi) ha'⟩
      · intro h
        obtain ⟨acc0, h0⟩ : ∃ acc0, List.Forall₂ (fun c a => s.run c = .ok a) cs acc0 := by
          apply forall₂_exists
          intro c hc
          obtain ⟨i, hi, rfl⟩ := List.mem_iff_getElem.1 hc
          have hi' : i < accs.length := h.length_eq ▸ hi
          obtain ⟨a, ha, _⟩ := (forall₂_iff_getElem?.1 h).2 i _ _ (List.getElem?_eq_getElem hi)
            (List.getElem?_eq_getElem hi')
          exact ⟨a, ha⟩
        refine ⟨acc0, (ih hs hP' acc0).2 h0, (tupleCompact_iff _ _ _
          (by simpa using h0.length_eq.symm)).2 ⟨by simpa using h.length_eq.symm, ?_⟩⟩
        intro i f a a' hf ha ha'
        simp only [List.getElem?_map, Option.map_eq_some_iff] at hf
        obtain ⟨c, hc, rfl⟩ := hf
        obtain ⟨a1, h1, h2⟩ := (forall₂_iff_getElem?.1 h).2 i c a' hc ha'
        have h3 := (forall₂_iff_getElem?.1 h0).2 i c a hc ha
        rw [h3] at h1
        cases h1
        exact h2
  | h2 ss ih =>
    cases hs with
    | merge hne hall =>
      have hP' : ∀ s ∈ ss, ∀ e ∈ s.inputs, Pre e := by
        intro s hs e he
        apply hP
        simp only [Sched.inputs, Sched.inputsList_eq, List.mem_flatten, List.mem_map]
        exact ⟨_, ⟨s, hs, rfl⟩, he⟩
      have key : ∀ as, List.Forall₂ (fun s a => s.run P = .ok a) ss as ↔
          List.Forall₂ (fun s a => List.Forall₂ (fun c x => s.run c = .ok x) cs a) ss as := by
        intro as
        rw [List.forall₂_iff_get, List.forall₂_iff_get]
        constructor
        · rintro ⟨h1, h2⟩
          exact ⟨h1, fun i hi hi' => (ih _ (List.get_mem ss ⟨i, hi⟩) (hall _ (List.get_mem ss ⟨i, hi⟩))
            (hP' _ (List.get_mem ss ⟨i, hi⟩)) _).1 (h2 i hi hi')⟩
        · rintro ⟨h1, h2⟩
          exact ⟨h1, fun i hi hi' => (ih _ (List.get_mem ss ⟨i, hi⟩) (hall _ (List.get_mem ss ⟨i, hi⟩))
            (hP' _ (List.get_mem ss ⟨i, hi⟩)) _).2 (h2 i hi hi')⟩
      -- rows of equal length
      have rows : ∀ as, List.Forall₂ (fun s a => List.Forall₂ (fun c x => s.run c = .ok x) cs a) ss as →
          (as ≠ [] ∧ ∀ a ∈ as, a.length = cs.length) := by
        intro as h
        refine ⟨?_, ?_⟩
        · intro h0; subst h0; exact hne (by cases h; rfl)
        · intro a ha
          obtain ⟨i, hi, rfl⟩ := List.mem_iff_getElem.1 ha
          have := (List.forall₂_iff_get.1 h).2 i (by rw [h.length_eq]; exact hi) hi
          exact this.length_eq.symm
      have cols : ∀ as, List.Forall₂ (fun s a => List.Forall₂ (fun c x => s.run c = .ok x) cs a) ss as →
          ∀ (i : Nat) c, cs[i]? = some c →
            Sched.runList c ss = .ok (as.filterMap (fun l => l[i]?)) := by
        intro as h i c hc
        rw [runList_ok_iff]
        have hi := (List.getElem?_eq_some_iff.1 hc).1
        apply col_forall₂ hi _ _ (rows as h).2
        refine h.imp ?_
        intro s a hsa b hb
        exact (forall₂_iff_getElem?.1 hsa).2 i c b hc hb
      simp only [Sched.run, bind_ok_iff, T.merge]
      constructor
      · rintro ⟨as, h0, h1⟩
        have h0' := (key as).1 ((runList_ok_iff _ _ _).1 h0)
        obtain ⟨hne', hlen⟩ := rows as h0'
        unfold tupleMerge at h1
        rw [seqExcept_ok_iff, forall₂_iff_getElem?] at h1
        obtain ⟨h2, h3⟩ := h1
        rw [forall₂_iff_getElem?]
        simp only [List.length_zipWith, List.length_map, zipStar_length as hne' hlen,
          Nat.min_self] at h2
        refine ⟨h2, ?_⟩
        intro i c x hc hx
        have hi := (List.getElem?_eq_some_iff.1 hc).1
        refine ⟨_, cols as h0' i c hc, ?_⟩
        exact h3 i _ x (by simp [List.getElem?_zipWith, hc, zipStar_getElem? as hne' hlen hi]) hx
      · intro h
        obtain ⟨as, has⟩ : ∃ as, List.Forall₂
            (fun s a => List.Forall₂ (fun c x => s.run c = .ok x) cs a) ss as := by
          apply forall₂_exists
          intro s hs
          apply forall₂_exists
          intro c hc
          obtain ⟨i, hi, rfl⟩ := List.mem_iff_getElem.1 hc
          have hi' : i < accs.length := h.length_eq ▸ hi
          obtain ⟨col, hcol, _⟩ := (forall₂_iff_getElem?.1 h).2 i _ _
            (List.getElem?_eq_getElem hi) (List.getElem?_eq_getElem hi')
          obtain ⟨k, hk, rfl⟩ := List.mem_iff_getElem.1 hs
          have hcol' := (runList_ok_iff _ _ _).1 hcol
          have hk' : k < col.length := hcol'.length_eq ▸ hk
          exact ⟨col[k], (forall₂_iff_getElem?.1 hcol').2 k _ _ (List.getElem?_eq_getElem hk)
            (List.getElem?_eq_getElem hk')⟩
        obtain ⟨hne', hlen⟩ := rows as has
        refine ⟨as, (runList_ok_iff _ _ _).2 ((key as).2 has), ?_⟩
        unfold tupleMerge
        rw [seqExcept_ok_iff, forall₂_iff_getElem?]
        simp only [List.length_zipWith, List.length_map, zipStar_length as hne' hlen,
          Nat.min_self]
        refine ⟨h.length_eq, ?_⟩
        intro i x y hx hy
        have hi : i < cs.length := by
          have := (List.getElem?_eq_some_iff.1 hy).1
          have := h.length_eq; omega
        have hc : cs[i]? = some cs[i] := List.getElem?_eq_getElem hi
        simp only [List.getElem?_zipWith, List.getElem?_map, hc, Option.map_some,
          zipStar_getElem? as hne' hlen hi, Option.some.injEq] at hx
        obtain ⟨col, hcol, hm⟩ := (forall₂_iff_getElem?.1 h).2 i _ y hc hy
        rw [cols as has i _ hc] at hcol
        cases hcol
        rw [← hx]; exact hm

end TFT
