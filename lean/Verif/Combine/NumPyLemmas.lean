import Verif.Combine.NumPy
import Verif.Combine.SchedLemmas
import Verif.Combine.Stats
import Mathlib.Data.List.GetD
import Mathlib.Tactic.Linarith
import Mathlib.Tactic.Ring

namespace TFT

open Spec

variable {α β : Type}

theorem colData_append (l m : List (ColBatch β)) (p : Nat) :
    colData (l ++ m) p = colData l p ++ colData m p := by simp [colData]

theorem colData_nil (p : Nat) : colData ([] : List (ColBatch β)) p = [] := rfl

theorem colData_perm {l m : List (ColBatch β)} (h : l.Perm m) (p : Nat) :
    (colData l p).Perm (colData m p) := h.flatMap_right _

/-- What is needed of a reduction: `Rel j v l` says that `v` is the value that output `j`
must have after a column of data `l`. -/
structure ColLaw (op : α → α → α) (d : α) (sh : List Nat) (k : Nat)
    (Rel : Nat → α → List β → Prop) : Prop where
  nil : ∀ j, Rel j d []
  perm : ∀ j v l m, l.Perm m → Rel j v l → Rel j v m
  app : ∀ j a b l m, Rel j a l → Rel j b m → Rel j (op a b) (l ++ m)
  drop : sh = [] → ∀ m, (∀ j, j < k → ∃ v, Rel j v m ∧ (j = 0 → v = d)) →
    ∀ j, j < k → ∀ a l, Rel j a l → Rel j a (l ++ m)

/-- An array is right for the batches `bs`. -/
structure NdRel (Rel : α → List β → Prop) (sh : List Nat) (a : Nd α) (bs : List (ColBatch β)) :
    Prop where
  shape : a.shape = sh
  len : a.data.length = sh.prod
  val : ∀ p v, a.data[p]? = some v → Rel v (colData bs p)

theorem reduce0_rel {op : α → α → α} {d : α} {sh k} {Rel : Nat → α → List β → Prop}
    (L : ColLaw op d sh k Rel) (j : Nat) (as : List (Nd α)) (bss : List (List (ColBatch β)))
    (hne : as ≠ []) (h : List.Forall₂ (NdRel (Rel j) sh) as bss) :
    ∃ r, Nd.reduce0 op as = .ok r ∧ NdRel (Rel j) sh r bss.flatten := by
  have fold : ∀ (as : List (Nd α)) (bss : List (List (ColBatch β))),
      List.Forall₂ (NdRel (Rel j) sh) as bss → ∀ a bs, NdRel (Rel j) sh a bs →
      ∃ r, as.foldlM (Nd.combine2 op) a = .ok r ∧ NdRel (Rel j) sh r (bs ++ bss.flatten) := by
    intro as bss h
    induction h with
    | nil => intro a bs ha; exact ⟨a, rfl, by simpa using ha⟩
    | @cons b cs as bss hb _ ih =>
      intro a bs ha
      have hab : NdRel (Rel j) sh ⟨a.shape, List.zipWith op a.data b.data⟩ (bs ++ cs) := by
        refine ⟨ha.shape, by simp [ha.len, hb.len], ?_⟩
        intro p v hv
        rw [List.getElem?_zipWith] at hv
        rcases h1 : a.data[p]? with _ | x
        · simp [h1] at hv
        rcases h2 : b.data[p]? with _ | y
        · simp [h1, h2] at hv
        simp only [h1, h2, Option.some.injEq] at hv
        subst hv
        rw [colData_append]
        exact L.app j _ _ _ _ (ha.val p x h1) (hb.val p y h2)
      obtain ⟨r, hr, hR⟩ := ih _ _ hab
      refine ⟨r, ?_, by simpa using hR⟩
      rw [List.foldlM_cons]
      have : Nd.combine2 op a b = .ok ⟨a.shape, List.zipWith op a.data b.data⟩ := by
        simp [Nd.combine2, ha.shape, hb.shape]
      rw [this]
      exact hr
  cases h with
  | nil => exact absurd rfl hne
  | @cons a bs as bss ha h =>
    obtain ⟨r, hr, hR⟩ := fold as bss h a bs ha
    exact ⟨r, hr, by simpa using hR⟩

/-- The invariant of accumulators. -/
def AccRel (Rel : Nat → α → List β → Prop) (d : α) (sh : List Nat) (known : Bool) (k : Nat)
    (acc : List (Nd α)) (bs : List (ColBatch β)) : Prop :=
  (acc.length = k ∧ ∀ j a, acc[j]? = some a → NdRel (Rel j) sh a bs) ∨
  (known = false ∧ bs = [] ∧ acc = List.replicate k (Nd.scalar d))

theorem NdRel.perm {op : α → α → α} {d : α} {sh k} {Rel : Nat → α → List β → Prop}
    (L : ColLaw op d sh k Rel) {j a bs bs'} (h : bs.Perm bs') (g : NdRel (Rel j) sh a bs) :
    NdRel (Rel j) sh a bs' :=
  ⟨g.shape, g.len, fun p v hv => L.perm j v _ _ (colData_perm h p) (g.val p v hv)⟩

theorem AccRel.perm {op : α → α → α} {d : α} {sh known k} {Rel : Nat → α → List β → Prop}
    (L : ColLaw op d sh k Rel) {acc bs bs'} (h : bs.Perm bs')
    (g : AccRel Rel d sh known k acc bs) : AccRel Rel d sh known k acc bs' := by
  rcases g with ⟨g1, g2⟩ | ⟨g1, g2, g3⟩
  · exact .inl ⟨g1, fun j a ha => (g2 j a ha).perm L h⟩
  · subst g2; exact .inr ⟨g1, h.nil_eq.symm, g3⟩

theorem full_rel {op : α → α → α} {d : α} {sh k} {Rel : Nat → α → List β → Prop}
    (L : ColLaw op d sh k Rel) (j : Nat) : NdRel (Rel j) sh (Nd.full sh d) [] := by
  refine ⟨rfl, by simp [Nd.full], ?_⟩
  intro p v hv
  simp only [Nd.full, List.getElem?_replicate] at hv
  split at hv
  · simp only [Option.some.injEq] at hv; subst hv; exact L.nil j
  · simp at hv

theorem create_rel {op : α → α → α} {d : α} {sh k} {Rel : Nat → α → List β → Prop}
    (L : ColLaw op d sh k Rel) (known : Bool) :
    AccRel Rel d sh known k
      ((List.replicate k (if known then some sh else none)).map (createSub d)) [] := by
  cases known with
  | false => right; simp [createSub]
  | true =>
    left
    refine ⟨by simp, ?_⟩
    intro j a ha
    simp only [if_true, createSub, List.map_replicate, List.getElem?_replicate] at ha
    split at ha
    · simp only [Option.some.injEq] at ha; subst ha; exact full_rel L j
    · simp at ha

/-- A default accumulator that is right for `m`: its data do not matter to any output. -/
theorem default_neutral [DecidableEq α] {op : α → α → α} {d : α} {sh known k}
    {Rel : Nat → α → List β → Prop} (L : ColLaw op d sh k Rel)
    {acc m} (h : AccRel Rel d sh known k acc m) (hd : isDefaultAcc d acc = true) :
    ∀ j, j < k → ∀ a l, NdRel (Rel j) sh a l → NdRel (Rel j) sh a (l ++ m) := by
  intro j hj a l hal
  rcases h with ⟨h1, h2⟩ | ⟨_, h2, _⟩
  · cases acc with
    | nil => simp [isDefaultAcc] at hd
    | cons a0 acc =>
      simp only [isDefaultAcc, isDefaultSub, decide_eq_true_eq] at hd
      have hsh : sh = [] := by
        have := (h2 0 a0 (by simp)).shape
        rw [hd] at this; exact this.symm
      subst hsh
      refine ⟨hal.shape, hal.len, ?_⟩
      intro p v hv
      have hp : p = 0 := by
        have := List.getElem?_eq_some_iff.1 hv
        obtain ⟨hp, _⟩ := this
        have := hal.len
        simp at this
        omega
      subst hp
      rw [colData_append]
      refine L.drop rfl _ ?_ j hj v _ (hal.val 0 v hv)
      intro i hi
      have hi' : i < (a0 :: acc).length := by omega
      have hr := h2 i _ (List.getElem?_eq_getElem hi')
      have hl : 0 < ((a0 :: acc)[i]).data.length := by rw [hr.len]; simp
      refine ⟨((a0 :: acc)[i]).data[0], hr.val 0 _ (List.getElem?_eq_getElem hl), ?_⟩
      intro h0
      subst h0
      simp [hd, Nd.scalar]
  · subst h2; simpa using hal

theorem seqExcept_ok {γ : Type} (xs : List (Except Err γ)) (ys : List γ)
    (h : List.Forall₂ (fun x y => x = .ok y) xs ys) : seqExcept xs = .ok ys := by
  induction h with
  | nil => rfl
  | cons h1 _ ih => simp [seqExcept, h1, ih, bind, Except.bind]

theorem seqExcept_of {γ : Type} (xs : List (Except Err γ)) (Q : Nat → γ → Prop)
    (h : ∀ j x, xs[j]? = some x → ∃ y, x = .ok y ∧ Q j y) :
    ∃ ys, seqExcept xs = .ok ys ∧ ys.length = xs.length ∧ ∀ j y, ys[j]? = some y → Q j y := by
  induction xs generalizing Q with
  | nil => exact ⟨[], rfl, rfl, by simp⟩
  | cons x xs ih =>
    obtain ⟨y, hy, hQ⟩ := h 0 x (by simp)
    obtain ⟨ys, h1, h2, h3⟩ := ih (fun j => Q (j + 1)) (fun j x hx => h (j + 1) x (by simpa using hx))
    refine ⟨y :: ys, by simp [seqExcept, hy, h1, bind, Except.bind], by simp [h2], ?_⟩
    intro j z hz
    cases j with
    | zero => simp only [List.getElem?_cons_zero, Option.some.injEq] at hz; subst hz; exact hQ
    | succ j => exact h3 j z (by simpa using hz)

theorem zipLen_eq {γ : Type} (ls : List (List γ)) (k : Nat) (hne : ls ≠ [])
    (h : ∀ l ∈ ls, l.length = k) : zipLen ls = k := by
  induction ls with
  | nil => exact absurd rfl hne
  | cons l ls ih =>
    cases ls with
    | nil => exact h l (by simp)
    | cons m ms =>
      simp only [zipLen]
      rw [ih (by simp) (fun x hx => h x (by simp [hx])), h l (by simp)]
      simp

/-- A non-default accumulator that is right has the right arrays. -/
theorem nonDefault_rel [DecidableEq α] {d : α} {sh known k} (hk : 0 < k)
    {Rel : Nat → α → List β → Prop} {acc m} (h : AccRel Rel d sh known k acc m)
    (hd : isDefaultAcc d acc = false) :
    acc.length = k ∧ ∀ j a, acc[j]? = some a → NdRel (Rel j) sh a m := by
  rcases h with h | ⟨_, _, h3⟩
  · exact h
  · subst h3
    obtain ⟨k, rfl⟩ : ∃ k', k = k' + 1 := ⟨k - 1, by omega⟩
    simp [List.replicate_succ, isDefaultAcc, isDefaultSub] at hd

/-- A default accumulator of non-scalar shape has seen nothing. -/
theorem default_nil [DecidableEq α] {d : α} {sh known k}
    {Rel : Nat → α → List β → Prop}
    {acc m} (h : AccRel Rel d sh known k acc m) (hd : isDefaultAcc d acc = true)
    (hsh : sh ≠ []) : m = [] := by
  rcases h with ⟨_, h2⟩ | ⟨_, h2, _⟩
  · cases acc with
    | nil => simp [isDefaultAcc] at hd
    | cons a0 acc =>
      simp only [isDefaultAcc, isDefaultSub, decide_eq_true_eq] at hd
      have := (h2 0 a0 (by simp)).shape
      rw [hd] at this
      exact absurd this.symm hsh
  · exact h2

theorem merge_rel [DecidableEq α] {op : α → α → α} {d : α} {sh known k} (hk : 0 < k)
    {Rel : Nat → α → List β → Prop} (L : ColLaw op d sh k Rel)
    (accs : List (List (Nd α))) (bss : List (List (ColBatch β)))
    (h : List.Forall₂ (AccRel Rel d sh known k) accs bss) (cast : α → α) :
    ∃ r, (npCombiner op d (List.replicate k (if known then some sh else none)) cast).merge accs
        = .ok r ∧ AccRel Rel d sh known k r bss.flatten := by
  simp only [npCombiner]
  -- the non-default accumulators, with their data, and the neutral rest
  have split : ∃ (bss' : List (List (ColBatch β))) (rest : List (ColBatch β)),
      List.Forall₂ (fun acc m => acc.length = k ∧
          ∀ j a, acc[j]? = some a → NdRel (Rel j) sh a m)
        (accs.filter (fun acc => !isDefaultAcc d acc)) bss' ∧
      (bss'.flatten ++ rest).Perm bss.flatten ∧
      (∀ j, j < k → ∀ a l, NdRel (Rel j) sh a l → NdRel (Rel j) sh a (l ++ rest)) ∧
      (sh ≠ [] → rest = []) := by
    induction h with
    | nil => exact ⟨[], [], by simp, by simp, by intro j _ a l h; simpa using h, fun _ => rfl⟩
    | @cons acc m accs bss ha _ ih =>
      obtain ⟨bss', rest, h1, h2, h3, h4⟩ := ih
      cases hd : isDefaultAcc d acc with
      | false =>
        refine ⟨m :: bss', rest, ?_, ?_, h3, h4⟩
        · simp only [List.filter_cons, hd, Bool.not_false, if_true]
          exact List.Forall₂.cons (nonDefault_rel hk ha hd) h1
        · simpa using h2.append_left m
      | true =>
        refine ⟨bss', rest ++ m, ?_, ?_, ?_, ?_⟩
        · simp only [List.filter_cons, hd, Bool.not_true, Bool.false_eq_true, if_false]
          exact h1
        · rw [← List.append_assoc]
          refine (List.perm_append_comm).trans ?_
          simpa using h2.append_left m
        · have hn := default_neutral L ha hd
          intro j hj a l hal
          have := hn j hj a _ (h3 j hj a l hal)
          simpa using this
        · intro hsh
          simp [h4 hsh, default_nil ha hd hsh]
  obtain ⟨bss', rest, h1, h2, h3, h4⟩ := split
  generalize accs.filter (fun acc => !isDefaultAcc d acc) = nd at *
  have finish : ∀ r, (r.length = k ∧ ∀ j a, r[j]? = some a → NdRel (Rel j) sh a (bss'.flatten)) →
      AccRel Rel d sh known k r bss.flatten := by
    intro r hr
    left
    refine ⟨hr.1, fun j a ha => ?_⟩
    have hj : j < k := by
      have := (List.getElem?_eq_some_iff.1 ha).1
      omega
    exact (h3 j hj a _ (hr.2 j a ha)).perm L h2
  cases nd with
  | nil =>
    refine ⟨(List.replicate k (if known then some sh else none)).map (createSub d), rfl, ?_⟩
    cases h1
    rcases create_rel (k := k) L known with hc | ⟨hc1, _, hc3⟩
    · exact finish _ (by simpa using hc)
    · -- unknown shape: all accumulators were defaults
      by_cases hsh : sh = []
      · subst hsh
        have e : ((List.replicate k (if known = true then some ([] : List Nat) else none)).map
            (createSub d)) = List.replicate k (Nd.full [] d) := by
          subst hc1; simp [createSub, Nd.full, Nd.scalar]
        rw [e]
        refine finish _ ⟨by simp, ?_⟩
        intro j a ha
        simp only [List.getElem?_replicate] at ha
        split at ha
        · simp only [Option.some.injEq] at ha; subst ha; exact full_rel L j
        · simp at ha
      · have hr := h4 hsh
        subst hr
        have : bss.flatten = [] := by simpa using h2.nil_eq.symm
        rw [this]; exact create_rel L known
  | cons acc nd =>
    simp only [List.isEmpty_cons, Bool.false_eq_true, if_false]
    have hlen : ∀ l ∈ acc :: nd, l.length = k := by
      intro l hl
      obtain ⟨i, hi, rfl⟩ := List.getElem_of_mem hl
      have := (List.forall₂_iff_get.1 h1).2 i hi (by rw [← h1.length_eq]; exact hi)
      exact this.1
    have hz : zipLen (acc :: nd) = k := zipLen_eq _ k (by simp) hlen
    obtain ⟨r, hr1, hr2, hr3⟩ := seqExcept_of ((zipStar (acc :: nd)).map (Nd.reduce0 op))
      (fun j y => NdRel (Rel j) sh y bss'.flatten) (by
        intro j x hx
        simp only [zipStar, hz, List.map_map, List.getElem?_map, Option.map_eq_some_iff] at hx
        obtain ⟨j', hj', rfl⟩ := hx
        have hj : j < k ∧ j' = j := by
          have := List.getElem?_eq_some_iff.1 hj'
          obtain ⟨hj1, hj2⟩ := this
          simp at hj1 hj2
          exact ⟨hj1, hj2.symm⟩
        obtain ⟨hjk, rfl⟩ := hj
        simp only [Function.comp_apply]
        have key : ∀ (ls : List (List (Nd α))) (ms : List (List (ColBatch β))),
            List.Forall₂ (fun acc m => acc.length = k ∧
              ∀ j a, acc[j]? = some a → NdRel (Rel j) sh a m) ls ms →
            List.Forall₂ (NdRel (Rel j') sh) (ls.filterMap (fun l => l[j']?)) ms := by
          intro ls ms h
          induction h with
          | nil => simp
          | @cons l m ls ms hl _ ih =>
            have hl' : j' < l.length := by rw [hl.1]; exact hjk
            have e : l[j']? = some l[j'] := List.getElem?_eq_getElem hl'
            simp only [List.filterMap_cons, e]
            exact List.Forall₂.cons (hl.2 j' _ e) ih
        have hF := key _ _ h1
        refine reduce0_rel L j' _ _ ?_ hF
        intro hnil
        rw [hnil] at hF
        have := hF.length_eq
        have h1l := h1.length_eq
        simp at this h1l
        omega)
    refine ⟨r, hr1, finish r ⟨?_, hr3⟩⟩
    rw [hr2]; simp [zipStar, hz]

theorem add_rel [DecidableEq α] {op : α → α → α} {d : α} {sh known k} (hk : 0 < k)
    {Rel : Nat → α → List β → Prop} (L : ColLaw op d sh k Rel)
    (acc : List (Nd α)) (bs : List (ColBatch β)) (b : ColBatch β) (vals : List (Nd α))
    (h : AccRel Rel d sh known k acc bs) (hl : vals.length = k)
    (hb : ∀ j a, vals[j]? = some a → NdRel (Rel j) sh a [b]) (cast : α → α) :
    ∃ r, (npCombiner op d (List.replicate k (if known then some sh else none)) cast).addInput
        acc vals = .ok r ∧ AccRel Rel d sh known k r (bs ++ [b]) := by
  simp only [npCombiner]
  cases hd : isDefaultAcc d acc with
  | true =>
    refine ⟨vals, by simp, .inl ⟨hl, ?_⟩⟩
    intro j a ha
    have hj : j < k := by
      have := (List.getElem?_eq_some_iff.1 ha).1
      omega
    exact (default_neutral L h hd j hj a _ (hb j a ha)).perm L List.perm_append_comm
  | false =>
    obtain ⟨h1, h2⟩ := nonDefault_rel hk h hd
    simp only [Bool.false_eq_true, if_false]
    obtain ⟨r, hr1, hr2, hr3⟩ := seqExcept_of
      (List.zipWith (fun a b => Nd.reduce0 op [a, b]) acc vals)
      (fun j y => NdRel (Rel j) sh y (bs ++ [b])) (by
        intro j x hx
        rw [List.getElem?_zipWith] at hx
        rcases e1 : acc[j]? with _ | x1
        · simp [e1] at hx
        rcases e2 : vals[j]? with _ | x2
        · simp [e1, e2] at hx
        simp only [e1, e2, Option.some.injEq] at hx
        subst hx
        have := reduce0_rel L j [x1, x2] [bs, [b]] (by simp)
          (List.Forall₂.cons (h2 j x1 e1) (List.Forall₂.cons (hb j x2 e2) List.Forall₂.nil))
        simpa using this)
    refine ⟨r, hr1, .inl ⟨?_, hr3⟩⟩
    simp [hr2, h1, hl]

/-- Every reduction that obeys the law is computed by `NumPyCombiner`, on batches that are
turned into right arrays by `f`. -/
theorem np_total [DecidableEq α] {op : α → α → α} {d : α} {sh known k} (hk : 0 < k)
    {Rel : Nat → α → List β → Prop} (L : ColLaw op d sh k Rel) (cast : α → α)
    (f : ColBatch β → List (Nd α)) (P : ColBatch β → Prop)
    (hf : ∀ b, P b → (f b).length = k ∧ ∀ j a, (f b)[j]? = some a → NdRel (Rel j) sh a [b]) :
    Sched.Total
      ((npCombiner op d (List.replicate k (if known then some sh else none)) cast).onBatches f)
      P (AccRel Rel d sh known k) :=
  Sched.Total.onBatches f (create_rel L known)
    (fun acc bs b h hP => add_rel hk L acc bs b (f b) h (hf b hP).1 (hf b hP).2 cast)
    (fun accs bss _ h => merge_rel hk L accs bss h cast)
    (fun a _ h => ⟨a, rfl, h⟩)

end TFT
