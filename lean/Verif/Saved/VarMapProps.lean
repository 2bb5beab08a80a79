import Verif.Saved.LoadLemmas

/-!
# C87: the variables of a loaded transform function

Variables are restored from the checkpoint of the model by a map from the names they had in the
model to the variables of the graph it was loaded into; the parts of a partitioned variable are
restored together under its name.
-/

namespace TFT.SavedLoad

/-- The name of part `i` of a variable. -/
def partName (base : Str) (i : Nat) : Str := base ++ "/part_".toList ++ (toString i).toList

/-- A name that does not look like that of a part. -/
def Whole (name : Str) : Prop :=
  ∀ base digits : Str, (∀ c ∈ digits, c.isDigit) → name ≠ base ++ "/part_".toList ++ digits

/-- The variables of a model in a scope: variables, and partitioned variables with their numbers of
parts. -/
def scopeVars (scope : Str) (single : List Str) (parted : List (Str × Nat)) : List Str :=
  single.map (fun n => scope ++ "/".toList ++ n) ++
    parted.flatMap (fun b => (List.range b.2).map (fun i : Nat => scope ++ "/".toList ++ partName b.1 i))

theorem digits_eq (i : Nat) : (toString i).toList = Nat.toDigits 10 i := by
  show (Nat.repr i).toList = _
  exact Nat.toList_repr

theorem digitsValue_toString (i : Nat) : digitsValue (toString i).toList = i := by
  rw [digits_eq]
  exact Nat.ofDigitChars_toDigits (by omega) (by omega)

theorem toString_digits (i : Nat) : ∀ c ∈ (toString i).toList, c.isDigit := by
  rw [digits_eq]
  exact fun c hc => Nat.isDigit_of_mem_toDigits (by omega) (by omega) hc

theorem toString_ne_nil (i : Nat) : (toString i).toList ≠ [] := by
  rw [digits_eq]
  exact Nat.toDigits_ne_nil

theorem takeWhile_append_stop {p : Char → Bool} (ds rest : Str) (h : ∀ c ∈ ds, p c = true)
    (hr : ∀ c, rest.head? = some c → p c = false) : (ds ++ rest).takeWhile p = ds := by
  induction ds with
  | nil =>
    cases rest with
    | nil => rfl
    | cons c rest => simp [hr c rfl]
  | cons d ds ih =>
    rw [List.cons_append, List.takeWhile_cons, if_pos (h d List.mem_cons_self),
      ih (fun c hc => h c (List.mem_cons_of_mem _ hc))]

theorem mem_takeWhile {p : Char → Bool} {l : Str} {c : Char} (h : c ∈ l.takeWhile p) :
    p c = true := by
  induction l with
  | nil => simp at h
  | cons a l ih =>
    rw [List.takeWhile_cons] at h
    by_cases ha : p a = true
    · rw [if_pos ha] at h
      rcases List.mem_cons.1 h with rfl | h
      · exact ha
      · exact ih h
    · rw [if_neg ha] at h
      simp at h

theorem matchPartition_append (base ds : Str) (h : ∀ c ∈ ds, c.isDigit) :
    matchPartition (base ++ "/part_".toList ++ ds) = some (base, ds) := by
  have hd : (((base ++ "/part_".toList ++ ds).reverse.takeWhile Char.isDigit).reverse) = ds := by
    rw [List.reverse_append, takeWhile_append_stop, List.reverse_reverse]
    · intro c hc
      exact h c (List.mem_reverse.1 hc)
    · intro c hc
      rw [List.reverse_append] at hc
      have : c = '_' := by
        have h2 : ("/part_".toList.reverse ++ base.reverse).head? = some '_' := rfl
        rw [h2] at hc
        exact (Option.some.inj hc).symm
      subst this
      rfl
  have ht : (base ++ "/part_".toList ++ ds).take ((base ++ "/part_".toList ++ ds).length - ds.length)
      = base ++ "/part_".toList := by
    rw [List.length_append, Nat.add_sub_cancel, List.take_left']
    rfl
  unfold matchPartition
  simp only [hd, ht]
  rw [if_pos (by rw [List.isSuffixOf_iff_suffix]; exact ⟨base, rfl⟩)]
  rw [List.length_append, Nat.add_sub_cancel, List.take_left' rfl]

theorem matchPartition_whole (name : Str) (h : Whole name) : matchPartition name = none := by
  unfold matchPartition
  simp only
  rw [if_neg]
  intro hs
  rw [List.isSuffixOf_iff_suffix] at hs
  obtain ⟨base, hb⟩ := hs
  refine h base ((name.reverse.takeWhile Char.isDigit).reverse) ?_ ?_
  · intro c hc
    exact mem_takeWhile (List.mem_reverse.1 hc)
  · rw [hb]
    obtain ⟨t, ht⟩ : ((name.reverse.takeWhile Char.isDigit).reverse) <:+ name := by
      have := List.takeWhile_prefix Char.isDigit (l := name.reverse)
      have h2 := List.reverse_suffix.2 this
      rwa [List.reverse_reverse] at h2
    generalize (name.reverse.takeWhile Char.isDigit).reverse = ds at ht ⊢
    subst ht
    rw [List.length_append, Nat.add_sub_cancel, List.take_left' rfl]

theorem partName_inj {b b' : Str} {i j : Nat} (h : partName b i = partName b' j) :
    b = b' ∧ i = j := by
  have h1 := matchPartition_append b _ (toString_digits i)
  have h2 := matchPartition_append b' _ (toString_digits j)
  unfold partName at h
  rw [h, h2] at h1
  injection h1 with h1
  injection h1 with h1 h3
  refine ⟨h1.symm, ?_⟩
  rw [← digitsValue_toString i, ← digitsValue_toString j, h3]

theorem inScope_scope (scope n : Str) : inScope scope (scope ++ "/".toList ++ n) = some n := by
  unfold inScope scopedName
  rw [if_pos (by
    rw [List.isPrefixOf_iff_prefix]
    exact ⟨n, rfl⟩)]
  congr 1
  rw [show scope.length + 1 = (scope ++ "/".toList).length by simp, List.drop_left' rfl]

theorem inScope_other (scope n : Str) (h : ¬ (scope ++ "/".toList) <+: n) :
    inScope scope n = none := by
  unfold inScope
  rw [if_neg]
  rw [List.isPrefixOf_iff_prefix]
  exact h

/-- What the map says about a name when the variables `done` have been added. -/
structure Collected (scope : Str) (single : List Str) (parted : List (Str × Nat)) (done : List Str)
    (m : List (Str × Slot)) : Prop where
  nodup : (m.map Prod.fst).Nodup
  whole : ∀ n ∈ single, find m n
    = if scope ++ "/".toList ++ n ∈ done then some (.single (scope ++ "/".toList ++ n)) else none
  parts : ∀ b ∈ parted,
    (find m b.1 = none ∧ ∀ i < b.2, scope ++ "/".toList ++ partName b.1 i ∉ done) ∨
    ∃ vs, find m b.1 = some (.parts vs) ∧ 0 < vs.length ∧ vs.length ≤ b.2 ∧
      ∀ i < b.2, (vs[i]?).join = if scope ++ "/".toList ++ partName b.1 i ∈ done
        then some (scope ++ "/".toList ++ partName b.1 i) else none
  other : ∀ n, n ∉ single → n ∉ parted.map Prod.fst → find m n = none

theorem varMap_loop (scope : Str) (single : List Str) (parted : List (Str × Nat))
    (hw : ∀ n ∈ single, Whole n) (hpn : (parted.map Prod.fst).Nodup)
    (hdis : ∀ b ∈ parted, b.1 ∉ single) (vars : List Str)
    (hvars : ∀ v ∈ vars, v ∈ scopeVars scope single parted ∨ ¬ (scope ++ "/".toList) <+: v) :
    ∀ (done : List Str) (m : List (Str × Slot)), (done ++ vars).Nodup →
      Collected scope single parted done m →
      ∃ m', vars.foldlM (addVariable scope) m = .ok m' ∧
        Collected scope single parted (done ++ vars) m' := by
  have cancel : ∀ a b : Str, scope ++ "/".toList ++ a = scope ++ "/".toList ++ b → a = b :=
    fun a b h => List.append_cancel_left h
  induction vars with
  | nil => intro done m _ h; exact ⟨m, rfl, by simpa using h⟩
  | cons v vars ih =>
    intro done m hnd hm
    have hvd : v ∉ done := by
      intro h
      exact (List.nodup_append.1 hnd).2.2 v h v List.mem_cons_self rfl
    have hrest := ih (fun x hx => hvars x (List.mem_cons_of_mem _ hx))
    have hnext : ∀ m', addVariable scope m v = .ok m' →
        Collected scope single parted (done ++ [v]) m' →
        ∃ m'', (v :: vars).foldlM (addVariable scope) m = .ok m'' ∧
          Collected scope single parted (done ++ v :: vars) m'' := by
      intro m' h1 h2
      rw [List.foldlM_cons, h1]
      have h3 : done ++ v :: vars = (done ++ [v]) ++ vars := by simp
      rw [h3] at hnd ⊢
      exact hrest (done ++ [v]) m' hnd h2
    rcases hvars v List.mem_cons_self with hv | hv
    · unfold scopeVars at hv
      rw [List.mem_append] at hv
      rcases hv with hv | hv
      · -- a variable
        obtain ⟨n, hn, rfl⟩ := List.mem_map.1 hv
        refine hnext (put m n (.single (scope ++ "/".toList ++ n))) ?_ ?_
        · unfold addVariable
          rw [inScope_scope]
          simp only
          rw [matchPartition_whole n (hw n hn)]
        · refine ⟨keys_put_nodup _ _ _ hm.nodup, ?_, ?_, ?_⟩
          · intro n' hn'
            rw [find_put]
            by_cases h : n' = n
            · subst h
              rw [if_pos rfl, if_pos (by simp)]
            · rw [if_neg h, hm.whole n' hn']
              congr 1
              rw [List.mem_append, List.mem_singleton]
              exact propext ⟨Or.inl, fun h' => h'.resolve_right (fun h' => h (cancel _ _ h'))⟩
          · intro b hb
            have hbn : b.1 ≠ n := fun h => hdis b hb (h ▸ hn)
            have hmem : ∀ i, (scope ++ "/".toList ++ partName b.1 i
                ∈ done ++ [scope ++ "/".toList ++ n])
                ↔ scope ++ "/".toList ++ partName b.1 i ∈ done := by
              intro i
              rw [List.mem_append, List.mem_singleton]
              refine ⟨fun h' => h'.resolve_right (fun h' => ?_), Or.inl⟩
              exact hw n hn b.1 _ (toString_digits i) (cancel _ _ h').symm
            rw [find_put, if_neg hbn]
            simp only [hmem]
            exact hm.parts b hb
          · intro n' h1 h2
            rw [find_put, if_neg (show ¬ n' = n from fun h => h1 (h ▸ hn))]
            exact hm.other n' h1 h2
      · -- a part
        obtain ⟨⟨b, k⟩, hb, hv⟩ := List.mem_flatMap.1 hv
        obtain ⟨i, hi, rfl⟩ := List.mem_map.1 hv
        rw [List.mem_range] at hi
        simp only at hi hvd hnext ⊢
        -- the parts collected so far
        obtain ⟨vs, hvs, hlen, hget⟩ : ∃ vs, (find m b).getD (.parts []) = .parts vs ∧
            vs.length ≤ k ∧ ∀ j < k, (vs[j]?).join
              = if scope ++ "/".toList ++ partName b j ∈ done
                then some (scope ++ "/".toList ++ partName b j) else none := by
          rcases hm.parts (b, k) hb with ⟨h1, h2⟩ | ⟨vs, h1, -, h2, h3⟩
          · refine ⟨[], by rw [h1]; rfl, Nat.zero_le _, ?_⟩
            intro j hj
            rw [if_neg (h2 j hj)]
            rfl
          · exact ⟨vs, by rw [h1]; rfl, h2, h3⟩
        let padded := vs ++ List.replicate (i + 1 - vs.length) none
        have hpad : ∀ j : Nat, (padded[j]?).join = (vs[j]?).join := by
          intro j
          by_cases h : j < vs.length
          · simp only [padded, List.getElem?_append_left h]
          · simp only [padded, List.getElem?_append_right (Nat.le_of_not_lt h),
              List.getElem?_eq_none (Nat.le_of_not_lt h), List.getElem?_replicate]
            split <;> rfl
        have hplen : padded.length = max vs.length (i + 1) := by
          simp only [padded, List.length_append, List.length_replicate]
          omega
        have hip : i < padded.length := by rw [hplen]; omega
        have hnone : padded[i]? = some none := by
          have h1 := hpad i
          rw [hget i hi, if_neg hvd, List.getElem?_eq_getElem hip] at h1
          rw [List.getElem?_eq_getElem hip]
          exact congrArg some h1
        refine hnext (put m b (.parts (padded.set i (some (scope ++ "/".toList ++ partName b i)))))
          ?_ ?_
        · unfold addVariable
          rw [inScope_scope]
          simp only
          rw [show partName b i = b ++ "/part_".toList ++ (toString i).toList from rfl,
            matchPartition_append b _ (toString_digits i)]
          simp only
          rw [if_neg (toString_ne_nil i), digitsValue_toString, hvs]
          simp only
          rw [show vs ++ List.replicate (i + 1 - vs.length) none = padded from rfl, hnone]
        · have hinj : ∀ b' j, (scope ++ "/".toList ++ partName b' j
              ∈ done ++ [scope ++ "/".toList ++ partName b i])
              ↔ (scope ++ "/".toList ++ partName b' j ∈ done ∨ (b' = b ∧ j = i)) := by
            intro b' j
            rw [List.mem_append, List.mem_singleton]
            constructor
            · rintro (h | h)
              · exact Or.inl h
              · exact Or.inr (partName_inj (cancel _ _ h))
            · rintro (h | ⟨rfl, rfl⟩)
              · exact Or.inl h
              · exact Or.inr rfl
          refine ⟨keys_put_nodup _ _ _ hm.nodup, ?_, ?_, ?_⟩
          · intro n' hn'
            have hne : n' ≠ b := fun h => hdis (b, k) hb (h ▸ hn')
            rw [find_put, if_neg hne, hm.whole n' hn']
            congr 1
            rw [List.mem_append, List.mem_singleton]
            refine propext ⟨Or.inl, fun h' => h'.resolve_right (fun h' => ?_)⟩
            exact hw n' hn' b _ (toString_digits i) (cancel _ _ h')
          · rintro ⟨b', k'⟩ hb'
            simp only [hinj]
            rw [find_put]
            by_cases h : b' = b
            · subst h
              have hkk : k' = k := by
                have e1 := find_of_mem hpn hb
                have e2 := find_of_mem hpn hb'
                rw [e1] at e2
                exact (Option.some.inj e2).symm
              subst hkk
              right
              refine ⟨_, if_pos rfl, ?_, ?_, ?_⟩
              · rw [List.length_set]; omega
              · rw [List.length_set, hplen]; omega
              · intro j hj
                by_cases hji : j = i
                · subst hji
                  rw [List.getElem?_set_self hip, if_pos (Or.inr ⟨rfl, rfl⟩)]
                  rfl
                · rw [List.getElem?_set_ne (fun h => hji h.symm), hpad, hget j hj]
                  simp only [hji, and_false, or_false]
            · rw [if_neg h]
              simp only [h, false_and, or_false]
              exact hm.parts (b', k') hb'
          · intro n' h1 h2
            rw [find_put, if_neg (show ¬ n' = b from fun h =>
              h2 (h ▸ List.mem_map_of_mem (f := Prod.fst) hb))]
            exact hm.other n' h1 h2
    · -- a variable of the host
      refine hnext m ?_ ?_
      · unfold addVariable
        rw [inScope_other _ _ hv]
      · have hmem : ∀ x, (scope ++ "/".toList ++ x ∈ done ++ [v])
            ↔ scope ++ "/".toList ++ x ∈ done := by
          intro x
          rw [List.mem_append, List.mem_singleton]
          exact ⟨fun h => h.resolve_right (fun h => hv (h ▸ ⟨x, rfl⟩)), Or.inl⟩
        refine ⟨hm.nodup, ?_, ?_, hm.other⟩
        · intro n hn
          simp only [hmem]
          exact hm.whole n hn
        · intro b hb
          simp only [hmem]
          exact hm.parts b hb

/-- **C87**, variables, partial: in whatever order TensorFlow lists the variables of the graph, among
which are those of the host, every variable of the model is restored under the name it had there, a
partitioned variable with its parts in their order, and nothing else is restored. Missing: variables
whose names end in `/part_` (`empty_part_refused`), and a variable with the name of a partitioned one
(`same_name_refused`). -/
theorem variables_restored_partial (scope : Str) (host single : List Str)
    (parted : List (Str × Nat)) (hhost : ∀ v ∈ host, ¬ (scope ++ "/".toList) <+: v)
    (hw : ∀ n ∈ single, Whole n) (hpn : (parted.map Prod.fst).Nodup)
    (hpos : ∀ b ∈ parted, 0 < b.2) (hdis : ∀ b ∈ parted, b.1 ∉ single) (vars : List Str)
    (hn : vars.Nodup) (hvars : vars.Perm (host ++ scopeVars scope single parted)) :
    ∃ m, varMap scope vars = .ok m ∧ (m.map Prod.fst).Nodup ∧
      ∀ name slot, (name, slot) ∈ m ↔
        (name ∈ single ∧ slot = .single (scope ++ "/".toList ++ name)) ∨
        (∃ k, (name, k) ∈ parted ∧ slot = .parts ((List.range k).map
          (fun i : Nat => some (scope ++ "/".toList ++ partName name i)))) := by
  obtain ⟨m, h1, h2⟩ := varMap_loop scope single parted hw hpn hdis vars (by
      intro v hv
      rcases List.mem_append.1 (hvars.mem_iff.1 hv) with h | h
      · exact Or.inr (hhost v h)
      · exact Or.inl h) [] [] (by simpa using hn)
    ⟨by simp, by simp [find_nil], by simp [find_nil], by simp [find_nil]⟩
  rw [List.nil_append] at h2
  have hsingle : ∀ n ∈ single, find m n = some (.single (scope ++ "/".toList ++ n)) := by
    intro n hn'
    rw [h2.whole n hn', if_pos]
    rw [hvars.mem_iff]
    exact List.mem_append_right _ (List.mem_append_left _ (List.mem_map.2 ⟨n, hn', rfl⟩))
  have hparts : ∀ b ∈ parted, find m b.1 = some (.parts ((List.range b.2).map
      (fun i : Nat => some (scope ++ "/".toList ++ partName b.1 i)))) := by
    intro b hb
    have hin : ∀ i < b.2, scope ++ "/".toList ++ partName b.1 i ∈ vars := by
      intro i hi
      rw [hvars.mem_iff]
      refine List.mem_append_right _ (List.mem_append_right _ ?_)
      exact List.mem_flatMap.2 ⟨b, hb, List.mem_map.2 ⟨i, List.mem_range.2 hi, rfl⟩⟩
    rcases h2.parts b hb with ⟨-, h3⟩ | ⟨vs, h3, -, h4, h5⟩
    · exact absurd (hin 0 (hpos b hb)) (h3 0 (hpos b hb))
    · rw [h3]
      congr 2
      have hlen : vs.length = b.2 := by
        refine Nat.le_antisymm h4 ?_
        by_contra hlt
        have := h5 vs.length (by omega)
        rw [if_pos (hin _ (by omega)), List.getElem?_eq_none (Nat.le_refl _)] at this
        simp at this
      apply List.ext_getElem?
      intro i
      by_cases hi : i < b.2
      · have := h5 i hi
        rw [if_pos (hin i hi), List.getElem?_eq_getElem (by omega)] at this
        rw [List.getElem?_eq_getElem (by omega), List.getElem?_map, List.getElem?_range hi]
        exact congrArg some this
      · rw [List.getElem?_eq_none (by omega), List.getElem?_eq_none (by simp; omega)]
  refine ⟨m, h1, h2.nodup, ?_⟩
  intro name slot
  constructor
  · intro h
    have hf := find_of_mem h2.nodup h
    by_cases hs : name ∈ single
    · rw [hsingle name hs] at hf
      exact Or.inl ⟨hs, (Option.some.inj hf).symm⟩
    · by_cases hp : name ∈ parted.map Prod.fst
      · obtain ⟨b, hb, rfl⟩ := List.mem_map.1 hp
        rw [hparts b hb] at hf
        exact Or.inr ⟨b.2, hb, (Option.some.inj hf).symm⟩
      · rw [h2.other name hs hp] at hf
        cases hf
  · rintro (⟨hs, rfl⟩ | ⟨k, hk, rfl⟩)
    · exact find_mem (hsingle name hs)
    · exact find_mem (hparts (name, k) hk)

/-- **C87 fails**: a model with a variable whose name ends in `/part_` cannot be loaded. -/
theorem empty_part_refused (scope base : Str) :
    varMap scope [scope ++ "/".toList ++ (base ++ "/part_".toList)]
      = .error "ValueError: invalid literal for int() with base 10: ''" := by
  have h := matchPartition_append base [] (by simp)
  rw [List.append_nil] at h
  unfold varMap
  rw [List.foldlM_cons]
  unfold addVariable
  rw [inScope_scope]
  simp only
  rw [h]
  rfl

/-- **C87 fails**: a model with a variable `x` and another one called `x/part_0` cannot be loaded, or
one of them is not restored, depending on the order of the variables. -/
theorem same_name_refused :
    varMap "s".toList ["s/x".toList, "s/x/part_0".toList]
      = .error "TypeError: object has no len()" ∧
    varMap "s".toList ["s/x/part_0".toList, "s/x".toList]
      = .ok [("x".toList, .single "s/x".toList)] := by
  constructor <;> decide +kernel

/-- The hypotheses can be met: parts in any order, between variables of the host and of the
model. -/
example : (∀ v ∈ ["a".toList], ¬ ("s".toList ++ "/".toList) <+: v) ∧ Whole "b".toList ∧
    ["s/x/part_1".toList, "a".toList, "s/b".toList, "s/x/part_0".toList].Perm
      (["a".toList] ++ scopeVars "s".toList ["b".toList] [("x".toList, 2)]) ∧
    varMap "s".toList ["s/x/part_1".toList, "a".toList, "s/b".toList, "s/x/part_0".toList]
      = .ok [("b".toList, .single "s/b".toList),
          ("x".toList, .parts [some "s/x/part_0".toList, some "s/x/part_1".toList])] := by
  refine ⟨by decide, ?_, by decide +kernel, by decide +kernel⟩
  intro base digits _ h
  have := congrArg List.length h
  simp at this
  omega

end TFT.SavedLoad
