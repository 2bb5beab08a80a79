import Verif.Cache.FsLemmas
import Mathlib.Data.List.Nodup

/-!
# Properties of the cache directory (C28, C29)
-/

set_option linter.unusedSectionVars false

namespace TFT.CacheFs

variable {K Rec : Type} [DecidableEq K]

/-! ### Specification: histories -/

/-- What happened to the directory of a dataset: a write that completed, or one that stopped
after `n` of its atomic changes. -/
inductive Event (K Rec : Type) where
  | completed (es : Entries K Rec)
  | crashed (es : Entries K Rec) (n : Nat)

/-- A write is a dict, and a sink writes at least one shard. -/
def ValidWrite (es : Entries K Rec) : Prop := (es.map Prod.fst).Nodup ∧ ∀ e ∈ es, e.2 ≠ []

/-- The directories that a history may leave behind. -/
inductive After : List (Event K Rec) → Dir K Rec → Prop
  | start : After [] ⟨none, []⟩
  | completed {h d es acts} : After h d → ValidWrite es → IsRun d es acts →
      After (h ++ [.completed es]) (applyActs d acts)
  | crashed {h d es acts} (n : Nat) : After h d → ValidWrite es → IsRun d es acts →
      After (h ++ [.crashed es n]) (applyActs d (acts.take n))

/-- The last thing that happened to a key: a complete write of these shards, or a write that
stopped while the pipeline was running, with the key already in the manifest. -/
inductive Last (Rec : Type) where
  | complete (shards : List (List Rec))
  | torn (shards : List (List Rec))

def Event.mention (k : K) : Event K Rec → Option (Last Rec)
  | .completed es => (es.lookup k).map .complete
  | .crashed es n => if n < 3 then none else (es.lookup k).map .torn

def lastMention (h : List (Event K Rec)) (k : K) : Option (Last Rec) :=
  h.reverse.findSome? (Event.mention k)

/-- The event did not stop while the manifest was being replaced. -/
def Event.KeepsManifest : Event K Rec → Prop
  | .completed _ => True
  | .crashed _ n => n = 0 ∨ 3 ≤ n

/-! ### Index allocation -/

theorem startIdx_le_iff (m : List (K × Nat)) (i : Nat) :
    startIdx m ≤ i ↔ ∀ e ∈ m, e.2 < i := by
  have key : ∀ l : List Nat, ∀ i, l.foldr max 0 ≤ i ↔ ∀ x ∈ l, x ≤ i := by
    intro l i
    induction l with
    | nil => simp
    | cons a l ih => simp [ih]
  cases m with
  | nil => simp [startIdx]
  | cons e m =>
    cases i with
    | zero =>
      simp only [startIdx]
      constructor
      · intro h; omega
      · intro h; exact absurd (h e (by simp)) (by omega)
    | succ i =>
      simp only [startIdx, Nat.succ_le_succ_iff]
      rw [key]
      constructor
      · intro h x hx
        exact Nat.lt_succ_of_le (h x.2 (List.mem_map_of_mem hx))
      · intro h x hx
        obtain ⟨y, hy, rfl⟩ := List.mem_map.mp hx
        exact Nat.le_of_lt_succ (h y hy)

theorem mem_setKey (m : List (K × Nat)) (k : K) (i : Nat) : (k, i) ∈ setKey m k i := by
  unfold setKey
  split
  · rename_i h
    obtain ⟨e, he, hk⟩ := List.mem_map.mp h
    exact List.mem_map.mpr ⟨e, he, by rw [if_pos hk]⟩
  · simp

theorem setKey_lt (m : List (K × Nat)) (k : K) (i : Nat) (h : ∀ e ∈ m, e.2 < i) :
    ∀ e ∈ setKey m k i, e.2 < i + 1 := by
  intro e he
  unfold setKey at he
  split at he
  · obtain ⟨e', he', rfl⟩ := List.mem_map.mp he
    split
    · simp
    · exact Nat.lt_succ_of_lt (h e' he')
  · rcases List.mem_append.mp he with he | he
    · exact Nat.lt_succ_of_lt (h e he)
    · simp at he; simp [he]

theorem startIdx_setKey (m : List (K × Nat)) (k : K) (i : Nat) (h : startIdx m ≤ i) :
    startIdx (setKey m k i) = i + 1 := by
  apply le_antisymm
  · rw [startIdx_le_iff] at h ⊢
    exact setKey_lt m k i h
  · by_contra hlt
    have : startIdx (setKey m k i) ≤ i := by omega
    rw [startIdx_le_iff] at this
    exact absurd (this _ (mem_setKey m k i)) (lt_irrefl _)

theorem startIdx_assign (m : List (K × Nat)) (i : Nat) (es : Entries K Rec)
    (h : startIdx m ≤ i) : startIdx (assign m i es) ≤ i + es.length ∧
      (es ≠ [] → i + es.length ≤ startIdx (assign m i es)) ∧
      startIdx m ≤ startIdx (assign m i es) := by
  induction es generalizing m i with
  | nil => simp [assign, h]
  | cons e es ih =>
    have h1 := startIdx_setKey m e.1 i h
    obtain ⟨ha, hb, hc⟩ := ih (setKey m e.1 i) (i + 1) h1.le
    simp only [assign, List.length_cons]
    refine ⟨by omega, fun _ => ?_, by omega⟩
    cases es with
    | nil => simp only [List.length_nil]; omega
    | cons e' es => have := hb (by simp); omega

theorem keys_setKey (m : List (K × Nat)) (k : K) (i : Nat) :
    (setKey m k i).map Prod.fst
      = if k ∈ m.map Prod.fst then m.map Prod.fst else m.map Prod.fst ++ [k] := by
  unfold setKey
  split
  · rw [List.map_map]
    apply List.map_congr_left
    intro e _
    simp only [Function.comp]
    split <;> simp [*]
  · simp

theorem nodup_setKey (m : List (K × Nat)) (k : K) (i : Nat) (h : (m.map Prod.fst).Nodup) :
    ((setKey m k i).map Prod.fst).Nodup := by
  rw [keys_setKey]
  split
  · exact h
  · rename_i hk
    rw [List.nodup_append]
    refine ⟨h, by simp, ?_⟩
    intro a ha b hb e
    simp at hb
    subst hb
    subst e
    exact hk ha

theorem nodup_assign (m : List (K × Nat)) (i : Nat) (es : Entries K Rec)
    (h : (m.map Prod.fst).Nodup) : ((assign m i es).map Prod.fst).Nodup := by
  induction es generalizing m i with
  | nil => exact h
  | cons e es ih => exact ih _ _ (nodup_setKey m e.1 i h)

/-- A dict after `m[k] = i`. -/
theorem mem_setKey_iff (m : List (K × Nat)) (k k' : K) (i j : Nat) :
    (k', j) ∈ setKey m k i ↔ (k' = k ∧ j = i) ∨ (k' ≠ k ∧ (k', j) ∈ m) := by
  constructor
  · intro he
    unfold setKey at he
    split at he
    · obtain ⟨e', he', h⟩ := List.mem_map.mp he
      split at h
      · cases h; exact Or.inl ⟨rfl, rfl⟩
      · rename_i hne
        subst h
        exact Or.inr ⟨hne, he'⟩
    · rename_i hk
      rcases List.mem_append.mp he with he | he
      · refine Or.inr ⟨?_, he⟩
        intro e
        rw [← e] at hk
        exact hk (List.mem_map.mpr ⟨_, he, rfl⟩)
      · simp at he; exact Or.inl he
  · rintro (⟨rfl, rfl⟩ | ⟨hne, he⟩)
    · exact mem_setKey _ _ _
    · unfold setKey
      split
      · exact List.mem_map.mpr ⟨_, he, by rw [if_neg hne]⟩
      · simp [he]

/-- The manifest after a write: the keys of the write get consecutive new indices, all other
entries stay. -/
theorem mem_assign_iff (m : List (K × Nat)) (i : Nat) (es : Entries K Rec)
    (hes : (es.map Prod.fst).Nodup) (k : K) (j : Nat) :
    (k, j) ∈ assign m i es ↔
      (∃ p sh, es[p]? = some (k, sh) ∧ j = i + p) ∨ (k ∉ es.map Prod.fst ∧ (k, j) ∈ m) := by
  induction es generalizing m i with
  | nil => simp [assign]
  | cons e es ih =>
    simp only [List.map_cons, List.nodup_cons] at hes
    rw [assign, ih _ _ hes.2, mem_setKey_iff]
    constructor
    · rintro (⟨p, sh, hp, rfl⟩ | ⟨hk, ⟨rfl, rfl⟩ | ⟨hne, hm⟩⟩)
      · exact Or.inl ⟨p + 1, sh, by simpa using hp, by omega⟩
      · exact Or.inl ⟨0, e.2, by simp, by simp⟩
      · exact Or.inr ⟨by simp only [List.map_cons, List.mem_cons, not_or]; exact ⟨hne, hk⟩, hm⟩
    · rintro (⟨p, sh, hp, rfl⟩ | ⟨hk, hm⟩)
      · cases p with
        | zero =>
          simp at hp
          subst hp
          exact Or.inr ⟨hes.1, Or.inl ⟨rfl, by simp⟩⟩
        | succ p => exact Or.inl ⟨p, sh, by simpa using hp, by omega⟩
      · simp only [List.map_cons, List.mem_cons, not_or] at hk
        exact Or.inr ⟨hk.2, Or.inr ⟨hk.1, hm⟩⟩

/-! ### One write -/

theorem expectedActs_at (start : Nat) (es : Entries K Rec) (p : Nat) (e : K × List (List Rec))
    (h : es[p]? = some e) : expectedActs start es (start + p) = entryActs (start + p) e.2 := by
  unfold expectedActs
  rw [if_pos (by omega)]
  have : start + p - start = p := by omega
  rw [this, h]

theorem expectedActs_low (start : Nat) (es : Entries K Rec) (i : Nat) (h : i < start) :
    expectedActs start es i = [] := by
  unfold expectedActs
  rw [if_neg (by omega)]

theorem expectedActs_high (start : Nat) (es : Entries K Rec) (i : Nat)
    (h : start + es.length ≤ i) : expectedActs start es i = [] := by
  unfold expectedActs
  rw [if_pos (by omega), List.getElem?_eq_none (by omega)]

theorem isRun_take {d : Dir K Rec} {es : Entries K Rec} {acts : List (Act K Rec)}
    (h : IsRun d es acts) (n : Nat) (hn : 3 ≤ n) :
    ∃ data : List (DataAct Rec), applyActs d (acts.take n) =
      ⟨some (some (assign (readManifest d) (startIdx (readManifest d)) es)),
        data.foldl applyData d.files⟩ ∧
      ∀ i, data.filter (fun a => a.idx = i)
        <+: expectedActs (startIdx (readManifest d)) es i := by
  obtain ⟨data, rfl, hd⟩ := h
  refine ⟨data.take (n - 3), ?_, ?_⟩
  · have : (manifestActs d es ++ data.map Act.data).take n
        = manifestActs d es ++ (data.take (n - 3)).map Act.data := by
      rw [List.take_append, List.take_of_length_le (by simp [manifestActs]; omega), List.map_take]
      simp [manifestActs]
    rw [this]
    simp only [applyActs, List.foldl_append]
    have := applyActs_data (List.foldl applyAct d (manifestActs d es)) (data.take (n - 3))
    simp only [applyActs] at this
    rw [this]
    rfl
  · intro i
    rw [← hd i]
    exact (List.take_prefix _ _).filter _

theorem isRun_complete {d : Dir K Rec} {es : Entries K Rec} {acts : List (Act K Rec)}
    (h : IsRun d es acts) :
    ∃ data : List (DataAct Rec), applyActs d acts =
      ⟨some (some (assign (readManifest d) (startIdx (readManifest d)) es)),
        data.foldl applyData d.files⟩ ∧
      ∀ i, data.filter (fun a => a.idx = i) = expectedActs (startIdx (readManifest d)) es i := by
  obtain ⟨data, rfl, hd⟩ := h
  refine ⟨data, ?_, hd⟩
  simp only [applyActs, List.foldl_append]
  have := applyActs_data (List.foldl applyAct d (manifestActs d es)) data
  simp only [applyActs] at this
  rw [this]
  rfl

/-- A sink that stopped in a fresh index left some of the first shards. -/
theorem foldl_prefix_entryActs (i : Nat) (shards : List (List Rec)) (l : List (DataAct Rec))
    (h : l <+: entryActs i shards) :
    ∃ t, l.foldl applyData [] = shardFiles i shards.length 0 (shards.take t) := by
  cases l with
  | nil => exact ⟨0, rfl⟩
  | cons a l =>
    rw [entryActs, List.cons_prefix_cons] at h
    obtain ⟨rfl, h⟩ := h
    refine ⟨l.length, ?_⟩
    rw [List.foldl_cons]
    have h0 : applyData ([] : List (Name × List Rec)) (.clean i shards.length) = [] := rfl
    rw [h0]
    have hl : l = ((shards.take l.length).zipIdx).map
        (fun s => DataAct.rename i s.2 shards.length s.1) := by
      have h1 := List.prefix_iff_eq_take.mp h
      rw [← List.map_take] at h1
      have h2 : shards.zipIdx.take l.length = (shards.take l.length).zipIdx := by
        apply List.ext_getElem?
        intro j
        simp only [List.getElem?_take, List.getElem?_zipIdx]
        by_cases hj : j < l.length
        · simp only [if_pos hj]
        · simp only [if_neg hj, Option.map_none]
      rw [h2] at h1
      exact h1
    have h3 := foldl_renames i shards.length 0 (shards.take l.length) [] (by simp)
    rw [← hl] at h3
    simpa using h3

/-! ### The invariant of histories that keep the manifest -/

/-- What the files of an entry are, given what happened last to its key. -/
def FilesOk (d : Dir K Rec) (i : Nat) : Last Rec → Prop
  | .complete sh => sh ≠ [] ∧ filesAt i d.files = shardFiles i sh.length 0 sh
  | .torn sh => ∃ t, filesAt i d.files = shardFiles i sh.length 0 (sh.take t)

structure Inv (h : List (Event K Rec)) (d : Dir K Rec) : Prop where
  nodup : ((readManifest d).map Prod.fst).Nodup
  fresh : ∀ i, startIdx (readManifest d) ≤ i → filesAt i d.files = []
  entry : ∀ k i, (k, i) ∈ readManifest d → ∃ l, lastMention h k = some l ∧ FilesOk d i l
  known : ∀ k l, lastMention h k = some l → ∃ i, (k, i) ∈ readManifest d

theorem lastMention_append (h : List (Event K Rec)) (e : Event K Rec) (k : K) :
    lastMention (h ++ [e]) k = (e.mention k).or (lastMention h k) := by
  unfold lastMention
  rw [List.reverse_append]
  simp only [List.reverse_cons, List.reverse_nil, List.nil_append, List.singleton_append,
    List.findSome?_cons]
  cases e.mention k <;> rfl

theorem lookup_eq_some_iff (es : Entries K Rec) (hes : (es.map Prod.fst).Nodup) (k : K)
    (sh : List (List Rec)) : es.lookup k = some sh ↔ ∃ p : Nat, es[p]? = some (k, sh) := by
  have hmem : (∃ p : Nat, es[p]? = some (k, sh)) ↔ (k, sh) ∈ es := by
    rw [List.mem_iff_getElem?]
  rw [hmem]
  induction es with
  | nil => simp
  | cons e es ih =>
    obtain ⟨a, b⟩ := e
    simp only [List.map_cons, List.nodup_cons] at hes
    rw [List.lookup_cons]
    by_cases h : k = a
    · subst h
      simp only [beq_self_eq_true, Option.some.injEq, List.mem_cons, Prod.mk.injEq, true_and]
      constructor
      · rintro rfl; exact Or.inl rfl
      · rintro (rfl | hm)
        · rfl
        · exact absurd (List.mem_map_of_mem (f := Prod.fst) hm) hes.1
    · have : (k == a) = false := by simpa using h
      rw [this]
      simp only [List.mem_cons, Prod.mk.injEq, h, false_and, false_or]
      exact ih hes.2 (by rw [List.mem_iff_getElem?])

theorem lookup_eq_none_iff' (es : Entries K Rec) (k : K) :
    es.lookup k = none ↔ k ∉ es.map Prod.fst := by
  induction es with
  | nil => simp
  | cons e es ih =>
    rw [List.lookup_cons]
    by_cases h : k = e.1
    · subst h; simp
    · have : (k == e.1) = false := by simpa using h
      rw [this]
      simp [ih, h]

/-- One write, complete or stopped in the pipeline, keeps the invariant. -/
theorem Inv.step {h : List (Event K Rec)} {d d' : Dir K Rec} {es : Entries K Rec}
    (hi : Inv h d) (hv : ValidWrite es) (ev : Event K Rec) (mk : List (List Rec) → Last Rec)
    (hev : ∀ k, ev.mention k = (es.lookup k).map mk)
    (hman : d'.manifest = some (some (assign (readManifest d) (startIdx (readManifest d)) es)))
    (hlow : ∀ i, i < startIdx (readManifest d) → filesAt i d'.files = filesAt i d.files)
    (hhigh : ∀ i, startIdx (readManifest d) + es.length ≤ i → filesAt i d'.files = [])
    (hnew : ∀ p k sh, es[p]? = some (k, sh) → FilesOk d' (startIdx (readManifest d) + p) (mk sh)) :
    Inv (h ++ [ev]) d' := by
  have hm : readManifest d' = assign (readManifest d) (startIdx (readManifest d)) es := by
    simp [readManifest, hman]
  obtain ⟨hs1, hs2, hs3⟩ := startIdx_assign (readManifest d) (startIdx (readManifest d)) es le_rfl
  refine ⟨?_, ?_, ?_, ?_⟩
  · rw [hm]; exact nodup_assign _ _ _ hi.nodup
  · intro i h'
    rw [hm] at h'
    by_cases he : es = []
    · subst he
      exact hhigh i (by simpa [assign] using h')
    · exact hhigh i (le_trans (hs2 he) h')
  · intro k i hki
    rw [hm, mem_assign_iff _ _ _ hv.1] at hki
    rw [lastMention_append, hev]
    rcases hki with ⟨p, sh, hp, rfl⟩ | ⟨hk, hki⟩
    · rw [(lookup_eq_some_iff es hv.1 k sh).mpr ⟨p, hp⟩]
      exact ⟨mk sh, rfl, hnew p k sh hp⟩
    · rw [(lookup_eq_none_iff' es k).mpr hk]
      obtain ⟨l, hl, hf⟩ := hi.entry k i hki
      refine ⟨l, by simpa using hl, ?_⟩
      have : i < startIdx (readManifest d) := by
        have := (startIdx_le_iff (readManifest d) (startIdx (readManifest d))).mp le_rfl _ hki
        exact this
      cases l with
      | complete sh => exact ⟨hf.1, by rw [hlow i this]; exact hf.2⟩
      | torn sh =>
        obtain ⟨t, ht⟩ := hf
        exact ⟨t, by rw [hlow i this]; exact ht⟩
  · intro k l hl
    rw [lastMention_append, hev] at hl
    rw [hm]
    cases hlk : es.lookup k with
    | some sh =>
      obtain ⟨p, hp⟩ := (lookup_eq_some_iff es hv.1 k sh).mp hlk
      exact ⟨_, (mem_assign_iff _ _ _ hv.1 k _).mpr (Or.inl ⟨p, sh, hp, rfl⟩)⟩
    | none =>
      rw [hlk] at hl
      obtain ⟨i, hki⟩ := hi.known k l (by simpa using hl)
      exact ⟨i, (mem_assign_iff _ _ _ hv.1 k _).mpr
        (Or.inr ⟨(lookup_eq_none_iff' es k).mp hlk, hki⟩)⟩

theorem inv_of_after {h : List (Event K Rec)} {d : Dir K Rec} (ha : After h d)
    (hk : ∀ e ∈ h, e.KeepsManifest) : Inv h d := by
  induction ha with
  | start =>
    refine ⟨by simp [readManifest], by simp [filesAt], by simp [readManifest], ?_⟩
    intro k l hl
    simp [lastMention] at hl
  | @completed h d es acts ha hv hr ih =>
    have hi := ih (fun e he => hk e (by simp [he]))
    obtain ⟨data, hd, hdata⟩ := isRun_complete hr
    rw [hd]
    refine hi.step hv _ .complete (fun k => rfl) rfl ?_ ?_ ?_
    · intro i hlt
      simp only
      rw [filesAt_foldl, hdata, expectedActs_low _ _ _ hlt]
      rfl
    · intro i hge
      simp only
      rw [filesAt_foldl, hdata, expectedActs_high _ _ _ hge, hi.fresh i (by omega)]
      rfl
    · intro p k sh hp
      refine ⟨hv.2 _ (List.mem_of_getElem? hp), ?_⟩
      simp only
      rw [filesAt_foldl, hdata, expectedActs_at _ _ _ _ hp, hi.fresh _ (by omega),
        foldl_entryActs _ _ _ (by simp)]
  | @crashed h d es acts n ha hv hr ih =>
    have hi := ih (fun e he => hk e (by simp [he]))
    rcases hk (.crashed es n) (by simp) with rfl | hn
    · -- nothing was done
      have hm : ∀ k, lastMention (h ++ [.crashed es 0]) k = lastMention h k := by
        intro k
        rw [lastMention_append]
        simp [Event.mention]
      have : applyActs d (acts.take 0) = d := by simp [applyActs]
      rw [this]
      exact ⟨hi.nodup, hi.fresh, fun k i hki => by rw [hm]; exact hi.entry k i hki,
        fun k l hl => by rw [hm] at hl; exact hi.known k l hl⟩
    · obtain ⟨data, hd, hdata⟩ := isRun_take hr n hn
      rw [hd]
      refine hi.step hv _ .torn (fun k => by simp [Event.mention, Nat.not_lt.mpr hn]) rfl ?_ ?_ ?_
      · intro i hlt
        have := hdata i
        rw [expectedActs_low _ _ _ hlt, List.prefix_nil] at this
        simp only
        rw [filesAt_foldl, this]
        rfl
      · intro i hge
        have := hdata i
        rw [expectedActs_high _ _ _ hge, List.prefix_nil] at this
        simp only
        rw [filesAt_foldl, this, hi.fresh i (by omega)]
        rfl
      · intro p k sh hp
        have := hdata (startIdx (readManifest d) + p)
        rw [expectedActs_at _ _ _ _ hp] at this
        obtain ⟨t, ht⟩ := foldl_prefix_entryActs _ _ _ this
        refine ⟨t, ?_⟩
        simp only
        rw [filesAt_foldl, hi.fresh _ (by omega)]
        exact ht

/-! ### Reading -/

theorem shardFiles_ne_nil (i n k : Nat) (sh : List (List Rec)) (h : sh ≠ []) :
    shardFiles i n k sh ≠ [] := by
  cases sh with
  | nil => exact absurd rfl h
  | cons a sh => simp [shardFiles]

theorem readIdx_of_files (d : Dir K Rec) (i n : Nat) (sh : List (List Rec))
    (h : filesAt i d.files = shardFiles i n 0 sh) (hne : sh ≠ []) :
    readIdx d i = .ok sh.flatten := by
  have h' : d.files.filter (fun f => glob (readPattern i) f.1) = shardFiles i n 0 sh := h
  unfold readIdx
  simp only [h']
  rw [if_neg (shardFiles_ne_nil i n 0 sh hne), flatMap_shardFiles]

theorem read_of_items (d : Dir K Rec) (keep : K → Bool) (val : Nat → List Rec)
    (h : ∀ k i, (k, i) ∈ readManifest d → keep k = true → readIdx d i = .ok (val i)) :
    ∃ r, read d keep = .ok r ∧ (r = none ↔ readManifest d = []) ∧
      r.getD [] = ((readManifest d).filter (fun e => keep e.1)).map (fun e => (e.1, val e.2)) := by
  unfold read
  by_cases hm : readManifest d = []
  · exact ⟨none, by simp [hm], by simp [hm], by simp [hm]⟩
  · have := seqExcept_ok_map ((readManifest d).filter (fun e => keep e.1))
      (fun e => readIdx d e.2 >>= fun v => .ok (e.1, v)) (fun e => (e.1, val e.2)) (by
        intro e he
        obtain ⟨he, hke⟩ := List.mem_filter.mp he
        rw [h e.1 e.2 he hke]
        rfl)
    refine ⟨some (((readManifest d).filter (fun e => keep e.1)).map (fun e => (e.1, val e.2))),
      ?_, by simp [hm], rfl⟩
    simp only [if_neg hm, this]
    rfl

/-- **C28, C29** After any history of complete writes and of writes that stopped, except while
the manifest was being replaced: if the last write of every key that is asked for was complete,
the read succeeds and gives exactly the last written records of these keys. -/
theorem read_exact {h : List (Event K Rec)} {d : Dir K Rec} (ha : After h d)
    (hk : ∀ e ∈ h, e.KeepsManifest) (keep : K → Bool)
    (hlast : ∀ k sh, keep k = true → lastMention h k ≠ some (.torn sh)) :
    ∃ r, read d keep = .ok r ∧ ((r.getD []).map Prod.fst).Nodup ∧
      (r = none ↔ ∀ k, lastMention h k = none) ∧
      ∀ k v, (k, v) ∈ r.getD [] ↔
        keep k = true ∧ ∃ sh, lastMention h k = some (.complete sh) ∧ v = sh.flatten := by
  have hi := inv_of_after ha hk
  let val : Nat → List Rec := fun i => match readIdx d i with | .ok v => v | .error _ => []
  have hval : ∀ k i, (k, i) ∈ readManifest d → keep k = true →
      ∃ sh, lastMention h k = some (.complete sh) ∧ readIdx d i = .ok sh.flatten := by
    intro k i hki hkeep
    obtain ⟨l, hl, hf⟩ := hi.entry k i hki
    cases l with
    | torn sh => exact absurd hl (hlast k sh hkeep)
    | complete sh => exact ⟨sh, hl, readIdx_of_files d i _ sh hf.2 hf.1⟩
  obtain ⟨r, hr, hnone, hitems⟩ := read_of_items d keep val (by
    intro k i hki hkeep
    obtain ⟨sh, _, h2⟩ := hval k i hki hkeep
    simp only [val, h2])
  refine ⟨r, hr, ?_, ?_, ?_⟩
  · rw [hitems, List.map_map]
    have : (Prod.fst ∘ fun e : K × Nat => (e.1, val e.2)) = Prod.fst := rfl
    rw [this]
    exact hi.nodup.sublist (List.Sublist.map _ List.filter_sublist)
  · rw [hnone]
    constructor
    · intro hm k
      cases hl : lastMention h k with
      | none => rfl
      | some l =>
        obtain ⟨i, hki⟩ := hi.known k l hl
        rw [hm] at hki
        simp at hki
    · intro hall
      cases hm : readManifest d with
      | nil => rfl
      | cons e m =>
        obtain ⟨l, hl, _⟩ := hi.entry e.1 e.2 (by rw [hm]; simp)
        rw [hall] at hl
        cases hl
  · intro k v
    rw [hitems]
    constructor
    · intro hm
      obtain ⟨e, he, hev⟩ := List.mem_map.mp hm
      obtain ⟨he, hkeep⟩ := List.mem_filter.mp he
      cases hev
      obtain ⟨sh, h1, h2⟩ := hval e.1 e.2 he hkeep
      exact ⟨hkeep, sh, h1, by simp only [val, h2]⟩
    · rintro ⟨hkeep, sh, hl, rfl⟩
      obtain ⟨i, hki⟩ := hi.known k _ hl
      obtain ⟨sh', h1, h2⟩ := hval k i hki hkeep
      rw [hl] at h1
      cases h1
      exact List.mem_map.mpr ⟨(k, i), List.mem_filter.mpr ⟨hki, hkeep⟩, by simp only [val, h2]⟩

/-- The last write of a key, in a history of complete writes. -/
def latest (ws : List (Entries K Rec)) (k : K) : Option (List (List Rec)) :=
  ws.reverse.findSome? (fun es => es.lookup k)

theorem lastMention_completed (ws : List (Entries K Rec)) (k : K) :
    lastMention (ws.map .completed) k = (latest ws k).map .complete := by
  unfold lastMention latest
  rw [← List.map_reverse]
  generalize ws.reverse = l
  induction l with
  | nil => rfl
  | cons es l ih =>
    simp only [List.map_cons, List.findSome?_cons, Event.mention]
    cases es.lookup k with
    | some v => rfl
    | none => exact ih

/-- **C28** After any sequence of complete writes a read succeeds, and gives for every key that
is asked for the records of the last write of that key, and nothing else. -/
theorem read_returns_last_write (ws : List (Entries K Rec)) (d : Dir K Rec)
    (ha : After (ws.map .completed) d) (keep : K → Bool) :
    ∃ r, read d keep = .ok r ∧ ((r.getD []).map Prod.fst).Nodup ∧
      (r = none ↔ ∀ k, latest ws k = none) ∧
      ∀ k v, (k, v) ∈ r.getD [] ↔
        keep k = true ∧ ∃ sh, latest ws k = some sh ∧ v = sh.flatten := by
  obtain ⟨r, h1, h2, h3, h4⟩ := read_exact ha (by
    intro e he
    obtain ⟨es, _, rfl⟩ := List.mem_map.mp he
    trivial) keep (by
    intro k sh _ hl
    rw [lastMention_completed] at hl
    cases hlk : latest ws k <;> simp [hlk] at hl)
  refine ⟨r, h1, h2, ?_, ?_⟩
  · rw [h3]
    refine forall_congr' fun k => ?_
    rw [lastMention_completed]
    cases latest ws k <;> simp
  · intro k v
    rw [h4]
    simp only [lastMention_completed]
    cases latest ws k <;> simp

/-- **C29, part** A read after a crash never gives records of another key, and never records of
two writes of a key: what it gives for a key are the records of the last write of the key that
reached the manifest, or, if that write stopped, of its first shards. What is missing: C29 claims
that an earlier complete value is read instead (false: `crash_loses_value`,
`crash_reads_partial_value`), and excluding crashes while the manifest is replaced (necessary:
`lost_manifest_mixes_data`). -/
theorem read_after_crash_partial {h : List (Event K Rec)} {d : Dir K Rec} (ha : After h d)
    (hk : ∀ e ∈ h, e.KeepsManifest) (keep : K → Bool) (r : Option (List (K × List Rec)))
    (hr : read d keep = .ok r) (k : K) (v : List Rec) (hv : (k, v) ∈ r.getD []) :
    (∃ sh, lastMention h k = some (.complete sh) ∧ v = sh.flatten) ∨
    (∃ sh t, lastMention h k = some (.torn sh) ∧ v = (sh.take t).flatten) := by
  have hi := inv_of_after ha hk
  unfold read at hr
  simp only at hr
  split at hr
  · cases hr; simp at hv
  · rw [bind_ok_iff] at hr
    obtain ⟨items, hs, hr⟩ := hr
    cases hr
    simp only [Option.getD_some] at hv
    rw [seqExcept_ok_iff] at hs
    obtain ⟨e, he, hev⟩ : ∃ e ∈ (readManifest d).filter (fun e => keep e.1),
        (readIdx d e.2 >>= fun v => Except.ok (e.1, v)) = .ok (k, v) := by
      rw [List.forall₂_map_left_iff] at hs
      revert hv
      generalize (readManifest d).filter (fun e => keep e.1) = l at hs
      intro hv
      induction hs with
      | nil => simp at hv
      | @cons a b l₁ l₂ h1 h2 ih =>
        rcases List.mem_cons.mp hv with rfl | hv
        · exact ⟨a, by simp, h1⟩
        · obtain ⟨e, he, h⟩ := ih hv
          exact ⟨e, by simp [he], h⟩
    rw [bind_ok_iff] at hev
    obtain ⟨w, hw, hev⟩ := hev
    cases hev
    obtain ⟨l, hl, hf⟩ := hi.entry e.1 e.2 (List.mem_filter.mp he).1
    cases l with
    | complete sh =>
      refine Or.inl ⟨sh, hl, ?_⟩
      rw [readIdx_of_files d _ _ sh hf.2 hf.1] at hw
      cases hw; rfl
    | torn sh =>
      obtain ⟨t, ht⟩ := hf
      refine Or.inr ⟨sh, t, hl, ?_⟩
      by_cases hne : sh.take t = []
      · exfalso
        unfold readIdx at hw
        have : d.files.filter (fun f => glob (readPattern e.2) f.1) = [] := by
          have h' := ht
          rw [hne] at h'
          exact h'
        simp [this] at hw
      · rw [readIdx_of_files d _ _ _ ht hne] at hw
        cases hw; rfl

/-- **C29, part** If a write stops while the manifest is replaced, a read gives nothing. -/
theorem crash_in_manifest_reads_nothing (d : Dir K Rec) (es : Entries K Rec)
    (acts : List (Act K Rec)) (hr : IsRun d es acts) (n : Nat) (h1 : 1 ≤ n) (h3 : n < 3)
    (keep : K → Bool) : read (applyActs d (acts.take n)) keep = .ok none := by
  obtain ⟨data, rfl, _⟩ := hr
  have : n = 1 ∨ n = 2 := by omega
  rcases this with rfl | rfl <;>
    simp [manifestActs, applyActs, applyAct, read, readManifest]

/-- **C29, part** After any history of crashes that kept the manifest, a complete write followed
by a read of its keys gives exactly the new records. -/
theorem write_after_crash_partial {h : List (Event K Rec)} {d : Dir K Rec}
    {es : Entries K Rec} (ha : After (h ++ [.completed es]) d)
    (hk : ∀ e ∈ h, e.KeepsManifest) (keep : K → Bool)
    (hkeep : ∀ k, keep k = true ↔ k ∈ es.map Prod.fst) (hv : ValidWrite es) :
    ∃ r, read d keep = .ok r ∧ ∀ k v, (k, v) ∈ r.getD [] ↔ ∃ sh, (k, sh) ∈ es ∧ v = sh.flatten := by
  have hlook : ∀ k, keep k = true → ∃ sh, es.lookup k = some sh := by
    intro k h
    cases hl : es.lookup k with
    | some sh => exact ⟨sh, rfl⟩
    | none => exact absurd ((hkeep k).mp h) ((lookup_eq_none_iff' es k).mp hl)
  obtain ⟨r, h1, _, _, h4⟩ := read_exact ha (by
    intro e he
    rcases List.mem_append.mp he with he | he
    · exact hk e he
    · simp at he; subst he; trivial) keep (by
    intro k sh hkp hl
    obtain ⟨sh', h'⟩ := hlook k hkp
    rw [lastMention_append] at hl
    simp [Event.mention, h'] at hl)
  refine ⟨r, h1, ?_⟩
  intro k v
  rw [h4]
  constructor
  · rintro ⟨hkp, sh, hl, rfl⟩
    obtain ⟨sh', h'⟩ := hlook k hkp
    rw [lastMention_append] at hl
    simp [Event.mention, h'] at hl
    subst hl
    obtain ⟨p, hp⟩ := (lookup_eq_some_iff es hv.1 k _).mp h'
    exact ⟨sh', List.mem_of_getElem? hp, rfl⟩
  · rintro ⟨sh, hm, rfl⟩
    refine ⟨(hkeep k).mpr (List.mem_map_of_mem (f := Prod.fst) hm), sh, ?_, rfl⟩
    obtain ⟨p, hp⟩ := List.mem_iff_getElem?.mp hm
    rw [lastMention_append]
    simp [Event.mention, (lookup_eq_some_iff es hv.1 k sh).mpr ⟨p, hp⟩]

/-! ### Runs that always use the same number of shards -/

def Event.entries : Event K Rec → Entries K Rec
  | .completed es => es
  | .crashed es _ => es

theorem files_same_shards {h : List (Event K Rec)} {d : Dir K Rec} (ha : After h d) (N : Nat)
    (hN : ∀ e ∈ h, ∀ x ∈ e.entries, x.2.length = N) :
    ∀ f ∈ d.files, ∃ i s, f.1 = fileName i s N := by
  have data_ok : ∀ (data : List (DataAct Rec)) (files : List (Name × List Rec)),
      (∀ a ∈ data, ∀ i s n r, a = .rename i s n r → n = N) →
      (∀ f ∈ files, ∃ i s, f.1 = fileName i s N) →
      ∀ f ∈ data.foldl applyData files, ∃ i s, f.1 = fileName i s N := by
    intro data
    induction data with
    | nil => intro files _ h; exact h
    | cons a data ih =>
      intro files ha hf
      rw [List.foldl_cons]
      refine ih _ (fun b hb => ha b (by simp [hb])) ?_
      intro f hmem
      cases a with
      | clean i n => exact hf f (List.mem_filter.mp hmem).1
      | rename i s n r =>
        simp only [applyData, List.mem_append, List.mem_filter, List.mem_singleton] at hmem
        rcases hmem with hmem | rfl
        · exact hf f hmem.1
        · have := ha _ (by simp) i s n r rfl
          subst this
          exact ⟨i, s, rfl⟩
  have acts_ok : ∀ (acts : List (Act K Rec)) (d : Dir K Rec),
      (∀ i s n r, Act.data (.rename i s n r) ∈ acts → n = N) →
      (∀ f ∈ d.files, ∃ i s, f.1 = fileName i s N) →
      ∀ f ∈ (applyActs d acts).files, ∃ i s, f.1 = fileName i s N := by
    intro acts
    induction acts with
    | nil => intro d _ h; exact h
    | cons a acts ih =>
      intro d ha hf
      refine ih (applyAct d a) (fun i s n r h => ha i s n r (by simp [h])) ?_
      cases a with
      | data b =>
        refine data_ok [b] d.files ?_ hf
        intro c hc i s n r he
        simp at hc
        subst hc
        subst he
        exact ha i s n r (by simp)
      | _ => exact hf
  have run_ok : ∀ {d : Dir K Rec} {es : Entries K Rec} {acts : List (Act K Rec)},
      IsRun d es acts → (∀ x ∈ es, x.2.length = N) →
      ∀ i s n r, Act.data (.rename i s n r) ∈ acts → n = N := by
    intro d es acts hr hes i s n r hmem
    obtain ⟨data, rfl, hd⟩ := hr
    rcases List.mem_append.mp hmem with hmem | hmem
    · simp [manifestActs] at hmem
    · obtain ⟨a, ha, he⟩ := List.mem_map.mp hmem
      cases he
      have hin : DataAct.rename i s n r ∈ data.filter (fun a => a.idx = i) :=
        List.mem_filter.mpr ⟨ha, by simp [DataAct.idx]⟩
      rw [hd] at hin
      unfold expectedActs at hin
      split at hin
      · split at hin
        · rename_i e he
          simp only [entryActs, List.mem_cons, List.mem_map] at hin
          rcases hin with hin | ⟨x, _, hx⟩
          · cases hin
          · cases hx
            exact hes e (List.mem_of_getElem? he)
        · simp at hin
      · simp at hin
  induction ha with
  | start => simp
  | @completed h d es acts ha hv hr ih =>
    have := ih (fun e he => hN e (by simp [he]))
    exact acts_ok acts d (run_ok hr (hN (.completed es) (by simp))) this
  | @crashed h d es acts n ha hv hr ih =>
    have := ih (fun e he => hN e (by simp [he]))
    refine acts_ok _ d ?_ this
    intro i s n' r hmem
    exact run_ok hr (hN (.crashed es n) (by simp)) i s n' r (List.mem_of_mem_take hmem)

/-- **C29, part** If all sinks use the same number of shards, then after any history, with
crashes at any points, a complete write followed by a read of its keys gives exactly the new
records. -/
theorem write_after_any_crash_partial {h : List (Event K Rec)} {d d' : Dir K Rec}
    {es : Entries K Rec} {acts : List (Act K Rec)} (ha : After h d) (N : Nat)
    (hN : ∀ e ∈ h, ∀ x ∈ e.entries, x.2.length = N) (hes : ∀ x ∈ es, x.2.length = N)
    (hv : ValidWrite es) (hr : IsRun d es acts) (hd' : d' = applyActs d acts)
    (keep : K → Bool) (hkeep : ∀ k, keep k = true ↔ k ∈ es.map Prod.fst) :
    ∃ r, read d' keep = .ok r ∧ ∀ k v, (k, v) ∈ r.getD [] ↔ ∃ sh, (k, sh) ∈ es ∧ v = sh.flatten := by
  have hfiles := files_same_shards ha N hN
  obtain ⟨data, hd, hdata⟩ := isRun_complete hr
  rw [hd] at hd'
  have hm : readManifest d' = assign (readManifest d) (startIdx (readManifest d)) es := by
    simp [hd', readManifest]
  have hidx : ∀ p k sh, es[p]? = some (k, sh) →
      readIdx d' (startIdx (readManifest d) + p) = .ok sh.flatten := by
    intro p k sh hp
    have hlen : sh.length = N := hes _ (List.mem_of_getElem? hp)
    refine readIdx_of_files d' _ sh.length sh ?_ (hv.2 _ (List.mem_of_getElem? hp))
    rw [hd']
    simp only
    rw [filesAt_foldl, hdata, expectedActs_at _ _ _ _ hp]
    refine foldl_entryActs _ sh _ ?_
    intro f hf
    obtain ⟨hf, hg⟩ := List.mem_filter.mp hf
    obtain ⟨i, s, hfs⟩ := hfiles f hf
    rw [hfs, readPattern_fileName] at hg
    subst hg
    exact ⟨s, by rw [hfs, hlen]⟩
  have hkey : ∀ k i, (k, i) ∈ readManifest d' → keep k = true →
      ∃ sh, (k, sh) ∈ es ∧ readIdx d' i = .ok sh.flatten := by
    intro k i hki hkp
    rw [hm, mem_assign_iff _ _ _ hv.1] at hki
    rcases hki with ⟨p, sh, hp, rfl⟩ | ⟨hk, _⟩
    · exact ⟨sh, List.mem_of_getElem? hp, hidx p k sh hp⟩
    · exact absurd ((hkeep k).mp hkp) hk
  let val : Nat → List Rec := fun i => match readIdx d' i with | .ok v => v | .error _ => []
  obtain ⟨r, hr', _, hitems⟩ := read_of_items d' keep val (by
    intro k i hki hkp
    obtain ⟨sh, _, h2⟩ := hkey k i hki hkp
    simp only [val, h2])
  refine ⟨r, hr', ?_⟩
  intro k v
  rw [hitems]
  constructor
  · intro hmem
    obtain ⟨e, he, hev⟩ := List.mem_map.mp hmem
    obtain ⟨he, hkp⟩ := List.mem_filter.mp he
    cases hev
    obtain ⟨sh, h1, h2⟩ := hkey e.1 e.2 he hkp
    exact ⟨sh, h1, by simp only [val, h2]⟩
  · rintro ⟨sh, hmem, rfl⟩
    obtain ⟨p, hp⟩ := List.mem_iff_getElem?.mp hmem
    have hkp : keep k = true := (hkeep k).mpr (List.mem_map_of_mem (f := Prod.fst) hmem)
    refine List.mem_map.mpr ⟨(k, startIdx (readManifest d) + p), List.mem_filter.mpr ⟨?_, hkp⟩, ?_⟩
    · rw [hm, mem_assign_iff _ _ _ hv.1]
      exact Or.inl ⟨p, sh, hp, rfl⟩
    · simp only [val, hidx p k sh hp]

/-! ### Several datasets -/

/-- The cache directory: a directory for every dataset. -/
abbrev Store (D K Rec : Type) := D → Dir K Rec

variable {D : Type} [DecidableEq D]

def applyStore (s : Store D K Rec) (acts : List (D × Act K Rec)) : Store D K Rec :=
  acts.foldl (fun s a => Function.update s a.1 (applyAct (s a.1) a.2)) s

/-- The changes of one dataset. -/
def actsOf (x : D) (acts : List (D × Act K Rec)) : List (Act K Rec) :=
  (acts.filter (fun a => a.1 = x)).map Prod.snd

theorem applyStore_at (s : Store D K Rec) (acts : List (D × Act K Rec)) (x : D) :
    applyStore s acts x = applyActs (s x) (actsOf x acts) := by
  induction acts generalizing s with
  | nil => rfl
  | cons a acts ih =>
    have h1 : applyStore s (a :: acts)
        = applyStore (Function.update s a.1 (applyAct (s a.1) a.2)) acts := rfl
    rw [h1, ih]
    by_cases h : a.1 = x
    · subst h
      simp [actsOf, applyActs]
    · have h2 : actsOf x (a :: acts) = actsOf x acts := by simp [actsOf, h]
      rw [h2, Function.update_of_ne (Ne.symm h)]

/-- `WriteAnalysisCacheToFS.expand` and the pipeline, `beam/analyzer_cache.py:329-356`: for every
dataset of the dict a run of its write, in any interleaving; nothing for the other datasets. -/
def IsStoreRun (s : Store D K Rec) (w : D → Option (Entries K Rec))
    (acts : List (D × Act K Rec)) : Prop :=
  ∀ x, match w x with
    | some es => IsRun (s x) es (actsOf x acts)
    | none => actsOf x acts = []

/-- A write of some datasets that completed, or that stopped. -/
structure StoreEvent (D K Rec : Type) where
  write : D → Option (Entries K Rec)
  crashed : Bool

inductive StoreAfter : List (StoreEvent D K Rec) → Store D K Rec → Prop
  | start : StoreAfter [] (fun _ => ⟨none, []⟩)
  | completed {h s w acts} : StoreAfter h s → (∀ x es, w x = some es → ValidWrite es) →
      IsStoreRun s w acts → StoreAfter (h ++ [⟨w, false⟩]) (applyStore s acts)
  | crashed {h s w acts} (n : Nat) : StoreAfter h s → (∀ x es, w x = some es → ValidWrite es) →
      IsStoreRun s w acts → StoreAfter (h ++ [⟨w, true⟩]) (applyStore s (acts.take n))

/-- What a history of the store is for a dataset. -/
inductive Projects (x : D) : List (StoreEvent D K Rec) → List (Event K Rec) → Prop
  | nil : Projects x [] []
  | other {H h w c} : Projects x H h → w x = none → Projects x (H ++ [⟨w, c⟩]) h
  | completed {H h w es} : Projects x H h → w x = some es →
      Projects x (H ++ [⟨w, false⟩]) (h ++ [.completed es])
  | crashed {H h w es} (n : Nat) : Projects x H h → w x = some es →
      Projects x (H ++ [⟨w, true⟩]) (h ++ [.crashed es n])

/-- **C28, C29** The datasets are independent: the directory of each is one that its own part of
the history may leave behind. So all theorems about one dataset hold for each of them. -/
theorem store_projects {H : List (StoreEvent D K Rec)} {s : Store D K Rec}
    (ha : StoreAfter H s) (x : D) : ∃ h, Projects x H h ∧ After h (s x) := by
  induction ha with
  | start => exact ⟨[], .nil, .start⟩
  | @completed H s w acts ha hv hr ih =>
    obtain ⟨h, hp, hs⟩ := ih
    have hx := hr x
    rw [applyStore_at]
    cases hw : w x with
    | none =>
      rw [hw] at hx
      simp only at hx
      refine ⟨h, .other hp hw, ?_⟩
      rw [hx]
      exact hs
    | some es =>
      rw [hw] at hx
      exact ⟨_, .completed hp hw, .completed hs (hv x es hw) hx⟩
  | @crashed H s w acts n ha hv hr ih =>
    obtain ⟨h, hp, hs⟩ := ih
    have hx := hr x
    rw [applyStore_at]
    have htake : ∃ m, actsOf x (acts.take n) = (actsOf x acts).take m := by
      have : actsOf x (acts.take n) <+: actsOf x acts :=
        ((List.take_prefix n acts).filter _).map _
      exact ⟨_, List.prefix_iff_eq_take.mp this⟩
    obtain ⟨m, hm⟩ := htake
    rw [hm]
    cases hw : w x with
    | none =>
      rw [hw] at hx
      simp only at hx
      refine ⟨h, .other hp hw, ?_⟩
      rw [hx]
      simpa [applyActs] using hs
    | some es =>
      rw [hw] at hx
      exact ⟨_, .crashed m hp hw, .crashed m hs (hv x es hw) hx⟩

/-- **C28** For several datasets: after any sequence of complete writes, a read gives for every
dataset and every key the records of the last write of that key of that dataset. -/
theorem store_read_returns_last_write (ws : List (D → Option (Entries K Rec))) (s : Store D K Rec)
    (ha : StoreAfter (ws.map (⟨·, false⟩)) s) (x : D) (keep : K → Bool) :
    ∃ r, read (s x) keep = .ok r ∧ ((r.getD []).map Prod.fst).Nodup ∧
      ∀ k v, (k, v) ∈ r.getD [] ↔
        keep k = true ∧ ∃ sh, latest (ws.filterMap (fun w => w x)) k = some sh ∧
          v = sh.flatten := by
  obtain ⟨h, hp, hs⟩ := store_projects ha x
  have hh : h = (ws.filterMap (fun w => w x)).map .completed := by
    clear hs ha
    generalize hH : ws.map (fun w => (⟨w, false⟩ : StoreEvent D K Rec)) = H at hp
    induction hp generalizing ws with
    | nil =>
      have : ws = [] := by simpa using hH
      subst this
      rfl
    | @other H h w c hp hw ih =>
      obtain ⟨ws', w', rfl⟩ : ∃ ws' w', ws = ws' ++ [w'] := by
        rcases List.eq_nil_or_concat ws with rfl | ⟨a, b, rfl⟩
        · simp at hH
        · exact ⟨a, b, by simp⟩
      rw [List.map_append] at hH
      obtain ⟨h1, h2⟩ := List.append_inj' hH rfl
      simp at h2
      obtain ⟨rfl, rfl⟩ := h2
      rw [ih ws' h1]
      simp [hw]
    | @completed H h w es hp hw ih =>
      obtain ⟨ws', w', rfl⟩ : ∃ ws' w', ws = ws' ++ [w'] := by
        rcases List.eq_nil_or_concat ws with rfl | ⟨a, b, rfl⟩
        · simp at hH
        · exact ⟨a, b, by simp⟩
      rw [List.map_append] at hH
      obtain ⟨h1, h2⟩ := List.append_inj' hH rfl
      simp at h2
      subst h2
      rw [ih ws' h1]
      simp [hw]
    | @crashed H h w es n hp hw ih =>
      exfalso
      have : (⟨w, true⟩ : StoreEvent D K Rec) ∈ ws.map (fun w => ⟨w, false⟩) := by
        rw [hH]; simp
      obtain ⟨_, _, h⟩ := List.mem_map.mp this
      cases h
  rw [hh] at hs
  obtain ⟨r, h1, h2, _, h4⟩ := read_returns_last_write _ _ hs keep
  exact ⟨r, h1, h2, h4⟩

/-! ### Runs exist -/

/-- The run with the sinks one after the other. -/
def seqData (start : Nat) : Entries K Rec → List (DataAct Rec)
  | [] => []
  | e :: es => entryActs start e.2 ++ seqData (start + 1) es

theorem seqData_filter (start : Nat) (es : Entries K Rec) (i : Nat) :
    (seqData start es).filter (fun a => a.idx = i) = expectedActs start es i := by
  have hself : ∀ (j : Nat) (sh : List (List Rec)), ∀ a ∈ entryActs j sh, a.idx = j := by
    intro j sh a ha
    simp only [entryActs, List.mem_cons, List.mem_map] at ha
    rcases ha with rfl | ⟨x, _, rfl⟩ <;> rfl
  induction es generalizing start with
  | nil => simp [seqData, expectedActs]
  | cons e es ih =>
    rw [seqData, List.filter_append, ih]
    by_cases h : i = start
    · subst h
      rw [List.filter_eq_self.mpr (by intro a ha; simpa using hself _ _ a ha),
        expectedActs_low _ _ _ (Nat.lt_succ_self i), List.append_nil]
      have := expectedActs_at i (e :: es) 0 e rfl
      simpa using this.symm
    · rw [List.filter_eq_nil_iff.mpr (by
        intro a ha
        rw [hself _ _ a ha]
        simpa using fun h' => h h'.symm), List.nil_append]
      unfold expectedActs
      by_cases h1 : start + 1 ≤ i
      · rw [if_pos h1, if_pos (by omega)]
        have : i - start = (i - (start + 1)) + 1 := by omega
        rw [this, List.getElem?_cons_succ]
      · rw [if_neg h1, if_neg (by omega)]

def seqRun (d : Dir K Rec) (es : Entries K Rec) : List (Act K Rec) :=
  manifestActs d es ++ (seqData (startIdx (readManifest d)) es).map .data

theorem isRun_seqRun (d : Dir K Rec) (es : Entries K Rec) : IsRun d es (seqRun d es) :=
  ⟨_, rfl, fun i => seqData_filter _ es i⟩

/-! ### C29 is false as stated -/

/-- The directory after a complete write. -/
def write (d : Dir K Rec) (es : Entries K Rec) : Dir K Rec := applyActs d (seqRun d es)

/-- The directory after a write that stopped. -/
def crash (d : Dir K Rec) (es : Entries K Rec) (n : Nat) : Dir K Rec :=
  applyActs d ((seqRun d es).take n)

def emptyDir : Dir K Rec := ⟨none, []⟩

/-- A key was written completely. A second write of the key stops before the pipeline runs: the
manifest already points to files that do not exist. The read raises, and the first value is
lost. -/
theorem crash_loses_value : ∃ (h : List (Event Nat Nat)) (d : Dir Nat Nat) (e : Err),
    After (h ++ [.completed [(7, [[1]])], .crashed [(7, [[2]])] 3]) d ∧
      read d (fun _ => true) = .error e := by
  refine ⟨[], crash (write emptyDir [(7, [[1]])]) [(7, [[2]])] 3, _, ?_, rfl⟩
  have h1 : After ([] ++ [.completed [(7, [[1]])]]) (write (K := Nat) emptyDir [(7, [[1]])]) :=
    .completed .start ⟨by decide, by decide⟩ (isRun_seqRun _ _)
  exact .crashed (h := [.completed [(7, [[1]])]]) 3 h1 ⟨by decide, by decide⟩ (isRun_seqRun _ _)

/-- A write of two shards stops after the first was renamed: the read returns half of the
records, although they were never a complete value of the key. -/
theorem crash_reads_partial_value : ∃ d : Dir Nat Nat,
    After [.crashed [(7, [[1], [2]])] 5] d ∧
      read d (fun _ => true) = .ok (some [(7, [1])]) := by
  refine ⟨crash emptyDir [(7, [[1], [2]])] 5, ?_, by rfl⟩
  exact .crashed (h := []) 5 .start ⟨by decide, by decide⟩ (isRun_seqRun _ _)

/-- A write stops after the manifest was deleted. The next write starts again at index 0, with
another number of shards, and completes. A read then returns, for its key, records of the first
write of another key as well. -/
theorem lost_manifest_mixes_data : ∃ d : Dir Nat Nat,
    After [.completed [(7, [[1], [2]])], .crashed [(8, [[5]])] 1, .completed [(9, [[3]])]] d ∧
      read d (fun _ => true) = .ok (some [(9, [1, 2, 3])]) := by
  refine ⟨write (crash (write emptyDir [(7, [[1], [2]])]) [(8, [[5]])] 1) [(9, [[3]])], ?_,
    by rfl⟩
  have h1 : After ([] ++ [.completed [(7, [[1], [2]])]])
      (write (K := Nat) emptyDir [(7, [[1], [2]])]) :=
    .completed .start ⟨by decide, by decide⟩ (isRun_seqRun _ _)
  have h2 := After.crashed 1 h1 (es := [(8, [[5]])]) ⟨by decide, by decide⟩ (isRun_seqRun _ _)
  exact After.completed h2 (es := [(9, [[3]])]) ⟨by decide, by decide⟩ (isRun_seqRun _ _)

/-! ### The hypotheses are met -/

/-- Two writes; the second replaces one key and adds one. -/
example : ∃ d : Dir Nat Nat,
    After ([[(7, [[1], [2]]), (8, [[3]])], [(9, [[4]]), (7, [[5]])]].map .completed) d ∧
      read d (fun _ => true) = .ok (some [(7, [5]), (8, [3]), (9, [4])]) := by
  refine ⟨write (write emptyDir [(7, [[1], [2]]), (8, [[3]])]) [(9, [[4]]), (7, [[5]])], ?_,
    by rfl⟩
  have h1 : After ([] ++ [.completed [(7, [[1], [2]]), (8, [[3]])]])
      (write (K := Nat) emptyDir [(7, [[1], [2]]), (8, [[3]])]) :=
    .completed .start ⟨by decide, by decide⟩ (isRun_seqRun _ _)
  exact After.completed h1 (es := [(9, [[4]]), (7, [[5]])]) ⟨by decide, by decide⟩
    (isRun_seqRun _ _)

/-- A crash in the pipeline, then a complete write of the same key. -/
example : ∃ d : Dir Nat Nat,
    After [.crashed [(7, [[1], [2]])] 5, .completed [(7, [[6], [7]])]] d ∧
      read d (fun _ => true) = .ok (some [(7, [6, 7])]) := by
  refine ⟨write (crash emptyDir [(7, [[1], [2]])] 5) [(7, [[6], [7]])], ?_, by rfl⟩
  have h1 : After ([] ++ [.crashed [(7, [[1], [2]])] 5])
      (crash (K := Nat) emptyDir [(7, [[1], [2]])] 5) :=
    .crashed 5 .start ⟨by decide, by decide⟩ (isRun_seqRun _ _)
  exact After.completed h1 (es := [(7, [[6], [7]])]) ⟨by decide, by decide⟩ (isRun_seqRun _ _)

/-- Two datasets: a store with a write of one of them. -/
example : ∃ s : Store Bool Nat Nat,
    StoreAfter ([fun x => if x then some [(7, [[1]])] else none].map (⟨·, false⟩)) s ∧
      read (s true) (fun _ => true) = .ok (some [(7, [1])]) ∧
      read (s false) (fun _ => true) = .ok none := by
  refine ⟨applyStore (fun _ => emptyDir) ((seqRun emptyDir [(7, [[1]])]).map (fun a => (true, a))),
    ?_, by rfl, by rfl⟩
  refine StoreAfter.completed (h := []) .start ?_ ?_
  · intro x es hx
    cases x with
    | false => simp at hx
    | true => simp at hx; subst hx; exact ⟨by decide, by decide⟩
  · intro x
    cases x with
    | false => simp [actsOf]
    | true =>
      have : actsOf true ((seqRun (K := Nat) (Rec := Nat) emptyDir [(7, [[1]])]).map
          (fun a => (true, a))) = seqRun emptyDir [(7, [[1]])] := by
        simp [actsOf, List.filter_map, List.map_map, Function.comp_def]
      simp only [if_true]
      rw [this]
      exact isRun_seqRun _ _

end TFT.CacheFs
