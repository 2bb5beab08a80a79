import Verif.Schema.MetadataIo
import Verif.Schema.FeatureSpecProps
import Verif.Pipeline.TransformDataProps

/-!
# C76: metadata on disk
-/

namespace TFT.MetadataIo

open FeatureSpec

/-! ## Names of files -/

/-- A suffix as `uuid4().hex` makes it: 32 hexadecimal digits. -/
def HexId (uid : String) : Prop := uid.toList.length = 32 ∧ ∀ ch ∈ uid.toList, ch ∈ "0123456789abcdef".toList

theorem join_append (path name : String) : ∃ pre, join path name = pre ++ name := by
  unfold join
  split
  · exact ⟨"", by simp⟩
  · split
    · exact ⟨path, rfl⟩
    · exact ⟨path ++ "/", rfl⟩

theorem schema_last (path : String) : (schemaFile path).toList.getLast? = some 't' := by
  obtain ⟨pre, h⟩ := join_append path "schema.pbtxt"
  unfold schemaFile
  rw [h, String.toList_append]
  rw [List.getLast?_append]
  rfl

theorem legacy_last (path : String) : (legacyFile path).toList.getLast? = some 'n' := by
  obtain ⟨pre, h⟩ := join_append (join path "v1-json") "schema.json"
  unfold legacyFile
  rw [h, String.toList_append, List.getLast?_append]
  rfl

theorem asset_last (path : String) : (join path "asset_map").toList.getLast? = some 'p' := by
  obtain ⟨pre, h⟩ := join_append path "asset_map"
  rw [h, String.toList_append, List.getLast?_append]
  rfl

theorem temp_last (c : Call) (h : HexId c.uid) :
    ∃ ch, c.temp.toList.getLast? = some ch ∧ ch ∈ "0123456789abcdef".toList := by
  unfold Call.temp
  have hne : c.uid.toList ≠ [] := by
    intro h0
    have := h.1
    rw [h0] at this
    cases this
  refine ⟨c.uid.toList.getLast hne, ?_, h.2 _ (List.getLast_mem hne)⟩
  rw [String.toList_append, List.getLast?_append, List.getLast?_eq_getLast_of_ne_nil hne]
  rfl

theorem temp_ne_schema (c : Call) (h : HexId c.uid) (path : String) : c.temp ≠ schemaFile path := by
  intro e
  obtain ⟨ch, h1, h2⟩ := temp_last c h
  rw [e, schema_last] at h1
  cases h1
  revert h2
  decide

theorem temp_ne_legacy (c : Call) (h : HexId c.uid) (path : String) : c.temp ≠ legacyFile path := by
  intro e
  obtain ⟨ch, h1, h2⟩ := temp_last c h
  rw [e, legacy_last] at h1
  cases h1
  revert h2
  decide

theorem schema_ne_legacy (p q : String) : schemaFile p ≠ legacyFile q := by
  intro e
  have := schema_last p
  rw [e, legacy_last] at this
  revert this
  decide

theorem temp_inj (c d : Call) (hc : HexId c.uid) (hd : HexId d.uid) (h : c.temp = d.temp) :
    c.uid = d.uid := by
  unfold Call.temp at h
  have := congrArg String.toList h
  rw [String.toList_append, String.toList_append (s := schemaFile d.path ++ ".tmp")] at this
  exact String.toList_injective (List.append_inj_right' this (by rw [hc.1, hd.1]))

/-! ## Writing -/

/-- What holds at every moment of any number of calls that began on the files `old`. -/
structure Inv (old : Fs) (calls : List Call) (s : State) : Prop where
  callsEq : s.calls.map Prod.fst = calls
  writing : ∀ c rest, (c, Pc.writing rest) ∈ s.calls →
    ∃ w, s.fs c.temp = some w ∧ w ++ rest = c.text
  ended : ∀ c p, (c, p) ∈ s.calls → p = .done ∨ p = .failed → s.fs c.temp = none
  done : ∀ c, (c, Pc.done) ∈ s.calls →
    ∃ c' ∈ calls, schemaFile c'.path = schemaFile c.path ∧ s.fs (schemaFile c.path) = some c'.text
  whole : ∀ path, s.fs (schemaFile path) = old (schemaFile path) ∨
    ∃ c ∈ calls, schemaFile c.path = schemaFile path ∧ s.fs (schemaFile path) = some c.text
  frame : ∀ g, (∀ c ∈ calls, g ≠ c.temp ∧ g ≠ schemaFile c.path) → s.fs g = old g

theorem inv_start (old : Fs) (calls : List Call) : Inv old calls (start old calls) := by
  refine ⟨by simp [start, Function.comp_def], ?_, ?_, ?_, fun _ => .inl rfl, fun _ _ => rfl⟩
  · intro c rest h
    simp [start] at h
  · intro c p h hp
    simp only [start, List.mem_map, Prod.mk.injEq] at h
    obtain ⟨_, _, _, rfl⟩ := h
    simp at hp
  · intro c h
    simp [start] at h

theorem inv_step (old : Fs) (calls : List Call) (hid : ∀ c ∈ calls, HexId c.uid)
    (hnd : (calls.map Call.uid).Nodup) (s t : State) (h : Inv old calls s) (hs : Step true s t) :
    Inv old calls t := by
  obtain ⟨pre, post, c, p, p', fs, fs', hc⟩ := hs
  have hcalls := h.callsEq
  simp only [List.map_append, List.map_cons] at hcalls
  have hmem : c ∈ calls := by rw [← hcalls]; simp
  have hothers : ∀ d q, (d, q) ∈ pre ++ (c, p') :: post → (d, q) = (c, p') ∨
      ((d, q) ∈ pre ++ (c, p) :: post ∧ d.temp ≠ c.temp) := by
    intro d q hd
    rw [← hcalls] at hnd hid
    simp only [List.map_append, List.map_cons, List.map_map] at hnd
    simp only [List.mem_append, List.mem_cons] at hd
    have hne : d ∈ pre.map Prod.fst ∨ d ∈ post.map Prod.fst → d.temp ≠ c.temp := by
      intro hin e
      have hu := temp_inj d c (hid d (by simp only [List.mem_append, List.mem_cons]; tauto))
        (hid c (by simp)) e
      rcases hin with hin | hin
      · have := (List.nodup_append.1 hnd).2.2
        obtain ⟨x, hx, rfl⟩ := List.mem_map.1 hin
        exact this x.1.uid (List.mem_map.2 ⟨x, hx, rfl⟩) c.uid (by simp) hu
      · have := (List.nodup_cons.1 (List.nodup_append.1 hnd).2.1).1
        obtain ⟨x, hx, rfl⟩ := List.mem_map.1 hin
        exact this (List.mem_map.2 ⟨x, hx, hu⟩)
    rcases hd with hd | hd | hd
    · exact .inr ⟨by simp [hd], hne (.inl (List.mem_map.2 ⟨_, hd, rfl⟩))⟩
    · exact .inl hd
    · exact .inr ⟨by simp [hd], hne (.inr (List.mem_map.2 ⟨_, hd, rfl⟩))⟩
  have hin : (c, p) ∈ pre ++ (c, p) :: post := by simp
  have hts : ∀ path, schemaFile path ≠ c.temp := fun path e => temp_ne_schema c (hid c hmem) path e.symm
  -- only the temporary file changes
  have htemp : ∀ x, fs' = setFile fs c.temp x →
      (∀ rest, p' = .writing rest → ∃ w, x = some w ∧ w ++ rest = c.text) →
      (p' = .done ∨ p' = .failed → x = none) → p' ≠ .done → p' ≠ .start →
      Inv old calls ⟨fs', pre ++ (c, p') :: post⟩ := by
    intro x hx hw he hd _
    subst hx
    refine ⟨by simpa using hcalls, ?_, ?_, ?_, ?_, ?_⟩
    · intro d rest hdm
      rcases hothers _ _ hdm with he' | ⟨hm, hne⟩
      · cases he'
        obtain ⟨w, h1, h2⟩ := hw rest rfl
        exact ⟨w, by simp [setFile, h1], h2⟩
      · simpa [setFile, hne] using h.writing d rest hm
    · intro d q hdm hq
      rcases hothers _ _ hdm with he' | ⟨hm, hne⟩
      · cases he'
        simpa [setFile] using he hq
      · simpa [setFile, hne] using h.ended d q hm hq
    · intro d hdm
      rcases hothers _ _ hdm with he' | ⟨hm, hne⟩
      · cases he'
        exact absurd rfl hd
      · simpa [setFile, hts] using h.done d hm
    · intro path
      simpa [setFile, hts] using h.whole path
    · intro g hg
      have := h.frame g hg
      simpa [setFile, (hg c hmem).1] using this
  cases hc with
  | create _ _ =>
    exact htemp (some "") rfl (fun rest hr => ⟨"", rfl, by cases hr; simp⟩) (by simp) (by simp) (by simp)
  | append _ _ piece rest o ho =>
    refine htemp _ rfl (fun rest' hr => ⟨o ++ piece, rfl, ?_⟩) (by simp) (by simp) (by simp)
    cases hr
    obtain ⟨w, h1, h2⟩ := h.writing c (piece ++ rest) hin
    have h1 : fs c.temp = some w := h1
    rw [ho] at h1
    cases h1
    rw [String.append_assoc]
    exact h2
  | renameFails _ _ => exact htemp none rfl (by simp) (by simp) (by simp) (by simp)
  | createDirect _ h0 => cases h0
  | appendDirect _ h0 => cases h0
  | finishDirect _ h0 => cases h0
  | rename _ _ x hx =>
    have hxt : x = c.text := by
      obtain ⟨w, h1, h2⟩ := h.writing c "" hin
      have h1 : fs c.temp = some w := h1
      rw [hx] at h1
      cases h1
      simpa using h2
    subst hxt
    refine ⟨by simpa using hcalls, ?_, ?_, ?_, ?_, ?_⟩
    · intro d rest hdm
      rcases hothers _ _ hdm with he' | ⟨hm, hne⟩
      · cases he'
      · have hds : d.temp ≠ schemaFile c.path := by
          refine temp_ne_schema d (hid d ?_) _
          rw [← h.callsEq]
          exact List.mem_map.2 ⟨_, hm, rfl⟩
        simpa [setFile, hne, hds] using h.writing d rest hm
    · intro d q hdm hq
      rcases hothers _ _ hdm with he' | ⟨hm, hne⟩
      · cases he'
        simp [setFile]
      · have hds : d.temp ≠ schemaFile c.path := by
          refine temp_ne_schema d (hid d ?_) _
          rw [← h.callsEq]
          exact List.mem_map.2 ⟨_, hm, rfl⟩
        simpa [setFile, hne, hds] using h.ended d q hm hq
    · intro d hdm
      by_cases hp : schemaFile d.path = schemaFile c.path
      · exact ⟨c, hmem, hp.symm, by simp [setFile, hts, hp]⟩
      · rcases hothers _ _ hdm with he' | ⟨hm, hne⟩
        · cases he'
          exact absurd rfl hp
        · simpa [setFile, hts, hp] using h.done d hm
    · intro path
      by_cases hp : schemaFile path = schemaFile c.path
      · exact .inr ⟨c, hmem, hp.symm, by simp [setFile, hts, hp]⟩
      · simpa [setFile, hts, hp] using h.whole path
    · intro g hg
      have := h.frame g hg
      simpa [setFile, (hg c hmem).1, (hg c hmem).2] using this

theorem inv_runs (old : Fs) (calls : List Call) (hid : ∀ c ∈ calls, HexId c.uid)
    (hnd : (calls.map Call.uid).Nodup) (s : State) (h : Runs true (start old calls) s) :
    Inv old calls s := by
  induction h with
  | refl => exact inv_start old calls
  | tail _ hs ih => exact inv_step old calls hid hnd _ _ ih hs

/-- A call of `write_metadata(metadata, path)`. -/
structure Write where
  path : String
  schema : Schema
  uid : String

/-- The call, with the schema as it is printed. -/
def Write.call (F : Formats) (w : Write) : Call := ⟨w.path, F.print w.schema, w.uid⟩

/-- **C76** Metadata are read whole, whenever writing stops: at every moment of any number of calls of
`write_metadata` that run at the same time, to the same or to different directories, and whichever of
them have crashed or failed, reading a directory gives what was there before, or the metadata that one
of the calls writes to this directory; once a call is done, the latter. -/
theorem metadata_is_read_whole (F : Formats) (hF : ∀ s, F.parse (F.print s) = .ok s) (old : Fs)
    (writes : List Write) (hid : ∀ w ∈ writes, HexId w.uid) (hnd : (writes.map Write.uid).Nodup)
    (s : State) (h : Runs true (start old (writes.map (Write.call F))) s) (path : String) :
    (readMetadata F s.fs path = readMetadata F old path ∨
      ∃ w ∈ writes, schemaFile w.path = schemaFile path ∧ readMetadata F s.fs path = .ok w.schema) ∧
    (∀ c, (c, Pc.done) ∈ s.calls → schemaFile c.path = schemaFile path →
      ∃ w ∈ writes, schemaFile w.path = schemaFile path ∧ readMetadata F s.fs path = .ok w.schema) := by
  have hi := inv_runs old (writes.map (Write.call F)) (by simpa [Write.call] using hid)
    (by simpa [Function.comp_def, Write.call] using hnd) s h
  have key : ∀ c ∈ writes.map (Write.call F), schemaFile c.path = schemaFile path →
      s.fs (schemaFile path) = some c.text →
      ∃ w ∈ writes, schemaFile w.path = schemaFile path ∧ readMetadata F s.fs path = .ok w.schema := by
    intro c hc hp ht
    obtain ⟨w, hw, rfl⟩ := List.mem_map.1 hc
    refine ⟨w, hw, hp, ?_⟩
    unfold readMetadata
    rw [ht]
    exact hF w.schema
  constructor
  · rcases hi.whole path with ho | ⟨c, hc, hp, ht⟩
    · left
      have hl : s.fs (legacyFile path) = old (legacyFile path) := by
        refine hi.frame _ fun c hc => ⟨?_, fun e => schema_ne_legacy _ _ e.symm⟩
        obtain ⟨w, hw, rfl⟩ := List.mem_map.1 hc
        exact (temp_ne_legacy _ (hid w hw) path).symm
      unfold readMetadata
      rw [ho, hl]
    · exact .inr (key c hc hp ht)
  · intro c hc hp
    obtain ⟨c', hc', hp', ht⟩ := hi.done c hc
    rw [hp] at ht hp'
    exact key c' hc' hp' ht

/-- **C76** No other file changes, and calls that have ended leave no temporary files. -/
theorem other_files_unchanged (old : Fs) (calls : List Call) (hid : ∀ c ∈ calls, HexId c.uid)
    (hnd : (calls.map Call.uid).Nodup) (s : State) (h : Runs true (start old calls) s) :
    (∀ g, (∀ c ∈ calls, g ≠ c.temp ∧ g ≠ schemaFile c.path) → s.fs g = old g) ∧
    (∀ c p, (c, p) ∈ s.calls → p = .done ∨ p = .failed → s.fs c.temp = none) :=
  ⟨(inv_runs old calls hid hnd s h).frame, (inv_runs old calls hid hnd s h).ended⟩

/-- **C76** A call never blocks: at every moment, a call that has not ended can go on, whatever the others
did, and can end well. -/
theorem write_can_finish (old : Fs) (calls : List Call) (hid : ∀ c ∈ calls, HexId c.uid)
    (hnd : (calls.map Call.uid).Nodup) (s : State) (h : Runs true (start old calls) s) (c : Call) (p : Pc)
    (hc : (c, p) ∈ s.calls) (hp : p ≠ .failed) :
    ∃ t, Runs true s t ∧ (c, Pc.done) ∈ t.calls := by
  have last : ∀ s, Runs true (start old calls) s → (c, Pc.writing "") ∈ s.calls →
      ∃ t, Runs true s t ∧ (c, Pc.done) ∈ t.calls := by
    intro s h hc
    obtain ⟨w, hw, -⟩ := (inv_runs old calls hid hnd s h).writing c "" hc
    obtain ⟨fs, cs⟩ := s
    obtain ⟨pre, post, rfl⟩ := List.append_of_mem hc
    exact ⟨_, .single (.call pre post c _ _ _ _ (.rename fs rfl w hw)), by simp⟩
  have mid : ∀ s, Runs true (start old calls) s → ∀ rest, (c, Pc.writing rest) ∈ s.calls →
      ∃ t, Runs true s t ∧ (c, Pc.done) ∈ t.calls := by
    intro s h rest hc
    obtain ⟨w, hw, -⟩ := (inv_runs old calls hid hnd s h).writing c rest hc
    obtain ⟨fs, cs⟩ := s
    obtain ⟨pre, post, rfl⟩ := List.append_of_mem hc
    have st : Step true ⟨fs, pre ++ (c, Pc.writing rest) :: post⟩
        ⟨setFile fs c.temp (some (w ++ rest)), pre ++ (c, Pc.writing "") :: post⟩ := by
      have := CallStep.append (atomic := true) (c := c) fs rfl rest "" w hw
      rw [String.append_empty] at this
      exact .call pre post c _ _ _ _ this
    obtain ⟨t, ht, hd⟩ := last _ (h.tail st) (by simp)
    exact ⟨t, .head st ht, hd⟩
  cases p with
  | failed => exact absurd rfl hp
  | done => exact ⟨s, .refl, hc⟩
  | writing rest => exact mid s h rest hc
  | start =>
    obtain ⟨fs, cs⟩ := s
    obtain ⟨pre, post, rfl⟩ := List.append_of_mem hc
    have st : Step true ⟨fs, pre ++ (c, Pc.start) :: post⟩
        ⟨setFile fs c.temp (some ""), pre ++ (c, Pc.writing c.text) :: post⟩ :=
      .call pre post c _ _ _ _ (.create fs rfl)
    obtain ⟨t, ht, hd⟩ := mid _ (h.tail st) c.text (by simp)
    exact ⟨t, .head st ht, hd⟩

/-- Two calls to one directory. -/
example : ∃ s, Runs true (start (fun _ => none)
      [⟨"d", "one", "00000000000000000000000000000001"⟩, ⟨"d", "two", "00000000000000000000000000000002"⟩]) s ∧
    (⟨"d", "two", "00000000000000000000000000000002"⟩, Pc.done) ∈ s.calls ∧
    ∀ c ∈ s.calls, HexId c.1.uid := by
  obtain ⟨t, h1, h2⟩ := write_can_finish (fun _ => none)
    [⟨"d", "one", "00000000000000000000000000000001"⟩, ⟨"d", "two", "00000000000000000000000000000002"⟩]
    (by unfold HexId; decide) (by decide) _ .refl ⟨"d", "two", "00000000000000000000000000000002"⟩ .start
    (by simp [start]) (by simp)
  refine ⟨t, h1, h2, fun c hc => ?_⟩
  have hi := inv_runs _ _ (by unfold HexId; decide) (by decide) t h1
  have : c.1 ∈ t.calls.map Prod.fst := List.mem_map.2 ⟨c, hc, rfl⟩
  rw [hi.callsEq] at this
  revert this
  unfold HexId
  generalize c.1 = d
  intro hd
  simp only [List.mem_cons, List.not_mem_nil, or_false] at hd
  rcases hd with rfl | rfl <;> decide

/-- **C76** On file systems without an atomic move the claim is false: a crash leaves an empty schema file
where there was one before. -/
theorem direct_write_is_not_atomic : ∃ s, Runs false
      (start (setFile (fun _ => none) (schemaFile "d") (some "old")) [⟨"d", "new", ""⟩]) s ∧
    s.fs (schemaFile "d") = some "" :=
  ⟨_, .single (.call [] [] _ _ _ _ _ (.createDirect _ rfl)), by simp [setFile]⟩

/-- **C76** `schema.pbtxt` counts, whatever legacy file there is beside it. -/
theorem schema_file_before_legacy (F : Formats) (fs : Fs) (path text : String)
    (h : fs (schemaFile path) = some text) : readMetadata F fs path = F.parse text := by
  unfold readMetadata
  rw [h]

/-- **C76** A directory without either file is refused. -/
theorem nothing_to_read (F : Formats) (fs : Fs) (path : String) (h : fs (schemaFile path) = none)
    (h' : fs (legacyFile path) = none) : ∃ e, readMetadata F fs path = .error e := by
  unfold readMetadata
  rw [h, h']
  exact ⟨_, rfl⟩

/-- **C76** `WriteMetadata` writes no asset map if it is empty, and leaves one that an earlier run wrote to
the same directory. -/
theorem asset_map_of_earlier_run_stays (fs : Fs) (path : String)
    (dumps : List (String × String) → String) :
    writeAssetMap fs path [] dumps = fs ∧
    (∀ assets, assets ≠ [] → writeAssetMap fs path assets dumps (join path "asset_map")
      = some (dumps assets)) ∧
    (∀ assets g, g ≠ join path "asset_map" → writeAssetMap fs path assets dumps g = fs g) := by
  refine ⟨by simp [writeAssetMap], ?_, ?_⟩
  · intro assets h
    simp [writeAssetMap, h, setFile]
  · intro assets g h
    unfold writeAssetMap
    split
    · rfl
    · simp [setFile, h]

/-! ## Legacy files -/

/-- The domain that a legacy file gives for a feature. -/
inductive LegacyDomain
  | ints (min max : Option Int) (isCategorical : Bool)
  | floats
  | strings

/-- How a legacy file says that a feature is parsed. -/
inductive LegacyKind
  | fixedLen (shape : List Int) (hasDefault : Bool)
  | varLen

/-- A feature that a legacy file describes. -/
structure LegacyFeature where
  name : String
  domain : LegacyDomain
  kind : LegacyKind

/-- An object with a value for a key, of which `P` holds. -/
def Has (j : Json) (k : String) (P : Json → Prop) : Prop :=
  ∃ es v, j = .obj es ∧ FeatureSpec.get es k = some v ∧ P v

/-- An object without a key. -/
def Without (j : Json) (k : String) : Prop := ∃ es, j = .obj es ∧ FeatureSpec.get es k = none

/-- An object without a value for a key. -/
def Lacks (j : Json) (k : String) : Prop := Without j k ∨ Has j k (· = .null)

/-- An integer, as a number or (as protobuf writes it) as a string. -/
def IsInt (parse : String → Option Int) (n : Int) (j : Json) : Prop :=
  j = .int n ∨ ∃ s, j = .str s ∧ parse s = some n

/-- An optional integer. -/
def HasInt (parse : String → Option Int) (j : Json) (k : String) : Option Int → Prop
  | none => Lacks j k
  | some n => Has j k (IsInt parse n)

/-- The JSON of a domain. -/
def EncodesDomain (parse : String → Option Int) (j : Json) : LegacyDomain → Prop
  | .ints lo hi cat => Has j "ints" fun i => HasInt parse i "min" lo ∧ HasInt parse i "max" hi ∧
      (Has i "isCategorical" (· = .bool cat) ∨ cat = false ∧ Lacks i "isCategorical")
  | .floats => Lacks j "ints" ∧ Has j "floats" (· ≠ .null)
  | .strings => Lacks j "ints" ∧ Lacks j "floats" ∧ Has j "strings" (· ≠ .null)

/-- The options of a fixed-length feature with or without a default value. -/
def EncodesDefault (parse : String → Option Int) (j : Json) : Bool → Prop
  | false => Without j "intDefaultValue" ∧ Without j "stringDefaultValue" ∧ Without j "floatDefaultValue"
  | true =>
    Has j "intDefaultValue" (fun v => (∃ n, IsInt parse n v) ∨
      ∃ l ns, v = .arr l ∧ List.Forall₂ (fun j n => IsInt parse n j) l ns) ∨
    Without j "intDefaultValue" ∧ Has j "stringDefaultValue" (· ≠ .null) ∨
    Without j "intDefaultValue" ∧ Without j "stringDefaultValue" ∧ Has j "floatDefaultValue" (· ≠ .null)

/-- The JSON of a shape. -/
def EncodesShape (parse : String → Option Int) (j : Json) (shape : List Int) : Prop :=
  Without j "axis" ∧ shape = [] ∨
  Has j "axis" fun a => ∃ l, a = .arr l ∧ List.Forall₂ (fun j n => Has j "size" (IsInt parse n)) l shape

/-- The JSON of the way a feature is parsed. -/
def EncodesKind (parse : String → Option Int) (j : Json) : LegacyKind → Prop
  | .fixedLen shape hasDefault =>
    Has j "parsingOptions" (fun p => Has p "tfOptions" fun o => Has o "fixedLenFeature" fun f =>
      EncodesDefault parse f hasDefault) ∧
    Has j "fixedShape" fun s => EncodesShape parse s shape
  | .varLen => Has j "parsingOptions" fun p => Has p "tfOptions" fun o =>
      Lacks o "fixedLenFeature" ∧ Has o "varLenFeature" (· ≠ .null)

/-- The JSON of a feature. -/
def Encodes (parse : String → Option Int) (j : Json) (f : LegacyFeature) : Prop :=
  Has j "name" (· = .str f.name) ∧ Has j "domain" (fun d => EncodesDomain parse d f.domain) ∧
  EncodesKind parse j f.kind

/-- The type of a feature. -/
def LegacyDomain.dtype : LegacyDomain → DType
  | .ints _ _ _ => .int64
  | .floats => .float32
  | .strings => .string

/-- The spec of a feature without default value. -/
def LegacyFeature.spec (f : LegacyFeature) : Spec :=
  match f.kind with
  | .fixedLen shape _ => .fixedLen shape f.domain.dtype none
  | .varLen => .varLen f.domain.dtype

/-- The domain of a feature. -/
def LegacyDomain.domain : LegacyDomain → Option Domain
  | .ints lo hi cat => some (.int lo hi cat)
  | _ => none

/-- Whether a feature has a default value. -/
def LegacyFeature.hasDefault (f : LegacyFeature) : Bool :=
  match f.kind with
  | .fixedLen _ d => d
  | .varLen => false

theorem item_has {j : Json} {k : String} {P : Json → Prop} (h : Has j k P) :
    ∃ v, item k j = .ok v ∧ P v ∧ ∀ d, dotGet k d j = .ok v := by
  obtain ⟨es, v, rfl, h1, h2⟩ := h
  exact ⟨v, by simp [item, h1], h2, by simp [dotGet, h1]⟩

theorem item_without {j : Json} {k : String} (h : Without j k) :
    item k j = .error .keyError ∧ ∀ d, dotGet k d j = .ok d := by
  obtain ⟨es, rfl, h1⟩ := h
  exact ⟨by simp [item, h1], by simp [dotGet, h1]⟩

theorem dotGet_lacks {j : Json} {k : String} (h : Lacks j k) : dotGet k .null j = .ok .null := by
  rcases h with h | h
  · exact (item_without h).2 _
  · obtain ⟨v, -, rfl, h2⟩ := item_has h
    exact h2 _

theorem toInt_isInt {parse : String → Option Int} {n : Int} {j : Json} (h : IsInt parse n j) :
    toInt parse j = .ok n := by
  rcases h with rfl | ⟨s, rfl, h⟩
  · rfl
  · simp [toInt, h]

theorem isGiven_isInt {parse : String → Option Int} {n : Int} {j : Json} (h : IsInt parse n j) :
    isGiven j = true := by
  rcases h with rfl | ⟨s, rfl, h⟩ <;> rfl

theorem isGiven_of_ne {j : Json} (h : j ≠ .null) : isGiven j = true := by
  cases j <;> first | rfl | exact absurd rfl h

theorem isGiven_has {j : Json} {k : String} {P : Json → Prop} (h : Has j k P) : isGiven j = true := by
  obtain ⟨es, v, rfl, -⟩ := h
  rfl

theorem isGiven_without {j : Json} {k : String} (h : Without j k) : isGiven j = true := by
  obtain ⟨es, rfl, -⟩ := h
  rfl

theorem isGiven_lacks {j : Json} {k : String} (h : Lacks j k) : isGiven j = true :=
  h.elim isGiven_without isGiven_has

theorem maybeToInt_spec {parse : String → Option Int} {j : Json} {k : String} {o : Option Int}
    (h : HasInt parse j k o) : (dotGet k .null j).bind (maybeToInt parse) = .ok o := by
  cases o with
  | none =>
    rw [dotGet_lacks h]
    rfl
  | some n =>
    obtain ⟨v, -, h1, h2⟩ := item_has h
    rw [h2]
    simp [Except.bind, maybeToInt, isGiven_isInt h1, toInt_isInt h1, Except.map]

theorem hasInt_given {parse : String → Option Int} {j : Json} {k : String} {o : Option Int}
    (h : HasInt parse j k o) : isGiven j = true := by
  cases o with
  | none => exact isGiven_lacks h
  | some n => exact isGiven_has h

theorem dtype_spec {parse : String → Option Int} {j : Json} {d : LegacyDomain}
    (h : EncodesDomain parse j d) : dtypeFromJson j = .ok d.dtype := by
  unfold dtypeFromJson
  cases d with
  | ints lo hi cat =>
    obtain ⟨v, -, ⟨h1, -⟩, h2⟩ := item_has h
    rw [h2]
    simp [bind, Except.bind, hasInt_given h1, pure, Except.pure, LegacyDomain.dtype]
  | floats =>
    obtain ⟨v, -, h1, h2⟩ := item_has h.2
    rw [dotGet_lacks h.1, h2]
    simp [bind, Except.bind, isGiven_of_ne h1, pure, Except.pure, LegacyDomain.dtype, show isGiven .null = false from rfl]
  | strings =>
    obtain ⟨v, -, h1, h2⟩ := item_has h.2.2
    rw [dotGet_lacks h.1, dotGet_lacks h.2.1, h2]
    simp [bind, Except.bind, isGiven_of_ne h1, pure, Except.pure, LegacyDomain.dtype, show isGiven .null = false from rfl]

theorem domain_spec {parse : String → Option Int} {j : Json} {d : LegacyDomain}
    (h : EncodesDomain parse j d) : domainFromJson parse j = .ok d.domain := by
  unfold domainFromJson
  cases d with
  | ints lo hi cat =>
    obtain ⟨v, -, ⟨h1, h3, h4⟩, h2⟩ := item_has h
    rw [h2]
    have e1 := maybeToInt_spec h1
    have e3 := maybeToInt_spec h3
    cases g1 : dotGet "min" .null v with
    | error e => rw [g1] at e1; cases e1
    | ok a =>
      cases g3 : dotGet "max" .null v with
      | error e => rw [g3] at e3; cases e3
      | ok b =>
        rw [g1] at e1
        rw [g3] at e3
        simp only [Except.bind] at e1 e3
        have e4 : ∃ c, dotGet "isCategorical" .null v = .ok c ∧ toCategorical c = .ok cat := by
          rcases h4 with h4 | ⟨rfl, h4⟩
          · obtain ⟨c, -, rfl, h5⟩ := item_has h4
            exact ⟨_, h5 _, rfl⟩
          · exact ⟨_, dotGet_lacks h4, rfl⟩
        obtain ⟨c, h5, h6⟩ := e4
        simp [bind, Except.bind, hasInt_given h1, pure, Except.pure, LegacyDomain.domain, g1, g3, e1, e3, h5,
          h6]
  | floats =>
    rw [dotGet_lacks h.1]
    simp [bind, Except.bind, pure, Except.pure, LegacyDomain.domain, isGiven]
  | strings =>
    rw [dotGet_lacks h.1]
    simp [bind, Except.bind, pure, Except.pure, LegacyDomain.domain, isGiven]

theorem mapM_forall₂ {α β ε : Type} (f : α → Except ε β) (l : List α) (r : List β)
    (h : List.Forall₂ (fun a b => f a = .ok b) l r) : l.mapM f = .ok r := by
  induction h with
  | nil => rfl
  | cons h1 _ ih => simp [List.mapM_cons, h1, ih, bind, Except.bind, pure, Except.pure]

theorem default_spec {parse : String → Option Int} {o : Json} {d : Bool}
    (h : Has o "fixedLenFeature" fun f => EncodesDefault parse f d) :
    ∃ v, defaultValue parse o = .ok v ∧ (keptDefault v).isSome = d := by
  obtain ⟨f, hf, h, -⟩ := item_has h
  unfold defaultValue
  rw [hf]
  simp only [Except.bind]
  cases d with
  | false =>
    obtain ⟨h1, h2, h3⟩ := h
    exact ⟨.null, by simp [(item_without h1).1, (item_without h2).1, (item_without h3).1, orElseKeyError], rfl⟩
  | true =>
    rcases h with h | ⟨h1, h⟩ | ⟨h1, h2, h⟩
    · obtain ⟨v, hv, h, -⟩ := item_has h
      rw [hv]
      rcases h with ⟨n, h⟩ | ⟨l, ns, rfl, h⟩
      · refine ⟨.int n, ?_, rfl⟩
        have : scalarOrList parse v = .ok (.int n) := by
          rcases h with rfl | ⟨s, rfl, h⟩
          · rfl
          · simp [scalarOrList, toInt, h, Except.map]
        simp [this, orElseKeyError]
      · refine ⟨.arr (ns.map .int), ?_, rfl⟩
        have : l.mapM (toInt parse) = .ok ns := mapM_forall₂ _ _ _ (h.imp fun _ _ h => toInt_isInt h)
        simp [scalarOrList, this, orElseKeyError, Except.map]
    · obtain ⟨v, hv, h, -⟩ := item_has h
      refine ⟨v, by simp [(item_without h1).1, hv, orElseKeyError], ?_⟩
      cases v <;> first | rfl | exact absurd rfl h
    · obtain ⟨v, hv, h, -⟩ := item_has h
      refine ⟨v, by simp [(item_without h1).1, (item_without h2).1, hv, orElseKeyError], ?_⟩
      cases v <;> first | rfl | exact absurd rfl h

/-- The spec of a feature, with its default value. -/
def withDefault (b : Bool) : Spec → Spec
  | .fixedLen shape dtype _ => .fixedLen shape dtype (if b then some "default" else none)
  | s => s

theorem keptDefault_eq (v : Json) : keptDefault v = if (keptDefault v).isSome then some "default" else none := by
  cases v <;> rfl

theorem column_spec {parse : String → Option Int} {j : Json} {f : LegacyFeature}
    (h : Encodes parse j f) :
    columnSchemaFromJson parse j = .ok (withDefault f.hasDefault f.spec) := by
  obtain ⟨-, hd, hk⟩ := h
  obtain ⟨d, hd1, hd2, -⟩ := item_has hd
  unfold columnSchemaFromJson
  rw [hd1]
  simp only [bind, Except.bind]
  rw [dtype_spec hd2]
  simp only
  unfold LegacyFeature.hasDefault LegacyFeature.spec
  cases hkind : f.kind with
  | fixedLen shape b =>
    rw [hkind] at hk
    obtain ⟨h1, h2⟩ := hk
    obtain ⟨p, hp, h1, -⟩ := item_has h1
    obtain ⟨o, ho, h1, -⟩ := item_has h1
    obtain ⟨v, hv, hvd⟩ := default_spec h1
    obtain ⟨x, -, h3, hx⟩ := item_has h1
    obtain ⟨s, hs, h2', -⟩ := item_has h2
    have hxg : isGiven x = true := by
      cases b with
      | false => exact isGiven_without h3.1
      | true =>
        rcases h3 with h3 | ⟨h3, -⟩ | ⟨h3, -⟩
        · exact isGiven_has h3
        · exact isGiven_without h3
        · exact isGiven_without h3
    rw [hp]
    simp only [ho, hx, hxg, if_true, hv, hs]
    have hshape : ∃ a l, dotGet "axis" (.arr []) s = .ok a ∧ elements a = .ok l ∧
        l.mapM (axisSize parse) = .ok shape := by
      rcases h2' with ⟨h4, rfl⟩ | h2
      · exact ⟨_, _, (item_without h4).2 _, rfl, rfl⟩
      · obtain ⟨a, -, ⟨l, rfl, hl⟩, ha⟩ := item_has h2
        refine ⟨_, _, ha _, rfl, mapM_forall₂ _ _ _ (hl.imp ?_)⟩
        intro j n hj
        obtain ⟨y, hy, hi, -⟩ := item_has hj
        unfold axisSize
        rw [hy]
        exact toInt_isInt hi
    obtain ⟨a, l, ha, hl, hm⟩ := hshape
    simp only [ha, hl, hm, pure, Except.pure]
    rw [keptDefault_eq, hvd]
    rfl
  | varLen =>
    rw [hkind] at hk
    obtain ⟨p, hp, hk, -⟩ := item_has hk
    obtain ⟨o, ho, ⟨h1, h2⟩, -⟩ := item_has hk
    obtain ⟨x, -, hx, hxg⟩ := item_has h2
    rw [hp]
    simp only [ho, dotGet_lacks h1, hxg, isGiven_of_ne hx, if_true, pure, Except.pure]
    rfl

theorem name_spec {parse : String → Option Int} {j : Json} {f : LegacyFeature}
    (h : Encodes parse j f) : featureName j = .ok f.name := by
  obtain ⟨v, hv, rfl, -⟩ := item_has h.1
  unfold featureName
  rw [hv]
  rfl

theorem specEntry_spec {parse : String → Option Int} {j : Json} {f : LegacyFeature}
    (h : Encodes parse j f) : specEntry parse j = .ok (f.name, withDefault f.hasDefault f.spec) := by
  unfold specEntry
  rw [name_spec h, column_spec h]
  rfl

theorem domainOf_spec {parse : String → Option Int} {j : Json} {f : LegacyFeature}
    (h : Encodes parse j f) : domainOf parse j = .ok (f.name, f.domain.domain) := by
  obtain ⟨d, hd1, hd2, -⟩ := item_has h.2.1
  unfold domainOf
  rw [name_spec h, hd1]
  simp only [bind, Except.bind]
  rw [domain_spec hd2]
  rfl

theorem dictOf_of_nodup {α : Type} (es : List (String × α)) (h : (es.map Prod.fst).Nodup) :
    TransformData.dictOf es = es := by
  induction es using List.reverseRecOn with
  | nil => rfl
  | append_singleton es e ih =>
    rw [TransformData.dictOf_snoc]
    rw [List.map_append, List.nodup_append] at h
    rw [ih h.1]
    have : e.1 ∉ es.map Prod.fst := fun hin => h.2.2 _ hin _ (by simp) rfl
    clear ih h
    induction es with
    | nil => rfl
    | cons x es ih =>
      obtain ⟨k, v⟩ := x
      simp only [List.map_cons, List.mem_cons, not_or] at this
      simp only [TransformData.setItem, if_neg (Ne.symm this.1), List.cons_append]
      rw [ih this.2]

/-- The file as the code reads it: the feature spec, with default values, and the domains. -/
theorem parse_spec (parse : String → Option Int) (doc : Json) (fs : List LegacyFeature)
    (hdoc : Has doc "feature" fun v => ∃ l, v = .arr l ∧ List.Forall₂ (Encodes parse) l fs)
    (hnames : (fs.map LegacyFeature.name).Nodup) :
    parseSchemaJson parse doc =
      match schemaFromFeatureSpec (fs.map fun f => (f.name, withDefault f.hasDefault f.spec))
        ((fs.map fun f => (f.name, f.domain.domain)).filterMap givenEntry) with
      | .ok s => .ok s
      | .error e => .error (.other e) := by
  obtain ⟨v, -, ⟨l, rfl, h⟩, hv⟩ := item_has hdoc
  have h1 : l.mapM (specEntry parse) = .ok (fs.map fun f => (f.name, withDefault f.hasDefault f.spec)) := by
    refine mapM_forall₂ _ _ _ ?_
    rw [List.forall₂_map_right_iff]
    exact h.imp fun _ _ h => specEntry_spec h
  have h2 : l.mapM (domainOf parse) = .ok (fs.map fun f => (f.name, f.domain.domain)) := by
    refine mapM_forall₂ _ _ _ ?_
    rw [List.forall₂_map_right_iff]
    exact h.imp fun _ _ h => domainOf_spec h
  unfold parseSchemaJson
  rw [hv]
  simp only [bind, Except.bind, elements]
  rw [h1]
  simp only
  rw [h2]
  simp only
  rw [dictOf_of_nodup _ (by simpa [Function.comp_def] using hnames),
    dictOf_of_nodup _ (by simpa [Function.comp_def] using hnames)]
  cases schemaFromFeatureSpec (fs.map fun f => (f.name, withDefault f.hasDefault f.spec))
    ((fs.map fun f => (f.name, f.domain.domain)).filterMap givenEntry) <;> rfl

theorem lookup_fs {α : Type} (fs : List LegacyFeature) (hnames : (fs.map LegacyFeature.name).Nodup)
    (g : LegacyFeature → α) (f : LegacyFeature) (hf : f ∈ fs) :
    (fs.map fun f => (f.name, g f)).lookup f.name = some (g f) := by
  rw [FeatureSpec.lookup_iff _ (by simpa [Function.comp_def] using hnames)]
  exact List.mem_map.2 ⟨f, hf, rfl⟩

theorem lookup_given (ds : List (String × Option Domain)) (hnd : (ds.map Prod.fst).Nodup) (k : String) :
    (ds.filterMap givenEntry).lookup k = ((ds.lookup k).join).map some := by
  induction ds with
  | nil => rfl
  | cons e ds ih =>
    obtain ⟨k', d⟩ := e
    simp only [List.map_cons, List.nodup_cons] at hnd
    by_cases hk : k = k'
    · subst hk
      cases d with
      | none =>
        simp only [List.filterMap_cons, givenEntry, Option.map_none, ih hnd.2]
        have : ds.lookup k = none := by
          rw [List.lookup_eq_none_iff]
          intro p hp
          simp only [bne_iff_ne, ne_eq]
          rintro rfl
          exact hnd.1 (List.mem_map.2 ⟨p, hp, rfl⟩)
        simp [this]
      | some d => simp [givenEntry]
    · have hb : (k == k') = false := by simpa using hk
      cases d with
      | none => simp [List.filterMap_cons, givenEntry, ih hnd.2, List.lookup_cons, hb]
      | some d => simp [givenEntry, ih hnd.2, List.lookup_cons, hb]

theorem parsed_legacy_file (parse : String → Option Int) (doc : Json) (fs : List LegacyFeature)
    (hdoc : Has doc "feature" fun v => ∃ l, v = .arr l ∧ List.Forall₂ (Encodes parse) l fs)
    (hnames : (fs.map LegacyFeature.name).Nodup) (hdef : ∀ f ∈ fs, f.hasDefault = false) :
    ∃ s r, parseSchemaJson parse doc = .ok s ∧ schemaAsFeatureSpec s = .ok r ∧
      (∀ f ∈ fs, FeatureSpec.get r.1 f.name = some f.spec ∧ FeatureSpec.get r.2 f.name = f.domain.domain) ∧
      (∀ name, (FeatureSpec.get r.1 name).isSome → name ∈ fs.map LegacyFeature.name) := by
  have hspec : (fs.map fun f => (f.name, withDefault f.hasDefault f.spec)) =
      fs.map fun f => (f.name, f.spec) := by
    refine List.map_congr_left fun f hf => ?_
    rw [hdef f hf]
    unfold LegacyFeature.spec
    cases f.kind <;> rfl
  set spec := fs.map fun f => (f.name, f.spec) with hs
  set domains := (fs.map fun f => (f.name, f.domain.domain)).filterMap givenEntry with hd
  have hkeys : (spec.map Prod.fst).Nodup := by simpa [hs, Function.comp_def] using hnames
  have hdl : ∀ k, domains.lookup k = (((fs.map fun f => (f.name, f.domain.domain)).lookup k).join).map some :=
    lookup_given _ (by simpa [Function.comp_def] using hnames)
  have hconv : ∀ i ∈ spec, Convertible domains i := by
    intro i hi
    obtain ⟨f, hf, rfl⟩ := List.mem_map.1 hi
    constructor
    · show f.spec.Supported
      unfold LegacyFeature.spec
      have : f.domain.dtype.Supported := by cases f.domain <;> trivial
      cases f.kind
      · exact ⟨this, rfl⟩
      · exact this
    · rw [hdl]
      cases ((fs.map fun f => (f.name, f.domain.domain)).lookup f.name).join <;> simp
  have hcol : ∀ i ∈ spec, columns i = [i.1] := by
    intro i hi
    obtain ⟨f, hf, rfl⟩ := List.mem_map.1 hi
    unfold LegacyFeature.spec
    cases f.kind <;> rfl
  have hcols : (spec.flatMap columns).Nodup := by
    have : spec.flatMap columns = spec.map Prod.fst := by
      rw [List.flatMap_congr hcol, ← List.map_eq_flatMap]
    rw [this]
    exact hkeys
  have hsparse : ∀ i ∈ spec, i.2.isSparse → i.1 ∉ spec.flatMap columns := by
    intro i hi h
    obtain ⟨f, hf, rfl⟩ := List.mem_map.1 hi
    unfold LegacyFeature.spec at h
    cases hk : f.kind <;> simp [hk, Spec.isSparse] at h
  obtain ⟨s, r, h1, h2, h3, h4⟩ := feature_spec_round_trip_partial spec domains hkeys hconv hcols hsparse
  refine ⟨s, r, ?_, h2, ?_, ?_⟩
  · rw [parse_spec parse doc fs hdoc hnames, hspec, h1]
  · intro f hf
    constructor
    · rw [h3, lookup_fs fs hnames LegacyFeature.spec f hf]
      unfold LegacyFeature.spec
      cases f.kind <;> rfl
    · rw [h4, if_pos (by simp only [hs, List.map_map]; exact List.mem_map.2 ⟨f, hf, rfl⟩)]
      unfold givenDomain
      rw [hdl, lookup_fs fs hnames (fun f => f.domain.domain) f hf]
      cases f.domain.domain <;> rfl
  · intro name hn
    rw [h3, Option.isSome_map] at hn
    obtain ⟨sp, hsp⟩ := Option.isSome_iff_exists.1 hn
    have := (FeatureSpec.lookup_iff spec hkeys name sp).1 hsp
    obtain ⟨f, hf, he⟩ := List.mem_map.1 this
    cases he
    exact List.mem_map.2 ⟨f, hf, rfl⟩

theorem parsed_legacy_defaults (parse : String → Option Int) (doc : Json) (fs : List LegacyFeature)
    (hdoc : Has doc "feature" fun v => ∃ l, v = .arr l ∧ List.Forall₂ (Encodes parse) l fs)
    (hnames : (fs.map LegacyFeature.name).Nodup) (f : LegacyFeature) (hf : f ∈ fs)
    (hdef : f.hasDefault = true) : ∃ e, parseSchemaJson parse doc = .error e := by
  rw [parse_spec parse doc fs hdoc hnames]
  split
  · rename_i s h
    have := (conversion_succeeds_iff _ _).1 ⟨s, h⟩ _ (List.mem_map.2 ⟨f, hf, rfl⟩)
    have h2 := this.1
    unfold LegacyFeature.hasDefault at hdef
    simp only [LegacyFeature.hasDefault, LegacyFeature.spec] at h2
    cases hk : f.kind with
    | fixedLen shape b =>
      rw [hk] at h2 hdef
      simp only at hdef
      subst hdef
      simp [withDefault, Spec.Supported] at h2
    | varLen => rw [hk] at hdef; cases hdef
  · exact ⟨_, rfl⟩

theorem mapM_ok_mem {α β ε : Type} (f : α → Except ε β) (l : List α) (r : List β)
    (h : l.mapM f = .ok r) (a : α) (ha : a ∈ l) : ∃ b, f a = .ok b := by
  induction l generalizing r with
  | nil => cases ha
  | cons x l ih =>
    rw [List.mapM_cons] at h
    cases hx : f x with
    | error e => rw [hx] at h; cases h
    | ok b =>
      rw [hx] at h
      cases hl : l.mapM f with
      | error e =>
        simp only [bind, Except.bind] at h
        rw [hl] at h
        cases h
      | ok bs =>
        rcases List.mem_cons.1 ha with rfl | ha
        · exact ⟨b, hx⟩
        · exact ih bs hl ha

/-- A value that is not an integer: a string that is not one, a missing value or an object. -/
def NoInt (parse : String → Option Int) (v : Json) : Prop :=
  (∃ s, v = .str s ∧ parse s = none) ∨ v = .null ∨ ∃ es, v = .obj es

theorem toInt_noInt {parse : String → Option Int} {v : Json} (h : NoInt parse v) :
    ∃ m, toInt parse v = .error (.other m) := by
  rcases h with ⟨s, rfl, h⟩ | rfl | ⟨es, rfl⟩
  · exact ⟨"ValueError: invalid literal for int()", by simp only [toInt, h]⟩
  · exact ⟨_, rfl⟩
  · exact ⟨_, rfl⟩

theorem toInt_other {parse : String → Option Int} (v : Json) :
    (∃ n, toInt parse v = .ok n) ∨ ∃ m, toInt parse v = .error (.other m) := by
  cases v with
  | str s =>
    cases h : parse s with
    | some n => exact .inl ⟨n, by simp only [toInt, h]⟩
    | none => exact .inr ⟨"ValueError: invalid literal for int()", by simp only [toInt, h]⟩
  | null => exact .inr ⟨_, rfl⟩
  | arr l => exact .inr ⟨_, rfl⟩
  | obj l => exact .inr ⟨_, rfl⟩
  | _ => exact .inl ⟨_, rfl⟩

theorem mapM_noInt {parse : String → Option Int} (l : List Json) (h : ∃ v ∈ l, NoInt parse v) :
    ∃ m, l.mapM (toInt parse) = .error (.other m) := by
  induction l with
  | nil => simp at h
  | cons x l ih =>
    rw [List.mapM_cons]
    rcases toInt_other (parse := parse) x with ⟨n, hx⟩ | ⟨m, hx⟩
    · obtain ⟨v, hv, hn⟩ := h
      rcases List.mem_cons.1 hv with rfl | hv
      · obtain ⟨m, hm⟩ := toInt_noInt hn
        rw [hm] at hx
        cases hx
      · obtain ⟨m, hm⟩ := ih ⟨v, hv, hn⟩
        exact ⟨m, by rw [hx]; simp only [bind, Except.bind]; rw [hm]⟩
    · exact ⟨m, by rw [hx]; rfl⟩

theorem default_noInt {parse : String → Option Int} {o : Json}
    (h : Has o "fixedLenFeature" fun f => Has f "intDefaultValue" fun v =>
      NoInt parse v ∨ ∃ l, v = .arr l ∧ ∃ x ∈ l, NoInt parse x) :
    ∃ e, defaultValue parse o = .error e := by
  obtain ⟨f, hf, h, -⟩ := item_has h
  obtain ⟨v, hv, h, -⟩ := item_has h
  have : ∃ m, scalarOrList parse v = .error (.other m) := by
    rcases h with h | ⟨l, rfl, h⟩
    · obtain ⟨m, hm⟩ := toInt_noInt h
      rcases h with ⟨s, rfl, h⟩ | rfl | ⟨es, rfl⟩ <;>
        exact ⟨m, by unfold scalarOrList; simp only [hm]; rfl⟩
    · obtain ⟨m, hm⟩ := mapM_noInt l h
      exact ⟨m, by unfold scalarOrList; simp only [hm]; rfl⟩
  obtain ⟨m, hm⟩ := this
  unfold defaultValue
  rw [hf]
  simp only [Except.bind, hv, hm, orElseKeyError]
  exact ⟨_, rfl⟩

theorem parsed_legacy_unknown (parse : String → Option Int) (doc : Json) (l : List Json)
    (hdoc : Has doc "feature" (· = .arr l)) (j : Json) (hj : j ∈ l)
    (h : Has j "domain" (fun d => Lacks d "ints" ∧ Lacks d "floats" ∧ Lacks d "strings") ∨
      Has j "parsingOptions" fun p => Has p "tfOptions" fun o =>
        (Lacks o "fixedLenFeature" ∧ Lacks o "varLenFeature") ∨
        Has o "fixedLenFeature" fun f => Has f "intDefaultValue" fun v =>
          NoInt parse v ∨ ∃ l, v = .arr l ∧ ∃ x ∈ l, NoInt parse x) :
    ∃ e, parseSchemaJson parse doc = .error e := by
  have hcol : ∀ s, columnSchemaFromJson parse j ≠ .ok s := by
    intro s hs
    unfold columnSchemaFromJson at hs
    rcases h with h | h
    · obtain ⟨d, hd, ⟨h1, h2, h3⟩, -⟩ := item_has h
      rw [hd] at hs
      have : dtypeFromJson d = .error (.other "ValueError: Unknown domain") := by
        unfold dtypeFromJson
        rw [dotGet_lacks h1, dotGet_lacks h2, dotGet_lacks h3]
        rfl
      simp only [bind, Except.bind, this] at hs
      cases hs
    · obtain ⟨p, hp, h, -⟩ := item_has h
      obtain ⟨o, ho, h12, -⟩ := item_has h
      cases hd : item "domain" j with
      | error e => rw [hd] at hs; cases hs
      | ok d =>
        rw [hd] at hs
        simp only [bind, Except.bind] at hs
        cases ht : dtypeFromJson d with
        | error e => rw [ht] at hs; cases hs
        | ok t =>
          rw [ht, hp] at hs
          rcases h12 with ⟨h1, h2⟩ | h12
          · simp only [ho, dotGet_lacks h1, dotGet_lacks h2] at hs
            cases hs
          · obtain ⟨f, hf, hd', hg⟩ := item_has h12
            obtain ⟨e, he⟩ := default_noInt h12
            simp only [ho, hg, isGiven_has hd', if_true, he] at hs
            cases hs
  obtain ⟨v, -, rfl, hv⟩ := item_has hdoc
  unfold parseSchemaJson
  rw [hv]
  simp only [bind, Except.bind, elements]
  cases hm : l.mapM (specEntry parse) with
  | error e => exact ⟨_, rfl⟩
  | ok r =>
    exfalso
    obtain ⟨b, hb⟩ := mapM_ok_mem _ _ _ hm j hj
    unfold specEntry at hb
    cases hn : featureName j with
    | error e => rw [hn] at hb; cases hb
    | ok n =>
      rw [hn] at hb
      simp only [bind, Except.bind] at hb
      cases hc : columnSchemaFromJson parse j with
      | error e => rw [hc] at hb; cases hb
      | ok s => exact hcol s hc

/-- The directory has a legacy file and no other, and `doc` is what it says as JSON. -/
def LegacyDirectory (F : Formats) (fs : Fs) (path : String) (doc : Json) : Prop :=
  fs (schemaFile path) = none ∧ ∃ text, fs (legacyFile path) = some text ∧ F.loads text = .ok doc

theorem read_legacy {F : Formats} {fs : Fs} {path : String} {doc : Json}
    (h : LegacyDirectory F fs path doc) : readMetadata F fs path = parseSchemaJson F.int doc := by
  obtain ⟨h1, text, h2, h3⟩ := h
  unfold readMetadata
  rw [h1, h2]
  simp only [h3]
  rfl

/-- **C76** A legacy file is read as the features that it describes: their specs, and the domains of
integers. -/
theorem legacy_file_is_read (F : Formats) (fs : Fs) (path : String) (doc : Json)
    (hdir : LegacyDirectory F fs path doc) (features : List LegacyFeature)
    (hdoc : Has doc "feature" fun v => ∃ l, v = .arr l ∧ List.Forall₂ (Encodes F.int) l features)
    (hnames : (features.map LegacyFeature.name).Nodup) (hdef : ∀ f ∈ features, f.hasDefault = false) :
    ∃ s r, readMetadata F fs path = .ok s ∧ schemaAsFeatureSpec s = .ok r ∧
      (∀ f ∈ features,
        FeatureSpec.get r.1 f.name = some f.spec ∧ FeatureSpec.get r.2 f.name = f.domain.domain) ∧
      (∀ name, (FeatureSpec.get r.1 name).isSome → name ∈ features.map LegacyFeature.name) := by
  rw [read_legacy hdir]
  exact parsed_legacy_file F.int doc features hdoc hnames hdef

/-- **C76** A legacy file with a default value for a feature cannot be read. -/
theorem legacy_defaults_are_refused (F : Formats) (fs : Fs) (path : String) (doc : Json)
    (hdir : LegacyDirectory F fs path doc) (features : List LegacyFeature)
    (hdoc : Has doc "feature" fun v => ∃ l, v = .arr l ∧ List.Forall₂ (Encodes F.int) l features)
    (hnames : (features.map LegacyFeature.name).Nodup) (f : LegacyFeature) (hf : f ∈ features)
    (hdef : f.hasDefault = true) : ∃ e, readMetadata F fs path = .error e := by
  rw [read_legacy hdir]
  exact parsed_legacy_defaults F.int doc features hdoc hnames f hf hdef

/-- **C76** A legacy file with a feature of unknown domain, one that is neither fixed nor variable
length, or one whose integer default value is not an integer, cannot be read. -/
theorem legacy_unknown_is_refused (F : Formats) (fs : Fs) (path : String) (doc : Json)
    (hdir : LegacyDirectory F fs path doc) (l : List Json)
    (hdoc : Has doc "feature" (· = .arr l)) (j : Json) (hj : j ∈ l)
    (h : Has j "domain" (fun d => Lacks d "ints" ∧ Lacks d "floats" ∧ Lacks d "strings") ∨
      Has j "parsingOptions" fun p => Has p "tfOptions" fun o =>
        (Lacks o "fixedLenFeature" ∧ Lacks o "varLenFeature") ∨
        Has o "fixedLenFeature" fun f => Has f "intDefaultValue" fun v =>
          NoInt F.int v ∨ ∃ l, v = .arr l ∧ ∃ x ∈ l, NoInt F.int x) :
    ∃ e, readMetadata F fs path = .error e := by
  rw [read_legacy hdir]
  exact parsed_legacy_unknown F.int doc l hdoc j hj h

/-- A directory with only a legacy file. -/
example (F : Formats) (h : F.loads "{}" = .ok (.obj [])) : LegacyDirectory F
    (fun f => if f = legacyFile "d" then some "{}" else none) "d" (.obj []) :=
  ⟨if_neg (schema_ne_legacy "d" "d"), "{}", if_pos rfl, h⟩

/-- A legacy file with a scalar of integers, a matrix of strings and a variable-length feature. -/
example : Has (.obj [("feature", .arr [
      .obj [("name", .str "a"), ("domain", .obj [("ints", .obj [("min", .str "0"), ("max", .str "9")])]),
        ("fixedShape", .obj []), ("parsingOptions", .obj [("tfOptions", .obj [("fixedLenFeature", .obj [])])])],
      .obj [("name", .str "b"), ("domain", .obj [("strings", .obj [])]),
        ("fixedShape", .obj [("axis", .arr [.obj [("size", .str "2")], .obj [("size", .int 3)]])]),
        ("parsingOptions", .obj [("tfOptions", .obj [("fixedLenFeature", .obj [])])])],
      .obj [("name", .str "c"), ("domain", .obj [("floats", .obj [])]),
        ("parsingOptions", .obj [("tfOptions", .obj [("varLenFeature", .obj [])])])]])])
    "feature" fun v => ∃ l, v = .arr l ∧ List.Forall₂
      (Encodes (fun s => if s = "0" then some 0 else if s = "9" then some 9 else if s = "2" then some 2 else none)) l
      [⟨"a", .ints (some 0) (some 9) false, .fixedLen [] false⟩, ⟨"b", .strings, .fixedLen [2, 3] false⟩,
       ⟨"c", .floats, .varLen⟩] := by
  simp [Has, Encodes, EncodesDomain, EncodesKind, EncodesShape, EncodesDefault, HasInt, IsInt, Lacks,
    Without, FeatureSpec.get, List.lookup]
  rintro a b (⟨rfl, -⟩ | ⟨rfl, -⟩) <;> decide

/-- A feature whose default value is not an integer. -/
example : Has (.obj [("name", .str "a"), ("domain", .obj [("ints", .obj [])]), ("fixedShape", .obj []),
      ("parsingOptions", .obj [("tfOptions",
        .obj [("fixedLenFeature", .obj [("intDefaultValue", .str "x")])])])])
    "parsingOptions" fun p => Has p "tfOptions" fun o =>
      Has o "fixedLenFeature" fun f => Has f "intDefaultValue" (NoInt (fun _ => none)) := by
  simp [Has, NoInt, FeatureSpec.get]

end TFT.MetadataIo
