import Verif.Combine.Py
import Mathlib.Data.List.Infix

/-!
# The analysis cache on the file system

Model of `_ManifestFile`, `WriteAnalysisCacheToFS` and `ReadAnalysisCacheFromFS` of
`beam/analyzer_cache.py`, for the default sink and source, down to the atomic changes of the file
system, so that a run can stop between any two of them. Not modelled: the metadata file, whose
name does not match the pattern of any entry; the encoding of the manifest (a file whose contents
were not completely written is unreadable).

Beam's `WriteToTFRecord` is modelled as what its `FileBasedSink` does when it finishes: delete the
files with the final names for the same number of shards, then rename the temporary files to the
final names, one at a time. `ReadFromTFRecord` raises when no file matches.
-/

namespace TFT.CacheFs

abbrev Name := List Char

/-- The decimal digits of a number, last digit first. The first argument is an upper bound on the
number of digits. -/
def decRev : Nat → Nat → List Char
  | 0, _ => []
  | f + 1, n => Char.ofNat (48 + n % 10) :: (if n / 10 = 0 then [] else decRev f (n / 10))

/-- Python's `str(n)`. -/
def dec (n : Nat) : List Char := (decRev (n + 1) n).reverse

/-- Python's `'%05d' % n`. -/
def dec5 (n : Nat) : List Char := List.replicate (5 - (dec n).length) '0' ++ dec n

/-- File names matched by a pattern with `*`. -/
def glob : List Char → Name → Bool
  | [], s => s.isEmpty
  | c :: p, s =>
    if c = '*' then s.tails.any (glob p)
    else s.head? = some c && glob p s.tail

/-- The final name of a shard: the prefix is `str(cache_key_idx)`, `beam/analyzer_cache.py:311`;
the suffix `.gz`, `:203`; Beam's default template is `-SSSSS-of-NNNNN`. -/
def fileName (idx shard num : Nat) : Name :=
  dec idx ++ ['-'] ++ dec5 shard ++ ['-', 'o', 'f', '-'] ++ dec5 num ++ ['.', 'g', 'z']

/-- The pattern that is read, `beam/analyzer_cache.py:419`. -/
def readPattern (idx : Nat) : List Char := dec idx ++ ['-', '*', '-', 'o', 'f', '-', '*']

/-- The pattern of the files that Beam's sink deletes before it renames. -/
def cleanPattern (idx num : Nat) : List Char :=
  dec idx ++ ['-', '*', '-', 'o', 'f', '-'] ++ dec5 num ++ ['.', 'g', 'z']

/-- The directory of a dataset. `manifest` is `none` if there is no file, `some none` if the file
cannot be unpickled. `files` are the other files with their records. -/
structure Dir (K Rec : Type) where
  manifest : Option (Option (List (K × Nat)))
  files : List (Name × List Rec)

/-- A change of a file by the sink of an entry. -/
inductive DataAct (Rec : Type) where
  | clean (idx num : Nat)
  | rename (idx shard num : Nat) (records : List Rec)

def DataAct.idx {Rec : Type} : DataAct Rec → Nat
  | .clean i _ => i
  | .rename i _ _ _ => i

/-- An atomic change of the directory. -/
inductive Act (K Rec : Type) where
  | removeManifest
  | openManifest
  | putManifest (m : List (K × Nat))
  | data (a : DataAct Rec)

def applyData {Rec : Type} (files : List (Name × List Rec)) : DataAct Rec → List (Name × List Rec)
  | .clean i n => files.filter (fun f => !glob (cleanPattern i n) f.1)
  | .rename i s n r => files.filter (fun f => f.1 ≠ fileName i s n) ++ [(fileName i s n, r)]

def applyAct {K Rec : Type} (d : Dir K Rec) : Act K Rec → Dir K Rec
  | .removeManifest => { d with manifest := none }
  | .openManifest => { d with manifest := some none }
  | .putManifest m => { d with manifest := some (some m) }
  | .data a => { d with files := applyData d.files a }

def applyActs {K Rec : Type} (d : Dir K Rec) (acts : List (Act K Rec)) : Dir K Rec :=
  acts.foldl applyAct d

/-- `_ManifestFile.read`, `beam/analyzer_cache.py:172-195`. -/
def readManifest {K Rec : Type} (d : Dir K Rec) : List (K × Nat) :=
  match d.manifest with
  | some (some m) => m
  | _ => []

/-- A write of one dataset: `cache.cache_dict.items()`, with the records of every entry as the
shards that the runner makes of them. -/
abbrev Entries (K Rec : Type) := List (K × List (List Rec))

/-- `max(manifest.values()) + 1 if manifest else 0`, `beam/analyzer_cache.py:303`. -/
def startIdx {K : Type} : List (K × Nat) → Nat
  | [] => 0
  | m => (m.map Prod.snd).foldr max 0 + 1

variable {K Rec : Type} [DecidableEq K]

/-- `manifest[k] = i`. -/
def setKey (m : List (K × Nat)) (k : K) (i : Nat) : List (K × Nat) :=
  if k ∈ m.map Prod.fst then m.map (fun e => if e.1 = k then (k, i) else e) else m ++ [(k, i)]

/-- The assignments of the loop of `_write_cache`, `beam/analyzer_cache.py:307-312`. -/
def assign (m : List (K × Nat)) (i : Nat) : Entries K Rec → List (K × Nat)
  | [] => m
  | e :: es => assign (setKey m e.1 i) (i + 1) es

/-- The changes made while the pipeline is constructed: `_ManifestFile.write`,
`beam/analyzer_cache.py:197-209`. The contents are in the file when it is closed, `:171`. That
the file was opened with mode `wb+` by `__enter__`, `:167`, changes nothing: `GFile` opens lazily.
-/
def manifestActs (d : Dir K Rec) (es : Entries K Rec) : List (Act K Rec) :=
  [.removeManifest, .openManifest,
    .putManifest (assign (readManifest d) (startIdx (readManifest d)) es)]

/-- The changes that the sink of an entry makes while the pipeline runs. -/
def entryActs (idx : Nat) (shards : List (List Rec)) : List (DataAct Rec) :=
  .clean idx shards.length ::
    shards.zipIdx.map (fun s => .rename idx s.2 shards.length s.1)

/-- The changes for file index `i` of a write that starts at index `start`. -/
def expectedActs (start : Nat) (es : Entries K Rec) (i : Nat) : List (DataAct Rec) :=
  if start ≤ i then
    match es[i - start]? with
    | some e => entryActs i e.2
    | none => []
  else []

/-- `acts` is a complete run of a write, `_write_cache` and the pipeline, in some order of the
sinks: the sinks of the entries are independent of each other. -/
def IsRun (d : Dir K Rec) (es : Entries K Rec) (acts : List (Act K Rec)) : Prop :=
  ∃ data : List (DataAct Rec), acts = manifestActs d es ++ data.map .data ∧
    ∀ i, data.filter (fun a => a.idx = i) = expectedActs (startIdx (readManifest d)) es i

/-- `self._source(pattern)`: all records of the matching files; Beam raises if there is none. -/
def readIdx (d : Dir K Rec) (i : Nat) : Except Err (List Rec) :=
  let matching := d.files.filter (fun f => glob (readPattern i) f.1)
  if matching = [] then .error "OSError: No files found based on the file pattern"
  else .ok (matching.flatMap Prod.snd)

/-- `ReadAnalysisCacheFromFS.expand` for one dataset, `beam/analyzer_cache.py:405-427`: `none`
if the dataset is left out of the result. `keep` is `_should_read_cache_entry_key`. -/
def read (d : Dir K Rec) (keep : K → Bool) : Except Err (Option (List (K × List Rec))) :=
  let m := readManifest d
  if m = [] then .ok none
  else do
    let items ← seqExcept ((m.filter (fun e => keep e.1)).map
      (fun e => readIdx d e.2 >>= fun v => .ok (e.1, v)))
    .ok (some items)

end TFT.CacheFs
