import Verif.Combine.Sched

/-!
# Dataset keys and cache directories

Model of `DatasetKey`, `_make_valid_cache_component`, `validate_dataset_keys` and
`_get_dataset_cache_path` of `beam/analyzer_cache.py`. Strings are lists of characters.
-/

namespace TFT.Keys

/-- `str.replace` of one character. -/
def replaceChar (c : Char) (r : List Char) (s : List Char) : List Char :=
  s.flatMap (fun d => if d = c then r else [d])

/-- `_CACHE_COMPONENT_CHARACTER_REPLACEMENTS`, `beam/analyzer_cache.py:37-46`. -/
def replacements : List (Char × List Char) :=
  [('/', ['-']), ('\\', ['-']), ('*', ['S', 'T', 'A', 'R']), ('@', ['A', 'T']),
    ('[', ['-', '-']), (']', ['-', '-']), (':', ['P']), ('=', ['E'])]

/-- `_make_valid_cache_component`, `beam/analyzer_cache.py:49-53`. -/
def makeValid (name : List Char) : List Char :=
  replacements.foldl (fun result r => replaceChar r.1 r.2 result) name

/-- `DatasetKey`, `beam/analyzer_cache.py:56-84`, made from a string. -/
structure DatasetKey where
  key : List Char
  isCached : Bool
  deriving DecidableEq

/-- `DatasetKey.__new__`, `beam/analyzer_cache.py:66-75`. -/
def DatasetKey.new (name : List Char) (isCached : Bool := true) : DatasetKey :=
  ⟨makeValid name, isCached⟩

/-- `DatasetKey.non_cacheable`, `beam/analyzer_cache.py:62-64`. -/
def DatasetKey.nonCacheable (k : DatasetKey) : DatasetKey :=
  ⟨['u', 'n', 'c', 'a', 'c', 'h', 'e', 'd', '_'] ++ k.key, false⟩

/-- The characters of the class `[a-zA-Z0-9\.\-_]`. -/
def allowed (c : Char) : Bool :=
  ('a' ≤ c && c ≤ 'z') || ('A' ≤ c && c ≤ 'Z') || ('0' ≤ c && c ≤ '9') ||
    c = '.' || c = '-' || c = '_'

/-- `re.match('^[a-zA-Z0-9\.\-_]+$', s)`, `beam/analyzer_cache.py:430`: `$` also matches before a
newline at the end of the string. -/
def keyMatches (s : List Char) : Bool :=
  let body := if s.getLast? = some '\n' then s.dropLast else s
  (!body.isEmpty) && body.all allowed

/-- `validate_dataset_keys`, `beam/analyzer_cache.py:429-439`. -/
def validate (keys : List DatasetKey) : Except Err Unit :=
  match keys with
  | [] => .ok ()
  | k :: ks =>
    if keyMatches k.key then validate ks
    else .error "ValueError: Dataset key does not match allowed pattern"

/-- `os.path.join(base_dir, dataset_key.key)` on POSIX, `beam/analyzer_cache.py:91-92`. -/
def cachePath (base : List Char) (k : DatasetKey) : List Char :=
  if k.key.head? = some '/' then k.key
  else if base = [] ∨ base.getLast? = some '/' then base ++ k.key
  else base ++ ['/'] ++ k.key

/-- `AnalyzeDatasetWithCache.expand`, `beam/impl.py:1417-1420`, with `_make_parent_dataset`,
`beam/impl.py:1406-1409`, for a dataset that is the triple of a dict of data, a dict of caches
(`none` is `None`) and metadata; here the keys of the dicts. The checked dict is `dataset[1]`. The
result has the keys of the datasets and of the caches with which the analysis goes on. -/
def analyzeWithCache (data : List DatasetKey) (cache : Option (List DatasetKey)) :
    Except Err (List DatasetKey × List DatasetKey) := do
  validate (cache.getD [])
  .ok (data, cache.getD [])

end TFT.Keys
