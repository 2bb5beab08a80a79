import Mathlib.Logic.Relation
import Mathlib.Data.List.Nodup

/-!
# Publishing a transform function

Model of `WriteTransformFn` and `_copy_tree` (`beam/tft_beam_io/transform_fn_io.py`) on a file system
that may crash between any two operations.
-/

namespace TFT.Publish

/-- The files under a directory: relative path and content. -/
abbrev Files := List (String × String)

/-- The output directory `path`: whether it exists, its subdirectories `transformed_metadata` and
`transform_fn`, and the temporary directory `transform_tmp` with its unique subdirectories, known by
number (transform_fn_io.py:85, 98-103). -/
structure Fs where
  root : Bool := false
  metadata : Option Files := none
  fn : Option Files := none
  temp : Option (List (Nat × Files)) := none
  deriving DecidableEq

/-- One of the two writers to the temporary directory: the metadata (`WriteMetadata` with
`write_to_unique_subdirectory`, beam_metadata_io.py:94-110) or the copy of the SavedModel
(`_copy_tree_to_unique_temp_dir`, transform_fn_io.py:32-36). `todo` are the files still to be
written. -/
inductive Writer
  | idle
  | writing (id : Nat) (todo : Files)
  | done (id : Nat)
  deriving DecidableEq

/-- Where `publish_outputs` (transform_fn_io.py:105-129) is. -/
inductive Pub
  | makeRoot
  | testMeta
  | rmMeta
  | mvMeta
  | testFn
  | rmFn
  | mvFn
  | testTemp
  | rmTemp
  | finished
  | failed
  deriving DecidableEq

/-- The state of a run of the pipeline. -/
structure State where
  fs : Fs
  mw : Writer := .idle
  fw : Writer := .idle
  pub : Option Pub := none
  deriving DecidableEq

/-- The numbers of the temporary subdirectories in use. -/
def ids (t : Option (List (Nat × Files))) : List Nat := (t.getD []).map Prod.fst

/-- Creating a subdirectory of the temporary directory (with its parents). -/
def newTemp (id : Nat) (fs : Fs) : Fs :=
  { fs with root := true, temp := some (fs.temp.getD [] ++ [(id, [])]) }

/-- Writing one more file into a temporary subdirectory. -/
def addFile (id : Nat) (x : String × String) (fs : Fs) : Fs :=
  { fs with temp := fs.temp.map (fun l => l.map (fun e => if e.1 = id then (e.1, e.2 ++ [x]) else e)) }

/-- The content of a temporary subdirectory. -/
def tempFiles (id : Nat) (fs : Fs) : Option Files := (fs.temp.getD []).lookup id

/-- A temporary subdirectory moved away. -/
def dropTemp (id : Nat) (fs : Fs) : Fs :=
  { fs with temp := fs.temp.map (fun l => l.filter (fun e => e.1 ≠ id)) }

/-- One atomic file operation of a run. `newMeta` and `newFn` are the files to be published. Unique
subdirectory names (`get_unique_temp_path`, beam/common.py:44-58) are numbers not in use. A rename
is atomic, `rmtree` deletes file after file in any order, then the directory. A rename fails if the
source does not exist or the target does. -/
inductive Step (newMeta newFn : Files) : State → State → Prop
  | startMeta (fs : Fs) (fw : Writer) (id : Nat) : id ∉ ids fs.temp →
      Step newMeta newFn ⟨fs, .idle, fw, none⟩ ⟨newTemp id fs, .writing id newMeta, fw, none⟩
  | writeMeta (fs : Fs) (fw : Writer) (id : Nat) (x : String × String) (todo : Files) :
      Step newMeta newFn ⟨fs, .writing id (x :: todo), fw, none⟩
        ⟨addFile id x fs, .writing id todo, fw, none⟩
  | doneMeta (fs : Fs) (fw : Writer) (id : Nat) :
      Step newMeta newFn ⟨fs, .writing id [], fw, none⟩ ⟨fs, .done id, fw, none⟩
  | startFn (fs : Fs) (mw : Writer) (id : Nat) : id ∉ ids fs.temp →
      Step newMeta newFn ⟨fs, mw, .idle, none⟩ ⟨newTemp id fs, mw, .writing id newFn, none⟩
  | writeFn (fs : Fs) (mw : Writer) (id : Nat) (x : String × String) (todo : Files) :
      Step newMeta newFn ⟨fs, mw, .writing id (x :: todo), none⟩
        ⟨addFile id x fs, mw, .writing id todo, none⟩
  | doneFn (fs : Fs) (mw : Writer) (id : Nat) :
      Step newMeta newFn ⟨fs, mw, .writing id [], none⟩ ⟨fs, mw, .done id, none⟩
  | startPub (fs : Fs) (m f : Nat) :
      Step newMeta newFn ⟨fs, .done m, .done f, none⟩ ⟨fs, .done m, .done f, some .makeRoot⟩
  | makeRoot (fs : Fs) (mw fw : Writer) :
      Step newMeta newFn ⟨fs, mw, fw, some .makeRoot⟩
        ⟨{ fs with root := true }, mw, fw, some .testMeta⟩
  | testMeta (fs : Fs) (mw fw : Writer) :
      Step newMeta newFn ⟨fs, mw, fw, some .testMeta⟩
        ⟨fs, mw, fw, some (if fs.metadata.isSome then .rmMeta else .mvMeta)⟩
  | rmMetaFile (fs : Fs) (mw fw : Writer) (a b : Files) (x : String × String) :
      fs.metadata = some (a ++ x :: b) →
      Step newMeta newFn ⟨fs, mw, fw, some .rmMeta⟩
        ⟨{ fs with metadata := some (a ++ b) }, mw, fw, some .rmMeta⟩
  | rmMetaDir (fs : Fs) (mw fw : Writer) : fs.metadata = some [] →
      Step newMeta newFn ⟨fs, mw, fw, some .rmMeta⟩
        ⟨{ fs with metadata := none }, mw, fw, some .mvMeta⟩
  | mvMeta (fs : Fs) (m : Nat) (fw : Writer) (files : Files) :
      tempFiles m fs = some files → fs.metadata = none →
      Step newMeta newFn ⟨fs, .done m, fw, some .mvMeta⟩
        ⟨{ dropTemp m fs with metadata := some files }, .done m, fw, some .testFn⟩
  | mvMetaFails (fs : Fs) (m : Nat) (fw : Writer) : (tempFiles m fs = none ∨ fs.metadata ≠ none) →
      Step newMeta newFn ⟨fs, .done m, fw, some .mvMeta⟩ ⟨fs, .done m, fw, some .failed⟩
  | testFn (fs : Fs) (mw fw : Writer) :
      Step newMeta newFn ⟨fs, mw, fw, some .testFn⟩
        ⟨fs, mw, fw, some (if fs.fn.isSome then .rmFn else .mvFn)⟩
  | rmFnFile (fs : Fs) (mw fw : Writer) (a b : Files) (x : String × String) :
      fs.fn = some (a ++ x :: b) →
      Step newMeta newFn ⟨fs, mw, fw, some .rmFn⟩
        ⟨{ fs with fn := some (a ++ b) }, mw, fw, some .rmFn⟩
  | rmFnDir (fs : Fs) (mw fw : Writer) : fs.fn = some [] →
      Step newMeta newFn ⟨fs, mw, fw, some .rmFn⟩ ⟨{ fs with fn := none }, mw, fw, some .mvFn⟩
  | mvFn (fs : Fs) (mw : Writer) (f : Nat) (files : Files) :
      tempFiles f fs = some files → fs.fn = none →
      Step newMeta newFn ⟨fs, mw, .done f, some .mvFn⟩
        ⟨{ dropTemp f fs with fn := some files }, mw, .done f, some .testTemp⟩
  | mvFnFails (fs : Fs) (mw : Writer) (f : Nat) : (tempFiles f fs = none ∨ fs.fn ≠ none) →
      Step newMeta newFn ⟨fs, mw, .done f, some .mvFn⟩ ⟨fs, mw, .done f, some .failed⟩
  | testTemp (fs : Fs) (mw fw : Writer) :
      Step newMeta newFn ⟨fs, mw, fw, some .testTemp⟩
        ⟨fs, mw, fw, some (if fs.temp.isSome then .rmTemp else .finished)⟩
  | rmTempFile (fs : Fs) (mw fw : Writer) (l r : List (Nat × Files)) (id : Nat) (a b : Files)
      (x : String × String) : fs.temp = some (l ++ (id, a ++ x :: b) :: r) →
      Step newMeta newFn ⟨fs, mw, fw, some .rmTemp⟩
        ⟨{ fs with temp := some (l ++ (id, a ++ b) :: r) }, mw, fw, some .rmTemp⟩
  | rmTempSub (fs : Fs) (mw fw : Writer) (l r : List (Nat × Files)) (id : Nat) :
      fs.temp = some (l ++ (id, []) :: r) →
      Step newMeta newFn ⟨fs, mw, fw, some .rmTemp⟩
        ⟨{ fs with temp := some (l ++ r) }, mw, fw, some .rmTemp⟩
  | rmTempDir (fs : Fs) (mw fw : Writer) : fs.temp = some [] →
      Step newMeta newFn ⟨fs, mw, fw, some .rmTemp⟩
        ⟨{ fs with temp := none }, mw, fw, some .finished⟩

/-- Beam retries a writer that has not finished: it starts again with a new directory. -/
inductive RetryWriter : State → State → Prop
  | metadata (fs : Fs) (fw : Writer) (id : Nat) (todo : Files) :
      RetryWriter ⟨fs, .writing id todo, fw, none⟩ ⟨fs, .idle, fw, none⟩
  | fn (fs : Fs) (mw : Writer) (id : Nat) (todo : Files) :
      RetryWriter ⟨fs, mw, .writing id todo, none⟩ ⟨fs, mw, .idle, none⟩

/-- Beam retries `publish_outputs`: it starts again with the same two source paths, which are
the recorded outputs of the writers. -/
inductive RetryPublish : State → State → Prop
  | retry (fs : Fs) (mw fw : Writer) (p : Pub) :
      RetryPublish ⟨fs, mw, fw, some p⟩ ⟨fs, mw, fw, some .makeRoot⟩

/-- Runs with retried writers. -/
def Runs (newMeta newFn : Files) : State → State → Prop :=
  Relation.ReflTransGen (fun s t => Step newMeta newFn s t ∨ RetryWriter s t)

/-- The start of a run on a file system. -/
def start (fs : Fs) : State := ⟨fs, .idle, .idle, none⟩

/-! ### `_copy_tree` -/

/-- A file or a directory with its entries in the order of `listdir`. -/
inductive Tree
  | file (content : String)
  | dir (entries : List (String × Tree))

/-- `impl_helper.METADATA_DIR_NAME` (impl_helper.py:52). -/
def metadataDirName : String := ".tft_metadata"

mutual
/-- `_copy_tree` (transform_fn_io.py:39-56) of a tree with the given base name: what is afterwards at
a destination that did not exist, if anything. -/
def copyTree (name : String) : Tree → Option Tree
  | .dir entries =>
    if name = metadataDirName then none
    else some (.dir (copyEntries entries))
  | .file content => some (.file content)
/-- The loop over `listdir` (transform_fn_io.py:51-54). -/
def copyEntries : List (String × Tree) → List (String × Tree)
  | [] => []
  | (n, t) :: es =>
    match copyTree n t with
    | none => copyEntries es
    | some t' => (n, t') :: copyEntries es
end

end TFT.Publish
