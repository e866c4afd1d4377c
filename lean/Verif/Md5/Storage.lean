import Verif.Md5.Model
import Verif.Server.Site

/-!
Model of `FileStorage`, common/file_storage.cpp.

* The file system is a function from paths to contents; that a file cannot be written is not modelled.
* `recognizeFileExtension` is left out: the extension is given.
* Date and random string of the generator of ids come from outside, as in the model of sessions.
-/
set_option linter.unusedVariables false

namespace Verif.Md5
open Verif Verif.Server Verif.Server.Site

/-- The files and the counter of the generator of ids. -/
structure Store where
  files : Str → Option Str
  counter : Nat

/-- `filePathForHtml_`, file_storage.cpp 71-73, with `STORAGE_DIR` (15). -/
def htmlPath (name ext : Str) : Str := [47] ++ ascii "storage" ++ [47] ++ name ++ [46] ++ ext

/-- `filePathToStore_`, file_storage.cpp 67-69, and `websiteRoot_` (18). -/
def storePath (root name ext : Str) : Str := root ++ [47] ++ ascii "storage" ++ [47] ++ name ++ [46] ++ ext

/-- `storeFile_`, file_storage.cpp 50-65: an existing file is replaced. -/
def storeAs (root : Str) (st : Store) (content name ext : Str) : Str × Store :=
  (htmlPath name ext, { st with files := fun p => if p = storePath root name ext then some content else st.files p })

/-- `storeFile` with an extension, file_storage.cpp 44-48. -/
def storeFile (root : Str) (st : Store) (e : Env) (content ext : Str) : Str × Store :=
  storeAs root { st with counter := st.counter + 1 } content (guid e (st.counter + 1)) ext

/-- `storeFileByMD5`, file_storage.cpp 75-83, `isFileStored_` (85-87); `none`: `md5` reads behind the
content. -/
def storeByMd5 (root : Str) (buffer digest : Str) (st : Store) (content ext : Str) : Option (Str × Store) :=
  match md5 buffer digest content with
  | none => none
  | some sum => if (st.files (storePath root sum ext)).isNone then some (storeAs root st content sum ext) else some (htmlPath sum ext, st)

/-- What the storage is asked to do. -/
inductive Op
  | new (e : Env) (content ext : Str)
  | byMd5 (buffer digest : Str) (content ext : Str)

def Op.content : Op → Str
  | .new _ c _ => c
  | .byMd5 _ _ c _ => c

def runOp (root : Str) (st : Store) : Op → Option (Str × Store)
  | .new e c x => some (storeFile root st e c x)
  | .byMd5 b d c x => storeByMd5 root b d st c x

/-- One after another, with the paths that are returned. -/
def runOps (root : Str) (st : Store) : List Op → Option (List Str × Store)
  | [] => some ([], st)
  | op :: ops => match runOp root st op with
    | none => none
    | some (p, st) => match runOps root st ops with
      | none => none
      | some (ps, st) => some (p :: ps, st)

/-- The id at a time: the random string is that for the seed `time(NULL) + _counter`,
guid_generator.cpp 46-61. -/
def storeAt (root : Str) (date rnd : Nat → Str) (time : Nat) (st : Store) (content ext : Str) : Str × Store :=
  storeFile root st ⟨date time, rnd (time + (st.counter + 1))⟩ content ext

end Verif.Md5
