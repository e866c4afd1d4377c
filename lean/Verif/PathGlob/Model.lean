import Verif.Glob.Model

/-!
Model of `AntLikePathGlob` (`common/ant_like_path_glob.cpp`).

The file system below the current directory is a finite tree.  Paths are lists of names relative to
it (an absolute glob is the same with the tree of the root directory).  The glob is given by its
list of segments as iterated by boost::filesystem.  Simplified: `.` and `..` segments and symbolic
links are not modelled; the segment matcher is a parameter `m` (instantiated with the model of
`SegmentGlob::matches` in the properties).
-/
namespace Verif.PathGlob
open Verif

mutual
/-- A file system object: regular file, something else, or a directory with its entries. -/
inductive Node
  | file
  | other
  | dir (entries : Entries)
/-- The entries of a directory. -/
inductive Entries
  | nil
  | cons (name : Str) (node : Node) (rest : Entries)
end

/-- `"**"`. -/
def starStar : Str := [42, 42]

/-- The directory entries in listing order (`directory_iterator`). -/
def Entries.toList : Entries → List (Str × Node)
  | .nil => []
  | .cons name node rest => (name, node) :: rest.toList

/-- `is_directory`. -/
def Node.isDir : Node → Bool
  | .dir _ => true
  | _ => false

/-- The entries of a directory (none for anything else). -/
def Node.entries : Node → Entries
  | .dir es => es
  | _ => .nil

mutual
/-- The directories met by a `recursive_directory_iterator`, with their relative paths. -/
def descDirs : Node → List (List Str × Entries)
  | .dir es => descDirsIn es
  | _ => []
/-- Same, below a list of entries. -/
def descDirsIn : Entries → List (List Str × Entries)
  | .nil => []
  | .cons name node rest =>
    (if node.isDir then [([name], node.entries)] else [])
      ++ (descDirs node).map (fun d => (name :: d.1, d.2)) ++ descDirsIn rest
end

/-- `findMatchingFiles_`, ant_like_path_glob.cpp 54-100: the matched files below a directory, as
paths relative to it. -/
def findMatching (m : Str → Str → Bool) : List Str → Entries → List (List Str)
  | [], _ => []
  | g :: gs, es =>
    if g = starStar then
      findMatching m gs es
        ++ (descDirsIn es).flatMap (fun d => (findMatching m gs d.2).map (d.1 ++ ·))
    else
      es.toList.flatMap (fun e =>
        if m g e.1 then
          match e.2 with
          | .dir es' => (findMatching m gs es').map (e.1 :: ·)
          | .file => if gs = [] then [[e.1]] else []
          | .other => []
        else [])

/-- The constructor, ant_like_path_glob.cpp 5-38: fixed prefix and segment globs; a final `**` is
completed with `*`. -/
def fixedPrefix (segs : List Str) : List Str := segs.takeWhile Glob.isFixed

/-- See `fixedPrefix`. -/
def segmentGlobs (segs : List Str) : List Str :=
  let rest := segs.dropWhile Glob.isFixed
  if rest.getLast? = some starStar then rest ++ [[B.star]] else rest

/-- The object with the given name in a directory. -/
def Entries.get (name : Str) : Entries → Option Node
  | .nil => none
  | .cons n node rest => if n = name then some node else rest.get name

/-- The object at a path. -/
def Node.at : Node → List Str → Option Node
  | node, [] => some node
  | .dir es, name :: p => match es.get name with
    | some node => Node.at node p
    | none => none
  | _, _ :: _ => none

/-- `allMatchingFiles`, ant_like_path_glob.cpp 40-52. -/
def allMatchingFiles (m : Str → Str → Bool) (segs : List Str) (root : Node) : List (List Str) :=
  match root.at (fixedPrefix segs) with
  | none => []
  | some node =>
    if segmentGlobs segs = [] then
      match node with
      | .file => [fixedPrefix segs]
      | _ => []
    else match node with
      | .dir es => (findMatching m (segmentGlobs segs) es).map (fixedPrefix segs ++ ·)
      | _ => []

end Verif.PathGlob
