import Verif.Server.Handler

/-!
The parser of uploaded forms: `server/mpfd-parser/Parser.cpp`, `server/mpfd-parser/Field.cpp`.

Memory management is left out (blocks got with `new[]` are given to `realloc` and `delete`).  For files that are
stored on disk, opening and writing the temporary file is assumed to succeed.
-/

namespace Verif.Server.Mpfd
open Verif.Server

/-- How a call can fail: an exception of the parser, or a null pointer is followed. -/
inductive Err
  | exc | undefined
deriving DecidableEq, Repr

/-- Where uploaded files are stored (Parser.h 23; Parser.cpp 152-158): in memory, or on disk with the name of the directory. -/
inductive Storage
  | memory
  | disk (dir : Str)
deriving DecidableEq, Repr

/-- `Field` (Field.h 54-63).  `content` is the block `FieldContent` points to, `len` is `FieldContentLength`, `file` what was
written to the temporary file. -/
structure Field where
  isFile : Bool
  content : Option Str := none
  len : Nat := 0
  fileName : Str := []
  mime : Str := []
  file : Str := []
deriving DecidableEq, Repr

/-- The first `n` bytes of a block (bytes not yet written are taken as 0; there are none). -/
def block (n : Nat) (b : Str) : Str := (b ++ List.replicate n 0).take n

/-- `Field::AcceptSomeData` (Field.cpp 50-106).  In a text field the length is not updated. -/
def Field.accept (st : Storage) (f : Field) (data : Str) : Except Err Field :=
  let old := block f.len (f.content.getD [])
  if f.isFile then
    match st with
    | .memory => .ok { f with content := some (old ++ data), len := f.len + data.length }
    | .disk dir => if dir = [] then .error .exc else .ok { f with file := f.file ++ data }
  else .ok { f with content := some (old ++ data ++ [0]) }

/-- `Field::GetTextTypeContent` (Field.cpp 144-158), for a text field. -/
def Field.text (f : Field) : Str :=
  match f.content with
  | none => []
  | some b => cstr b

/-- `Field::GetFileContent` and `GetFileContentSize` (Field.cpp 112-142), for a file in memory. -/
def Field.bytes (f : Field) : Str := (f.content.getD []).take f.len

/-- `std::string::find` -/
def find (pat : Str) : Str → Option Nat
  | [] => if pat = [] then some 0 else none
  | c :: s => if pat.isPrefixOf (c :: s) then some 0 else (find pat s).map (· + 1)

/-- The string up to the next `"` if there is one: `find("\"", pos)` and `substr`. -/
def quoted (s : Str) : Option Str := (find [34] s).map (fun n => s.take n)

/-- White space that ends the content type (Parser.cpp 202). -/
def isEnd (c : Byte) : Bool := c == 32 || c == 10 || c == 13

/-- The content type (Parser.cpp 197-208), given what follows `Content-Type: `.  The last character is left out unless
the text ends there. -/
def contentType (s : Str) : Str :=
  match (s.findIdx? isEnd) with
  | none => s
  | some 0 => s
  | some (k + 1) => s.take k

/-- `_ParseHeaders` (Parser.cpp 160-216): the name of the field and the new field. -/
def parseHeaders (h : Str) : Except Err (Str × Field) :=
  match find (ascii "Content-Disposition: form-data;") h with
  | none => .error .exc
  | some _ =>
    match find (ascii "name=\"") h with
    | none => .error .exc
    | some n =>
      match quoted (h.drop (n + 6)) with
      | none => .error .exc
      | some name =>
        match find (ascii "filename=\"") h with
        | none => .ok (name, { isFile := false })
        | some k =>
          match quoted (h.drop (k + 10)) with
          | none => .error .exc
          | some fn =>
            match find (ascii "Content-Type: ") h with
            | none => .ok (name, { isFile := true, fileName := fn })
            | some c => .ok (name, { isFile := true, fileName := fn, mime := contentType (h.drop (c + 14)) })

/-- `CurrentStatus` (Parser.h 47-52). -/
inductive Status
  | boundary | headers | content
deriving DecidableEq, Repr

/-- The state of the parser.  `fields` is the map `Fields`, `name` is `ProcessingFieldName`, `data` is `DataCollector`. -/
structure State where
  status : Status := .boundary
  fields : List (Str × Field) := []
  name : Str := []
  data : Str := []
deriving DecidableEq, Repr

/-- `Fields[name]` -/
def lookup (name : Str) : List (Str × Field) → Option Field
  | [] => none
  | (n, f) :: t => if n = name then some f else lookup name t

/-- `Fields[name] = f` -/
def assign (name : Str) (f : Field) : List (Str × Field) → List (Str × Field)
  | [] => [(name, f)]
  | (n, g) :: t => if n = name then (n, f) :: t else (n, g) :: assign name f t

/-- `Boundary` (Parser.cpp 49): two hyphens and the announced boundary. -/
def bound (b : Str) : Str := 45 :: 45 :: b

/-- What `Field::AcceptSomeData` does to a field. -/
abbrev Acc := Field → Str → Except Err Field

/-- `FindStartingBoundaryAndTruncData` (Parser.cpp 258-266). -/
def stepBoundary (b : Str) (s : State) : Except Err (Bool × State) :=
  match find (bound b) s.data with
  | some n => .ok (true, { s with status := .headers, data := s.data.drop (n + (bound b).length) })
  | none => .ok (false, s)

/-- `WaitForHeadersEndAndParseThem` (Parser.cpp 132-150).  The headers are taken as a C string. -/
def stepHeaders (s : State) : Except Err (Bool × State) :=
  match find [13, 10, 13, 10] s.data with
  | some n =>
    match parseHeaders (cstr (s.data.take n)) with
    | .error e => .error e
    | .ok (name, f) =>
      .ok (true, { status := .content, fields := assign name f s.fields, name := name, data := s.data.drop (n + 4) })
  | none => .ok (false, s)

/-- Giving the first `n` bytes to the field (Parser.cpp 119-122). -/
def send (acc : Acc) (n : Nat) (s : State) : Except Err State :=
  if n = 0 then .ok s
  else
    match lookup s.name s.fields with
    | none => .error .undefined
    | some f =>
      match acc f (s.data.take n) with
      | .error e => .error e
      | .ok f' => .ok { s with fields := assign s.name f' s.fields, data := s.data.drop n }

/-- `ProcessContentOfTheField` (Parser.cpp 108-130). -/
def stepContent (b : Str) (acc : Acc) (s : State) : Except Err (Bool × State) :=
  match find (bound b) s.data with
  | some p => (send acc (p - 2) s).map (fun s' => (true, { s' with status := .boundary }))
  | none => (send acc (s.data.length - ((bound b).length + 2)) s).map (fun s' => (false, s'))

/-- One turn of the loop of `_ProcessData` (Parser.cpp 81-105). -/
def step (b : Str) (acc : Acc) (s : State) : Except Err (Bool × State) :=
  match s.status with
  | .boundary => stepBoundary b s
  | .headers => stepHeaders s
  | .content => stepContent b acc s

/-- A measure of what is left to do. -/
def State.todo (s : State) : Nat := 2 * s.data.length + (if s.status = .content then 1 else 0)

theorem find_lt {pat : Str} (hp : pat ≠ []) (s : Str) : ∀ {n}, find pat s = some n → n + pat.length ≤ s.length := by
  induction s with
  | nil => intro n h; simp [find, hp] at h
  | cons c s ih =>
    intro n h
    unfold find at h
    split at h
    · rename_i hpre
      simp only [Option.some.injEq] at h
      subst h
      rw [List.isPrefixOf_iff_prefix] at hpre
      have := hpre.length_le
      omega
    · cases e : find pat s with
      | none => rw [e] at h; simp at h
      | some m =>
        rw [e] at h
        simp only [Option.map_some, Option.some.injEq] at h
        have := ih e
        simp only [List.length_cons]; omega

theorem send_data {acc : Acc} {n : Nat} {s s' : State} (h : send acc n s = .ok s') :
    s'.data.length ≤ s.data.length := by
  unfold send at h
  split at h
  · cases h; exact Nat.le_refl _
  · split at h
    · cases h
    · split at h
      · cases h
      · cases h; simp

theorem step_todo {b : Str} {acc : Acc} {s s' : State} (h : step b acc s = .ok (true, s')) : s'.todo < s.todo := by
  unfold step at h
  split at h
  · unfold stepBoundary at h
    split at h
    · rename_i n e
      have := find_lt (by simp [bound]) _ e
      simp only [bound, List.length_cons] at this
      cases h
      simp [State.todo, bound]
      omega
    · cases h
  · unfold stepHeaders at h
    split at h
    · rename_i n e
      have := find_lt (by simp) _ e
      simp only [List.length_cons, List.length_nil] at this
      split at h
      · cases h
      · cases h
        simp [State.todo]
        omega
    · cases h
  · rename_i hst
    unfold stepContent at h
    split at h
    · cases e : send acc (_ - 2) s with
      | error x => rw [e] at h; cases h
      | ok s1 =>
        rw [e] at h
        have := send_data e
        cases h
        simp [State.todo, hst]
        omega
    · cases e : send acc (s.data.length - ((bound b).length + 2)) s with
      | error x => rw [e] at h; cases h
      | ok s1 => rw [e] at h; cases h

/-- `_ProcessData` (Parser.cpp 76-106). -/
def process (b : Str) (acc : Acc) (s : State) : Except Err State :=
  match h : step b acc s with
  | .error e => .error e
  | .ok (false, s') => .ok s'
  | .ok (true, s') => process b acc s'
termination_by s.todo
decreasing_by exact step_todo h

/-- `AcceptSomeData` (Parser.cpp 52-74) after `SetContentType`; `max` is `MaxDataCollectorLength`. -/
def acceptWith (b : Str) (max : Nat) (acc : Acc) (s : State) (data : Str) : Except Err State :=
  if (s.data ++ data).length > max then .error .exc
  else process b acc { s with data := s.data ++ data }

/-- Several calls of `AcceptSomeData`; an exception ends the work. -/
def feedWith (b : Str) (max : Nat) (acc : Acc) : State → List Str → Except Err State
  | s, [] => .ok s
  | s, d :: ds =>
    match acceptWith b max acc s d with
    | .error e => .error e
    | .ok s' => feedWith b max acc s' ds

/-- The parser with its fields. -/
def feed (b : Str) (max : Nat) (st : Storage) (ds : List Str) : Except Err State :=
  feedWith b max (Field.accept st) {} ds

/-- `SetContentType` (Parser.cpp 35-50): what follows `boundary=`. -/
def setContentType (type : Str) : Except Err Str :=
  if find (ascii "multipart/form-data;") type ≠ some 0 then .error .exc
  else
    match find (ascii "boundary=") type with
    | none => .error .exc
    | some p => .ok (type.drop (p + 9))

end Verif.Server.Mpfd
