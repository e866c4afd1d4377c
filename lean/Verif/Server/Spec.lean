import Verif.Basic

/-!
What an HTTP/1 request looks like, written down without the parser.
-/

namespace Verif.Server.Spec

/-- A decimal digit. -/
def Digit (c : Byte) : Prop := 48 ≤ c.toNat ∧ c.toNat ≤ 57

/-- The number a string of digits stands for. -/
def number (ds : Str) : Nat := ds.foldl (fun v d => v * 10 + (d.toNat - 48)) 0

/-- A control character. -/
def Ctl (c : Byte) : Prop := c.toNat < 32 ∨ c.toNat = 127

/-- The separators of RFC 2616: `( ) < > @ , ; : \ " / [ ] ? = { }`, space and tab. -/
def separators : Str := [40, 41, 60, 62, 64, 44, 59, 58, 92, 34, 47, 91, 93, 63, 61, 123, 125, 32, 9]

/-- A character of a token. -/
def TokenChar (c : Byte) : Prop := c.toNat < 128 ∧ ¬ Ctl c ∧ c ∉ separators

/-- The head of a request; the version numbers are strings of digits. -/
structure Head where
  method : Str
  uri : Str
  major : Str
  minor : Str
  headers : List (Str × Str)

/-- `CR LF` -/
def crlf : Str := [13, 10]

/-- One header line: `name: value`. -/
def line (h : Str × Str) : Str := h.1 ++ [58, 32] ++ h.2 ++ crlf

/-- The head as it is sent: `METHOD URI HTTP/1.1`, the header lines, an empty line. -/
def Head.render (h : Head) : Str :=
  h.method ++ [32] ++ h.uri ++ [32] ++ [72, 84, 84, 80, 47] ++ h.major ++ [46] ++ h.minor ++ crlf ++
    h.headers.flatMap line ++ crlf

/-- A number that is small enough for the `int`s of the program. -/
def Number (ds : Str) : Prop := ds ≠ [] ∧ (∀ d ∈ ds, Digit d) ∧ number ds ≤ 2000000000

/-- A well-formed head. -/
structure Head.Ok (h : Head) : Prop where
  method : h.method ≠ []
  token : ∀ c ∈ h.method, TokenChar c
  uri : ∀ c ∈ h.uri, ¬ Ctl c ∧ c ≠ 32
  major : Number h.major
  minor : Number h.minor
  names : ∀ x ∈ h.headers, x.1 ≠ [] ∧ ∀ c ∈ x.1, TokenChar c
  values : ∀ x ∈ h.headers, ∀ c ∈ x.2, ¬ Ctl c

/-- The header `n` has the value `v`: the last line of that name counts. -/
def Head.Has (h : Head) (n v : Str) : Prop :=
  ∃ pre post, h.headers = pre ++ (n, v) :: post ∧ ∀ x ∈ post, x.1 ≠ n

/-- `POST` -/
def post : Str := [80, 79, 83, 84]

/-- `Content-Length` -/
def contentLength : Str := [67, 111, 110, 116, 101, 110, 116, 45, 76, 101, 110, 103, 116, 104]

/-- `Content-Type` -/
def contentType : Str := [67, 111, 110, 116, 101, 110, 116, 45, 84, 121, 112, 101]

/-- `multipart` -/
def multipart : Str := [109, 117, 108, 116, 105, 112, 97, 114, 116]

/-! ### Header lines with continuations -/

/-- A header that may go on over several lines; each of those begins with blanks (the first component). -/
structure Field where
  name : Str
  value : Str
  folds : List (Str × Str) := []

/-- The value of the header: its lines one after another. -/
def Field.text (f : Field) : Str := f.value ++ f.folds.flatMap (fun x => x.2)

/-- The header as it is sent. -/
def Field.render (f : Field) : Str := line (f.name, f.value) ++ f.folds.flatMap (fun x => x.1 ++ x.2 ++ crlf)

/-- A well-formed header. -/
structure Field.Ok (f : Field) : Prop where
  name : f.name ≠ []
  token : ∀ c ∈ f.name, TokenChar c
  value : ∀ c ∈ f.value, ¬ Ctl c
  folds : ∀ x ∈ f.folds, x.1 ≠ [] ∧ (∀ c ∈ x.1, c = 32 ∨ c = 9) ∧ (∀ c ∈ x.2, ¬ Ctl c) ∧ x.2.head? ≠ some 32

/-- `METHOD URI HTTP/1.1` -/
def startLine (method uri major minor : Str) : Str :=
  method ++ [32] ++ uri ++ [32] ++ [72, 84, 84, 80, 47] ++ major ++ [46] ++ minor ++ crlf

/-- The parts of a start line. -/
structure StartOk (m u a b : Str) : Prop where
  method : m ≠ []
  token : ∀ c ∈ m, TokenChar c
  uri : ∀ c ∈ u, ¬ Ctl c ∧ c ≠ 32
  major : a ≠ [] ∧ ∀ d ∈ a, Digit d
  minor : b ≠ [] ∧ ∀ d ∈ b, Digit d

end Verif.Server.Spec
