import Verif.Basic

/-!
The HTTP request parser: `server/server/request_parser.{hpp,cpp}`, `server/server/request.hpp`, and the
reading loop of `server/server/connection.cpp`.

Numbers are `int`.  Arithmetic that leaves the range of `int` is undefined, as is `back()` of an empty
vector; the outcome is then `none`.
-/

namespace Verif.Server

/-- `header` (header.hpp 14-18). -/
structure Header where
  name : Str
  value : Str
deriving DecidableEq, Repr

/-- `request` (request.hpp 17-24).  The connection value-initialises it (connection.cpp 19), so the
numbers start as 0. -/
structure Request where
  method : Str := []
  uri : Str := []
  major : Int := 0
  minor : Int := 0
  headers : List Header := []
  postData : Str := []
deriving DecidableEq, Repr

/-- `request::get_header_value` (request.hpp 26-33): the last header of that name, empty if there is none. -/
def Request.header (r : Request) (n : Str) : Str :=
  match r.headers.reverse.find? (fun h => h.name == n) with
  | some h => h.value
  | none => []

/-- `is_char` (request_parser.cpp 363-366).  The argument is a signed `char`, so bytes from 128 are negative. -/
def isChar (c : Byte) : Bool := c < 128

/-- `is_ctl` (request_parser.cpp 368-371). -/
def isCtl (c : Byte) : Bool := c ≤ 31 || c == 127

/-- `is_tspecial` (request_parser.cpp 373-385). -/
def isTspecial (c : Byte) : Bool :=
  c ∈ ([40, 41, 60, 62, 64, 44, 59, 58, 92, 34, 47, 91, 93, 63, 61, 123, 125, 32, 9] : List Byte)

/-- `is_digit` (request_parser.cpp 387-390). -/
def isDigit (c : Byte) : Bool := 48 ≤ c && c ≤ 57

/-- The test `!is_char(input) || is_ctl(input) || is_tspecial(input)`, negated. -/
def isToken (c : Byte) : Bool := isChar c && !isCtl c && !isTspecial c

/-- `state` (request_parser.hpp 66-91). -/
inductive St
  | methodStart | method | uriStart | uri | versionH | versionT1 | versionT2 | versionP | versionSlash
  | majorStart | major | minorStart | minor | newline1 | lineStart | lws | name | spaceBefore | value
  | newline2 | newline3 | postLine | multipart
deriving DecidableEq, Repr

/-- The fields of `request_parser` (request_parser.hpp 91-95; constructor request_parser.cpp 14-17). -/
structure Parser where
  st : St := .methodStart
  len : Int := 0
  cnt : Int := 0
deriving DecidableEq, Repr

/-- `boost::tribool`. -/
inductive Verdict
  | more | yes | no
deriving DecidableEq, Repr

/-- `v * 10 + input - '0'` on `int` (request_parser.cpp 137, 153, 163, 179). -/
def addDigit (v : Int) (c : Byte) : Option Int :=
  if v * 10 + c.toNat ≤ 2147483647 then some (v * 10 + c.toNat - 48) else none

/-- The white space `atoi` skips. -/
def isSpace (c : Byte) : Bool := c == 32 || (9 ≤ c && c ≤ 13)

/-- The value of the leading digits. -/
def digits (v : Nat) : Str → Nat
  | [] => v
  | c :: cs => if isDigit c then digits (v * 10 + (c.toNat - 48)) cs else v

/-- `atoi` of the C library: white space, a sign, digits.  Out of range: undefined. -/
def atoi (s : Str) : Option Int :=
  let v : Int := match s.dropWhile isSpace with
    | 45 :: t => - (digits 0 t : Int)
    | 43 :: t => digits 0 t
    | t => digits 0 t
  if -2147483648 ≤ v ∧ v ≤ 2147483647 then some v else none

/-- `is_multipart` (request_parser.cpp 340-347); `Content-Type`, `multipart`. -/
def isMultipart (r : Request) : Bool :=
  (r.header [67, 111, 110, 116, 101, 110, 116, 45, 84, 121, 112, 101]).take 9 ==
    [109, 117, 108, 116, 105, 112, 97, 114, 116]

/-- `set_post_data_length` (request_parser.cpp 349-361); `Content-Length`.  The log message is left out. -/
def postLength (r : Request) : Option Int :=
  let v := r.header [67, 111, 110, 116, 101, 110, 116, 45, 76, 101, 110, 103, 116, 104]
  if v = [] then some 0 else atoi v

/-- `req.headers.back().name.push_back(input)`. -/
def pushName (r : Request) (c : Byte) : Option Request :=
  match r.headers.reverse with
  | [] => none
  | h :: hs => some { r with headers := ({ h with name := h.name ++ [c] } :: hs).reverse }

/-- `req.headers.back().value.push_back(input)`. -/
def pushValue (r : Request) (c : Byte) : Option Request :=
  match r.headers.reverse with
  | [] => none
  | h :: hs => some { r with headers := ({ h with value := h.value ++ [c] } :: hs).reverse }

/-- `req.method == "POST"`. -/
def isPost (r : Request) : Bool := r.method == [80, 79, 83, 84]

/-- `state_ = …; return boost::indeterminate` -/
def go (p : Parser) (s : St) (r : Request) : Option (Verdict × Parser × Request) := some (.more, { p with st := s }, r)

/-- `return false` -/
def reject (p : Parser) (r : Request) : Option (Verdict × Parser × Request) := some (.no, p, r)

/-- `request_parser::consume` (request_parser.cpp 24-338). -/
def consume (p : Parser) (r : Request) (c : Byte) : Option (Verdict × Parser × Request) :=
  match p.st with
  | .methodStart => if isToken c then go p .method { r with method := r.method ++ [c] } else reject p r
  | .method =>
    if c = 32 then go p .uri r
    else if isToken c then go p .method { r with method := r.method ++ [c] } else reject p r
  | .uriStart => if isCtl c then reject p r else go p .uri { r with uri := r.uri ++ [c] }
  | .uri =>
    if c = 32 then go p .versionH r
    else if isCtl c then reject p r
    else go p .uri { r with uri := r.uri ++ [c] }
  | .versionH => if c = 72 then go p .versionT1 r else reject p r
  | .versionT1 => if c = 84 then go p .versionT2 r else reject p r
  | .versionT2 => if c = 84 then go p .versionP r else reject p r
  | .versionP => if c = 80 then go p .versionSlash r else reject p r
  | .versionSlash => if c = 47 then go p .majorStart { r with major := 0, minor := 0 } else reject p r
  | .majorStart =>
    if isDigit c then (addDigit r.major c).bind (fun v => go p .major { r with major := v }) else reject p r
  | .major =>
    if c = 46 then go p .minorStart r
    else if isDigit c then (addDigit r.major c).bind (fun v => go p .major { r with major := v }) else reject p r
  | .minorStart =>
    if isDigit c then (addDigit r.minor c).bind (fun v => go p .minor { r with minor := v }) else reject p r
  | .minor =>
    if c = 13 then go p .newline1 r
    else if isDigit c then (addDigit r.minor c).bind (fun v => go p .minor { r with minor := v }) else reject p r
  | .newline1 => if c = 10 then go p .lineStart r else reject p r
  | .lineStart =>
    if c = 13 then go p .newline3 r
    else if !r.headers.isEmpty && (c == 32 || c == 9) then go p .lws r
    else if isToken c then go p .name { r with headers := r.headers ++ [⟨[c], []⟩] }
    else reject p r
  | .lws =>
    if c = 13 then go p .newline2 r
    else if c = 32 ∨ c = 9 then go p .lws r
    else if isCtl c then reject p r
    else (pushValue r c).bind (fun r' => go p .value r')
  | .name =>
    if c = 58 then go p .spaceBefore r
    else if isToken c then (pushName r c).bind (fun r' => go p .name r') else reject p r
  | .spaceBefore => if c = 32 then go p .value r else reject p r
  | .value =>
    if c = 13 then go p .newline2 r
    else if isCtl c then reject p r
    else (pushValue r c).bind (fun r' => go p .value r')
  | .newline2 => if c = 10 then go p .lineStart r else reject p r
  | .newline3 =>
    if c = 10 then
      if isPost r then
        (postLength r).bind (fun n =>
          some (.more, ⟨if isMultipart r then .multipart else .postLine, n, 1⟩, r))
      else some (.yes, p, r)
    else reject p r
  | .postLine =>
    if c ≠ 10 ∧ c ≠ 13 then
      if p.cnt < p.len then some (.more, { p with cnt := p.cnt + 1 }, { r with postData := r.postData ++ [c] })
      else some (.yes, p, { r with postData := r.postData ++ [c] })
    else reject p r
  | .multipart =>
    if p.cnt < p.len then some (.more, { p with cnt := p.cnt + 1 }, { r with postData := r.postData ++ [c] })
    else some (.yes, p, r)

/-- What the client of the parser sees: the verdict, the number of bytes consumed, the parser, the request. -/
abbrev Result := Option (Verdict × Nat × Parser × Request)

/-- `n` more bytes consumed before. -/
def Result.add (n : Nat) : Result → Result
  | none => none
  | some (v, m, p, r) => some (v, n + m, p, r)

/-- `request_parser::parse` (request_parser.hpp 33-48). -/
def parse (p : Parser) (r : Request) : Str → Result
  | [] => some (.more, 0, p, r)
  | c :: cs =>
    match consume p r c with
    | none => none
    | some (.more, p', r') => Result.add 1 (parse p' r' cs)
    | some (v, p', r') => some (v, 1, p', r')

/-- `connection::handle_read` (connection.cpp 38-77), called for one piece of input after another until
the verdict is known.  Sockets and errors are left out. -/
def feed (p : Parser) (r : Request) : List Str → Result
  | [] => some (.more, 0, p, r)
  | cs :: rest =>
    match parse p r cs with
    | some (.more, n, p', r') => Result.add n (feed p' r' rest)
    | x => x

end Verif.Server
