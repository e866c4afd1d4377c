import Verif.Server.Request

/-!
The file server: `server/server/request_handler.cpp`, with the parts of `reply.cpp` and `mime_types.cpp` it uses.

The file system is a function from the name given to `std::ifstream` to the contents; `none`: cannot be opened.
-/

namespace Verif.Server

/-- A string of ASCII characters. -/
def ascii (s : String) : Str := s.toList.map (fun c => UInt8.ofNat c.toNat)

/-- The value of a hexadecimal digit. -/
def hexDigit (c : Byte) : Option Nat :=
  if 48 ≤ c ∧ c ≤ 57 then some (c.toNat - 48)
  else if 97 ≤ c ∧ c ≤ 102 then some (c.toNat - 87)
  else if 65 ≤ c ∧ c ≤ 70 then some (c.toNat - 55)
  else none

/-- Hexadecimal digits up to the first other character; at least one.  `0x` and `0X` are a prefix that must be followed
by a digit, and in two characters none can follow. -/
def hexDigits : Str → Option Nat
  | [] => none
  | [c] => hexDigit c
  | c :: d :: _ =>
    match hexDigit c with
    | none => none
    | some v =>
      if c = 48 ∧ (d = 120 ∨ d = 88) then none
      else match hexDigit d with
        | some w => some (v * 16 + w)
        | none => some v

/-- An optional sign, then digits. -/
def hexSigned : Str → Option Int
  | 45 :: t => (hexDigits t).map (fun v => - (v : Int))
  | 43 :: t => (hexDigits t).map (fun v => (v : Int))
  | t => (hexDigits t).map (fun v => (v : Int))

/-- `is >> std::hex >> value` on a stream of two characters (request_handler.cpp 88-89): white space, a sign, digits; as
libstdc++ does it. -/
def readHex (s : Str) : Option Int := hexSigned (s.dropWhile isSpace)

/-- `static_cast<char>(value)` (request_handler.cpp 91). -/
def toChar (v : Int) : Byte := UInt8.ofNat (v % 256).toNat

/-- `url_decode` (request_handler.cpp 77-114). -/
def urlDecode : Str → Option Str
  | [] => some []
  | c :: cs =>
    if c = 37 then
      match cs with
      | a :: b :: rest =>
        match readHex [a, b] with
        | some v => (urlDecode rest).map (toChar v :: ·)
        | none => none
      | _ => none
    else if c = 43 then (urlDecode cs).map (32 :: ·)
    else (urlDecode cs).map (c :: ·)

/-- `reply` (reply.hpp 17-40). -/
structure Reply where
  status : Nat
  headers : List Header
  content : Str
deriving DecidableEq, Repr

/-- `boost::lexical_cast<std::string>` of a size. -/
def decimal (n : Nat) : Str :=
  if n < 10 then [UInt8.ofNat (48 + n)] else decimal (n / 10) ++ [UInt8.ofNat (48 + n % 10)]

/-- `stock_replies::to_string` (reply.cpp 153-157, 168-172), for the two replies that are used. -/
def stockText (status : Nat) : Str :=
  if status = 400 then
    ascii "<html><head><title>Bad Request</title></head><body><h1>400 Bad Request</h1></body></html>"
  else ascii "<html><head><title>Not Found</title></head><body><h1>404 Not Found</h1></body></html>"

/-- `reply::stock_reply` (reply.cpp 237-248). -/
def stockReply (status : Nat) : Reply :=
  ⟨status, [⟨ascii "Content-Length", decimal (stockText status).length⟩, ⟨ascii "Content-Type", ascii "text/html"⟩],
    stockText status⟩

/-- `mime_types::extension_to_type` (mime_types.cpp 16-37). -/
def mimeType (ext : Str) : Str :=
  if ext = ascii "gif" then ascii "image/gif"
  else if ext = ascii "htm" then ascii "text/html"
  else if ext = ascii "html" then ascii "text/html"
  else if ext = ascii "jpg" then ascii "image/jpeg"
  else if ext = ascii "png" then ascii "image/png"
  else ascii "text/plain"

/-- `request_path.find("..") != npos` -/
def hasDots : Str → Bool
  | 46 :: 46 :: _ => true
  | _ :: t => hasDots t
  | [] => false

/-- The file extension (request_handler.cpp 49-55): what follows the last dot, if that is after the last slash. -/
def extension (path : Str) : Str :=
  let file := (path.reverse.takeWhile (· != 47)).reverse
  if 46 ∈ file then (file.reverse.takeWhile (· != 46)).reverse else []

/-- `c_str()`: the string ends at the first zero byte. -/
def cstr (s : Str) : Str := s.takeWhile (· != 0)

/-- `request_handler::handle_request` (request_handler.cpp 23-75).  The file is read as a whole instead of in blocks of
512 bytes. -/
def handle (root : Str) (fs : Str → Option Str) (uri : Str) : Reply :=
  match urlDecode uri with
  | none => stockReply 400
  | some path =>
    if path = [] ∨ path.head? ≠ some 47 ∨ hasDots path = true then stockReply 400
    else
      let path := if path.getLast? = some 47 then path ++ ascii "index.html" else path
      match fs (cstr (root ++ path)) with
      | none => stockReply 404
      | some content =>
        ⟨200, [⟨ascii "Content-Length", decimal content.length⟩, ⟨ascii "Content-Type", mimeType (extension path)⟩], content⟩

end Verif.Server
