import Verif.Server.Handler
import Verif.Server.Multipart
import Verif.Server.Spec

/-!
The dynamic part of the server: form fields, generated text and sessions (`server/psi_server.cpp`,
`server/psi_request_handler.cpp`, `server/session_manager.cpp`, `server/session.cpp`, `common/guid_generator.cpp`).

Sizes are taken to be below 2^31, so that the positions kept in `int`s are exact.  One request is handled at a time (the
server's threads share `currentSessionId_` without a lock; that is not modelled).
-/

namespace Verif.Server.Site
open Mpfd (find)

/-! ### Form fields -/

/-- `PsiServer::urlDecode` (psi_server.cpp 213-233).  `j` is the variable of that name, `none` while it has no value:
`sscanf` leaves it alone if there is no number to read.  Using it without a value is undefined: the result is `none`. -/
def urlDecode (j : Option Int) : Str → Option Str
  | [] => some []
  | c :: cs =>
    if c = 37 then
      let j' := match readHex (cs.take 2) with
        | some v => some v
        | none => j
      match j' with
      | none => none
      | some v => (urlDecode (some v) (cs.drop 2)).map (toChar v :: ·)
    else (urlDecode j cs).map (c :: ·)
termination_by s => s.length

/-- A value as it is stored: blanks for `+` (psi_server.cpp 196-201), then `urlDecode`. -/
def decodeValue (value : Str) : Option Str := urlDecode none (value.map (fun c => if c = 43 then 32 else c))

/-- `uri.find(c, p)` for a single character. -/
def findFrom (c : Byte) (s : Str) (p : Nat) : Option Nat := (find [c] (s.drop p)).map (· + p)

/-- One round of the loop in `parseNamesAndValues` (psi_server.cpp 184-205) from position `p`: the name, the value before
decoding and the position for the next round; `none` if this was the last round.  When there is no `=`, `q` is -1: the
name is everything from `p`, and the value starts at position 0. -/
def formRound (uri : Str) (p : Nat) : (Str × Str) × Option Nat :=
  let name := match findFrom 61 uri p with
    | some q => (uri.drop p).take (q - p)
    | none => uri.drop p
  let p' := match findFrom 61 uri p with
    | some q => q + 1
    | none => 0
  match findFrom 38 uri p' with
  | some q => ((name, (uri.drop p').take (q - p')), some (q + 1))
  | none => ((name, uri.drop p'), none)

/-- The loop of `parseNamesAndValues` (psi_server.cpp 177-206) for at most `fuel` rounds, before decoding the values;
`none`: not finished. -/
def formLoop (uri : Str) : Nat → Nat → Option (List (Str × Str))
  | 0, _ => none
  | fuel + 1, p =>
    match (formRound uri p).2 with
    | none => some [(formRound uri p).1]
    | some p' => (formLoop uri fuel p').map ((formRound uri p).1 :: ·)

/-- The fields with their values decoded. -/
def decodeAll : List (Str × Str) → Option (List (Str × Str))
  | [] => some []
  | (n, v) :: l => do
    let v ← decodeValue v
    let l ← decodeAll l
    some ((n, v) :: l)

/-- `parseNamesAndValues(uri, p)`: the calls of `setData` it makes; `none` if it runs for ever or uses a variable without
value.  As many rounds as there are characters and one more are enough (`C47_rounds`). -/
def parseForm (uri : Str) (p : Nat) : Option (List (Str × Str)) :=
  match formLoop uri (uri.length + 1) p with
  | none => none
  | some l => decodeAll l

/-! ### Sessions -/

/-- The data of a session (session.hpp 27): missing and empty values are not told apart by `isData` and `getData`
(session.cpp 14-35). -/
abbrev Data := Str → Str

/-- `Session::setData` (session.cpp 44-46). -/
def Data.set (d : Data) (k v : Str) : Data := fun x => if x = k then v else d x

/-- A sequence of `setData` calls. -/
def Data.setAll (d : Data) (l : List (Str × Str)) : Data := l.foldl (fun d x => d.set x.1 x.2) d

/-- The registered functions (psi_server.cpp 58-69): for the code of a text generator or of an action, what it does to
the data of the current session and the string it returns.  Other state of the program that they may use is left out. -/
structure Functions where
  includes : Str → Option (Data → Data × Str)
  actions : Str → Option (Data → Data × Str)

/-- `<!--#psis` -/
def openTag : Str := ascii "<!--#psis"

/-- `-->` -/
def closeTag : Str := ascii "-->"

theorem find_bound {pat : Str} (s : Str) : ∀ {n}, find pat s = some n → n + pat.length ≤ s.length := by
  induction s with
  | nil =>
    intro n h
    simp only [find] at h
    split at h
    · rename_i e; cases h; simp [e]
    · cases h
  | cons c s ih =>
    intro n h
    simp only [find] at h
    split at h
    · rename_i e; cases h
      have := (List.isPrefixOf_iff_prefix.1 e).length_le
      simpa using this
    · cases e : find pat s with
      | none => simp [e] at h
      | some m => simp [e] at h; have := ih e; subst h; simp; omega

/-- The code of the generator: `reply.substr(p + 10, q - p - 14)` (psi_server.cpp 84), where `s` starts at `p` and `q`
counts from there; a negative length is a huge `size_t`: the string goes on to the end of the page. -/
def includeCode (s : Str) (q : Nat) : Str := if 14 ≤ q then (s.drop 10).take (q - 14) else s.drop 10

/-- What a generator of the given code does; without such a generator there is no text (psi_server.cpp 90-93). -/
def generate (fs : Functions) (code : Str) (d : Data) : Data × Str :=
  match fs.includes code with
  | some f => f d
  | none => (d, [])

/-- `PsiServer::include` (psi_server.cpp 71-98).  The loop leaves what lies before `p` alone, so the model works on the
rest of the page. -/
def «include» (fs : Functions) (d : Data) (s : Str) : Data × Str :=
  match h : find openTag s with
  | none => (d, s)
  | some p =>
    match h2 : find closeTag (s.drop p) with
    | none => (d, s)
    | some q =>
      let g := generate fs (includeCode (s.drop p) (q + 3)) d
      let r := «include» fs g.1 (s.drop (p + q + 3))
      (r.1, s.take p ++ g.2 ++ r.2)
termination_by s.length
decreasing_by
  have := find_bound _ h
  have h3 : openTag.length = 9 := by decide
  simp
  omega

/-- What the server keeps: the sessions (session_manager.hpp 41) and the counter of the id generator
(guid_generator.hpp 19). -/
structure State where
  sessions : Str → Option Data := fun _ => none
  counter : Nat := 0

/-- `zeroPadNumber` (guid_generator.cpp 63-75): the last four decimal digits. -/
def pad (n : Nat) : Str :=
  let s := decimal n
  if s.length > 4 then s.drop (s.length - 4) else List.replicate (4 - s.length) 48 ++ s

/-- What the id generator takes from outside (guid_generator.cpp 39-61): the date as six characters and the random
string of thirteen. -/
structure Env where
  date : Str
  random : Str

/-- `getGUID` (guid_generator.cpp 17-32) for the value of the counter after `++_counter`; with the date. -/
def guid (e : Env) (counter : Nat) : Str := e.date ++ [45] ++ pad counter ++ [45] ++ e.random

/-- `PSISESSIONID` (session_manager.cpp 6) -/
def cookieIdentifier : Str := ascii "PSISESSIONID"

/-- `SessionManager::SessionId` (session_manager.cpp 9-17); `none`: `substr` throws. -/
def sessionId (cookies : Str) : Option Str :=
  match find cookieIdentifier cookies with
  | none => some []
  | some n =>
    if n + cookieIdentifier.length + 1 ≤ cookies.length then
      some ((cookies.drop (n + cookieIdentifier.length + 1)).take 25)
    else none

/-- `SessionManager::CookieHeaderValue` (session_manager.cpp 19-21). -/
def cookieValue (id : Str) : Str := cookieIdentifier ++ [61] ++ id

/-- The id of the session of a request and the state with that session in it (psi_request_handler.cpp 44-54,
session_manager.cpp 57-62, 72-74): `insert` does nothing if the new id is in use. -/
def openSession (st : State) (e : Env) (id : Str) : Str × Bool × State :=
  match st.sessions id with
  | some _ => (id, true, st)
  | none =>
    let n := guid e (st.counter + 1)
    (n, false, { sessions := fun x => if x = n then some ((st.sessions n).getD (fun _ => [])) else st.sessions x,
                 counter := st.counter + 1 })

/-- The fields of a multipart form as they are stored (psi_server.cpp 142-175): the map is gone through in the order of
the names; an exception of the parser ends it without storing anything; `none` if the parser does something undefined.
`MaxDataCollectorLength` is 16 MB (Parser.cpp 19). -/
def multipartFields (type body : Str) : Option (List (Str × Str)) :=
  match Mpfd.setContentType type with
  | .error .exc => some []
  | .error .undefined => none
  | .ok b =>
    match Mpfd.feed b (16 * 1024 * 1024) .memory [body] with
    | .error .exc => some []
    | .error .undefined => none
    | .ok s => some ((s.fields.mergeSort (fun x y => decide (x.1 ≤ y.1))).flatMap (fun x =>
        if x.2.isFile then [(x.1 ++ ascii "-filename", x.2.fileName), (x.1, x.2.bytes)] else [(x.1, x.2.text)]))

/-- The fields sent with a request (psi_server.cpp 121-134); `q` is the position found in the uri. -/
def requestFields (r : Request) (q : Nat) : Option (List (Str × Str)) :=
  if find (ascii "multipart/form-data;") (r.header Spec.contentType) = some 0 then
    multipartFields (r.header Spec.contentType) r.postData
  else if r.method = Spec.post then parseForm r.postData 0
  else parseForm r.uri (q + 6)

/-- `checkForAction` (psi_server.cpp 100-140): the new data of the current session and the new uri.  The code is
`uri.substr(1, q-1)`, where the length is huge if `q` is 0. -/
def checkForAction (fs : Functions) (d : Data) (r : Request) : Option (Data × Str) :=
  match find (if r.method = Spec.post then ascii ".psis" else ascii ".psis?") r.uri with
  | none => some (d, r.uri)
  | some q =>
    match fs.actions (if q = 0 then r.uri.drop 1 else (r.uri.drop 1).take (q - 1)) with
    | none => some (d, r.uri)
    | some f => (requestFields r q).map (fun l => f (d.setAll l))

/-- `filesToContentTypes` (psi_request_handler.cpp 8-31). -/
def contentTypes : List (Str × Str) :=
  [("htm", "text/html"), ("html", "text/html"), ("shtml", "text/html"), ("css", "text/css"),
   ("js", "application/javascript"), ("pdf", "application/pdf"), ("ps", "application/postscript"),
   ("eps", "application/postscript"), ("ai", "application/postscript"), ("doc", "application/msword"),
   ("xdoc", "application/msword"), ("rtf", "application/rtf"), ("zip", "application/zip"),
   ("jpg", "image/jpeg"), ("jpeg", "image/jpeg"), ("jpe", "image/jpeg"), ("png", "image/png"), ("gif", "image/gif"),
   ("tiff", "image/tiff"), ("tif", "image/tif")].map (fun x => (ascii x.1, ascii x.2))

/-- What follows the last `c`; `none` if there is no `c`. -/
def afterLast (c : Byte) (s : Str) : Option Str :=
  if c ∈ s then some (s.reverse.takeWhile (· != c)).reverse else none

/-- The position of the last `c`. -/
def lastPos (c : Byte) (s : Str) : Option Nat := (afterLast c s).map (fun t => s.length - t.length - 1)

/-- `getFileName` (psi_request_handler.cpp 108-125).  If the last `?` is before the last `/`, the length `endFile -
startFile - 1` is huge: the string goes on to the end. -/
def fileName (uri : Str) : Str :=
  match lastPos 47 uri with
  | none => []
  | some a =>
    match lastPos 63 uri with
    | none => uri.drop (a + 1)
    | some b => if a + 1 ≤ b then (uri.drop (a + 1)).take (b - a - 1) else uri.drop (a + 1)

/-- `getContentType` (psi_request_handler.cpp 81-106). -/
def siteType (uri : Str) : Str :=
  let file := fileName uri
  let type :=
    if file = ascii "json.psis" then ascii "text/javascript"
    else
      match contentTypes.find? (fun x => x.1 == (afterLast 46 file).getD []) with
      | some x => x.2
      | none => ascii "text/html"
  type ++ ascii ";charset=UTF-8"

/-- The rest of `handle_request` for the session's data `d` (psi_request_handler.cpp 63-68): action, file, generated
text; the new data and the reply. -/
def answer (fs : Functions) (root : Str) (files : Str → Option Str) (d : Data) (r : Request) : Option (Data × Reply) :=
  match checkForAction fs d r with
  | none => none
  | some (d, uri) =>
    let rep := handle root files uri
    let page := «include» fs d rep.content
    some (page.1,
      { rep with
        headers := [⟨ascii "Content-Length", decimal page.2.length⟩, ⟨ascii "Content-Type", siteType r.uri⟩]
        content := page.2 })

/-- `PsiRequestHandler::handle_request` (psi_request_handler.cpp 37-79): the new state and the reply; `none` if the
program does not get to the end (an exception nobody catches, an endless loop, or undefined behaviour). -/
def handleRequest (fs : Functions) (root : Str) (files : Str → Option Str) (st : State) (e : Env) (r : Request) :
    Option (State × Reply) :=
  match sessionId (r.header (ascii "Cookie")) with
  | none => none
  | some id =>
    let s := openSession st e id
    match answer fs root files ((s.2.2.sessions s.1).getD (fun _ => [])) r with
    | none => none
    | some (d, rep) =>
      some ({ s.2.2 with sessions := fun x => if x = s.1 then some d else s.2.2.sessions x },
        if s.2.1 then rep else { rep with headers := rep.headers ++ [⟨ascii "Set-Cookie", cookieValue s.1⟩] })

/-- A sequence of requests: the state at the end and the replies. -/
def run (fs : Functions) (root : Str) (files : Str → Option Str) : State → List (Env × Request) →
    Option (State × List Reply)
  | st, [] => some (st, [])
  | st, (e, r) :: l =>
    match handleRequest fs root files st e r with
    | none => none
    | some (st, rep) => (run fs root files st l).map (fun x => (x.1, rep :: x.2))

end Verif.Server.Site
