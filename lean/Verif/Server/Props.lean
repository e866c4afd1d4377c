import Verif.Server.Lemmas

/-!
C40, C41, C46: the HTTP request parser.
-/
set_option linter.unusedVariables false
set_option linter.unusedSimpArgs false

namespace Verif.Server
open Spec

/-! ### C40 -/

/-- **C40**: however the bytes are cut into pieces, the verdict, the number of bytes consumed, the request
and the parser are those of reading all bytes at once (also from any state in between). -/
theorem C40_chunks (p : Parser) (r : Request) (chunks : List Str) : feed p r chunks = parse p r chunks.flatten :=
  feed_eq chunks p r

/-- In particular two divisions of the same bytes agree. -/
theorem C40_same (p : Parser) (r : Request) {cs ds : List Str} (h : cs.flatten = ds.flatten) : feed p r cs = feed p r ds := by
  rw [feed_eq, feed_eq, h]

/-- Bytes after the verdict do not change it. -/
theorem C40_prefix (p : Parser) (r : Request) (s t : Str) {v : Verdict} {n : Nat} {p' : Parser} {r' : Request}
    (h : parse p r s = some (v, n, p', r')) (hv : v ≠ .more) : parse p r (s ++ t) = parse p r s := by
  rw [parse_append, h]
  cases v with
  | more => exact absurd rfl hv
  | yes => rfl
  | no => rfl

/-- A request cut in the middle of the line end. -/
example : (feed {} {} [[71, 69, 84, 32, 47, 32, 72, 84], [], [84, 80, 47, 49, 46, 49, 13], [10, 13], [10, 88]]).map
    (fun x => (x.1, x.2.1, x.2.2.2.uri)) = some (.yes, 18, [47]) := by decide +kernel

/-! ### C46 -/

/-- **C46**: a well-formed request that is not a POST is accepted exactly at its end, whatever follows, and
its parts are those that were sent. -/
theorem C46_get {h : Head} (ok : h.Ok) (hm : h.method ≠ post) (rest : Str) :
    ∃ p, parse {} {} (h.render ++ rest) = some (.yes, h.render.length, p,
      { method := h.method, uri := h.uri, major := number h.major, minor := number h.minor,
        headers := h.headers.map (fun x => ⟨x.1, x.2⟩), postData := [] }) := by
  obtain ⟨s, e, hs⟩ := runs_head ok
  refine ⟨⟨.newline3, 0, 0⟩, ?_⟩
  rw [e, List.append_assoc, hs.then]
  have : isPost (reqOf h) = false := by
    simp only [isPost, reqOf, beq_eq_false_iff_ne]; exact hm
  have e2 : consume ⟨.newline3, 0, 0⟩ (reqOf h) 10 = some (.yes, ⟨.newline3, 0, 0⟩, reqOf h) := by simp [consume, this]
  simp only [List.singleton_append, parse, e2, Result.add, List.length_append, List.length_singleton]
  rfl

/-- `GET /a?b HTTP/1.0` with two headers. -/
example : Head.Ok ⟨[71, 69, 84], [47, 97, 63, 98], [49], [48], [([72, 111, 115, 116], [120]), ([65], [32, 195, 179])]⟩ ∧
    ([71, 69, 84] : Str) ≠ post := by
  refine ⟨⟨?_, ?_, ?_, ?_, ?_, ?_, ?_⟩, ?_⟩ <;> (try simp only [TokenChar, Ctl, Number, Digit]) <;> decide +kernel

/-! ### C41 -/

theorem header_eq {h : Head} {n v : Str} (hh : h.Has n v) : (reqOf h).header n = v := by
  obtain ⟨pre, post, e, hp⟩ := hh
  have : (reqOf h).headers.reverse.find? (fun x => x.name == n) = some ⟨n, v⟩ := by
    simp only [reqOf, e, List.map_append, List.map_cons, List.reverse_append, List.reverse_cons, List.append_assoc,
      List.find?_append]
    rw [List.find?_eq_none.2]
    · simp
    · intro x hx
      simp only [List.mem_reverse, List.mem_map] at hx
      obtain ⟨y, hy, rfl⟩ := hx
      simpa using hp y hy
  unfold Request.header
  rw [this]

theorem digits_eq (ds : Str) : ∀ v, (∀ d ∈ ds, Digit d) → digits v ds = ds.foldl (fun v d => v * 10 + (d.toNat - 48)) v := by
  induction ds with
  | nil => intro v _; rfl
  | cons d ds ih =>
    intro v h
    rw [digits, if_pos ((isDigit_iff d).2 (h d (by simp))), ih _ (fun d hd => h d (by simp [hd]))]
    rfl

theorem atoi_eq {ds : Str} (h : Number ds) : atoi ds = some (number ds : Nat) := by
  obtain ⟨h1, h2, h3⟩ := h
  have hd := digits_eq ds 0 h2
  cases ds with
  | nil => exact absurd rfl h1
  | cons c ds =>
    have hc := h2 c (by simp)
    have hsp : isSpace c = false := by
      have := hc.1
      simp only [isSpace, Bool.or_eq_false_iff, beq_eq_false_iff_ne, Bool.and_eq_false_iff, decide_eq_false_iff_not,
        UInt8.le_iff_toNat_le]
      refine ⟨by rintro rfl; simp at this, Or.inr ?_⟩
      show ¬ c.toNat ≤ 13
      omega
    have h45 : c ≠ 45 := digit_ne hc (by unfold Digit; decide)
    have h43 : c ≠ 43 := digit_ne hc (by unfold Digit; decide)
    unfold atoi
    rw [List.dropWhile_cons_of_neg (by simp [hsp])]
    split
    · rename_i heq; exact absurd (List.cons.inj heq).1 h45
    · rename_i heq; exact absurd (List.cons.inj heq).1 h43
    · rw [hd]
      show (if -2147483648 ≤ ((number (c :: ds) : Nat) : Int) ∧ ((number (c :: ds) : Nat) : Int) ≤ 2147483647 then _ else _) = _
      rw [if_pos (by omega)]
      rfl

theorem postLength_eq {h : Head} {v : Str} (hv : h.Has contentLength v) (hn : Number v) :
    postLength (reqOf h) = some (number v : Nat) := by
  have : (reqOf h).header [67, 111, 110, 116, 101, 110, 116, 45, 76, 101, 110, 103, 116, 104] = v := header_eq hv
  unfold postLength
  simp only [this]
  rw [if_neg hn.1, atoi_eq hn]

/-- A POST request with its body length announced; the state after the head. -/
theorem runs_post {h : Head} (ok : h.Ok) (hm : h.method = post) {v : Str} (hv : h.Has contentLength v) (hn : Number v) :
    Runs {} {} h.render ⟨if isMultipart (reqOf h) then .multipart else .postLine, (number v : Nat), 1⟩ (reqOf h) := by
  obtain ⟨s, e, hs⟩ := runs_head ok
  rw [e]
  refine hs.trans (Runs.one ?_)
  have : isPost (reqOf h) = true := by simp only [isPost, reqOf, beq_iff_eq]; exact hm
  simp [consume, this, postLength_eq hv hn]

theorem body_plain (b : Str) : ∀ {r : Request} {n k : Nat}, (∀ c ∈ b, c ≠ 13 ∧ c ≠ 10) → b ≠ [] → b.length + k = n + 1 → ∀ rest,
    ∃ p, parse ⟨.postLine, n, k⟩ r (b ++ rest) = some (.yes, b.length, p, { r with postData := r.postData ++ b }) := by
  induction b with
  | nil => intro r n k _ h; exact absurd rfl h
  | cons c b ih =>
    intro r n k h _ hl rest
    have hc := h c (by simp)
    simp only [List.cons_append, parse, consume, hc.1, hc.2, ne_eq, not_false_iff, and_self, if_true]
    simp only [List.length_cons] at hl
    by_cases hb : b = []
    · subst hb
      rw [if_neg (by simp at hl; omega)]
      exact ⟨⟨.postLine, n, k⟩, by simp⟩
    · have : 0 < b.length := List.length_pos_iff.2 hb
      rw [if_pos (by omega)]
      obtain ⟨p, e⟩ := ih (r := { r with postData := r.postData ++ [c] }) (n := n) (k := k + 1)
        (fun c hc => h c (by simp [hc])) hb (by omega) rest
      refine ⟨p, ?_⟩
      simp only
      push_cast at e
      rw [e]
      simp [Result.add, Nat.add_comm]

theorem body_multi (b : Str) : ∀ {r : Request} {n k : Nat}, b ≠ [] → b.length + k = n + 1 → ∀ rest,
    ∃ p, parse ⟨.multipart, n, k⟩ r (b ++ rest) = some (.yes, b.length, p, { r with postData := r.postData ++ b.dropLast }) := by
  induction b with
  | nil => intro r n k h; exact absurd rfl h
  | cons c b ih =>
    intro r n k _ hl rest
    simp only [List.cons_append, parse, consume]
    simp only [List.length_cons] at hl
    by_cases hb : b = []
    · subst hb
      rw [if_neg (by simp at hl; omega)]
      exact ⟨⟨.multipart, n, k⟩, by simp⟩
    · have : 0 < b.length := List.length_pos_iff.2 hb
      rw [if_pos (by omega)]
      obtain ⟨p, e⟩ := ih (r := { r with postData := r.postData ++ [c] }) (n := n) (k := k + 1) hb (by omega) rest
      refine ⟨p, ?_⟩
      simp only
      push_cast at e
      rw [e]
      simp [Result.add, Nat.add_comm, List.dropLast_cons_of_ne_nil hb]

theorem body_crlf (b : Str) : ∀ {r : Request} {n k : Nat}, (∃ c ∈ b, c = 13 ∨ c = 10) → b.length + k ≤ n + 1 → ∀ rest,
    ∃ m p r', parse ⟨.postLine, n, k⟩ r (b ++ rest) = some (.no, m, p, r') := by
  induction b with
  | nil => rintro r n k ⟨c, h, _⟩; simp at h
  | cons c b ih =>
    intro r n k h hl rest
    simp only [List.length_cons] at hl
    by_cases hc : c = 13 ∨ c = 10
    · refine ⟨1, ⟨.postLine, n, k⟩, r, ?_⟩
      simp only [List.cons_append, parse, consume]
      rw [if_neg (by rcases hc with rfl | rfl <;> simp)]
      rfl
    · have hc' : c ≠ 10 ∧ c ≠ 13 := ⟨fun e => hc (Or.inr e), fun e => hc (Or.inl e)⟩
      have hb : ∃ c ∈ b, c = 13 ∨ c = 10 := by
        obtain ⟨d, hd, e⟩ := h
        rcases List.mem_cons.1 hd with rfl | hd
        · exact absurd e hc
        · exact ⟨d, hd, e⟩
      have : 0 < b.length := by obtain ⟨d, hd, _⟩ := hb; exact List.length_pos_of_mem hd
      obtain ⟨m, p, r', e⟩ := ih (r := { r with postData := r.postData ++ [c] }) (n := n) (k := k + 1) hb (by omega) rest
      push_cast at e
      simp only [List.cons_append, parse, consume, hc', ne_eq, not_false_iff, and_self, if_true]
      rw [if_pos (by omega)]
      simp only
      rw [e]
      exact ⟨_, _, _, rfl⟩

theorem not_multipart {h : Head} {t : Str} (ht : h.Has contentType t) (hp : ¬ multipart <+: t) : isMultipart (reqOf h) = false := by
  have : (reqOf h).header [67, 111, 110, 116, 101, 110, 116, 45, 84, 121, 112, 101] = t := header_eq ht
  simp only [isMultipart, this, beq_eq_false_iff_ne]
  intro e
  exact hp (List.prefix_iff_eq_take.2 e.symm)

theorem is_multipart {h : Head} {t : Str} (ht : h.Has contentType t) (hp : multipart <+: t) : isMultipart (reqOf h) = true := by
  have : (reqOf h).header [67, 111, 110, 116, 101, 110, 116, 45, 84, 121, 112, 101] = t := header_eq ht
  simp only [isMultipart, this, beq_iff_eq]
  exact (List.prefix_iff_eq_take.1 hp).symm

/-- **C41** (other than multipart): for every well-formed POST request whose `Content-Length` says n ≥ 1, and every
body of n bytes without carriage return and line feed, the parser completes exactly after these bytes
and delivers them.  (Missing: bodies with line ends, n = 0, multipart; see the theorems below.) -/
theorem C41_plain_partial {h : Head} (ok : h.Ok) (hm : h.method = post) {v t : Str} (hv : h.Has contentLength v)
    (hn : Number v) (ht : h.Has contentType t) (hp : ¬ multipart <+: t) {body : Str} (hl : body.length = number v)
    (h1 : body ≠ []) (hb : ∀ c ∈ body, c ≠ 13 ∧ c ≠ 10) (rest : Str) :
    ∃ p r, parse {} {} (h.render ++ (body ++ rest)) = some (.yes, h.render.length + body.length, p, r) ∧
      r.postData = body ∧ r.uri = h.uri ∧ r.headers = h.headers.map (fun x => ⟨x.1, x.2⟩) := by
  have hr := runs_post ok hm hv hn
  rw [not_multipart ht hp] at hr
  rw [hr.then]
  obtain ⟨p, e⟩ := body_plain body (r := reqOf h) (n := number v) (k := 1) hb h1 (by omega) rest
  refine ⟨p, { reqOf h with postData := body }, ?_, rfl, rfl, rfl⟩
  push_cast at e
  simp only [Bool.false_eq_true, if_false]
  rw [e]
  simp [Result.add, reqOf]

/-- **C41** (multipart): any bytes are allowed in the body, and the parser completes exactly after n
bytes; but what it delivers lacks the last byte. -/
theorem C41_multipart_partial {h : Head} (ok : h.Ok) (hm : h.method = post) {v t : Str} (hv : h.Has contentLength v)
    (hn : Number v) (ht : h.Has contentType t) (hp : multipart <+: t) {body : Str} (hl : body.length = number v)
    (h1 : body ≠ []) (rest : Str) :
    ∃ p r, parse {} {} (h.render ++ (body ++ rest)) = some (.yes, h.render.length + body.length, p, r) ∧
      r.postData = body.dropLast ∧ r.uri = h.uri ∧ r.headers = h.headers.map (fun x => ⟨x.1, x.2⟩) := by
  have hr := runs_post ok hm hv hn
  rw [is_multipart ht hp] at hr
  rw [hr.then]
  obtain ⟨p, e⟩ := body_multi body (r := reqOf h) (n := number v) (k := 1) h1 (by omega) rest
  refine ⟨p, { reqOf h with postData := body.dropLast }, ?_, rfl, rfl, rfl⟩
  push_cast at e
  simp only [if_true]
  rw [e]
  simp [Result.add, reqOf]

/-- The delivered multipart body is never the one that was sent. -/
theorem C41_multipart_false {h : Head} (ok : h.Ok) (hm : h.method = post) {v t : Str} (hv : h.Has contentLength v)
    (hn : Number v) (ht : h.Has contentType t) (hp : multipart <+: t) {body : Str} (hl : body.length = number v)
    (h1 : body ≠ []) (rest : Str) :
    ∀ p r k, parse {} {} (h.render ++ (body ++ rest)) = some (.yes, k, p, r) → r.postData ≠ body := by
  obtain ⟨p, r, e, hd, _⟩ := C41_multipart_partial ok hm hv hn ht hp hl h1 rest
  intro p' r' k' e'
  rw [e] at e'
  simp only [Option.some.injEq, Prod.mk.injEq] at e'
  rw [← e'.2.2.2, hd]
  intro e2
  have := congrArg List.length e2
  have := List.length_pos_iff.2 h1
  rw [List.length_dropLast] at *
  omega

/-- A body (not multipart) with a carriage return or line feed is refused. -/
theorem C41_lines_false {h : Head} (ok : h.Ok) (hm : h.method = post) {v t : Str} (hv : h.Has contentLength v)
    (hn : Number v) (ht : h.Has contentType t) (hp : ¬ multipart <+: t) {body : Str} (hl : body.length = number v)
    (hb : ∃ c ∈ body, c = 13 ∨ c = 10) (rest : Str) :
    ∃ k p r, parse {} {} (h.render ++ (body ++ rest)) = some (.no, k, p, r) := by
  have hr := runs_post ok hm hv hn
  rw [not_multipart ht hp] at hr
  rw [hr.then]
  obtain ⟨m, p, r, e⟩ := body_crlf body (r := reqOf h) (n := number v) (k := 1) hb (by omega) rest
  push_cast at e
  simp only [Bool.false_eq_true, if_false]
  rw [e]
  exact ⟨_, _, _, rfl⟩

/-- A POST that announces an empty body is not complete at its end: the parser waits for one byte more. -/
theorem C41_empty_false {h : Head} (ok : h.Ok) (hm : h.method = post) {v : Str} (hv : h.Has contentLength v) (hn : Number v)
    (h0 : number v = 0) : ∃ p r, parse {} {} h.render = some (.more, h.render.length, p, r) :=
  ⟨_, _, runs_post ok hm hv hn⟩

/-- `POST /p HTTP/1.1`, `Content-Length: 03`, `Content-Type: text/plain`; body `a+b`. -/
example : let h : Head := ⟨post, [47, 112], [49], [49], [(contentLength, [57]), (contentLength, [48, 51]),
      (contentType, [116, 101, 120, 116, 47, 112, 108, 97, 105, 110])]⟩
    h.Ok ∧ h.Has contentLength [48, 51] ∧ Number [48, 51] ∧ h.Has contentType [116, 101, 120, 116, 47, 112, 108, 97, 105, 110] ∧
    ¬ multipart <+: [116, 101, 120, 116, 47, 112, 108, 97, 105, 110] ∧ ([97, 43, 98] : Str).length = number [48, 51] ∧
    ∀ c ∈ ([97, 43, 98] : Str), c ≠ 13 ∧ c ≠ 10 := by
  refine ⟨⟨?_, ?_, ?_, ?_, ?_, ?_, ?_⟩, ⟨[(contentLength, [57])], _, rfl, by decide +kernel⟩, ?_,
    ⟨[(contentLength, [57]), (contentLength, [48, 51])], _, rfl, by simp⟩, ?_, ?_, ?_⟩ <;>
    (try simp only [TokenChar, Ctl, Number, Digit]) <;> decide +kernel

/-- `multipart/form-data` is a multipart type. -/
example : multipart <+: ([109, 117, 108, 116, 105, 112, 97, 114, 116, 47, 102, 111, 114, 109] : Str) := by decide

/-! ### Undefined behaviour -/

/-- A version number with too many digits overflows an `int`. -/
theorem C46_overflow_false : parse {} {} ([71, 69, 84, 32, 47, 32, 72, 84, 84, 80, 47] ++ List.replicate 10 57) = none := by
  decide +kernel

end Verif.Server
