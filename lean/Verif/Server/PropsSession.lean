import Verif.Server.Site
import Verif.Server.MultipartLemmas
import Verif.Server.PropsHandler
import Verif.Server.PropsPage

/-!
C51: sessions.
-/
set_option linter.unusedVariables false
set_option linter.unusedSimpArgs false

namespace Verif.Server.Site
open Mpfd (find find_some_iff find_none_iff)

/-! ### Cookies -/

/-- **C51**: the id of a session, sent back as it was given out, alone or among other cookies, is recognised. -/
theorem C51_cookie {pre id : Str} (hl : id.length = 25) (hp : ¬ ascii "PSISESSIONID" <:+: pre) (post : Str) :
    sessionId (pre ++ cookieValue id ++ post) = some id := by
  have e : find cookieIdentifier (pre ++ cookieValue id ++ post) = some pre.length := by
    have := find_unbordered (pat := cookieIdentifier) (by decide) (by decide) hp ([61] ++ id ++ post)
    rw [← this]; congr 1
    simp [cookieValue]
  have hc : cookieIdentifier.length = 12 := by decide
  rw [sessionId, e]
  simp only [hc]
  rw [if_pos (by simp [cookieValue, hc]; omega)]
  have : (pre ++ cookieValue id ++ post).drop (pre.length + 12 + 1) = id ++ post := by
    have h1 : (pre ++ cookieIdentifier ++ [61]).length = pre.length + 12 + 1 := by simp [hc]
    rw [← h1, show pre ++ cookieValue id ++ post = (pre ++ cookieIdentifier ++ [61]) ++ (id ++ post) by simp [cookieValue]]
    simp
  rw [this, ← hl]
  simp

example : sessionId (ascii "lang=pl; PSISESSIONID=130214-0001-abcdefghijklm; x=y") = some (ascii "130214-0001-abcdefghijklm") :=
  C51_cookie (pre := ascii "lang=pl; ") (id := ascii "130214-0001-abcdefghijklm") (by decide) (by decide) (ascii "; x=y")

/-- **C51**: without the cookie there is no id. -/
theorem C51_no_cookie {c : Str} (h : ¬ ascii "PSISESSIONID" <:+: c) : sessionId c = some [] := by
  rw [sessionId, find_absent (pat := cookieIdentifier) (by decide) h]

example : sessionId (ascii "lang=pl") = some [] := C51_no_cookie (by decide)

/-- **C51** (disagreement): a request whose cookies end with the bare word `PSISESSIONID` — and no other request — makes
`substr` throw, and nobody catches the exception: the server stops. -/
theorem C51_crash_false (c : Str) : sessionId c = none ↔
    ∃ pre, c = pre ++ ascii "PSISESSIONID" ∧ ¬ ascii "PSISESSIONID" <:+: pre := by
  have hc : cookieIdentifier.length = 12 := by decide
  constructor
  · intro h
    unfold sessionId at h
    cases e : find cookieIdentifier c with
    | none => simp [e] at h
    | some n =>
      simp only [e] at h
      split at h
      · cases h
      · rename_i hn
        obtain ⟨⟨w, hw⟩, h2⟩ := (find_some_iff (by decide) _ _).1 e
        have hb := find_bound _ e
        have hw' : w = [] := by
          have := congrArg List.length hw
          simp [hc] at this
          apply List.eq_nil_of_length_eq_zero
          omega
        subst hw'
        rw [List.append_nil] at hw
        refine ⟨c.take n, ?_, ?_⟩
        · rw [show ascii "PSISESSIONID" = c.drop n from hw, List.take_append_drop]
        · intro hi
          obtain ⟨m, hm⟩ := (infix_iff_drop (pat := ascii "PSISESSIONID") (by decide)).1 hi
          have hlen := hm.length_le
          have h12 : (ascii "PSISESSIONID").length = 12 := by decide
          rw [h12, List.length_drop, List.length_take] at hlen
          refine h2 m (by omega) ?_
          rw [List.drop_take] at hm
          exact hm.trans (List.take_prefix _ _)
  · rintro ⟨pre, rfl, hp⟩
    have e : find cookieIdentifier (pre ++ cookieIdentifier) = some pre.length := by
      have := find_unbordered (pat := cookieIdentifier) (by decide) (by decide) hp []
      rwa [List.append_nil] at this
    rw [sessionId, show pre ++ ascii "PSISESSIONID" = pre ++ cookieIdentifier from rfl, e]
    simp only [hc]
    rw [if_neg (by simp [hc])]

/-! ### Ids -/

theorem number_zeros (k : Nat) (s : Str) : Spec.number (List.replicate k 48 ++ s) = Spec.number s := by
  unfold Spec.number
  rw [List.foldl_append]
  congr 1
  induction k with
  | zero => rfl
  | succ k ih => rw [List.replicate_succ, List.foldl_cons]; exact ih

theorem decimal_length {n : Nat} (h : n < 10000) : (decimal n).length ≤ 4 := by
  rw [decimal]; split
  · simp
  · rw [decimal]; split
    · simp
    · rw [decimal]; split
      · simp
      · rw [decimal]; split
        · simp
        · omega

theorem pad_length (n : Nat) : (pad n).length = 4 := by
  unfold pad
  simp only
  split
  · simp; omega
  · simp; omega

theorem pad_number {n : Nat} (h : n < 10000) : Spec.number (pad n) = n := by
  unfold pad
  simp only
  rw [if_neg (by have := decimal_length h; omega), number_zeros]
  exact (number_decimal n).1

/-- **C51**: ids with different numbers are different, as long as no more than 9999 have been given out. -/
theorem C51_ids {e e' : Env} {m n : Nat} (hd : e.date.length = 6) (hd' : e'.date.length = 6) (hm : m < 10000)
    (hn : n < 10000) (h : guid e m = guid e' n) : m = n := by
  unfold guid at h
  simp only [List.append_assoc] at h
  obtain ⟨_, h1⟩ := List.append_inj h (by omega)
  obtain ⟨_, h2⟩ := List.append_inj h1 (by simp)
  obtain ⟨h3, _⟩ := List.append_inj h2 (by rw [pad_length, pad_length])
  rw [← pad_number hm, ← pad_number hn, h3]

example : guid ⟨ascii "130214", ascii "abcdefghijklm"⟩ 1 = ascii "130214-0001-abcdefghijklm" := by decide +kernel

theorem guid_length {e : Env} (hd : e.date.length = 6) (hr : e.random.length = 13) (n : Nat) : (guid e n).length = 25 := by
  simp [guid, pad_length, hd, hr]

/-! ### Runs -/

/-- What the id generator gets from outside has the right size. -/
def Env.Ok (e : Env) : Prop := e.date.length = 6 ∧ e.random.length = 13

/-- Every session has an id that was given out. -/
def Inv (st : State) : Prop := ∀ id d, st.sessions id = some d → ∃ e k, Env.Ok e ∧ 0 < k ∧ k ≤ st.counter ∧ id = guid e k

theorem open_known {st : State} {e : Env} {id : Str} {d : Data} (h : st.sessions id = some d) :
    openSession st e id = (id, true, st) := by
  simp [openSession, h]

theorem open_new {st : State} {e : Env} {id : Str} (h : st.sessions id = none) :
    openSession st e id = (guid e (st.counter + 1), false,
      { sessions := fun x => if x = guid e (st.counter + 1) then some ((st.sessions (guid e (st.counter + 1))).getD (fun _ => []))
          else st.sessions x,
        counter := st.counter + 1 }) := by
  simp [openSession, h]

theorem new_fresh {st : State} (hi : Inv st) (hc : st.counter + 1 < 10000) {e : Env} (he : e.Ok) :
    st.sessions (guid e (st.counter + 1)) = none := by
  cases h : st.sessions (guid e (st.counter + 1)) with
  | none => rfl
  | some d =>
    obtain ⟨e', k, he', hk, hk', eq⟩ := hi _ _ h
    have := C51_ids he.1 he'.1 hc (by omega) eq
    omega

/-- The request in words of the model. -/
theorem handle_cases {fs : Functions} {root : Str} {files : Str → Option Str} {st st' : State} {e : Env} {r : Request}
    {rep : Reply} (h : handleRequest fs root files st e r = some (st', rep)) :
    ∃ id, sessionId (r.header (ascii "Cookie")) = some id ∧
      ((∃ d d', st.sessions id = some d ∧ answer fs root files d r = some (d', rep) ∧
          st' = { st with sessions := fun x => if x = id then some d' else st.sessions x }) ∨
       (∃ d' rep', st.sessions id = none ∧
          answer fs root files ((st.sessions (guid e (st.counter + 1))).getD (fun _ => [])) r = some (d', rep') ∧
          rep = { rep' with headers := rep'.headers ++ [⟨ascii "Set-Cookie", cookieValue (guid e (st.counter + 1))⟩] } ∧
          st' = { sessions := fun x => if x = guid e (st.counter + 1) then some d' else st.sessions x,
                  counter := st.counter + 1 })) := by
  unfold handleRequest at h
  cases e1 : sessionId (r.header (ascii "Cookie")) with
  | none => simp [e1] at h
  | some id =>
    refine ⟨id, rfl, ?_⟩
    simp only [e1] at h
    cases e2 : st.sessions id with
    | some d =>
      left
      rw [open_known e2] at h
      simp only [e2, Option.getD_some] at h
      cases e3 : answer fs root files d r with
      | none => simp [e3] at h
      | some x =>
        obtain ⟨d', rep'⟩ := x
        simp only [e3, Option.some.injEq, Prod.mk.injEq, if_true] at h
        obtain ⟨rfl, rfl⟩ := h
        exact ⟨d, d', rfl, e3, rfl⟩
    | none =>
      right
      rw [open_new e2] at h
      simp only [if_true, Option.getD_some] at h
      cases e3 : answer fs root files ((st.sessions (guid e (st.counter + 1))).getD (fun _ => [])) r with
      | none => simp [e3] at h
      | some x =>
        obtain ⟨d', rep'⟩ := x
        simp only [e3, Option.some.injEq, Prod.mk.injEq, Bool.false_eq_true, if_false] at h
        obtain ⟨rfl, rfl⟩ := h
        refine ⟨d', rep', rfl, rfl, rfl, ?_⟩
        congr 1
        funext x
        by_cases hx : x = guid e (st.counter + 1) <;> simp [hx]

theorem handle_inv {fs : Functions} {root : Str} {files : Str → Option Str} {st st' : State} {e : Env} {r : Request}
    {rep : Reply} (hi : Inv st) (he : e.Ok) (h : handleRequest fs root files st e r = some (st', rep)) :
    Inv st' ∧ st'.counter ≤ st.counter + 1 := by
  obtain ⟨id, h1, ⟨d, d', h2, h3, rfl⟩ | ⟨d', rep', h2, h3, h4, rfl⟩⟩ := handle_cases h
  · refine ⟨?_, by simp⟩
    intro x y hxy
    simp only at hxy
    split at hxy
    · rename_i hx; subst hx; exact hi _ _ h2
    · exact hi _ _ hxy
  · refine ⟨?_, by simp⟩
    intro x y hxy
    simp only at hxy
    split at hxy
    · rename_i hx; exact ⟨e, st.counter + 1, he, by omega, by simp, hx⟩
    · obtain ⟨e', k, h5, h6, h7, h8⟩ := hi _ _ hxy
      exact ⟨e', k, h5, h6, by simp only; omega, h8⟩

theorem run_inv {fs : Functions} {root : Str} {files : Str → Option Str} : ∀ (l : List (Env × Request)) {st st' : State}
    {reps : List Reply}, Inv st → (∀ x ∈ l, x.1.Ok) → run fs root files st l = some (st', reps) →
    Inv st' ∧ st'.counter ≤ st.counter + l.length := by
  intro l
  induction l with
  | nil => intro st st' reps hi _ h; simp only [run, Option.some.injEq, Prod.mk.injEq] at h; obtain ⟨rfl, _⟩ := h; exact ⟨hi, by simp⟩
  | cons x l ih =>
    intro st st' reps hi hok h
    obtain ⟨e, r⟩ := x
    simp only [run] at h
    cases e1 : handleRequest fs root files st e r with
    | none => simp [e1] at h
    | some y =>
      obtain ⟨st1, rep⟩ := y
      simp only [e1] at h
      cases e2 : run fs root files st1 l with
      | none => simp [e2] at h
      | some z =>
        obtain ⟨st2, reps2⟩ := z
        simp only [e2, Option.map_some, Option.some.injEq, Prod.mk.injEq] at h
        obtain ⟨rfl, _⟩ := h
        obtain ⟨h1, h2⟩ := handle_inv hi (hok (e, r) (by simp)) e1
        obtain ⟨h3, h4⟩ := ih h1 (fun x hx => hok x (by simp [hx])) e2
        exact ⟨h3, by simp; omega⟩

/-- The request is for session `id` (the id cut out of its cookies). -/
def isFor (id : Str) (x : Env × Request) : Bool := sessionId (x.2.header (ascii "Cookie")) == some id

theorem isolated {fs : Functions} {root : Str} {files : Str → Option Str} {id : Str} : ∀ (l : List (Env × Request))
    {st st1 st' : State} {reps : List Reply} {d : Data}, Inv st → (∀ x ∈ l, x.1.Ok) → st.counter + l.length < 10000 →
    st.sessions id = some d → st1.sessions id = some d → run fs root files st l = some (st', reps) →
    ∃ st2, run fs root files st1 (l.filter (isFor id)) =
        some (st2, ((l.zip reps).filter (fun x => isFor id x.1)).map Prod.snd) ∧
      st2.sessions id = st'.sessions id := by
  intro l
  induction l with
  | nil =>
    intro st st1 st' reps d _ _ _ h1 h2 h
    simp only [run, Option.some.injEq, Prod.mk.injEq] at h
    obtain ⟨rfl, rfl⟩ := h
    exact ⟨st1, rfl, by rw [h1, h2]⟩
  | cons x l ih =>
    intro st st1 st' reps d hi hok hc h1 h2 h
    obtain ⟨e, r⟩ := x
    simp only [run] at h
    cases e1 : handleRequest fs root files st e r with
    | none => simp [e1] at h
    | some y =>
      obtain ⟨stn, rep⟩ := y
      simp only [e1] at h
      cases e2 : run fs root files stn l with
      | none => simp [e2] at h
      | some z =>
        obtain ⟨st2, reps2⟩ := z
        simp only [e2, Option.map_some, Option.some.injEq, Prod.mk.injEq] at h
        obtain ⟨rfl, rfl⟩ := h
        have hok1 := hok (e, r) (by simp)
        have hok2 : ∀ x ∈ l, x.1.Ok := fun x hx => hok x (by simp [hx])
        obtain ⟨hin, hcn⟩ := handle_inv hi hok1 e1
        simp only [List.length_cons] at hc
        obtain ⟨id', hid, ⟨a, a', h3, h4, rfl⟩ | ⟨a', rep', h3, h4, h5, rfl⟩⟩ := handle_cases e1
        · by_cases hx : id' = id
          · subst hx
            rw [h1] at h3; cases h3
            have hf : isFor id' (e, r) = true := by simp [isFor, hid]
            have hstep : handleRequest fs root files st1 e r =
                some ({ st1 with sessions := fun x => if x = id' then some a' else st1.sessions x }, rep) := by
              unfold handleRequest
              rw [hid]
              simp only
              rw [open_known h2]
              simp [h2, h4]
            obtain ⟨st3, h6, h7⟩ := ih (st1 := { st1 with sessions := fun x => if x = id' then some a' else st1.sessions x })
              (d := a') hin hok2 (by simp only; omega) (by simp) (by simp) e2
            refine ⟨st3, ?_, h7⟩
            rw [List.filter_cons_of_pos hf, run, hstep]
            simp only [h6, Option.map_some, List.zip_cons_cons]
            rw [List.filter_cons_of_pos (by simpa using hf)]
            rfl
          · have hf : ¬ isFor id (e, r) = true := by simp [isFor, hid, hx]
            obtain ⟨st3, h6, h7⟩ := ih (st1 := st1) (d := d) hin hok2 (by simp only; omega)
              (by simp [Ne.symm hx, h1]) h2 e2
            refine ⟨st3, ?_, h7⟩
            rw [List.filter_cons_of_neg hf, h6, List.zip_cons_cons, List.filter_cons_of_neg (by simpa using hf)]
        · have hx : id' ≠ id := by rintro rfl; rw [h1] at h3; cases h3
          have hf : ¬ isFor id (e, r) = true := by simp [isFor, hid, hx]
          have hne : id ≠ guid e (st.counter + 1) := by
            intro heq
            have := new_fresh hi (by omega) hok1
            rw [← heq, h1] at this
            cases this
          obtain ⟨st3, h6, h7⟩ := ih (st1 := st1) (d := d) hin hok2 (by simp only; omega)
            (by simp [hne, h1]) h2 e2
          refine ⟨st3, ?_, h7⟩
          rw [List.filter_cons_of_neg hf, h6, List.zip_cons_cons, List.filter_cons_of_neg (by simpa using hf)]

/-- **C51**: sessions do not see each other.  From the start of the server, let `before` be the first requests, after
which there is a session `id`, and `l` the requests that follow.  The answers to those of `l` that are for the session,
and the data of the session at the end, are the same as if the others of `l` had not come.  (At most 9999 requests; one
request at a time.) -/
theorem C51_isolated {fs : Functions} {root : Str} {files : Str → Option Str} {before l : List (Env × Request)}
    {st st' : State} {reps0 reps : List Reply} {id : Str} {d : Data} (hok : ∀ x ∈ before ++ l, x.1.Ok)
    (hn : before.length + l.length < 10000) (h0 : run fs root files {} before = some (st, reps0))
    (hd : st.sessions id = some d) (h : run fs root files st l = some (st', reps)) :
    ∃ st2, run fs root files st (l.filter (isFor id)) =
        some (st2, ((l.zip reps).filter (fun x => isFor id x.1)).map Prod.snd) ∧
      st2.sessions id = st'.sessions id := by
  obtain ⟨hi, hc⟩ := run_inv before (st := {}) (by intro id d h; simp at h) (fun x hx => hok x (by simp [hx])) h0
  exact isolated l hi (fun x hx => hok x (by simp [hx])) (by simp only [Nat.zero_add] at hc; omega) hd hd h

/-- **C51**: a request without a known session gets a new one, with an id that is not in use, no data, and a cookie; an
id the client made up is not taken over; sent back, the cookie leads to the data the request has left. -/
theorem C51_new {fs : Functions} {root : Str} {files : Str → Option Str} {before : List (Env × Request)} {st st' : State}
    {reps0 : List Reply} {e : Env} {r : Request} {rep : Reply} {id : Str} (hok : ∀ x ∈ before, x.1.Ok) (he : e.Ok)
    (hn : before.length + 1 < 10000) (h0 : run fs root files {} before = some (st, reps0))
    (hid : sessionId (r.header (ascii "Cookie")) = some id) (hs : st.sessions id = none)
    (h : handleRequest fs root files st e r = some (st', rep)) :
    ∃ new d rep', st.sessions new = none ∧ answer fs root files (fun _ => []) r = some (d, rep') ∧
      rep.headers = rep'.headers ++ [⟨ascii "Set-Cookie", cookieValue new⟩] ∧ rep.content = rep'.content ∧
      st'.sessions new = some d ∧ (∀ x, x ≠ new → st'.sessions x = st.sessions x) ∧
      ∀ (r2 : Request) pre post, r2.header (ascii "Cookie") = pre ++ cookieValue new ++ post →
        ¬ ascii "PSISESSIONID" <:+: pre → isFor new (e, r2) = true := by
  obtain ⟨hi, hc⟩ := run_inv before (st := {}) (by intro id d h; simp at h) hok h0
  have hf := new_fresh hi (by simp only [Nat.zero_add] at hc; omega) he
  obtain ⟨id', hid', ⟨a, a', h3, h4, rfl⟩ | ⟨a', rep', h3, h4, rfl, rfl⟩⟩ := handle_cases h
  · rw [hid] at hid'; cases hid'; rw [hs] at h3; cases h3
  · rw [hf] at h4
    refine ⟨guid e (st.counter + 1), a', rep', hf, h4, rfl, rfl, by simp, ?_, ?_⟩
    · intro x hx; simp [hx]
    · intro r2 pre post h5 h6
      simp only [isFor, h5]
      rw [C51_cookie (guid_length he.1 he.2 _) h6]
      simp

/-- **C51**: a request for a known session is answered from its data, gets no new cookie, and leaves other sessions as
they are. -/
theorem C51_known {fs : Functions} {root : Str} {files : Str → Option Str} {st st' : State} {e : Env} {r : Request}
    {rep : Reply} {id : Str} {d : Data} (hid : sessionId (r.header (ascii "Cookie")) = some id)
    (hs : st.sessions id = some d) (h : handleRequest fs root files st e r = some (st', rep)) :
    ∃ d', answer fs root files d r = some (d', rep) ∧ st'.sessions id = some d' ∧
      ∀ x, x ≠ id → st'.sessions x = st.sessions x := by
  obtain ⟨id', hid', ⟨a, a', h3, h4, rfl⟩ | ⟨a', rep', h3, h4, h5, rfl⟩⟩ := handle_cases h
  · rw [hid] at hid'; cases hid'; rw [hs] at h3; cases h3
    exact ⟨a', h4, by simp, fun x hx => by simp [hx]⟩
  · rw [hid] at hid'; cases hid'; rw [hs] at h3; cases h3

/-- An action that keeps the field `user`, and a generator that shows it. -/
def demo : Functions where
  includes := fun c => if c = ascii "user" then some (fun d => (d, d (ascii "user"))) else none
  actions := fun c => if c = ascii "in" then some (fun d => (d, ascii "/a.html")) else none

/-- A server with one page. -/
def demoFiles : Str → Option Str := fun f => if f = ascii "/w/a.html" then some (ascii "<!--#psis user -->!") else none

/-- A request with cookies. -/
def get (uri cookie : String) : Env × Request :=
  (⟨ascii "130214", ascii "abcdefghijklm"⟩, { method := ascii "GET", uri := ascii uri, headers := [⟨ascii "Cookie", ascii cookie⟩] })

/-- Two users, one after the other, then the first again; the contents of the answers. -/
example : ((run demo (ascii "/w") demoFiles {} [get "/in.psis?user=Ann" "", get "/in.psis?user=Bob" "a=b",
    get "/a.html" "PSISESSIONID=130214-0001-abcdefghijklm", get "/a.html" "PSISESSIONID=130214-0002-abcdefghijklm"]).map
      (fun x => x.2.map (·.content))) = some [ascii "Ann!", ascii "Bob!", ascii "Ann!", ascii "Bob!"] := by
  decide +kernel

example : ∀ x ∈ [get "/in.psis?user=Ann" "", get "/in.psis?user=Bob" "a=b"], x.1.Ok := by
  unfold Env.Ok; decide

/-- **C51** (disagreement): the 10000th id after a given one has the same number; if the random part is the same too, a
new client gets the session of another. -/
theorem C51_reuse_false : ∃ (st : State) (e : Env) (d : Data), e.Ok ∧ Inv st ∧ st.counter = 10000 ∧
    openSession st e [] = (guid e 1, false, { st with counter := 10001 }) ∧ st.sessions (guid e 1) = some d ∧
    d (ascii "user") = ascii "Ann" := by
  let e : Env := ⟨ascii "130214", ascii "abcdefghijklm"⟩
  let d : Data := fun _ => ascii "Ann"
  let st : State := { sessions := fun x => if x = guid e 1 then some d else none, counter := 10000 }
  have hg : guid e 10001 = guid e 1 := by decide +kernel
  have h0 : st.sessions [] = none := by
    have : ([] : Str) ≠ guid e 1 := by decide +kernel
    simp [st, this]
  refine ⟨st, e, d, by unfold Env.Ok; decide, ?_, rfl, ?_, by simp [st], rfl⟩
  · intro id x h
    simp only [st] at h
    split at h
    · rename_i hx; exact ⟨e, 1, by unfold Env.Ok; decide, by decide, by simp [st], hx⟩
    · cases h
  · rw [open_new h0]
    have : guid e (st.counter + 1) = guid e 1 := hg
    rw [this]
    refine Prod.ext rfl (Prod.ext rfl ?_)
    simp only [st]
    congr 1
    funext x
    by_cases hx : x = guid e 1 <;> simp [hx]

end Verif.Server.Site
