import Verif.Server.Props
import Verif.Server.Handler

/-!
C46: what is accepted is a request.
-/
set_option linter.unusedSimpArgs false
set_option linter.unusedVariables false
namespace Verif.Server
open Spec

/-- The parts sent so far. -/
structure Parts where
  method : Str
  uri : Str
  major : Str
  minor : Str
  fields : List Field

def Parts.Ok (x : Parts) : Prop := StartOk x.method x.uri x.major x.minor ∧ ∀ f ∈ x.fields, f.Ok

/-- The text of the parts, without the empty line at the end. -/
def Parts.text (x : Parts) : Str := startLine x.method x.uri x.major x.minor ++ x.fields.flatMap Field.render

/-- The request that was read. -/
def Parts.req (x : Parts) : Request :=
  { method := x.method, uri := x.uri, major := number x.major, minor := number x.minor,
    headers := x.fields.map (fun f => ⟨f.name, f.text⟩), postData := [] }

/-- A method and a uri. -/
def Begun (m w : Str) : Prop := m ≠ [] ∧ (∀ c ∈ m, TokenChar c) ∧ ∀ c ∈ w, ¬ Ctl c ∧ c ≠ 32

/-- The method, the uri and `s` after them. -/
def begin_ (m w s : Str) : Str := m ++ [32] ++ w ++ [32] ++ s

/-- What has been read in each state. -/
def Inv (u : Str) (p : Parser) (r : Request) : Prop :=
  match p.st with
  | .methodStart => u = [] ∧ r = {}
  | .method => ∃ m, m ≠ [] ∧ (∀ c ∈ m, TokenChar c) ∧ u = m ∧ r = { method := m }
  | .uriStart => False
  | .uri => ∃ m w, Begun m w ∧ u = m ++ [32] ++ w ∧ r = { method := m, uri := w }
  | .versionH => ∃ m w, Begun m w ∧ u = begin_ m w [] ∧ r = { method := m, uri := w }
  | .versionT1 => ∃ m w, Begun m w ∧ u = begin_ m w [72] ∧ r = { method := m, uri := w }
  | .versionT2 => ∃ m w, Begun m w ∧ u = begin_ m w [72, 84] ∧ r = { method := m, uri := w }
  | .versionP => ∃ m w, Begun m w ∧ u = begin_ m w [72, 84, 84] ∧ r = { method := m, uri := w }
  | .versionSlash => ∃ m w, Begun m w ∧ u = begin_ m w [72, 84, 84, 80] ∧ r = { method := m, uri := w }
  | .majorStart => ∃ m w, Begun m w ∧ u = begin_ m w [72, 84, 84, 80, 47] ∧ r = { method := m, uri := w }
  | .major => ∃ m w a, Begun m w ∧ (a ≠ [] ∧ ∀ d ∈ a, Digit d) ∧ u = begin_ m w ([72, 84, 84, 80, 47] ++ a) ∧
      r = { method := m, uri := w, major := number a }
  | .minorStart => ∃ m w a, Begun m w ∧ (a ≠ [] ∧ ∀ d ∈ a, Digit d) ∧ u = begin_ m w ([72, 84, 84, 80, 47] ++ a ++ [46]) ∧
      r = { method := m, uri := w, major := number a }
  | .minor => ∃ m w a b, StartOk m w a b ∧ u = begin_ m w ([72, 84, 84, 80, 47] ++ a ++ [46] ++ b) ∧
      r = { method := m, uri := w, major := number a, minor := number b }
  | .newline1 => ∃ m w a b, StartOk m w a b ∧ u = begin_ m w ([72, 84, 84, 80, 47] ++ a ++ [46] ++ b ++ [13]) ∧
      r = { method := m, uri := w, major := number a, minor := number b }
  | .lineStart => ∃ x : Parts, x.Ok ∧ u = x.text ∧ r = x.req
  | .newline3 => ∃ x : Parts, x.Ok ∧ u = x.text ++ [13] ∧ r = x.req
  | .name => ∃ (x : Parts) (n : Str), x.Ok ∧ n ≠ [] ∧ (∀ c ∈ n, TokenChar c) ∧ u = x.text ++ n ∧
      r = { x.req with headers := x.req.headers ++ [⟨n, []⟩] }
  | .spaceBefore => ∃ (x : Parts) (n : Str), x.Ok ∧ n ≠ [] ∧ (∀ c ∈ n, TokenChar c) ∧ u = x.text ++ n ++ [58] ∧
      r = { x.req with headers := x.req.headers ++ [⟨n, []⟩] }
  | .value => ∃ (x : Parts) (f : Field), x.Ok ∧ f.Ok ∧ (∀ y ∈ f.folds.getLast?, y.2 ≠ []) ∧ u ++ crlf = x.text ++ f.render ∧
      r = { x.req with headers := x.req.headers ++ [⟨f.name, f.text⟩] }
  | .newline2 => ∃ (x : Parts) (f : Field), x.Ok ∧ f.Ok ∧ u ++ [10] = x.text ++ f.render ∧
      r = { x.req with headers := x.req.headers ++ [⟨f.name, f.text⟩] }
  | .lws => ∃ (x : Parts) (f : Field) (s : Str), x.Ok ∧ f.Ok ∧ s ≠ [] ∧ (∀ c ∈ s, c = 32 ∨ c = 9) ∧
      u = x.text ++ f.render ++ s ∧ r = { x.req with headers := x.req.headers ++ [⟨f.name, f.text⟩] }
  | .postLine => ∃ (x : Parts) (d : Str), x.Ok ∧ x.method = post ∧ isMultipart x.req = false ∧ u = x.text ++ crlf ++ d ∧
      (∀ c ∈ d, c ≠ 10 ∧ c ≠ 13) ∧ postLength x.req = some p.len ∧ p.cnt = d.length + 1 ∧
      (d = [] ∨ (d.length : Int) + 1 ≤ p.len) ∧ r = { x.req with postData := d }
  | .multipart => ∃ (x : Parts) (d : Str), x.Ok ∧ x.method = post ∧ isMultipart x.req = true ∧ u = x.text ++ crlf ++ d ∧
      postLength x.req = some p.len ∧ p.cnt = d.length + 1 ∧
      (d = [] ∨ (d.length : Int) + 1 ≤ p.len) ∧ r = { x.req with postData := d }

/-- What has been read when a request is accepted. -/
def Accepted (u : Str) (r : Request) : Prop :=
  ∃ (x : Parts) (body : Str), x.Ok ∧ u = x.text ++ crlf ++ body ∧
    ((x.method ≠ post ∧ body = [] ∧ r = x.req) ∨
     (x.method = post ∧ ∃ L, postLength x.req = some L ∧ (body.length : Int) = max L 1 ∧
       ((isMultipart x.req = false ∧ (∀ c ∈ body, c ≠ 10 ∧ c ≠ 13) ∧ r = { x.req with postData := body }) ∨
        (isMultipart x.req = true ∧ r = { x.req with postData := body.dropLast }))))

/-- What one step does. -/
def Step (u : Str) (c : Byte) (o : Option (Verdict × Parser × Request)) : Prop :=
  ∀ v p r, o = some (v, p, r) → (v = .more → Inv (u ++ [c]) p r) ∧ (v = .yes → Accepted (u ++ [c]) r)

theorem step_go {u c p s r} (h : Inv (u ++ [c]) { p with st := s } r) : Step u c (go p s r) := by
  intro v p' r' e
  simp only [go, Option.some.injEq, Prod.mk.injEq] at e
  obtain ⟨rfl, rfl, rfl⟩ := e
  exact ⟨fun _ => h, fun e => by cases e⟩

theorem step_reject {u c p r} : Step u c (reject p r) := by
  intro v p' r' e
  simp only [reject, Option.some.injEq, Prod.mk.injEq] at e
  obtain ⟨rfl, rfl, rfl⟩ := e
  exact ⟨fun e => (by cases e), fun e => by cases e⟩

theorem addDigit_eq {ds : Str} {c : Byte} {v : Int} (hc : Digit c) (h : addDigit (number ds) c = some v) :
    v = number (ds ++ [c]) := by
  simp only [addDigit] at h
  split at h
  · cases h
    rw [number_snoc]
    unfold Digit at hc
    omega
  · cases h

theorem mem_snoc {α : Type} {P : α → Prop} {l : List α} {a : α} (h : ∀ c ∈ l, P c) (ha : P a) : ∀ c ∈ l ++ [a], P c := by
  intro c hc
  simp only [List.mem_append, List.mem_singleton] at hc
  rcases hc with hc | rfl
  · exact h c hc
  · exact ha

theorem pushValue_last {x : Parts} {n v : Str} {c : Byte} :
    pushValue { x.req with headers := x.req.headers ++ [⟨n, v⟩] } c =
      some { x.req with headers := x.req.headers ++ [⟨n, v ++ [c]⟩] } := by
  simp [pushValue]

theorem pushName_last {x : Parts} {n v : Str} {c : Byte} :
    pushName { x.req with headers := x.req.headers ++ [⟨n, v⟩] } c =
      some { x.req with headers := x.req.headers ++ [⟨n ++ [c], v⟩] } := by
  simp [pushName]

/-- One more character of the value, on its last line. -/
theorem field_snoc {f : Field} {c : Byte} (ok : f.Ok) (hc : ¬ Ctl c) (hl : ∀ y ∈ f.folds.getLast?, y.2 ≠ []) :
    ∃ g : Field, g.Ok ∧ (∀ y ∈ g.folds.getLast?, y.2 ≠ []) ∧ g.name = f.name ∧ g.text = f.text ++ [c] ∧
      ∀ s, f.render = s ++ crlf → g.render = s ++ [c] ++ crlf := by
  rcases List.eq_nil_or_concat f.folds with e | ⟨l, y, e⟩
  · refine ⟨{ f with value := f.value ++ [c] }, ⟨ok.name, ok.token, mem_snoc ok.value hc, ok.folds⟩, hl, rfl, ?_, ?_⟩
    · simp [Field.text, e]
    · intro s hs
      have h1 : f.name ++ [58, 32] ++ f.value = s := by
        apply List.append_cancel_right (bs := crlf)
        rw [← hs]
        simp [Field.render, line, e]
      rw [← h1]
      simp [Field.render, line, e]
  · have hy := ok.folds y (by rw [e]; simp)
    refine ⟨{ f with folds := l ++ [(y.1, y.2 ++ [c])] }, ⟨ok.name, ok.token, ok.value, ?_⟩, by simp, rfl, ?_, ?_⟩
    · intro z hz
      simp only [List.mem_append, List.mem_singleton] at hz
      rcases hz with hz | rfl
      · exact ok.folds z (by rw [e]; simp [hz])
      · refine ⟨hy.1, hy.2.1, mem_snoc hy.2.2.1 hc, ?_⟩
        cases h : y.2 with
        | nil =>
          exact absurd h (hl y (by rw [e]; simp))
        | cons d ds =>
          have := hy.2.2.2
          rw [h] at this
          simpa using this
    · simp [Field.text, e]
    · intro s hs
      have h1 : line (f.name, f.value) ++ l.flatMap (fun x => x.1 ++ x.2 ++ crlf) ++ y.1 ++ y.2 = s := by
        apply List.append_cancel_right (bs := crlf)
        rw [← hs]
        simp [Field.render, e]
      rw [← h1]
      simp [Field.render]

/-- A new line of the value. -/
theorem field_fold {f : Field} {s t : Str} (ok : f.Ok) (hs : s ≠ []) (hs' : ∀ c ∈ s, c = 32 ∨ c = 9)
    (ht : ∀ c ∈ t, ¬ Ctl c) (ht' : t.head? ≠ some 32) :
    ∃ g : Field, g.Ok ∧ (t ≠ [] → ∀ y ∈ g.folds.getLast?, y.2 ≠ []) ∧ g.name = f.name ∧ g.text = f.text ++ t ∧ g.render = f.render ++ s ++ t ++ crlf := by
  refine ⟨{ f with folds := f.folds ++ [(s, t)] }, ⟨ok.name, ok.token, ok.value, ?_⟩, by intro h; simpa using h, rfl, ?_, ?_⟩
  · exact mem_snoc ok.folds ⟨hs, hs', ht, ht'⟩
  · simp [Field.text]
  · simp [Field.render]

/-- The parts with one more header. -/
def Parts.snoc (x : Parts) (f : Field) : Parts := { x with fields := x.fields ++ [f] }

theorem snoc_ok {x : Parts} {f : Field} (hx : x.Ok) (hf : f.Ok) : (x.snoc f).Ok := ⟨hx.1, mem_snoc hx.2 hf⟩

theorem snoc_text {x : Parts} {f : Field} : (x.snoc f).text = x.text ++ f.render := by
  simp [Parts.snoc, Parts.text]

theorem snoc_req {x : Parts} {f : Field} :
    (x.snoc f).req = { x.req with headers := x.req.headers ++ [⟨f.name, f.text⟩] } := by
  simp [Parts.snoc, Parts.req]

theorem render_crlf (f : Field) : ∃ s, f.render = s ++ crlf := by
  rcases List.eq_nil_or_concat f.folds with e | ⟨l, y, e⟩
  · exact ⟨f.name ++ [58, 32] ++ f.value, by simp [Field.render, line, e]⟩
  · exact ⟨line (f.name, f.value) ++ l.flatMap (fun x => x.1 ++ x.2 ++ crlf) ++ y.1 ++ y.2, by simp [Field.render, e]⟩

theorem consume_step {u : Str} {p : Parser} {r : Request} (c : Byte) (h : Inv u p r) : Step u c (consume p r c) := by
  obtain ⟨st, len, cnt⟩ := p
  cases st with
  | methodStart =>
    obtain ⟨rfl, rfl⟩ := h
    simp only [consume]
    split
    · rename_i hc
      exact step_go ⟨[c], by simp, by simpa using (isToken_iff c).1 hc, rfl, rfl⟩
    · exact step_reject
  | method =>
    obtain ⟨m, h1, h2, rfl, rfl⟩ := h
    simp only [consume]
    split
    · rename_i hc; subst hc
      exact step_go ⟨u, [], ⟨h1, h2, by simp⟩, by simp, rfl⟩
    · split
      · rename_i hc
        exact step_go ⟨u ++ [c], by simp, mem_snoc h2 ((isToken_iff c).1 hc), rfl, rfl⟩
      · exact step_reject
  | uriStart => exact h.elim
  | uri =>
    obtain ⟨m, w, h1, rfl, rfl⟩ := h
    simp only [consume]
    split
    · rename_i hc; subst hc
      exact step_go ⟨m, w, h1, by simp [begin_], rfl⟩
    · rename_i hc
      split
      · exact step_reject
      · rename_i hc'
        refine step_go ⟨m, w ++ [c], ⟨h1.1, h1.2.1, mem_snoc h1.2.2 ⟨?_, hc⟩⟩, by simp, rfl⟩
        rw [← isCtl_iff]; exact hc'
  | versionH =>
    obtain ⟨m, w, h1, rfl, rfl⟩ := h
    simp only [consume]
    split
    · rename_i hc; subst hc
      exact step_go ⟨m, w, h1, by simp [begin_], rfl⟩
    · exact step_reject
  | versionT1 =>
    obtain ⟨m, w, h1, rfl, rfl⟩ := h
    simp only [consume]
    split
    · rename_i hc; subst hc
      exact step_go ⟨m, w, h1, by simp [begin_], rfl⟩
    · exact step_reject
  | versionT2 =>
    obtain ⟨m, w, h1, rfl, rfl⟩ := h
    simp only [consume]
    split
    · rename_i hc; subst hc
      exact step_go ⟨m, w, h1, by simp [begin_], rfl⟩
    · exact step_reject
  | versionP =>
    obtain ⟨m, w, h1, rfl, rfl⟩ := h
    simp only [consume]
    split
    · rename_i hc; subst hc
      exact step_go ⟨m, w, h1, by simp [begin_], rfl⟩
    · exact step_reject
  | versionSlash =>
    obtain ⟨m, w, h1, rfl, rfl⟩ := h
    simp only [consume]
    split
    · rename_i hc; subst hc
      exact step_go ⟨m, w, h1, by simp [begin_], rfl⟩
    · exact step_reject
  | majorStart =>
    obtain ⟨m, w, h1, rfl, rfl⟩ := h
    simp only [consume]
    split
    · rename_i hc
      have hd := (isDigit_iff c).1 hc
      cases e : addDigit 0 c with
      | none => intro v p' r' e'; simp [e] at e'
      | some v =>
        have := addDigit_eq (ds := []) hd e
        simp only [Option.bind_some]
        exact step_go ⟨m, w, [c], h1, ⟨by simp, by simpa using hd⟩, by simp [begin_], by rw [this]; rfl⟩
    · exact step_reject
  | major =>
    obtain ⟨m, w, a, h1, h2, rfl, rfl⟩ := h
    simp only [consume]
    split
    · rename_i hc; subst hc
      exact step_go ⟨m, w, a, h1, h2, by simp [begin_], rfl⟩
    · split
      · rename_i hc
        have hd := (isDigit_iff c).1 hc
        cases e : addDigit (number a) c with
        | none => intro v p' r' e'; simp [e] at e'
        | some v =>
          have := addDigit_eq hd e
          simp only [Option.bind_some]
          exact step_go ⟨m, w, a ++ [c], h1, ⟨by simp, mem_snoc h2.2 hd⟩, by simp [begin_], by rw [this]⟩
      · exact step_reject
  | minorStart =>
    obtain ⟨m, w, a, h1, h2, rfl, rfl⟩ := h
    simp only [consume]
    split
    · rename_i hc
      have hd := (isDigit_iff c).1 hc
      cases e : addDigit 0 c with
      | none => intro v p' r' e'; simp [e] at e'
      | some v =>
        have := addDigit_eq (ds := []) hd e
        simp only [Option.bind_some]
        exact step_go ⟨m, w, a, [c], ⟨h1.1, h1.2.1, h1.2.2, h2, by simp, by simpa using hd⟩, by simp [begin_], by rw [this]; rfl⟩
    · exact step_reject
  | minor =>
    obtain ⟨m, w, a, b, h1, rfl, rfl⟩ := h
    simp only [consume]
    split
    · rename_i hc; subst hc
      exact step_go ⟨m, w, a, b, h1, by simp [begin_], rfl⟩
    · split
      · rename_i hc
        have hd := (isDigit_iff c).1 hc
        cases e : addDigit (number b) c with
        | none => intro v p' r' e'; simp [e] at e'
        | some v =>
          have := addDigit_eq hd e
          simp only [Option.bind_some]
          exact step_go ⟨m, w, a, b ++ [c], ⟨h1.method, h1.token, h1.uri, h1.major, by simp, mem_snoc h1.minor.2 hd⟩,
            by simp [begin_], by rw [this]⟩
      · exact step_reject
  | newline1 =>
    obtain ⟨m, w, a, b, h1, rfl, rfl⟩ := h
    simp only [consume]
    split
    · rename_i hc; subst hc
      exact step_go ⟨⟨m, w, a, b, []⟩, ⟨h1, by simp⟩, by simp [begin_, Parts.text, startLine, crlf], rfl⟩
    · exact step_reject
  | lineStart =>
    obtain ⟨x, h1, rfl, rfl⟩ := h
    simp only [consume]
    split
    · rename_i hc; subst hc
      exact step_go ⟨x, h1, rfl, rfl⟩
    · split
      · rename_i hc
        simp only [Bool.and_eq_true, Bool.not_eq_eq_eq_not, Bool.not_true, Bool.or_eq_true, beq_iff_eq] at hc
        obtain ⟨hne, hc⟩ := hc
        rcases List.eq_nil_or_concat x.fields with e | ⟨l, f, e⟩
        · simp [Parts.req, e] at hne
        · obtain ⟨m, w, a, b, fs⟩ := x
          simp only at e
          subst e
          have hy : (⟨m, w, a, b, l.concat f⟩ : Parts) = (⟨m, w, a, b, l⟩ : Parts).snoc f := by simp [Parts.snoc]
          rw [hy] at h1 ⊢
          refine step_go ⟨⟨m, w, a, b, l⟩, f, [c], ⟨h1.1, fun g hg => h1.2 g (by simp [Parts.snoc] at hg ⊢; exact Or.inl hg)⟩,
            h1.2 f (by simp [Parts.snoc]), by simp, by simpa using hc, by rw [snoc_text], ?_⟩
          exact snoc_req
      · split
        · rename_i hc
          exact step_go ⟨x, [c], h1, by simp, by simpa using (isToken_iff c).1 hc, rfl, rfl⟩
        · exact step_reject
  | newline3 =>
    obtain ⟨x, h1, rfl, rfl⟩ := h
    simp only [consume]
    split
    · rename_i hc; subst hc
      split
      · rename_i hp
        have hm : x.method = post := by simpa [isPost, Parts.req, post] using hp
        cases e : postLength x.req with
        | none => intro v p' r' e'; simp [e] at e'
        | some n =>
          intro v p' r' e'
          simp only [Option.bind_some, Option.some.injEq, Prod.mk.injEq] at e'
          obtain ⟨rfl, rfl, rfl⟩ := e'
          refine ⟨fun _ => ?_, fun h => by cases h⟩
          cases hmp : isMultipart x.req with
          | true => exact ⟨x, [], h1, hm, hmp, by simp [crlf], e, by simp, Or.inl rfl, rfl⟩
          | false => exact ⟨x, [], h1, hm, hmp, by simp [crlf], by simp, e, by simp, Or.inl rfl, rfl⟩
      · rename_i hp
        have hm : x.method ≠ post := by simpa [isPost, Parts.req, post] using hp
        intro v p' r' e'
        simp only [Option.some.injEq, Prod.mk.injEq] at e'
        obtain ⟨rfl, rfl, rfl⟩ := e'
        exact ⟨fun h => (by cases h), fun _ => ⟨x, [], h1, by simp [crlf], Or.inl ⟨hm, rfl, rfl⟩⟩⟩
    · exact step_reject
  | name =>
    obtain ⟨x, n, h1, h2, h3, rfl, rfl⟩ := h
    simp only [consume]
    split
    · rename_i hc; subst hc
      exact step_go ⟨x, n, h1, h2, h3, rfl, rfl⟩
    · split
      · rename_i hc
        rw [pushName_last]
        simp only [Option.bind_some]
        exact step_go ⟨x, n ++ [c], h1, by simp, mem_snoc h3 ((isToken_iff c).1 hc), by simp, rfl⟩
      · exact step_reject
  | spaceBefore =>
    obtain ⟨x, n, h1, h2, h3, rfl, rfl⟩ := h
    simp only [consume]
    split
    · rename_i hc; subst hc
      exact step_go ⟨x, ⟨n, [], []⟩, h1, ⟨h2, h3, by simp, by simp⟩, by simp, by simp [Field.render, line], by simp [Field.text]⟩
    · exact step_reject
  | value =>
    obtain ⟨x, f, h1, h2, h3, h4, rfl⟩ := h
    simp only [consume]
    split
    · rename_i hc; subst hc
      exact step_go ⟨x, f, h1, h2, by rw [← h4]; simp [crlf], rfl⟩
    · split
      · exact step_reject
      · rename_i hc
        rw [pushValue_last]
        simp only [Option.bind_some]
        obtain ⟨g, g1, g2, g3, g4, g5⟩ := field_snoc h2 (c := c) (by rw [← isCtl_iff]; exact hc) h3
        refine step_go ⟨x, g, h1, g1, g2, ?_, by rw [g3, g4]⟩
        obtain ⟨s, hs⟩ := render_crlf f
        rw [g5 s hs]
        rw [hs, ← List.append_assoc] at h4
        have := List.append_cancel_right h4
        rw [this]
        simp
  | newline2 =>
    obtain ⟨x, f, h1, h2, h3, rfl⟩ := h
    simp only [consume]
    split
    · rename_i hc; subst hc
      exact step_go ⟨x.snoc f, snoc_ok h1 h2, by rw [snoc_text, h3], snoc_req.symm⟩
    · exact step_reject
  | lws =>
    obtain ⟨x, f, s, h1, h2, h3, h4, rfl, rfl⟩ := h
    simp only [consume]
    split
    · rename_i hc; subst hc
      obtain ⟨g, g1, _, g3, g4, g5⟩ := field_fold h2 h3 h4 (t := []) (by simp) (by simp)
      exact step_go ⟨x, g, h1, g1, by rw [g5]; simp [crlf], by rw [g3, g4]; simp⟩
    · split
      · rename_i hc
        exact step_go ⟨x, f, s ++ [c], h1, h2, by simp, mem_snoc h4 hc, by simp, rfl⟩
      · rename_i hb
        split
        · exact step_reject
        · rename_i hc
          rw [pushValue_last]
          simp only [Option.bind_some]
          have hc' : ¬ Ctl c := by rw [← isCtl_iff]; exact hc
          obtain ⟨g, g1, g2, g3, g4, g5⟩ := field_fold h2 h3 h4 (t := [c]) (by simpa using hc')
            (by simp only [List.head?_cons, ne_eq, Option.some.injEq]; exact fun e => hb (Or.inl e))
          exact step_go ⟨x, g, h1, g1, g2 (by simp), by rw [g5]; simp, by rw [g3, g4]⟩
  | postLine =>
    obtain ⟨x, d, h1, h2, h3, rfl, h4, h5, h6, h7, rfl⟩ := h
    simp only at h5 h6 h7
    simp only [consume]
    split
    · rename_i hc
      split
      · rename_i hlt
        intro v p' r' e'
        simp only [Option.some.injEq, Prod.mk.injEq] at e'
        obtain ⟨rfl, rfl, rfl⟩ := e'
        refine ⟨fun _ => ⟨x, d ++ [c], h1, h2, h3, by simp, mem_snoc h4 hc, h5, ?_, Or.inr ?_, rfl⟩, fun h => by cases h⟩
        · simp; omega
        · simp; omega
      · rename_i hlt
        intro v p' r' e'
        simp only [Option.some.injEq, Prod.mk.injEq] at e'
        obtain ⟨rfl, rfl, rfl⟩ := e'
        refine ⟨fun h => (by cases h), fun _ => ⟨x, d ++ [c], h1, by simp, Or.inr ⟨h2, len, h5, ?_, Or.inl ⟨h3, mem_snoc h4 hc, rfl⟩⟩⟩⟩
        simp only [List.length_append, List.length_singleton]
        rcases h7 with rfl | h7
        · simp at h6 ⊢; omega
        · push_cast; omega
    · exact step_reject
  | multipart =>
    obtain ⟨x, d, h1, h2, h3, rfl, h5, h6, h7, rfl⟩ := h
    simp only at h5 h6 h7
    simp only [consume]
    split
    · rename_i hlt
      intro v p' r' e'
      simp only [Option.some.injEq, Prod.mk.injEq] at e'
      obtain ⟨rfl, rfl, rfl⟩ := e'
      refine ⟨fun _ => ⟨x, d ++ [c], h1, h2, h3, by simp, h5, ?_, Or.inr ?_, rfl⟩, fun h => by cases h⟩
      · simp; omega
      · simp; omega
    · rename_i hlt
      intro v p' r' e'
      simp only [Option.some.injEq, Prod.mk.injEq] at e'
      obtain ⟨rfl, rfl, rfl⟩ := e'
      refine ⟨fun h => (by cases h), fun _ => ⟨x, d ++ [c], h1, by simp, Or.inr ⟨h2, len, h5, ?_, Or.inr ⟨h3, by simp⟩⟩⟩⟩
      simp only [List.length_append, List.length_singleton]
      rcases h7 with rfl | h7
      · simp at h6 ⊢; omega
      · push_cast; omega

theorem parse_only (s : Str) : ∀ {u : Str} {p : Parser} {r : Request} {n : Nat} {p' : Parser} {r' : Request}, Inv u p r →
    parse p r s = some (.yes, n, p', r') → n ≤ s.length ∧ Accepted (u ++ s.take n) r' := by
  induction s with
  | nil => intro u p r n p' r' h e; simp [parse] at e
  | cons c s ih =>
    intro u p r n p' r' h e
    have hs := consume_step c h
    simp only [parse] at e
    cases hc : consume p r c with
    | none => simp [hc] at e
    | some x =>
      obtain ⟨v, q, t⟩ := x
      obtain ⟨k1, k2⟩ := hs v q t hc
      rw [hc] at e
      cases v with
      | more =>
        simp only at e
        cases hp : parse q t s with
        | none => simp [hp, Result.add] at e
        | some y =>
          obtain ⟨v2, n2, q2, t2⟩ := y
          simp only [hp, Result.add, Option.some.injEq, Prod.mk.injEq] at e
          obtain ⟨rfl, rfl, rfl, rfl⟩ := e
          obtain ⟨i1, i2⟩ := ih (k1 rfl) hp
          refine ⟨by simp; omega, ?_⟩
          rw [show 1 + n2 = n2 + 1 by omega, List.take_succ_cons]
          simpa using i2
      | yes =>
        simp only [Option.some.injEq, Prod.mk.injEq] at e
        obtain ⟨_, rfl, rfl, rfl⟩ := e
        exact ⟨by simp, by simpa using k2 rfl⟩
      | no => simp at e

/-- **C46** (only requests): what the parser accepts is a start line, headers whose values may go on over several lines, an
empty line and, after a `POST`, a body of the given length (but at least one byte; no line ends unless it is a multipart
form); the parts of the request are those that were read.  Of a multipart body the last byte is not kept. -/
theorem C46_only (s : Str) (n : Nat) (p : Parser) (r : Request) (h : parse {} {} s = some (.yes, n, p, r)) :
    n ≤ s.length ∧ ∃ (m w a b : Str) (fields : List Field) (body : Str),
      StartOk m w a b ∧ (∀ f ∈ fields, f.Ok) ∧
      s.take n = startLine m w a b ++ fields.flatMap Field.render ++ crlf ++ body ∧
      r.method = m ∧ r.uri = w ∧ r.major = number a ∧ r.minor = number b ∧
      r.headers = fields.map (fun f => ⟨f.name, f.text⟩) ∧
      ((m ≠ post ∧ body = [] ∧ r.postData = []) ∨
       (m = post ∧ ∃ L, postLength r = some L ∧
         (Number (r.header contentLength) → L = number (r.header contentLength)) ∧ (body.length : Int) = max L 1 ∧
         ((¬ multipart <+: r.header contentType ∧ (∀ c ∈ body, c ≠ 10 ∧ c ≠ 13) ∧ r.postData = body) ∨
          (multipart <+: r.header contentType ∧ r.postData = body.dropLast)))) := by
  obtain ⟨h1, x, body, ⟨h2, h3⟩, h4, h5⟩ := parse_only s (u := []) (p := {}) (r := {}) ⟨rfl, rfl⟩ h
  have hmp : ∀ q : Request, isMultipart q = true ↔ multipart <+: q.header contentType := by
    intro q
    simp only [isMultipart, contentType, beq_iff_eq]
    constructor
    · intro e; rw [multipart, ← e]; exact List.take_prefix _ _
    · intro e; exact (List.prefix_iff_eq_take.1 e).symm
  refine ⟨h1, x.method, x.uri, x.major, x.minor, x.fields, body, h2, h3, by simpa [Parts.text] using h4, ?_⟩
  rcases h5 with ⟨k1, rfl, rfl⟩ | ⟨k1, L, k2, k3, k4⟩
  · exact ⟨rfl, rfl, rfl, rfl, rfl, Or.inl ⟨k1, rfl, rfl⟩⟩
  · have hnum : ∀ q : Request, postLength q = some L → Number (q.header contentLength) →
        L = number (q.header contentLength) := by
      intro q hq hn
      unfold postLength at hq
      simp only at hq
      rw [show [67, 111, 110, 116, 101, 110, 116, 45, 76, 101, 110, 103, 116, 104] = contentLength from rfl,
        if_neg hn.1, atoi_eq hn] at hq
      exact (Option.some.inj hq).symm
    rcases k4 with ⟨k4, k5, rfl⟩ | ⟨k4, rfl⟩
    · refine ⟨rfl, rfl, rfl, rfl, rfl, Or.inr ⟨k1, L, k2, hnum _ k2, k3, Or.inl ⟨?_, k5, rfl⟩⟩⟩
      intro hx
      have := (hmp x.req).2 hx
      rw [this] at k4
      cases k4
    · exact ⟨rfl, rfl, rfl, rfl, rfl, Or.inr ⟨k1, L, k2, hnum _ k2, k3, Or.inr ⟨(hmp x.req).1 k4, rfl⟩⟩⟩

/-- A header over two lines, a body of three bytes of which more follow. -/
example : (parse {} {} (ascii "POST /a HTTP/1.1\r\nContent-Length: 3\r\nX: a\r\n \tb c\r\n\r\nabcdef")).map
    (fun x => (x.1, x.2.1, x.2.2.2.headers.map (fun h => h.value), x.2.2.2.postData)) =
    some (.yes, 55, [ascii "3", ascii "ab c"], ascii "abc") := by decide +kernel

/-- A control character in a header is refused. -/
example : (parse {} {} (ascii "GET / HTTP/1.1\r\nX: a\tb\r\n\r\n")).map (fun x => x.1) = some .no := by decide +kernel

end Verif.Server
