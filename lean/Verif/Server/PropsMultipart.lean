import Verif.Server.MultipartLemmas

/-!
C43: uploaded forms and packet boundaries.
-/
set_option linter.unusedVariables false
set_option linter.unusedSimpArgs false

namespace Verif.Server.Mpfd
open Verif.Server

/-! ### Without the contents of text fields -/

/-- A field without the contents of a text field. -/
def erase (f : Field) : Field := if f.isFile then f else { f with content := none }

/-- A state without them. -/
def State.erase (s : State) : State := { s with fields := s.fields.map (fun x => (x.1, Mpfd.erase x.2)) }

/-- Accepting data into such a field. -/
def accE (st : Storage) : Acc := fun f d => (Field.accept st f d).map erase

theorem accE_erase (st : Storage) (f : Field) (d : Str) : accE st (erase f) d = (Field.accept st f d).map erase := by
  rcases f with ⟨isFile, content, len, fn, mime, file⟩
  cases isFile with
  | true => rfl
  | false => simp [accE, erase, Field.accept, Except.map]

theorem block_self {b : Str} : block b.length b = b := by
  simp [block]

theorem block_length (n : Nat) (b : Str) : (block n b).length = n := by
  simp [block]

theorem accE_additive (st : Storage) : Additive (accE st) := by
  intro f x y _ _
  rcases f with ⟨isFile, content, len, fn, mime, file⟩
  cases isFile with
  | true =>
    cases st with
    | memory =>
      simp only [accE, Field.accept, Except.map, erase, if_true, List.length_append, Option.getD_some]
      have e : len + x.length = (block len (content.getD []) ++ x).length := by rw [List.length_append, block_length]
      rw [e, block_self]
      simp [block_length, Nat.add_assoc]
    | disk dir =>
      simp only [accE, Field.accept, if_true]
      by_cases hd : dir = []
      · simp [hd, Except.map]
      · simp [hd, Except.map, erase]
  | false => simp [accE, erase, Field.accept, Except.map]

theorem lookup_erase (n : Str) (l : List (Str × Field)) : lookup n (l.map (fun x => (x.1, erase x.2))) = (lookup n l).map erase := by
  induction l with
  | nil => rfl
  | cons x l ih =>
    simp only [List.map_cons, lookup, ih]
    split <;> rfl

theorem assign_erase (n : Str) (f : Field) (l : List (Str × Field)) :
    (assign n f l).map (fun x => (x.1, erase x.2)) = assign n (erase f) (l.map (fun x => (x.1, erase x.2))) := by
  induction l with
  | nil => rfl
  | cons x l ih =>
    simp only [List.map_cons, assign]
    split <;> simp [ih]

theorem parseHeaders_new {h n : Str} {f : Field} (e : parseHeaders h = .ok (n, f)) : erase f = f ∧ f.content = none ∧ f.len = 0 := by
  unfold parseHeaders at e
  repeat' split at e
  all_goals first
    | (cases e; done)
    | (cases e; exact ⟨rfl, rfl, rfl⟩)

theorem send_erase (st : Storage) (n : Nat) (s : State) :
    send (accE st) n s.erase = (send (Field.accept st) n s).map State.erase := by
  unfold send
  split
  · rfl
  · show (match lookup s.name (s.fields.map (fun x => (x.1, erase x.2))) with | none => _ | some f => _) = _
    rw [lookup_erase]
    cases lookup s.name s.fields with
    | none => rfl
    | some f =>
      simp only [Option.map_some]
      rw [show s.erase.data = s.data from rfl, accE_erase]
      cases Field.accept st f (s.data.take n) with
      | error x => rfl
      | ok f' => simp [Except.map, State.erase, assign_erase]

theorem step_erase (b : Str) (st : Storage) (s : State) :
    step b (accE st) s.erase = (step b (Field.accept st) s).map (fun x => (x.1, x.2.erase)) := by
  unfold step
  rw [show s.erase.status = s.status from rfl]
  cases s.status with
  | boundary =>
    simp only [stepBoundary]
    rw [show s.erase.data = s.data from rfl]
    cases find (bound b) s.data <;> rfl
  | headers =>
    simp only [stepHeaders]
    rw [show s.erase.data = s.data from rfl]
    cases find [13, 10, 13, 10] s.data with
    | none => rfl
    | some n =>
      simp only
      cases e : parseHeaders (cstr (s.data.take n)) with
      | error x => rfl
      | ok y =>
        obtain ⟨m, f⟩ := y
        have := (parseHeaders_new e).1
        simp [Except.map, State.erase, assign_erase, this]
  | content =>
    simp only [stepContent]
    rw [show s.erase.data = s.data from rfl]
    cases find (bound b) s.data with
    | none =>
      simp only
      rw [send_erase]
      cases send (Field.accept st) (s.data.length - ((bound b).length + 2)) s <;> rfl
    | some p =>
      simp only
      rw [send_erase]
      cases send (Field.accept st) (p - 2) s <;> rfl

theorem process_erase (b : Str) (st : Storage) (n : Nat) : ∀ s : State, s.todo < n →
    process b (accE st) s.erase = (process b (Field.accept st) s).map State.erase := by
  induction n with
  | zero => intro s h; omega
  | succ n ih =>
    intro s hn
    rw [process_eq, process_eq, step_erase]
    rcases hs : step b (Field.accept st) s with x | ⟨t, s'⟩
    · rfl
    · cases t with
      | false => rfl
      | true => exact ih s' (by have := step_todo hs; omega)

theorem feedWith_erase (b : Str) (max : Nat) (st : Storage) (ds : List Str) : ∀ s : State,
    feedWith b max (accE st) s.erase ds = (feedWith b max (Field.accept st) s ds).map State.erase := by
  induction ds with
  | nil => intro s; rfl
  | cons d ds ih =>
    intro s
    have e : acceptWith b max (accE st) s.erase d = (acceptWith b max (Field.accept st) s d).map State.erase := by
      unfold acceptWith
      rw [show s.erase.data = s.data from rfl]
      split
      · rfl
      · exact process_erase b st _ { s with data := s.data ++ d } (Nat.lt_succ_self _)
    simp only [feedWith, e]
    cases acceptWith b max (Field.accept st) s d with
    | error x => rfl
    | ok s' => exact ih s'

/-! ### The property -/

/-- What can be asked about an uploaded file: field name, whether it is a file, its file name, its type, its contents in
memory or on disk.  Of a text field only the name. -/
structure View where
  name : Str
  isFile : Bool
  fileName : Str
  mime : Str
  contents : Str
deriving DecidableEq, Repr

/-- The view of a field. -/
def view (st : Storage) (x : Str × Field) : View :=
  ⟨x.1, x.2.isFile, x.2.fileName, x.2.mime,
    if x.2.isFile then (match st with | .memory => x.2.bytes | .disk _ => x.2.file) else []⟩

theorem view_erase (st : Storage) (x : Str × Field) : view st (x.1, erase x.2) = view st x := by
  rcases x with ⟨n, isFile, content, len, fn, mime, file⟩
  cases isFile <;> rfl

/-- **C43** (files): in whatever pieces a form is fed to the parser, the outcome (the fields that exist, and of files
the name, the type and the contents; or an exception) is that of feeding it at once, as long as the form is not longer than the limit
of the collector.  (Missing: the contents of text fields, see `C43_text_false`.) -/
theorem C43_files_partial (b : Str) (max : Nat) (st : Storage) (ds : List Str) (h : ds.flatten.length ≤ max) :
    (feed b max st ds).map (fun s => s.fields.map (view st)) =
      (feed b max st [ds.flatten]).map (fun s => s.fields.map (view st)) := by
  have key : ∀ x : Except Err State, x.map (fun s => s.fields.map (view st)) =
      (x.map State.erase).map (fun s => s.fields.map (view st)) := by
    intro x
    cases x with
    | error e => rfl
    | ok s => simp [Except.map, State.erase, Function.comp_def, view_erase]
  rw [key, key (feed b max st [ds.flatten])]
  unfold feed
  rw [← feedWith_erase, ← feedWith_erase]
  exact congrArg _ (feedWith_flatten (accE_additive st) ds h)

theorem lookup_assign_isSome (n m : Str) (f : Field) (l : List (Str × Field)) (h : (lookup m l).isSome) :
    (lookup m (assign n f l)).isSome := by
  induction l with
  | nil => simp [lookup] at h
  | cons x l ih =>
    obtain ⟨k, g⟩ := x
    unfold assign
    unfold lookup at h
    split
    · unfold lookup
      split at h
      · rename_i h1; simp [h1]
      · rename_i h1; simp [h1, h]
    · unfold lookup
      split at h
      · rename_i h1; simp [h1]
      · rename_i h1; simp only [h1, if_false]; exact ih h

/-- While contents are read, the field exists. -/
def State.Ok (s : State) : Prop := s.status = .content → (lookup s.name s.fields).isSome

theorem accept_defined {st : Storage} {f : Field} {d : Str} : Field.accept st f d ≠ .error .undefined := by
  unfold Field.accept
  simp only
  split
  · split
    · simp
    · split <;> simp
  · simp

theorem send_defined {st : Storage} {n : Nat} {s : State} (h : (lookup s.name s.fields).isSome) :
    send (Field.accept st) n s ≠ .error .undefined ∧
    ∀ s', send (Field.accept st) n s = .ok s' → (lookup s'.name s'.fields).isSome := by
  unfold send
  split
  · exact ⟨by simp, fun s' hs => by cases hs; exact h⟩
  · cases e : lookup s.name s.fields with
    | none => rw [e] at h; simp at h
    | some f =>
      simp only
      cases e2 : Field.accept st f (s.data.take n) with
      | error x =>
        refine ⟨?_, fun s' hs => by cases hs⟩
        intro hx
        cases hx
        exact accept_defined e2
      | ok f' =>
        refine ⟨by simp, fun s' hs => ?_⟩
        cases hs
        simp [lookup_assign]

theorem parseHeaders_defined {h : Str} : parseHeaders h ≠ .error .undefined := by
  unfold parseHeaders
  repeat' split
  all_goals simp

theorem step_defined {b : Str} {st : Storage} {s : State} (h : s.Ok) :
    step b (Field.accept st) s ≠ .error .undefined ∧ ∀ t s', step b (Field.accept st) s = .ok (t, s') → s'.Ok := by
  unfold step
  cases hs : s.status with
  | boundary =>
    simp only [stepBoundary]
    cases find (bound b) s.data with
    | none => exact ⟨by simp, fun t s' e => by cases e; exact h⟩
    | some n => exact ⟨by simp, fun t s' e => by cases e; intro h; cases h⟩
  | headers =>
    simp only [stepHeaders]
    cases find [13, 10, 13, 10] s.data with
    | none => exact ⟨by simp, fun t s' e => by cases e; exact h⟩
    | some n =>
      simp only
      cases e : parseHeaders (cstr (s.data.take n)) with
      | error x =>
        refine ⟨?_, fun t s' e => by cases e⟩
        intro hx
        cases hx
        exact parseHeaders_defined e
      | ok y => exact ⟨by simp, fun t s' e => by cases e; intro _; simp [lookup_assign]⟩
  | content =>
    have hl := h hs
    simp only [stepContent]
    cases find (bound b) s.data with
    | none =>
      simp only
      obtain ⟨h1, h2⟩ := send_defined (st := st) (n := s.data.length - ((bound b).length + 2)) hl
      cases e : send (Field.accept st) (s.data.length - ((bound b).length + 2)) s with
      | error x => exact ⟨by intro hx; cases hx; exact h1 e, fun t s' e => by cases e⟩
      | ok s1 => exact ⟨by simp [Except.map], fun t s' e' => by cases e'; intro _; exact h2 _ e⟩
    | some p =>
      simp only
      obtain ⟨h1, h2⟩ := send_defined (st := st) (n := p - 2) hl
      cases e : send (Field.accept st) (p - 2) s with
      | error x => exact ⟨by intro hx; cases hx; exact h1 e, fun t s' e => by cases e⟩
      | ok s1 => exact ⟨by simp [Except.map], fun t s' e' => by cases e'; intro hc; cases hc⟩

theorem process_defined {b : Str} {st : Storage} (n : Nat) : ∀ {s : State}, s.todo < n → s.Ok →
    process b (Field.accept st) s ≠ .error .undefined ∧ ∀ s', process b (Field.accept st) s = .ok s' → s'.Ok := by
  induction n with
  | zero => intro s h; omega
  | succ n ih =>
    intro s hn h
    obtain ⟨h1, h2⟩ := step_defined (b := b) (st := st) h
    rw [process_eq]
    rcases hs : step b (Field.accept st) s with x | ⟨t, s1⟩
    · exact ⟨by intro hx; cases hx; exact h1 hs, fun s' e => by cases e⟩
    · cases t with
      | false => exact ⟨by simp, fun s' e => by cases e; exact h2 _ _ hs⟩
      | true => exact ih (by have := step_todo hs; omega) (h2 _ _ hs)

theorem feedWith_defined {b : Str} {max : Nat} {st : Storage} (ds : List Str) : ∀ {s : State}, s.Ok →
    feedWith b max (Field.accept st) s ds ≠ .error .undefined := by
  induction ds with
  | nil => intro s _; simp [feedWith]
  | cons d ds ih =>
    intro s h
    unfold feedWith
    have hp := process_defined (b := b) (st := st) _ (s := { s with data := s.data ++ d }) (Nat.lt_succ_self _) h
    cases e : acceptWith b max (Field.accept st) s d with
    | error x =>
      intro hx
      cases hx
      unfold acceptWith at e
      split at e
      · cases e
      · exact hp.1 e
    | ok s' =>
      unfold acceptWith at e
      split at e
      · cases e
      · exact ih (hp.2 _ e)

/-- **C43** (definedness): whatever the bytes, no field is used that does not exist. -/
theorem C43_defined (b : Str) (max : Nat) (st : Storage) (ds : List Str) : feed b max st ds ≠ .error .undefined :=
  feedWith_defined ds (by intro h; cases h)

/-- A form with the boundary `B`, a text field `a` and a file `f`. -/
def sample : Str := ascii "--B\r\nContent-Disposition: form-data; name=\"a\"\r\n\r\nhello world\r\n--B\r\nContent-Disposition: form-data; name=\"f\"; filename=\"x\"\r\n\r\nsome text\r\n--B--\r\n"

/-- The parser finds both fields. -/
theorem sample_fields : (feed [66] 1000 .memory [sample]).toOption.map (fun s => s.fields.map (view .memory)) =
    some [⟨[97], false, [], [], []⟩, ⟨[102], true, [120], [], ascii "some text"⟩] := by
  decide +kernel

/-- The text in the field named `a`. -/
def textOf (r : Except Err State) : Option Str := r.toOption.bind (fun s => (lookup [97] s.fields).map Field.text)

/-- **C43** is false for text fields: of a text that arrives in two pieces only the last piece is kept. -/
theorem C43_text_false : textOf (feed [66] 1000 .memory [sample]) = some (ascii "hello world") ∧
    textOf (feed [66] 1000 .memory [sample.take 60, sample.drop 60]) ≠ some (ascii "hello world") := by
  decide +kernel

end Verif.Server.Mpfd
