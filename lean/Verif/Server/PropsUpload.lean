import Verif.Server.PropsMultipart

/-!
C48: a form that was sent whole is read back.
-/
set_option linter.unusedVariables false
set_option linter.unusedSimpArgs false

namespace Verif.Server.Mpfd
open Verif.Server

/-! ### Forms -/

namespace Spec

/-- One part of a form: a text field, or a file with file name and type. -/
structure Part where
  name : Str
  file : Option (Str × Str)
  content : Str

/-- The header lines of a part, without the last line end. -/
def Part.headers (p : Part) : Str :=
  ascii "Content-Disposition: form-data; name=\"" ++ p.name ++ ascii "\"" ++
    match p.file with
    | none => []
    | some (fn, mime) => ascii "; filename=\"" ++ fn ++ ascii "\"" ++ ascii "\r\nContent-Type: " ++ mime

/-- A part as it is sent. -/
def Part.render (b : Str) (p : Part) : Str :=
  ascii "--" ++ b ++ ascii "\r\n" ++ p.headers ++ ascii "\r\n\r\n" ++ p.content ++ ascii "\r\n"

/-- A form as it is sent; `tail` is what follows the last boundary, usually two hyphens and a line end. -/
def render (b : Str) (ps : List Part) (tail : Str) : Str := ps.flatMap (Part.render b) ++ (ascii "--" ++ b ++ tail)

/-- No quotes, line ends or zero bytes. -/
def Simple (s : Str) : Prop := 34 ∉ s ∧ 13 ∉ s ∧ 10 ∉ s ∧ 0 ∉ s

/-- A part that can be sent: simple names, and the boundary does not occur in the contents. -/
structure Part.Ok (b : Str) (p : Part) : Prop where
  name : Simple p.name
  /-- The name does not imitate a header. -/
  noFile : ¬ ascii "filename=" <:+ p.name
  noType : ¬ ascii "Content-Type: " <:+: p.name
  file : ∀ fn mime, p.file = some (fn, mime) → Simple fn ∧ Simple mime ∧ mime ≠ [] ∧ 32 ∉ mime ∧ ¬ ascii "Content-Type: " <:+: fn
  content : ¬ ascii "--" ++ b <:+: p.content
  text : p.file = none → 0 ∉ p.content

/-- The last part of that name. -/
def last (n : Str) (ps : List Part) : Option Part := ps.reverse.find? (fun p => p.name == n)

end Spec
open Spec

/-! ### Finding -/

theorem find_skip {pat : Str} (hp : pat ≠ []) {c : Byte} (hc : c ∉ pat) {a : Str} (ha : ¬ pat <:+: a) (t : Str) :
    find pat (a ++ c :: t) = (find pat t).map (· + (a.length + 1)) := by
  have hno : ∀ m ≤ a.length, ¬ pat <+: (a ++ c :: t).drop m := by
    intro m hm hpre
    rw [drop_append_le hm] at hpre
    by_cases hl : pat.length ≤ (a.drop m).length
    · have := prefix_of_append hpre hl
      exact ha (this.isInfix.trans (List.drop_suffix m a).isInfix)
    · have : (a.drop m ++ [c]) <+: pat := by
        refine List.prefix_of_prefix_length_le (l₃ := a.drop m ++ c :: t) ?_ hpre ?_
        · exact ⟨t, by simp⟩
        · simp only [List.length_append, List.length_singleton]; omega
      exact hc (this.subset (by simp))
  have e : ∀ m, (a ++ c :: t).drop (m + (a.length + 1)) = t.drop m := by
    intro m
    rw [Nat.add_comm m, ← List.drop_drop, show (a ++ c :: t).drop (a.length + 1) = t by
      rw [← List.drop_drop, List.drop_left]; rfl]
  cases h : find pat t with
  | none =>
    rw [Option.map_none, find_none_iff hp]
    rw [find_none_iff hp] at h
    intro m hpre
    by_cases hm : m ≤ a.length
    · exact hno m hm hpre
    · obtain ⟨k, rfl⟩ := Nat.exists_eq_add_of_le (show a.length + 1 ≤ m by omega)
      rw [Nat.add_comm, e] at hpre
      exact h k hpre
  | some n =>
    rw [Option.map_some, find_some_iff hp]
    rw [find_some_iff hp] at h
    rw [e]
    refine ⟨h.1, ?_⟩
    intro m hm hpre
    by_cases hm' : m ≤ a.length
    · exact hno m hm' hpre
    · obtain ⟨k, rfl⟩ := Nat.exists_eq_add_of_le (show a.length + 1 ≤ m by omega)
      rw [Nat.add_comm, e] at hpre
      exact h.2 k (by omega) hpre

theorem find_here {pat : Str} (hp : pat ≠ []) (t : Str) : find pat (pat ++ t) = some 0 := by
  rw [find_some_iff hp]; exact ⟨⟨t, rfl⟩, by simp⟩

/-- A pattern that ends with a quote, looked for in a string with the first quote after `a`. -/
theorem find_quote {u : Str} (hu : 34 ∉ u) {a : Str} (ha : 34 ∉ a) (t : Str) :
    find (u ++ [34]) (a ++ 34 :: t) =
      if u <:+ a then some (a.length - u.length) else (find (u ++ [34]) t).map (· + (a.length + 1)) := by
  have hp : u ++ [34] ≠ [] := by simp
  have hno : ∀ m ≤ a.length, u ++ [34] <+: (a ++ 34 :: t).drop m → u = a.drop m := by
    intro m hm hpre
    rw [drop_append_le hm] at hpre
    obtain ⟨r, e⟩ := hpre
    rw [List.append_assoc, List.singleton_append] at e
    rcases List.append_eq_append_iff.1 e with ⟨x, e1, e2⟩ | ⟨x, e1, e2⟩
    · cases x with
      | nil => simpa using e1.symm
      | cons y x =>
        simp only [List.cons_append, List.cons.injEq] at e2
        exact absurd (show (34 : Byte) ∈ a.drop m by rw [e1, ← e2.1]; simp) (fun h => ha (List.mem_of_mem_drop h))
    · cases x with
      | nil => simpa using e1
      | cons y x =>
        simp only [List.cons_append, List.cons.injEq] at e2
        exact absurd (show (34 : Byte) ∈ u by rw [e1, ← e2.1]; simp) hu
  have e : ∀ m, (a ++ 34 :: t).drop (m + (a.length + 1)) = t.drop m := by
    intro m
    rw [Nat.add_comm m, ← List.drop_drop, show (a ++ 34 :: t).drop (a.length + 1) = t by
      rw [← List.drop_drop, List.drop_left]; rfl]
  split
  · rename_i h
    obtain ⟨r, rfl⟩ := h
    rw [find_some_iff hp]
    simp only [List.length_append, Nat.add_sub_cancel]
    refine ⟨⟨t, by simp⟩, ?_⟩
    intro m hm hpre
    have := congrArg List.length (hno m (by simp; omega) hpre)
    simp only [List.length_drop, List.length_append] at this
    omega
  · rename_i h
    have hno' : ∀ m ≤ a.length, ¬ u ++ [34] <+: (a ++ 34 :: t).drop m := by
      intro m hm hpre
      exact h (by rw [hno m hm hpre]; exact List.drop_suffix m a)
    cases h2 : find (u ++ [34]) t with
    | none =>
      rw [Option.map_none, find_none_iff hp]
      rw [find_none_iff hp] at h2
      intro m hpre
      by_cases hm : m ≤ a.length
      · exact hno' m hm hpre
      · obtain ⟨k, rfl⟩ := Nat.exists_eq_add_of_le (show a.length + 1 ≤ m by omega)
        rw [Nat.add_comm, e] at hpre
        exact h2 k hpre
    | some n =>
      rw [Option.map_some, find_some_iff hp]
      rw [find_some_iff hp] at h2
      rw [e]
      refine ⟨h2.1, ?_⟩
      intro m hm hpre
      by_cases hm' : m ≤ a.length
      · exact hno' m hm' hpre
      · obtain ⟨k, rfl⟩ := Nat.exists_eq_add_of_le (show a.length + 1 ≤ m by omega)
        rw [Nat.add_comm, e] at hpre
        exact h2.2 k (by omega) hpre

theorem quoted_eq {a : Str} (ha : 34 ∉ a) (t : Str) : quoted (a ++ 34 :: t) = some a := by
  have := find_quote (u := []) (by simp) ha t
  simp only [List.nil_append, List.nil_suffix, if_true, List.length_nil, Nat.sub_zero] at this
  unfold quoted
  rw [this]
  simp

/-! ### The headers of a part -/

/-- The beginning of the headers, with the line end after the boundary. -/
def intro0 : Str := ascii "\r\nContent-Disposition: form-data; name="

/-- The new field for a part. -/
def newField (p : Part) : Field :=
  match p.file with
  | none => { isFile := false }
  | some (fn, mime) => { isFile := true, fileName := fn, mime := mime }

theorem headers_eq (p : Part) : ascii "\r\n" ++ p.headers = intro0 ++ (34 : Byte) :: (p.name ++ (34 : Byte) ::
    (match p.file with
    | none => []
    | some (fn, mime) => ascii "; filename=" ++ (34 : Byte) :: (fn ++ (34 : Byte) :: (ascii "\r\nContent-Type: " ++ mime)))) := by
  have e1 : ascii "\r\n" ++ ascii "Content-Disposition: form-data; name=\"" = intro0 ++ [34] := by decide +kernel
  have e2 : ascii "; filename=\"" = ascii "; filename=" ++ [34] := by decide +kernel
  have e3 : ascii "\"" = [34] := by decide +kernel
  have e4 : ascii "\"" ++ ascii "\r\nContent-Type: " = 34 :: ascii "\r\nContent-Type: " := by decide +kernel
  unfold Part.headers
  rw [← List.append_assoc, ← List.append_assoc, ← List.append_assoc, e1, e3]
  cases p.file with
  | none => simp
  | some x =>
    simp only [e2, e3]
    simp

theorem parseHeaders_part {b : Str} {p : Part} (ok : p.Ok b) :
    parseHeaders (ascii "\r\n" ++ p.headers) = .ok (p.name, newField p) := by
  rw [headers_eq]
  obtain ⟨nm, file, content⟩ := p
  obtain ⟨⟨hq, _, _, _⟩, hnf, hnt, hf, _, _⟩ := ok
  simp only at hq hnf hnt hf ⊢
  have hi : (34 : Byte) ∉ intro0 := by decide +kernel
  have f0 : ∀ t, find (ascii "Content-Disposition: form-data;") (intro0 ++ 34 :: t) = some 2 := by
    intro t; rfl
  have f1 : ∀ t, find (ascii "name=\"") (intro0 ++ 34 :: t) = some 34 := by
    intro t
    rw [show ascii "name=\"" = ascii "name=" ++ [34] by decide +kernel, find_quote (by decide +kernel) hi,
      if_pos (by decide +kernel)]
    decide +kernel
  have d1 : ∀ t, (intro0 ++ 34 :: t).drop (34 + 6) = t := by
    intro t
    rw [show (34 + 6) = (intro0 ++ [34]).length by decide +kernel, show intro0 ++ 34 :: t = (intro0 ++ [34]) ++ t by simp,
      List.drop_left]
  have f2 : ∀ t, find (ascii "filename=\"") (intro0 ++ 34 :: (nm ++ 34 :: t)) =
      (find (ascii "filename=\"") t).map (· + (intro0.length + 1 + (nm.length + 1))) := by
    intro t
    rw [show ascii "filename=\"" = ascii "filename=" ++ [34] by decide +kernel, find_quote (by decide +kernel) hi,
      if_neg (by decide +kernel), find_quote (by decide +kernel) hq, if_neg hnf]
    cases find (ascii "filename=" ++ [34]) t with
    | none => rfl
    | some n => simp; omega
  cases file with
  | none =>
    simp only
    unfold parseHeaders
    rw [f0]
    simp only
    rw [f1]
    simp only
    rw [d1, quoted_eq hq]
    simp only
    rw [f2]
    rfl
  | some x =>
    obtain ⟨fn, mime⟩ := x
    obtain ⟨⟨h1, _, _, _⟩, ⟨h5, h6, h7, _⟩, hne, h8, h9⟩ := hf fn mime rfl
    simp only
    set tl : Str := ascii "\r\nContent-Type: " ++ mime with htl
    have f3 : find (ascii "filename=\"") (ascii "; filename=" ++ 34 :: (fn ++ 34 :: tl)) = some 2 := by
      rw [show ascii "filename=\"" = ascii "filename=" ++ [34] by decide +kernel, find_quote (by decide +kernel) (by decide +kernel),
        if_pos (by decide +kernel)]
      decide +kernel
    have d2 : (intro0 ++ 34 :: (nm ++ 34 :: (ascii "; filename=" ++ 34 :: (fn ++ 34 :: tl)))).drop
        (2 + (intro0.length + 1 + (nm.length + 1)) + 10) = fn ++ 34 :: tl := by
      rw [show 2 + (intro0.length + 1 + (nm.length + 1)) + 10 = (intro0 ++ 34 :: (nm ++ 34 :: (ascii "; filename=" ++ [34]))).length by
        simp only [List.length_append, List.length_cons, List.length_nil, show (ascii "; filename=").length = 11 by decide +kernel]
        omega]
      rw [show intro0 ++ 34 :: (nm ++ 34 :: (ascii "; filename=" ++ 34 :: (fn ++ 34 :: tl))) =
        (intro0 ++ 34 :: (nm ++ 34 :: (ascii "; filename=" ++ [34]))) ++ (fn ++ 34 :: tl) by simp, List.drop_left]
    have hct : (34 : Byte) ∉ ascii "Content-Type: " ∧ (10 : Byte) ∉ ascii "Content-Type: " ∧ ascii "Content-Type: " ≠ [] := by
      decide +kernel
    have f4 : find (ascii "Content-Type: ") tl = some 2 := by
      rw [htl, show ascii "\r\nContent-Type: " = 13 :: 10 :: ascii "Content-Type: " by decide +kernel]
      have := find_skip hct.2.2 hct.2.1 (a := [13]) (by decide +kernel) (ascii "Content-Type: " ++ mime)
      rw [find_here hct.2.2] at this
      exact this
    have f5 : find (ascii "Content-Type: ") (intro0 ++ 34 :: (nm ++ 34 :: (ascii "; filename=" ++ 34 :: (fn ++ 34 :: tl)))) =
        some (2 + (fn.length + 1) + 12 + (nm.length + 1) + (intro0.length + 1)) := by
      rw [find_skip hct.2.2 hct.1 (by decide +kernel), find_skip hct.2.2 hct.1 hnt, find_skip hct.2.2 hct.1 (by decide +kernel),
        find_skip hct.2.2 hct.1 h9, f4]
      rfl
    have d3 : (intro0 ++ 34 :: (nm ++ 34 :: (ascii "; filename=" ++ 34 :: (fn ++ 34 :: tl)))).drop
        (2 + (fn.length + 1) + 12 + (nm.length + 1) + (intro0.length + 1) + 14) = mime := by
      have : intro0 ++ 34 :: (nm ++ 34 :: (ascii "; filename=" ++ 34 :: (fn ++ 34 :: tl))) =
        (intro0 ++ 34 :: (nm ++ 34 :: (ascii "; filename=" ++ 34 :: (fn ++ 34 :: ascii "\r\nContent-Type: ")))) ++ mime := by
        rw [htl]; simp
      rw [this, show 2 + (fn.length + 1) + 12 + (nm.length + 1) + (intro0.length + 1) + 14 =
        (intro0 ++ 34 :: (nm ++ 34 :: (ascii "; filename=" ++ 34 :: (fn ++ 34 :: ascii "\r\nContent-Type: ")))).length by
        simp only [List.length_append, List.length_cons, List.length_nil, show (ascii "; filename=").length = 11 by decide +kernel,
          show (ascii "\r\nContent-Type: ").length = 16 by decide +kernel]
        omega, List.drop_left]
    have hm : contentType mime = mime := by
      unfold contentType
      rw [List.findIdx?_eq_none_iff.2]
      intro c hc
      simp only [isEnd, Bool.or_eq_false_iff, beq_eq_false_iff_ne]
      exact ⟨⟨fun e => h8 (e ▸ hc), fun e => h7 (e ▸ hc)⟩, fun e => h6 (e ▸ hc)⟩
    unfold parseHeaders
    rw [f0]
    simp only
    rw [f1]
    simp only
    rw [d1, quoted_eq hq]
    simp only
    rw [f2, f3]
    simp only [Option.map_some]
    rw [d2, quoted_eq h1]
    simp only
    rw [f5]
    simp only
    rw [d3, hm]
    rfl

/-! ### A whole form -/

theorem find_crlf_skip {a : Str} (ha : 13 ∉ a) (r : Str) : find [13, 10, 13, 10] (a ++ r) =
    (find [13, 10, 13, 10] r).map (· + a.length) := by
  induction a with
  | nil => simp
  | cons c a ih =>
    have hc : c ≠ 13 := fun e => ha (by simp [e])
    rw [List.cons_append, find, if_neg (by simp [List.isPrefixOf, Ne.symm hc]), ih (fun h => ha (by simp [h]))]
    cases find [13, 10, 13, 10] r with
    | none => rfl
    | some n => simp; omega

theorem find_crlf_line {a : Str} (ha : 13 ∉ a) (hne : a ≠ []) (r : Str) : find [13, 10, 13, 10] (13 :: 10 :: (a ++ r)) =
    (find [13, 10, 13, 10] r).map (· + (a.length + 2)) := by
  cases a with
  | nil => exact absurd rfl hne
  | cons c a =>
    have hc : c ≠ 13 := fun e => ha (by simp [e])
    have e := find_crlf_skip ha r
    rw [find, if_neg (by simp [List.isPrefixOf, Ne.symm hc]), find, if_neg (by simp [List.isPrefixOf]), e]
    cases find [13, 10, 13, 10] r with
    | none => rfl
    | some n => simp; omega

theorem find_headers {b : Str} {p : Part} (ok : p.Ok b) (r : Str) :
    find [13, 10, 13, 10] (ascii "\r\n" ++ p.headers ++ ascii "\r\n\r\n" ++ r) = some (ascii "\r\n" ++ p.headers).length := by
  have e4 : ascii "\r\n\r\n" = [13, 10, 13, 10] := by decide +kernel
  have h0 : (13 : Byte) ∉ ascii "Content-Disposition: form-data; name=\"" := by decide +kernel
  have h1 : (13 : Byte) ∉ ascii "\"" := by decide +kernel
  have h2 : (13 : Byte) ∉ ascii "; filename=\"" := by decide +kernel
  have h3 : (13 : Byte) ∉ ascii "Content-Type: " := by decide +kernel
  have e5 : ascii "\r\n" = [13, 10] := by decide +kernel
  have e6 : ascii "\r\nContent-Type: " = 13 :: 10 :: ascii "Content-Type: " := by decide +kernel
  obtain ⟨⟨_, hn, _, _⟩, _, _, hf, _, _⟩ := ok
  unfold Part.headers
  rw [e4, e5]
  cases hfile : p.file with
  | none =>
    have := find_crlf_line (a := ascii "Content-Disposition: form-data; name=\"" ++ p.name ++ ascii "\"")
      (by simp [h0, h1, hn]) (by simp [ascii]) ([13, 10, 13, 10] ++ r)
    rw [find_here (by simp)] at this
    simp only [List.append_nil, List.cons_append, List.nil_append, List.append_assoc] at this ⊢
    rw [this]
    simp
  | some x =>
    obtain ⟨fn, mime⟩ := x
    obtain ⟨⟨_, h4, _, _⟩, ⟨_, h6, _, _⟩, hne, _, _⟩ := hf fn mime hfile
    have t2 := find_crlf_line (a := ascii "Content-Type: " ++ mime) (by simp [h3, h6]) (by simp [hne]) ([13, 10, 13, 10] ++ r)
    rw [find_here (by simp)] at t2
    have t1 := find_crlf_line (a := ascii "Content-Disposition: form-data; name=\"" ++ p.name ++ ascii "\"" ++
      ascii "; filename=\"" ++ fn ++ ascii "\"") (by simp [h0, h1, h2, h4, hn]) (by simp [ascii])
      (13 :: 10 :: (ascii "Content-Type: " ++ mime ++ ([13, 10, 13, 10] ++ r)))
    rw [t2] at t1
    simp only [e6, List.append_nil, List.cons_append, List.nil_append, List.append_assoc, Option.map_some] at t1 ⊢
    rw [t1]
    simp
    omega

theorem cstr_self {s : Str} (h : 0 ∉ s) : cstr s = s := by
  unfold cstr
  have := List.takeWhile_append_of_pos (p := (· != 0)) (l₁ := s) (l₂ := []) (by
    intro c hc
    simp only [bne_iff_ne]
    rintro rfl
    exact h hc)
  simpa using this

theorem headers_nonzero {b : Str} {p : Part} (ok : p.Ok b) : 0 ∉ ascii "\r\n" ++ p.headers := by
  have h0 : (0 : Byte) ∉ ascii "Content-Disposition: form-data; name=\"" := by decide +kernel
  have h1 : (0 : Byte) ∉ ascii "\"" := by decide +kernel
  have h2 : (0 : Byte) ∉ ascii "; filename=\"" := by decide +kernel
  have h3 : (0 : Byte) ∉ ascii "\r\nContent-Type: " := by decide +kernel
  have h4 : (0 : Byte) ∉ ascii "\r\n" := by decide +kernel
  unfold Part.headers
  cases hfile : p.file with
  | none => simp [h0, h1, h4, ok.name.2.2.2]
  | some x =>
    obtain ⟨fn, mime⟩ := x
    obtain ⟨h5, h6, _, _⟩ := ok.file fn mime hfile
    simp [h0, h1, h2, h3, h4, ok.name.2.2.2, h5.2.2.2, h6.2.2.2]

/-- A field with its contents. -/
def filled (p : Part) : Field :=
  if p.content = [] then newField p
  else
    match p.file with
    | none => { newField p with content := some (p.content ++ [0]) }
    | some _ => { newField p with content := some p.content, len := p.content.length }

theorem accept_new (p : Part) (h : p.content ≠ []) : Field.accept .memory (newField p) p.content = .ok (filled p) := by
  unfold filled
  rw [if_neg h]
  cases hf : p.file <;> simp [Field.accept, newField, hf, block]

theorem ascii_dd (b : Str) : ascii "--" ++ b = bound b := by
  rw [show ascii "--" = [45, 45] by decide +kernel]; rfl

theorem process_step {b : Str} {acc : Acc} {s s' : State} (h : step b acc s = .ok (true, s')) : process b acc s = process b acc s' := by
  rw [process_eq, h]

/-- One part: from looking for its boundary to looking for the next. -/
theorem process_part {b : Str} (hb : 13 ∉ b ∧ 10 ∉ b) {p : Part} (ok : p.Ok b) {fields : List (Str × Field)} {nm pre r : Str}
    (hpre : pre = [] ∨ pre = [13, 10]) :
    process b (Field.accept .memory) ⟨.boundary, fields, nm, pre ++ (p.render b ++ (bound b ++ r))⟩ =
      process b (Field.accept .memory) ⟨.boundary, assign p.name (filled p) fields, p.name, [13, 10] ++ (bound b ++ r)⟩ := by
  have e2 : ascii "\r\n" = [13, 10] := by decide +kernel
  have e4 : (ascii "\r\n\r\n").length = 4 := by decide +kernel
  have hbd : (13 : Byte) ∉ bound b ∧ (10 : Byte) ∉ bound b := by simp [bound, hb]
  -- the boundary
  have hr : p.render b ++ (bound b ++ r) = bound b ++ ((ascii "\r\n" ++ p.headers ++ ascii "\r\n\r\n") ++ (p.content ++ ([13, 10] ++ (bound b ++ r)))) := by
    unfold Part.render
    rw [ascii_dd, e2]
    simp
  rw [hr]
  generalize hX : (ascii "\r\n" ++ p.headers ++ ascii "\r\n\r\n") ++ (p.content ++ ([13, 10] ++ (bound b ++ r))) = X
  have s1 : step b (Field.accept .memory) ⟨.boundary, fields, nm, pre ++ (bound b ++ X)⟩ =
      .ok (true, ⟨.headers, fields, nm, X⟩) := by
    simp only [step, stepBoundary]
    have : find (bound b) (pre ++ (bound b ++ X)) = some pre.length := by
      rcases hpre with rfl | rfl
      · exact find_here (bound_ne b) X
      · have := find_skip (bound_ne b) hbd.2 (a := [13]) (by
          intro h
          have := h.length_le
          simp [bound] at this) (bound b ++ X)
        rw [find_here (bound_ne b)] at this
        exact this
    rw [this]
    simp only
    rw [← List.drop_drop, List.drop_left, List.drop_left]
  rw [process_step s1, ← hX]
  -- the headers
  have s2 : step b (Field.accept .memory) ⟨.headers, fields, nm,
        (ascii "\r\n" ++ p.headers ++ ascii "\r\n\r\n") ++ (p.content ++ ([13, 10] ++ (bound b ++ r)))⟩ =
      .ok (true, ⟨.content, assign p.name (newField p) fields, p.name, p.content ++ ([13, 10] ++ (bound b ++ r))⟩) := by
    simp only [step, stepHeaders]
    rw [find_headers ok]
    simp only
    have t1 : (ascii "\r\n" ++ p.headers ++ ascii "\r\n\r\n" ++ (p.content ++ ([13, 10] ++ (bound b ++ r)))).take
        (ascii "\r\n" ++ p.headers).length = ascii "\r\n" ++ p.headers := by
      rw [List.append_assoc, List.take_left]
    have t2 : (ascii "\r\n" ++ p.headers ++ ascii "\r\n\r\n" ++ (p.content ++ ([13, 10] ++ (bound b ++ r)))).drop
        ((ascii "\r\n" ++ p.headers).length + 4) = p.content ++ ([13, 10] ++ (bound b ++ r)) := by
      rw [show (ascii "\r\n" ++ p.headers).length + 4 = (ascii "\r\n" ++ p.headers ++ ascii "\r\n\r\n").length by
        rw [List.length_append (bs := ascii "\r\n\r\n"), e4], List.drop_left]
    rw [t1, t2, cstr_self (headers_nonzero ok), parseHeaders_part ok]
  rw [process_step s2]
  -- the contents
  have hf : find (bound b) (p.content ++ ([13, 10] ++ (bound b ++ r))) = some (p.content.length + 2) := by
    have hc := ok.content
    rw [ascii_dd] at hc
    rw [show p.content ++ ([13, 10] ++ (bound b ++ r)) = p.content ++ 13 :: (([] : Str) ++ 10 :: (bound b ++ r)) by simp,
      find_skip (bound_ne b) hbd.1 hc, find_skip (bound_ne b) hbd.2 (by simp [bound]), find_here (bound_ne b)]
    simp
    omega
  have s3 : step b (Field.accept .memory)
        ⟨.content, assign p.name (newField p) fields, p.name, p.content ++ ([13, 10] ++ (bound b ++ r))⟩ =
      .ok (true, ⟨.boundary, assign p.name (filled p) fields, p.name, [13, 10] ++ (bound b ++ r)⟩) := by
    simp only [step, stepContent]
    rw [hf]
    simp only [Nat.add_sub_cancel]
    unfold send
    by_cases hc : p.content = []
    · have hfl : filled p = newField p := by unfold filled; rw [if_pos hc]
      rw [hfl]
      simp [hc, Except.map]
    · rw [if_neg (by simpa using hc)]
      simp only [lookup_assign, List.take_left]
      rw [accept_new p hc]
      simp only [Except.map, assign_assign, List.drop_left]
  rw [process_step s3]

/-- The fields after all parts. -/
def collect : List (Str × Field) → List Part → List (Str × Field)
  | l, [] => l
  | l, p :: ps => collect (assign p.name (filled p) l) ps

theorem process_parts {b : Str} (hb : 13 ∉ b ∧ 10 ∉ b) {tail : Str} (ht : ¬ [13, 10, 13, 10] <:+: tail) (ps : List Part) :
    ∀ {fields : List (Str × Field)} {nm pre : Str}, (pre = [] ∨ pre = [13, 10]) → (∀ p ∈ ps, p.Ok b) →
    ∃ nm', process b (Field.accept .memory) ⟨.boundary, fields, nm, pre ++ (ps.flatMap (Part.render b) ++ (bound b ++ tail))⟩ =
      .ok ⟨.headers, collect fields ps, nm', tail⟩ := by
  induction ps with
  | nil =>
    intro fields nm pre hpre _
    refine ⟨nm, ?_⟩
    have hbd : (13 : Byte) ∉ bound b ∧ (10 : Byte) ∉ bound b := by simp [bound, hb]
    have s1 : step b (Field.accept .memory) ⟨.boundary, fields, nm, pre ++ (bound b ++ tail)⟩ =
        .ok (true, ⟨.headers, fields, nm, tail⟩) := by
      simp only [step, stepBoundary]
      have : find (bound b) (pre ++ (bound b ++ tail)) = some pre.length := by
        rcases hpre with rfl | rfl
        · exact find_here (bound_ne b) tail
        · have := find_skip (bound_ne b) hbd.2 (a := [13]) (by
            intro h
            have := h.length_le
            simp [bound] at this) (bound b ++ tail)
          rw [find_here (bound_ne b)] at this
          exact this
      rw [this]
      simp only
      rw [← List.drop_drop, List.drop_left, List.drop_left]
    simp only [List.flatMap_nil, List.nil_append]
    rw [process_step s1, process_eq]
    have : find [13, 10, 13, 10] tail = none := by
      rw [find_none_iff (by simp)]
      intro n hn
      exact ht (hn.isInfix.trans (List.drop_suffix n tail).isInfix)
    simp [step, stepHeaders, this, collect]
  | cons p ps ih =>
    intro fields nm pre hpre h
    have hsplit : ∃ r, ps.flatMap (Part.render b) ++ (bound b ++ tail) = bound b ++ r := by
      cases ps with
      | nil => exact ⟨tail, rfl⟩
      | cons q qs =>
        refine ⟨ascii "\r\n" ++ q.headers ++ ascii "\r\n\r\n" ++ q.content ++ ascii "\r\n" ++
          (qs.flatMap (Part.render b) ++ (bound b ++ tail)), ?_⟩
        simp only [List.flatMap_cons, Part.render, ascii_dd, List.append_assoc]
    obtain ⟨r, hr⟩ := hsplit
    rw [List.flatMap_cons, List.append_assoc, hr, process_part hb (h p (by simp)) hpre, ← hr]
    exact ih (Or.inr rfl) (fun q hq => h q (by simp [hq]))

theorem lookup_assign_ne {n m : Str} (h : m ≠ n) (f : Field) (l : List (Str × Field)) : lookup n (assign m f l) = lookup n l := by
  induction l with
  | nil => simp [assign, lookup, h]
  | cons x l ih =>
    obtain ⟨k, g⟩ := x
    unfold assign
    split
    · rename_i hk; subst hk; simp [lookup, h]
    · simp only [lookup, ih]

theorem lookup_collect (n : Str) (ps : List Part) : ∀ l, lookup n (collect l ps) =
    match last n ps with
    | some p => some (filled p)
    | none => lookup n l := by
  induction ps with
  | nil => intro l; rfl
  | cons p ps ih =>
    intro l
    rw [collect, ih]
    unfold last
    rw [List.reverse_cons, List.find?_append]
    cases e : ps.reverse.find? (fun p => p.name == n) with
    | some q => rfl
    | none =>
      simp only [Option.none_or]
      by_cases hn : p.name = n
      · subst hn; simp [lookup_assign]
      · rw [lookup_assign_ne hn]; simp [hn]

/-- **C48**: a well-formed form that is fed to the parser at once is read back: for every name the field with this name is the last
part of that name, with the same contents (and file name and type), and there is no field that was not sent. -/
theorem C48_form {b : Str} (hb : 13 ∉ b ∧ 10 ∉ b) {ps : List Part} (ok : ∀ p ∈ ps, p.Ok b) {tail : Str}
    (ht : ¬ [13, 10, 13, 10] <:+: tail) {max : Nat} (hmax : (render b ps tail).length ≤ max) :
    ∃ s, feed b max .memory [render b ps tail] = .ok s ∧ ∀ n,
      match last n ps, lookup n s.fields with
      | none, none => True
      | some p, some f =>
        match p.file with
        | none => f.isFile = false ∧ f.text = p.content
        | some (fn, mime) => f.isFile = true ∧ f.fileName = fn ∧ f.mime = mime ∧ f.bytes = p.content
      | _, _ => False := by
  obtain ⟨nm, e⟩ := process_parts hb ht ps (fields := []) (nm := []) (pre := []) (Or.inl rfl) ok
  refine ⟨⟨.headers, collect [] ps, nm, tail⟩, ?_, ?_⟩
  · unfold feed feedWith acceptWith
    rw [if_neg (by simpa using hmax)]
    have : (render b ps tail) = [] ++ (ps.flatMap (Part.render b) ++ (bound b ++ tail)) := by
      unfold render; rw [ascii_dd]; rfl
    simp only [List.nil_append] at this e
    simp only [List.nil_append]
    rw [this, e]
    rfl
  · intro n
    simp only
    rw [lookup_collect]
    cases hl : last n ps with
    | none => simp [lookup]
    | some p =>
      have hp : p ∈ ps := by
        unfold last at hl
        simpa using List.mem_of_find?_eq_some hl
      simp only
      have hok := ok p hp
      cases hf : p.file with
      | none =>
        simp only
        have h0 := hok.text hf
        unfold filled
        by_cases hc : p.content = []
        · simp [hc, newField, hf, Field.text]
        · simp only [hc, if_false, hf, newField, Field.text, true_and]
          unfold cstr
          rw [List.takeWhile_append_of_pos]
          · simp
          · intro c hc
            simp only [bne_iff_ne]
            rintro rfl
            exact h0 hc
      | some x =>
        simp only
        unfold filled
        by_cases hc : p.content = []
        · simp [hc, newField, hf, Field.bytes]
        · simp [hc, hf, newField, Field.bytes]

/-- Two parts, the last byte of the form missing (see C41). -/
example : (∀ p ∈ ([⟨[97], none, ascii "hi\r\n--"⟩, ⟨[102], some ([120], ascii "text/plain"), [0, 13]⟩] : List Part), p.Ok [66]) ∧
    ¬ [13, 10, 13, 10] <:+: ([45, 45, 13] : Str) := by
  constructor
  · intro p hp
    simp only [List.mem_cons, List.not_mem_nil, or_false] at hp
    rcases hp with rfl | rfl
    · refine ⟨?_, by decide +kernel, by decide +kernel, by simp, by decide +kernel, fun _ => by decide +kernel⟩
      unfold Simple; decide +kernel
    · refine ⟨by unfold Simple; decide +kernel, by decide +kernel, by decide +kernel, ?_, by decide +kernel, by simp⟩
      intro fn mime e
      simp only [Option.some.injEq, Prod.mk.injEq] at e
      obtain ⟨rfl, rfl⟩ := e
      unfold Simple
      decide +kernel
  · decide +kernel

/-- A name that ends with `filename=` is taken for a file: the condition on names is needed. -/
theorem C48_name_false : (parseHeaders (ascii "\r\nContent-Disposition: form-data; name=\"filename=\"; x=\"y\"")).toOption.map
    (fun x => x.2.isFile) = some true := by decide +kernel

/-- If another header follows the type, the last character of the type is lost. -/
theorem C48_type_false : (parseHeaders (ascii "\r\nContent-Disposition: form-data; name=\"f\"; filename=\"x\"\r\nContent-Type: text/plain\r\nX: y")).toOption.map
    (fun x => x.2.mime) = some (ascii "text/plai") := by decide +kernel

end Verif.Server.Mpfd
