import Verif.Server.Request
import Verif.Server.Spec
import Mathlib.Data.List.Induction
import Mathlib.Data.Int.Cast.Basic

set_option linter.unusedVariables false
set_option linter.unusedSimpArgs false

namespace Verif.Server
open Spec

theorem add_add (n m : Nat) (x : Result) : Result.add n (Result.add m x) = Result.add (n + m) x := by
  rcases x with _ | ⟨v, k, p, r⟩
  · rfl
  · simp [Result.add, Nat.add_assoc]

theorem add_zero (x : Result) : Result.add 0 x = x := by
  rcases x with _ | ⟨v, k, p, r⟩
  · rfl
  · simp [Result.add]

theorem parse_append (s t : Str) : ∀ p r, parse p r (s ++ t) =
    match parse p r s with
    | some (.more, n, p', r') => Result.add n (parse p' r' t)
    | x => x := by
  induction s with
  | nil => intro p r; simp [parse, add_zero]
  | cons c s ih =>
    intro p r
    simp only [List.cons_append, parse]
    rcases consume p r c with _ | ⟨v, p', r'⟩
    · rfl
    · cases v with
      | more =>
        simp only
        rw [ih]
        rcases parse p' r' s with _ | ⟨v, n, p2, r2⟩
        · rfl
        · cases v with
          | more => exact add_add _ _ _
          | yes => rfl
          | no => rfl
      | yes => rfl
      | no => rfl

theorem feed_eq (cs : List Str) : ∀ p r, feed p r cs = parse p r cs.flatten := by
  induction cs with
  | nil => intro p r; rfl
  | cons c cs ih =>
    intro p r
    rw [List.flatten_cons, parse_append, feed]
    rcases parse p r c with _ | ⟨v, n, p2, r2⟩
    · rfl
    · cases v <;> simp [ih]

/-- Reading `s` leads from one state to another without a verdict. -/
def Runs (p : Parser) (r : Request) (s : Str) (p' : Parser) (r' : Request) : Prop :=
  parse p r s = some (.more, s.length, p', r')

theorem Runs.then {p r s p' r'} (h : Runs p r s p' r') (t : Str) :
    parse p r (s ++ t) = Result.add s.length (parse p' r' t) := by
  rw [parse_append, show parse p r s = _ from h]

theorem Runs.nil (p r) : Runs p r [] p r := rfl

theorem Runs.trans {p r s p' r' t p2 r2} (h : Runs p r s p' r') (h' : Runs p' r' t p2 r2) : Runs p r (s ++ t) p2 r2 := by
  unfold Runs
  rw [h.then, show parse p' r' t = _ from h']
  simp [Result.add]

theorem Runs.one {p r c p' r'} (h : consume p r c = some (.more, p', r')) : Runs p r [c] p' r' := by
  simp [Runs, parse, h, Result.add]

theorem Runs.cons {p r c p' r' s p2 r2} (h : consume p r c = some (.more, p', r')) (h' : Runs p' r' s p2 r2) :
    Runs p r (c :: s) p2 r2 := (Runs.one h).trans h'

/-! ### Characters -/

theorem isCtl_iff (c : Byte) : isCtl c = true ↔ Ctl c := by
  simp only [isCtl, Ctl, Bool.or_eq_true, decide_eq_true_eq, beq_iff_eq, UInt8.le_iff_toNat_le, ← UInt8.toNat_inj]
  show c.toNat ≤ 31 ∨ c.toNat = 127 ↔ _
  omega

theorem isCtl_false {c : Byte} (h : ¬ Ctl c) : isCtl c = false := by
  rw [← isCtl_iff] at h; simpa using h

theorem isDigit_iff (c : Byte) : isDigit c = true ↔ Digit c := by
  simp only [isDigit, Digit, Bool.and_eq_true, decide_eq_true_eq, UInt8.le_iff_toNat_le]
  rfl

theorem isToken_iff (c : Byte) : isToken c = true ↔ TokenChar c := by
  unfold isToken TokenChar isTspecial
  rw [Bool.and_eq_true, Bool.and_eq_true, Bool.not_eq_true', Bool.not_eq_true', ← Bool.not_eq_true, ← Bool.not_eq_true,
    isCtl_iff]
  simp only [isChar, decide_eq_true_eq, UInt8.lt_iff_toNat_lt, separators, and_assoc]
  rfl

theorem token_ne {c d : Byte} (h : TokenChar c) (hd : d ∈ separators) : c ≠ d := by
  rintro rfl; exact h.2.2 hd

theorem not_ctl_ne {c d : Byte} (h : ¬ Ctl c) (hd : Ctl d) : c ≠ d := by
  rintro rfl; exact h hd

theorem ctl_cr : Ctl 13 := by unfold Ctl; decide
theorem ctl_lf : Ctl 10 := by unfold Ctl; decide
theorem ctl_tab : Ctl 9 := by unfold Ctl; decide

/-! ### The request line -/

variable {l k : Int}

theorem runs_method (s : Str) : ∀ {r : Request}, (∀ c ∈ s, TokenChar c) →
    Runs ⟨.method, l, k⟩ r s ⟨.method, l, k⟩ { r with method := r.method ++ s } := by
  induction s with
  | nil => intro r _; simpa using Runs.nil _ _
  | cons c s ih =>
    intro r h
    have hc := h c (by simp)
    have h1 : consume ⟨.method, l, k⟩ r c = some (.more, ⟨.method, l, k⟩, { r with method := r.method ++ [c] }) := by
      simp [consume, go, (isToken_iff c).2 hc, token_ne hc (d := 32) (by decide)]
    have := Runs.cons h1 (ih (r := { r with method := r.method ++ [c] }) (fun c hc => h c (by simp [hc])))
    simpa using this

theorem runs_uri (s : Str) : ∀ {r : Request}, (∀ c ∈ s, ¬ Ctl c ∧ c ≠ 32) →
    Runs ⟨.uri, l, k⟩ r s ⟨.uri, l, k⟩ { r with uri := r.uri ++ s } := by
  induction s with
  | nil => intro r _; simpa using Runs.nil _ _
  | cons c s ih =>
    intro r h
    have hc := h c (by simp)
    have h1 : consume ⟨.uri, l, k⟩ r c = some (.more, ⟨.uri, l, k⟩, { r with uri := r.uri ++ [c] }) := by
      simp [consume, go, isCtl_false hc.1, hc.2]
    have := Runs.cons h1 (ih (r := { r with uri := r.uri ++ [c] }) (fun c hc => h c (by simp [hc])))
    simpa using this

theorem number_snoc (s : Str) (c : Byte) : number (s ++ [c]) = number s * 10 + (c.toNat - 48) := by
  simp [number]

theorem number_mono (s t : Str) : number s ≤ number (s ++ t) := by
  induction t using List.reverseRecOn with
  | nil => simp
  | append_singleton t c ih =>
    rw [← List.append_assoc, number_snoc]; omega

theorem addDigit_number {s : Str} {c : Byte} (hc : Digit c) (h : number (s ++ [c]) ≤ 2000000000) :
    addDigit (number s) c = some (number (s ++ [c]) : Nat) := by
  rw [number_snoc] at h ⊢
  have := hc.1
  have := hc.2
  unfold addDigit
  rw [if_pos (by omega)]
  congr 1
  omega

theorem digit_ne {c d : Byte} (h : Digit c) (hd : ¬ Digit d) : c ≠ d := by
  rintro rfl; exact hd h

theorem not_digit_dot : ¬ Digit 46 := by unfold Digit; decide
theorem not_digit_cr : ¬ Digit 13 := by unfold Digit; decide

theorem runs_major (t : Str) : ∀ {r : Request} {s : Str}, (∀ d ∈ t, Digit d) → number (s ++ t) ≤ 2000000000 → r.major = number s →
    Runs ⟨.major, l, k⟩ r t ⟨.major, l, k⟩ { r with major := number (s ++ t) } := by
  induction t with
  | nil => intro r s _ _ h; simpa [← h] using Runs.nil _ _
  | cons c t ih =>
    intro r s h hn hr
    have hc := h c (by simp)
    have e : s ++ c :: t = (s ++ [c]) ++ t := by simp
    have h1 : consume ⟨.major, l, k⟩ r c =
        some (.more, ⟨.major, l, k⟩, { r with major := (number (s ++ [c]) : Nat) }) := by
      simp only [consume, digit_ne hc not_digit_dot, if_false, (isDigit_iff c).2 hc, if_true, hr]
      rw [addDigit_number hc]
      · rfl
      · rw [e] at hn; exact Nat.le_trans (number_mono _ _) hn
    have := Runs.cons h1 (ih (r := { r with major := (number (s ++ [c]) : Nat) }) (s := s ++ [c])
      (fun c hc => h c (by simp [hc])) (by rw [← e]; exact hn) rfl)
    rw [e]; exact this

theorem runs_minor (t : Str) : ∀ {r : Request} {s : Str}, (∀ d ∈ t, Digit d) → number (s ++ t) ≤ 2000000000 → r.minor = number s →
    Runs ⟨.minor, l, k⟩ r t ⟨.minor, l, k⟩ { r with minor := number (s ++ t) } := by
  induction t with
  | nil => intro r s _ _ h; simpa [← h] using Runs.nil _ _
  | cons c t ih =>
    intro r s h hn hr
    have hc := h c (by simp)
    have e : s ++ c :: t = (s ++ [c]) ++ t := by simp
    have h1 : consume ⟨.minor, l, k⟩ r c =
        some (.more, ⟨.minor, l, k⟩, { r with minor := (number (s ++ [c]) : Nat) }) := by
      simp only [consume, digit_ne hc not_digit_cr, if_false, (isDigit_iff c).2 hc, if_true, hr]
      rw [addDigit_number hc]
      · rfl
      · rw [e] at hn; exact Nat.le_trans (number_mono _ _) hn
    have := Runs.cons h1 (ih (r := { r with minor := (number (s ++ [c]) : Nat) }) (s := s ++ [c])
      (fun c hc => h c (by simp [hc])) (by rw [← e]; exact hn) rfl)
    rw [e]; exact this

/-! ### The header lines -/

theorem runs_name (s : Str) : ∀ {r : Request} {hs : List Header} {n : Str}, (∀ c ∈ s, TokenChar c) → r.headers = hs ++ [⟨n, []⟩] →
    Runs ⟨.name, l, k⟩ r s ⟨.name, l, k⟩ { r with headers := hs ++ [⟨n ++ s, []⟩] } := by
  induction s with
  | nil => intro r hs n _ h; simpa [← h] using Runs.nil _ _
  | cons c s ih =>
    intro r hs n h hr
    have hc := h c (by simp)
    have h1 : consume ⟨.name, l, k⟩ r c = some (.more, ⟨.name, l, k⟩, { r with headers := hs ++ [⟨n ++ [c], []⟩] }) := by
      simp [consume, go, (isToken_iff c).2 hc, token_ne hc (d := 58) (by decide), pushName, hr]
    have := Runs.cons h1 (ih (r := { r with headers := hs ++ [⟨n ++ [c], []⟩] }) (hs := hs) (n := n ++ [c])
      (fun c hc => h c (by simp [hc])) rfl)
    simpa using this

theorem runs_value (s : Str) : ∀ {r : Request} {hs : List Header} {n v : Str}, (∀ c ∈ s, ¬ Ctl c) → r.headers = hs ++ [⟨n, v⟩] →
    Runs ⟨.value, l, k⟩ r s ⟨.value, l, k⟩ { r with headers := hs ++ [⟨n, v ++ s⟩] } := by
  induction s with
  | nil => intro r hs n v _ h; simpa [← h] using Runs.nil _ _
  | cons c s ih =>
    intro r hs n v h hr
    have hc := h c (by simp)
    have h1 : consume ⟨.value, l, k⟩ r c = some (.more, ⟨.value, l, k⟩, { r with headers := hs ++ [⟨n, v ++ [c]⟩] }) := by
      simp [consume, go, isCtl_false hc, not_ctl_ne hc ctl_cr, pushValue, hr]
    have := Runs.cons h1 (ih (r := { r with headers := hs ++ [⟨n, v ++ [c]⟩] }) (hs := hs) (n := n) (v := v ++ [c])
      (fun c hc => h c (by simp [hc])) rfl)
    simpa using this

theorem runs_line {r : Request} (x : Str × Str) (hn : x.1 ≠ []) (ht : ∀ c ∈ x.1, TokenChar c) (hv : ∀ c ∈ x.2, ¬ Ctl c) :
    Runs ⟨.lineStart, l, k⟩ r (line x) ⟨.lineStart, l, k⟩ { r with headers := r.headers ++ [⟨x.1, x.2⟩] } := by
  obtain ⟨n, v⟩ := x
  cases n with
  | nil => exact absurd rfl hn
  | cons c n =>
    have hc := ht c (by simp)
    have h1 : consume ⟨.lineStart, l, k⟩ r c =
        some (.more, ⟨.name, l, k⟩, { r with headers := r.headers ++ [⟨[c], []⟩] }) := by
      simp [consume, go, (isToken_iff c).2 hc, token_ne hc (d := 32) (by decide), token_ne hc (d := 9) (by decide),
        not_ctl_ne hc.2.1 ctl_cr]
    have e : line (c :: n, v) = c :: (n ++ ([58] ++ ([32] ++ (v ++ ([13] ++ [10]))))) := by simp [line, crlf]
    rw [e]
    refine Runs.cons h1 (Runs.trans (runs_name n (hs := r.headers) (n := [c]) (fun c hc => ht c (by simp [hc])) rfl) ?_)
    refine Runs.trans (Runs.one (c := 58) (p' := ⟨.spaceBefore, l, k⟩)
      (r' := { r with headers := r.headers ++ [⟨c :: n, []⟩] }) rfl) ?_
    refine Runs.trans (Runs.one (c := 32) (p' := ⟨.value, l, k⟩)
      (r' := { r with headers := r.headers ++ [⟨c :: n, []⟩] }) rfl) ?_
    refine Runs.trans (runs_value v (hs := r.headers) (n := c :: n) (v := []) hv rfl) ?_
    refine Runs.trans (Runs.one (c := 13) (p' := ⟨.newline2, l, k⟩)
      (r' := { r with headers := r.headers ++ [⟨c :: n, v⟩] }) rfl) ?_
    exact Runs.one rfl

theorem runs_lines (xs : List (Str × Str)) : ∀ {r : Request}, (∀ x ∈ xs, x.1 ≠ [] ∧ ∀ c ∈ x.1, TokenChar c) →
    (∀ x ∈ xs, ∀ c ∈ x.2, ¬ Ctl c) →
    Runs ⟨.lineStart, l, k⟩ r (xs.flatMap line) ⟨.lineStart, l, k⟩
      { r with headers := r.headers ++ xs.map (fun x => ⟨x.1, x.2⟩) } := by
  induction xs with
  | nil => intro r _ _; simpa using Runs.nil _ _
  | cons x xs ih =>
    intro r h1 h2
    have hx := h1 x (by simp)
    have := Runs.trans (runs_line (l := l) (k := k) (r := r) x hx.1 hx.2 (h2 x (by simp)))
      (ih (r := { r with headers := r.headers ++ [⟨x.1, x.2⟩] }) (fun x hx => h1 x (by simp [hx]))
        (fun x hx => h2 x (by simp [hx])))
    simpa using this

/-- The request a head stands for. -/
def reqOf (h : Head) : Request :=
  ⟨h.method, h.uri, number h.major, number h.minor, h.headers.map (fun x => ⟨x.1, x.2⟩), []⟩

theorem runs_major_start {r : Request} {s : Str} (hs : Number s) (h : r.major = 0) :
    Runs ⟨.majorStart, l, k⟩ r s ⟨.major, l, k⟩ { r with major := number s } := by
  obtain ⟨h1, h2, h3⟩ := hs
  cases s with
  | nil => exact absurd rfl h1
  | cons c s =>
    have hc := h2 c (by simp)
    have e : consume ⟨.majorStart, l, k⟩ r c =
        some (.more, ⟨.major, l, k⟩, { r with major := (number [c] : Nat) }) := by
      have := addDigit_number (s := []) (c := c) hc (Nat.le_trans (number_mono [c] s) h3)
      simp only [consume, (isDigit_iff c).2 hc, if_true, h]
      rw [show (0 : Int) = (number [] : Nat) from rfl, this]; rfl
    exact Runs.cons e (runs_major s (r := { r with major := (number [c] : Nat) }) (s := [c])
      (fun c hc => h2 c (by simp [hc])) h3 rfl)

theorem runs_minor_start {r : Request} {s : Str} (hs : Number s) (h : r.minor = 0) :
    Runs ⟨.minorStart, l, k⟩ r s ⟨.minor, l, k⟩ { r with minor := number s } := by
  obtain ⟨h1, h2, h3⟩ := hs
  cases s with
  | nil => exact absurd rfl h1
  | cons c s =>
    have hc := h2 c (by simp)
    have e : consume ⟨.minorStart, l, k⟩ r c =
        some (.more, ⟨.minor, l, k⟩, { r with minor := (number [c] : Nat) }) := by
      have := addDigit_number (s := []) (c := c) hc (Nat.le_trans (number_mono [c] s) h3)
      simp only [consume, (isDigit_iff c).2 hc, if_true, h]
      rw [show (0 : Int) = (number [] : Nat) from rfl, this]; rfl
    exact Runs.cons e (runs_minor s (r := { r with minor := (number [c] : Nat) }) (s := [c])
      (fun c hc => h2 c (by simp [hc])) h3 rfl)

/-- The whole head without the last line feed. -/
theorem runs_head {h : Head} (ok : h.Ok) :
    ∃ s, h.render = s ++ [10] ∧ Runs {} {} s ⟨.newline3, 0, 0⟩ (reqOf h) := by
  obtain ⟨hm, ht, hu, h1, h2, h3, h4⟩ := ok
  obtain ⟨m, u, a, b, hs⟩ := h
  simp only at hm ht hu h1 h2 h3 h4
  refine ⟨m ++ ([32] ++ (u ++ ([32] ++ ([72, 84, 84, 80, 47] ++ (a ++ ([46] ++ (b ++ ([13, 10] ++
    (hs.flatMap line ++ [13]))))))))), by simp [Head.render, crlf], ?_⟩
  have hm' : Runs {} {} m ⟨.method, 0, 0⟩ { ({} : Request) with method := m } := by
    cases m with
    | nil => exact absurd rfl hm
    | cons c m =>
      have e : consume {} {} c = some (.more, ⟨.method, 0, 0⟩, { ({} : Request) with method := [c] }) := by
        simp [consume, go, (isToken_iff c).2 (ht c (by simp))]
      exact Runs.cons e (runs_method m (fun c hc => ht c (by simp [hc])))
  refine hm'.trans ?_
  refine Runs.trans (Runs.one (p' := ⟨.uri, 0, 0⟩) rfl) ?_
  refine (runs_uri u hu).trans ?_
  refine Runs.trans (Runs.one (p' := ⟨.versionH, 0, 0⟩) rfl) ?_
  refine Runs.trans (p' := ⟨.majorStart, 0, 0⟩) (r' := { ({} : Request) with method := m, uri := u }) rfl ?_
  refine (runs_major_start h1 rfl).trans ?_
  refine Runs.trans (Runs.one (p' := ⟨.minorStart, 0, 0⟩) rfl) ?_
  refine (runs_minor_start h2 rfl).trans ?_
  refine Runs.trans (p' := ⟨.lineStart, 0, 0⟩) rfl ?_
  refine (runs_lines hs h3 h4).trans ?_
  exact Runs.one rfl

end Verif.Server
