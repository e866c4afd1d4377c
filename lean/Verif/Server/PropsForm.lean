import Verif.Server.Site
import Verif.Server.MultipartLemmas
import Verif.Server.PropsHandler

/-!
C47: the fields of a submitted form.
-/
set_option linter.unusedVariables false
set_option linter.unusedSimpArgs false

namespace Verif.Server.Site
open Mpfd (find)
open Spec (Encodes Hex)

/-! ### The encoding of a form -/

/-- One field as a browser sends it: `name=value`. -/
def Spec.field (x : Str × Str) : Str := x.1 ++ 61 :: x.2

/-- The fields with `&` between them. -/
def Spec.form : List (Str × Str) → Str
  | [] => []
  | [x] => field x
  | x :: l => field x ++ 38 :: form l

open Spec

/-- The value last given to a name; empty if there is none. -/
def Spec.lastValue (n : Str) : List (Str × Str) → Option Str
  | [] => none
  | x :: l => (lastValue n l).or (if x.1 = n then some x.2 else none)

/-! ### Searching -/

theorem find_char {c : Byte} {x : Str} (h : c ∉ x) (y : Str) : find [c] (x ++ c :: y) = some x.length := by
  induction x with
  | nil => simp [find]
  | cons d x ih =>
    simp only [List.mem_cons, not_or] at h
    simp [find, h.1, ih h.2]

theorem find_char_none {c : Byte} {x : Str} (h : c ∉ x) : find [c] x = none := by
  induction x with
  | nil => simp [find]
  | cons d x ih =>
    simp only [List.mem_cons, not_or] at h
    simp [find, h.1, ih h.2]

theorem find_char_cases (c : Byte) (s : Str) : (find [c] s = none ∧ c ∉ s) ∨
    ∃ x y, s = x ++ c :: y ∧ c ∉ x ∧ find [c] s = some x.length := by
  by_cases h : c ∈ s
  · obtain ⟨x, y, e, hx⟩ := List.eq_append_cons_of_mem h
    exact .inr ⟨x, y, e, hx, by rw [e]; exact find_char hx y⟩
  · exact .inl ⟨find_char_none h, h⟩

theorem findFrom_none {c : Byte} {s : Str} {p : Nat} (h : findFrom c s p = none) : c ∉ s.drop p := by
  unfold findFrom at h
  rcases find_char_cases c (s.drop p) with ⟨h1, h2⟩ | ⟨x, y, _, _, h3⟩
  · exact h2
  · simp [h3] at h

theorem findFrom_some {c : Byte} {s : Str} {p q : Nat} (h : findFrom c s p = some q) :
    ∃ x y, s.drop p = x ++ c :: y ∧ c ∉ x ∧ q = x.length + p := by
  unfold findFrom at h
  rcases find_char_cases c (s.drop p) with ⟨h1, h2⟩ | ⟨x, y, h1, h2, h3⟩
  · simp [h1] at h
  · simp [h3] at h; exact ⟨x, y, h1, h2, h.symm⟩

/-! ### Rounds -/

theorem formLoop_mono {uri : Str} : ∀ (f : Nat) {p k : Nat} {l : List (Str × Str)}, formLoop uri f p = some l →
    formLoop uri (f + k) p = some l := by
  intro f
  induction f with
  | zero => intro p k l h; simp [formLoop] at h
  | succ f ih =>
    intro p k l h
    rw [show f + 1 + k = (f + k) + 1 by omega]
    simp only [formLoop] at h ⊢
    cases e : (formRound uri p).2 with
    | none => simpa [e] using h
    | some p' =>
      simp only [e] at h ⊢
      cases e2 : formLoop uri f p' with
      | none => simp [e2] at h
      | some l' => rw [ih e2]; simpa [e2] using h

theorem formRound_next (uri : Str) (p : Nat) : (formRound uri p).2 =
    (findFrom 38 uri (match findFrom 61 uri p with | some q => q + 1 | none => 0)).map (· + 1) := by
  unfold formRound
  dsimp only
  cases findFrom 38 uri (match findFrom 61 uri p with | some q => q + 1 | none => 0) <;> simp

theorem ends_from {a b : Str} (hb : 38 ∉ b) : ∀ (n p : Nat), p ≤ a.length → ((a ++ 61 :: b).drop p).count 38 ≤ n →
    (formLoop (a ++ 61 :: b) (n + 1) p).isSome := by
  intro n
  induction n with
  | zero =>
    intro p hp hc
    simp only [formLoop, formRound_next]
    cases e : findFrom 61 (a ++ 61 :: b) p with
    | none =>
      have := findFrom_none e
      rw [List.drop_append_of_le_length hp] at this; simp at this
    | some q =>
      obtain ⟨x, y, h1, h2, h3⟩ := findFrom_some e
      dsimp only
      cases e2 : findFrom 38 (a ++ 61 :: b) (q + 1) with
      | none => simp
      | some r =>
        obtain ⟨x', y', h1', h2', h3'⟩ := findFrom_some e2
        have hm : (38 : Byte) ∈ (a ++ 61 :: b).drop p := by
          have : (a ++ 61 :: b).drop (q + 1) = ((a ++ 61 :: b).drop p).drop (q + 1 - p) := by
            rw [List.drop_drop]; congr 1; omega
          exact List.mem_of_mem_drop (i := q + 1 - p) (by rw [← this, h1']; simp)
        have := List.count_pos_iff.2 hm
        omega
  | succ n ih =>
    intro p hp hc
    rw [formLoop, formRound_next]
    cases e : findFrom 61 (a ++ 61 :: b) p with
    | none =>
      have := findFrom_none e
      rw [List.drop_append_of_le_length hp] at this; simp at this
    | some q =>
      obtain ⟨x, y, h1, h2, h3⟩ := findFrom_some e
      dsimp only
      cases e2 : findFrom 38 (a ++ 61 :: b) (q + 1) with
      | none => simp
      | some r =>
        obtain ⟨x', y', h1', h2', h3'⟩ := findFrom_some e2
        have hr : r < a.length := by
          apply Classical.byContradiction
          intro hge
          have h5 : (a ++ 61 :: b)[r]? = some 38 := by
            have := congrArg (fun l => l[r - (q + 1)]?) h1'
            simp only [List.getElem?_drop] at this
            rw [show q + 1 + (r - (q + 1)) = r by omega, show r - (q + 1) = x'.length by omega] at this
            simpa using this
          rw [List.getElem?_append_right (by omega)] at h5
          cases hk : r - a.length with
          | zero => simp [hk] at h5
          | succ k =>
            rw [hk, List.getElem?_cons_succ] at h5
            exact hb (List.mem_of_getElem? h5)
        have hc2 : ((a ++ 61 :: b).drop (r + 1)).count 38 ≤ n := by
          have e3 : (a ++ 61 :: b).drop r = 38 :: (a ++ 61 :: b).drop (r + 1) := by
            have : (a ++ 61 :: b).drop r = ((a ++ 61 :: b).drop (q + 1)).drop x'.length := by
              rw [List.drop_drop]; congr 1; omega
            rw [← List.drop_drop, this, h1']; simp
          have e4 : (a ++ 61 :: b).drop r = ((a ++ 61 :: b).drop p).drop (r - p) := by
            rw [List.drop_drop]; congr 1; omega
          have := List.Sublist.count_le 38 (List.drop_sublist (r - p) ((a ++ 61 :: b).drop p))
          rw [← e4, e3] at this
          simp at this
          omega
        have := ih (r + 1) (by omega) hc2
        simpa [-formLoop] using this

theorem ends {uri : Str} (p : Nat) (h : 38 ∉ uri ∨ ∃ a b, uri = a ++ 61 :: b ∧ 38 ∉ b) :
    (formLoop uri (uri.length + 1) p).isSome := by
  rcases h with h | ⟨a, b, rfl, hb⟩
  · simp only [formLoop, formRound_next]
    cases e : findFrom 38 uri (match findFrom 61 uri p with | some q => q + 1 | none => 0) with
    | none => simp
    | some r =>
      obtain ⟨x, y, h1, _⟩ := findFrom_some e
      exact absurd (List.mem_of_mem_drop (by rw [h1]; simp)) h
  · by_cases hp : p ≤ a.length
    · have h1 := ends_from hb (((a ++ 61 :: b).drop p).count 38) p hp (Nat.le_refl _)
      have h2 : ((a ++ 61 :: b).drop p).count 38 ≤ (a ++ 61 :: b).length :=
        Nat.le_trans List.count_le_length (by simp)
      obtain ⟨l, hl⟩ := Option.isSome_iff_exists.1 h1
      have := formLoop_mono _ (k := (a ++ 61 :: b).length - ((a ++ 61 :: b).drop p).count 38) hl
      rw [show ((a ++ 61 :: b).drop p).count 38 + 1 + ((a ++ 61 :: b).length - ((a ++ 61 :: b).drop p).count 38) =
        (a ++ 61 :: b).length + 1 by omega] at this
      rw [this]; rfl
    · simp only [formLoop, formRound_next]
      cases e : findFrom 61 (a ++ 61 :: b) p with
      | some q =>
        obtain ⟨x, y, h1, h2, h3⟩ := findFrom_some e
        dsimp only
        cases e2 : findFrom 38 (a ++ 61 :: b) (q + 1) with
        | none => simp
        | some r =>
          obtain ⟨x', y', h1', h2', h3'⟩ := findFrom_some e2
          refine absurd ?_ hb
          have : (a ++ 61 :: b).drop (q + 1) = b.drop (q - a.length) := by
            rw [List.drop_append, List.drop_of_length_le (by omega), show q + 1 - a.length = (q - a.length) + 1 by omega]
            simp
          exact List.mem_of_mem_drop (by rw [← this, h1']; simp)
      | none =>
        dsimp only
        cases e2 : findFrom 38 (a ++ 61 :: b) 0 with
        | none => simp
        | some r =>
          obtain ⟨x', y', h1', h2', h3'⟩ := findFrom_some e2
          simp only [List.drop_zero] at h1'
          have hr : r + 1 ≤ a.length := by
            apply Classical.byContradiction
            intro hge
            have h5 : (a ++ 61 :: b)[r]? = some 38 := by rw [h1', h3']; simp
            rw [List.getElem?_append_right (by omega)] at h5
            cases hk : r - a.length with
            | zero => simp [hk] at h5
            | succ k =>
              rw [hk, List.getElem?_cons_succ] at h5
              exact hb (List.mem_of_getElem? h5)
          have h1 := ends_from hb ((a ++ 61 :: b).length - 1) (r + 1) hr (by
            refine Nat.le_trans List.count_le_length ?_
            simp; omega)
          rw [show (a ++ 61 :: b).length - 1 + 1 = (a ++ 61 :: b).length by simp; omega] at h1
          simpa using h1

theorem runs_on {uri : Str} (h : 38 ∈ uri) (h' : ∀ a b, uri = a ++ 61 :: b → 38 ∈ b) : ∀ (f p : Nat),
    formLoop uri f p = none := by
  intro f
  induction f with
  | zero => intro p; rfl
  | succ f ih =>
    intro p
    simp only [formLoop, formRound_next]
    cases e : findFrom 61 uri p with
    | none =>
      dsimp only
      cases e2 : findFrom 38 uri 0 with
      | none => exact absurd (by simpa using h) (findFrom_none e2)
      | some r => simp [ih]
    | some q =>
      dsimp only
      cases e2 : findFrom 38 uri (q + 1) with
      | none =>
        obtain ⟨x, y, h1, h2, h3⟩ := findFrom_some e
        have : uri = (uri.take p ++ x) ++ 61 :: y := by
          rw [List.append_assoc, ← h1, List.take_append_drop]
        have h4 : uri.drop (q + 1) = y := by
          have : uri.drop (q + 1) = (uri.drop p).drop (x.length + 1) := by rw [List.drop_drop]; congr 1; omega
          rw [this, h1, ← List.drop_drop]; simp
        have h5 := findFrom_none e2
        rw [h4] at h5
        exact absurd (h' _ _ this) h5
      | some r => simp [ih]

/-- C47: taking a form apart comes to an end if, and only if, there is no `&` or the last `&` is followed by a `=`. -/
theorem C47_ends (uri : Str) (p : Nat) : (∃ fuel, (formLoop uri fuel p).isSome) ↔
    38 ∉ uri ∨ ∃ a b, uri = a ++ 61 :: b ∧ 38 ∉ b := by
  constructor
  · rintro ⟨f, hf⟩
    apply Classical.byContradiction
    intro hn
    simp only [not_or, not_exists, not_and, Decidable.not_not] at hn
    rw [runs_on hn.1 hn.2] at hf
    cases hf
  · intro h
    exact ⟨_, ends p h⟩

/-- C47: as many rounds as there are characters and one more are enough; further rounds make no difference. -/
theorem C47_rounds (uri : Str) (p fuel : Nat) (l : List (Str × Str)) (h : formLoop uri fuel p = some l) :
    formLoop uri (uri.length + 1) p = some l := by
  obtain ⟨l', hl⟩ := Option.isSome_iff_exists.1 (ends p ((C47_ends uri p).1 ⟨fuel, by simp [h]⟩))
  have h1 := formLoop_mono _ (k := uri.length + 1) h
  have h2 := formLoop_mono _ (k := fuel) hl
  rw [Nat.add_comm] at h1
  rw [hl, ← h2, h1]

/-- C47 (disagreement): `a=b&c` and `a=b&` are never finished. -/
theorem C47_ends_false (fuel : Nat) : formLoop (ascii "a=b&c") fuel 0 = none ∧ formLoop (ascii "a=b&") fuel 0 = none ∧
    formLoop (ascii "a&b") fuel 0 = none := by
  have key : ∀ s : Str, (¬ (38 ∉ s ∨ ∃ a b, s = a ++ 61 :: b ∧ 38 ∉ b)) → formLoop s fuel 0 = none := by
    intro s h
    cases e : formLoop s fuel 0 with
    | none => rfl
    | some l => exact absurd ((C47_ends s 0).1 ⟨fuel, by simp [e]⟩) h
  have dec : ∀ (s : Str), (∀ n, n < s.length → s[n]? = some 61 → 38 ∈ s.drop (n + 1)) →
      ¬ ∃ a b, s = a ++ 61 :: b ∧ 38 ∉ b := by
    rintro s h ⟨a, b, rfl, hb⟩
    have := h a.length (by simp) (by simp)
    rw [← List.drop_drop] at this
    simp at this
    exact hb this
  refine ⟨key _ ?_, key _ ?_, key _ ?_⟩ <;> rw [not_or] <;> exact ⟨by decide, dec _ (by decide)⟩

/-! ### Decoding -/

theorem decode_encodes {s e : Str} (h : Encodes s e) : ∀ j, urlDecode j (e.map (fun c => if c = 43 then 32 else c)) = some s := by
  induction h with
  | nil => intro j; simp [urlDecode]
  | @plain c s e h h' _ ih =>
    intro j
    rw [List.map_cons, if_neg h', urlDecode, if_neg h, ih]; rfl
  | @plus s e _ ih =>
    intro j
    rw [List.map_cons, if_pos rfl, urlDecode, if_neg (by decide), ih]; rfl
  | @percent c a b v w s e ha hb hc _ ih =>
    intro j
    obtain ⟨ha1, _, _⟩ := hex_ge ha
    obtain ⟨hb1, _, _⟩ := hex_ge hb
    have na : a ≠ 43 := by rintro rfl; simp at ha1
    have nb : b ≠ 43 := by rintro rfl; simp at hb1
    rw [List.map_cons, List.map_cons, List.map_cons, if_neg (by decide), if_neg na, if_neg nb, urlDecode, if_pos rfl]
    simp only [List.take_succ_cons, List.take_zero, List.drop_succ_cons, List.drop_zero, readHex_eq ha hb, ih]
    have : toChar ((v * 16 + w : Nat) : Int) = c := by
      rw [← hc]
      unfold toChar
      apply UInt8.toNat_inj.1
      have := c.toNat_lt
      rw [show ((c.toNat : Int) % 256).toNat = c.toNat by omega]
      simp
    rw [← this]; rfl

theorem round_field {uri : Str} {p : Nat} {n e : Str} (hn : 61 ∉ n) (he : 38 ∉ e) :
    (uri.drop p = field (n, e) → formRound uri p = ((n, e), none)) ∧
    (∀ rest, uri.drop p = field (n, e) ++ 38 :: rest → ∃ p', formRound uri p = ((n, e), some p') ∧ uri.drop p' = rest) := by
  have key : ∀ tl, uri.drop p = field (n, e) ++ tl → findFrom 61 uri p = some (n.length + p) ∧
      (uri.drop p).take (n.length + p - p) = n ∧ uri.drop (n.length + p + 1) = e ++ tl := by
    intro tl h
    refine ⟨?_, ?_, ?_⟩
    · rw [findFrom, h, show field (n, e) ++ tl = n ++ 61 :: (e ++ tl) by simp [field], find_char hn]; rfl
    · rw [h]; simp [field]
    · have : uri.drop (n.length + p + 1) = (uri.drop p).drop (n.length + 1) := by rw [List.drop_drop]; congr 1; omega
      rw [this, h, ← List.drop_drop]; simp [field]
  constructor
  · intro h
    obtain ⟨h1, h2, h3⟩ := key [] (by simpa using h)
    unfold formRound
    rw [List.append_nil] at h3
    have h4 : findFrom 38 uri (n.length + p + 1) = none := by rw [findFrom, h3, find_char_none he]; rfl
    simp only [h1, h2, h4, h3]
  · intro rest h
    obtain ⟨h1, h2, h3⟩ := key (38 :: rest) h
    have h4 : findFrom 38 uri (n.length + p + 1) = some (e.length + (n.length + p + 1)) := by
      rw [findFrom, h3, find_char he]; rfl
    refine ⟨e.length + (n.length + p + 1) + 1, ?_, ?_⟩
    · unfold formRound
      simp only [h1, h2, h4, h3]
      simp
    · have : uri.drop (e.length + (n.length + p + 1) + 1) = (uri.drop (n.length + p + 1)).drop (e.length + 1) := by
        rw [List.drop_drop]; congr 1; omega
      rw [this, h3, ← List.drop_drop]; simp

theorem loop_form {uri : Str} : ∀ (l : List (Str × Str)), l ≠ [] → (∀ x ∈ l, 61 ∉ x.1 ∧ 38 ∉ x.2) → ∀ p,
    uri.drop p = form l → formLoop uri l.length p = some l := by
  intro l
  induction l with
  | nil => intro h; exact absurd rfl h
  | cons x l ih =>
    intro _ hok p h
    obtain ⟨n, e⟩ := x
    have hx := hok (n, e) (by simp)
    cases l with
    | nil =>
      rw [List.length_singleton, formLoop, (round_field hx.1 hx.2).1 h]
    | cons y l =>
      obtain ⟨p', h1, h2⟩ := (round_field hx.1 hx.2).2 (form (y :: l)) h
      rw [List.length_cons, formLoop, h1]
      simp only
      rw [ih (by simp) (fun z hz => hok z (by simp [hz])) p' h2]
      rfl

theorem decodeAll_encodes {fields coded : List (Str × Str)}
    (h : List.Forall₂ (fun x y => x.1 = y.1 ∧ Encodes x.2 y.2) fields coded) : decodeAll coded = some fields := by
  induction h with
  | nil => rfl
  | @cons x y l l' h _ ih =>
    obtain ⟨n, v⟩ := x
    obtain ⟨n', v'⟩ := y
    obtain ⟨h1, h2⟩ := h
    simp only at h1 h2
    subst h1
    simp [decodeAll, decodeValue, decode_encodes h2, ih]

/-- C47: a form whose values are percent-encoded is taken apart into its fields, in their order, with the values decoded,
wherever in the string it starts.  Missing from the full claim: names are not decoded (`C47_names_false`), so they must
be sent as they are; a part without `=` is not a field (`C47_ends_false`, `C47_no_value_false`). -/
theorem C47_fields_partial {uri : Str} {p : Nat} {fields coded : List (Str × Str)} (hne : fields ≠ [])
    (h : List.Forall₂ (fun x y => x.1 = y.1 ∧ Encodes x.2 y.2) fields coded)
    (hn : ∀ x ∈ coded, 61 ∉ x.1 ∧ 38 ∉ x.2) (hu : uri.drop p = form coded) : parseForm uri p = some fields := by
  have hne' : coded ≠ [] := by
    rintro rfl; cases h; exact hne rfl
  have := C47_rounds uri p _ _ (loop_form coded hne' hn p hu)
  rw [parseForm, this]
  exact decodeAll_encodes h

example : parseForm (ascii "a=+%26") 0 = some [(ascii "a", ascii " &")] :=
  C47_fields_partial (coded := [(ascii "a", ascii "+%26")]) (by simp)
    (.cons ⟨rfl, .plus (.percent (c := 38) (Hex.dec (c := 50) (by decide) (by decide))
      (Hex.dec (c := 54) (by decide) (by decide)) (by decide) .nil)⟩ .nil) (by decide) (by decide)

example : parseForm (ascii "/pipe.psis?name=Jan+Kowalski&text=50%25+%26+more") 11 =
    some [(ascii "name", ascii "Jan Kowalski"), (ascii "text", ascii "50% & more")] := by decide +kernel

/-- C47: what a session keeps is the last value of each name; other names keep what they had. -/
theorem C47_stored (d : Data) (l : List (Str × Str)) (n : Str) : (d.setAll l) n = (lastValue n l).getD (d n) := by
  induction l generalizing d with
  | nil => rfl
  | cons x l ih =>
    have : d.setAll (x :: l) = (d.set x.1 x.2).setAll l := rfl
    rw [this, ih, lastValue]
    cases lastValue n l with
    | some v => rfl
    | none =>
      simp only [Option.getD_none, Option.none_or, Data.set]
      by_cases h : x.1 = n
      · simp [h]
      · rw [if_neg h, if_neg (Ne.symm h)]; rfl

example : (Data.setAll (fun _ => ascii "old") [(ascii "a", ascii "1"), (ascii "b", ascii "2"), (ascii "a", ascii "3")])
    (ascii "a") = ascii "3" := by
  rw [C47_stored]; decide

/-- C47 (disagreement): names are not decoded. -/
theorem C47_names_false : Encodes (ascii "a b") (ascii "a+b") ∧
    parseForm (ascii "a+b=c") 0 = some [(ascii "a+b", ascii "c")] := by
  refine ⟨.plain (by decide) (by decide) (.plus (.plain (by decide) (by decide) .nil)), by decide +kernel⟩

/-- C47 (disagreement): a single name without `=` gets itself as value, and a name without `=` is joined to the next
field. -/
theorem C47_no_value_false : parseForm (ascii "c") 0 = some [(ascii "c", ascii "c")] ∧
    parseForm (ascii "a&b=c") 0 = some [(ascii "a&b", ascii "c")] := by decide +kernel

/-- C47 (disagreement): `%` without a number repeats the number before it; without such a number the result is undefined. -/
theorem C47_percent_false : parseForm (ascii "a=%41%zz") 0 = some [(ascii "a", ascii "AA")] ∧
    parseForm (ascii "a=100%") 0 = none := by decide +kernel

end Verif.Server.Site
