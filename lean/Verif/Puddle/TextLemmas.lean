import Verif.Puddle.Text
import Mathlib.Tactic.FinCases
import Mathlib.Data.List.Infix

/-! # Lemmas about escaping -/

namespace Verif.Puddle

open Verif.Numconv

/-- Replacing from the left to the right. -/
def scan (lit : Str) (c : Byte) : Nat → Str → Str
  | 0, s => s
  | _ + 1, [] => []
  | n + 1, x :: s =>
    if lit.isPrefixOf (x :: s) then c :: scan lit c n ((x :: s).drop lit.length)
    else x :: scan lit c n s

theorem search_none {lit s : Str} (h : search lit s = none) (n : Nat) (c : Byte) :
    scan lit c n s = s := by
  induction s generalizing n with
  | nil => cases n <;> rfl
  | cons x s ih =>
    cases n with
    | zero => rfl
    | succ n =>
      rw [search] at h
      split at h
      · cases h
      · rename_i hp
        rw [scan, if_neg hp, ih (by simpa using h)]

theorem scan_fuel {lit : Str} (hl : lit ≠ []) {c : Byte} : ∀ {n m : Nat} {s : Str},
    s.length ≤ n → s.length ≤ m → scan lit c n s = scan lit c m s := by
  intro n
  induction n with
  | zero =>
    intro m s h _
    have : s = [] := List.length_eq_zero_iff.1 (by omega)
    subst this; cases m <;> rfl
  | succ n ih =>
    intro m s h1 h2
    cases s with
    | nil => cases m <;> rfl
    | cons x s =>
      cases m with
      | zero => simp at h2
      | succ m =>
        simp only [List.length_cons, Nat.add_le_add_iff_right] at h1 h2
        have : 0 < lit.length := List.length_pos_iff.2 hl
        rw [scan, scan]
        split
        · rw [ih (m := m)] <;> simp <;> omega
        · rw [ih h1 h2]

theorem search_some {lit s : Str} {p : Nat} (h : search lit s = some p) :
    p ≤ s.length ∧ lit <+: s.drop p ∧
      ∀ (n : Nat) (c : Byte), s.length ≤ n → lit ≠ [] →
        scan lit c n s = s.take p ++ c :: scan lit c n (s.drop (p + lit.length)) := by
  induction s generalizing p with
  | nil =>
    rw [search] at h
    split at h
    · rename_i hp
      cases h
      refine ⟨by simp, by simpa using hp, ?_⟩
      intro n c _ hl
      exact absurd (by simpa using hp) hl
    · cases h
  | cons x s ih =>
    rw [search] at h
    split at h
    · rename_i hp
      cases h
      refine ⟨by simp, by simpa using hp, ?_⟩
      intro n c hn hl
      cases n with
      | zero => simp at hn
      | succ n =>
        simp only [List.length_cons, Nat.add_le_add_iff_right] at hn
        have : 0 < lit.length := List.length_pos_iff.2 hl
        rw [scan, if_pos hp]
        simp only [List.take_zero, List.nil_append, Nat.zero_add]
        rw [scan_fuel hl (m := n + 1)] <;> simp <;> omega
    · rename_i hp
      cases hs : search lit s with
      | none => rw [hs] at h; cases h
      | some q =>
        rw [hs] at h
        cases h
        obtain ⟨h1, h2, h3⟩ := ih hs
        refine ⟨by simpa using h1, by simpa using h2, ?_⟩
        intro n c hn hl
        cases n with
        | zero => simp at hn
        | succ n =>
          simp only [List.length_cons, Nat.add_le_add_iff_right] at hn
          rw [scan, if_neg hp, h3 n c hn hl]
          have e : q + 1 + lit.length = (q + lit.length) + 1 := by omega
          rw [e, List.take_succ_cons, List.drop_succ_cons, List.cons_append]
          rw [scan_fuel hl (n := n) (m := n + 1)] <;> simp <;> omega

theorem unescapeLoop_eq {lit : Str} (hl : lit ≠ []) (c : Byte) : ∀ (fuel : Nat) (pre s : Str),
    s.length < fuel → unescapeLoop lit c fuel (pre ++ s) pre.length = pre ++ scan lit c s.length s := by
  intro fuel
  induction fuel with
  | zero => intro _ _ h; simp at h
  | succ fuel ih =>
    intro pre s h
    have hp : 0 < lit.length := List.length_pos_iff.2 hl
    rw [unescapeLoop, findFrom]
    simp only [List.drop_left]
    cases hs : search lit s with
    | none => simp [search_none hs]
    | some p =>
      obtain ⟨h1, h2, h3⟩ := search_some hs
      have h4 : lit.length + p ≤ s.length := by
        have := h2.length_le
        simp at this; omega
      simp only [Option.map_some]
      have e1 : (pre ++ s).take (p + pre.length) = pre ++ s.take p := by
        rw [Nat.add_comm, List.take_length_add_append]
      have e2 : (pre ++ s).drop (p + pre.length + lit.length) = s.drop (p + lit.length) := by
        rw [show p + pre.length + lit.length = pre.length + (p + lit.length) by omega,
          List.drop_length_add_append]
      rw [e1, e2]
      have e3 : pre ++ s.take p ++ c :: s.drop (p + lit.length)
          = (pre ++ s.take p ++ [c]) ++ s.drop (p + lit.length) := by simp
      have e4 : p + pre.length + 1 = (pre ++ s.take p ++ [c]).length := by
        simp [List.length_take, Nat.min_eq_left h1]; omega
      rw [e3, e4, ih _ _ (by simp; omega), h3 s.length c (le_refl _) hl]
      rw [scan_fuel hl (m := s.length) (le_refl _) (by simp)]
      simp

theorem unescapeOne_eq {lit : Str} (hl : lit ≠ []) (c : Byte) (s : Str) :
    unescapeOne lit c s = scan lit c s.length s := by
  have := unescapeLoop_eq hl c (s.length + 1) [] s (by omega)
  simpa [unescapeOne] using this

/-- A character that stands for itself, or an entity. -/
inductive Tok
  | chr (c : Byte)
  | ent (c : Byte)
deriving DecidableEq

/-- The entity that means a character. -/
def entity (c : Byte) : Str :=
  if c = 38 then b!"&amp;" else if c = 60 then b!"&lt;" else if c = 62 then b!"&gt;"
  else if c = 40 then b!"&#40;" else if c = 41 then b!"&#41;" else if c = 42 then b!"&#42;"
  else if c = 43 then b!"&#43;" else if c = 63 then b!"&#63;" else b!"&#124;"

/-- The characters with entities. -/
def specials : List Byte := [38, 60, 62, 40, 41, 42, 43, 63, 124]

def Tok.char : Tok → Byte
  | .chr c => c
  | .ent c => c

def Tok.text : Tok → Str
  | .chr c => [c]
  | .ent c => entity c

def chars (ts : List Tok) : Str := ts.map Tok.char
def text (ts : List Tok) : Str := ts.flatMap Tok.text

/-- All entities are those of special characters. -/
def Good (ts : List Tok) : Prop := ∀ c, Tok.ent c ∈ ts → c ∈ specials

theorem entity_cons {c : Byte} : ∃ r, entity c = 38 :: r ∧ (38 : Byte) ∉ r := by
  unfold entity
  split_ifs <;> refine ⟨_, rfl, by decide⟩

theorem entity_ne (c : Byte) : entity c ≠ [] := by
  obtain ⟨r, h, _⟩ := entity_cons (c := c)
  simp [h]

theorem entity_prefix {c d : Byte} (hc : c ∈ specials) (hd : d ∈ specials) {s : Str}
    (h : entity c <+: entity d ++ s) : c = d := by
  simp only [specials, List.mem_cons, List.not_mem_nil, or_false] at hc hd
  rcases hc with rfl | rfl | rfl | rfl | rfl | rfl | rfl | rfl | rfl <;>
  rcases hd with rfl | rfl | rfl | rfl | rfl | rfl | rfl | rfl | rfl <;>
  first
    | rfl
    | (exfalso; revert h; simp [entity, List.cons_prefix_cons]; try decide)

/-- A text in which no entity can begin is passed over. -/
theorem scan_skip {lit : Str} {c : Byte} {l : Str} (hl : lit = 38 :: l) {r : Str}
    (hr : (38 : Byte) ∉ r) {s : Str} {n : Nat} (hn : (r ++ s).length ≤ n) :
    scan lit c n (r ++ s) = r ++ scan lit c n s := by
  induction r generalizing n with
  | nil => rfl
  | cons x r ih =>
    cases n with
    | zero => simp at hn
    | succ n =>
      simp only [List.mem_cons, not_or] at hr
      simp only [List.cons_append, List.length_cons, Nat.add_le_add_iff_right] at hn
      rw [List.cons_append, scan, if_neg, ih hr.2 hn]
      · rw [scan_fuel (by simp [hl]) (n := n) (m := n + 1)]
        · rfl
        all_goals (simp at hn; omega)
      · subst hl
        simp only [List.isPrefixOf_iff_prefix, List.cons_prefix_cons, not_and]
        exact fun e => absurd e hr.1

/-- What a loop makes of a character or an entity. -/
def conv (c : Byte) : Tok → Tok
  | .chr d => .chr d
  | .ent d => if d = c then .chr c else .ent d

theorem conv_char (c : Byte) (t : Tok) : (conv c t).char = t.char := by
  cases t with
  | chr d => rfl
  | ent d =>
    rw [conv]
    split
    · rename_i h; simp [Tok.char, h]
    · rfl

theorem chars_conv (c : Byte) (ts : List Tok) : chars (ts.map (conv c)) = chars ts := by
  simp [chars, conv_char]

theorem good_conv {c : Byte} {ts : List Tok} (h : Good ts) : Good (ts.map (conv c)) := by
  intro d hd
  obtain ⟨t, ht, he⟩ := List.mem_map.1 hd
  cases t with
  | chr e => cases he
  | ent e =>
    rw [conv] at he
    split at he
    · cases he
    · cases he; exact h _ ht

/-- One loop turns its entities into characters, if nothing else looks like one. -/
theorem scan_text {c : Byte} (hc : c ∈ specials) : ∀ (ts : List Tok), Good ts →
    (∀ rest, Tok.chr 38 :: rest <:+ ts → ¬ entity c <+: 38 :: text rest) →
    ∀ n, (text ts).length ≤ n → scan (entity c) c n (text ts) = text (ts.map (conv c)) := by
  intro ts
  induction ts with
  | nil => intro _ _ n _; cases n <;> rfl
  | cons t ts ih =>
    intro hg hs n hn
    have hg' : Good ts := fun d hd => hg d (List.mem_cons_of_mem _ hd)
    have hs' : ∀ rest, Tok.chr 38 :: rest <:+ ts → ¬ entity c <+: 38 :: text rest :=
      fun rest h => hs rest (h.trans (List.suffix_cons _ _))
    obtain ⟨l, hl, hl'⟩ := entity_cons (c := c)
    have e0 : text (t :: ts) = t.text ++ text ts := rfl
    have e1 : text ((t :: ts).map (conv c)) = (conv c t).text ++ text (ts.map (conv c)) := rfl
    rw [e0] at hn ⊢
    rw [e1]
    cases t with
    | chr d =>
      simp only [Tok.text, conv, List.cons_append, List.nil_append] at hn ⊢
      cases n with
      | zero => simp at hn
      | succ n =>
        simp only [List.length_cons, Nat.add_le_add_iff_right] at hn
        rw [scan, if_neg, ih hg' hs' n hn]
        rw [List.isPrefixOf_iff_prefix]
        intro hp
        have hd : d = 38 := by
          rw [hl, List.cons_prefix_cons] at hp
          exact hp.1.symm
        subst hd
        exact hs ts (List.suffix_refl _) hp
    | ent d =>
      have hd : d ∈ specials := hg d List.mem_cons_self
      have e2 : (Tok.ent d).text = entity d := rfl
      rw [e2] at hn ⊢
      rw [conv]
      by_cases he : d = c
      · subst he
        rw [if_pos rfl]
        cases n with
        | zero => rw [hl] at hn; simp at hn
        | succ n =>
          rw [hl, List.cons_append, scan, if_pos, ← List.cons_append, ← hl, List.drop_left]
          · simp only [Tok.text, List.cons_append, List.nil_append]
            rw [hl] at hn
            simp at hn
            rw [ih hg' hs' n (by omega)]
          · rw [List.isPrefixOf_iff_prefix, ← List.cons_append]
            exact List.prefix_append _ _
      · rw [if_neg he]
        obtain ⟨r, hr, hr'⟩ := entity_cons (c := d)
        cases n with
        | zero => rw [hr] at hn; simp at hn
        | succ n =>
          rw [hr, List.cons_append, scan, if_neg]
          · rw [hr] at hn
            simp only [List.cons_append, List.length_cons, Nat.add_le_add_iff_right] at hn
            rw [scan_skip hl hr' hn, ih hg' hs' n (by simp at hn; omega)]
            simp [Tok.text, hr]
          · rw [List.isPrefixOf_iff_prefix, ← List.cons_append, ← hr]
            intro hp
            exact he (entity_prefix hc hd hp).symm

/-- What begins without an ampersand begins so in the characters as well. -/
theorem prefix_chars {l : Str} (hl : (38 : Byte) ∉ l) : ∀ {ts : List Tok},
    l <+: text ts → l <+: chars ts := by
  induction l with
  | nil => intro _ _; exact List.nil_prefix
  | cons x l ih =>
    intro ts h
    simp only [List.mem_cons, not_or] at hl
    cases ts with
    | nil => simp [text] at h
    | cons t ts =>
      cases t with
      | chr d =>
        have : text (Tok.chr d :: ts) = d :: text ts := rfl
        rw [this, List.cons_prefix_cons] at h
        have : chars (Tok.chr d :: ts) = d :: chars ts := rfl
        rw [this, List.cons_prefix_cons]
        exact ⟨h.1, ih hl.2 h.2⟩
      | ent d =>
        obtain ⟨r, hr, _⟩ := entity_cons (c := d)
        have : text (Tok.ent d :: ts) = 38 :: (r ++ text ts) := by simp [text, Tok.text, hr]
        rw [this, List.cons_prefix_cons] at h
        exact absurd h.1.symm hl.1

theorem scan_text_chars {c : Byte} (hc : c ∈ specials) {ts : List Tok} (hg : Good ts)
    (h : ¬ entity c <:+: chars ts) (n : Nat) (hn : (text ts).length ≤ n) :
    scan (entity c) c n (text ts) = text (ts.map (conv c)) := by
  apply scan_text hc ts hg _ n hn
  intro rest hr hp
  apply h
  obtain ⟨l, hl, hl'⟩ := entity_cons (c := c)
  rw [hl, List.cons_prefix_cons] at hp
  have h1 := prefix_chars hl' hp.2
  obtain ⟨a, ha⟩ := hr
  obtain ⟨b, hb⟩ := h1
  refine ⟨chars a, b, ?_⟩
  rw [← ha, hl]
  simp [chars, Tok.char] at hb ⊢
  exact hb

theorem scan_text_none {c : Byte} (hc : c ∈ specials) {ts : List Tok} (hg : Good ts)
    (h : Tok.chr 38 ∉ ts) (n : Nat) (hn : (text ts).length ≤ n) :
    scan (entity c) c n (text ts) = text (ts.map (conv c)) := by
  apply scan_text hc ts hg _ n hn
  intro rest hr _
  exact h (hr.subset List.mem_cons_self)

/-- The exchange of plus and asterisk. -/
def swapChar (c : Byte) : Byte := if c = 43 then 42 else if c = 42 then 43 else c

/-- What escaping makes of a character. -/
def escTok (c : Byte) : Tok := if swapChar c ∈ specials then .ent (swapChar c) else .chr c

theorem escape_eq (s : Str) : escape s = text (s.map escTok) := by
  have h : ∀ c : Byte, escape [c] = (escTok c).text := by
    intro c
    by_cases h : c ∈ specials
    · simp only [specials, List.mem_cons, List.not_mem_nil, or_false] at h
      rcases h with rfl | rfl | rfl | rfl | rfl | rfl | rfl | rfl | rfl <;> decide
    · have h' : swapChar c = c := by
        unfold swapChar
        split_ifs with h1 h2
        · subst h1; exact absurd (by decide) h
        · subst h2; exact absurd (by decide) h
        · rfl
      rw [escTok, h', if_neg h]
      simp only [specials, List.mem_cons, List.not_mem_nil, or_false, not_or] at h
      simp [escape, globalReplace, h, Tok.text]
  have ha : ∀ c (b : Str) (x y : Str), globalReplace c b (x ++ y)
      = globalReplace c b x ++ globalReplace c b y := by
    intro c b x y; simp [globalReplace]
  have hb : ∀ x y : Str, escape (x ++ y) = escape x ++ escape y := by
    intro x y; simp [escape, ha]
  induction s with
  | nil => rfl
  | cons c s ih =>
    have := hb [c] s
    rw [List.singleton_append] at this
    rw [this, h, ih]
    rfl

theorem good_esc (s : Str) : Good (s.map escTok) := by
  intro c hc
  obtain ⟨d, _, he⟩ := List.mem_map.1 hc
  rw [escTok] at he
  split at he
  · cases he; assumption
  · cases he

theorem chars_esc (s : Str) : chars (s.map escTok) = s.map swapChar := by
  simp only [chars, List.map_map]
  apply List.map_congr_left
  intro c _
  simp only [Function.comp, escTok]
  split
  · rfl
  · rename_i h
    unfold swapChar at h ⊢
    split_ifs at h ⊢ <;> first | rfl | exact absurd (by decide) h

end Verif.Puddle

namespace Verif.Puddle

open Verif.Numconv

theorem text_inj : ∀ {ts us : List Tok}, Good ts → Good us → Tok.chr 38 ∉ ts → Tok.chr 38 ∉ us →
    text ts = text us → ts = us := by
  have key : ∀ (t : Tok) (ts : List Tok), text (t :: ts) = t.text ++ text ts := fun _ _ => rfl
  have ne : ∀ (t : Tok) (ts : List Tok), text (t :: ts) ≠ [] := by
    intro t ts h
    rw [key] at h
    cases t with
    | chr c => simp [Tok.text] at h
    | ent c => exact entity_ne c (List.append_eq_nil_iff.1 h).1
  intro ts
  induction ts with
  | nil =>
    intro us _ _ _ _ h
    cases us with
    | nil => rfl
    | cons u us => exact absurd h.symm (ne u us)
  | cons t ts ih =>
    intro us h1 h2 h3 h4 h
    cases us with
    | nil => exact absurd h (ne t ts)
    | cons u us =>
      have g1 : Good ts := fun d hd => h1 d (List.mem_cons_of_mem _ hd)
      have g2 : Good us := fun d hd => h2 d (List.mem_cons_of_mem _ hd)
      have g3 : Tok.chr 38 ∉ ts := fun hd => h3 (List.mem_cons_of_mem _ hd)
      have g4 : Tok.chr 38 ∉ us := fun hd => h4 (List.mem_cons_of_mem _ hd)
      rw [key, key] at h
      cases t with
      | chr c =>
        cases u with
        | chr d =>
          simp only [Tok.text, List.cons_append, List.nil_append, List.cons.injEq] at h
          rw [h.1, ih g1 g2 g3 g4 h.2]
        | ent d =>
          obtain ⟨r, hr, _⟩ := entity_cons (c := d)
          simp only [Tok.text, hr, List.cons_append, List.nil_append, List.cons.injEq] at h
          exact absurd (by rw [h.1]; exact List.mem_cons_self) h3
      | ent c =>
        cases u with
        | chr d =>
          obtain ⟨r, hr, _⟩ := entity_cons (c := c)
          simp only [Tok.text, hr, List.cons_append, List.nil_append, List.cons.injEq] at h
          exact absurd (by rw [← h.1]; exact List.mem_cons_self) h4
        | ent d =>
          simp only [Tok.text] at h
          have e := entity_prefix (h1 c List.mem_cons_self) (h2 d List.mem_cons_self)
            (s := text us) (by rw [← h]; exact List.prefix_append _ _)
          subst e
          rw [ih g1 g2 g3 g4 (List.append_cancel_left h)]

theorem swapChar_inj {c d : Byte} (h : swapChar c = swapChar d) : c = d := by
  have h1 : ∀ x, swapChar (swapChar x) = x := by
    intro x
    unfold swapChar
    split_ifs <;> simp_all
  rw [← h1 c, h, h1]

theorem noAmp_esc (s : Str) : Tok.chr 38 ∉ s.map escTok := by
  intro h
  obtain ⟨c, _, he⟩ := List.mem_map.1 h
  rw [escTok] at he
  split at he
  · cases he
  · rename_i hn
    cases he
    exact hn (by decide)

theorem noAmp_conv {c : Byte} (hc : c ≠ 38) {ts : List Tok} (h : Tok.chr 38 ∉ ts) :
    Tok.chr 38 ∉ ts.map (conv c) := by
  intro hm
  obtain ⟨t, ht, he⟩ := List.mem_map.1 hm
  cases t with
  | chr d => cases he; exact h ht
  | ent d =>
    rw [conv] at he
    split at he
    · cases he; exact hc rfl
    · cases he

theorem text_chr {ts : List Tok} (h : ∀ c, Tok.ent c ∉ ts) : text ts = chars ts := by
  induction ts with
  | nil => rfl
  | cons t ts ih =>
    have ih := ih fun c hc => h c (List.mem_cons_of_mem _ hc)
    cases t with
    | chr d =>
      simp only [text, chars, List.flatMap_cons, List.map_cons, Tok.text, Tok.char] at ih ⊢
      rw [← ih]; rfl
    | ent d => exact absurd List.mem_cons_self (h d)

theorem no_ent (ts : List Tok) (hg : Good ts) (c : Byte) :
    Tok.ent c ∉ (((((((((ts.map (conv 40)).map (conv 41)).map (conv 42)).map (conv 43)).map
      (conv 38)).map (conv 60)).map (conv 62)).map (conv 63)).map (conv 124)) := by
  have h : ∀ (d : Byte) (us : List Tok), Tok.ent c ∈ us.map (conv d) → c ≠ d ∧ Tok.ent c ∈ us := by
    intro d us hm
    obtain ⟨t, ht, he⟩ := List.mem_map.1 hm
    cases t with
    | chr e => cases he
    | ent e =>
      rw [conv] at he
      split at he
      · cases he
      · rename_i hn; cases he; exact ⟨hn, ht⟩
  intro h0
  obtain ⟨a1, h1⟩ := h _ _ h0
  obtain ⟨a2, h2⟩ := h _ _ h1
  obtain ⟨a3, h3⟩ := h _ _ h2
  obtain ⟨a4, h4⟩ := h _ _ h3
  obtain ⟨a5, h5⟩ := h _ _ h4
  obtain ⟨a6, h6⟩ := h _ _ h5
  obtain ⟨a7, h7⟩ := h _ _ h6
  obtain ⟨a8, h8⟩ := h _ _ h7
  obtain ⟨a9, h9⟩ := h _ _ h8
  have := hg c h9
  simp only [specials, List.mem_cons, List.not_mem_nil, or_false] at this
  rcases this with r | r | r | r | r | r | r | r | r <;> contradiction

/-- A round with an entity. -/
theorem unescapeOne_text {c : Byte} (ts : List Tok)
    (h : ∀ n, (text ts).length ≤ n → scan (entity c) c n (text ts) = text (ts.map (conv c))) :
    unescapeOne (entity c) c (text ts) = text (ts.map (conv c)) := by
  rw [unescapeOne_eq (entity_ne c), h _ (le_refl _)]

theorem unescape_escape {s : Str}
    (h : ∀ c ∈ [(60 : Byte), 62, 63, 124], ¬ entity c <:+: s) :
    unescape (escape s) = s.map swapChar := by
  have hi : ∀ c ∈ [(60 : Byte), 62, 63, 124], ¬ entity c <:+: s.map swapChar := by
    intro c hc hp
    apply h c hc
    obtain ⟨a, b, hab⟩ := hp
    have h1 : ∀ x, swapChar (swapChar x) = x := by
      intro x
      unfold swapChar
      split_ifs <;> simp_all
    have h2 : (entity c).map swapChar = entity c := by
      simp only [List.mem_cons, List.not_mem_nil, or_false] at hc
      rcases hc with rfl | rfl | rfl | rfl <;> decide
    refine ⟨a.map swapChar, b.map swapChar, ?_⟩
    have h3 : (s.map swapChar).map swapChar = s := by
      rw [List.map_map]
      conv_rhs => rw [← List.map_id s]
      exact List.map_congr_left fun x _ => h1 x
    rw [← h3, ← hab]
    simp [h2]
  have g := good_esc s
  have n0 := noAmp_esc s
  have c0 := chars_esc s
  rw [escape_eq]
  generalize s.map escTok = ts at g n0 c0
  have g1 := good_conv (c := 40) g
  have g2 := good_conv (c := 41) g1
  have g3 := good_conv (c := 42) g2
  have g4 := good_conv (c := 43) g3
  have g5 := good_conv (c := 38) g4
  have g6 := good_conv (c := 60) g5
  have g7 := good_conv (c := 62) g6
  have g8 := good_conv (c := 63) g7
  have n1 := noAmp_conv (c := 40) (by decide) n0
  have n2 := noAmp_conv (c := 41) (by decide) n1
  have n3 := noAmp_conv (c := 42) (by decide) n2
  have n4 := noAmp_conv (c := 43) (by decide) n3
  have e1 := unescapeOne_text (c := 40) _ (scan_text_none (by decide) g n0)
  have e2 := unescapeOne_text (c := 41) _ (scan_text_none (by decide) g1 n1)
  have e3 := unescapeOne_text (c := 42) _ (scan_text_none (by decide) g2 n2)
  have e4 := unescapeOne_text (c := 43) _ (scan_text_none (by decide) g3 n3)
  have e5 := unescapeOne_text (c := 38) _ (scan_text_none (by decide) g4 n4)
  have e6 := unescapeOne_text (c := 60) _ (scan_text_chars (by decide) g5
    (by simp only [chars_conv, c0]; exact hi 60 (by decide)))
  have e7 := unescapeOne_text (c := 62) _ (scan_text_chars (by decide) g6
    (by simp only [chars_conv, c0]; exact hi 62 (by decide)))
  have e8 := unescapeOne_text (c := 63) _ (scan_text_chars (by decide) g7
    (by simp only [chars_conv, c0]; exact hi 63 (by decide)))
  have e9 := unescapeOne_text (c := 124) _ (scan_text_chars (by decide) g8
    (by simp only [chars_conv, c0]; exact hi 124 (by decide)))
  have u : ∀ x, unescape x = unescapeOne (entity 124) 124 (unescapeOne (entity 63) 63
      (unescapeOne (entity 62) 62 (unescapeOne (entity 60) 60 (unescapeOne (entity 38) 38
      (unescapeOne (entity 43) 43 (unescapeOne (entity 42) 42 (unescapeOne (entity 41) 41
      (unescapeOne (entity 40) 40 x)))))))) := fun _ => rfl
  rw [u, e1, e2, e3, e4, e5, e6, e7, e8, e9, text_chr (no_ent _ g)]
  simp only [chars_conv, c0]

theorem scan_noAmp {lit l : Str} (hl : lit = 38 :: l) {c : Byte} {s : Str} (h : (38 : Byte) ∉ s)
    {n : Nat} (hn : s.length ≤ n) : scan lit c n s = s := by
  have := scan_skip (c := c) hl h (s := []) (n := n) (by simpa using hn)
  simp only [List.append_nil] at this
  rw [this]
  cases n <;> simp [scan]

theorem unescape_noAmp {s : Str} (h : (38 : Byte) ∉ s) : unescape s = s := by
  have k : ∀ (l : Str) (c : Byte), unescapeOne (38 :: l) c s = s := by
    intro l c
    rw [unescapeOne_eq (by simp), scan_noAmp rfl h (le_refl _)]
  unfold unescape
  simp only [k]

end Verif.Puddle
