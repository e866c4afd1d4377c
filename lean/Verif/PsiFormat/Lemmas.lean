import Verif.PsiFormat.Spec
import Verif.Quoter.Props
import Mathlib.Tactic.Tauto

/-!
Helper lemmas for Props.lean.
-/
set_option linter.unusedSimpArgs false
set_option linter.unusedVariables false
namespace Verif.PsiFormat
open Verif
variable {D : Type} [DecidableEq D]

/-! ### Parsers -/

/-- The first character is not one of these. -/
def Stops (p : Byte → Bool) (s : Str) : Prop := ∀ b, s.head? = some b → p b = false

theorem Stops.nil (p : Byte → Bool) : Stops p [] := by intro b h; cases h

theorem Stops.cons {p : Byte → Bool} {b : Byte} (h : p b = false) (s : Str) : Stops p (b :: s) := by
  intro c hc; cases hc; exact h

theorem takeWhile_stop {p : Byte → Bool} {a s : Str} (ha : ∀ b ∈ a, p b = true) (hs : Stops p s) :
    (a ++ s).takeWhile p = a ∧ (a ++ s).dropWhile p = s := by
  induction a with
  | nil =>
    cases s with
    | nil => simp
    | cons b s => simp [hs b rfl]
  | cons b a ih =>
    have := ih (fun c hc => ha c (List.mem_cons_of_mem _ hc))
    simp [ha b (List.mem_cons_self ..), this.1, this.2]

theorem many1_eq {p : Byte → Bool} {a s : Str} (ha : ∀ b ∈ a, p b = true) (hne : a ≠ []) (hs : Stops p s) :
    many1 p (a ++ s) = some (a, s) := by
  unfold many1
  obtain ⟨h1, h2⟩ := takeWhile_stop ha hs
  rw [h1, h2]
  cases a with
  | nil => exact absurd rfl hne
  | cons b a => rfl

theorem many1_none {p : Byte → Bool} {s : Str} (hs : Stops p s) : many1 p s = none := by
  unfold many1
  cases s with
  | nil => rfl
  | cons b s => simp [hs b rfl]

theorem lit_cons (c : Byte) (s : Str) : lit c (c :: s) = some s := by simp [lit]

theorem lit_ne {c b : Byte} (h : b ≠ c) (s : Str) : lit c (b :: s) = none := by simp [lit, h]

theorem lit_nil (c : Byte) : lit c [] = none := rfl

theorem lit_stop {c : Byte} {s : Str} (h : Stops (fun b => b == c) s) : lit c s = none := by
  cases s with
  | nil => rfl
  | cons b s =>
    have := h b rfl
    simp at this
    exact lit_ne this s

/-! ### Numbers -/

theorem ofNat_digit {k : Nat} (h : k < 10) : (UInt8.ofNat (48 + k)).toNat = 48 + k := by
  rw [UInt8.toNat_ofNat_of_lt' (by simp only [UInt8.size]; omega)]

theorem isDigit_ofNat {k : Nat} (h : k < 10) : isDigit (UInt8.ofNat (48 + k)) = true := by
  simp only [isDigit, Bool.and_eq_true, decide_eq_true_eq, UInt8.le_iff_toNat_le]
  rw [ofNat_digit h]
  constructor
  · show 48 ≤ _; omega
  · show _ ≤ 57; omega

theorem decF_digit (f n : Nat) : ∀ b ∈ decF f n, isDigit b = true := by
  induction f generalizing n with
  | zero =>
    intro b hb
    simp only [decF, List.mem_singleton] at hb
    rw [hb]
    exact isDigit_ofNat (Nat.mod_lt _ (by omega))
  | succ f ih =>
    intro b hb
    rw [decF] at hb
    split at hb
    · simp only [List.mem_singleton] at hb
      rw [hb]
      exact isDigit_ofNat (Nat.mod_lt _ (by omega))
    · rw [List.mem_append] at hb
      rcases hb with hb | hb
      · exact ih _ b hb
      · simp only [List.mem_singleton] at hb
        rw [hb]
        exact isDigit_ofNat (Nat.mod_lt _ (by omega))

theorem decF_ne (f n : Nat) : decF f n ≠ [] := by
  cases f with
  | zero => simp [decF]
  | succ f =>
    rw [decF]
    split <;> simp

theorem value_append (a b : Str) : value (a ++ b) = b.foldl (fun v b => v * 10 + (b.toNat - 48)) (value a) := by
  unfold value
  rw [List.foldl_append]

theorem value_decF (f n : Nat) (h : n ≤ f) : value (decF f n) = n := by
  induction f generalizing n with
  | zero =>
    have : n = 0 := by omega
    subst this
    decide
  | succ f ih =>
    rw [decF]
    split
    · rename_i hlt
      simp only [value, List.foldl_cons, List.foldl_nil]
      rw [ofNat_digit (Nat.mod_lt _ (by omega))]
      omega
    · rename_i hlt
      rw [value_append, ih _ (by omega)]
      simp only [List.foldl_cons, List.foldl_nil]
      rw [ofNat_digit (Nat.mod_lt _ (by omega))]
      omega

theorem dec0_digit (w n : Nat) : ∀ b ∈ dec0 w n, isDigit b = true := by
  intro b hb
  unfold dec0 at hb
  rw [List.mem_append] at hb
  rcases hb with hb | hb
  · rw [(List.mem_replicate.1 hb).2]; decide
  · exact decF_digit _ _ b hb

theorem dec0_ne (w n : Nat) : dec0 w n ≠ [] := by
  unfold dec0
  intro h
  exact decF_ne n n (List.append_eq_nil_iff.1 h).2

theorem value_zeros (k : Nat) : value (List.replicate k 48) = 0 := by
  induction k with
  | zero => rfl
  | succ k ih =>
    rw [List.replicate_succ']
    rw [value_append, ih]
    rfl

theorem value_dec0 (w n : Nat) : value (dec0 w n) = n := by
  unfold dec0
  rw [value_append, value_zeros]
  exact value_decF n n (Nat.le_refl _)

theorem int_digits {s t : Str} (h1 : ∀ b ∈ s, isDigit b = true) (h2 : s ≠ []) (h3 : Stops isDigit t) (h4 : Small (value s)) :
    int (s ++ t) = some ((value s : Int), t) := by
  cases s with
  | nil => exact absurd rfl h2
  | cons b s =>
    have hb := h1 b (List.mem_cons_self ..)
    have hm := many1_eq h1 h2 h3
    unfold int
    rw [List.cons_append] at hm ⊢
    split
    · rename_i t' heq
      injection heq with he _
      rw [he] at hb
      exact absurd hb (by decide)
    · rename_i t' heq
      injection heq with he _
      rw [he] at hb
      exact absurd hb (by decide)
    · rw [hm]
      simp only [Option.bind_some]
      rw [if_pos (show value (b :: s) ≤ 2147483647 from h4)]

theorem int_dec0 (w n : Nat) {t : Str} (hn : Small n) (ht : Stops isDigit t) : int (dec0 w n ++ t) = some ((n : Int), t) := by
  have := int_digits (dec0_digit w n) (dec0_ne w n) ht (by rw [value_dec0]; exact hn)
  rw [value_dec0] at this
  exact this

theorem dec_eq (n : Nat) : dec n = dec0 0 n := by simp [dec0]

/-! ### Quoting -/

theorem mem_escape {s : Str} {b : Byte} (h : b ∈ esc s) : b ∈ s ∨ b = 95 ∨ b = 92 ∨ b = 110 ∨ b = 116 ∨ b = 114 := by
  unfold esc at h
  induction s with
  | nil => simp [Quoter.escape] at h
  | cons c s ih =>
    rw [Quoter.escape, List.mem_append] at h
    rcases h with h | h
    · unfold Quoter.escapeByte at h
      simp only [B.space, B.underscore, B.nl, B.backslash, B.n, B.tab, B.t, B.cr, B.r, B.star] at h
      have : b = c ∨ b = 95 ∨ b = 92 ∨ b = 110 ∨ b = 116 ∨ b = 114 := by
        split at h
        · simp at h; simp [h]
        · split at h
          · simp at h; rcases h with h | h <;> simp [h]
          · split at h
            · simp at h; rcases h with h | h <;> simp [h]
            · split at h
              · simp at h; rcases h with h | h <;> simp [h]
              · split at h
                · simp at h; rcases h with h | h <;> simp [h]
                · split at h
                  · rename_i hc
                    simp at h; rcases h with h | h <;> simp [h, hc]
                  · split at h
                    · rename_i hc
                      simp at h; simp [h]
                    · split at h
                      · simp at h; rcases h with h | h <;> simp [h]
                      · simp at h; simp [h]
      rcases this with h | h
      · exact Or.inl (by simp [h])
      · exact Or.inr h
    · rcases ih h with h | h
      · exact Or.inl (List.mem_cons_of_mem _ h)
      · exact Or.inr h

theorem not_mem_escape {s : Str} {c : Byte} (h : c ∉ s) (hc : c ≠ 95 ∧ c ≠ 92 ∧ c ≠ 110 ∧ c ≠ 116 ∧ c ≠ 114) : c ∉ esc s := by
  intro hm
  rcases mem_escape hm with h' | h' | h' | h' | h' | h'
  · exact h h'
  · exact hc.1 h'
  · exact hc.2.1 h'
  · exact hc.2.2.1 h'
  · exact hc.2.2.2.1 h'
  · exact hc.2.2.2.2 h'

theorem esc_sep (s : Str) : ∀ b ∈ esc s, b ≠ 32 ∧ b ≠ 9 ∧ b ≠ 10 ∧ b ≠ 13 := by
  intro b hb
  have := Quoter.C16_no_separator Quoter.psiQuotations (by
    intro b hb
    simp [Quoter.psiQuotations] at hb
    subst hb
    simp [Quoter.Spec.isSeparator, B.hash]) s b hb
  simp only [Quoter.Spec.isSeparator, not_or] at this
  exact this

theorem esc_append (s t : Str) : esc (s ++ t) = esc s ++ esc t := Quoter.escape_append _ s t

theorem esc_nil : esc [] = [] := rfl

theorem esc_ne {s : Str} (h : s ≠ []) : esc s ≠ [] := fun h' => h ((Quoter.C16_nonempty _ s).1 h')

theorem unesc_esc (s : Str) : unesc (esc s) = some s := Quoter.C15_psi s

/-- Not changed by quoting. -/
def Safe (b : Byte) : Prop := b ≠ 9 ∧ b ≠ 10 ∧ b ≠ 13 ∧ b ≠ 32 ∧ b ≠ 35 ∧ b ≠ 42 ∧ b ≠ 92 ∧ b ≠ 95

theorem escapeByte_safe {b : Byte} (h : Safe b) : Quoter.escapeByte Quoter.psiQuotations b = [b] := by
  obtain ⟨h1, h2, h3, h4, h5, h6, h7, h8⟩ := h
  unfold Quoter.escapeByte
  simp [B.space, B.underscore, B.nl, B.backslash, B.n, B.tab, B.t, B.cr, B.r, B.star, Quoter.psiQuotations, B.hash, *]

theorem esc_safe {s : Str} (h : ∀ b ∈ s, Safe b) : esc s = s := by
  unfold esc
  induction s with
  | nil => rfl
  | cons b s ih =>
    rw [Quoter.escape, ih (fun c hc => h c (List.mem_cons_of_mem _ hc)), escapeByte_safe (h b (List.mem_cons_self ..))]
    rfl

theorem unesc_append {s t a b : Str} (hs : unesc s = some a) (ht : unesc t = some b) : unesc (s ++ t) = some (a ++ b) := by
  unfold unesc at *
  rw [Quoter.unescape_iff] at *
  induction hs with
  | nil => exact ht
  | blank _ ih => exact .blank ih
  | esc h _ ih => exact .esc h ih
  | lit h1 h2 _ ih => exact .lit h1 h2 ih

theorem unesc_safe {s : Str} (h : ∀ b ∈ s, Safe b) : unesc s = some s := by
  have := unesc_esc s
  rw [esc_safe h] at this
  exact this

/-! ### Lists with separators -/

/-- What follows the first word. -/
def tail (c : Byte) (rest : Str) : List Str → Str
  | [] => rest
  | a :: l => c :: a ++ tail c rest l

theorem join_cons (c : Byte) (a : Str) (l : List Str) (rest : Str) : join c (a :: l) ++ rest = a ++ tail c rest l := by
  induction l generalizing a with
  | nil => rfl
  | cons b l ih =>
    rw [join, tail, List.append_assoc, List.cons_append, ih]
    rfl

/-- The parser reads each word before what follows it. -/
def Good {α : Type} (p : Str → Option (α × Str)) (c : Byte) (rest : Str) : List (Str × α) → Prop
  | [] => True
  | (a, x) :: l => p (a ++ tail c rest (l.map Prod.fst)) = some (x, tail c rest (l.map Prod.fst)) ∧ Good p c rest l

theorem sepRest_eq {α : Type} {p : Str → Option (α × Str)} {c : Byte} {rest : Str} (hrest : (lit c rest).bind p = none)
    (l : List (Str × α)) (h : Good p c rest l) (n : Nat) (hn : l.length ≤ n) :
    sepRest p c n (tail c rest (l.map Prod.fst)) = (l.map Prod.snd, rest) := by
  induction l generalizing n with
  | nil =>
    cases n with
    | zero => rfl
    | succ n =>
      simp only [List.map_nil, tail, sepRest, hrest]
  | cons a l ih =>
    cases n with
    | zero => simp at hn
    | succ n =>
      obtain ⟨a, x⟩ := a
      obtain ⟨h1, h2⟩ := h
      simp only [List.map_cons, tail, sepRest, List.cons_append, lit_cons, Option.bind_some, h1]
      rw [ih h2 n (by simpa using hn)]

theorem tail_length (c : Byte) (rest : Str) (l : List Str) : l.length ≤ (tail c rest l).length := by
  induction l with
  | nil => simp
  | cons a l ih =>
    simp only [tail, List.cons_append, List.length_cons, List.length_append]
    omega

theorem sepBy_eq {α : Type} {p : Str → Option (α × Str)} {c : Byte} {rest : Str} (hrest : (lit c rest).bind p = none)
    (l : List (Str × α)) (hne : l ≠ []) (h : Good p c rest l) :
    sepBy p c (join c (l.map Prod.fst) ++ rest) = some (l.map Prod.snd, rest) := by
  cases l with
  | nil => exact absurd rfl hne
  | cons a l =>
    obtain ⟨a, x⟩ := a
    obtain ⟨h1, h2⟩ := h
    rw [List.map_cons, join_cons]
    unfold sepBy
    rw [h1]
    simp only [Option.map_some]
    rw [sepRest_eq hrest l h2]
    · rfl
    · have := tail_length c rest (l.map Prod.fst)
      simp only [List.length_append, List.length_map] at *
      omega

/-- Words of characters that satisfy `p`. -/
theorem good_words {p : Byte → Bool} {c : Byte} {rest : Str} (hc : p c = false) (hr : Stops p rest) (l : List Str)
    (h : ∀ a ∈ l, a ≠ [] ∧ ∀ b ∈ a, p b = true) : Good (many1 p) c rest (l.map (fun a => (a, a))) := by
  induction l with
  | nil => trivial
  | cons a l ih =>
    refine ⟨many1_eq (h a (List.mem_cons_self ..)).2 (h a (List.mem_cons_self ..)).1 ?_,
      ih (fun a' h' => h a' (List.mem_cons_of_mem _ h'))⟩
    cases l with
    | nil => exact hr
    | cons b l => exact Stops.cons hc _

theorem sepBy_words {p : Byte → Bool} {c : Byte} {rest : Str} (hc : p c = false) (hr : Stops p rest) (hl : lit c rest = none)
    (l : List Str) (hne : l ≠ []) (h : ∀ a ∈ l, a ≠ [] ∧ ∀ b ∈ a, p b = true) :
    sepBy (many1 p) c (join c l ++ rest) = some (l, rest) := by
  have := sepBy_eq (p := many1 p) (c := c) (rest := rest) (by rw [hl]; rfl) (l.map (fun a => (a, a))) (by simpa using hne)
    (good_words hc hr l h)
  simpa [List.map_map, Function.comp_def] using this

theorem mem_join {c b : Byte} {l : List Str} (h : b ∈ join c l) : b = c ∨ ∃ a ∈ l, b ∈ a := by
  induction l with
  | nil => simp [join] at h
  | cons a l ih =>
    cases l with
    | nil => exact Or.inr ⟨a, by simp, h⟩
    | cons a' l =>
      rw [join, List.mem_append, List.mem_cons] at h
      rcases h with h | h | h
      · exact Or.inr ⟨a, by simp, h⟩
      · exact Or.inl h
      · rcases ih h with h | ⟨x, hx, hb⟩
        · exact Or.inl h
        · exact Or.inr ⟨x, List.mem_cons_of_mem _ hx, hb⟩

/-! ### Partitions -/

/-- An edge of a partition, without quoting. -/
def Sub.plain (s : Sub) : Str :=
  match s.number with
  | none => []
  | some n => dec n ++ (if s.role = [] then [] else 36 :: s.role ++ [36])

/-- A partition, without quoting. -/
def Part.plain (num : Num D) (tags : List Str) (score : D) (p : Part D) : Str :=
  join 45 (p.subs.map Sub.plain) ++ (if p.tags = tags then [] else 40 :: join 44 p.tags ++ [41]) ++
    (if p.score = score then [] else 60 :: num.print p.score ++ [62])

theorem digit_safe {b : Byte} (h : isDigit b = true) : Safe b := by
  simp only [isDigit, Bool.and_eq_true, decide_eq_true_eq] at h
  refine ⟨?_, ?_, ?_, ?_, ?_, ?_, ?_, ?_⟩ <;> (rintro rfl; revert h; decide)

theorem dec_safe (n : Nat) : ∀ b ∈ dec n, Safe b := fun b hb => digit_safe (decF_digit n n b hb)

theorem unesc_one {b : Byte} (h : Safe b) : unesc [b] = some [b] := unesc_safe (by simpa using h)

theorem unesc_join {α : Type} {c : Byte} (hc : Safe c) (f g : α → Str) (l : List α) (h : ∀ a ∈ l, unesc (f a) = some (g a)) :
    unesc (join c (l.map f)) = some (join c (l.map g)) := by
  induction l with
  | nil => rfl
  | cons a l ih =>
    cases l with
    | nil => exact h a (by simp)
    | cons b l =>
      simp only [List.map_cons, join] at ih ⊢
      refine unesc_append (h a (by simp)) ?_
      exact unesc_append (s := [c]) (unesc_one hc) (ih (fun a ha => h a (List.mem_cons_of_mem _ ha)))

theorem Sub.unesc_str (s : Sub) : unesc s.str = some s.plain := by
  unfold Sub.str Sub.plain
  cases s.number with
  | none => rfl
  | some n =>
    refine unesc_append (unesc_safe (dec_safe n)) ?_
    by_cases h : s.role = []
    · simp [h]; rfl
    · rw [if_neg h, if_neg h]
      have h36 : unesc [36] = some [36] := by decide
      exact unesc_append (unesc_append (s := [36]) h36 (unesc_esc s.role)) h36

theorem plainScore_char {num : Num D} {d : D} (h : PlainScore num d) {b : Byte} (hb : b ∈ num.print d) :
    Safe b ∧ b ≠ 44 ∧ b ≠ 60 ∧ b ≠ 62 ∧ b ≠ 91 ∧ b ≠ 93 ∧ b ≠ 40 ∧ b ≠ 41 := by
  have := h.2.2 b hb
  refine ⟨⟨?_, ?_, ?_, ?_, ?_, ?_, ?_, ?_⟩, ?_, ?_, ?_, ?_, ?_, ?_, ?_⟩ <;> (rintro rfl; revert this; decide)

theorem PlainTag.safe {t : Str} (h : PlainTag t) : ∀ b ∈ t, Safe b := by
  intro b hb
  have := h.2 b hb
  unfold Safe
  tauto

theorem tags_safe {l : List Str} (h : ∀ t ∈ l, PlainTag t) : ∀ b ∈ join 44 l, Safe b := by
  intro b hb
  rcases mem_join hb with rfl | ⟨a, ha, hb⟩
  · unfold Safe; decide
  · exact (h a ha).safe b hb

theorem Part.unesc_str {num : Num D} {tags : List Str} {score : D} {p : Part D} (h : PlainPart num tags score p) :
    unesc (p.str num tags score) = some (p.plain num tags score) := by
  obtain ⟨h1, h2, h3, h4, h5, h6⟩ := h
  unfold Part.str Part.plain
  refine unesc_append (unesc_append (unesc_join (by unfold Safe; decide) _ _ _ (fun s _ => s.unesc_str)) ?_) ?_
  · split
    · rfl
    · rename_i hne
      refine unesc_safe ?_
      intro b hb
      simp only [List.cons_append, List.mem_cons, List.mem_append, List.not_mem_nil, or_false] at hb
      rcases hb with rfl | hb | rfl
      · unfold Safe; decide
      · exact tags_safe (fun t ht => ((h5 hne).2 t ht).1) b hb
      · unfold Safe; decide
  · split
    · rfl
    · rename_i hne
      refine unesc_safe ?_
      intro b hb
      simp only [List.cons_append, List.mem_cons, List.mem_append, List.not_mem_nil, or_false] at hb
      rcases hb with rfl | hb | rfl
      · unfold Safe; decide
      · exact (plainScore_char (h6 hne) hb).1
      · unfold Safe; decide

/-- The value of an edge of a partition as it is read. -/
def Sub.value (s : Sub) : Int × Str :=
  match s.number with
  | none => (0, [])
  | some n => ((n : Int), s.role)

theorem int_stop {s : Str} (h1 : Stops isDigit s) (h2 : ∀ t, s = 45 :: t → Stops isDigit t) (h3 : Stops (fun b => b == 43) s) :
    int s = none := by
  unfold int
  split
  · rename_i t
    rw [many1_none (h2 t rfl)]; rfl
  · rename_i t
    have := h3 43 rfl
    simp at this
  · rw [many1_none h1]; rfl

/-- What may follow the edges of a partition. -/
def AfterSubs (rest : Str) : Prop := rest = [] ∨ (∃ t, rest = 40 :: t) ∨ ∃ t, rest = 60 :: t

theorem AfterSubs.stops {rest : Str} (h : AfterSubs rest) : Stops isDigit rest := by
  rcases h with rfl | ⟨t, rfl⟩ | ⟨t, rfl⟩
  · exact Stops.nil _
  · exact Stops.cons (by decide) _
  · exact Stops.cons (by decide) _

theorem readSub_number {n : Nat} {role t : Str} (hn : Small n) (hr : ∀ b ∈ role, b ≠ 36) (ht : Stops isDigit t)
    (ht' : lit 36 t = none) :
    readSub ((dec n ++ (if role = [] then [] else 36 :: role ++ [36])) ++ t) = some (((n : Int), role), t) := by
  by_cases h : role = []
  · subst h
    simp only [if_true, List.append_nil]
    unfold readSub
    rw [dec_eq, int_dec0 0 n hn ht]
    simp only [ht']
  · rw [if_neg h]
    unfold readSub
    rw [dec_eq, List.append_assoc, int_dec0 0 n hn (t := 36 :: role ++ [36] ++ t) (Stops.cons (by decide) _)]
    simp only [List.cons_append, lit_cons]
    rw [List.append_assoc, many1_eq (p := fun b => b ≠ 36) (a := role) (s := [36] ++ t) (by simpa using hr) h (Stops.cons (by decide) _)]
    simp only [List.cons_append, List.nil_append, lit_cons]

theorem readSub_hidden {t : Str} (h1 : Stops isDigit t) (h2 : ∀ u, t = 45 :: u → Stops isDigit u)
    (h3 : Stops (fun b => b == 43) t) (h4 : lit 36 t = none) : readSub t = some ((0, []), t) := by
  unfold readSub
  rw [int_stop h1 h2 h3]
  simp only [h4]

theorem good_subs {rest : Str} (hr : AfterSubs rest) (l : List Sub) (h : ∀ s ∈ l, PlainSub s) (ho : Ordered l) :
    Good readSub 45 rest (l.map (fun s => (s.plain, s.value))) := by
  induction l with
  | nil => trivial
  | cons a l ih =>
    have ho' : Ordered l := by
      cases l with
      | nil => trivial
      | cons b l => exact ho.2
    refine ⟨?_, ih (fun s hs => h s (List.mem_cons_of_mem _ hs)) ho'⟩
    obtain ⟨p1, p2, p3⟩ := h a (List.mem_cons_self ..)
    have hd : ∀ t : Str, t = tail 45 rest ((l.map (fun s => (s.plain, s.value))).map Prod.fst) →
        Stops isDigit t ∧ lit 36 t = none ∧ Stops (fun b => b == 43) t := by
      rintro t rfl
      cases l with
      | nil =>
        refine ⟨hr.stops, ?_, ?_⟩
        · rcases hr with rfl | ⟨t, rfl⟩ | ⟨t, rfl⟩ <;> simp [tail, lit]
        · rcases hr with rfl | ⟨t, rfl⟩ | ⟨t, rfl⟩
          · exact Stops.nil _
          · exact Stops.cons (by decide) _
          · exact Stops.cons (by decide) _
      | cons b l =>
        refine ⟨Stops.cons (by decide) _, ?_, Stops.cons (by decide) _⟩
        simp [tail, lit]
    obtain ⟨d1, d2, d3⟩ := hd _ rfl
    cases ha : a.number with
    | some n =>
      have e1 : a.plain = dec n ++ (if a.role = [] then [] else 36 :: a.role ++ [36]) := by
        unfold Sub.plain; rw [ha]
      have e2 : a.value = ((n : Int), a.role) := by unfold Sub.value; rw [ha]
      rw [e1, e2]
      exact readSub_number (p1 n ha).2 (fun b hb => (p3 b hb).1) d1 d2
    | none =>
      have e1 : a.plain = [] := by unfold Sub.plain; rw [ha]
      have e2 : a.value = (0, []) := by unfold Sub.value; rw [ha]
      rw [e1, e2, List.nil_append]
      refine readSub_hidden d1 ?_ d3 d2
      intro u hu
      cases l with
      | nil =>
        rcases hr with rfl | ⟨t, rfl⟩ | ⟨t, rfl⟩ <;> simp [tail] at hu
      | cons b l =>
        have hb : b.number = none := ho.1 ha
        have eb : b.plain = [] := by unfold Sub.plain; rw [hb]
        simp only [List.map_cons, tail, eb, List.cons_append, List.nil_append, List.cons.injEq, true_and] at hu
        subst hu
        cases l with
        | nil => exact hr.stops
        | cons c l => exact Stops.cons (by decide) _

theorem sub_value_back {s : Sub} (h : PlainSub s) : (⟨if s.value.1 < 1 then none else some s.value.1.toNat, s.value.2⟩ : Sub) = s := by
  obtain ⟨p1, p2, p3⟩ := h
  obtain ⟨number, role⟩ := s
  cases number with
  | none =>
    have := p2 rfl
    simp only at this
    subst this
    rfl
  | some n =>
    have := (p1 n rfl).1
    have h1 : ¬ ((n : Int) < 1) := by omega
    show (⟨if (n : Int) < 1 then none else some (n : Int).toNat, role⟩ : Sub) = _
    rw [if_neg h1]
    simp

theorem readScore_eq {num : Num D} {d : D} (h : PlainScore num d) (rest : Str) :
    readScore num (60 :: num.print d ++ 62 :: rest) = some d := by
  unfold readScore
  simp only [List.cons_append, lit_cons, Option.bind_some, h.1]
  rfl

theorem readTags_eq {tags : List Str} (hne : tags ≠ []) (h : ∀ t ∈ tags, PlainTag t ∧ ∀ b ∈ t, b ≠ 41 ∧ b ≠ 93) (rest : Str) :
    readTags (40 :: join 44 tags ++ 41 :: rest) = (tags, rest) := by
  unfold readTags
  simp only [List.cons_append, lit_cons, Option.bind_some]
  rw [sepBy_words (by decide) (Stops.cons (by decide) _) (by simp [lit]) tags hne]
  · simp only [lit_cons]
  · intro a ha
    refine ⟨(h a ha).1.1, fun b hb => ?_⟩
    have h1 := (h a ha).1.2 b hb
    have h2 := (h a ha).2 b hb
    simp [h1, h2]

theorem readPart_eq {num : Num D} {tags : List Str} {score : D} {p : Part D} (h : PlainPart num tags score p) :
    readPart num tags score (p.plain num tags score) = p := by
  obtain ⟨h1, h2, h3, h4, h5, h6⟩ := h
  unfold Part.plain readPart
  rw [List.append_assoc]
  generalize hrest : ((if p.tags = tags then [] else 40 :: join 44 p.tags ++ [41]) ++
    (if p.score = score then [] else 60 :: num.print p.score ++ [62]) : Str) = rest
  have ha : AfterSubs rest := by
    subst hrest
    by_cases ht : p.tags = tags
    · by_cases hs : p.score = score
      · left; simp [ht, hs]
      · right; right; exact ⟨num.print p.score ++ [62], by simp [ht, hs]⟩
    · right; left; exact ⟨join 44 p.tags ++ [41] ++ (if p.score = score then [] else 60 :: num.print p.score ++ [62]), by simp [ht]⟩
  have hl : lit 45 rest = none := by
    rcases ha with rfl | ⟨t, rfl⟩ | ⟨t, rfl⟩ <;> simp [lit]
  have hs := sepBy_eq (p := readSub) (c := 45) (rest := rest) (by rw [hl]; rfl) (p.subs.map (fun s => (s.plain, s.value)))
    (by simpa using h1) (good_subs ha p.subs h3 h4)
  rw [List.map_map, List.map_map] at hs
  have e1 : (Prod.fst ∘ fun s : Sub => (s.plain, s.value)) = Sub.plain := rfl
  have e2 : (Prod.snd ∘ fun s : Sub => (s.plain, s.value)) = Sub.value := rfl
  rw [e1, e2] at hs
  rw [hs]
  simp only
  have hsubs : (p.subs.map Sub.value).map (fun x : Int × Str => (⟨if x.1 < 1 then none else some x.1.toNat, x.2⟩ : Sub)) = p.subs := by
    rw [List.map_map]
    conv => rhs; rw [← List.map_id p.subs]
    exact List.map_congr_left (fun s hs => sub_value_back (h3 s hs))
  have hsc : (readScore num (if p.score = score then [] else 60 :: num.print p.score ++ [62])).getD score = p.score := by
    by_cases hs : p.score = score
    · rw [if_pos hs, hs]; rfl
    · rw [if_neg hs, readScore_eq (h6 hs) []]; rfl
  by_cases ht : p.tags = tags
  · have e : readTags rest = ([], rest) := by
      subst hrest
      rw [if_pos ht, List.nil_append]
      by_cases hs : p.score = score
      · rw [if_pos hs]; rfl
      · rw [if_neg hs]; simp [readTags, lit]
    have er : rest = (if p.score = score then [] else 60 :: num.print p.score ++ [62]) := by
      subst hrest; rw [if_pos ht, List.nil_append]
    rw [e]
    simp only [if_true]
    rw [er, hsc, ← ht]
    exact congrArg (fun x => Part.mk x p.tags p.score) hsubs
  · have er : rest = 40 :: join 44 p.tags ++ 41 :: (if p.score = score then [] else 60 :: num.print p.score ++ [62]) := by
      subst hrest; rw [if_neg ht]; simp
    rw [er, readTags_eq (h5 ht).1 (h5 ht).2]
    simp only
    rw [if_neg (h5 ht).1, hsc]
    exact congrArg (fun x => Part.mk x p.tags p.score) hsubs

/-! ### The list of partitions -/

/-- No `(`, `<`, `]`, comma. -/
def OutsideChar (b : Byte) : Prop := b ≠ 40 ∧ b ≠ 60 ∧ b ≠ 93 ∧ b ≠ 44

theorem digit_outside {b : Byte} (h : isDigit b = true) : OutsideChar b := by
  simp only [isDigit, Bool.and_eq_true, decide_eq_true_eq] at h
  refine ⟨?_, ?_, ?_, ?_⟩ <;> (rintro rfl; revert h; decide)

theorem subs_outside {l : List Sub} (h : ∀ s ∈ l, PlainSub s) : ∀ b ∈ join 45 (l.map Sub.plain), OutsideChar b := by
  intro b hb
  rcases mem_join hb with rfl | ⟨a, ha, hb⟩
  · unfold OutsideChar; decide
  · obtain ⟨s, hs, rfl⟩ := List.mem_map.1 ha
    have hp := (h s hs).2.2
    unfold Sub.plain at hb
    cases hn : s.number with
    | none => simp [hn] at hb
    | some n =>
      rw [hn] at hb
      simp only [List.mem_append] at hb
      rcases hb with hb | hb
      · exact digit_outside (decF_digit n n b hb)
      · split at hb
        · cases hb
        · simp only [List.cons_append, List.mem_cons, List.mem_append, List.not_mem_nil, or_false] at hb
          rcases hb with rfl | hb | rfl
          · unfold OutsideChar; decide
          · have := hp b hb
            unfold OutsideChar
            tauto
          · unfold OutsideChar; decide

theorem subs_ne {l : List Sub} (h : ∀ s ∈ l, PlainSub s) (h1 : l ≠ []) (h2 : l ≠ [⟨none, []⟩]) : join 45 (l.map Sub.plain) ≠ [] := by
  cases l with
  | nil => exact absurd rfl h1
  | cons a l =>
    cases l with
    | nil =>
      simp only [List.map_cons, List.map_nil, join]
      obtain ⟨number, role⟩ := a
      cases number with
      | none =>
        have := (h ⟨none, role⟩ (by simp)).2.1 rfl
        simp only at this
        subst this
        exact absurd rfl h2
      | some n =>
        simp only [Sub.plain]
        intro h'
        exact decF_ne n n (List.append_eq_nil_iff.1 h').1
    | cons b l => simp [join]

theorem bracketed_none {o c : Byte} {s : Str} (h : lit o s = none) : partText.bracketed o c s = ([], s) := by
  unfold partText.bracketed
  rw [h]

theorem bracketed_some {o c : Byte} {a s : Str} (ha : ∀ b ∈ a, b ≠ c) (hne : a ≠ []) :
    partText.bracketed o c (o :: a ++ c :: s) = (o :: a ++ [c], s) := by
  unfold partText.bracketed
  simp only [List.cons_append, lit_cons]
  rw [many1_eq (p := fun b => b ≠ c) (a := a) (s := c :: s) (by simpa using ha) hne (Stops.cons (by simp) _)]
  simp only [lit_cons]

theorem join_tags_ne {l : List Str} (hne : l ≠ []) (h : ∀ t ∈ l, PlainTag t) : join 44 l ≠ [] := by
  cases l with
  | nil => exact absurd rfl hne
  | cons a l =>
    cases l with
    | nil => exact (h a (by simp)).1
    | cons b l => simp [join]

theorem partText_eq {num : Num D} {tags : List Str} {score : D} {p : Part D} (h : PlainPart num tags score p) {rest : Str}
    (hr : (∃ t, rest = 44 :: t) ∨ ∃ t, rest = 93 :: t) :
    partText (p.plain num tags score ++ rest) = some (p.plain num tags score, rest) := by
  obtain ⟨h1, h2, h3, h4, h5, h6⟩ := h
  unfold Part.plain
  generalize hA : join 45 (p.subs.map Sub.plain) = A
  generalize hX : (if p.tags = tags then [] else 40 :: join 44 p.tags ++ [41] : Str) = X
  generalize hY : (if p.score = score then [] else 60 :: num.print p.score ++ [62] : Str) = Y
  have hY' : partText.bracketed 60 62 (Y ++ rest) = (Y, rest) := by
    subst hY
    by_cases hs : p.score = score
    · rw [if_pos hs, List.nil_append]
      refine bracketed_none ?_
      rcases hr with ⟨t, rfl⟩ | ⟨t, rfl⟩ <;> simp [lit]
    · rw [if_neg hs]
      have := bracketed_some (o := 60) (c := 62) (a := num.print p.score) (s := rest)
        (fun b hb => (plainScore_char (h6 hs) hb).2.2.2.1) (h6 hs).2.1
      simpa using this
  have hX' : partText.bracketed 40 41 (X ++ (Y ++ rest)) = (X, Y ++ rest) := by
    subst hX
    by_cases ht : p.tags = tags
    · rw [if_pos ht, List.nil_append]
      refine bracketed_none ?_
      subst hY
      by_cases hs : p.score = score
      · rw [if_pos hs, List.nil_append]
        rcases hr with ⟨t, rfl⟩ | ⟨t, rfl⟩ <;> simp [lit]
      · rw [if_neg hs]; simp [lit]
    · rw [if_neg ht]
      have := bracketed_some (o := 40) (c := 41) (a := join 44 p.tags) (s := Y ++ rest) (fun b hb => by
        rcases mem_join hb with rfl | ⟨a, ha, hb⟩
        · decide
        · exact (((h5 ht).2 a ha).2 b hb).1) (join_tags_ne (h5 ht).1 (fun t h' => ((h5 ht).2 t h').1))
      simpa using this
  have hA' : many1 (fun b => b ≠ 40 && b ≠ 60 && b ≠ 93 && b ≠ 44) (A ++ (X ++ (Y ++ rest))) = some (A, X ++ (Y ++ rest)) := by
    refine many1_eq ?_ ?_ ?_
    · subst hA
      intro b hb
      have := subs_outside h3 b hb
      unfold OutsideChar at this
      simp [this]
    · subst hA
      exact subs_ne h3 h1 h2
    · subst hX hY
      by_cases ht : p.tags = tags
      · rw [if_pos ht, List.nil_append]
        by_cases hs : p.score = score
        · rw [if_pos hs, List.nil_append]
          rcases hr with ⟨t, rfl⟩ | ⟨t, rfl⟩
          · exact Stops.cons (by decide) _
          · exact Stops.cons (by decide) _
        · rw [if_neg hs]; exact Stops.cons (by decide) _
      · rw [if_neg ht]; exact Stops.cons (by decide) _
  have e : A ++ X ++ Y ++ rest = A ++ (X ++ (Y ++ rest)) := by simp
  rw [e]
  unfold partText
  rw [hA']
  simp only [Option.map_some, hX', hY']

theorem good_parts {num : Num D} {tags : List Str} {score : D} (l : List (Part D)) (h : ∀ p ∈ l, PlainPart num tags score p) (u : Str) :
    Good partText 44 (93 :: u) (l.map (fun p => (p.plain num tags score, p.plain num tags score))) := by
  induction l with
  | nil => trivial
  | cons a l ih =>
    refine ⟨partText_eq (h a (List.mem_cons_self ..)) ?_, ih (fun p hp => h p (List.mem_cons_of_mem _ hp))⟩
    cases l with
    | nil => exact Or.inr ⟨u, rfl⟩
    | cons b l => exact Or.inl ⟨_, rfl⟩

theorem readParts_eq {num : Num D} {tags : List Str} {score : D} (l : List (Part D)) (hne : l ≠ [])
    (h : ∀ p ∈ l, PlainPart num tags score p) :
    readParts num tags score (91 :: join 44 (l.map (Part.plain num tags score)) ++ [93]) = .list l := by
  have hs := sepBy_eq (p := partText) (c := 44) (rest := [93]) (by simp [lit])
    (l.map (fun p => (p.plain num tags score, p.plain num tags score))) (by simpa using hne) (good_parts l h [])
  rw [List.map_map, List.map_map] at hs
  have e1 : (Prod.fst ∘ fun p : Part D => (p.plain num tags score, p.plain num tags score)) = Part.plain num tags score := rfl
  have e2 : (Prod.snd ∘ fun p : Part D => (p.plain num tags score, p.plain num tags score)) = Part.plain num tags score := rfl
  rw [e1, e2] at hs
  have hp : partTexts (91 :: join 44 (l.map (Part.plain num tags score)) ++ [93]) = some (l.map (Part.plain num tags score)) := by
    unfold partTexts
    simp only [List.cons_append, lit_cons, Option.bind_eq_bind, Option.bind_some, hs]
  unfold readParts
  rw [hp]
  simp only [List.cons_append, List.cons_ne_nil, if_false]
  rw [List.map_map]
  congr 1
  conv => rhs; rw [← List.map_id l]
  exact List.map_congr_left (fun p hp => readPart_eq (h p hp))

/-! ### Attributes -/

/-- A pair of an attribute and a value. -/
def pairStr (p : Str × Str) : Str := p.1 ++ 61 :: p.2

theorem avStr_eq {av : List (Str × Str)} (h : av ≠ []) : avStr av = 44 :: join 44 (av.map pairStr) := by
  have key : ∀ l : List (Str × Str), avStr l = tail 44 [] (l.map pairStr) := by
    intro l
    induction l with
    | nil => rfl
    | cons a l ih =>
      unfold avStr at ih ⊢
      rw [List.flatMap_cons, ih, List.map_cons, tail, pairStr]
      rfl
  rw [key]
  cases av with
  | nil => exact absurd rfl h
  | cons a l =>
    rw [List.map_cons, tail, ← List.append_nil (join 44 _), join_cons]
    rfl

theorem readPair_eq {p : Str × Str} (h : p.1 ≠ [] ∧ p.2 ≠ [] ∧ ∀ b ∈ p.1 ++ p.2, b ≠ 44 ∧ b ≠ 61 ∧ b ≠ 91) :
    readPair (pairStr p) = some p := by
  obtain ⟨a, v⟩ := p
  obtain ⟨h1, h2, h3⟩ := h
  unfold readPair pairStr
  simp only at *
  rw [many1_eq (a := a) (s := 61 :: v) (fun b hb => by
    have := h3 b (List.mem_append_left _ hb); simp [this]) h1 (Stops.cons (by decide) _)]
  simp only [Option.bind_eq_bind, Option.bind_some, lit_cons]
  have := many1_eq (p := fun b => b ≠ 44 && b ≠ 61) (a := v) (s := []) (fun b hb => by
    have := h3 b (List.mem_append_right _ hb); simp [this]) h2 (Stops.nil _)
  rw [List.append_nil] at this
  rw [this]
  rfl

theorem filterMap_self {α : Type} (f : α → Option α) (l : List α) (h : ∀ a ∈ l, f a = some a) : l.filterMap f = l := by
  induction l with
  | nil => rfl
  | cons a l ih =>
    rw [List.filterMap_cons, h a (by simp), ih (fun b hb => h b (List.mem_cons_of_mem _ hb))]

theorem readAv_eq {av : List (Str × Str)} (hne : av ≠ [])
    (h : ∀ p ∈ av, p.1 ≠ [] ∧ p.2 ≠ [] ∧ ∀ b ∈ p.1 ++ p.2, b ≠ 44 ∧ b ≠ 61 ∧ b ≠ 91) :
    readAv (join 44 (av.map pairStr)) = av := by
  have hs := sepBy_words (p := fun b => b ≠ 44) (c := 44) (rest := []) (by decide) (Stops.nil _) rfl (av.map pairStr) (by simpa using hne)
    (by
      intro a ha
      obtain ⟨p, hp, rfl⟩ := List.mem_map.1 ha
      refine ⟨by simp [pairStr], fun b hb => ?_⟩
      unfold pairStr at hb
      rw [List.mem_append, List.mem_cons] at hb
      rcases hb with hb | rfl | hb
      · have := (h p hp).2.2 b (List.mem_append_left _ hb); simp [this]
      · decide
      · have := (h p hp).2.2 b (List.mem_append_right _ hb); simp [this])
  rw [List.append_nil] at hs
  unfold readAv
  rw [hs]
  simp only
  rw [List.filterMap_map]
  exact filterMap_self _ av (fun p hp => readPair_eq (h p hp))

/-! ### The last cell -/

/-- The attributes in the file. -/
def Row.avText (r : Row D) : Str := if r.av = [] then [] else join 44 (r.av.map pairStr)

theorem av_char {av : List (Str × Str)} (h : ∀ p ∈ av, p.1 ≠ [] ∧ p.2 ≠ [] ∧ ∀ b ∈ p.1 ++ p.2, b ≠ 44 ∧ b ≠ 61 ∧ b ≠ 91) :
    91 ∉ join 44 (av.map pairStr) := by
  intro hb
  rcases mem_join hb with hb | ⟨a, ha, hb⟩
  · exact absurd hb (by decide)
  · obtain ⟨p, hp, rfl⟩ := List.mem_map.1 ha
    unfold pairStr at hb
    rw [List.mem_append, List.mem_cons] at hb
    rcases hb with hb | hb | hb
    · exact ((h p hp).2.2 91 (List.mem_append_left _ hb)).2.2 rfl
    · exact absurd hb (by decide)
    · exact ((h p hp).2.2 91 (List.mem_append_right _ hb)).2.2 rfl

theorem join_pairs_ne {av : List (Str × Str)} (h : av ≠ []) : join 44 (av.map pairStr) ≠ [] := by
  cases av with
  | nil => exact absurd rfl h
  | cons a l =>
    intro h'
    have := join_cons 44 (pairStr a) (l.map pairStr) []
    rw [List.append_nil, ← List.map_cons, h'] at this
    have := (List.append_eq_nil_iff.1 this.symm).1
    simp [pairStr] at this

theorem Sub.mem_str {s : Sub} {b : Byte} (h : b ∈ s.str) : isDigit b = true ∨ b = 36 ∨ b ∈ esc s.role := by
  unfold Sub.str at h
  cases hn : s.number with
  | none => simp [hn] at h
  | some n =>
    rw [hn] at h
    simp only [List.mem_append] at h
    rcases h with h | h
    · exact Or.inl (decF_digit n n b h)
    · split at h
      · cases h
      · simp only [List.cons_append, List.mem_cons, List.mem_append, List.not_mem_nil, or_false] at h
        tauto

/-- What is not in the text of a partition. -/
theorem Part.mem_str {num : Num D} {tags : List Str} {score : D} {p : Part D} (h : PlainPart num tags score p) {b : Byte}
    (hb : b ∈ p.str num tags score) : b ≠ 93 ∧ b ≠ 32 ∧ b ≠ 10 := by
  obtain ⟨h1, h2, h3, h4, h5, h6⟩ := h
  unfold Part.str at hb
  rw [List.mem_append, List.mem_append] at hb
  rcases hb with (hb | hb) | hb
  · rcases mem_join hb with rfl | ⟨a, ha, hb⟩
    · decide
    · obtain ⟨s, hs, rfl⟩ := List.mem_map.1 ha
      rcases Sub.mem_str hb with h | rfl | h
      · have := digit_outside h
        have h' := digit_safe h
        unfold OutsideChar at this
        unfold Safe at h'
        tauto
      · decide
      · have h' := esc_sep _ b h
        refine ⟨?_, h'.1, h'.2.2.1⟩
        rintro rfl
        exact not_mem_escape (fun hm => ((h3 s hs).2.2 93 hm).2.2.2.2 rfl) (by decide) h
  · split at hb
    · cases hb
    · rename_i hne
      simp only [List.cons_append, List.mem_cons, List.mem_append, List.not_mem_nil, or_false] at hb
      rcases hb with rfl | hb | rfl
      · decide
      · have h' := tags_safe (fun t ht => ((h5 hne).2 t ht).1) b hb
        unfold Safe at h'
        refine ⟨?_, h'.2.2.2.1, h'.2.1⟩
        rintro rfl
        rcases mem_join hb with h | ⟨a, ha, hb⟩
        · exact absurd h (by decide)
        · exact (((h5 hne).2 a ha).2 93 hb).2 rfl
      · decide
  · split at hb
    · cases hb
    · rename_i hne
      simp only [List.cons_append, List.mem_cons, List.mem_append, List.not_mem_nil, or_false] at hb
      rcases hb with rfl | hb | rfl
      · decide
      · have h' := plainScore_char (h6 hne) hb
        unfold Safe at h'
        tauto
      · decide

/-- The partitions in the file. -/
def Row.partsText (num : Num D) (r : Row D) : Str :=
  match r.parts with
  | none => []
  | some ps => 91 :: join 44 (ps.map (Part.str num r.tags r.score)) ++ [93]

theorem Row.parts_char {num : Num D} {r : Row D} (h : r.Plain num) {ps : List (Part D)} (hp : r.parts = some ps) {b : Byte}
    (hb : b ∈ join 44 (ps.map (Part.str num r.tags r.score))) : b ≠ 93 ∧ b ≠ 32 ∧ b ≠ 10 := by
  rcases mem_join hb with rfl | ⟨a, ha, hb⟩
  · decide
  · obtain ⟨p, hp', rfl⟩ := List.mem_map.1 ha
    exact Part.mem_str ((h.parts ps hp).2 p hp') hb

theorem scoreOpt_none {num : Num D} {s : Str} (h : lit 60 s = none) : scoreOpt num s = (num.zero, s) := by
  unfold scoreOpt
  rw [h]
  rfl

theorem scoreOpt_some {num : Num D} {d : D} (h : PlainScore num d) (s : Str) :
    scoreOpt num (60 :: num.print d ++ 62 :: s) = (d, s) := by
  unfold scoreOpt
  simp only [List.cons_append, lit_cons, Option.bind_some, h.1]

/-- The optional attributes of `annotation`. -/
def avOpt (s : Str) : Str × Str :=
  match (lit 44 s).bind (many1 (fun b => b ≠ 91)) with
  | none => ([], s)
  | some r => r

/-- The optional partitions of `annotation`. -/
def partsOpt (s : Str) : Str :=
  match lit 91 s with
  | none => []
  | some t => match lit 93 (t.dropWhile (fun b => b ≠ 93)) with
    | none => 91 :: t.takeWhile (fun b => b ≠ 93)
    | some _ => 91 :: t.takeWhile (fun b => b ≠ 93) ++ [93]

theorem annotation_eq (num : Num D) (s : Str) :
    annotation num s = (many1 (fun b => b ≠ 32 && b ≠ 44 && b ≠ 91 && b ≠ 60) s).map (fun r =>
      (r.1, (scoreOpt num r.2).1, (avOpt (scoreOpt num r.2).2).1, partsOpt (avOpt (scoreOpt num r.2).2).2)) := by
  unfold annotation
  congr 1

theorem Row.partsOpt_eq {num : Num D} {r : Row D} (h : r.Plain num) : partsOpt (r.partsText num) = r.partsText num := by
  unfold Row.partsText
  cases hp : r.parts with
  | none => rfl
  | some ps =>
    simp only
    have := takeWhile_stop (p := fun b => b ≠ 93) (a := join 44 (ps.map (Part.str num r.tags r.score))) (s := [93])
      (fun b hb => by simpa using (Row.parts_char h hp hb).1) (Stops.cons (by decide) _)
    unfold partsOpt
    simp only [List.cons_append, lit_cons, this.1, this.2]

theorem Row.partsText_head {num : Num D} {r : Row D} : r.partsText num = [] ∨ ∃ t, r.partsText num = 91 :: t := by
  unfold Row.partsText
  cases r.parts with
  | none => exact Or.inl rfl
  | some ps => exact Or.inr ⟨_, rfl⟩

theorem Row.avOpt_eq {num : Num D} {r : Row D} (h : r.Plain num) :
    avOpt (esc (avStr r.av) ++ r.partsText num) = (esc r.avText, r.partsText num) := by
  unfold avOpt Row.avText
  by_cases hav : r.av = []
  · rw [if_pos hav, hav]
    show (match (lit 44 (r.partsText num)).bind (many1 (fun b => b ≠ 91)) with
      | none => ([], r.partsText num)
      | some r => r) = ([], r.partsText num)
    rcases r.partsText_head (num := num) with e | ⟨t, e⟩ <;> rw [e] <;> rfl
  · rw [if_neg hav, avStr_eq hav]
    have e : esc (44 :: join 44 (r.av.map pairStr)) = 44 :: esc (join 44 (r.av.map pairStr)) := rfl
    rw [e]
    simp only [List.cons_append, lit_cons, Option.bind_some]
    rw [many1_eq]
    · intro b hb
      have := not_mem_escape (av_char h.av) (by decide)
      simp only [ne_eq, decide_eq_true_eq]
      rintro rfl
      exact this hb
    · exact esc_ne (join_pairs_ne hav)
    · rcases r.partsText_head (num := num) with e | ⟨t, e⟩ <;> rw [e]
      · exact Stops.nil _
      · exact Stops.cons (by decide) _

theorem Row.annotCell_eq (num : Num D) (r : Row D) : r.annotCell num =
    esc r.category ++ ((if r.score = num.zero then [] else 60 :: num.print r.score ++ [62]) ++ (esc (avStr r.av) ++ r.partsText num)) := by
  unfold Row.annotCell Row.partsText
  simp only [List.append_assoc]
  rfl

theorem Row.after_score (num : Num D) (r : Row D) :
    (esc (avStr r.av) ++ r.partsText num = []) ∨ (∃ t, esc (avStr r.av) ++ r.partsText num = 44 :: t) ∨
      ∃ t, esc (avStr r.av) ++ r.partsText num = 91 :: t := by
  by_cases hav : r.av = []
  · rw [hav]
    show (r.partsText num = []) ∨ (∃ t, r.partsText num = 44 :: t) ∨ ∃ t, r.partsText num = 91 :: t
    rcases r.partsText_head (num := num) with e | e
    · exact Or.inl e
    · exact Or.inr (Or.inr e)
  · rw [avStr_eq hav]
    exact Or.inr (Or.inl ⟨esc (join 44 (r.av.map pairStr)) ++ r.partsText num, rfl⟩)

theorem Row.annotation_eq {num : Num D} {r : Row D} (h : r.Plain num) :
    annotation num (r.annotCell num) = some (esc r.category, r.score, esc r.avText, r.partsText num) := by
  rw [PsiFormat.annotation_eq, Row.annotCell_eq, many1_eq]
  · simp only [Option.map_some]
    have hs : scoreOpt num ((if r.score = num.zero then [] else 60 :: num.print r.score ++ [62]) ++
        (esc (avStr r.av) ++ r.partsText num)) = (r.score, esc (avStr r.av) ++ r.partsText num) := by
      by_cases hs : r.score = num.zero
      · rw [if_pos hs, List.nil_append, hs]
        refine scoreOpt_none ?_
        rcases r.after_score num with e | ⟨t, e⟩ | ⟨t, e⟩ <;> rw [e] <;> simp [lit]
      · rw [if_neg hs]
        have := scoreOpt_some (h.score hs) (esc (avStr r.av) ++ r.partsText num)
        simpa using this
    rw [hs]
    simp only [Row.avOpt_eq h, Row.partsOpt_eq h]
  · intro b hb
    have h1 := esc_sep _ b hb
    have : b ≠ 44 ∧ b ≠ 91 ∧ b ≠ 60 := by
      refine ⟨?_, ?_, ?_⟩ <;> rintro rfl
      · exact not_mem_escape (fun hm => (h.category.2.2 _ hm).1 rfl) (by decide) hb
      · exact not_mem_escape (fun hm => (h.category.2.2 _ hm).2.2 rfl) (by decide) hb
      · exact not_mem_escape (fun hm => (h.category.2.2 _ hm).2.1 rfl) (by decide) hb
    simp [h1, this]
  · exact esc_ne h.category.1
  · by_cases hs : r.score = num.zero
    · rw [if_pos hs, List.nil_append]
      rcases r.after_score num with e | ⟨t, e⟩ | ⟨t, e⟩ <;> rw [e]
      · exact Stops.nil _
      · exact Stops.cons (by decide) _
      · exact Stops.cons (by decide) _
    · rw [if_neg hs]
      exact Stops.cons (by decide) _

/-! ### Cells -/

/-- A cell that can be found again. -/
structure Cell (c : Str) : Prop where
  ne : c ≠ []
  blank : ∀ b ∈ c, b ≠ 32
  newline : ∀ b ∈ c, b ≠ 10
  head : Stops isSpace c

/-- Blanks between cells. -/
structure Blank (s : Str) : Prop where
  ne : s ≠ []
  blank : ∀ b ∈ s, b = 32

theorem Cell.stops {c : Str} (h : Cell c) (t : Str) : Stops isSpace (c ++ t) := by
  cases c with
  | nil => exact absurd rfl h.ne
  | cons b c =>
    intro d hd
    exact h.head d hd

theorem Blank.many {s c : Str} (hs : Blank s) (hc : Cell c) (t : Str) : many1 isSpace (s ++ (c ++ t)) = some (s, c ++ t) :=
  many1_eq (fun b hb => by rw [hs.blank b hb]; decide) hs.ne (hc.stops t)

theorem Blank.stops {s : Str} (h : Blank s) {p : Byte → Bool} (hp : p 32 = false) (t : Str) : Stops p (s ++ t) := by
  cases s with
  | nil => exact absurd rfl h.ne
  | cons b s =>
    rw [h.blank b (by simp)]
    exact Stops.cons hp _

theorem Blank.append {s t : Str} (hs : Blank s) (ht : Blank t) : Blank (s ++ t) :=
  ⟨by simp [hs.ne], fun b hb => (List.mem_append.1 hb).elim (hs.blank b) (ht.blank b)⟩

theorem Cell.many {c : Str} (hc : Cell c) {t : Str} (ht : Stops notSpace t) : many1 notSpace (c ++ t) = some (c, t) :=
  many1_eq (fun b hb => by simpa [notSpace] using hc.blank b hb) hc.ne ht

theorem alignCells_two (width : Str → Nat) (as : List Nat) (pos : Nat) (c d : Str) (l : List Str) :
    ∃ s as' pos', Blank s ∧ alignCells width as pos (c :: d :: l) = c ++ (s ++ alignCells width as' pos' (d :: l)) := by
  refine ⟨List.replicate (as.headD 0 - (pos + width c)) 32 ++ [32], as.tail, max (as.headD 0) (pos + width c) + 1, ⟨by simp, ?_⟩, ?_⟩
  · intro b hb
    rw [List.mem_append] at hb
    rcases hb with hb | hb
    · exact (List.mem_replicate.1 hb).2
    · simpa using hb
  · rw [alignCells]; simp

theorem alignCells_seven (width : Str → Nat) (as : List Nat) (pos : Nat) (c1 c2 c3 c4 c5 c6 c7 : Str) :
    ∃ s1 s2 s3 s4 s5 s6, Blank s1 ∧ Blank s2 ∧ Blank s3 ∧ Blank s4 ∧ Blank s5 ∧ Blank s6 ∧
      alignCells width as pos [c1, c2, c3, c4, c5, c6, c7] =
        c1 ++ (s1 ++ (c2 ++ (s2 ++ (c3 ++ (s3 ++ (c4 ++ (s4 ++ (c5 ++ (s5 ++ (c6 ++ (s6 ++ c7))))))))))) := by
  obtain ⟨s1, a1, p1, b1, e1⟩ := alignCells_two width as pos c1 c2 [c3, c4, c5, c6, c7]
  obtain ⟨s2, a2, p2, b2, e2⟩ := alignCells_two width a1 p1 c2 c3 [c4, c5, c6, c7]
  obtain ⟨s3, a3, p3, b3, e3⟩ := alignCells_two width a2 p2 c3 c4 [c5, c6, c7]
  obtain ⟨s4, a4, p4, b4, e4⟩ := alignCells_two width a3 p3 c4 c5 [c6, c7]
  obtain ⟨s5, a5, p5, b5, e5⟩ := alignCells_two width a4 p4 c5 c6 [c7]
  obtain ⟨s6, a6, p6, b6, e6⟩ := alignCells_two width a5 p5 c6 c7 []
  refine ⟨s1, s2, s3, s4, s5, s6, b1, b2, b3, b4, b5, b6, ?_⟩
  rw [e1, e2, e3, e4, e5, e6]
  rfl

theorem seqRest_step {n : Nat} {s c t : Str} (hs : Blank s) (hc : Cell c) (ht : Stops notSpace t) :
    seqRest (n + 1) (s ++ (c ++ t)) = seqRest n t + 1 := by
  rw [seqRest, hs.many hc]
  simp only [Option.bind_some, hc.many ht]

theorem seqRest_nil (n : Nat) : seqRest n [] = 0 := by
  cases n with
  | zero => rfl
  | succ n => rfl

theorem seqRest_last {n : Nat} {s c : Str} (hs : Blank s) (hc : Cell c) : seqRest (n + 1) (s ++ c) = 1 := by
  have := seqRest_step (n := n) hs hc (Stops.nil _)
  rw [List.append_nil, seqRest_nil] at this
  exact this

theorem stop32 {s : Str} (h : Blank s) (t : Str) : Stops notSpace (s ++ t) := h.stops (by decide) t

theorem Blank.len {s : Str} (h : Blank s) : 1 ≤ s.length := by
  have := h.ne
  cases s with
  | nil => exact absurd rfl this
  | cons b s => simp

theorem Cell.len {s : Str} (h : Cell s) : 1 ≤ s.length := by
  have := h.ne
  cases s with
  | nil => exact absurd rfl this
  | cons b s => simp

theorem seqCount_seven {c1 c2 c3 c4 c5 c6 c7 s1 s2 s3 s4 s5 s6 : Str} (h1 : Cell c1) (h2 : Cell c2) (h3 : Cell c3) (h4 : Cell c4)
    (h5 : Cell c5) (h6 : Cell c6) (h7 : Cell c7) (b1 : Blank s1) (b2 : Blank s2) (b3 : Blank s3) (b4 : Blank s4) (b5 : Blank s5)
    (b6 : Blank s6) :
    seqCount (c1 ++ (s1 ++ (c2 ++ (s2 ++ (c3 ++ (s3 ++ (c4 ++ (s4 ++ (c5 ++ (s5 ++ (c6 ++ (s6 ++ c7)))))))))))) = 7 := by
  unfold seqCount
  rw [h1.many (stop32 b1 _)]
  simp only
  generalize hn : (c1 ++ (s1 ++ (c2 ++ (s2 ++ (c3 ++ (s3 ++ (c4 ++ (s4 ++ (c5 ++ (s5 ++ (c6 ++ (s6 ++ c7)))))))))))).length = n
  obtain ⟨m, rfl⟩ : ∃ m, n = m + 1 + 1 + 1 + 1 + 1 + 1 := by
    refine ⟨n - 6, ?_⟩
    have := b1.len; have := b2.len; have := b3.len; have := b4.len; have := b5.len; have := b6.len
    simp only [List.length_append] at hn
    omega
  rw [seqRest_step b1 h2 (stop32 b2 _), seqRest_step b2 h3 (stop32 b3 _), seqRest_step b3 h4 (stop32 b4 _),
    seqRest_step b4 h5 (stop32 b5 _), seqRest_step b5 h6 (stop32 b6 _), seqRest_last b6 h7]

theorem seqCount_six {c1 c2 c3 c4 c5 c7 s1 s2 s3 s4 s5 : Str} (h1 : Cell c1) (h2 : Cell c2) (h3 : Cell c3) (h4 : Cell c4)
    (h5 : Cell c5) (h7 : Cell c7) (b1 : Blank s1) (b2 : Blank s2) (b3 : Blank s3) (b4 : Blank s4) (b5 : Blank s5) :
    seqCount (c1 ++ (s1 ++ (c2 ++ (s2 ++ (c3 ++ (s3 ++ (c4 ++ (s4 ++ (c5 ++ (s5 ++ c7)))))))))) = 6 := by
  unfold seqCount
  rw [h1.many (stop32 b1 _)]
  simp only
  generalize hn : (c1 ++ (s1 ++ (c2 ++ (s2 ++ (c3 ++ (s3 ++ (c4 ++ (s4 ++ (c5 ++ (s5 ++ c7)))))))))).length = n
  obtain ⟨m, rfl⟩ : ∃ m, n = m + 1 + 1 + 1 + 1 + 1 := by
    refine ⟨n - 5, ?_⟩
    have := b1.len; have := b2.len; have := b3.len; have := b4.len; have := b5.len
    simp only [List.length_append] at hn
    omega
  rw [seqRest_step b1 h2 (stop32 b2 _), seqRest_step b2 h3 (stop32 b3 _), seqRest_step b3 h4 (stop32 b4 _),
    seqRest_step b4 h5 (stop32 b5 _), seqRest_last b5 h7]

end Verif.PsiFormat
