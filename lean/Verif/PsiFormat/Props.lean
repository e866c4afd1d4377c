import Verif.PsiFormat.Rows

/-!
Property theorems C60, C61 (rows of the PSI format).
-/
namespace Verif.PsiFormat
open Verif
variable {D : Type} [DecidableEq D]

/-! ### Numbers as scores, for examples -/

/-- Scores that are natural numbers. -/
def natNum : Num Nat :=
  { zero := 0, print := dec, read := fun s => (many1 isDigit s).map (fun r => (value r.1, r.2)) }

theorem natNum_plain (n : Nat) : PlainScore natNum n := by
  refine ⟨fun rest => ?_, decF_ne n n, fun b hb => ?_⟩
  · show (many1 isDigit (dec n ++ 62 :: rest)).map _ = _
    rw [many1_eq (a := dec n) (s := 62 :: rest) (decF_digit n n) (decF_ne n n) (Stops.cons (by decide) _)]
    show some (value (dec n), _) = _
    rw [show value (dec n) = n from value_decF n n (Nat.le_refl _)]
  · have := decF_digit n n b hb
    simp only [isDigit, Bool.and_eq_true, decide_eq_true_eq] at this
    exact Or.inr (Or.inr (Or.inr (Or.inl this)))

/-- `np`: the text "a b", two partitions. -/
def sample : Row Nat :=
  { ordinal := 5, source := .char 0, target := .length 3, text := [97, 32, 98], tags := [[112, 97], [103]], annotText := [35, 10],
    category := [110, 112], score := 7, av := [([120], [121, 95]), ([122], [49])],
    parts := some [⟨[⟨some 1, []⟩, ⟨some 12, [104, 32]⟩], [[112, 97], [103]], 7⟩, ⟨[⟨some 2, []⟩, ⟨none, []⟩, ⟨none, []⟩], [[113]], 3⟩] }

theorem sample_plain : sample.Plain natNum where
  ordinal := by unfold Small sample; decide
  source := by
    rintro n (h | h)
    · cases h
    · cases h; unfold Small; decide
  target := by
    rintro n (h | h | h)
    · cases h
    · cases h
    · cases h; unfold Small; decide
  text := by intro b h; cases h; decide
  tags := by
    refine ⟨by decide, fun t ht => ?_⟩
    simp only [sample, List.mem_cons, List.not_mem_nil, or_false] at ht
    unfold PlainTag
    rcases ht with rfl | rfl <;> decide
  annotText := by intro b h; cases h; decide
  category := ⟨by decide, by intro b h; cases h; decide, by decide⟩
  score := fun _ => natNum_plain _
  av := by
    intro p hp
    simp only [sample, List.mem_cons, List.not_mem_nil, or_false] at hp
    rcases hp with rfl | rfl <;> decide
  parts := by
    intro l hl
    cases hl
    refine ⟨by decide, fun p hp => ?_⟩
    simp only [List.mem_cons, List.not_mem_nil, or_false] at hp
    rcases hp with rfl | rfl
    · refine ⟨by decide, by decide, ?_, ?_, fun h => absurd rfl h, fun h => absurd rfl h⟩
      · intro s hs
        simp only [List.mem_cons, List.not_mem_nil, or_false] at hs
        rcases hs with rfl | rfl
        · exact ⟨fun n h => by cases h; unfold Small; decide, by decide, by decide⟩
        · exact ⟨fun n h => by cases h; unfold Small; decide, by decide, by decide⟩
      · simp [Ordered]
    · refine ⟨by decide, by decide, ?_, ?_, fun _ => ⟨by decide, fun t ht => ?_⟩, fun _ => natNum_plain _⟩
      · intro s hs
        simp only [List.mem_cons, List.not_mem_nil, or_false] at hs
        rcases hs with rfl | rfl | rfl
        · exact ⟨fun n h => by cases h; unfold Small; decide, by decide, by decide⟩
        · exact ⟨fun n h => (by cases h), by decide, by decide⟩
        · exact ⟨fun n h => (by cases h), by decide, by decide⟩
      · simp [Ordered]
      · simp only [List.mem_cons, List.not_mem_nil, or_false] at ht
        subst ht
        unfold PlainTag
        decide

/-! ### C60 -/

/-- **C60** (partial: for rows as in `Row.Plain`). A row is read as it was written: number, beginning and end, text, tags, annotation
text, category, score, attributes and partitions, whatever is taken for the width of a cell. -/
theorem C60_row_partial (num : Num D) (width : Str → Nat) (r : Row D) (h : r.Plain num) :
    readRow num (r.line num width) = some r.seen :=
  Row.readRow_line h width

example : readRow natNum (sample.line natNum List.length) = some sample.seen :=
  C60_row_partial natNum List.length sample sample_plain

/-- **C60** (partial: for rows as in `Row.Plain`). A file is read as the rows that were written, with or without the header. -/
theorem C60_file_partial (num : Num D) (width : Str → Nat) (withHeader : Bool) (rows : List (Row D)) (h : ∀ r ∈ rows, r.Plain num) :
    readFile num (writeFile num width withHeader rows) = some (rows.map Row.seen) :=
  readFile_file width withHeader rows h

example : readFile natNum (writeFile natNum List.length true [sample, sample]) = some [sample.seen, sample.seen] :=
  C60_file_partial natNum List.length true [sample, sample] (by
    intro r hr
    simp only [List.mem_cons, List.not_mem_nil, or_false] at hr
    rcases hr with rfl | rfl <;> exact sample_plain)

/-- **C60** Nothing of a row is lost: different rows are different lines (with texts that are not the sign for empty text). -/
theorem C60_injective_partial (num : Num D) (width width' : Str → Nat) (r r' : Row D) (h : r.Plain num) (h' : r'.Plain num)
    (e : r.text ≠ emptySign) (e' : r'.text ≠ emptySign) (hl : r.line num width = r'.line num width') : r = r' := by
  have hs : r.seen = r'.seen := by
    have h1 := C60_row_partial num width r h
    rw [hl, C60_row_partial num width' r' h'] at h1
    exact (Option.some.inj h1).symm
  obtain ⟨o, so, ta, te, tg, an, ca, sc, av, pa⟩ := r
  obtain ⟨o', so', ta', te', tg', an', ca', sc', av', pa'⟩ := r'
  simp only [Row.seen, Seen.mk.injEq] at hs e e'
  obtain ⟨h1, h2, h3, h4, h5, h6, h7, h8, h9, h10⟩ := hs
  have h4' : te = te' := by
    by_cases a : te = []
    · by_cases b : te' = []
      · rw [a, b]
      · rw [if_pos a, if_neg b] at h4; exact absurd h4.symm e'
    · by_cases b : te' = []
      · rw [if_neg a, if_pos b] at h4; exact absurd h4 e
      · rw [if_neg a, if_neg b] at h4; exact h4
  have h10' : pa = pa' := by
    cases pa with
    | none =>
      cases pa' with
      | none => rfl
      | some l => cases h10
    | some l =>
      cases pa' with
      | none => cases h10
      | some l' => cases h10; rfl
  rw [Int.ofNat_inj.1 h1, h2, h3, h4', h5, h6, h7, h8, h9, h10']

example : (({ sample with score := 0 } : Row Nat).line natNum List.length) ≠ sample.line natNum List.length := by
  decide +kernel

/-- The edge of a symbol. -/
def symbolRow (c : Byte) : Row Nat :=
  { ordinal := 1, source := .char 0, target := .length 1, text := [c], tags := [[115]], annotText := [c], category := [39, c],
    score := 0, av := [], parts := none }

/-- **C60** does not hold for all rows: the edge of the symbol `,` is read back with another category (`'` instead of `',`), and so are
those of `[` and `<`; the edge of the symbol `a` is read back as it was. -/
theorem C60_symbol_false :
    (∀ c ∈ [(44 : Byte), 60, 91], (readRow natNum ((symbolRow c).line natNum List.length)).map Seen.category = some [39]) ∧
    (readRow natNum ((symbolRow 97).line natNum List.length)) = some (symbolRow 97).seen := by
  refine ⟨?_, by decide +kernel⟩
  intro c hc
  simp only [List.mem_cons, List.not_mem_nil, or_false] at hc
  rcases hc with rfl | rfl | rfl <;> decide +kernel

/-- **C60** does not hold for all rows: a tag with an underscore is read back with a backslash before it, as the loop that should
unescape the tags unescapes copies of them. -/
theorem C60_tag_false :
    (readRow natNum (({ symbolRow 97 with tags := [[97, 95, 98]] } : Row Nat).line natNum List.length)).map Seen.tags =
      some [[97, 92, 95, 98]] := by decide +kernel

/-- **C60** does not hold for all rows: an edge without category is a syntax error. -/
theorem C60_category_false : readRow natNum (({ symbolRow 97 with category := [] } : Row Nat).line natNum List.length) = none := by
  decide +kernel

/-- **C60** does not hold for text that is shortened: it may be cut between a backslash and what follows, which is an exception when it
is read.  The text here is `abcde`, a newline and `fghijklmn`. -/
theorem C60_shorten_false :
    unesc (shorten 13 [97, 98, 99, 100, 101, 10, 102, 103, 104, 105, 106, 107, 108, 109, 110]) = none := by decide +kernel

/-! ### C61 -/

/-- **C61** (partial: for partitions as in `PlainPart`). The partitions of an edge are read as they were written: the numbers and roles
of their edges, and tags and score, which are written only if they are not those of the edge. -/
theorem C61_partitions_partial (num : Num D) (tags : List Str) (score : D) (l : List (Part D)) (hne : l ≠ [])
    (h : ∀ p ∈ l, PlainPart num tags score p) :
    (unesc (91 :: join 44 (l.map (Part.str num tags score)) ++ [93])).map (readParts num tags score) = some (.list l) := by
  have h1 : unesc [91] = some [91] := by decide
  have h2 : unesc [93] = some [93] := by decide
  have := unesc_append (s := 91 :: join 44 (l.map (Part.str num tags score)))
    (unesc_append (s := [91]) h1 (unesc_join (by unfold Safe; decide) _ _ l (fun p hp => Part.unesc_str (h p hp)))) h2
  rw [this]
  exact congrArg some (readParts_eq l hne h)

example : (unesc (91 :: join 44 ([⟨[⟨some 1, []⟩, ⟨some 12, [104, 32]⟩], [[112]], 7⟩,
      ⟨[⟨some 2, []⟩, ⟨none, []⟩], [[113], [114]], 3⟩].map (Part.str natNum [[112]] 7)) ++ [93])).map (readParts natNum [[112]] 7) =
    some (.list [⟨[⟨some 1, []⟩, ⟨some 12, [104, 32]⟩], [[112]], 7⟩, ⟨[⟨some 2, []⟩, ⟨none, []⟩], [[113], [114]], 3⟩]) := by
  decide +kernel

/-- How partitions of an edge with tag `p` and score 7 are read. -/
def again (l : List (Part Nat)) : Option (Parts Nat) :=
  (unesc (91 :: join 44 (l.map (Part.str natNum [[112]] 7)) ++ [93])).map (readParts natNum [[112]] 7)

/-- **C61** does not hold if an edge that is not written is followed by one that is: `-5` is read as a negative number, and there is one
edge instead of two. -/
theorem C61_hidden_false :
    again [⟨[⟨none, []⟩, ⟨some 5, []⟩], [[112]], 7⟩] = some (.list [⟨[⟨none, []⟩], [[112]], 7⟩]) := by decide +kernel

/-- **C61** does not hold if one of the partitions has no edges: then none of them can be read. -/
theorem C61_empty_false :
    again [⟨[⟨some 1, []⟩, ⟨some 2, []⟩], [[112]], 7⟩, ⟨[], [[112]], 7⟩] = some .unreadable := by decide +kernel

/-- **C61** does not hold if a tag of a partition has an underscore: these tags are written as they are, but are unescaped when they
are read; the tag then ends at the space, and the score after it is not read. -/
theorem C61_tag_false :
    again [⟨[⟨some 1, []⟩, ⟨some 2, []⟩], [[97, 95, 98]], 3⟩] = some (.list [⟨[⟨some 1, []⟩, ⟨some 2, []⟩], [[97]], 7⟩]) := by
  decide +kernel

end Verif.PsiFormat
