import Verif.PsiFormat.Lemmas

/-!
Helper lemmas for Props.lean: whole rows and files.
-/
set_option linter.unusedSimpArgs false
set_option linter.unusedVariables false
namespace Verif.PsiFormat
open Verif
variable {D : Type} [DecidableEq D]

theorem digit_cell {c : Str} (hne : c ≠ []) (h : ∀ b ∈ c, isDigit b = true ∨ b = 64 ∨ b = 42) : Cell c := by
  have key : ∀ b ∈ c, b ≠ 32 ∧ b ≠ 10 ∧ isSpace b = false := by
    intro b hb
    rcases h b hb with h | rfl | rfl
    · have h' := digit_safe h
      unfold Safe at h'
      refine ⟨h'.2.2.2.1, h'.2.1, ?_⟩
      simp only [isDigit, Bool.and_eq_true, decide_eq_true_eq] at h
      cases hs : isSpace b with
      | false => rfl
      | true =>
        exfalso
        simp only [isSpace, Bool.or_eq_true, Bool.and_eq_true, decide_eq_true_eq] at hs
        rcases hs with rfl | ⟨_, h2⟩
        · revert h; decide
        · have h1 := h.1
          rw [UInt8.le_iff_toNat_le] at h1 h2
          have : (48 : UInt8).toNat ≤ (13 : UInt8).toNat := Nat.le_trans h1 h2
          revert this; decide
    · decide
    · decide
  refine ⟨hne, fun b hb => (key b hb).1, fun b hb => (key b hb).2.1, ?_⟩
  cases c with
  | nil => exact absurd rfl hne
  | cons b c => exact Stops.cons (key b (by simp)).2.2 _

theorem dec0_cell (w n : Nat) : Cell (dec0 w n) := digit_cell (dec0_ne w n) (fun b hb => Or.inl (dec0_digit w n b hb))

theorem Source.cell_cell (s : Source) : Cell s.cell := by
  cases s with
  | loose n =>
    refine digit_cell (by simp [Source.cell]) (fun b hb => ?_)
    simp only [Source.cell, List.mem_cons] at hb
    rcases hb with rfl | hb
    · simp
    · exact Or.inl (decF_digit n n b hb)
  | char n => exact dec0_cell 4 n

theorem Target.cell_cell (s : Target) : Cell s.cell := by
  cases s with
  | loose n =>
    refine digit_cell (by simp [Target.cell]) (fun b hb => ?_)
    simp only [Target.cell, List.mem_cons] at hb
    rcases hb with rfl | rfl | hb
    · simp
    · simp
    · exact Or.inl (decF_digit n n b hb)
  | char n =>
    refine digit_cell (by simp [Target.cell]) (fun b hb => ?_)
    simp only [Target.cell, List.mem_cons] at hb
    rcases hb with rfl | hb
    · simp
    · exact Or.inl (dec0_digit 4 n b hb)
  | length n => exact dec0_cell 2 n

theorem isSpace_false {b : Byte} (h : b ≠ 32 ∧ b ≠ 9 ∧ b ≠ 10 ∧ b ≠ 11 ∧ b ≠ 12 ∧ b ≠ 13) : isSpace b = false := by
  cases hs : isSpace b with
  | false => rfl
  | true =>
    exfalso
    simp only [isSpace, Bool.or_eq_true, Bool.and_eq_true, decide_eq_true_eq] at hs
    rcases hs with hs | ⟨h1, h2⟩
    · exact h.1 hs
    · rw [UInt8.le_iff_toNat_le] at h1 h2
      have h1 : 9 ≤ b.toNat := h1
      have h2 : b.toNat ≤ 13 := h2
      have hb : ∀ k : UInt8, b ≠ k → b.toNat ≠ k.toNat := fun k hk he => hk (UInt8.toNat_inj.1 he)
      have a1 := hb 9 h.2.1
      have a2 := hb 10 h.2.2.1
      have a3 := hb 11 h.2.2.2.1
      have a4 := hb 12 h.2.2.2.2.1
      have a5 := hb 13 h.2.2.2.2.2
      have e1 : (9 : UInt8).toNat = 9 := rfl
      have e2 : (10 : UInt8).toNat = 10 := rfl
      have e3 : (11 : UInt8).toNat = 11 := rfl
      have e4 : (12 : UInt8).toNat = 12 := rfl
      have e5 : (13 : UInt8).toNat = 13 := rfl
      omega

theorem esc_head {s : Str} (h : Head s) : ∀ b, (esc s).head? = some b → isSpace b = false := by
  intro b hb
  have hm : b ∈ esc s := List.mem_of_mem_head? hb
  have h1 := esc_sep s b hm
  have h2 : b ≠ 11 ∧ b ≠ 12 := by
    cases s with
    | nil => cases hb
    | cons c s =>
      have hc := h c rfl
      unfold esc at hb
      rw [Quoter.escape] at hb
      unfold Quoter.escapeByte at hb
      simp only [B.space, B.underscore, B.nl, B.backslash, B.n, B.tab, B.t, B.cr, B.r, B.star] at hb
      split at hb
      · cases hb; decide
      · split at hb
        · cases hb; decide
        · split at hb
          · cases hb; decide
          · split at hb
            · cases hb; decide
            · split at hb
              · cases hb; decide
              · split at hb
                · cases hb; decide
                · split at hb
                  · cases hb; decide
                  · split at hb
                    · cases hb; decide
                    · cases hb; exact hc
  exact isSpace_false ⟨h1.1, h1.2.1, h1.2.2.1, h2.1, h2.2, h1.2.2.2⟩

theorem esc_cell {s : Str} (hne : s ≠ []) (h : Head s) : Cell (esc s) :=
  ⟨esc_ne hne, fun b hb => (esc_sep s b hb).1, fun b hb => (esc_sep s b hb).2.2.1, esc_head h⟩

theorem text_cell {s : Str} (h : Head s) : Cell (textCell s) := by
  unfold textCell
  split
  · refine ⟨by decide, by decide, by decide, Stops.cons (by decide) _⟩
  · rename_i hne
    exact esc_cell (fun h' => hne (by rw [h']; rfl)) h

theorem unesc_text (s : Str) : unesc (textCell s) = some (if s = [] then emptySign else s) := by
  unfold textCell
  by_cases h : s = []
  · subst h; decide
  · rw [if_neg (esc_ne h), if_neg h]
    exact unesc_esc s

theorem tags_cell {l : List Str} (hne : l ≠ []) (h : ∀ t ∈ l, PlainTag t) : Cell (join 44 l) := by
  refine ⟨join_tags_ne hne h, fun b hb => (tags_safe h b hb).2.2.2.1, fun b hb => (tags_safe h b hb).2.1, ?_⟩
  intro b hb
  have hm := List.mem_of_mem_head? hb
  rcases mem_join hm with rfl | ⟨a, ha, hb⟩
  · decide
  · have := (h a ha).2 b hb
    exact isSpace_false (by tauto)

theorem Row.annot_cell {num : Num D} {r : Row D} (h : r.Plain num) : Cell (r.annotCell num) := by
  have hc := esc_cell h.category.1 h.category.2.1
  have key : ∀ b ∈ r.annotCell num, b ≠ 32 ∧ b ≠ 10 := by
    intro b hb
    rw [Row.annotCell_eq, List.mem_append, List.mem_append, List.mem_append] at hb
    rcases hb with hb | hb | hb | hb
    · exact ⟨hc.blank b hb, hc.newline b hb⟩
    · split at hb
      · cases hb
      · rename_i hne
        simp only [List.cons_append, List.mem_cons, List.mem_append, List.not_mem_nil, or_false] at hb
        rcases hb with rfl | hb | rfl
        · decide
        · have h' := (plainScore_char (h.score hne) hb).1
          unfold Safe at h'
          exact ⟨h'.2.2.2.1, h'.2.1⟩
        · decide
    · exact ⟨(esc_sep _ b hb).1, (esc_sep _ b hb).2.2.1⟩
    · unfold Row.partsText at hb
      cases hp : r.parts with
      | none => simp [hp] at hb
      | some ps =>
        rw [hp] at hb
        simp only [List.cons_append, List.mem_cons, List.mem_append, List.not_mem_nil, or_false] at hb
        rcases hb with rfl | hb | rfl
        · decide
        · exact (Row.parts_char h hp hb).2
        · decide
  refine ⟨?_, fun b hb => (key b hb).1, fun b hb => (key b hb).2, ?_⟩
  · rw [Row.annotCell_eq]
    intro h'
    exact hc.ne (List.append_eq_nil_iff.1 h').1
  · rw [Row.annotCell_eq]
    exact hc.stops _

theorem Row.unesc_parts {num : Num D} {r : Row D} (h : r.Plain num) :
    ∃ t, unesc (r.partsText num) = some t ∧ readParts num r.tags r.score t = r.seen.parts := by
  unfold Row.partsText Row.seen
  cases hp : r.parts with
  | none => exact ⟨[], rfl, rfl⟩
  | some ps =>
    refine ⟨91 :: join 44 (ps.map (Part.plain num r.tags r.score)) ++ [93], ?_, ?_⟩
    · have h1 : unesc [91] = some [91] := by decide
      have h2 : unesc [93] = some [93] := by decide
      exact unesc_append (s := 91 :: join 44 (ps.map (Part.str num r.tags r.score)))
        (unesc_append (s := [91]) h1 (unesc_join (by unfold Safe; decide) _ _ _
          (fun p hp' => Part.unesc_str ((h.parts ps hp).2 p hp')))) h2
    · exact readParts_eq ps (h.parts ps hp).1 (h.parts ps hp).2

theorem Row.readAv_text {num : Num D} {r : Row D} (h : r.Plain num) : readAv r.avText = r.av := by
  unfold Row.avText
  by_cases hav : r.av = []
  · rw [if_pos hav, hav]; rfl
  · rw [if_neg hav]; exact readAv_eq hav h.av

/-! ### Parsing a row -/

theorem parseRow_steps {num : Num D} {s a1 a2 a3 a4 a5 a6 a7 a8 a9 a10 a11 a12 a13 w1 w2 w3 w4 w5 text at_ cat av parts : Str}
    {o bg ln : Int} {bl lp ll : Bool} {tags : List Str} {score : D}
    (h1 : int s = some (o, a1)) (h2 : many1 isSpace a1 = some (w1, a2)) (h3 : flag 64 a2 = (bl, a3)) (h4 : int a3 = some (bg, a4))
    (h5 : many1 isSpace a4 = some (w2, a5)) (h6 : flag 42 a5 = (lp, a6)) (h7 : flag 64 a6 = (ll, a7)) (h8 : int a7 = some (ln, a8))
    (h9 : many1 isSpace a8 = some (w3, a9)) (h10 : many1 notSpace a9 = some (text, a10)) (h11 : many1 isSpace a10 = some (w4, a11))
    (h12 : sepBy (many1 (fun b => b ≠ 32 && b ≠ 44)) 44 a11 = some (tags, a12)) (h13 : many1 isSpace a12 = some (w5, a13))
    {a14 : Str} (h14 : annotTextOpt a13 = (at_, a14)) (h15 : annotation num a14 = some (cat, score, av, parts)) :
    parseRow num s = some ⟨o, bl, bg, lp, ll, ln, text, tags, at_, cat, score, av, parts⟩ := by
  unfold parseRow
  simp only [Option.bind_eq_bind, h1, h2, h3, h4, h5, h6, h7, h8, h9, h10, h11, h12, h13, h14, h15, Option.bind_some]

theorem flag_digit {w n : Nat} {c : Byte} (hc : isDigit c = false) (t : Str) : flag c (dec0 w n ++ t) = (false, dec0 w n ++ t) := by
  have h1 := dec0_digit w n
  cases h : dec0 w n with
  | nil => exact absurd h (dec0_ne w n)
  | cons b l =>
    rw [h] at h1
    have hb := h1 b (by simp)
    unfold flag
    rw [List.cons_append, lit_ne]
    rintro rfl
    rw [hc] at hb; cases hb

/-- Flag and number of the beginning. -/
def Source.num : Source → Bool × Nat
  | .loose n => (true, n)
  | .char n => (false, n)

/-- Flags and number of the end. -/
def Target.num : Target → Bool × Bool × Nat
  | .loose n => (true, true, n)
  | .char n => (true, false, n)
  | .length n => (false, false, n)

theorem Source.parse {s : Source} (h : ∀ n, s = .loose n ∨ s = .char n → Small n) {t : Str} (ht : Stops isDigit t) :
    ∃ u, flag 64 (s.cell ++ t) = (s.num.1, u) ∧ int u = some ((s.num.2 : Int), t) := by
  cases s with
  | loose n =>
    refine ⟨dec n ++ t, ?_, ?_⟩
    · simp [Source.cell, flag, lit, Source.num]
    · rw [dec_eq]; exact int_dec0 0 n (h n (Or.inl rfl)) ht
  | char n =>
    exact ⟨dec0 4 n ++ t, flag_digit (by decide) t, int_dec0 4 n (h n (Or.inr rfl)) ht⟩

theorem Target.parse {s : Target} (h : ∀ n, s = .loose n ∨ s = .char n ∨ s = .length n → Small n) {t : Str} (ht : Stops isDigit t) :
    ∃ u v, flag 42 (s.cell ++ t) = (s.num.1, u) ∧ flag 64 u = (s.num.2.1, v) ∧ int v = some ((s.num.2.2 : Int), t) := by
  cases s with
  | loose n =>
    refine ⟨64 :: (dec n ++ t), dec n ++ t, ?_, ?_, ?_⟩
    · simp [Target.cell, flag, lit, Target.num]
    · simp [flag, lit, Target.num]
    · rw [dec_eq]; exact int_dec0 0 n (h n (Or.inl rfl)) ht
  | char n =>
    refine ⟨dec0 4 n ++ t, dec0 4 n ++ t, ?_, flag_digit (by decide) t, int_dec0 4 n (h n (Or.inr (Or.inl rfl))) ht⟩
    simp [Target.cell, flag, lit, Target.num]
  | length n =>
    exact ⟨dec0 2 n ++ t, dec0 2 n ++ t, flag_digit (by decide) t, flag_digit (by decide) t,
      int_dec0 2 n (h n (Or.inr (Or.inr rfl))) ht⟩

/-- What is parsed, but for the annotation text. -/
def Row.item (num : Num D) (r : Row D) (at_ : Str) : Item D :=
  ⟨r.ordinal, r.source.num.1, r.source.num.2, r.target.num.1, r.target.num.2.1, r.target.num.2.2, textCell r.text, r.tags, at_,
    esc r.category, r.score, esc r.avText, r.partsText num⟩

theorem Row.parse {num : Num D} {r : Row D} (h : r.Plain num) {s1 s2 s3 s4 s5 a13 a14 at_ : Str} (b1 : Blank s1) (b2 : Blank s2)
    (b3 : Blank s3) (b4 : Blank s4) (b5 : many1 isSpace (s5 ++ a13) = some (s5, a13)) (b5' : Blank s5)
    (h14 : annotTextOpt a13 = (at_, a14)) (h15 : a14 = r.annotCell num) :
    parseRow num (dec0 2 r.ordinal ++ (s1 ++ (r.source.cell ++ (s2 ++ (r.target.cell ++ (s3 ++ (textCell r.text ++ (s4 ++
      (join 44 r.tags ++ (s5 ++ a13)))))))))) = some (r.item num at_) := by
  obtain ⟨u1, hs1, hs2⟩ := Source.parse h.source (b2.stops (p := isDigit) (by decide)
    (r.target.cell ++ (s3 ++ (textCell r.text ++ (s4 ++ (join 44 r.tags ++ (s5 ++ a13)))))))
  obtain ⟨u2, u3, ht1, ht2, ht3⟩ := Target.parse h.target (b3.stops (p := isDigit) (by decide)
    (textCell r.text ++ (s4 ++ (join 44 r.tags ++ (s5 ++ a13)))))
  refine parseRow_steps (int_dec0 2 r.ordinal h.ordinal (b1.stops (by decide) _)) (b1.many r.source.cell_cell _) hs1 hs2
    (b2.many r.target.cell_cell _) ht1 ht2 ht3 (b3.many (text_cell h.text) _) ((text_cell h.text).many (stop32 b4 _))
    (b4.many (tags_cell h.tags.1 h.tags.2) _) (sepBy_words (by decide) (b5'.stops (by decide) _) ?_ r.tags h.tags.1 ?_) b5 h14
    (by rw [h15]; exact Row.annotation_eq h)
  · refine lit_stop (b5'.stops (by decide) _)
  · intro a ha
    refine ⟨(h.tags.2 a ha).1, fun b hb => ?_⟩
    have := (h.tags.2 a ha).2 b hb
    simp [this]

theorem mapM_some {α β : Type} (f : α → Option β) (g : α → β) (l : List α) (h : ∀ a ∈ l, f a = some (g a)) :
    l.mapM f = some (l.map g) := by
  induction l with
  | nil => rfl
  | cons a l ih =>
    rw [List.mapM_cons, h a (by simp), ih (fun b hb => h b (List.mem_cons_of_mem _ hb))]
    rfl

theorem Row.finish {num : Num D} {r : Row D} (h : r.Plain num) {at_ : Str} (ha : unesc at_ = some r.annotText) :
    (do
      let item ← (r.item num at_).unescape
      let target ← item.target
      some (⟨item.ordinal, item.source, target, item.text, item.tags, item.annotText, item.category, item.score, readAv item.av,
        readParts num item.tags item.score item.partitions⟩ : Seen D)) = some r.seen := by
  obtain ⟨t, ht1, ht2⟩ := Row.unesc_parts h
  have hm : r.tags.mapM unesc = some r.tags := by
    have := mapM_some unesc id r.tags (fun t ht => unesc_safe (h.tags.2 t ht).safe)
    simpa using this
  have hu : (r.item num at_).unescape = some { r.item num at_ with
      text := if r.text = [] then emptySign else r.text, annotText := r.annotText, category := r.category, av := r.avText,
      partitions := t } := by
    unfold Item.unescape Row.item
    simp only [Option.bind_eq_bind, unesc_text, hm, ha, unesc_esc, ht1, Option.bind_some]
  rw [hu]
  simp only [Option.bind_eq_bind, Option.bind_some]
  have htar : Item.target { r.item num at_ with
      text := if r.text = [] then emptySign else r.text, annotText := r.annotText, category := r.category, av := r.avText,
      partitions := t } = some r.target := by
    unfold Item.target Row.item
    cases r.target <;> simp [Target.num]
  have hsrc : Item.source { r.item num at_ with
      text := if r.text = [] then emptySign else r.text, annotText := r.annotText, category := r.category, av := r.avText,
      partitions := t } = r.source := by
    unfold Item.source Row.item
    cases r.source <;> simp [Source.num]
  rw [htar, hsrc]
  simp only [Option.bind_some, Row.item]
  rw [Row.readAv_text h, ht2]
  unfold Row.seen
  rfl

theorem Row.tags_esc {num : Num D} {r : Row D} (h : r.Plain num) : esc (join 44 r.tags) = join 44 r.tags :=
  esc_safe (tags_safe h.tags.2)

theorem Row.readRow_line {num : Num D} {r : Row D} (h : r.Plain num) (width : Str → Nat) :
    readRow num (r.line num width) = some r.seen := by
  unfold Row.line Row.cells
  rw [Row.tags_esc h]
  obtain ⟨s1, s2, s3, s4, s5, s6, b1, b2, b3, b4, b5, b6, e⟩ := alignCells_seven width alignments 0 (dec0 2 r.ordinal) r.source.cell
    r.target.cell (textCell r.text) (join 44 r.tags) (esc r.annotText) (r.annotCell num)
  rw [e]
  have c1 := dec0_cell 2 r.ordinal
  have c2 := r.source.cell_cell
  have c3 := r.target.cell_cell
  have c4 := text_cell h.text
  have c5 := tags_cell h.tags.1 h.tags.2
  have c7 := Row.annot_cell h
  by_cases ha : r.annotText = []
  · have e0 : esc r.annotText = [] := by rw [ha]; rfl
    rw [e0, List.nil_append]
    have e' : s5 ++ (s6 ++ r.annotCell num) = (s5 ++ s6) ++ r.annotCell num := by simp
    rw [e']
    have b56 := b5.append b6
    have hann : annotTextOpt (r.annotCell num) = (r.annotCell num, r.annotCell num) := by
      unfold annotTextOpt
      have := c7.many (Stops.nil notSpace)
      rw [List.append_nil] at this
      rw [this]
      rfl
    have hb : many1 isSpace ((s5 ++ s6) ++ r.annotCell num) = some (s5 ++ s6, r.annotCell num) := by
      have := b56.many c7 []
      rw [List.append_nil] at this
      exact this
    have hp := Row.parse h b1 b2 b3 b4 hb b56 hann rfl
    have hc := seqCount_six c1 c2 c3 c4 c5 c7 b1 b2 b3 b4 b56
    unfold readRow
    rw [hp, hc]
    simp only [Option.bind_eq_bind, Option.bind_some]
    rw [if_pos (by decide)]
    have := Row.finish h (at_ := []) (by rw [ha]; rfl)
    simpa [Row.item] using this
  · have c6 := esc_cell ha h.annotText
    have hann : annotTextOpt (esc r.annotText ++ (s6 ++ r.annotCell num)) = (esc r.annotText, r.annotCell num) := by
      unfold annotTextOpt
      rw [c6.many (stop32 b6 _)]
      simp only
      have := b6.many c7 []
      rw [List.append_nil] at this
      rw [this]
    have hp := Row.parse h b1 b2 b3 b4 (b5.many c6 _) b5 hann rfl
    have hc := seqCount_seven c1 c2 c3 c4 c5 c6 c7 b1 b2 b3 b4 b5 b6
    unfold readRow
    rw [hp, hc]
    simp only [Option.bind_eq_bind, Option.bind_some]
    rw [if_neg (by decide)]
    exact Row.finish h (unesc_esc r.annotText)

/-! ### Files -/

theorem lines_line {l : Str} (h : ∀ b ∈ l, b ≠ 10) (t : Str) : lines (l ++ 10 :: t) = l :: lines t := by
  induction l with
  | nil => simp [lines]
  | cons b l ih =>
    rw [List.cons_append, lines, if_neg (h b (by simp)), ih (fun c hc => h c (List.mem_cons_of_mem _ hc))]

theorem alignCells_newline {width : Str → Nat} (l : List Str) (h : ∀ c ∈ l, ∀ b ∈ c, b ≠ 10) (as : List Nat) (pos : Nat) :
    ∀ b ∈ alignCells width as pos l, b ≠ 10 := by
  induction l generalizing as pos with
  | nil => simp [alignCells]
  | cons c l ih =>
    cases l with
    | nil => simpa [alignCells] using h c (by simp)
    | cons d l =>
      obtain ⟨s, as', pos', hs, e⟩ := alignCells_two width as pos c d l
      rw [e]
      intro b hb
      rw [List.mem_append, List.mem_append] at hb
      rcases hb with hb | hb | hb
      · exact h c (by simp) b hb
      · rw [hs.blank b hb]; decide
      · exact ih (fun c hc => h c (List.mem_cons_of_mem _ hc)) as' pos' b hb

theorem Row.line_newline {num : Num D} {r : Row D} (h : r.Plain num) (width : Str → Nat) : ∀ b ∈ r.line num width, b ≠ 10 := by
  refine alignCells_newline _ ?_ _ _
  intro c hc
  simp only [Row.cells, List.mem_cons, List.not_mem_nil, or_false] at hc
  rcases hc with rfl | rfl | rfl | rfl | rfl | rfl | rfl
  · exact (dec0_cell 2 _).newline
  · exact r.source.cell_cell.newline
  · exact r.target.cell_cell.newline
  · exact (text_cell h.text).newline
  · exact fun b hb => (esc_sep _ b hb).2.2.1
  · exact fun b hb => (esc_sep _ b hb).2.2.1
  · exact (Row.annot_cell h).newline

theorem digit_not_space {b : Byte} (h : isDigit b = true) : isSpace b = false ∧ b ≠ 35 := by
  have c := digit_cell (c := [b]) (by simp) (by simp [h])
  have h' := digit_safe h
  unfold Safe at h'
  exact ⟨c.head b rfl, h'.2.2.2.2.1⟩

theorem Row.not_skipped {num : Num D} {r : Row D} (width : Str → Nat) : skipped (r.line num width) = false := by
  unfold Row.line Row.cells
  obtain ⟨s, as', pos', hs, e⟩ := alignCells_two width alignments 0 (dec0 2 r.ordinal) r.source.cell
    [r.target.cell, textCell r.text, esc (join 44 r.tags), esc r.annotText, r.annotCell num]
  rw [e]
  have hd := dec0_digit 2 r.ordinal
  cases h : dec0 2 r.ordinal with
  | nil => exact absurd h (dec0_ne _ _)
  | cons b l =>
    rw [h] at hd
    obtain ⟨h1, h2⟩ := digit_not_space (hd b (by simp))
    unfold skipped
    simp [h1, h2]

theorem header_skipped (width : Str → Nat) : skipped (alignCells width alignments 0 header) = true := by
  unfold header
  obtain ⟨s, as', pos', hs, e⟩ := alignCells_two width alignments 0 [35, 35] [98, 101, 103, 46] [[108, 101, 110, 46], [116, 101, 120, 116], [116, 97, 103, 115],
    [97, 110, 110, 111, 116, 46, 116, 101, 120, 116], [97, 110, 110, 111, 116, 97, 116, 105, 111, 110, 115]]
  rw [e]
  rfl

theorem readFile_rows {num : Num D} (width : Str → Nat) (rows : List (Row D)) (h : ∀ r ∈ rows, r.Plain num) :
    readFile num (rows.flatMap (fun r => r.line num width ++ [10])) = some (rows.map Row.seen) := by
  unfold readFile
  induction rows with
  | nil => rfl
  | cons r rows ih =>
    rw [List.flatMap_cons, List.append_assoc, List.singleton_append, lines_line (Row.line_newline (h r (by simp)) width),
      List.filter_cons, Row.not_skipped]
    simp only [Bool.not_false, if_true]
    rw [List.mapM_cons, Row.readRow_line (h r (by simp)), ih (fun r hr => h r (List.mem_cons_of_mem _ hr))]
    rfl

theorem readFile_file {num : Num D} (width : Str → Nat) (withHeader : Bool) (rows : List (Row D)) (h : ∀ r ∈ rows, r.Plain num) :
    readFile num (writeFile num width withHeader rows) = some (rows.map Row.seen) := by
  unfold writeFile
  cases withHeader with
  | false => exact readFile_rows width rows h
  | true =>
    have := readFile_rows width rows h
    unfold readFile at this ⊢
    rw [if_pos rfl, List.append_assoc, List.singleton_append, lines_line, List.filter_cons, header_skipped]
    · simpa using this
    · exact alignCells_newline _ (by decide) _ _

end Verif.PsiFormat
