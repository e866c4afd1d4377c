import Verif.Numconv.Bigger

/-!
# Writing numbers in words: lemmas about fractions and about missing digits
-/

namespace Verif.Numconv

open Spec

/-! ### Fractions -/

theorem ordinalWord_end (f : Gender) (v : Nat) : ∃ x s, ordinalWord f v = x ++ ending s f :=
  ⟨_, _, rfl⟩

theorem tail_end (f : Gender) {g r : Nat} (hg : 0 < g) :
    ∃ x s, (ordinalTail f g r).getLast? = some (x ++ ending s f) := by
  unfold ordinalTail
  split
  · split
    · obtain ⟨x, s, h⟩ := ordinalWord_end f g
      exact ⟨x, s, by simp [h]⟩
    · rename_i h
      have hne : (parts (g % 100)).map (ordinalWord f) ≠ [] := by
        simpa using parts_ne h
      rw [List.getLast?_append_of_ne_nil _ hne, List.getLast?_map]
      cases hl : (parts (g % 100)).getLast? with
      | none => exact absurd (List.getLast?_eq_none_iff.mp hl) (parts_ne h)
      | some v =>
        obtain ⟨x, s, h⟩ := ordinalWord_end f v
        exact ⟨x, s, by simp [h]⟩
  · refine ⟨(if g = 1 then b!"" else compound g)
      ++ (if r = 1 then b!"tysięczn" else powerStem r ++ b!"ow"), .hard, ?_⟩
    simp only [List.getLast?_singleton, ordinalPower]
    rw [← List.append_assoc]

theorem ordinal_end {f : Gender} {ws : List Str} {v : Nat} (h : IsOrdinal f ws v) :
    ∃ x s, ws.getLast? = some (x ++ ending s f) := by
  rcases h with ⟨_, rfl⟩ | ⟨front, a, g, r, rfl, _, hg, _⟩
  · obtain ⟨x, s, h⟩ := ordinalWord_end f 0
    exact ⟨x, s, by simp [h]⟩
  · obtain ⟨x, s, h⟩ := tail_end f (r := r) hg
    refine ⟨x, s, ?_⟩
    rw [List.getLast?_append, h]
    rfl

theorem ordinal_nice {f : Gender} {p : Pair} {v : Nat} (h : IsOrdinal f (words p.1) v)
    (hc : Codes p) : p.1 ≠ [] ∧ p.1 ≠ b!"#" := by
  obtain ⟨x, s, hs⟩ := ordinal_end h
  constructor
  · intro e
    rw [e, words_nil] at hs
    simp at hs
  · intro e
    rw [e, words_one (by decide) (by decide)] at hs
    simp only [List.getLast?_singleton, Option.some.injEq] at hs
    have := congrArg List.getLast? hs
    cases s <;> cases f <;> simp [ending] at this

theorem num_fraction {a b : Str} (ha : Digits a) (hl : a.length ≤ 3) (hb : Digits b)
    (hv : value b < 10 ^ 660)
    (hp : agreement (value a) = .one ∨ value b % 1000 ≠ 0 ∨
      (∃ r, value b % 1000 ^ r = 0 ∧ value b / 1000 ^ r % 1000 = 1) ∨ value b = 0) :
    ∃ r wa wb, num2pltext .CARDINAL (a ++ b!"/" ++ b) = some r ∧
      words r.equiv = wa ++ wb ∧ Spec.read .feminine wa = some (value a) ∧
      IsOrdinal (fractionGender (agreement (value a))) wb (value b) ∧ r.syn = b!"R=4" ∧
      (words r.infl).length = (words r.equiv).length := by
  have hva : value a < 10 ^ 660 :=
    lt_of_lt_of_le (value_lt a ha.2) (Nat.pow_le_pow_right (by norm_num) (by omega))
  have da : Decimal a := .inl ⟨ha, hva⟩
  have db : Decimal b := .inl ⟨hb, hv⟩
  obtain ⟨h0, h1, h2, h3⟩ := ends_ok (s := b!"/") da db
  obtain ⟨p, hp1, hr, hn⟩ := integer_nice .feminine ha hva
  obtain ⟨q, hq, hcond⟩ := integer_ord (fractionGender (agreement (value a))) hb hv
  obtain ⟨hord, hcq⟩ := hcond (by
    rcases hp with h | h | h | h
    · left; rw [h]; simp [fractionGender, Proper]
    · exact .inr (.inl h)
    · exact .inr (.inr (.inl h))
    · exact .inr (.inr (.inr h)))
  obtain ⟨hq1, hq2⟩ := ordinal_nice hord hcq
  have hq3 : q.2 ≠ [] := by
    have h1 : words q.1 ≠ [] := fun e => hq1 (words_eq_nil.mp e)
    intro e
    have := hcq.2
    rw [e, words_nil] at this
    exact h1 (List.length_eq_zero_iff.mp this.symm)
  have hj : join2 p q = (p.1 ++ 32 :: q.1, p.2 ++ 32 :: q.2) := by
    simp [join2, hn.ok, hq2]
  have e1 := words_join hn.ne hq1
  have e2 := words_join hn.ne2 hq3
  refine ⟨⟨(join2 p q).1, (join2 p q).2, b!"R=4"⟩, words p.1, words q.1, ?_, by rw [hj]; exact e1,
    hr, hord, rfl, ?_⟩
  · have e : a ++ b!"/" ++ b = a ++ 47 :: b := by simp
    have hno : ∀ c : Byte, c.toNat < 48 → c ≠ 44 → c ≠ 47 → c ∉ a ++ 47 :: b := by
      intro c c1 c2 c3
      have := decimal_not da c1 c2
      have := decimal_not db c1 c2
      simp_all
    rw [num_plain _ h0 h1 h2 h3]
    unfold plainText
    rw [e, split_none (hno 43 (by decide) (by decide) (by decide)),
      split_none (hno 45 (by decide) (by decide) (by decide)),
      split_some (decimal_not da (by decide) (by decide))]
    have hag : ∀ g : Nat, (gov g = .JEDEN ∧ agreement g = .one) ∨
        (gov g = .DWA ∧ agreement g = .few) ∨
        ((gov g = .ZERO ∨ gov g = .PIEC) ∧ agreement g = .many) := by
      intro g
      unfold gov agreement
      split_ifs <;> simp_all <;> omega
    have hp' : integer2pltext .CARDINAL_F a = some p := hp1
    simp only [fractionText, ne_eq, not_true_eq_false, if_false, hp', government_eq ha hl,
      Option.bind_eq_bind, Option.bind_some]
    rcases hag (value a) with ⟨e1, e2⟩ | ⟨e1, e2⟩ | ⟨e1 | e1, e2⟩ <;> rw [e2] at hq <;>
      simp only [fractionGender, genderForm] at hq <;> simp only [e1, hq] <;> rfl
  · have c1 := hn.codes.2
    have c2 := hcq.2
    simp only [hj, e1, e2, List.length_append, c1, c2]

/-! ### Missing digits -/

theorem zeros_some : ∀ (n : Str) (p : Pair), ∃ q, zerosBefore n p = some q := by
  intro n
  induction n with
  | nil => intro p; exact ⟨p, rfl⟩
  | cons c n ih =>
    intro p
    unfold zerosBefore
    split
    · obtain ⟨a, ha⟩ := prepend_some p.1 b!"zero"
      obtain ⟨b, hb⟩ := prepend_some p.2 b!"0"
      simp only [ha, hb, Option.bind_eq_bind, Option.bind_some]
      exact ih _
    · exact ⟨p, rfl⟩

theorem comma_cases (n : Str) : 44 ∉ n ∨ ∃ a b, n = a ++ 44 :: b ∧ 44 ∉ a := by
  by_cases h : (44 : Byte) ∈ n
  · obtain ⟨a, b, e, ha⟩ := List.eq_append_cons_of_mem h
    exact .inr ⟨a, b, e, ha⟩
  · exact .inl h

theorem incomplete_plain {n : Str} (h : 44 ∉ n) : Incomplete n ↔ n = [] := by
  constructor
  · intro hi
    cases hi with
    | nothing => rfl
    | before b => simp at h
    | after ha => simp at h
  · rintro rfl
    exact .nothing

theorem cut_inj {c : Byte} {a b x y : Str} (h : c ∉ a) (hx : c ∉ x)
    (e : a ++ c :: b = x ++ c :: y) : a = x ∧ b = y := by
  have := split_some (b := b) h
  rw [e, split_some hx] at this
  simp only [Option.some.injEq, Prod.mk.injEq] at this
  exact ⟨this.1.symm, this.2.symm⟩

theorem incomplete_comma {a b : Str} (h : 44 ∉ a) :
    Incomplete (a ++ 44 :: b) ↔ a = [] ∨ b = [] := by
  constructor
  · intro hi
    generalize e : a ++ 44 :: b = n at hi
    cases hi with
    | nothing => simp at e
    | before c =>
      cases a with
      | nil => exact .inl rfl
      | cons x a =>
        simp at e h
        exact absurd e.1.symm h.1
    | @after c hc =>
      right
      exact (cut_inj h hc e).2
  · rintro (rfl | rfl)
    · exact .before b
    · exact .after h

theorem decimal_none {t : Form} (ht : t = .CARDINAL ∨ t = .CARDINAL_G) (n : Str) (init : Pair) :
    decimalfraction2pltext t n init = none ↔ Incomplete n := by
  have hw : Whole t := by rcases ht with rfl | rfl <;> simp [Whole, Row]
  have hb : t ≠ .BEFORE_NOUN := by rcases ht with rfl | rfl <;> simp
  have hc : ¬ (t ≠ .CARDINAL ∧ t ≠ .CARDINAL_G) := by rcases ht with rfl | rfl <;> simp
  rcases comma_cases n with h | ⟨a, b, rfl, h⟩
  · rw [decimal_plain _ h, integer_none hw, incomplete_plain h]
  · rw [decimal_comma _ h, incomplete_comma h]
    cases ha : integer2pltext t a with
    | none =>
      have := (integer_none hw a).mp ha
      simp [this]
    | some p =>
      have ha' : a ≠ [] := by
        intro e
        rw [(integer_none hw a).mpr e] at ha
        simp at ha
      simp only [Option.bind_eq_bind, Option.bind_some, hb, hc, if_false, pure, ha', false_or]
      by_cases hh : equalsOneHalf b = true
      · have : b ≠ [] := by
          rintro rfl
          simp [equalsOneHalf] at hh
        simp [hh, this]
      · simp only [hh]
        by_cases hl : b.length ≤ 3
        · simp only [hl, if_true]
          have hf : fractional2pltext t b = none ↔ b = [] := by
            have hw2 : Whole (if t = .CARDINAL then Form.CARDINAL_F else .CARDINAL_FG) := by
              split <;> simp [Whole]
            unfold fractional2pltext
            cases hi : integer2pltext (if t = .CARDINAL then Form.CARDINAL_F else .CARDINAL_FG) b with
            | none => simp [(integer_none hw2 b).mp hi]
            | some q =>
              have hb' : b ≠ [] := by
                intro e
                rw [(integer_none hw2 b).mpr e] at hi
                simp at hi
              obtain ⟨d, hd⟩ : ∃ d, denominator[b.length]? = some d :=
                ⟨_, List.getElem?_eq_getElem (by simp [denominator]; omega)⟩
              simp [hb', hd]
          cases hfv : fractional2pltext t b with
          | none => simp [hf.mp hfv]
          | some q =>
            have : b ≠ [] := fun e => by
              rw [hf.mpr e] at hfv
              simp at hfv
            simp [this]
        · have hb' : b ≠ [] := by
            rintro rfl
            simp at hl
          cases hi : integer2pltext .CARDINAL b with
          | none => exact absurd ((integer_none (by simp [Whole, Row]) b).mp hi) hb'
          | some q =>
            obtain ⟨z, hz⟩ := zeros_some b q
            simp [hl, hz, hb']

theorem decimal_other {t : Form} (ht : t = .ORDINAL ∨ t = .BEFORE_NOUN) (n : Str) (init : Pair) :
    decimalfraction2pltext t n init = none ↔ n = [] ∨ ∃ b, n = 44 :: b := by
  have hw : Whole t := by rcases ht with rfl | rfl <;> simp [Whole, Row]
  have hc : t ≠ .CARDINAL ∧ t ≠ .CARDINAL_G := by rcases ht with rfl | rfl <;> simp
  rcases comma_cases n with h | ⟨a, b, rfl, h⟩
  · rw [decimal_plain _ h, integer_none hw]
    constructor
    · exact .inl
    · rintro (e | ⟨b, rfl⟩)
      · exact e
      · simp at h
  · rw [decimal_comma _ h]
    cases ha : integer2pltext t a with
    | none =>
      have := (integer_none hw a).mp ha
      simp [this]
    | some p =>
      have ha' : a ≠ [] := by
        intro e
        rw [(integer_none hw a).mpr e] at ha
        simp at ha
      have hne : ¬ (a ++ 44 :: b = [] ∨ ∃ c, a ++ 44 :: b = 44 :: c) := by
        rintro (e | ⟨c, e⟩)
        · simp at e
        · cases a with
          | nil => exact ha' rfl
          | cons x a =>
            simp at e h
            exact h.1 e.1.symm
      simp only [hne, iff_false, Option.bind_eq_bind, Option.bind_some, hc, pure]
      split
      · split <;> simp
      · simp

theorem mem_split (c : Byte) (n : Str) : c ∉ n ∨ ∃ a b, n = a ++ c :: b ∧ c ∉ a := by
  by_cases h : c ∈ n
  · obtain ⟨a, b, e, ha⟩ := List.eq_append_cons_of_mem h
    exact .inr ⟨a, b, e, ha⟩
  · exact .inl h

theorem exists_split {c : Byte} {a b : Str} (h : c ∉ a) (P : Str → Str → Prop) :
    (∃ x y, a ++ c :: b = x ++ c :: y ∧ c ∉ x ∧ P x y) ↔ P a b := by
  constructor
  · rintro ⟨x, y, e, hx, hp⟩
    obtain ⟨rfl, rfl⟩ := cut_inj h hx e
    exact hp
  · intro hp
    exact ⟨a, b, rfl, h, hp⟩

theorem not_split {c : Byte} {n : Str} (h : c ∉ n) (P : Str → Str → Prop) :
    ¬ ∃ x y, n = x ++ c :: y ∧ c ∉ x ∧ P x y := by
  rintro ⟨x, y, rfl, _⟩
  simp at h

theorem government_some (n : Str) :
    (selectGovernment n).isSome ↔
      n.length ≤ 3 ∧ ∃ d, n.getLast? = some d ∧ 48 ≤ d.toNat ∧ d.toNat ≤ 57 := by
  unfold selectGovernment
  rw [← List.length_reverse, ← List.head?_reverse]
  cases hr : n.reverse with
  | nil => simp
  | cons u before =>
    simp only [List.length_cons, List.head?_cons, Option.some.injEq, exists_eq_left']
    by_cases hu : isDigit u = true
    · have hd : 48 ≤ u.toNat ∧ u.toNat ≤ 57 := by simpa [isDigit] using hu
      by_cases hl : 2 < before.length
      · simp [hl]
      · have hg : (governed u before).isSome = true := by
          unfold governed
          split_ifs <;> simp_all
        simp [hl, hu, hg, hd]
        omega
    · have hd : ¬ (48 ≤ u.toNat ∧ u.toNat ≤ 57) := by simpa [isDigit] using hu
      simp [hu, hd]

theorem plain_none (n : Str) (h : n ≠ []) : plainText .CARDINAL n = none ↔
    ((∃ a b, n = a ++ 43 :: b ∧ 43 ∉ a ∧ (Incomplete a ∨ Incomplete b)) ∨
     (43 ∉ n ∧ ∃ a b, n = a ++ 45 :: b ∧ 45 ∉ a ∧ (Incomplete a ∨ Incomplete b)) ∨
     (43 ∉ n ∧ 45 ∉ n ∧ ∃ a b, n = a ++ 47 :: b ∧ 47 ∉ a ∧
        (a = [] ∨
          b = [] ∧ a.length ≤ 3 ∧ ∃ d, a.getLast? = some d ∧ 48 ≤ d.toNat ∧ d.toNat ≤ 57)) ∨
     (43 ∉ n ∧ 45 ∉ n ∧ 47 ∉ n ∧ Incomplete n)) := by
  unfold plainText
  rcases mem_split 43 n with h1 | ⟨a, b, rfl, h1⟩
  · rw [split_none h1]
    have f1 := not_split h1 (fun a b => Incomplete a ∨ Incomplete b)
    rcases mem_split 45 n with h2 | ⟨a, b, rfl, h2⟩
    · rw [split_none h2]
      have f2 := not_split h2 (fun a b => Incomplete a ∨ Incomplete b)
      rcases mem_split 47 n with h3 | ⟨a, b, rfl, h3⟩
      · rw [split_none h3]
        have f3 := not_split h3 (fun a b => a = [] ∨
          b = [] ∧ a.length ≤ 3 ∧ ∃ d, a.getLast? = some d ∧ 48 ≤ d.toNat ∧ d.toNat ≤ 57)
        simp only [f1, f2, f3, h1, h2, h3, not_false_eq_true, true_and, and_false, false_or]
        rw [← decimal_none (.inl rfl) n (b!"#", b!"")]
        cases decimalfraction2pltext .CARDINAL n (b!"#", b!"") <;> simp
      · rw [split_some h3]
        have f3 := exists_split (b := b) h3 (fun a b => a = [] ∨
          b = [] ∧ a.length ≤ 3 ∧ ∃ d, a.getLast? = some d ∧ 48 ≤ d.toNat ∧ d.toNat ≤ 57)
        have f4 : (47 : Byte) ∈ a ++ 47 :: b := by simp
        simp only [f1, f2, f3, f4, h1, h2, not_false_eq_true, not_true_eq_false, true_and,
          false_and, and_false, false_or, or_false]
        unfold fractionText
        simp only [ne_eq, not_true_eq_false, if_false]
        cases ha : integer2pltext .CARDINAL_F a with
        | none =>
          have := (integer_none (by simp [Whole]) a).mp ha
          simp [this]
        | some p =>
          have ha' : a ≠ [] := by
            intro e
            rw [(integer_none (by simp [Whole]) a).mpr e] at ha
            simp at ha
          have hg := government_some a
          simp only [Option.bind_eq_bind, Option.bind_some, ha', false_or]
          rw [← hg]
          cases hgv : selectGovernment a with
          | none => simp
          | some g =>
            have hb : ∀ f : Form, Row f → (integer2pltext f b = none ↔ b = []) :=
              fun f hf => integer_none (.inl hf) b
            simp only [Option.isSome_some, and_true]
            cases g
            · rw [← hb .ORDINAL_GPL (by simp [Row])]
              cases hi : integer2pltext .ORDINAL_GPL b <;> simp [hi]
            · rw [← hb .ORDINAL_F (by simp [Row])]
              cases hi : integer2pltext .ORDINAL_F b <;> simp [hi]
            · rw [← hb .ORDINAL_NPL (by simp [Row])]
              cases hi : integer2pltext .ORDINAL_NPL b <;> simp [hi]
            · rw [← hb .ORDINAL_GPL (by simp [Row])]
              cases hi : integer2pltext .ORDINAL_GPL b <;> simp [hi]
    · rw [split_some h2]
      have f2 := exists_split (b := b) h2 (fun a b => Incomplete a ∨ Incomplete b)
      have f4 : (45 : Byte) ∈ a ++ 45 :: b := by simp
      simp only [f1, f2, f4, h1, not_false_eq_true, not_true_eq_false, true_and,
        false_and, and_false, false_or, or_false]
      unfold rangeText
      simp only [ne_eq, not_true_eq_false, if_false]
      split
      · rw [← decimal_none (.inl rfl) a (b!"", b!""), ← decimal_none (.inl rfl) b (b!"", b!"")]
        cases decimalfraction2pltext .CARDINAL a (b!"", b!"") <;>
          cases decimalfraction2pltext .CARDINAL b (b!"", b!"") <;> simp
      · rw [← decimal_none (.inr rfl) a (b!"", b!""), ← decimal_none (.inr rfl) b (b!"", b!"")]
        cases decimalfraction2pltext .CARDINAL_G a (b!"", b!"") <;>
          cases decimalfraction2pltext .CARDINAL_G b (b!"", b!"") <;> simp
  · rw [split_some h1]
    have f2 := exists_split (b := b) h1 (fun a b => Incomplete a ∨ Incomplete b)
    have f4 : (43 : Byte) ∈ a ++ 43 :: b := by simp
    simp only [f2, f4, not_true_eq_false, false_and, or_false]
    unfold sumText
    simp only [ne_eq, not_true_eq_false, if_false]
    rw [← decimal_none (.inl rfl) a (b!"", b!""), ← decimal_none (.inl rfl) b (b!"", b!"")]
    cases decimalfraction2pltext .CARDINAL a (b!"", b!"") <;>
      cases decimalfraction2pltext .CARDINAL b (b!"", b!"") <;> simp

theorem plain_other {t : Form} (ht : t = .ORDINAL ∨ t = .BEFORE_NOUN) (n : Str) (h : n ≠ []) :
    plainText t n = none ↔ (∃ b, n = 44 :: b) ∧ 43 ∉ n ∧ 45 ∉ n ∧ 47 ∉ n := by
  have hc : t ≠ .CARDINAL := by rcases ht with rfl | rfl <;> simp
  unfold plainText
  rcases mem_split 43 n with h1 | ⟨a, b, rfl, h1⟩
  · rw [split_none h1]
    rcases mem_split 45 n with h2 | ⟨a, b, rfl, h2⟩
    · rw [split_none h2]
      rcases mem_split 47 n with h3 | ⟨a, b, rfl, h3⟩
      · rw [split_none h3]
        have := decimal_other ht n (b!"#", b!"")
        simp only [h, false_or] at this
        simp only [h1, h2, h3, not_false_eq_true, and_true]
        rw [← this]
        cases decimalfraction2pltext t n (b!"#", b!"") <;> simp
      · rw [split_some h3]
        simp [fractionText, hc]
    · rw [split_some h2]
      simp [rangeText, hc]
  · rw [split_some h1]
    simp [sumText, hc]

theorem signed_none (w : Str) (o : Option Result) : (do signed w (← o)) = none ↔ o = none := by
  cases o with
  | none => simp
  | some r =>
    obtain ⟨x, hx⟩ := prepend_some r.equiv w
    obtain ⟨y, hy⟩ := prepend_some r.infl b!"0"
    simp [signed, hx, hy]

theorem unsigned_sign {c : Byte} (h : c = 43 ∨ c = 45) (n : Str) :
    unsigned (c :: n) = unsigned n := by
  rcases h with rfl | rfl <;> simp [unsigned]

theorem unsigned_self {c : Byte} (h1 : c ≠ 43) (h2 : c ≠ 45) (n : Str) :
    unsigned (c :: n) = c :: n := by
  simp [unsigned, h1, h2]

theorem loop_none : ∀ (fuel : Nat) (n : Str), n.length < fuel →
    (numLoop fuel .CARDINAL n = none ↔ MissingCardinal n) := by
  intro fuel
  induction fuel with
  | zero => intro n h; omega
  | succ fuel ih =>
    intro n h
    cases n with
    | nil => simp [numLoop, MissingCardinal, body, unsigned]
    | cons c n =>
      simp only [List.length_cons] at h
      unfold numLoop
      by_cases h1 : c = 45
      · rw [if_pos h1, signed_none, ih n (by omega)]
        have : body (c :: n) = body n := by
          rw [body, unsigned_sign (.inr h1)]; rfl
        unfold MissingCardinal
        rw [this]
      · by_cases h2 : c = 43
        · rw [if_neg h1, if_pos h2, signed_none, ih n (by omega)]
          have : body (c :: n) = body n := by
            rw [body, unsigned_sign (.inl h2)]; rfl
          unfold MissingCardinal
          rw [this]
        · rw [if_neg h1, if_neg h2]
          split
          · rename_i hlast
            simp only [ne_eq, not_true_eq_false, if_false]
            have e : c :: n = (c :: n).dropLast ++ [37] := by
              obtain ⟨ys, hys⟩ := List.getLast?_eq_some_iff.mp hlast
              rw [hys]; simp
            have hb : body (c :: n) = body (c :: n).dropLast := by
              rw [body, unsigned_self h2 h1]
              cases hd : (c :: n).dropLast with
              | nil =>
                rw [hd] at e
                rw [e]
                simp [body, unsigned]
              | cons x m =>
                have hx : x = c := by
                  rw [hd] at e
                  simp at e
                  exact e.1.symm
                subst hx
                rw [body, unsigned_self h2 h1, ← hd]
                conv_lhs => rw [e]
                simp
            have := ih (c :: n).dropLast (by simp; omega)
            have hm : MissingCardinal (c :: n) ↔ MissingCardinal (c :: n).dropLast := by
              unfold MissingCardinal
              rw [hb]
            rw [hm, ← this]
            cases numLoop fuel .CARDINAL (c :: n).dropLast <;> simp
          · rename_i hlast
            have hb : body (c :: n) = c :: n := by
              rw [body, unsigned_self h2 h1]
              have : (c :: n).reverse.head? ≠ some 37 := by
                rw [List.head?_reverse]; exact hlast
              cases hr : (c :: n).reverse with
              | nil => simp at hr
              | cons x m =>
                rw [hr] at this
                have hx : x ≠ 37 := by simpa using this
                rw [List.dropWhile_cons_of_neg (by simpa using hx), ← hr, List.reverse_reverse]
            rw [plain_none _ (by simp)]
            unfold MissingCardinal
            rw [hb]
            simp

theorem loop_other {t : Form} (ht : t = .ORDINAL ∨ t = .BEFORE_NOUN) :
    ∀ (fuel : Nat) (n : Str), n.length < fuel → (numLoop fuel t n = none ↔ MissingOther n) := by
  have hc : t ≠ .CARDINAL := by rcases ht with rfl | rfl <;> simp
  intro fuel
  induction fuel with
  | zero => intro n h; omega
  | succ fuel ih =>
    intro n h
    cases n with
    | nil => simp [numLoop, MissingOther, unsigned]
    | cons c n =>
      simp only [List.length_cons] at h
      unfold numLoop
      by_cases h1 : c = 45
      · rw [if_pos h1, signed_none, ih n (by omega)]
        unfold MissingOther
        rw [unsigned_sign (.inr h1)]
      · by_cases h2 : c = 43
        · rw [if_neg h1, if_pos h2, signed_none, ih n (by omega)]
          unfold MissingOther
          rw [unsigned_sign (.inl h2)]
        · rw [if_neg h1, if_neg h2]
          unfold MissingOther
          rw [unsigned_self h2 h1]
          split
          · rename_i hlast
            simp [hc, hlast]
          · rename_i hlast
            rw [plain_other ht _ (by simp)]
            simp [hlast]

end Verif.Numconv
