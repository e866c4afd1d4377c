import Verif.Numconv.Total
import Mathlib.Data.List.TakeDrop

/-!
# Writing numbers in words: lemmas about decimals, sums, ranges and fractions
-/

namespace Verif.Numconv

open Spec

/-! ### Joining -/

/-- A result which is not a failure. -/
structure Nice (p : Pair) : Prop where
  ne : p.1 ≠ []
  ok : p.1 ≠ b!"#"
  good : Good p.1
  codes : Codes p

theorem Nice.ne2 {p : Pair} (h : Nice p) : p.2 ≠ [] := by
  have h1 : words p.1 ≠ [] := fun e => h.ne (words_eq_nil.mp e)
  intro e
  have := h.codes.2
  rw [e, words_nil] at this
  exact h1 (List.length_eq_zero_iff.mp this.symm)

theorem join2_nice {a b : Pair} (ha : Nice a) (hb : Nice b) :
    Nice (join2 a b) ∧ words (join2 a b).1 = words a.1 ++ words b.1 := by
  have e : join2 a b = (a.1 ++ 32 :: b.1, a.2 ++ 32 :: b.2) := by
    simp [join2, ha.ok, hb.ok]
  have e1 := words_join ha.ne hb.ne
  have e2 := words_join ha.ne2 hb.ne2
  have c1 := ha.codes.2
  have c2 := hb.codes.2
  rw [e]
  refine ⟨⟨by simp, ?_, good_append ha.ne ha.good, good_append ha.ne2 ha.codes.1, ?_⟩, e1⟩
  · intro h
    have := congrArg List.length h
    simp at this
    have := List.length_pos_iff.mpr ha.ne
    omega
  · simp only [e1, e2, List.length_append, c1, c2]

theorem join3_nice {a b c : Pair} (ha : Nice a) (hb : Nice b) (hc : Nice c) :
    Nice (join3 a b c) ∧ words (join3 a b c).1 = words a.1 ++ words b.1 ++ words c.1 := by
  obtain ⟨h1, w1⟩ := join2_nice ha hb
  obtain ⟨h2, w2⟩ := join2_nice h1 hc
  exact ⟨h2, by rw [join3, w2, w1]⟩

theorem join4_nice {a b c d : Pair} (ha : Nice a) (hb : Nice b) (hc : Nice c) (hd : Nice d) :
    Nice (join4 a b c d) ∧
      words (join4 a b c d).1 = words a.1 ++ words b.1 ++ words c.1 ++ words d.1 := by
  obtain ⟨h1, w1⟩ := join3_nice ha hb hc
  obtain ⟨h2, w2⟩ := join2_nice h1 hd
  exact ⟨h2, by rw [join4, w2, w1]⟩

theorem unread_empty (c : Case) : readWord c (0, 0) [] = none := by
  cases c <;> decide +kernel

theorem unread_hash : ∀ k : Fin 4, Spec.read (if k = 0 then .masculine else if k = 1 then .feminine
    else if k = 2 then .genitive else .genitiveFeminine) [b!"#"] = none := by
  decide +kernel

theorem read_blank (k : Kind) (w : Str) (ws : List Str) : Spec.read k ([] :: w :: ws) = none := by
  have h : ∀ c l, readWords c ([] :: l) = none := by
    intro c l
    simp [readWords, unread_empty]
  cases k
  · simp [Spec.read, h]
  · unfold Spec.read
    simp only
    split
    · rfl
    · split
      · simp_all
      · split
        · simp_all
        · split
          · simp [h]
          · simp [h]
  · simp [Spec.read, h]
  · simp [Spec.read, h]

theorem read_nice {k : Kind} {p : Pair} {v : Nat} (h : Spec.read k (words p.1) = some v)
    (hc : Codes p) : Nice p := by
  refine ⟨?_, ?_, ?_, hc⟩
  · intro e
    rw [e, words_nil] at h
    cases k <;> simp [Spec.read] at h
  · intro e
    rw [e, words_one (by decide) (by decide)] at h
    have h0 := unread_hash 0
    have h1 := unread_hash 1
    have h2 := unread_hash 2
    have h3 := unread_hash 3
    simp at h0 h1 h2 h3
    cases k <;> simp_all
  · intro e
    obtain ⟨t, ht⟩ : ∃ t, p.1 = 32 :: t := by
      match hp : p.1, e with
      | c :: t, e => simp at e; exact ⟨t, by rw [e]⟩
    have hw : words p.1 = [] :: t.splitOn 32 := by
      have := List.splitOn_append_cons_self (a := (32 : Byte)) [] t
      rw [ht]
      simpa [words] using this
    rw [hw] at h
    cases hs : t.splitOn 32 with
    | nil => exact absurd hs (List.splitOn_ne_nil _ _)
    | cons w ws => rw [hs, read_blank] at h; simp at h

theorem integer_nice (k : Kind) {n : Str} (h : Digits n) (hv : value n < 10 ^ 660) :
    ∃ p, integer2pltext (kindForm k) n = some p ∧ Spec.read k (words p.1) = some (value n) ∧
      Nice p := by
  obtain ⟨p, hp, hr, hc⟩ := integer_read k h hv
  exact ⟨p, hp, hr, read_nice hr hc⟩

theorem word_nice {w i : Str} (h1 : w ≠ []) (h2 : 32 ∉ w) (h3 : w ≠ b!"#") (h4 : i ≠ [])
    (h5 : 32 ∉ i) : Nice (w, i) ∧ words w = [w] := by
  refine ⟨⟨h1, h3, ?_, codes_one h1 h4 h2 h5⟩, words_one h1 h2⟩
  intro e
  apply h2
  simp only at e
  cases w with
  | nil => simp at e
  | cons c w => simp at e; simp [e]

/-! ### Decimals -/

theorem half_iff {n : Str} : equalsOneHalf n = true ↔ IsHalf n := by
  cases n with
  | nil => simp [equalsOneHalf, IsHalf]
  | cons c r =>
    unfold equalsOneHalf IsHalf
    by_cases h : c = 53
    · simp only [h, ne_eq, not_true_eq_false, if_false, List.cons.injEq, true_and]
      constructor
      · intro hr
        exact ⟨r.length, List.eq_replicate_iff.mpr ⟨rfl, by simpa using hr⟩⟩
      · rintro ⟨k, rfl⟩
        simp
    · simp [h]

theorem span_comma {a b : Str} (h : 44 ∉ a) :
    (a ++ 44 :: b).span (fun c => decide (c ≠ 44)) = (a, 44 :: b) := by
  rw [List.span_eq_takeWhile_dropWhile]
  have hp : ∀ c ∈ a, decide (c ≠ 44) = true := by
    intro c hc
    simp
    rintro rfl
    exact h hc
  rw [List.takeWhile_append_of_pos hp, List.dropWhile_append_of_pos hp]
  simp

theorem span_none {a : Str} (h : 44 ∉ a) :
    a.span (fun c => decide (c ≠ 44)) = (a, []) := by
  rw [List.span_eq_takeWhile_dropWhile]
  have hp : ∀ c ∈ a, decide (c ≠ 44) = true := by
    intro c hc
    simp
    rintro rfl
    exact h hc
  have h1 := List.dropWhile_append_of_pos (l₂ := []) hp
  have h2 := List.takeWhile_append_of_pos (l₂ := []) hp
  simp only [List.append_nil, List.takeWhile_nil, List.dropWhile_nil] at h1 h2
  rw [h1, h2]

theorem digits_not {n : Str} (h : Digits n) {c : Byte} (hc : c.toNat < 48) : c ∉ n := by
  intro hm
  have := h.2 c hm
  omega

theorem decimal_plain (t : Form) {n : Str} (h : 44 ∉ n) (init : Pair) :
    decimalfraction2pltext t n init = integer2pltext t n := by
  unfold decimalfraction2pltext
  have := span_none h
  rw [this]

theorem decimal_comma (t : Form) {a b : Str} (h : 44 ∉ a) (init : Pair) :
    decimalfraction2pltext t (a ++ 44 :: b) init = (do
      let p0 ← integer2pltext t a
      if equalsOneHalf b then
        if t = .BEFORE_NOUN then
          return if p0.1 ≠ b!"#" then (p0.1 ++ b!"ipół", init.2) else init
        else return join2 p0 (b!"i pół", b!"0 0")
      else if t ≠ .CARDINAL ∧ t ≠ .CARDINAL_G then return init
      else if b.length ≤ 3 then
        return join3 p0 (b!"i", b!"0") (← fractional2pltext t b)
      else
        return join3 p0 (b!"przecinek", b!"0") (← zerosBefore b (← integer2pltext .CARDINAL b))) := by
  conv_lhs => unfold decimalfraction2pltext
  have := span_comma (b := b) h
  rw [this]

theorem zeros_before : ∀ (k : Nat) (rest : Str) (p : Pair), rest.head? ≠ some 48 → Nice p →
    ∃ q, zerosBefore (List.replicate k 48 ++ rest) p = some q ∧ Nice q ∧
      words q.1 = List.replicate k b!"zero" ++ words p.1 := by
  intro k
  induction k with
  | zero =>
    intro rest p hr hp
    refine ⟨p, ?_, hp, by simp⟩
    cases rest with
    | nil => rfl
    | cons c r =>
      have : c ≠ 48 := by simpa using hr
      simp [zerosBefore, this]
  | succ k ih =>
    intro rest p hr hp
    obtain ⟨hz, hwz⟩ := word_nice (w := b!"zero") (i := b!"0") (by decide) (by decide) (by decide)
      (by decide) (by decide)
    obtain ⟨a, ha, hwa, hga⟩ := prepend_words hp.good hz.good
    obtain ⟨b, hb, hwb, hgb⟩ := prepend_words hp.codes.1 hz.codes.1
    have hcod := prepend_codes hp.good hz.good ha hb hp.codes hz.codes
    have hna : Nice (a, b) := by
      refine ⟨?_, ?_, hga, hcod⟩
      · intro e
        simp only at e
        rw [e, words_nil, hwz] at hwa
        simp at hwa
      · intro e
        simp only at e
        rw [e, hwz, words_one (by decide) (by decide)] at hwa
        simp at hwa
    obtain ⟨q, hq, hnq, hwq⟩ := ih rest (a, b) hr hna
    refine ⟨q, ?_, hnq, ?_⟩
    · simp only [List.replicate_succ, List.cons_append, zerosBefore, if_true]
      rw [ha, hb]
      exact hq
    · rw [hwq]
      simp only [hwa]
      rw [hwz, List.replicate_succ']
      simp

theorem value_zeros (k : Nat) (r : Str) : value (List.replicate k 48 ++ r) = value r := by
  rw [value_append]
  have : value (List.replicate k 48) = 0 := by
    induction k with
    | zero => rfl
    | succ k ih =>
      rw [List.replicate_succ', value_append, ih]
      rfl
  simp [this]

theorem cut_zeros (n : Str) : ∃ k rest, n = List.replicate k 48 ++ rest ∧ rest.head? ≠ some 48 := by
  induction n with
  | nil => exact ⟨0, [], rfl, by simp⟩
  | cons c n ih =>
    by_cases h : c = 48
    · obtain ⟨k, r, e, hr⟩ := ih
      exact ⟨k + 1, r, by rw [h, e]; rfl, hr⟩
    · exact ⟨0, c :: n, rfl, by simpa using h⟩

theorem decimalPart_word : ∀ c : Fin 2, ∀ l : Fin 4, ∀ a : Fin 3, l.val ≠ 0 →
    let w := decimalPart (if c = 0 then .nominative else .genitive) l
      (if a = 0 then .one else if a = 1 then .few else .many)
    w ≠ [] ∧ 32 ∉ w ∧ w ≠ b!"#" := by
  decide

theorem fractional_nice (c : Case) {n : Str} (h : Digits n) (hl : n.length ≤ 3) :
    ∃ p ws, fractional2pltext (caseForm c) n = some p ∧ Nice p ∧
      words p.1 = ws ++ [decimalPart c n.length (agreement (value n))] ∧
      Spec.read (partKind c) ws = some (value n) := by
  have hlen : 0 < n.length := List.length_pos_iff.mpr h.1
  have hv : value n < 10 ^ 660 :=
    lt_of_lt_of_le (value_lt n h.2) (Nat.pow_le_pow_right (by norm_num) (by omega))
  obtain ⟨p, hp, hr, hnice⟩ := integer_nice (partKind c) h hv
  have hform : (if caseForm c = .CARDINAL then Form.CARDINAL_F else .CARDINAL_FG)
      = kindForm (partKind c) := by
    cases c <;> rfl
  have hgov := government_eq h hl
  set w := decimalPart c n.length (agreement (value n)) with hw
  have hword : w ≠ [] ∧ 32 ∉ w ∧ w ≠ b!"#" := by
    have := decimalPart_word (if c = .nominative then 0 else 1) ⟨n.length, by omega⟩
      (match agreement (value n) with | .one => 0 | .few => 1 | .many => 2) (by simpa using h.1)
    rw [hw]
    generalize agreement (value n) = a at this
    cases c <;> cases a <;> exact this
  obtain ⟨i, d, hi1, hi2, hd, he⟩ : ∃ i d, i ≠ [] ∧ 32 ∉ i ∧ denominator[n.length]? = some d ∧
      i = d ++ b!"y_LP" := by
    have : n.length = 1 ∨ n.length = 2 ∨ n.length = 3 := by omega
    rcases this with e | e | e <;> rw [e]
    · exact ⟨_, b!"dziesiąt", by decide, by decide, rfl, rfl⟩
    · exact ⟨_, b!"setn", by decide, by decide, rfl, rfl⟩
    · exact ⟨_, b!"tysięczn", by decide, by decide, rfl, rfl⟩
  obtain ⟨hn2, hw2⟩ := word_nice hword.1 hword.2.1 hword.2.2 hi1 hi2
  obtain ⟨hj, hwj⟩ := join2_nice hnice hn2
  refine ⟨join2 p (w, i), words p.1, ?_, hj, by rw [hwj, hw2], hr⟩
  unfold fractional2pltext
  rw [hform, hp]
  simp only [hd, hgov, Option.bind_eq_bind, Option.bind_some, he, pure, Option.some.injEq]
  congr 2
  have hag : ∀ g : Nat, (gov g = .JEDEN ∧ agreement g = .one) ∨ (gov g = .DWA ∧ agreement g = .few) ∨
      ((gov g = .ZERO ∨ gov g = .PIEC) ∧ agreement g = .many) := by
    intro g
    unfold gov agreement
    split_ifs <;> simp_all <;> omega
  have hl3 : n.length = 1 ∨ n.length = 2 ∨ n.length = 3 := by omega
  rw [hw]
  rcases hag (value n) with ⟨e1, e2⟩ | ⟨e1, e2⟩ | ⟨e1 | e1, e2⟩ <;>
    simp only [e1, e2] <;> rcases hl3 with e | e | e <;> simp only [e] at hd ⊢ <;>
    simp [denominator] at hd <;> rw [← hd] <;> cases c <;> simp [caseForm, decimalPart]

theorem decimal_nice (c : Case) {n : Str} (h : Decimal n) (init : Pair) :
    ∃ p, decimalfraction2pltext (caseForm c) n init = some p ∧ Nice p ∧
      SaysDecimal c n (words p.1) := by
  have hk : kindForm (wholeKind c) = caseForm c := by cases c <;> rfl
  rcases h with ⟨h, hv⟩ | ⟨n0, n1, rfl, h0, h1, hv0, hv1, hlen⟩
  · obtain ⟨p, hp, hr, hn⟩ := integer_nice (wholeKind c) h hv
    rw [hk] at hp
    exact ⟨p, by rw [decimal_plain _ (digits_not h (by decide)), hp], hn, .whole h hr⟩
  · obtain ⟨p, hp, hr, hn⟩ := integer_nice (wholeKind c) h0 hv0
    rw [hk] at hp
    rw [decimal_comma _ (digits_not h0 (by decide)), hp]
    have ht : caseForm c ≠ .BEFORE_NOUN ∧ ¬ (caseForm c ≠ .CARDINAL ∧ caseForm c ≠ .CARDINAL_G) := by
      cases c <;> simp [caseForm]
    simp only [Option.bind_eq_bind, Option.bind_some, ht, if_false, pure]
    by_cases hh : equalsOneHalf n1 = true
    · simp only [hh, if_true]
      have hi : Nice (b!"i pół", b!"0 0") ∧ words b!"i pół" = [b!"i", b!"pół"] := by
        refine ⟨⟨by decide, by decide, by decide, by decide, by decide⟩, by decide⟩
      obtain ⟨hj, hw⟩ := join2_nice hn hi.1
      refine ⟨_, rfl, hj, ?_⟩
      rw [hw, hi.2]
      exact .half h0 (half_iff.mp hh) hr
    · simp only [hh]
      have hnot : ¬ IsHalf n1 := fun x => hh (half_iff.mpr x)
      by_cases hl : n1.length ≤ 3
      · simp only [hl, if_true]
        obtain ⟨q, ws, hq, hnq, hwq, hrq⟩ := fractional_nice c h1 hl
        obtain ⟨hi, hwi⟩ := word_nice (w := b!"i") (i := b!"0") (by decide) (by decide) (by decide)
          (by decide) (by decide)
        obtain ⟨hj, hw⟩ := join3_nice hn hi hnq
        refine ⟨_, by rw [hq]; rfl, hj, ?_⟩
        rw [hw, hwi, hwq, ← List.append_assoc]
        exact .short h0 h1 hl hnot hr hrq
      · simp only [hl]
        obtain ⟨q, hq, hrq, hnq⟩ := integer_nice .masculine h1 hv1
        obtain ⟨k, rest, e, hrest⟩ := cut_zeros n1
        obtain ⟨z, hz, hnz, hwz⟩ := zeros_before k rest q hrest hnq
        obtain ⟨hi, hwi⟩ := word_nice (w := b!"przecinek") (i := b!"0") (by decide) (by decide)
          (by decide) (by decide) (by decide)
        obtain ⟨hj, hw⟩ := join3_nice hn hi hnz
        have hq' : integer2pltext .CARDINAL n1 = some q := hq
        refine ⟨join3 p (b!"przecinek", b!"0") z, ?_, hj, ?_⟩
        · rw [hq']
          simp only [Bool.false_eq_true, if_false, Option.bind_some]
          rw [e, hz]
          rfl
        · rw [hw, hwi, hwz, e, ← List.append_assoc]
          have hval : value n1 = value rest := by rw [e, value_zeros]
          have hne : rest ≠ [] := by
            rintro rfl
            rcases hlen with hlen | hlen
            · exact hl hlen
            · exact hlen hval
          refine .long h0 (.inr ⟨hne, fun x hx => h1.2 x ?_⟩) hrest ?_ (by rw [← e]; exact hnot) hr
            (fun x => absurd x hne) (fun _ => by rw [← hval]; exact hrq)
          · rw [e]; simp [hx]
          · have := congrArg List.length e
            simp at this
            omega

/-! ### Signs, sums and ranges -/

theorem decimal_chars {n : Str} (h : Decimal n) :
    n ≠ [] ∧ ∀ c ∈ n, (48 ≤ c.toNat ∧ c.toNat ≤ 57) ∨ c = 44 := by
  rcases h with ⟨h, _⟩ | ⟨n0, n1, rfl, h0, h1, _⟩
  · exact ⟨h.1, fun c hc => .inl (h.2 c hc)⟩
  · refine ⟨by simp, fun c hc => ?_⟩
    simp only [List.mem_append, List.mem_cons] at hc
    rcases hc with hc | hc | hc
    · exact .inl (h0.2 c hc)
    · exact .inr hc
    · exact .inl (h1.2 c hc)

theorem decimal_not {n : Str} (h : Decimal n) {c : Byte} (h1 : c.toNat < 48) (h2 : c ≠ 44) :
    c ∉ n := by
  intro hm
  rcases (decimal_chars h).2 c hm with h3 | h3
  · omega
  · exact h2 h3

theorem split_some {c : Byte} {a b : Str} (h : c ∉ a) :
    splitAt? c (a ++ c :: b) = some (a, b) := by
  unfold splitAt?
  rw [List.span_eq_takeWhile_dropWhile]
  have hp : ∀ x ∈ a, decide (x ≠ c) = true := by
    intro x hx
    simp
    rintro rfl
    exact h hx
  rw [List.takeWhile_append_of_pos hp, List.dropWhile_append_of_pos hp]
  simp

theorem split_none {c : Byte} {a : Str} (h : c ∉ a) : splitAt? c a = none := by
  unfold splitAt?
  rw [List.span_eq_takeWhile_dropWhile]
  have hp : ∀ x ∈ a, decide (x ≠ c) = true := by
    intro x hx
    simp
    rintro rfl
    exact h hx
  have h1 := List.dropWhile_append_of_pos (l₂ := []) hp
  simp only [List.append_nil, List.dropWhile_nil] at h1
  rw [h1]

theorem num_plain (t : Form) {n : Str} (h0 : n ≠ []) (h1 : n.head? ≠ some 45)
    (h2 : n.head? ≠ some 43) (h3 : n.getLast? ≠ some 37) : num2pltext t n = plainText t n := by
  cases n with
  | nil => exact absurd rfl h0
  | cons c r =>
    simp only [List.head?_cons, ne_eq, Option.some.injEq] at h1 h2
    simp only [num2pltext, numLoop, h1, h2, h3, if_false]

/-- The ends of a text are not signs. -/
theorem ends_ok {a b : Str} {s : Str} (ha : Decimal a) (hb : Decimal b) :
    (a ++ s ++ b) ≠ [] ∧ (a ++ s ++ b).head? ≠ some 45 ∧ (a ++ s ++ b).head? ≠ some 43 ∧
      (a ++ s ++ b).getLast? ≠ some 37 := by
  obtain ⟨ha0, hac⟩ := decimal_chars ha
  obtain ⟨hb0, hbc⟩ := decimal_chars hb
  obtain ⟨c, a, rfl⟩ := List.exists_cons_of_ne_nil ha0
  have hc := hac c (by simp)
  refine ⟨by simp, ?_, ?_, ?_⟩
  · rintro h
    simp at h
    subst h
    exact absurd hc (by decide)
  · rintro h
    simp at h
    subst h
    exact absurd hc (by decide)
  · intro h
    rw [List.getLast?_append_of_ne_nil _ hb0] at h
    have := hbc 37 (List.mem_of_getLast? h)
    exact absurd this (by decide)

theorem decimal_ends {a : Str} (ha : Decimal a) :
    a ≠ [] ∧ a.head? ≠ some 45 ∧ a.head? ≠ some 43 ∧ a.getLast? ≠ some 37 := by
  obtain ⟨ha0, hac⟩ := decimal_chars ha
  refine ⟨ha0, ?_, ?_, ?_⟩ <;> intro h
  · exact absurd (hac _ (List.mem_of_head? h)) (by decide)
  · exact absurd (hac _ (List.mem_of_head? h)) (by decide)
  · exact absurd (hac _ (List.mem_of_getLast? h)) (by decide)

theorem num_decimal {n : Str} (h : Decimal n) :
    ∃ r, num2pltext .CARDINAL n = some r ∧ Nice (r.equiv, r.infl) ∧
      SaysDecimal .nominative n (words r.equiv) ∧ r.syn = [] := by
  obtain ⟨h0, h1, h2, h3⟩ := decimal_ends h
  obtain ⟨p, hp, hn, hs⟩ := decimal_nice .nominative h (b!"#", b!"")
  refine ⟨⟨p.1, p.2, []⟩, ?_, hn, hs, rfl⟩
  rw [num_plain _ h0 h1 h2 h3]
  unfold plainText
  rw [split_none (decimal_not h (by decide) (by decide)),
    split_none (decimal_not h (by decide) (by decide)),
    split_none (decimal_not h (by decide) (by decide))]
  have hp' : decimalfraction2pltext .CARDINAL n (b!"#", b!"") = some p := hp
  simp [hp']

theorem num_sum {a b : Str} (ha : Decimal a) (hb : Decimal b) :
    ∃ r wa wb, num2pltext .CARDINAL (a ++ b!"+" ++ b) = some r ∧ Nice (r.equiv, r.infl) ∧
      words r.equiv = wa ++ [b!"plus"] ++ wb ∧ SaysDecimal .nominative a wa ∧
      SaysDecimal .nominative b wb := by
  obtain ⟨h0, h1, h2, h3⟩ := ends_ok (s := b!"+") ha hb
  obtain ⟨p, hp, hn, hs⟩ := decimal_nice .nominative ha (b!"", b!"")
  obtain ⟨q, hq, hnq, hsq⟩ := decimal_nice .nominative hb (b!"", b!"")
  obtain ⟨hi, hwi⟩ := word_nice (w := b!"plus") (i := b!"0") (by decide) (by decide)
    (by decide) (by decide) (by decide)
  obtain ⟨hj, hw⟩ := join3_nice hn hi hnq
  refine ⟨⟨(join3 p (b!"plus", b!"0") q).1, (join3 p (b!"plus", b!"0") q).2, []⟩, words p.1,
      words q.1, ?_, hj, by rw [hw, hwi], hs, hsq⟩
  rw [num_plain _ h0 h1 h2 h3]
  have e : a ++ b!"+" ++ b = a ++ 43 :: b := by simp
  unfold plainText
  rw [e, split_some (decimal_not ha (by decide) (by decide))]
  have hp' : decimalfraction2pltext .CARDINAL a (b!"", b!"") = some p := hp
  have hq' : decimalfraction2pltext .CARDINAL b (b!"", b!"") = some q := hq
  simp [sumText, hp', hq']

theorem num_range {a b : Str} (ha : Decimal a) (hb : Decimal b) :
    ∃ r wa wb, num2pltext .CARDINAL (a ++ b!"-" ++ b) = some r ∧ Nice (r.equiv, r.infl) ∧
      if bigger a b then
        words r.equiv = wa ++ [b!"minus"] ++ wb ∧ SaysDecimal .nominative a wa ∧
          SaysDecimal .nominative b wb
      else
        words r.equiv = [b!"od"] ++ wa ++ [b!"do"] ++ wb ∧ SaysDecimal .genitive a wa ∧
          SaysDecimal .genitive b wb := by
  obtain ⟨h0, h1, h2, h3⟩ := ends_ok (s := b!"-") ha hb
  have e : a ++ b!"-" ++ b = a ++ 45 :: b := by simp
  have hplus : 43 ∉ a ++ 45 :: b := by
    have := decimal_not ha (c := 43) (by decide) (by decide)
    have := decimal_not hb (c := 43) (by decide) (by decide)
    simp_all
  have hstep : num2pltext .CARDINAL (a ++ b!"-" ++ b) = rangeText .CARDINAL a b := by
    rw [num_plain _ h0 h1 h2 h3]
    unfold plainText
    rw [e, split_none hplus, split_some (decimal_not ha (by decide) (by decide))]
  rw [hstep]
  unfold rangeText
  by_cases hbig : bigger a b = true
  · obtain ⟨p, hp, hn, hs⟩ := decimal_nice .nominative ha (b!"", b!"")
    obtain ⟨q, hq, hnq, hsq⟩ := decimal_nice .nominative hb (b!"", b!"")
    obtain ⟨hi, hwi⟩ := word_nice (w := b!"minus") (i := b!"0") (by decide) (by decide)
      (by decide) (by decide) (by decide)
    obtain ⟨hj, hw⟩ := join3_nice hn hi hnq
    refine ⟨⟨(join3 p (b!"minus", b!"0") q).1, (join3 p (b!"minus", b!"0") q).2, []⟩, words p.1,
      words q.1, ?_, hj, ?_⟩
    · have hp' : decimalfraction2pltext .CARDINAL a (b!"", b!"") = some p := hp
      have hq' : decimalfraction2pltext .CARDINAL b (b!"", b!"") = some q := hq
      simp [hbig, hp', hq']
    · simp only [hbig, if_true]
      exact ⟨by rw [hw, hwi], hs, hsq⟩
  · obtain ⟨p, hp, hn, hs⟩ := decimal_nice .genitive ha (b!"", b!"")
    obtain ⟨q, hq, hnq, hsq⟩ := decimal_nice .genitive hb (b!"", b!"")
    obtain ⟨hi, hwi⟩ := word_nice (w := b!"od") (i := b!"0") (by decide) (by decide)
      (by decide) (by decide) (by decide)
    obtain ⟨hd, hwd⟩ := word_nice (w := b!"do") (i := b!"0") (by decide) (by decide)
      (by decide) (by decide) (by decide)
    obtain ⟨hj, hw⟩ := join4_nice hi hn hd hnq
    refine ⟨⟨(join4 (b!"od", b!"0") p (b!"do", b!"0") q).1, (join4 (b!"od", b!"0") p (b!"do", b!"0") q).2, []⟩, words p.1,
      words q.1, ?_, hj, ?_⟩
    · have hp' : decimalfraction2pltext .CARDINAL_G a (b!"", b!"") = some p := hp
      have hq' : decimalfraction2pltext .CARDINAL_G b (b!"", b!"") = some q := hq
      simp [hbig, hp', hq']
    · simp only [hbig]
      exact ⟨by rw [hw, hwi, hwd], hs, hsq⟩

/-- The text of a number before which a sign is put. -/
theorem num_sign {n : Str} {r : Result} (s : Bool) (h : num2pltext .CARDINAL n = some r)
    (hn : Nice (r.equiv, r.infl)) :
    ∃ r', num2pltext .CARDINAL ((if s then 45 else 43) :: n) = some r' ∧
      words r'.equiv = (if s then b!"minus" else b!"plus") :: words r.equiv ∧
      Nice (r'.equiv, r'.infl) ∧ r'.syn = r.syn := by
  have key : ∀ w : Str, w ≠ [] → 32 ∉ w → w ≠ b!"#" → ∃ r', signed w r = some r' ∧
      words r'.equiv = w :: words r.equiv ∧ Nice (r'.equiv, r'.infl) ∧ r'.syn = r.syn := by
    intro w h1 h2 h3
    obtain ⟨hw, hww⟩ := word_nice (w := w) (i := b!"0") h1 h2 h3 (by decide) (by decide)
    obtain ⟨x, hx, hwx, hgx⟩ := prepend_words hn.good hw.good
    obtain ⟨y, hy, hwy, hgy⟩ := prepend_words hn.codes.1 hw.codes.1
    have hc := prepend_codes hn.good hw.good hx hy hn.codes hw.codes
    simp only at hx hy hwx
    rw [hww] at hwx
    refine ⟨⟨x, y, r.syn⟩, by simp [signed, hx, hy], by simpa using hwx, ⟨?_, ?_, hgx, hc⟩, rfl⟩
    · intro e
      simp only at e
      rw [e, words_nil] at hwx
      simp at hwx
    · intro e
      simp only at e
      rw [e, words_one (by decide) (by decide)] at hwx
      have hl := congrArg List.length hwx
      have : words r.equiv ≠ [] := fun x => hn.ne (words_eq_nil.mp x)
      have := List.length_pos_iff.mpr this
      rw [List.length_append] at hl
      simp only [List.length_cons, List.length_nil] at hl
      omega
  cases s
  · obtain ⟨r', h1, h2⟩ := key b!"plus" (by decide) (by decide) (by decide)
    refine ⟨r', ?_, h2⟩
    unfold num2pltext at h ⊢
    simp only [Bool.false_eq_true, if_false, List.length_cons]
    rw [numLoop]
    simp [h, h1]
  · obtain ⟨r', h1, h2⟩ := key b!"minus" (by decide) (by decide) (by decide)
    refine ⟨r', ?_, h2⟩
    unfold num2pltext at h ⊢
    simp only [if_true, List.length_cons]
    rw [numLoop]
    simp [h, h1]

/-- The text of a number after which a per cent is put. -/
theorem num_percent {n : Str} {r : Result} (h : num2pltext .CARDINAL n = some r)
    (h0 : n ≠ []) (h1 : n.head? ≠ some 45) (h2 : n.head? ≠ some 43) (hn : Nice (r.equiv, r.infl)) :
    ∃ r', num2pltext .CARDINAL (n ++ b!"%") = some r' ∧
      words r'.equiv = words r.equiv ++ [b!"procent"] ∧
      Nice (r'.equiv, r'.infl) ∧ r'.syn = r.syn := by
  obtain ⟨hp, hwp⟩ := word_nice (w := b!"procent") (i := b!"0") (by decide) (by decide) (by decide)
    (by decide) (by decide)
  obtain ⟨hj, hw⟩ := join2_nice hn hp
  have e : join2 (r.equiv, r.infl) (b!"procent", b!"0")
      = (r.equiv ++ b!" procent", r.infl ++ b!" 0") := by
    have := hn.ok
    simp only at this
    simp [join2, this]
  rw [e] at hj hw
  refine ⟨⟨_, _, r.syn⟩, ?_, by rw [hw, hwp], hj, rfl⟩
  cases n with
  | nil => exact absurd rfl h0
  | cons c m =>
    simp only [List.head?_cons, ne_eq, Option.some.injEq] at h1 h2
    unfold num2pltext at h ⊢
    have hlen : (c :: m ++ b!"%").length + 1 = ((c :: m).length + 1) + 1 := by simp
    rw [hlen, List.cons_append, numLoop]
    have hcat : c :: (m ++ b!"%") = (c :: m) ++ [37] := rfl
    have hlast : (c :: (m ++ b!"%")).getLast? = some 37 := by
      rw [hcat, List.getLast?_concat]
    have hdrop : (c :: (m ++ b!"%")).dropLast = c :: m := by
      rw [hcat, List.dropLast_concat]
    simp only [h1, h2, hlast, hdrop, if_false, if_true]
    rw [h]
    simp

end Verif.Numconv
