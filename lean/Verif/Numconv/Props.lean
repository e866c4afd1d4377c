import Verif.Numconv.Missing

/-!
# Numbers in Polish words

C103 (cardinal numbers), C104 (ordinal numbers), C105 (numbers with a comma, signs,
sums, fractions), C106 (digits that are missing), C107 (differences and ranges),
C108 (codes of inflection).
-/

namespace Verif.Numconv

open Spec

/-! ### C103 Cardinal numbers -/

/-- Whatever digits are given, up to `10 ^ 660`, the words written for them are
a cardinal numeral of that number, in each of the four forms. -/
theorem C103_cardinal (k : Kind) {n : Str} (h : Digits n) (hv : value n < 10 ^ 660) :
    ∃ p, integer2pltext (kindForm k) n = some p ∧ Spec.read k (words p.1) = some (value n) := by
  obtain ⟨p, hp, hr, _⟩ := integer_read k h hv
  exact ⟨p, hp, hr⟩

/-- Numbers with the same words are equal. -/
theorem C103_injective (k : Kind) {m n : Str} (hm : Digits m) (hn : Digits n)
    (vm : value m < 10 ^ 660) (vn : value n < 10 ^ 660) {p q : Pair}
    (hp : integer2pltext (kindForm k) m = some p) (hq : integer2pltext (kindForm k) n = some q)
    (h : p.1 = q.1) : value m = value n := by
  obtain ⟨p', hp', hr, _⟩ := integer_read k hm vm
  obtain ⟨q', hq', hs, _⟩ := integer_read k hn vn
  rw [hp] at hp'
  rw [hq] at hq'
  simp only [Option.some.injEq] at hp' hq'
  subst hp' hq'
  rw [h, hs] at hr
  exact (Option.some.inj hr).symm

example : Digits b!"1002021" ∧ value b!"1002021" = 1002021 ∧
    (integer2pltext .CARDINAL b!"1002021").map (·.1)
      = some b!"milion dwa tysiące dwadzieścia jeden" ∧
    Spec.read .masculine (words b!"milion dwa tysiące dwadzieścia jeden") = some 1002021 := by
  refine ⟨⟨by decide, by decide⟩, by decide, ?_, ?_⟩ <;> decide +kernel

/-- Not every number is either written or refused with the sign of failure:
two times the 660th power of ten is written as *dwa #*. -/
theorem C103_refused_false : ¬ ∀ n, Digits n → ∃ p, integer2pltext .CARDINAL n = some p ∧
    (Spec.read .masculine (words p.1) = some (value n) ∨ p.1 = b!"#") := by
  intro h
  have hd : ∀ k, Digits (50 :: List.replicate k 48) := fun k => ⟨by simp, fun c hc => by
    rcases List.mem_cons.mp hc with rfl | hc
    · decide
    · rw [(List.mem_replicate.mp hc).2]
      decide⟩
  obtain ⟨p, hp, hr⟩ := h _ (hd 660)
  have e : (integer2pltext .CARDINAL (50 :: List.replicate 660 48)).map (·.1) = some b!"dwa #" := by
    decide +kernel
  have hw : Spec.read .masculine (words b!"dwa #") = none := by decide +kernel
  rw [hp, Option.map_some] at e
  have e1 : p.1 = b!"dwa #" := Option.some.inj e
  rw [e1, hw] at hr
  rcases hr with hr | hr
  · exact absurd hr nofun
  · exact absurd hr (by decide)

/-! ### C104 Ordinal numbers -/

/-- The masculine and the feminine ordinal of a number below `10 ^ 660`. -/
theorem C104_ordinal {g : Gender} (hg : g = .masculine ∨ g = .feminine) {n : Str} (h : Digits n)
    (hv : value n < 10 ^ 660) :
    ∃ p, integer2pltext (genderForm g) n = some p ∧ IsOrdinal g (words p.1) (value n) := by
  obtain ⟨p, hp, hc⟩ := integer_ord g h hv
  exact ⟨p, hp, (hc (.inl hg)).1⟩

example : Digits b!"2000" ∧
    (integer2pltext .ORDINAL b!"2000").map (·.1) = some b!"dwutysięczny" ∧
    (integer2pltext .ORDINAL_F b!"5123").map (·.1)
      = some b!"pięć tysięcy sto dwudziesta trzecia" := by
  refine ⟨⟨by decide, by decide⟩, ?_, ?_⟩ <;> decide +kernel

/-- The plural ordinals, in the nominative and in the genitive, of a number
whose last three digits are not zeros, or whose last group of digits not zeros
is a one.  What is missing: the other numbers, for which it fails. -/
theorem C104_plural_partial (g : Gender) {n : Str} (h : Digits n) (hv : value n < 10 ^ 660)
    (hc : value n % 1000 ≠ 0 ∨ (∃ r, value n % 1000 ^ r = 0 ∧ value n / 1000 ^ r % 1000 = 1) ∨
      value n = 0) :
    ∃ p, integer2pltext (genderForm g) n = some p ∧ IsOrdinal g (words p.1) (value n) := by
  obtain ⟨p, hp, hq⟩ := integer_ord g h hv
  exact ⟨p, hp, (hq (.inr hc)).1⟩

example : value b!"1000" % 1000 ^ 1 = 0 ∧ value b!"1000" / 1000 ^ 1 % 1000 = 1 ∧
    (integer2pltext .ORDINAL_NPL b!"1000").map (·.1) = some b!"tysięczne" ∧
    (integer2pltext .ORDINAL_GPL b!"3022").map (·.1)
      = some b!"trzy tysiące dwudziestych drugich" := by
  refine ⟨by decide, by decide, ?_, ?_⟩ <;> decide +kernel

/-- The plural of the two thousandth is *dwatysięczne* for *dwutysięczne*. -/
theorem C104_plural_false :
    (integer2pltext .ORDINAL_NPL b!"2000").map (·.1) = some b!"dwatysięczne" ∧
    ¬ IsOrdinal .plural (words b!"dwatysięczne") (value b!"2000") := by
  refine ⟨by decide +kernel, ?_⟩
  have hv : value b!"2000" = 2000 := by decide
  have hw : words b!"dwatysięczne" = [b!"dwatysięczne"] := words_one (by decide) (by decide)
  rw [hv, hw]
  rintro (⟨h, _⟩ | ⟨front, a, g, r, h1, h2, h3, h4, h5, h6⟩)
  · simp at h
  · have hr : r < 2 := by
      by_contra hcon
      have h7 : 1000 ^ 2 ≤ 1000 ^ r := Nat.pow_le_pow_right (by norm_num) (by omega)
      have h8 : 1 * 1000 ^ r ≤ g * 1000 ^ r := Nat.mul_le_mul_right _ h3
      omega
    have hr' : r = 0 ∨ r = 1 := by omega
    rcases hr' with rfl | rfl
    · simp at h5 h6
      omega
    · have hg : g = 2 := by
        simp at h5 h6
        omega
      subst hg
      have hl := congrArg List.getLast? h1
      have ht : (ordinalTail .plural 2 1).getLast? = some b!"dwutysięczne" := by decide
      rw [List.getLast?_append, ht, Option.some_or] at hl
      exact absurd hl (by decide)

/-! ### C105 Numbers with a comma, signs, sums and fractions -/

/-- A number in digits, with a comma or without.  What is missing: more than
three digits after the comma, all of them zeros. -/
theorem C105_decimal_partial {n : Str} (h : Decimal n) :
    ∃ r, num2pltext .CARDINAL n = some r ∧ SaysDecimal .nominative n (words r.equiv) ∧
      r.syn = [] := by
  obtain ⟨r, h1, _, h2⟩ := num_decimal h
  exact ⟨r, h1, h2⟩

/-- A number after a minus or a plus. -/
theorem C105_sign {n : Str} (h : Decimal n) (minus : Bool) :
    ∃ r ws, num2pltext .CARDINAL ((if minus then b!"-" else b!"+") ++ n) = some r ∧
      words r.equiv = (if minus then b!"minus" else b!"plus") :: ws ∧
      SaysDecimal .nominative n ws := by
  obtain ⟨r, h1, h2, h3, _⟩ := num_decimal h
  obtain ⟨r', g1, g2, _⟩ := num_sign minus h1 h2
  refine ⟨r', words r.equiv, ?_, g2, h3⟩
  cases minus <;> exact g1

/-- A number before a per cent. -/
theorem C105_percent {n : Str} (h : Decimal n) :
    ∃ r ws, num2pltext .CARDINAL (n ++ b!"%") = some r ∧
      words r.equiv = ws ++ [b!"procent"] ∧ SaysDecimal .nominative n ws := by
  obtain ⟨r, h1, h2, h3, _⟩ := num_decimal h
  obtain ⟨g0, g1, g2, _⟩ := decimal_ends h
  obtain ⟨r', e1, e2, _⟩ := num_percent h1 g0 g1 g2 h2
  exact ⟨r', words r.equiv, e1, e2, h3⟩

/-- A sum. -/
theorem C105_sum {a b : Str} (ha : Decimal a) (hb : Decimal b) :
    ∃ r wa wb, num2pltext .CARDINAL (a ++ b!"+" ++ b) = some r ∧
      words r.equiv = wa ++ [b!"plus"] ++ wb ∧ SaysDecimal .nominative a wa ∧
      SaysDecimal .nominative b wb := by
  obtain ⟨r, wa, wb, h1, _, h2⟩ := num_sum ha hb
  exact ⟨r, wa, wb, h1, h2⟩

/-- A fraction: a feminine cardinal and an ordinal which agrees with it.  What is
missing: numerators of more than three digits, and the denominators whose
plural ordinals are wrong (C104). -/
theorem C105_fraction_partial {a b : Str} (ha : Digits a) (hl : a.length ≤ 3) (hb : Digits b)
    (hv : value b < 10 ^ 660)
    (hp : value a = 1 ∨ value b % 1000 ≠ 0 ∨
      (∃ r, value b % 1000 ^ r = 0 ∧ value b / 1000 ^ r % 1000 = 1) ∨ value b = 0) :
    ∃ r wa wb, num2pltext .CARDINAL (a ++ b!"/" ++ b) = some r ∧
      words r.equiv = wa ++ wb ∧ Spec.read .feminine wa = some (value a) ∧
      IsOrdinal (fractionGender (agreement (value a))) wb (value b) ∧ r.syn = b!"R=4" := by
  obtain ⟨r, wa, wb, h1, h2, h3, h4, h5, _⟩ := num_fraction ha hl hb hv (by
    rcases hp with h | h
    · exact .inl (agreement_one.mpr h)
    · exact .inr h)
  exact ⟨r, wa, wb, h1, h2, h3, h4, h5⟩

theorem big_pow {v : Nat} (h : v < 10 ^ 9) : v < 10 ^ 660 :=
  lt_of_lt_of_le h (Nat.pow_le_pow_right (by norm_num) (by norm_num))

example : Decimal b!"12,05" ∧ (num2pltext .CARDINAL b!"12,05").map (·.equiv)
    = some b!"dwanaście i pięć setnych" :=
  ⟨.inr ⟨b!"12", b!"05", rfl, ⟨by decide, by decide⟩, ⟨by decide, by decide⟩,
    big_pow (by decide), big_pow (by decide), .inl (by decide)⟩, by decide +kernel⟩

example : Decimal b!"2,00012" ∧ (num2pltext .CARDINAL b!"-2,00012").map (·.equiv)
    = some b!"minus dwa przecinek zero zero zero dwanaście" :=
  ⟨.inr ⟨b!"2", b!"00012", rfl, ⟨by decide, by decide⟩, ⟨by decide, by decide⟩,
    big_pow (by decide), big_pow (by decide), .inr (by decide)⟩, by decide +kernel⟩

example : (num2pltext .CARDINAL b!"3,50%").map (·.equiv) = some b!"trzy i pół procent" ∧
    (num2pltext .CARDINAL b!"2+1,2").map (·.equiv) = some b!"dwa plus jeden i dwie dziesiąte" ∧
    (num2pltext .CARDINAL b!"2/103").map (·.equiv) = some b!"dwie sto trzecie" := by
  decide +kernel

/-- Of four zeros after a comma five are said. -/
theorem C105_zeros_false : ¬ ∀ n0 n1, Digits n0 → Digits n1 → value n0 < 10 ^ 660 →
    value n1 < 10 ^ 660 → ∃ r, num2pltext .CARDINAL (n0 ++ 44 :: n1) = some r ∧
      SaysDecimal .nominative (n0 ++ 44 :: n1) (words r.equiv) := by
  intro h
  obtain ⟨r, hr, hs⟩ := h b!"1" b!"0000" ⟨by decide, by decide⟩ ⟨by decide, by decide⟩
    (big_pow (by decide)) (big_pow (by decide))
  have e : (num2pltext .CARDINAL (b!"1" ++ 44 :: b!"0000")).map (fun r => words r.equiv)
      = some [b!"jeden", b!"przecinek", b!"zero", b!"zero", b!"zero", b!"zero", b!"zero"] := by
    decide +kernel
  rw [hr] at e
  simp only [Option.map_some, Option.some.injEq] at e
  rw [e] at hs
  generalize hn : b!"1" ++ 44 :: b!"0000" = n at hs
  generalize hw : [b!"jeden", b!"przecinek", b!"zero", b!"zero", b!"zero", b!"zero", b!"zero"] = w
    at hs
  have cut : ∀ a b : Str, Digits a → b!"1" ++ 44 :: b!"0000" = a ++ 44 :: b → b = b!"0000" := by
    intro a b ha e
    exact (cut_inj (by decide) (digits_not ha (by decide)) e).2.symm
  cases hs with
  | whole hd _ =>
    have := hd.2 44 (by rw [← hn]; decide)
    exact absurd this (by decide)
  | half hd hh _ =>
    have := cut _ _ hd hn
    rw [this] at hh
    obtain ⟨k, hk⟩ := hh
    simp at hk
  | short hd _ hl _ _ _ =>
    have := cut _ _ hd hn
    rw [this] at hl
    exact absurd hl (by decide)
  | @long _ rest k ws0 ws1 hd _ hr0 hlen _ hr hnil _ =>
    have hc := cut _ _ hd hn
    have hrest : rest = [] := by
      cases rest with
      | nil => rfl
      | cons c t =>
        exfalso
        have hm : c ∈ List.replicate k 48 ++ c :: t := by simp
        rw [hc] at hm
        apply hr0
        have : c = 48 := by simpa using hm
        simp [this]
    have hk : k = 4 := by
      rw [hrest] at hc
      simpa using congrArg List.length hc
    subst hk
    rw [hnil hrest] at hw
    have h2 : ws0 = [b!"jeden", b!"przecinek"] := by
      have e3 : ([b!"jeden", b!"przecinek"] : List Str) ++ [b!"zero", b!"zero", b!"zero", b!"zero",
          b!"zero"] = ws0 ++ [b!"przecinek", b!"zero", b!"zero", b!"zero", b!"zero"] := by
        simpa using hw
      exact (List.append_inj_left' e3 rfl).symm
    rw [h2] at hr
    have : Spec.read .masculine [b!"jeden", b!"przecinek"] = none := by decide +kernel
    rw [wholeKind, this] at hr
    simp at hr

/-- A fraction with a numerator of four digits is refused. -/
theorem C105_fraction_false :
    (num2pltext .CARDINAL b!"1000/3").map (·.equiv) = some b!"#" ∧
    (num2pltext .CARDINAL b!"999/3").map (·.equiv)
      = some b!"dziewięćset dziewięćdziesiąt dziewięć trzecich" := by
  decide +kernel

/-- The sign of failure is not kept by signs and per cents: what is no number at
all is not refused as such. -/
theorem C105_refused_false :
    (num2pltext .CARDINAL b!"abc").map (·.equiv) = some b!"#" ∧
    (num2pltext .CARDINAL b!"-abc").map (·.equiv) = some b!"minus #" ∧
    (num2pltext .CARDINAL b!"%").map (·.equiv) = some b!"# procent" := by
  decide +kernel

/-! ### C106 Missing digits -/

/-- A cardinal number is read out of the bounds of a string, which has no
defined behaviour, exactly if digits are missing in it. -/
theorem C106_cardinal (n : Str) : num2pltext .CARDINAL n = none ↔ MissingCardinal n :=
  loop_none _ n (Nat.lt_succ_self _)

/-- The same of an ordinal number and of a number before a noun: it happens
exactly if nothing stands before the comma. -/
theorem C106_other {t : Form} (ht : t = .ORDINAL ∨ t = .BEFORE_NOUN) (n : Str) :
    num2pltext t n = none ↔ MissingOther n :=
  loop_other ht _ n (Nat.lt_succ_self _)

/-- So not every text is given words. -/
theorem C106_total_false : num2pltext .CARDINAL b!"5," = none ∧
    num2pltext .CARDINAL b!"-1+" = none ∧ num2pltext .CARDINAL b!"1/" = none ∧
    num2pltext .CARDINAL b!"3-,5%" = none ∧ num2pltext .ORDINAL b!",5" = none ∧
    num2pltext .ORDINAL b!"5," ≠ none ∧ num2pltext .CARDINAL b!"1000/" ≠ none := by
  decide +kernel

example : MissingCardinal b!"-5,%" := (C106_cardinal _).mp (by decide +kernel)

example : ¬ MissingCardinal b!"5" := fun h => absurd ((C106_cardinal _).mpr h) (by decide +kernel)

/-! ### C107 Differences and ranges -/

/-- Two whole numbers, without zeros before them, with a line between are a
difference if the first is greater, else a range. -/
theorem C107_whole {a b : Str} (ha : Plain a) (hb : Plain b) (va : value a < 10 ^ 660)
    (vb : value b < 10 ^ 660) :
    ∃ r wa wb, num2pltext .CARDINAL (a ++ b!"-" ++ b) = some r ∧
      if value b < value a then
        words r.equiv = wa ++ [b!"minus"] ++ wb ∧ SaysDecimal .nominative a wa ∧
          SaysDecimal .nominative b wb
      else
        words r.equiv = [b!"od"] ++ wa ++ [b!"do"] ++ wb ∧ SaysDecimal .genitive a wa ∧
          SaysDecimal .genitive b wb := by
  obtain ⟨r, wa, wb, h1, _, h2⟩ := num_range (.inl ⟨ha.1, va⟩) (.inl ⟨hb.1, vb⟩)
  refine ⟨r, wa, wb, h1, ?_⟩
  by_cases h : value b < value a
  · simpa [h, (bigger_whole ha hb).mpr h] using h2
  · have : bigger a b = false := by
      rw [Bool.eq_false_iff]
      exact fun x => h ((bigger_whole ha hb).mp x)
    simpa [h, this] using h2

/-- Numbers with a comma are a difference if the first is greater.  What is
missing: that they are a range if not, which fails. -/
theorem C107_greater_partial {w0 f0 w1 f1 : Str} (h0 : Plain w0) (h1 : Plain w1)
    (d0 : Decimal (w0 ++ 44 :: f0)) (d1 : Decimal (w1 ++ 44 :: f1)) (hf0 : Digits f0)
    (hf1 : Digits f1) (hg : Greater w0 f0 w1 f1) :
    ∃ r wa wb, num2pltext .CARDINAL (w0 ++ 44 :: f0 ++ b!"-" ++ (w1 ++ 44 :: f1)) = some r ∧
      words r.equiv = wa ++ [b!"minus"] ++ wb ∧ SaysDecimal .nominative (w0 ++ 44 :: f0) wa ∧
      SaysDecimal .nominative (w1 ++ 44 :: f1) wb := by
  obtain ⟨r, wa, wb, e1, _, e2⟩ := num_range d0 d1
  have hb := bigger_greater (f0 := some f0) (f1 := some f1) h0 h1
    (fun f hf => by cases hf; exact hf0.2) (fun f hf => by cases hf; exact hf1.2) hg
  simp only [tail?] at hb
  simp only [hb, if_true] at e2
  exact ⟨r, wa, wb, e1, e2⟩

example : Plain b!"10" ∧ Plain b!"9" ∧ Greater b!"1" b!"31" b!"1" b!"3" ∧
    (num2pltext .CARDINAL b!"10-9").map (·.equiv) = some b!"dziesięć minus dziewięć" ∧
    (num2pltext .CARDINAL b!"9-10").map (·.equiv) = some b!"od dziewięciu do dziesięciu" := by
  refine ⟨⟨⟨by decide, by decide⟩, by decide⟩, ⟨⟨by decide, by decide⟩, by decide⟩,
    by unfold Greater; decide, ?_, ?_⟩ <;> decide +kernel

/-- A digit greater at any place after the comma makes a number bigger, and so
does a zero at its end: these ranges are said to be differences.  Zeros before
a number make it bigger as well. -/
theorem C107_range_false :
    ¬ Greater b!"1" b!"25" b!"1" b!"31" ∧ ¬ Greater b!"1" b!"50" b!"1" b!"5" ∧
    (num2pltext .CARDINAL b!"1,25-1,31").map (·.equiv)
      = some b!"jeden i dwadzieścia pięć setnych minus jeden i trzydzieści jeden setnych" ∧
    (num2pltext .CARDINAL b!"1,50-1,5").map (·.equiv)
      = some b!"jeden i pół minus jeden i pół" ∧
    (num2pltext .CARDINAL b!"007-12").map (·.equiv) = some b!"siedem minus dwanaście" := by
  refine ⟨by unfold Greater; decide, by unfold Greater; decide, ?_⟩
  decide +kernel

/-! ### C108 Codes of inflection -/

/-- A cardinal number has as many codes of inflection as words, in each of the
four forms. -/
theorem C108_cardinal (k : Kind) {n : Str} (h : Digits n) (hv : value n < 10 ^ 660) :
    ∃ p, integer2pltext (kindForm k) n = some p ∧ (words p.2).length = (words p.1).length := by
  obtain ⟨p, hp, _, hc⟩ := integer_read k h hv
  exact ⟨p, hp, hc.2⟩

/-- So has an ordinal number.  What is missing: the plural ordinals which are
wrong (C104). -/
theorem C108_ordinal_partial (g : Gender) {n : Str} (h : Digits n) (hv : value n < 10 ^ 660)
    (hc : g = .masculine ∨ g = .feminine ∨ value n % 1000 ≠ 0 ∨
      (∃ r, value n % 1000 ^ r = 0 ∧ value n / 1000 ^ r % 1000 = 1) ∨ value n = 0) :
    ∃ p, integer2pltext (genderForm g) n = some p ∧
      (words p.2).length = (words p.1).length := by
  obtain ⟨p, hp, hq⟩ := integer_ord g h hv
  refine ⟨p, hp, (hq ?_).2.2⟩
  rcases hc with h | h | h
  · exact .inl (.inl h)
  · exact .inl (.inr h)
  · exact .inr h

/-- So has a number with a comma, also with a sign or a per cent, and so have
sums, differences and ranges. -/
theorem C108_decimal {n : Str} (h : Decimal n) :
    ∃ r, num2pltext .CARDINAL n = some r ∧ (words r.infl).length = (words r.equiv).length ∧
    (∀ m : Bool, ∃ r', num2pltext .CARDINAL ((if m then 45 else 43) :: n) = some r' ∧
      (words r'.infl).length = (words r'.equiv).length) ∧
    (∃ r', num2pltext .CARDINAL (n ++ b!"%") = some r' ∧
      (words r'.infl).length = (words r'.equiv).length) ∧
    (∀ b, Decimal b → ∃ r', num2pltext .CARDINAL (n ++ b!"+" ++ b) = some r' ∧
      (words r'.infl).length = (words r'.equiv).length) ∧
    (∀ b, Decimal b → ∃ r', num2pltext .CARDINAL (n ++ b!"-" ++ b) = some r' ∧
      (words r'.infl).length = (words r'.equiv).length) := by
  obtain ⟨r, h1, h2, h3, _⟩ := num_decimal h
  obtain ⟨g0, g1, g2, _⟩ := decimal_ends h
  refine ⟨r, h1, h2.codes.2, fun m => ?_, ?_, fun b hb => ?_, fun b hb => ?_⟩
  · obtain ⟨r', e1, _, e2, _⟩ := num_sign m h1 h2
    exact ⟨r', e1, e2.codes.2⟩
  · obtain ⟨r', e1, _, e2, _⟩ := num_percent h1 g0 g1 g2 h2
    exact ⟨r', e1, e2.codes.2⟩
  · obtain ⟨r', _, _, e1, e2, _⟩ := num_sum h hb
    exact ⟨r', e1, e2.codes.2⟩
  · obtain ⟨r', _, _, e1, e2, _⟩ := num_range h hb
    exact ⟨r', e1, e2.codes.2⟩

example : integer2pltext .CARDINAL_F b!"2022"
    = some (b!"dwa tysiące dwadzieścia dwie", b!"LG:z tysiąc_R:3 LG:r dwa_LG:z") := by
  decide +kernel

/-- Other numbers have too few codes or too many: the plural of an ordinal, and
numbers before a noun. -/
theorem C108_codes_false :
    integer2pltext .ORDINAL_NPL b!"21000"
      = some (b!"dwadzieścia jedentysięczne", b!"tysięczny_LP-P") ∧
    num2pltext .BEFORE_NOUN b!"1000" = some ⟨b!"tysiąc", b!"R:3 0", b!""⟩ ∧
    num2pltext .BEFORE_NOUN b!"12,5" = some ⟨b!"dwunastoipół", b!"", b!""⟩ := by
  decide +kernel

end Verif.Numconv
