import Verif.Irstlm.Reading
import Verif.Server.PropsHandler

/-! # Lemmas about saved and copied dictionaries -/

namespace Verif.Irstlm

open Verif.Server (decimal isSpace ascii)
open Verif.Server.Spec (number Digit)

/-! ## Numbers -/

theorem digitsValue_eq (s : Str) : digitsValue s = number s := rfl

theorem digit_range {c : Byte} (h : Digit c) : (48 ≤ c && c ≤ 57) = true := by
  unfold Digit at h
  simp only [Bool.and_eq_true, decide_eq_true_eq, UInt8.le_iff_toNat_le]
  exact h

theorem digit_notspace {c : Byte} (h : Digit c) : isSpace c = false := by
  unfold Digit at h
  unfold isSpace
  simp only [Bool.or_eq_false_iff, Bool.and_eq_false_iff, beq_eq_false_iff_ne, ne_eq, decide_eq_false_iff_not,
    UInt8.le_iff_toNat_le, ← UInt8.toNat_inj]
  have : (32 : UInt8).toNat = 32 := rfl
  have : (13 : UInt8).toNat = 13 := rfl
  have : (9 : UInt8).toNat = 9 := rfl
  omega

theorem spanDigits_decimal (n : Nat) {c : Byte} (hc : (48 ≤ c && c ≤ 57) = false) (rest : Str) :
    spanDigits (decimal n ++ c :: rest) = (decimal n, c :: rest) := by
  obtain ⟨_, h2, _⟩ := Verif.Server.number_decimal n
  have hd : ∀ d ∈ decimal n, (48 ≤ d && d ≤ 57) = true := fun d hd => digit_range (h2 d hd)
  unfold spanDigits
  rw [List.span_eq_takeWhile_dropWhile, List.takeWhile_append_of_pos hd, List.dropWhile_append_of_pos hd,
    List.takeWhile_cons, List.dropWhile_cons, hc]
  simp

theorem readInt_decimalInt (i : Int) {c : Byte} (hc : (48 ≤ c && c ≤ 57) = false) (rest : Str) {sp : Str}
    (hsp : ∀ c ∈ sp, isSpace c = true) :
    readInt (sp ++ (decimalInt i ++ c :: rest)) = some (i, c :: rest) := by
  obtain ⟨h1, h2, h3⟩ := Verif.Server.number_decimal i.natAbs
  unfold readInt
  rw [List.dropWhile_append_of_pos hsp]
  by_cases hi : i < 0
  · rw [show decimalInt i = 45 :: decimal i.natAbs by unfold decimalInt; rw [if_pos hi]]
    rw [List.cons_append, List.dropWhile_cons, if_neg (show ¬ isSpace 45 = true by decide)]
    simp only [signed, spanDigits_decimal _ hc, if_neg h3, if_true, digitsValue_eq, h1]
    rw [Int.ofNat_natAbs_of_nonpos (by omega), Int.neg_neg]
  · rw [show decimalInt i = decimal i.natAbs by unfold decimalInt; rw [if_neg hi]]
    obtain ⟨x, xs, hx⟩ := List.exists_cons_of_ne_nil h3
    have hxd : Digit x := h2 x (by rw [hx]; simp)
    have h45 : x ≠ 45 := by rintro rfl; revert hxd; unfold Digit; decide
    have h43 : x ≠ 43 := by rintro rfl; revert hxd; unfold Digit; decide
    have hdrop : (decimal i.natAbs ++ c :: rest).dropWhile isSpace = decimal i.natAbs ++ c :: rest := by
      rw [hx, List.cons_append, List.dropWhile_cons, if_neg (by rw [digit_notspace hxd]; simp)]
    rw [hdrop]
    have hm : signed (decimal i.natAbs ++ c :: rest) = (false, spanDigits (decimal i.natAbs ++ c :: rest)) := by
      rw [hx, List.cons_append]
      unfold signed
      split
      · rename_i he; exact absurd (List.cons.inj he).1 h45
      · rename_i he; exact absurd (List.cons.inj he).1 h43
      · rfl
    simp only [hm, spanDigits_decimal _ hc, if_neg h3, digitsValue_eq, h1]
    rw [if_neg (by decide), Int.natAbs_of_nonneg (by omega)]

theorem writable_notspace {w : Str} (h : Writable w) : ∀ c ∈ w, isSpace c = false := by
  intro c hc
  obtain ⟨_, h2, h3⟩ := h.2.2 c hc
  unfold isSpace
  simp only [Bool.or_eq_false_iff, beq_eq_false_iff_ne, ne_eq, h2, not_false_eq_true, true_and]
  rw [Bool.eq_false_iff]
  simpa using h3

theorem writable_nul {w : Str} (h : Writable w) : (0 : Byte) ∉ w := fun hm => (h.2.2 0 hm).1 rfl

/-- A word behind white space. -/
theorem readWord_word {w : Str} (hne : w ≠ []) (hn : ∀ c ∈ w, isSpace c = false) (hlen : w.length ≤ 999) {sp : Str} (hsp : ∀ c ∈ sp, isSpace c = true) {c : Byte}
    (hc : isSpace c = true) (rest : Str) : readWord (sp ++ (w ++ c :: rest)) = some (w, c :: rest) := by
  obtain ⟨x, xs, hx⟩ := List.exists_cons_of_ne_nil hne
  unfold readWord
  rw [List.dropWhile_append_of_pos hsp]
  have hdrop : (w ++ c :: rest).dropWhile isSpace = w ++ c :: rest := by
    rw [hx, List.cons_append, List.dropWhile_cons, if_neg (by rw [hn x (by rw [hx]; simp)]; simp)]
  have htake : ((w ++ c :: rest).take 999).takeWhile (fun c => !isSpace c) = w := by
    rw [← List.take_takeWhile, List.takeWhile_append_of_pos (by intro d hd; simp [hn d hd]), List.takeWhile_cons,
      hc]
    simp only [Bool.not_true, Bool.false_eq_true, if_false, List.append_nil]
    exact List.take_of_length_le hlen
  simp only [hdrop, htake]
  rw [if_neg (by simp [hne])]
  simp

/-! ## Loading -/

/-- The lines of the entries. -/
def lines (tb : List Entry) : Str := tb.flatMap fun e => e.word ++ [32] ++ decimalInt e.freq ++ [10]

/-- The code of unknown words after loading. -/
def oovAfter : List Entry → Nat → Option Nat → Option Nat
  | [], _, o => o
  | e :: l, n, o => oovAfter l (n + 1) (if e.word = oov then some n else o)

theorem loadLoop_spec : ∀ (tb : List Entry) {d : Dict} {sp : Str}, DictInv d → (∀ c ∈ sp, isSpace c = true) →
    (∀ e ∈ tb, Writable e.word ∧ e.word.length + 1 < d.stSize) →
    ((d.tb ++ tb).map Entry.word).Nodup →
    ∃ r, loadLoop tb.length (sp ++ lines tb) d = .ok r ∧ DictInv r ∧
      r.tb.map (fun e => (e.word, e.freq)) = (d.tb ++ tb).map (fun e => (e.word, e.freq)) ∧
      r.total = d.total + (tb.map Entry.freq).sum ∧ r.oovCode = oovAfter tb d.tb.length d.oovCode
  | [], d, sp, h, _, _, _ => ⟨d, rfl, h, by simp, by simp, rfl⟩
  | e :: tb, d, sp, h, hsp, hw, hn => by
    obtain ⟨hwr, hst⟩ := hw e List.mem_cons_self
    have hpl : place d.tb e.word = none := by
      rw [place_none]
      intro hm
      rw [List.map_append, List.nodup_append] at hn
      exact hn.2.2 _ hm _ (by simp) rfl
    obtain ⟨t, h1, h2⟩ := h.add e.freq hst (Or.inr hpl)
    rw [hpl] at h1
    have h2' : DictInv' { d with
        tb := d.tb ++ [⟨e.word, d.tb.length, e.freq⟩], htb := t, total := d.total + e.freq,
        oovCode := if e.word = oov then some d.tb.length else d.oovCode } :=
      ⟨h2.codes, h2.table, h2.room, h2.stack, h2.dist⟩
    obtain ⟨t', lim, h3, h4⟩ := h2'.grown
    have hl : lines (e :: tb) = e.word ++ 32 :: (decimalInt e.freq ++ 10 :: lines tb) := by
      simp [lines]
    have hR := readWord_word hwr.1 (writable_notspace hwr) (by have := hwr.2.1; omega) hsp (c := 32) (by decide) (decimalInt e.freq ++ 10 :: lines tb)
    have hI := readInt_decimalInt e.freq (c := 10) (by decide) (lines tb) (sp := [32]) (by decide)
    obtain ⟨r, g1, g2, g3, g4, g5⟩ := loadLoop_spec tb (sp := [10]) h4 (by decide)
      (fun x hx => hw x (List.mem_cons_of_mem _ hx)) (by simpa using hn)
    refine ⟨r, ?_, g2, ?_, ?_, ?_⟩
    · rw [List.length_cons, loadLoop, hl, hR]
      simp only [cstring_eq (writable_nul hwr)]
      rw [if_neg (by have := hwr.2.1; omega)]
      rw [List.singleton_append] at hI
      simp only [hI, h1, Option.getD_none, ne_eq, not_true_eq_false, if_false]
      rw [h3]
      exact g1
    · rw [g3]; simp
    · rw [g4]; simp only [List.map_cons, List.sum_cons]; omega
    · rw [g5]; simp [oovAfter]

/-- A word that is too long. -/
theorem loadLoop_long {w : Str} (hne : w ≠ []) (hn : ∀ c ∈ w, isSpace c = false) (hz : (0 : Byte) ∉ w)
    (hlen : w.length = 999) (n : Nat) {sp : Str} (hsp : ∀ c ∈ sp, isSpace c = true) (k : Nat) (f : Int) (tb : List Entry)
    (d : Dict) : loadLoop (n + 1) (sp ++ lines (⟨w, k, f⟩ :: tb)) d = .error .exit := by
  have hl : lines (⟨w, k, f⟩ :: tb) = w ++ 32 :: (decimalInt f ++ 10 :: lines tb) := by
    simp [lines]
  rw [loadLoop, hl, readWord_word hne hn (by omega) hsp (c := 32) (by decide)]
  simp only [cstring_eq hz]
  rw [if_pos hlen]

/-- A repeated word. -/
theorem loadLoop_dup : ∀ (l1 : List Entry) {e : Entry} (l2 : List Entry) {d : Dict} {sp : Str}, DictInv d →
    (∀ c ∈ sp, isSpace c = true) → (∀ x ∈ l1 ++ [e], Writable x.word ∧ x.word.length + 1 < d.stSize) →
    ((d.tb ++ l1).map Entry.word).Nodup → e.word ∈ (d.tb ++ l1).map Entry.word →
    loadLoop (l1 ++ e :: l2).length (sp ++ lines (l1 ++ e :: l2)) d = .error .exit
  | [], e, l2, d, sp, h, hsp, hw, hn, hm => by
    obtain ⟨hwr, hst⟩ := hw e (by simp)
    obtain ⟨c, hpl⟩ : ∃ c, place d.tb e.word = some c := by
      cases hp : place d.tb e.word with
      | some c => exact ⟨c, rfl⟩
      | none => exact absurd (by simpa using hm) (place_none.1 hp)
    obtain ⟨t, h1, _⟩ := h.add' e.freq hst
    rw [hpl] at h1
    have hl : lines ([] ++ e :: l2) = e.word ++ 32 :: (decimalInt e.freq ++ 10 :: lines l2) := by
      simp [lines]
    have hR := readWord_word hwr.1 (writable_notspace hwr) (by have := hwr.2.1; omega) hsp (c := 32) (by decide) (decimalInt e.freq ++ 10 :: lines l2)
    have hI := readInt_decimalInt e.freq (c := 10) (by decide) (lines l2) (sp := [32]) (by decide)
    rw [List.nil_append, List.length_cons, loadLoop]
    rw [List.nil_append] at hl
    rw [hl, hR]
    simp only [cstring_eq (writable_nul hwr)]
    rw [if_neg (by have := hwr.2.1; omega)]
    rw [List.singleton_append] at hI
    simp only [hI, h1, Option.getD_some]
    rw [if_pos (by have := place_lt hpl; omega)]
  | x :: l1, e, l2, d, sp, h, hsp, hw, hn, hm => by
    obtain ⟨hwr, hst⟩ := hw x (by simp)
    have hpl : place d.tb x.word = none := by
      rw [place_none]
      intro hm
      rw [List.map_append, List.nodup_append] at hn
      exact hn.2.2 _ hm _ (by simp) rfl
    obtain ⟨t, h1, h2⟩ := h.add x.freq hst (Or.inr hpl)
    rw [hpl] at h1
    have h2' : DictInv' { d with
        tb := d.tb ++ [⟨x.word, d.tb.length, x.freq⟩], htb := t, total := d.total + x.freq,
        oovCode := if x.word = oov then some d.tb.length else d.oovCode } :=
      ⟨h2.codes, h2.table, h2.room, h2.stack, h2.dist⟩
    obtain ⟨t', lim, h3, h4⟩ := h2'.grown
    have hl : lines (x :: l1 ++ e :: l2) = x.word ++ 32 :: (decimalInt x.freq ++ 10 :: lines (l1 ++ e :: l2)) := by
      simp [lines]
    have hR := readWord_word hwr.1 (writable_notspace hwr) (by have := hwr.2.1; omega) hsp (c := 32) (by decide) (decimalInt x.freq ++ 10 :: lines (l1 ++ e :: l2))
    have hI := readInt_decimalInt x.freq (c := 10) (by decide) (lines (l1 ++ e :: l2)) (sp := [32]) (by decide)
    have g1 := loadLoop_dup l1 (e := e) l2 (sp := [10]) h4 (by decide)
      (fun y hy => hw y (by simpa using Or.inr (by simpa using hy))) (by simpa using hn) (by simpa using hm)
    rw [hl, List.cons_append, List.length_cons, loadLoop, hR]
    simp only [cstring_eq (writable_nul hwr)]
    rw [if_neg (by have := hwr.2.1; omega)]
    rw [List.singleton_append] at hI
    simp only [hI, h1, Option.getD_none, ne_eq, not_true_eq_false, if_false]
    rw [h3]
    exact g1

theorem oovAfter_spec : ∀ (tb : List Entry) (n : Nat) (o : Option Nat), (tb.map Entry.word).Nodup →
    oovAfter tb n o = match place tb oov with | some c => some (n + c) | none => o
  | [], n, o, _ => rfl
  | e :: tb, n, o, h => by
    rw [List.map_cons, List.nodup_cons] at h
    rw [oovAfter, oovAfter_spec tb _ _ h.2]
    by_cases he : e.word = oov
    · have hp : place tb oov = none := place_none.2 (by rw [← he]; exact h.1)
      have hq : place (e :: tb) oov = some 0 := place_some.2 ⟨by simp [he], fun j hj => by omega⟩
      rw [hp, hq]; simp [he]
    · rw [if_neg he]
      cases hp : place tb oov with
      | none =>
        have hq : place (e :: tb) oov = none := place_none.2 (by
          rw [List.map_cons, List.mem_cons]
          rintro (h1 | h1)
          · exact he h1.symm
          · exact place_none.1 hp h1)
        rw [hq]
      | some c =>
        obtain ⟨h1, h2⟩ := place_some.1 hp
        have hq : place (e :: tb) oov = some (c + 1) := place_some.2 ⟨by simpa using h1, fun j hj => by
          cases j with
          | zero => simpa using he
          | succ j => simpa using h2 j (by omega)⟩
        rw [hq]
        show some _ = some _
        congr 1; omega

/-! ## Copies -/

theorem recode_codes (old : Option Nat) : ∀ (tb : List Entry) (i : Nat) (oc : Option Nat),
    (recode old tb i oc).1.map Entry.code = List.range' i tb.length ∧
    (recode old tb i oc).1.map (fun e => (e.word, e.freq)) = tb.map (fun e => (e.word, e.freq))
  | [], _, _ => ⟨rfl, rfl⟩
  | e :: tb, i, oc => by
    obtain ⟨h1, h2⟩ := recode_codes old tb (i + 1) (if old = some e.code then some i else oc)
    simp only [recode]
    exact ⟨by simp [h1, List.range'_succ], by simp [h2]⟩

theorem recode_oov (old : Option Nat) : ∀ (tb : List Entry) (i : Nat) (oc : Option Nat), (tb.map Entry.code).Nodup →
    (∀ k e, tb[k]? = some e → old = some e.code → (recode old tb i oc).2 = some (i + k)) ∧
    ((∀ e ∈ tb, old ≠ some e.code) → (recode old tb i oc).2 = oc)
  | [], _, _, _ => ⟨by simp, fun _ => rfl⟩
  | e :: tb, i, oc, h => by
    rw [List.map_cons, List.nodup_cons] at h
    obtain ⟨h1, h2⟩ := recode_oov old tb (i + 1) (if old = some e.code then some i else oc) h.2
    constructor
    · intro k x hk ho
      simp only [recode]
      cases k with
      | zero =>
        simp only [List.getElem?_cons_zero, Option.some.injEq] at hk
        subst hk
        rw [h2, if_pos ho]; · rfl
        intro y hy hy'
        rw [ho, Option.some.injEq] at hy'
        exact h.1 (by rw [hy']; exact List.mem_map_of_mem hy)
      | succ k =>
        rw [h1 k x (by simpa using hk) ho]
        congr 1; omega
    · intro ho
      simp only [recode]
      rw [h2 fun y hy => ho y (List.mem_cons_of_mem _ hy), if_neg (ho e List.mem_cons_self)]

/-- The copy exists; it has the entries with new codes. -/
theorem copy_spec {d : Dict} (h : DictInv d) {tb : List Entry} (hp : tb.Perm d.tb)
    (hst : ∀ e ∈ d.tb, e.word.length + 1 < d.lim * 10) (hlim : 5 ≤ d.lim) :
    ∃ r, d.copyWith tb = .ok r ∧ DictInv r ∧
      r.tb.map (fun e => (e.word, e.freq)) = tb.map (fun e => (e.word, e.freq)) ∧ r.total = d.total ∧
      r.ifl = false ∧ r.oovlex = none ∧
      (∀ k e, tb[k]? = some e → d.oovCode = some e.code → r.oovCode = some k) ∧
      ((∀ e ∈ tb, d.oovCode ≠ some e.code) → r.oovCode = none) := by
  obtain ⟨hc, hw⟩ := recode_codes d.oovCode tb 0 none
  have hnd : (tb.map Entry.code).Nodup := (hp.map Entry.code).nodup_iff.2 (by rw [h.codes]; exact List.nodup_range)
  obtain ⟨ho1, ho2⟩ := recode_oov d.oovCode tb 0 none hnd
  have hlen : (recode d.oovCode tb 0 none).1.length = tb.length := by
    have := congrArg List.length hw; simpa using this
  have hlen2 := hp.length_eq
  obtain ⟨u, e1, _, e3⟩ := enterAll_inv (hash := hashStr) (val := wordOf (recode d.oovCode tb 0 none).1)
    (List.range (recode d.oovCode tb 0 none).1.length)
    (new_table_inv hashStr (wordOf (recode d.oovCode tb 0 none).1) (n := d.lim / 5) (by omega))
  refine ⟨{ tb := (recode d.oovCode tb 0 none).1, lim := d.lim, htb := u, total := d.total, oovCode := (recode d.oovCode tb 0 none).2, ifl := false, stSize := d.lim * 10, oovlex := none, inOovLex := false, oovLexCode := none }, ?_, ⟨?_, ?_, ?_, ?_, ?_⟩, hw, rfl, rfl, rfl, ?_, ?_⟩
  · unfold Dict.copyWith
    rw [if_neg (by
      simp only [List.any_eq_true, decide_eq_true_eq, not_exists, not_and, ge_iff_le, not_le]
      intro e he; exact hst e he)]
    simp only [e1]
  · simp only [hc, hlen, List.range_eq_range']
  · exact e3
  · simp only [hlen, hlen2]; exact h.room
  · simp only; omega
  · simp only
    have : (recode d.oovCode tb 0 none).1.map Entry.word = tb.map Entry.word := by
      have := congrArg (List.map Prod.fst) hw
      simpa [List.map_map, Function.comp_def] using this
    rw [this]
    exact ((hp.map Entry.word).filter _).nodup_iff.2 h.dist
  · intro k e hk ho
    simpa using ho1 k e hk ho
  · exact ho2

/-! ## Lengths of words -/

/-- The sizes do not shrink, and new words are not too long. -/
def Grows (d e : Dict) : Prop :=
  d.lim ≤ e.lim ∧ e.stSize = d.stSize ∧ ∀ x ∈ e.tb.map Entry.word, x ∈ d.tb.map Entry.word ∨ x.length + 1 < d.stSize

theorem Grows.refl (d : Dict) : Grows d d := ⟨le_refl _, rfl, fun _ h => Or.inl h⟩

theorem Grows.trans {d e f : Dict} (h1 : Grows d e) (h2 : Grows e f) : Grows d f :=
  ⟨h1.1.trans h2.1, h2.2.1.trans h1.2.1, fun x hx => by
    rcases h2.2.2 x hx with h | h
    · exact h1.2.2 x h
    · right; rw [← h1.2.1]; exact h⟩

theorem Grows.same {d e : Dict} (hl : e.lim = d.lim) (hs : e.stSize = d.stSize)
    (hw : e.tb.map Entry.word = d.tb.map Entry.word) : Grows d e :=
  ⟨hl.ge, hs, fun x hx => Or.inl (by rw [← hw]; exact hx)⟩

theorem add_grows {d : Dict} {w f k e} (h : d.add w f = .ok (k, e)) : Grows d e := by
  unfold Dict.add at h
  split at h
  · cases h
  · split at h
    · cases h
    · simp only at h
      split at h
      · cases h
      · cases h
        refine ⟨le_refl _, rfl, fun x hx => ?_⟩
        simp only [List.map_append, List.map_cons, List.map_nil, List.mem_append, List.mem_singleton] at hx
        rcases hx with hx | rfl
        · exact Or.inl hx
        · right; omega

theorem grown_grows {d e : Dict} (h : d.grown = .ok e) : Grows d e := by
  unfold Dict.grown Dict.grow at h
  split at h
  · split at h
    · cases h
    · cases h
      exact ⟨Nat.le_add_right _ _, rfl, fun _ h => Or.inl h⟩
  · cases h; exact Grows.refl _

theorem startOov_grows {d e : Dict} (h : d.startOov = .ok e) : Grows d e := by
  unfold Dict.startOov at h
  split at h
  · cases h; exact Grows.refl _
  · split at h
    · cases h
    · rename_i r hr
      exact (add_grows (k := r.1) (e := r.2) hr).trans
        (Grows.trans (Grows.same (e := { r.2 with oovCode := some d.tb.length }) rfl rfl rfl) (grown_grows h))

theorem lookOovlex_grows {d e : Dict} {w} (h : d.lookOovlex w = .ok e) : Grows d e := by
  unfold Dict.lookOovlex at h
  split at h
  · cases h
  · cases h; exact Grows.refl _
  · cases h; exact Grows.same rfl rfl rfl

theorem encodeLoop_grows : ∀ fuel {d e : Dict} {w c}, encodeLoop fuel d w = .ok (c, e) → Grows d e
  | 0, _, _, _, _, h => by cases h
  | fuel + 1, d, e, w, c, h => by
    unfold encodeLoop at h
    simp only at h
    split at h
    · cases h
    · cases h; exact Grows.refl _
    · split at h
      · split at h
        · cases h
        · rename_i r hr
          split at h
          · cases h
          · rename_i d1 hd
            cases h
            exact (add_grows (k := r.1) (e := r.2) hr).trans (grown_grows hd)
      · split at h
        · cases h
        · rename_i d1 h1
          split at h
          · cases h
          · rename_i d2 h2
            exact (startOov_grows h1).trans ((lookOovlex_grows h2).trans (encodeLoop_grows fuel h))

theorem incfreq_grows {d e : Dict} {c v} (h : d.incfreq c v = .ok e) : Grows d e := by
  unfold Dict.incfreq at h
  split at h
  · cases h; exact Grows.same rfl rfl (map_modify_same Entry.word _ (by simp) _ _)
  · cases h

theorem setFreq_grows {d e : Dict} {c v} (h : d.setFreq c v = .ok e) : Grows d e := by
  unfold Dict.setFreq at h
  split at h
  · cases h
  · cases h; exact Grows.same rfl rfl (map_modify_same Entry.word _ (by simp) _ _)

theorem generateLoop_grows (is : Str) : ∀ fuel {s : Str} {d e : Dict}, generateLoop is fuel s d = .ok e → Grows d e
  | 0, _, _, _, h => by cases h; exact Grows.refl _
  | fuel + 1, s, d, e, h => by
    unfold generateLoop at h
    split at h
    · cases h; exact Grows.refl _
    · simp only at h
      split at h
      · exact generateLoop_grows is fuel h
      · split at h
        · exact generateLoop_grows is fuel h
        · split at h
          · cases h
          · rename_i h1
            split at h
            · cases h
            · rename_i h2
              exact (encodeLoop_grows 2 h1).trans ((incfreq_grows h2).trans (generateLoop_grows is fuel h))

theorem loadLoop_grows : ∀ n {s : Str} {d e : Dict}, loadLoop n s d = .ok e → Grows d e
  | 0, _, _, _, h => by cases h; exact Grows.refl _
  | n + 1, s, d, e, h => by
    unfold loadLoop at h
    split at h
    · cases h
    · simp only at h
      split at h
      · cases h
      · split at h
        · cases h
        · split at h
          · cases h
          · rename_i h1
            split at h
            · cases h
            · split at h
              · cases h
              · rename_i h2
                refine (add_grows h1).trans (Grows.trans ?_ ((grown_grows h2).trans (loadLoop_grows n h)))
                exact Grows.same rfl rfl rfl

theorem dictReach_sizes {size : Nat} {d : Dict} (h : DictReach size d) :
    size ≤ d.lim ∧ d.stSize = size * 10 ∧ ∀ x ∈ d.tb.map Entry.word, x.length + 1 < size * 10 := by
  have key : ∀ {d e : Dict}, (size ≤ d.lim ∧ d.stSize = size * 10 ∧ ∀ x ∈ d.tb.map Entry.word, x.length + 1 < size * 10) →
      Grows d e → (size ≤ e.lim ∧ e.stSize = size * 10 ∧ ∀ x ∈ e.tb.map Entry.word, x.length + 1 < size * 10) := by
    intro d e h1 h2
    refine ⟨h1.1.trans h2.1, h2.2.1.trans h1.2.1, fun x hx => ?_⟩
    rcases h2.2.2 x hx with h | h
    · exact h1.2.2 x h
    · rw [← h1.2.1]; exact h
  induction h with
  | new f => exact ⟨le_refl _, rfl, by simp [Dict.new]⟩
  | encode _ h ih => exact key ih (encodeLoop_grows 2 h)
  | incflag v _ ih => exact ih
  | oovcode v _ ih => exact ih
  | incfreq _ h ih => exact key ih (incfreq_grows h)
  | freq _ h ih => exact key ih (setFreq_grows h)
  | generate _ h ih =>
    unfold Dict.generate at h
    split at h
    · cases h
    · rename_i h1
      cases h
      exact key (e := _) (key ih (Grows.same (e := Dict.incflag _ true) rfl rfl rfl)) ((generateLoop_grows _ _ h1).trans
        (Grows.same rfl rfl rfl))
  | load _ h ih =>
    unfold Dict.load at h
    split at h
    · cases h
    · exact key ih (loadLoop_grows _ h)

theorem dictReach_inv {size : Nat} {d : Dict} (h5 : 5 ≤ size) (h : DictReach size d) : DictInv d := by
  induction h with
  | new f => exact new_dict_inv f h5
  | encode _ h ih => exact encodeLoop_inv 2 ih h
  | incflag v _ ih => exact ih.of_words rfl rfl rfl rfl rfl
  | oovcode v _ ih => exact ih.of_words rfl rfl rfl rfl rfl
  | incfreq _ h ih => exact incfreq_inv ih h
  | freq _ h ih => exact setFreq_inv ih h
  | @generate d is text e _ h ih =>
    unfold Dict.generate at h
    split at h
    · cases h
    · rename_i h1
      cases h
      have h0 : DictInv (d.incflag true) := ih.of_words rfl rfl rfl rfl rfl
      exact (generateLoop_inv _ _ h0 h1).of_words rfl rfl rfl rfl rfl
  | load _ h ih =>
    unfold Dict.load at h
    split at h
    · cases h
    · exact loadLoop_inv _ ih h

/-! ## The order of sorted copies -/

theorem strcmp_le : ∀ {a b : Str}, strcmp a b ≤ 0 → a ≤ b
  | [], b, _ => List.nil_le _
  | _ :: _, [], h => by simp [strcmp] at h
  | x :: a, y :: b, h => by
    rw [strcmp] at h
    split at h
    · rename_i he
      subst he
      rw [List.cons_le_cons_iff]
      exact Or.inr ⟨rfl, strcmp_le h⟩
    · rename_i he
      rw [List.cons_le_cons_iff]
      left
      rw [UInt8.lt_iff_toNat_lt]
      have : x.toNat ≠ y.toNat := fun h => he (UInt8.toNat_inj.1 h)
      omega

theorem toInt32_small {x : Int} (h1 : - 2 ^ 31 ≤ x) (h2 : x < 2 ^ 31) : toInt32 x = x := by
  unfold toInt32
  rw [Int.emod_eq_of_lt (by omega) (by omega)]; omega

theorem cmpdictentry_le {a b : Entry} (h1 : - 2 ^ 31 ≤ b.freq - a.freq) (h2 : b.freq - a.freq < 2 ^ 31)
    (h : cmpdictentry a b ≤ 0) : b.freq < a.freq ∨ (b.freq = a.freq ∧ a.word ≤ b.word) := by
  unfold cmpdictentry at h
  split at h
  · rw [toInt32_small h1 h2] at h; left; omega
  · exact Or.inr ⟨by omega, strcmp_le h⟩

end Verif.Irstlm
