import Verif.Numconv.Card

/-!
# Writing numbers in words: the feminine, and reading back
-/

namespace Verif.Numconv

open Spec

/-- The last word of a text, whatever it ends with. -/
theorem last_word (x : Str) : ∃ x0 y A, x = x0 ++ y ∧ 32 ∉ y ∧
    ∀ z, z ≠ [] → 32 ∉ z → words (x ++ z) = A ++ [y ++ z] := by
  induction x using List.reverseRecOn with
  | nil => exact ⟨[], [], [], rfl, by simp, fun z h1 h2 => by simp [words_one h1 h2]⟩
  | append_singleton x b ih =>
    by_cases hb : b = 32
    · subst hb
      refine ⟨x ++ [32], [], x.splitOn 32, by simp, by simp, fun z h1 h2 => ?_⟩
      have : x ++ [32] ++ z = x ++ 32 :: z := by simp
      rw [this]
      simp [words, List.splitOn_append_cons_self, List.splitOn_eq_singleton h2]
    · obtain ⟨x0, y, A, h1, h2, h3⟩ := ih
      refine ⟨x0, y ++ [b], A, by simp [h1], by simp [h2, Ne.symm hb], fun z h4 h5 => ?_⟩
      have := h3 (b :: z) (by simp) (by simp [h5, Ne.symm hb])
      simpa using this

/-- A text ends with its last word. -/
theorem last_suffix {t w : Str} (h : (words t).getLast? = some w) : ∃ x, t = x ++ w := by
  induction t using List.reverseRecOn with
  | nil => simp [words] at h
  | append_singleton t b _ =>
    by_cases hb : b = 32
    · subst hb
      have : words (t ++ [32]) = t.splitOn 32 ++ [[]] := by
        simp [words, List.splitOn_append_cons_self]
      rw [this] at h
      simp at h
      exact ⟨t ++ [32], by simp [← h]⟩
    · obtain ⟨x0, y, A, h1, h2, h3⟩ := last_word t
      rw [h3 [b] (by simp) (by simp [Ne.symm hb])] at h
      simp at h
      exact ⟨x0, by simp [h1, ← h]⟩

theorem small_dwa : ∀ e ∈ small .nominative, 3 ≤ e.1.length →
    e.1.drop (e.1.length - 3) = b!"dwa" → e.1 = b!"dwa" := by
  decide +kernel

theorem power_not_dwa (a : Agreement) {r : Nat} (hr : 0 < r) (h : r < 220) (y : Str) :
    power .nominative a r ≠ y ++ b!"dwa" := by
  simpa using power_dwa a hr h [] y

theorem lookup_mem {l : List (Str × Nat)} {w : Str} {v : Nat} (h : l.lookup w = some v) :
    (w, v) ∈ l := by
  induction l with
  | nil => simp at h
  | cons e l ih =>
    obtain ⟨a, b⟩ := e
    rw [List.lookup_cons] at h
    split at h <;> rename_i hh
    · simp at hh h
      simp [hh, h]
    · exact List.mem_cons_of_mem _ (ih h)

/-- Of the words which can be read, only one ends like the masculine two. -/
theorem read_dwa {s s' : Nat × Nat} {w y : Str} (h : readWord .nominative s w = some s')
    (hw : w = y ++ b!"dwa") : y = [] := by
  unfold readWord at h
  split at h <;> rename_i hl
  · have hm := lookup_mem hl
    have := small_dwa _ hm (by simp [hw]) (by simp [hw])
    simp only [hw] at this
    have hlen := congrArg List.length this
    simp at hlen
    exact hlen
  · simp only at h
    split at h <;> rename_i hf
    · rename_i r
      have hp := List.find?_some hf
      have hm := List.mem_of_find?_eq_some hf
      simp at hp hm
      exact absurd (hp.2.trans hw) (power_not_dwa _ (by omega) hm y)
    · simp at h

/-- The form for a kind of numeral. -/
def kindForm : Kind → Form
  | .masculine => .CARDINAL
  | .feminine => .CARDINAL_F
  | .genitive => .CARDINAL_G
  | .genitiveFeminine => .CARDINAL_FG

theorem read_zero : read .masculine (words b!"zero") = some 0 ∧
    read .feminine (words b!"zero") = some 0 ∧ read .genitive (words b!"zera") = some 0 ∧
    read .genitiveFeminine (words b!"zera") = some 0 := by
  decide +kernel

theorem read_jeden : read .masculine (words b!"jeden") = some 1 ∧
    read .feminine (words b!"jedna") = some 1 ∧ read .genitive (words b!"jednego") = some 1 ∧
    read .genitiveFeminine (words b!"jednej") = some 1 := by
  decide +kernel

theorem unread : readWords .nominative [b!"zero"] = none ∧
    readWords .nominative [b!"jedna"] = none ∧ readWords .nominative [b!"jeden"] = some 1 ∧
    readWords .nominative [b!"dwie"] = none ∧
    readWords .genitive [b!"zera"] = none ∧ readWords .genitive [b!"jednego"] = none ∧
    readWords .genitive [b!"jeden"] = some 1 ∧ readWords .genitive [b!"jednej"] = none := by
  decide +kernel

theorem unread_dwie : ∀ s : Nat × Nat, readWord .nominative s b!"dwie" = none := by
  have h1 : (small .nominative).lookup b!"dwie" = none := by decide +kernel
  have h2 : ∀ a : Fin 3, ∀ r : Fin 220, r.val ≠ 0 →
    (power .nominative (if a = 0 then .one else if a = 1 then .few else .many) r) ≠ b!"dwie" := by
    decide +kernel
  intro s
  unfold readWord
  rw [h1]
  simp only
  have : (List.range 220).find? (fun r => r ≠ 0 &&
      power .nominative (agreement (if s.2 = 0 then 1 else s.2)) r = b!"dwie") = none := by
    rw [List.find?_eq_none]
    intro r hr
    simp at hr
    by_cases hr0 : r = 0
    · simp [hr0]
    · simp only [ne_eq, hr0, not_false_eq_true, decide_true, Bool.true_and, decide_eq_true_eq]
      generalize agreement (if s.2 = 0 then 1 else s.2) = a
      have := h2 (match a with | .one => 0 | .few => 1 | .many => 2) ⟨r, hr⟩ hr0
      cases a <;> exact this
  rw [this]

/-- The feminine of a number which has been read. -/
theorem feminine_read {p : Pair} {v : Nat} (hne : p.1 ≠ []) (h1 : v ≠ 1)
    (h : readWords .nominative (words p.1) = some v) :
    read .feminine (words (feminine p).1) = some v := by
  -- the last word has been read
  have hlast : ∀ A w, words p.1 = A ++ [w] → ∀ y, w = y ++ b!"dwa" → y = [] := by
    intro A w hw y hy
    unfold readWords at h
    rw [hw, List.foldlM_append] at h
    cases hA : A.foldlM (readWord .nominative) (0, 0) with
    | none => simp [hA] at h
    | some s =>
      cases hs : readWord .nominative s w with
      | none => simp [hA, hs] at h
      | some s' => exact read_dwa hs hy
  have hdwie : (words p.1).getLast? ≠ some b!"dwie" := by
    intro hl
    obtain ⟨A, hA⟩ := List.getLast?_eq_some_iff.mp hl
    unfold readWords at h
    rw [hA, List.foldlM_append] at h
    cases hA' : A.foldlM (readWord .nominative) (0, 0) with
    | none => simp [hA'] at h
    | some s => simp [hA', unread_dwie] at h
  unfold feminine
  by_cases hd : 3 ≤ p.1.length ∧ p.1.drop (p.1.length - 3) = b!"dwa"
  · rw [if_pos hd]
    have ht : p.1 = p.1.take (p.1.length - 3) ++ b!"dwa" := by
      conv_lhs => rw [← List.take_append_drop (p.1.length - 3) p.1, hd.2]
    generalize p.1.take (p.1.length - 3) = x at ht
    obtain ⟨x0, y, A, e1, e2, e3⟩ := last_word x
    have w1 := e3 b!"dwa" (by simp) (by decide)
    have w2 := e3 b!"dwie" (by simp) (by decide)
    rw [← ht] at w1
    have hy := hlast A _ w1 y rfl
    subst hy
    simp only [List.nil_append] at w1 w2
    show read .feminine (words (x ++ b!"dwie")) = some v
    rw [w2]
    unfold Spec.read
    have n1 : A ++ [b!"dwie"] ≠ [b!"jeden"] := by
      intro he; have := congrArg List.getLast? he; simp at this
    have n2 : A ++ [b!"dwie"] ≠ [b!"zero"] := by
      intro he; have := congrArg List.getLast? he; simp at this
    have n3 : A ++ [b!"dwie"] ≠ [b!"jedna"] := by
      intro he; have := congrArg List.getLast? he; simp at this
    have n4 : (A ++ [b!"dwie"]).getLast? ≠ some b!"dwa" := by simp
    have n5 : (A ++ [b!"dwie"]).getLast? = some b!"dwie" := by simp
    have n6 : A ++ [b!"dwie"] ≠ [] := by simp
    simp only [n1, n2, n3, n4, n5, n6, or_self, if_false, if_true, List.dropLast_concat]
    rw [← w1]
    exact h
  · rw [if_neg hd]
    have n4 : (words p.1).getLast? ≠ some b!"dwa" := by
      intro hl
      obtain ⟨x, hx⟩ := last_suffix hl
      apply hd
      rw [hx]
      simp
    have n6 : words p.1 ≠ [] := by
      simp [words, hne, List.splitOn_ne_nil]
    have n1 : words p.1 ≠ [b!"jeden"] := by
      intro he
      rw [he, unread.2.2.1] at h
      simp at h
      exact h1 h.symm
    have n2 : words p.1 ≠ [b!"zero"] := by
      intro he
      rw [he, unread.1] at h
      simp at h
    have n3 : words p.1 ≠ [b!"jedna"] := by
      intro he
      rw [he, unread.2.1] at h
      simp at h
    unfold Spec.read
    simp only [n1, n2, n3, n4, n6, hdwie, or_self, if_false]
    exact h

theorem zero_codes (k : Kind) : Codes (zero (kindForm k)) := by
  cases k <;> exact ⟨by decide, by decide +kernel⟩

theorem jeden_codes (k : Kind) : Codes (jeden (kindForm k)) := by
  cases k <;> exact ⟨by decide, by decide +kernel⟩

/-- The feminine has as many codes as words. -/
theorem feminine_codes {p : Pair} (hc : Codes p) (hdwa : Dwa p) : Codes (feminine p) := by
  unfold feminine
  split
  · rename_i hd
    have ht : p.1 = p.1.take (p.1.length - 3) ++ b!"dwa" := by
      conv_lhs => rw [← List.take_append_drop (p.1.length - 3) p.1, hd.2]
    obtain ⟨y, hy⟩ := hdwa _ ht
    have hlen : ¬ p.2.length < 4 := by rw [hy]; simp
    have htake : p.2.take (p.2.length - 4) = y := by rw [hy]; simp
    rw [if_neg hlen, htake]
    generalize p.1.take (p.1.length - 3) = x at ht
    obtain ⟨_, a, A, _, _, e3⟩ := last_word x
    obtain ⟨_, b, B, _, _, f3⟩ := last_word y
    have w1 := e3 b!"dwa" (by simp) (by decide)
    have w2 := e3 b!"dwie" (by simp) (by decide)
    have v1 := f3 b!"LG:z" (by simp) (by decide)
    have v2 := f3 b!"dwa_LG:z" (by simp) (by decide)
    rw [← ht] at w1
    rw [← hy] at v1
    have hlc := hc.2
    rw [w1, v1] at hlc
    refine ⟨?_, ?_⟩
    · have hg := hc.1
      rw [hy] at hg
      cases y with
      | nil => simp [Good]
      | cons z y => simpa [Good] using hg
    · simp only at *
      rw [w2, v2]
      simpa using hlc
  · exact hc

/-- What the loop writes for a whole number. -/
theorem loop_read (c : Case) {n : Str} (h : Digits n) (hv : value n < 10 ^ 660)
    (h0 : value n ≠ 0) :
    ∃ p, integerLoop n.length (caseForm c) 0 n (b!"", b!"") = some p ∧ p.1 ≠ [] ∧
      readWords c (words p.1) = some (value n) ∧ Codes p ∧ (c = .nominative → Dwa p) := by
  have hb : value n * 1000 ^ 0 < 1000 ^ 220 := by
    rw [show (1000 : Nat) ^ 220 = 10 ^ 660 from (Nat.pow_mul 10 3 220).symm]
    simpa using hv
  obtain ⟨p, W, hp, _, hw, hr, hcd⟩ := loop_card c n.length 0 n b!"" b!"" h le_rfl
    (fun _ => .inr h0) hb (by simp [Good])
  rw [words_nil, List.append_nil] at hw
  have hread : readWords c (words p.1) = some (value n) := by
    unfold readWords
    rw [hw, hr]
    simp
    omega
  obtain ⟨f1, f2⟩ := hcd ⟨by simp [Good], rfl⟩
  refine ⟨p, hp, ?_, hread, f1, fun hn => f2 hn fun x hx => by simp at hx⟩
  intro he
  rw [he, words_nil] at hread
  simp [readWords] at hread
  omega

/-- A number in words is read back. -/
theorem integer_read (k : Kind) {n : Str} (h : Digits n) (hv : value n < 10 ^ 660) :
    ∃ p, integer2pltext (kindForm k) n = some p ∧ read k (words p.1) = some (value n) ∧
      Codes p := by
  rw [integer_eq _ h]
  by_cases h0 : value n = 0
  · refine ⟨zero (kindForm k), by simp [h0], ?_, zero_codes k⟩
    rw [h0]
    cases k
    · exact read_zero.1
    · exact read_zero.2.1
    · exact read_zero.2.2.1
    · exact read_zero.2.2.2
  · by_cases h1 : value n = 1
    · refine ⟨jeden (kindForm k), by simp [h1], ?_, jeden_codes k⟩
      rw [h1]
      cases k
      · exact read_jeden.1
      · exact read_jeden.2.1
      · exact read_jeden.2.2.1
      · exact read_jeden.2.2.2
    · simp only [h0, h1, if_false]
      cases k
      · obtain ⟨p, hp, hne, hr, hc, hd⟩ := loop_read .nominative h hv h0
        have hne' : words p.1 ≠ [] := by simp [words, hne, List.splitOn_ne_nil]
        have n2 : words p.1 ≠ [b!"zero"] := by
          intro he
          rw [he, unread.1] at hr
          simp at hr
        refine ⟨p, ?_, ?_, hc⟩
        · simp only [kindForm, firstForm]
          simp only [caseForm] at hp
          rw [hp]
          rfl
        · unfold Spec.read
          simp only [hne', n2, if_false]
          exact hr
      · obtain ⟨p, hp, hne, hr, hc, hd⟩ := loop_read .nominative h hv h0
        refine ⟨feminine p, ?_, feminine_read hne h1 hr, feminine_codes hc (hd rfl)⟩
        simp only [kindForm, firstForm]
        simp only [caseForm] at hp
        rw [hp]
        rfl
      · obtain ⟨p, hp, hne, hr, hc, hd⟩ := loop_read .genitive h hv h0
        have n6 : words p.1 ≠ [] := by simp [words, hne, List.splitOn_ne_nil]
        have n1 : words p.1 ≠ [b!"jeden"] := by
          intro he
          rw [he, unread.2.2.2.2.2.2.1] at hr
          simp at hr
          exact h1 hr.symm
        have n2 : words p.1 ≠ [b!"zera"] := by
          intro he
          rw [he, unread.2.2.2.2.1] at hr
          simp at hr
        have n3 : words p.1 ≠ [b!"jednego"] := by
          intro he
          rw [he, unread.2.2.2.2.2.1] at hr
          simp at hr
        refine ⟨p, ?_, ?_, hc⟩
        · simp only [kindForm, firstForm]
          simp only [caseForm] at hp
          rw [hp]
          rfl
        · unfold Spec.read
          simp only [n1, n2, n3, n6, or_self, if_false]
          exact hr
      · obtain ⟨p, hp, hne, hr, hc, hd⟩ := loop_read .genitive h hv h0
        have n6 : words p.1 ≠ [] := by simp [words, hne, List.splitOn_ne_nil]
        have n1 : words p.1 ≠ [b!"jeden"] := by
          intro he
          rw [he, unread.2.2.2.2.2.2.1] at hr
          simp at hr
          exact h1 hr.symm
        have n2 : words p.1 ≠ [b!"zera"] := by
          intro he
          rw [he, unread.2.2.2.2.1] at hr
          simp at hr
        have n3 : words p.1 ≠ [b!"jednej"] := by
          intro he
          rw [he, unread.2.2.2.2.2.2.2] at hr
          simp at hr
        refine ⟨p, ?_, ?_, hc⟩
        · simp only [kindForm, firstForm]
          simp only [caseForm] at hp
          rw [hp]
          rfl
        · unfold Spec.read
          simp only [n1, n2, n3, n6, or_self, if_false]
          exact hr

end Verif.Numconv
