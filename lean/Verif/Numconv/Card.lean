import Verif.Numconv.Lemmas

/-!
# Writing numbers in words: the cardinal numbers
-/

namespace Verif.Numconv

open Spec

/-- The government of a number. -/
def gov (g : Nat) : Government :=
  if g = 0 then .ZERO
  else match agreement g with
    | .one => .JEDEN
    | .few => .DWA
    | .many => .PIEC

theorem government3 : ∀ h t u : Fin 10,
    selectGovernment [dig h, dig t, dig u] = some (gov (100 * h + 10 * t + u)) := by
  decide +kernel

theorem government2 : ∀ t u : Fin 10,
    selectGovernment [dig t, dig u] = some (gov (10 * t + u)) := by
  decide +kernel

theorem government1 : ∀ u : Fin 10, selectGovernment [dig u] = some (gov u) := by
  decide +kernel

theorem government_eq {n : Str} (h : Digits n) (hl : n.length ≤ 3) :
    selectGovernment n = some (gov (value n)) := by
  rcases group_cases h hl with ⟨u, rfl⟩ | ⟨t, u, rfl⟩ | ⟨a, t, u, rfl⟩
  · rw [value1, government1]
  · rw [value2, government2]
  · rw [value3, government3]

theorem agreement_one {g : Nat} : agreement g = .one ↔ g = 1 := by
  unfold agreement
  split
  · simp_all
  · split <;> simp_all

theorem words_ne_nil {t : Str} (h : words t ≠ []) : t ≠ [] := by
  rintro rfl; exact h rfl

theorem good_power (c : Case) (a : Agreement) {r : Nat} (hr : 0 < r) (h : r < 220) :
    Good (power c a r) := by
  obtain ⟨_, h1, _⟩ := power_ok c a hr h
  intro he
  exact h1 (List.mem_of_mem_head? he)

theorem good_append {a b : Str} (ha : a ≠ []) (h : Good a) : Good (a ++ b) := by
  cases a with
  | nil => exact absurd rfl ha
  | cons x a => simpa [Good] using h

theorem codes_one {a b : Str} (ha : a ≠ []) (hb : b ≠ []) (h1 : 32 ∉ a) (h2 : 32 ∉ b) :
    Codes (a, b) := by
  refine ⟨fun he => h2 (List.mem_of_mem_head? he), ?_⟩
  simp [words_one ha h1, words_one hb h2]

theorem codes_join {p : Pair} {a b : Str} (hp : p.1 ≠ []) (hc : Codes p) (ha : a ≠ [])
    (hb : b ≠ []) (h1 : 32 ∉ a) (h2 : 32 ∉ b) : Codes (p.1 ++ 32 :: a, p.2 ++ 32 :: b) := by
  have hp2 : p.2 ≠ [] := by
    intro he
    have := hc.2
    rw [he, words_nil] at this
    exact hp (words_eq_nil.mp (List.length_eq_zero_iff.mp this.symm))
  refine ⟨good_append hp2 hc.1, ?_⟩
  simp [words_join hp ha, words_join hp2 hb, words_one ha h1, words_one hb h2, hc.2]

theorem power_last : ∀ a : Fin 3, ∀ r : Fin 220, r.val ≠ 0 →
    (power .nominative (if a = 0 then .one else if a = 1 then .few else .many) r).getLast?
      ≠ some 97 := by
  decide +kernel

theorem power_dwa (a : Agreement) {r : Nat} (hr : 0 < r) (h : r < 220) (x y : Str) :
    x ++ power .nominative a r ≠ y ++ b!"dwa" := by
  have := power_last (match a with | .one => 0 | .few => 1 | .many => 2) ⟨r, h⟩ (by simp; omega)
  intro he
  have h1 : (power .nominative a r).getLast? ≠ some 97 := by
    cases a <;> exact this
  have hne := (power_ok .nominative a hr h).1
  have := congrArg List.getLast? he
  rw [List.getLast?_append] at this
  cases hl : (power .nominative a r).getLast? with
  | none => exact hne (List.getLast?_eq_none_iff.mp hl)
  | some z =>
    rw [hl] at this h1
    simp at this
    exact h1 (by rw [this])

/-- What a group followed by a power makes. -/
theorem read_group_power (c : Case) {te : Str} {g r T : Nat} (hne : te ≠ [])
    (hrd : (words te).foldlM (readSmall c) 0 = some g) (hr : 0 < r) (h : r < 220) (hg0 : g ≠ 0)
    (hg : g ≠ 1) (hT : T % 1000 ^ (r + 1) = 0) :
    (words (te ++ 32 :: power c (agreement g) r)).foldlM (readWord c) (T, 0)
      = some (T + g * 1000 ^ r, 0) := by
  obtain ⟨h1, h2, _⟩ := power_ok c (agreement g) hr h
  rw [words_join hne h1, words_one h1 h2, List.foldlM_append, readSmall_words hrd]
  have := read_power c hr h hg hT
  simp only [hg0, if_false] at this
  simp [this]

/-- What a power alone makes. -/
theorem read_one_power (c : Case) {r T : Nat} (hr : 0 < r) (h : r < 220)
    (hT : T % 1000 ^ (r + 1) = 0) :
    (words (power c .one r)).foldlM (readWord c) (T, 0) = some (T + 1 * 1000 ^ r, 0) := by
  obtain ⟨h1, h2, _⟩ := power_ok c .one hr h
  rw [words_one h1 h2]
  have := read_power c (g := 0) hr h (by simp) hT
  have ha : agreement 1 = .one := agreement_one.mpr rfl
  simp only [if_true, ha] at this
  simp [this]

/-- A part with groups after it. -/
theorem part_ok (c : Case) {n : Str} (h : Digits n) (hl : n.length ≤ 3) {r : Nat} (hr : 0 < r)
    (hv : value n ≠ 0 → r < 220) :
    ∃ p, convertPart (caseForm c) n r = some p ∧ Good p.1 ∧
      (Codes p ∧ (c = .nominative → Dwa p)) ∧
      ∀ T, T % 1000 ^ (r + 1) = 0 →
        (words p.1).foldlM (readWord c) (T, 0) = some (T + value n * 1000 ^ r, 0) := by
  have hgov := government_eq h hl
  have hr0 : r ≠ 0 := by omega
  by_cases h0 : value n = 0
  · obtain ⟨q, hq⟩ := group_some c h hl
    have hg : gov (value n) = .ZERO := by simp [gov, h0]
    refine ⟨([], []), ?_, by simp [Good],
      ⟨⟨by simp [Good], rfl⟩, fun _ x hx => by simp at hx⟩, fun T _ => by simp [h0, words_nil]⟩
    cases c
    · simp only [caseForm] at hq
      simp [convertPart, hr0, caseForm, convertCardinalPart, hq, hgov, hg]
    · simp only [caseForm] at hq
      simp [convertPart, hr0, caseForm, convertNoncardinalPart, highType, hq, hgov, hg]
  · have hlt := hv h0
    obtain ⟨q, hq, hgood, hrd, hcod, _⟩ := group_ok c h hl fun _ => h0
    have pw := fun (c : Case) (a : Agreement) => power_ok c a hr hlt
    have pwt : ∀ t : Str, 32 ∉ t → 32 ∉ power .nominative .one r ++ t := by
      intro t ht
      simp [ht, (pw .nominative .one).2.1]
    have hne : q.1 ≠ [] := by
      intro he
      rw [he, words_nil] at hrd
      simp at hrd
      omega
    by_cases h1 : value n = 1
    · have hg : gov (value n) = .JEDEN := by simp [gov, h1, agreement_one.mpr]
      cases c
      · simp only [caseForm] at hq
        refine ⟨(power .nominative .one r, b!"R:3"), ?_, good_power .nominative .one hr hlt,
          ⟨codes_one (pw _ _).1 (by simp) (pw _ _).2.1 (by decide),
            fun _ x hx => absurd hx (by simpa using power_dwa .one hr hlt [] x)⟩, fun T hT => ?_⟩
        · simp [convertPart, hr0, caseForm, convertCardinalPart, hq, hgov, hg,
            large_one hr hlt]
        · rw [h1]; exact read_one_power _ hr hlt hT
      · simp only [caseForm] at hq
        refine ⟨(power .genitive .one r, b!"0"), ?_, good_power .genitive .one hr hlt,
          ⟨codes_one (pw _ _).1 (by simp) (pw _ _).2.1 (by decide), by simp⟩, fun T hT => ?_⟩
        · simp [convertPart, hr0, caseForm, convertNoncardinalPart, highType, hq, hgov, hg,
            large_oneG hr hlt]
        · rw [h1]; exact read_one_power _ hr hlt hT
    · have ha1 : agreement (value n) ≠ .one := fun h => h1 (agreement_one.mp h)
      have key := fun T hT => read_group_power c (T := T) hne hrd hr hlt h0 h1 hT
      cases c
      · simp only [caseForm] at hq
        cases ha : agreement (value n) with
        | one => exact absurd ha ha1
        | few =>
          have hg : gov (value n) = .DWA := by simp [gov, h0, ha]
          rw [ha] at key
          refine ⟨(q.1 ++ 32 :: power .nominative .few r,
            q.2 ++ 32 :: (power .nominative .one r ++ b!"_R:3")), ?_, good_append hne hgood,
            ⟨codes_join hne hcod (pw _ _).1 (by simp) (pw _ _).2.1 (pwt _ (by decide)),
              fun _ x hx => absurd hx
                (by rw [List.append_cons]; exact power_dwa .few hr hlt (q.1 ++ [32]) x)⟩, key⟩
          simp [convertPart, hr0, caseForm, convertCardinalPart, hq, hgov, hg, large_few hr hlt]
        | many =>
          have hg : gov (value n) = .PIEC := by simp [gov, h0, ha]
          rw [ha] at key
          refine ⟨(q.1 ++ 32 :: power .nominative .many r,
            q.2 ++ 32 :: (power .nominative .one r ++ b!"_R:3")), ?_, good_append hne hgood,
            ⟨codes_join hne hcod (pw _ _).1 (by simp) (pw _ _).2.1 (pwt _ (by decide)),
              fun _ x hx => absurd hx
                (by rw [List.append_cons]; exact power_dwa .many hr hlt (q.1 ++ [32]) x)⟩, key⟩
          simp [convertPart, hr0, caseForm, convertCardinalPart, hq, hgov, hg, large_many hr hlt]
      · simp only [caseForm] at hq
        rw [power_gen _ ha1] at key
        have hg : gov (value n) = .DWA ∨ gov (value n) = .PIEC := by
          unfold gov
          cases ha : agreement (value n) <;> simp_all
        refine ⟨(q.1 ++ 32 :: power .nominative .many r, q.2 ++ b!" 0"), ?_,
          good_append hne hgood,
          ⟨codes_join (b := b!"0") hne hcod (pw _ _).1 (by simp) (pw _ _).2.1 (by decide),
            by simp⟩, key⟩
        rcases hg with hg | hg <;>
        simp [convertPart, hr0, caseForm, convertNoncardinalPart, highType, hq, hgov, hg,
          large_many hr hlt]

/-- The last part. -/
theorem part_zero (c : Case) {n : Str} (h : Digits n) (hl : n.length ≤ 3)
    (h0 : n.length = 1 → value n ≠ 0) :
    ∃ p, convertPart (caseForm c) n 0 = some p ∧ Good p.1 ∧
      (Codes p ∧ (c = .nominative → Dwa p)) ∧
      ∀ T, (words p.1).foldlM (readWord c) (T, 0) = some (T, value n) := by
  obtain ⟨p, hp, hg, hr, hc⟩ := group_ok c h hl h0
  refine ⟨p, by simpa [convertPart] using hp, hg, hc, fun T => ?_⟩
  exact readSmall_words hr T

theorem higherUnits_case (c : Case) : higherUnits (caseForm c) = caseForm c := by
  cases c <;> rfl

theorem take_digits {n : Str} (h : Digits n) {k : Nat} (hk : 0 < k) (hl : k ≤ n.length) :
    Digits (n.take k) := by
  refine ⟨?_, fun c hc => h.2 c (List.mem_of_mem_take hc)⟩
  intro he
  have := congrArg List.length he
  rw [List.length_take, List.length_nil] at this
  omega

theorem drop_digits {n : Str} (h : Digits n) {k : Nat} (hl : k < n.length) :
    Digits (n.drop k) := by
  refine ⟨?_, fun c hc => h.2 c (List.mem_of_mem_drop hc)⟩
  intro he
  have := congrArg List.length he
  simp at this
  omega

/-- The last three digits apart. -/
theorem value_cut {n : Str} (hl : 3 < n.length) :
    value n = value (n.take (n.length - 3)) * 1000 + value (n.drop (n.length - 3)) := by
  conv_lhs => rw [← List.take_append_drop (n.length - 3) n]
  rw [value_append]
  have : (n.drop (n.length - 3)).length = 3 := by simp; omega
  rw [this]
  rfl

theorem rank_lt {a r : Nat} (h0 : a ≠ 0) (h : a * 1000 ^ r < 1000 ^ 220) : r < 220 := by
  have h1 : 1000 ^ r ≤ a * 1000 ^ r := Nat.le_mul_of_pos_left _ (by omega)
  exact (Nat.pow_lt_pow_iff_right (by omega : 1 < 1000)).mp (lt_of_le_of_lt h1 h)

/-- The loop writes what is left before what has been written. -/
theorem loop_card (c : Case) : ∀ fuel rank rest te ti, Digits rest → rest.length ≤ fuel →
    (rank = 0 → 3 < rest.length ∨ value rest ≠ 0) → value rest * 1000 ^ rank < 1000 ^ 220 →
    Good te →
    ∃ p W, integerLoop fuel (caseForm c) rank rest (te, ti) = some p ∧ Good p.1 ∧
      words p.1 = W ++ words te ∧
      W.foldlM (readWord c) (0, 0)
        = some (if rank = 0 then (value rest / 1000 * 1000, value rest % 1000)
            else (value rest * 1000 ^ rank, 0)) ∧
      (Codes (te, ti) → Codes p ∧ (c = .nominative → Dwa (te, ti) → Dwa p)) := by
  intro fuel
  induction fuel with
  | zero =>
    intro rank rest te ti h hl
    have := h.1
    simp at hl
    exact absurd hl this
  | succ fuel ih =>
    intro rank rest te ti h hl h0 hv hte
    unfold integerLoop
    by_cases hlen : 3 < rest.length
    · have hcut := value_cut hlen
      set front := rest.take (rest.length - 3) with hfront
      set sub := rest.drop (rest.length - 3) with hsub
      have hdf : Digits front := take_digits h (by omega) (by omega)
      have hds : Digits sub := drop_digits h (by omega)
      have hls : sub.length = 3 := by simp [hsub]; omega
      have hlf : front.length ≤ fuel := by simp [hfront]; omega
      have hsv : value sub < 1000 := by
        have := value_lt sub hds.2
        rw [hls] at this
        exact this
      have hfv : value front * 1000 ^ (rank + 1) < 1000 ^ 220 := by
        refine lt_of_le_of_lt ?_ hv
        rw [Nat.pow_succ, hcut, Nat.add_mul]
        have : value front * (1000 ^ rank * 1000) = value front * 1000 * 1000 ^ rank := by ring
        omega
      simp only [hlen, if_true]
      by_cases hr : rank = 0
      · subst hr
        obtain ⟨p, hp, hgood, hcd, hrd⟩ := part_zero c hds (by omega) (by omega)
        obtain ⟨te', hte', hw, hg'⟩ := prepend_words hte hgood
        obtain ⟨ti', hti'⟩ := prepend_some ti p.2
        obtain ⟨q, W, hq, hgq, hwq, hrq, hcq⟩ := ih 1 front te' ti' hdf hlf (by simp) hfv hg'
        refine ⟨q, W ++ words p.1, ?_, hgq, by rw [hwq, hw, List.append_assoc], ?_,
          fun hc => ?_⟩
        · simp only [hp, higherUnits_case, ite_self, hte', hti', Option.bind_eq_bind,
            Option.bind_some]
          exact hq
        · rw [List.foldlM_append, hrq]
          simp only [if_true, Nat.one_ne_zero, if_false, Option.bind_eq_bind, Option.bind_some]
          rw [hrd]
          have e1 : value rest / 1000 = value front := by omega
          have e2 : value rest % 1000 = value sub := by omega
          rw [e1, e2, Nat.pow_one]
        · obtain ⟨f1, f2⟩ := hcq (prepend_codes hte hgood hte' hti' hc hcd.1)
          exact ⟨f1, fun hn hd => f2 hn (prepend_dwa hte hte' hti' hc hd (hcd.2 hn))⟩
      · have hrank : value sub ≠ 0 → rank < 220 := by
          intro hs
          refine rank_lt hs (lt_of_le_of_lt ?_ hv)
          exact Nat.mul_le_mul_right _ (by omega)
        obtain ⟨p, hp, hgood, hcd, hrd⟩ := part_ok c hds (by omega) (by omega) hrank
        obtain ⟨te', hte', hw, hg'⟩ := prepend_words hte hgood
        obtain ⟨ti', hti'⟩ := prepend_some ti p.2
        obtain ⟨q, W, hq, hgq, hwq, hrq, hcq⟩ := ih (rank + 1) front te' ti' hdf hlf (by simp) hfv hg'
        refine ⟨q, W ++ words p.1, ?_, hgq, by rw [hwq, hw, List.append_assoc], ?_,
          fun hc => ?_⟩
        · simp only [hp, higherUnits_case, ite_self, hte', hti', Option.bind_eq_bind,
            Option.bind_some]
          exact hq
        · rw [List.foldlM_append, hrq]
          simp only [Nat.succ_ne_zero, hr, if_false, Option.bind_eq_bind, Option.bind_some]
          rw [hrd _ (by simp), hcut, Nat.pow_succ]
          congr 2
          ring
        · obtain ⟨f1, f2⟩ := hcq (prepend_codes hte hgood hte' hti' hc hcd.1)
          exact ⟨f1, fun hn hd => f2 hn (prepend_dwa hte hte' hti' hc hd (hcd.2 hn))⟩
    · simp only [hlen, if_false]
      by_cases hr : rank = 0
      · subst hr
        have hne : value rest ≠ 0 := (h0 rfl).resolve_left hlen
        obtain ⟨p, hp, hgood, hcd, hrd⟩ := part_zero c h (by omega) fun _ => hne
        obtain ⟨te', hte', hw, hg'⟩ := prepend_words hte hgood
        obtain ⟨ti', hti'⟩ := prepend_some ti p.2
        refine ⟨(te', ti'), words p.1, by simp [hp, hte', hti'], hg', hw, ?_,
          fun hc => ⟨prepend_codes hte hgood hte' hti' hc hcd.1,
            fun hn hd => prepend_dwa hte hte' hti' hc hd (hcd.2 hn)⟩⟩
        rw [hrd]
        have hlt : value rest < 1000 :=
          lt_of_lt_of_le (value_lt rest h.2)
            (Nat.pow_le_pow_right (by omega : 0 < 10) (by omega : rest.length ≤ 3))
        simp only [if_true]
        congr 2 <;> omega
      · have hrank : value rest ≠ 0 → rank < 220 := fun hs => rank_lt hs hv
        obtain ⟨p, hp, hgood, hcd, hrd⟩ := part_ok c h (by omega) (by omega) hrank
        obtain ⟨te', hte', hw, hg'⟩ := prepend_words hte hgood
        obtain ⟨ti', hti'⟩ := prepend_some ti p.2
        refine ⟨(te', ti'), words p.1, by simp [hp, hte', hti'], hg', hw, ?_,
          fun hc => ⟨prepend_codes hte hgood hte' hti' hc hcd.1,
            fun hn hd => prepend_dwa hte hte' hti' hc hd (hcd.2 hn)⟩⟩
        rw [hrd _ (by simp)]
        simp [hr]

/-! ### Zero and one -/

theorem zeros_value {n : Str} (h : ∀ c ∈ n, 48 ≤ c.toNat ∧ c.toNat ≤ 57) :
    value n = 0 ↔ ∀ c ∈ n, c = 48 := by
  induction n using List.reverseRecOn with
  | nil => simp [value]
  | append_singleton n c ih =>
    have h1 := ih fun c hc => h c (by simp [hc])
    have h2 := h c (by simp)
    have h3 : value [c] = c.toNat - 48 := by simp [value]
    have h4 : c = 48 ↔ c.toNat = 48 := by
      rw [← UInt8.toNat_inj]; rfl
    rw [value_append, h3]
    simp only [List.mem_append, List.mem_singleton]
    constructor
    · intro hv x hx
      rcases hx with hx | rfl
      · exact h1.mp (by simpa using (by simp at hv; omega)) x hx
      · rw [h4]; simp at hv; omega
    · intro hx
      have := h1.mpr fun x hx' => hx x (.inl hx')
      have := h4.mp (hx c (.inr rfl))
      simp; omega

theorem equals_eq {n : Str} (h : Digits n) (d : Fin 10) :
    equals n (dig d) = some (decide (value n = d)) := by
  obtain ⟨hne, hd⟩ := h
  induction n using List.reverseRecOn with
  | nil => exact absurd rfl hne
  | append_singleton n c _ =>
    have h2 := hd c (by simp)
    have h3 : value [c] = c.toNat - 48 := by simp [value]
    have h5 := zeros_value (n := n) fun c hc => hd c (by simp [hc])
    have h4 : c = dig d ↔ c.toNat - 48 = d := by
      rw [← UInt8.toNat_inj, dig_toNat]; omega
    unfold equals
    simp only [List.reverse_append, List.reverse_singleton, List.singleton_append]
    rw [value_append, h3]
    simp only [List.length_singleton, Nat.pow_one, Option.some.injEq]
    have hlt := d.isLt
    by_cases hc : c = dig d
    · have := h4.mp hc
      simp only [hc, ne_eq, not_true, if_false]
      rw [List.all_reverse]
      by_cases hz : value n = 0
      · have hall : n.all (fun x => decide (x = 48)) = true := by
          simpa using h5.mp hz
        rw [hall]
        symm
        rw [dig_toNat]
        simp; omega
      · have hall : n.all (fun x => decide (x = 48)) = false := by
          rw [Bool.eq_false_iff]
          intro hh
          exact hz (h5.mpr (by simpa using hh))
        rw [hall]
        symm
        rw [dig_toNat]
        simp; omega
    · simp only [ne_eq, hc, not_false_eq_true, if_true]
      symm
      rw [decide_eq_false_iff_not]
      intro hh
      exact hc (h4.mpr (by omega))

theorem digits_any {n : Str} (h : Digits n) : n.any (fun c => !isDigit c) = false := by
  rw [Bool.eq_false_iff]
  intro hh
  obtain ⟨c, hc, hn⟩ := List.any_eq_true.mp hh
  have := h.2 c hc
  simp [isDigit] at hn
  omega

/-- How an integer of digits is written. -/
theorem integer_eq (type : Form) {n : Str} (h : Digits n) :
    integer2pltext type n =
      if value n = 0 then some (zero type)
      else if value n = 1 then some (jeden type)
      else (integerLoop n.length (firstForm type) 0 n (b!"", b!"")).map
        fun p => if type = .CARDINAL_F then feminine p else p := by
  have e0 := equals_eq h 0
  have e1 := equals_eq h 1
  have d0 : dig 0 = 48 := by decide
  have d1 : dig 1 = 49 := by decide
  rw [d0] at e0
  rw [d1] at e1
  unfold integer2pltext
  rw [digits_any h, e0, e1]
  simp only [Bool.false_eq_true, if_false, Option.bind_eq_bind, Option.bind_some,
    Fin.val_zero]
  by_cases h0 : value n = 0
  · simp [h0]
  · by_cases h1 : value n = 1
    · simp [h1]
    · simp [h0, h1, Option.map_eq_bind, Function.comp_def]

end Verif.Numconv
