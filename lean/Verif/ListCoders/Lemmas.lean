import Verif.ListCoders.Model

set_option linter.unusedVariables false
set_option linter.unusedSimpArgs false

namespace Verif.ListCoders
open Verif

theorem or_high (out k x : Nat) (h : out < 2 ^ k) : out ||| (x <<< k) = out + x * 2 ^ k := by
  rw [Nat.or_comm, ← Nat.shiftLeft_add_eq_or_of_lt h, Nat.shiftLeft_eq]; omega

theorem or_top (a s : Nat) (h : a < 2 ^ s) : a ||| 2 ^ s = a + 2 ^ s := by
  have := or_high a s 1 h
  rwa [Nat.shiftLeft_eq, Nat.one_mul] at this

theorem testBit_low (a s : Nat) (h : a < 2 ^ s) : a.testBit s = false := Nat.testBit_lt_two_pow h

theorem testBit_top (a s : Nat) (h : a < 2 ^ s) : (a + 2 ^ s).testBit s = true := by
  rw [Nat.add_comm, Nat.testBit_two_pow_add_eq, testBit_low a s h]; rfl

theorem decode_encodeLoop (s : Nat) (hs : 0 < s) (x : Nat) : ∀ (i out : Nat) (r : List Nat), 0 < x →
    x * 2 ^ (s * i) < 2 ^ 64 → out < 2 ^ (s * i) →
    decodeSymbol s (encodeLoop s x hs ++ r) i out = some (out + x * 2 ^ (s * i), r) := by
  induction x using Nat.strongRecOn with
  | ind x ih =>
    intro i out r h0 hx hout
    have h64 : s * i < 64 := by
      apply Classical.byContradiction
      intro hc
      have h1 : 2 ^ 64 ≤ 2 ^ (s * i) := Nat.pow_le_pow_right (by omega) (by omega)
      have h2 : 1 * 2 ^ (s * i) ≤ x * 2 ^ (s * i) := Nat.mul_le_mul_right _ h0
      omega
    have hdm := Nat.div_add_mod x (2 ^ s)
    have hml := Nat.mod_lt x (Nat.pow_pos (n := s) (show 0 < 2 by omega))
    rw [encodeLoop, dif_neg (by omega)]
    simp only [Nat.and_two_pow_sub_one_eq_mod, Nat.shiftRight_eq_div_pow, List.cons_append, decodeSymbol]
    rw [if_neg (by omega)]
    have hadd : s * (i + 1) = s + s * i := by rw [Nat.mul_add]; omega
    by_cases hx' : x / 2 ^ s = 0
    · have e : x % 2 ^ s = x := by
        rw [hx'] at hdm; simpa using hdm
      have hif : (if x / 2 ^ s ≠ 0 then x % 2 ^ s ||| 2 ^ s else x % 2 ^ s) = x := by
        rw [if_neg (by rw [hx']; simp)]; exact e
      rw [e] at hml
      rw [hif, if_neg (by rw [testBit_low _ _ hml]; simp), hx', encodeLoop, dif_pos rfl]
      rw [Nat.shiftLeft_eq, Nat.mod_eq_of_lt hx]
      have := or_high _ _ x hout
      rw [Nat.shiftLeft_eq] at this
      rw [this]; rfl
    · have hif : (if x / 2 ^ s ≠ 0 then x % 2 ^ s ||| 2 ^ s else x % 2 ^ s) = x % 2 ^ s + 2 ^ s := by
        rw [if_pos hx', or_top _ _ hml]
      rw [hif, if_pos (testBit_top _ _ hml)]
      have e : (x % 2 ^ s + 2 ^ s) % 2 ^ s = x % 2 ^ s := by simp
      rw [e]
      have hlt : (x % 2 ^ s) * 2 ^ (s * i) < 2 ^ 64 :=
        Nat.lt_of_le_of_lt (Nat.mul_le_mul_right _ (Nat.mod_le _ _)) hx
      rw [Nat.shiftLeft_eq, Nat.mod_eq_of_lt hlt, ← Nat.shiftLeft_eq, or_high _ _ _ hout]
      have hle : x / 2 ^ s * 2 ^ (s * (i + 1)) ≤ x * 2 ^ (s * i) := by
        rw [hadd, Nat.pow_add, ← Nat.mul_assoc]
        apply Nat.mul_le_mul_right
        exact Nat.div_mul_le_self x (2 ^ s)
      rw [ih (x / 2 ^ s) (Nat.div_lt_self h0 (Nat.one_lt_two_pow (by omega))) (i + 1) _ r (Nat.pos_of_ne_zero hx')
        (by omega) ?_]
      · congr 2
        rw [Nat.add_assoc, hadd, Nat.pow_add, ← Nat.mul_assoc, ← Nat.add_mul]
        congr 2
        rw [Nat.mul_comm (x / 2 ^ s)]; omega
      · rw [hadd, Nat.pow_add]
        have : (x % 2 ^ s + 1) * 2 ^ (s * i) ≤ 2 ^ s * 2 ^ (s * i) := Nat.mul_le_mul_right _ hml
        rw [Nat.add_mul] at this
        omega

theorem decode_encodeSymbol (s : Nat) (hs : 0 < s) (x : Nat) (r : List Nat) (hx : x < 2 ^ 64) :
    decodeSymbol s (encodeSymbol s x hs ++ r) 0 0 = some (x, r) := by
  unfold encodeSymbol
  by_cases h : x = 0
  · subst h; simp [decodeSymbol]
  · rw [if_neg h]
    have := decode_encodeLoop s hs x 0 0 r (by omega) (by simpa using hx) (by simp)
    simpa using this

theorem encodeSymbol_ne_nil (s x : Nat) (hs : 0 < s) : encodeSymbol s x hs ≠ [] := by
  unfold encodeSymbol
  split
  · simp
  · rw [encodeLoop, dif_neg (by assumption)]; simp

/-! ### Simple9 -/

theorem reqbit_lt {x : Nat} : x < 2 ^ reqbit x := by
  unfold reqbit
  split
  · subst_vars; simp
  · rename_i h
    exact (Nat.log2_lt h).1 (Nat.lt_succ_self _)

theorem reqbit_le {x k : Nat} (h : x < 2 ^ k) : reqbit x ≤ k := by
  unfold reqbit
  split
  · omega
  · rename_i h0
    exact (Nat.log2_lt h0).2 h

theorem bit_le (r : Nat) (h0 : 0 < r) (h : r ≤ 28) : r ≤ 28 / (28 / r) ∧ 28 / (28 / r) ≤ 28 := by
  have : ∀ r : Fin 29, 0 < r.1 → r.1 ≤ 28 / (28 / r.1) ∧ 28 / (28 / r.1) ≤ 28 := by decide
  exact this ⟨r, by omega⟩ h0

/-- Value of digits in base `2^b`, the first most significant. -/
def dig (b : Nat) : List Nat → Nat
  | [] => 0
  | x :: xs => x * 2 ^ (b * xs.length) + dig b xs

theorem dig_lt (b : Nat) (xs : List Nat) (h : ∀ x ∈ xs, x < 2 ^ b) : dig b xs < 2 ^ (b * xs.length) := by
  induction xs with
  | nil => simp [dig]
  | cons x xs ih =>
    have h1 := ih (fun y hy => h y (by simp [hy]))
    have h2 : (x + 1) * 2 ^ (b * xs.length) ≤ 2 ^ b * 2 ^ (b * xs.length) :=
      Nat.mul_le_mul_right _ (h x (by simp))
    rw [Nat.add_mul] at h2
    have e : b * (x :: xs).length = b + b * xs.length := by simp [Nat.mul_add]; omega
    rw [e, Nat.pow_add, dig]; omega

theorem packLoop_spec (b : Nat) (xs : List Nat) (H : Nat) (hb : b * xs.length ≤ 28)
    (h : ∀ x ∈ xs, x < 2 ^ b) :
    packLoop b xs (H * 2 ^ (b * xs.length)) = H * 2 ^ (b * xs.length) + dig b xs := by
  induction xs generalizing H with
  | nil => simp [packLoop, dig]
  | cons x xs ih =>
    have e : b * (x :: xs).length = b + b * xs.length := by simp [Nat.mul_add]; omega
    have hx := h x (by simp)
    have hlt : x * 2 ^ (b * xs.length) < 2 ^ (b * (x :: xs).length) := by
      rw [e, Nat.pow_add]
      exact Nat.mul_lt_mul_of_pos_right hx (Nat.pow_pos (by omega))
    have h32 : x * 2 ^ (b * xs.length) < 2 ^ 32 :=
      Nat.lt_of_lt_of_le hlt (Nat.pow_le_pow_right (by omega) (by omega))
    rw [packLoop, Nat.shiftLeft_eq, Nat.mod_eq_of_lt h32, Nat.or_comm]
    rw [← Nat.shiftLeft_eq H, or_high _ _ _ hlt]
    have e2 : x * 2 ^ (b * xs.length) + H * 2 ^ (b * (x :: xs).length) =
        (H * 2 ^ b + x) * 2 ^ (b * xs.length) := by
      rw [e, Nat.pow_add, Nat.add_mul, ← Nat.mul_assoc]; omega
    rw [e2, ih _ (by omega) (fun y hy => h y (by simp [hy])), ← e2, dig]
    rw [Nat.shiftLeft_eq]; omega

theorem digit_get (b H x k d : Nat) (hx : x < 2 ^ b) (hd : d < 2 ^ (b * k)) :
    (((H * 2 ^ b + x) * 2 ^ (b * k) + d) >>> (b * k)) &&& (2 ^ b - 1) = x := by
  rw [Nat.and_two_pow_sub_one_eq_mod, Nat.shiftRight_eq_div_pow]
  rw [Nat.mul_comm _ (2 ^ (b * k)), Nat.mul_add_div (Nat.pow_pos (by omega)), Nat.div_eq_of_lt hd]
  rw [Nat.add_zero, Nat.mul_comm H, Nat.mul_add_mod, Nat.mod_eq_of_lt hx]

theorem dig_cons_eq (b H x : Nat) (xs : List Nat) :
    H * 2 ^ (b * (x :: xs).length) + dig b (x :: xs) =
      (H * 2 ^ b + x) * 2 ^ (b * xs.length) + dig b xs := by
  have e : b * (x :: xs).length = b + b * xs.length := by simp [Nat.mul_add]; omega
  rw [dig, e, Nat.pow_add, Nat.add_mul, ← Nat.mul_assoc]; omega

theorem unpackLoop_spec (b : Nat) (hb : 0 < b) (xs : List Nat) (x H : Nat)
    (h : ∀ y ∈ x :: xs, y < 2 ^ b) :
    unpackLoop (H * 2 ^ (b * (x :: xs).length) + dig b (x :: xs)) b (2 ^ b - 1) (b * xs.length) = x :: xs := by
  induction xs generalizing x H with
  | nil =>
    rw [unpackLoop, dif_neg (by simp), dig_cons_eq]
    have := digit_get b H x 0 0 (h x (by simp)) (by simp)
    simp [dig] at this ⊢; exact this
  | cons y ys ih =>
    rw [unpackLoop, dif_pos ⟨by simp; exact hb, hb⟩, dig_cons_eq]
    rw [digit_get b H x _ _ (h x (by simp)) (dig_lt b _ (fun z hz => h z (by simp at hz ⊢; right; exact hz)))]
    have e : b * (y :: ys).length - b = b * ys.length := by simp [Nat.mul_add]
    rw [e, ih y _ (fun z hz => h z (by simp at hz ⊢; right; exact hz))]

/-- The table: for each usable number of values. -/
theorem table (n : Nat) (h : n ∈ parts) :
    (typeOf n).2 = 28 / n ∧ 0 < (typeOf n).2 ∧ (typeOf n).2 * n ≤ 28 ∧ (typeOf n).1 < 16 ∧ 0 < n ∧ n ≤ 28 ∧
    layout (typeOf n).1 = ((typeOf n).2, (typeOf n).2 * (n - 1), 2 ^ (typeOf n).2 - 1) := by
  have : ∀ n ∈ parts, (typeOf n).2 = 28 / n ∧ 0 < (typeOf n).2 ∧ (typeOf n).2 * n ≤ 28 ∧ (typeOf n).1 < 16 ∧ 0 < n ∧ n ≤ 28 ∧
    layout (typeOf n).1 = ((typeOf n).2, (typeOf n).2 * (n - 1), 2 ^ (typeOf n).2 - 1) := by decide
  exact this n h

theorem packWord_eq (xs : List Nat) (hp : xs.length ∈ parts) (h : ∀ x ∈ xs, x < 2 ^ (28 / xs.length)) :
    ∃ H, packWord xs = H * 2 ^ ((typeOf xs.length).2 * xs.length) + dig (typeOf xs.length).2 xs ∧
      packWord xs >>> 28 = (typeOf xs.length).1 := by
  obtain ⟨t1, t2, t3, t4, t5, t6, t7⟩ := table _ hp
  rw [← t1] at h
  have hd := dig_lt _ xs h
  generalize hb : (typeOf xs.length).2 = b at *
  generalize hT : (typeOf xs.length).1 = T at *
  have e : T <<< 28 % 2 ^ 32 = (T * 2 ^ (28 - b * xs.length)) * 2 ^ (b * xs.length) := by
    rw [Nat.shiftLeft_eq, Nat.mod_eq_of_lt (by omega), Nat.mul_assoc, ← Nat.pow_add]
    congr 2; omega
  refine ⟨T * 2 ^ (28 - b * xs.length), ?_, ?_⟩
  · rw [packWord, hb, hT, e, packLoop_spec b xs _ t3 h]
  · rw [packWord, hb, hT, e, packLoop_spec b xs _ t3 h, ← e]
    have : T <<< 28 % 2 ^ 32 = T * 2 ^ 28 := by
      rw [Nat.shiftLeft_eq, Nat.mod_eq_of_lt (by omega)]
    rw [this]
    have h28 : dig b xs < 2 ^ 28 := Nat.lt_of_lt_of_le hd (Nat.pow_le_pow_right (by omega) t3)
    rw [Nat.shiftRight_eq_div_pow]; omega

theorem unpack_pack (xs : List Nat) (hp : xs.length ∈ parts) (h : ∀ x ∈ xs, x < 2 ^ (28 / xs.length)) :
    unpackWord (packWord xs) = xs := by
  obtain ⟨H, h1, h2⟩ := packWord_eq xs hp h
  obtain ⟨t1, t2, t3, t4, t5, t6, t7⟩ := table _ hp
  unfold unpackWord
  rw [h2, t7]
  simp only
  rw [h1]
  rw [← t1] at h
  cases xs with
  | nil => simp at t5
  | cons x xs =>
    have e : (x :: xs).length - 1 = xs.length := by simp
    rw [e]
    exact unpackLoop_spec _ t2 xs x H h

theorem choose_spec (xs : List Nat) (lastpos j lastbit lastyes : Nat)
    (hj : parts[j]? ≠ none → lastpos ≤ parts[j]?.getD 0)
    (hlb : 1 ≤ lastbit ∧ lastbit ≤ 28)
    (hseen : ∀ i x, i < lastpos → xs[i]? = some x → 0 < x ∧ reqbit x ≤ lastbit)
    (hyes : lastpos = 0 ∧ lastyes = 0 ∧ j = 0 ∧ xs ≠ [] ∨ (lastyes + 1 ∈ parts ∧ lastyes + 1 ≤ lastpos ∧ lastyes < xs.length ∧
      ∀ i x, i ≤ lastyes → xs[i]? = some x → 0 < x ∧ reqbit x ≤ 28 / (lastyes + 1)))
    (r : Nat) (hr : choose xs lastpos j lastbit lastyes = some r) :
    r + 1 ∈ parts ∧ r < xs.length ∧ ∀ i x, i ≤ r → xs[i]? = some x → 0 < x ∧ reqbit x ≤ 28 / (r + 1) := by
  fun_induction choose xs lastpos j lastbit lastyes with
  | case1 lastpos j lastbit lastyes hc hnone =>
    rcases hyes with ⟨rfl, _, _, hne⟩ | hyes
    · have := List.length_pos_iff.2 hne
      rw [List.getElem?_eq_getElem this] at hnone; cases hnone
    · cases hr; exact ⟨hyes.1, hyes.2.2.1, hyes.2.2.2⟩
  | case2 => cases hr
  | case3 lastpos j lastbit lastyes hc x hx j' hreq bit lastbit' hbreak =>
    rcases hyes with ⟨rfl, rfl, rfl, hne⟩ | hyes
    · exfalso
      have hb := bit_le (reqbit x) (by omega) (by omega)
      have hj' : j' = 0 := by simp [j', parts]
      rw [hj'] at hbreak
      have hl28 : lastbit' ≤ 28 ∧ 1 ≤ lastbit' := by
        simp only [lastbit', bit]; split <;> omega
      have : 1 ≤ 28 / lastbit' := (Nat.le_div_iff_mul_le (by omega)).2 (by omega)
      simp [parts] at hbreak
      omega
    · cases hr; exact ⟨hyes.1, hyes.2.2.1, hyes.2.2.2⟩
  | case4 lastpos j lastbit lastyes hc x hx j' hreq bit lastbit' hbreak ih =>
    have hb := bit_le (reqbit x) (by omega) (by omega)
    have hl28 : lastbit' ≤ 28 ∧ 1 ≤ lastbit' ∧ lastbit ≤ lastbit' ∧ bit ≤ lastbit' := by
      simp only [lastbit', bit]; split <;> omega
    have hxpos : 0 < x := by
      apply Nat.pos_of_ne_zero; intro h0; subst h0; simp [reqbit] at hreq
    -- the position is inside the part
    have hpart : ∀ j : Fin 9, (parts[j.1]?).isSome := by decide
    have hstrict : ∀ j : Fin 8, parts[j.1]?.getD 0 < parts[j.1 + 1]?.getD 0 := by decide
    have hj9 : j' < 9 ∧ lastpos < parts[j']?.getD 0 ∧ parts[j']?.getD 0 ∈ parts := by
      have hmem : ∀ j : Fin 9, parts[j.1]?.getD 0 ∈ parts := by decide
      have h1 := hpart ⟨j, hc.1⟩
      simp only at h1
      have h2 := hj (by intro e; rw [e] at h1; cases h1)
      simp only [j']
      split
      · rename_i hle
        have hj8 : j < 8 := by
          apply Classical.byContradiction; intro hcc
          have : j = 8 := by omega
          subst this
          simp [parts] at hle; omega
        have h3 := hstrict ⟨j, hj8⟩
        simp only at h3
        exact ⟨by omega, by omega, hmem ⟨j + 1, by omega⟩⟩
      · exact ⟨hc.1, by omega, hmem ⟨j, hc.1⟩⟩
    have hseen' : ∀ i y, i < lastpos + 1 → xs[i]? = some y → 0 < y ∧ reqbit y ≤ lastbit' := by
      intro i y hi hy
      by_cases hil : i = lastpos
      · subst hil
        rw [hx] at hy; cases hy
        exact ⟨hxpos, by omega⟩
      · have := hseen i y (by omega) hy
        exact ⟨this.1, by omega⟩
    have hlen : lastpos < xs.length := (List.getElem?_eq_some_iff.1 hx).1
    apply ih (fun _ => by omega) ⟨by omega, by omega⟩ hseen' ?_ hr
    right
    split
    · rename_i hlp
      have hle : lastbit' ≤ 28 / (lastpos + 1) := by
        have h1 : parts[j']?.getD 0 ≤ 28 / lastbit' := by omega
        have h2 : lastpos + 1 = parts[j']?.getD 0 := by omega
        rw [← h2] at h1
        rw [Nat.le_div_iff_mul_le (by omega)] at h1 ⊢
        rw [Nat.mul_comm]; exact h1
      refine ⟨?_, Nat.le_refl _, hlen, ?_⟩
      · have : lastpos + 1 = parts[j']?.getD 0 := by omega
        rw [this]; exact hj9.2.2
      · intro i y hi hy
        have := hseen' i y (by omega) hy
        exact ⟨this.1, by omega⟩
    · rename_i hlp
      rcases hyes with ⟨rfl, rfl, rfl, hne⟩ | hyes
      · exfalso
        have hj' : j' = 0 := by simp [j', parts]
        rw [hj'] at hlp
        simp [parts] at hlp
      · exact ⟨hyes.1, by omega, hyes.2.2.1, hyes.2.2.2⟩
  | case5 lastpos j lastbit lastyes hc =>
    rcases hyes with ⟨rfl, rfl, rfl, hne⟩ | hyes
    · omega
    · cases hr; exact ⟨hyes.1, hyes.2.2.1, hyes.2.2.2⟩

theorem choose_some (xs : List Nat) (h : ∀ x ∈ xs, 0 < x ∧ x < 2 ^ 28) (lastpos j lastbit lastyes : Nat) :
    ∃ r, choose xs lastpos j lastbit lastyes = some r := by
  fun_induction choose xs lastpos j lastbit lastyes with
  | case1 => exact ⟨_, rfl⟩
  | case2 lastpos j lastbit lastyes hc x hx hreq =>
    exfalso
    have hm := h x (List.mem_of_getElem? hx)
    have h1 := reqbit_le hm.2
    have h2 : reqbit x ≠ 0 := by simp only [reqbit]; split <;> omega
    omega
  | case3 => exact ⟨_, rfl⟩
  | case4 lastpos j lastbit lastyes hc x hx j' hreq bit lastbit' hbreak ih => exact ih
  | case5 => exact ⟨_, rfl⟩

/-- The first step of `Encode`. -/
theorem choose_start (xs : List Nat) (hne : xs ≠ []) (r : Nat) (hr : choose xs 0 0 1 0 = some r) :
    r < xs.length ∧ (xs.take (r + 1)).length = r + 1 ∧ r + 1 ∈ parts ∧
      (∀ x ∈ xs.take (r + 1), 0 < x ∧ x < 2 ^ 28) ∧
      ∀ x ∈ xs.take (r + 1), x < 2 ^ (28 / (xs.take (r + 1)).length) := by
  obtain ⟨h1, h2, h3⟩ := choose_spec xs 0 0 1 0 (by simp) ⟨by omega, by omega⟩ (by simp)
    (Or.inl ⟨rfl, rfl, rfl, hne⟩) r hr
  have hl : (xs.take (r + 1)).length = r + 1 := by rw [List.length_take]; omega
  have key : ∀ x ∈ xs.take (r + 1), 0 < x ∧ x < 2 ^ (28 / (r + 1)) := by
    intro x hx
    obtain ⟨i, hi, rfl⟩ := List.getElem_of_mem hx
    rw [hl] at hi
    have := h3 i _ (by omega) (by rw [List.getElem?_eq_getElem (by omega)])
    rw [List.getElem_take]
    exact ⟨this.1, Nat.lt_of_lt_of_le reqbit_lt (Nat.pow_le_pow_right (by omega) this.2)⟩
  refine ⟨h2, hl, h1, fun x hx => ⟨(key x hx).1, Nat.lt_of_lt_of_le (key x hx).2 ?_⟩, fun x hx => ?_⟩
  · exact Nat.pow_le_pow_right (by omega) (Nat.div_le_self _ _)
  · rw [hl]; exact (key x hx).2

theorem encode9Loop_decode (fuel : Nat) (xs ws : List Nat) (h : encode9Loop fuel xs = some ws) :
    decode9 ws = xs ∧ ∀ x ∈ xs, 0 < x ∧ x < 2 ^ 28 := by
  fun_induction encode9Loop fuel xs generalizing ws with
  | case1 => cases h; simp [decode9]
  | case2 => cases h
  | case3 => cases h
  | case4 fuel x xs r hr ih =>
    obtain ⟨ws', hw, rfl⟩ := Option.map_eq_some_iff.1 h
    obtain ⟨i1, i2⟩ := ih ws' hw
    obtain ⟨c1, c2, c3, c4, c5⟩ := choose_start (x :: xs) (by simp) r hr
    constructor
    · simp only [decode9, List.flatMap_cons]
      rw [unpack_pack _ (by rw [c2]; exact c3) c5]
      unfold decode9 at i1
      rw [i1, List.take_append_drop]
    · intro y hy
      rw [← List.take_append_drop (r + 1) (x :: xs), List.mem_append] at hy
      rcases hy with hy | hy
      · exact c4 y hy
      · exact i2 y hy

theorem encode9Loop_some (fuel : Nat) (xs : List Nat) (hf : xs.length ≤ fuel)
    (h : ∀ x ∈ xs, 0 < x ∧ x < 2 ^ 28) : ∃ ws, encode9Loop fuel xs = some ws := by
  fun_induction encode9Loop fuel xs with
  | case1 => exact ⟨[], rfl⟩
  | case2 => simp at hf
  | case3 fuel x xs hr =>
    obtain ⟨r, hr'⟩ := choose_some (x :: xs) h 0 0 1 0
    rw [hr] at hr'; cases hr'
  | case4 fuel x xs r hr ih =>
    obtain ⟨ws, hw⟩ := ih (by simp at hf ⊢; omega) (fun y hy => h y (List.mem_of_mem_drop hy))
    exact ⟨_, by rw [hw]; rfl⟩

theorem sumLoop_spec (b : Nat) (hb : 0 < b) (xs : List Nat) (x H num sum curr : Nat)
    (h : ∀ y ∈ x :: xs, y < 2 ^ b) (hc : curr < num) :
    sumLoop (H * 2 ^ (b * (x :: xs).length) + dig b (x :: xs)) b (2 ^ b - 1) num (b * xs.length) sum curr =
      (sum + ((x :: xs).take (num - curr)).sum, curr + min (num - curr) (x :: xs).length) := by
  induction xs generalizing x H sum curr with
  | nil =>
    rw [sumLoop, dif_neg (by simp), dig_cons_eq]
    have := digit_get b H x 0 0 (h x (by simp)) (by simp)
    have e : num - curr = (num - curr - 1) + 1 := by omega
    rw [e]
    simp [dig] at this ⊢
    exact this
  | cons y ys ih =>
    rw [sumLoop, dif_pos ⟨by simp; exact hb, hb⟩, dig_cons_eq]
    simp only
    rw [digit_get b H x _ _ (h x (by simp)) (dig_lt b _ (fun z hz => h z (by simp at hz ⊢; right; exact hz)))]
    have e : num - curr = (num - (curr + 1)) + 1 := by omega
    split
    · rename_i hn
      rw [e, hn, Nat.sub_self]; simp; omega
    · rename_i hn
      have e2 : b * (y :: ys).length - b = b * ys.length := by simp [Nat.mul_add]
      rw [e2, ih y _ _ (curr + 1) (fun z hz => h z (by simp at hz ⊢; right; exact hz)) (by omega), e]
      simp only [List.take_succ_cons, List.sum_cons, List.length_cons]
      congr 1 <;> omega

theorem sumWord_spec (xs : List Nat) (hp : xs.length ∈ parts) (h : ∀ x ∈ xs, x < 2 ^ (28 / xs.length))
    (num curr : Nat) (hc : curr < num) :
    sumWord (packWord xs) num curr = ((xs.take (num - curr)).sum, curr + min (num - curr) xs.length) := by
  obtain ⟨H, h1, h2⟩ := packWord_eq xs hp h
  obtain ⟨t1, t2, t3, t4, t5, t6, t7⟩ := table _ hp
  unfold sumWord
  rw [h2, t7]
  simp only
  rw [h1]
  rw [← t1] at h
  cases xs with
  | nil => simp at t5
  | cons x xs =>
    have e : (x :: xs).length - 1 = xs.length := by simp
    rw [e, sumLoop_spec _ t2 xs x H num 0 curr h hc]; simp

theorem sumWords_spec (num fuel : Nat) (xs ws : List Nat) (h : encode9Loop fuel xs = some ws) (sum curr : Nat)
    (hc : curr ≤ num) (hs : sum < 2 ^ 64) :
    sumWords num ws sum curr = ((sum + (xs.take (num - curr)).sum) % 2 ^ 64, curr + min (num - curr) xs.length) := by
  fun_induction encode9Loop fuel xs generalizing ws sum curr with
  | case1 => cases h; simp [sumWords, Nat.mod_eq_of_lt hs]
  | case2 => cases h
  | case3 => cases h
  | case4 fuel x xs r hr ih =>
    obtain ⟨ws', hw, rfl⟩ := Option.map_eq_some_iff.1 h
    obtain ⟨c1, c2, c3, c4, c5⟩ := choose_start (x :: xs) (by simp) r hr
    rw [sumWords]
    by_cases hlt : curr < num
    · rw [if_pos hlt, sumWord_spec _ (by rw [c2]; exact c3) c5 _ _ hlt]
      simp only
      rw [ih ws' hw _ _ (by omega) (Nat.mod_lt _ (by omega))]
      have hsplit : (x :: xs).take (num - curr) =
          ((x :: xs).take (r + 1)).take (num - curr) ++
          ((x :: xs).drop (r + 1)).take (num - (curr + min (num - curr) ((x :: xs).take (r + 1)).length)) := by
        rw [c2]
        conv => lhs; rw [← List.take_append_drop (r + 1) (x :: xs), List.take_append, c2]
        congr 2; omega
      congr 1
      · rw [hsplit, List.sum_append]; omega
      · rw [c2, List.length_drop]; omega
    · rw [if_neg hlt]
      have : num - curr = 0 := by omega
      simp [this, Nat.mod_eq_of_lt hs]

end Verif.ListCoders
