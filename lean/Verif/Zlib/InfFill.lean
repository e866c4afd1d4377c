import Verif.Zlib.InfSort

/-! Replicated entries, the size of the next table, and places of codes. -/

namespace Verif.Zlib

/-- What the table has after an entry has been replicated. -/
def filled (t : Table) (place incr size : Nat) (e : Entry) : Table :=
  fun x => if ∃ j, j < size ∧ x = place + j * incr then some e else t x

theorem fillLoop_spec {incr : Nat} (hi : 0 < incr) : ∀ n fuel place (e : Entry) (t : Table),
    n + 1 ≤ fuel →
    fillLoop fuel place incr ((n + 1) * incr) e t = some (filled t place incr (n + 1) e)
  | n, 0, _, _, _, h => by omega
  | 0, fuel + 1, place, e, t, h => by
    unfold fillLoop
    rw [if_neg (by simp)]
    simp only [Nat.zero_add, Nat.one_mul, Nat.sub_self, Nat.add_zero, if_true]
    congr 1
    funext x
    simp only [upd, filled]
    by_cases hx : x = place
    · rw [if_pos hx, if_pos ⟨0, by omega, by simpa using hx⟩]
    · rw [if_neg hx, if_neg]
      rintro ⟨j, a, b⟩
      obtain rfl : j = 0 := by omega
      simp at b
      exact hx b
  | n + 1, fuel + 1, place, e, t, h => by
    have h1 : (n + 1 + 1) * incr = (n + 1) * incr + incr := by rw [Nat.add_mul, Nat.one_mul]
    have h2 : 0 < (n + 1) * incr := Nat.mul_pos (by omega) hi
    unfold fillLoop
    rw [h1, if_neg (by omega)]
    simp only [Nat.add_sub_cancel]
    rw [if_neg (by omega), fillLoop_spec hi n fuel place e _ (by omega)]
    congr 1
    funext x
    simp only [upd, filled]
    by_cases hx : ∃ j, j < n + 1 ∧ x = place + j * incr
    · obtain ⟨j, a, b⟩ := hx
      rw [if_pos ⟨j, a, b⟩, if_pos ⟨j, by omega, b⟩]
    · rw [if_neg hx]
      by_cases hx2 : x = place + (n + 1) * incr
      · rw [if_pos hx2, if_pos ⟨n + 1, by omega, hx2⟩]
      · rw [if_neg hx2, if_neg]
        rintro ⟨j, a, b⟩
        by_cases hj : j = n + 1
        · subst hj; exact hx2 b
        · exact hx ⟨j, by omega, b⟩

/-- The places that are written: those whose low bits are the code. -/
theorem filled_spec {b k : Nat} (hb : b ≤ k) (t : Table) (place low : Nat) (hl : low < 2 ^ b) (e : Entry)
    (x : Nat) : (∃ j, j < 2 ^ (k - b) ∧ x = place + low + j * 2 ^ b) ↔
      ∃ i, i < 2 ^ k ∧ i % 2 ^ b = low ∧ x = place + i := by
  have hk : 2 ^ k = 2 ^ (k - b) * 2 ^ b := by rw [← Nat.pow_add]; congr 1; omega
  have hp : 0 < 2 ^ b := Nat.pow_pos (by decide)
  constructor
  · rintro ⟨j, h1, h2⟩
    refine ⟨low + j * 2 ^ b, ?_, ?_, by omega⟩
    · rw [hk]
      calc low + j * 2 ^ b < 2 ^ b + j * 2 ^ b := by omega
        _ = (j + 1) * 2 ^ b := by ring
        _ ≤ _ := Nat.mul_le_mul_right _ h1
    · rw [Nat.add_mul_mod_self_right, Nat.mod_eq_of_lt hl]
  · rintro ⟨i, h1, h2, h3⟩
    refine ⟨i / 2 ^ b, ?_, ?_⟩
    · rw [Nat.div_lt_iff_lt_mul hp, ← hk]; exact h1
    · have := Nat.mod_add_div i (2 ^ b)
      rw [h2, Nat.mul_comm] at this
      omega

theorem fill_table {b k : Nat} (hb : b ≤ k) (t : Table) (place low : Nat) (hl : low < 2 ^ b) (e : Entry) :
    fillLoop (2 ^ k) (place + low) (2 ^ b) (2 ^ k) e t =
      some (fun x => if ∃ i, i < 2 ^ k ∧ i % 2 ^ b = low ∧ x = place + i then some e else t x) := by
  have hk : 2 ^ k = 2 ^ (k - b) * 2 ^ b := by rw [← Nat.pow_add]; congr 1; omega
  have hp : 0 < 2 ^ b := Nat.pow_pos (by decide)
  have hq : 0 < 2 ^ (k - b) := Nat.pow_pos (by decide)
  obtain ⟨n, hn⟩ : ∃ n, 2 ^ (k - b) = n + 1 := ⟨2 ^ (k - b) - 1, by omega⟩
  have hle : n + 1 ≤ 2 ^ k := by rw [hk, ← hn]; exact Nat.le_mul_of_pos_right _ hp
  have := fillLoop_spec hp n (2 ^ k) (place + low) e t hle
  rw [← hn, ← hk] at this
  rw [this]
  congr 1
  funext x
  simp only [filled, filled_spec hb t place low hl e x]

/-- The number of index bits that the look-ahead finds. -/
theorem lookAhead_spec (lens : List Nat) (cnt : Nat → Nat) (root max q : Nat) : ∀ fuel k (left : Int),
    max ≤ root + k + fuel → 0 < k → root + k ≤ max →
    (∀ j, root + k < j → cnt j = blCount lens j) →
    left - (cnt (root + k) : Nat) = (((q + 1) * 2 ^ k : Nat) - (endCode lens (root + k) : Nat) : Int) →
    k ≤ lookAhead cnt root max fuel k left ∧ root + lookAhead cnt root max fuel k left ≤ max ∧
      (root + lookAhead cnt root max fuel k left = max ∨
        (q + 1) * 2 ^ lookAhead cnt root max fuel k left ≤
          endCode lens (root + lookAhead cnt root max fuel k left)) ∧
      ∀ j, k ≤ j → j < lookAhead cnt root max fuel k left → endCode lens (root + j) < (q + 1) * 2 ^ j
  | 0, k, left, hf, hk, hm, hc, hl => by
    unfold lookAhead
    exact ⟨Nat.le_refl _, hm, Or.inl (by omega), fun j a b => by omega⟩
  | fuel + 1, k, left, hf, hk, hm, hc, hl => by
    unfold lookAhead
    rw [Nat.add_comm k root]
    by_cases h1 : root + k < max
    · rw [if_pos h1]
      simp only [hl]
      by_cases h2 : ((((q + 1) * 2 ^ k : Nat) - (endCode lens (root + k) : Nat) : Int)) ≤ 0
      · rw [if_pos h2]
        exact ⟨Nat.le_refl _, hm, Or.inr (by omega), fun j a b => by omega⟩
      · rw [if_neg h2]
        obtain ⟨a, b, c, d⟩ := lookAhead_spec lens cnt root max q fuel (k + 1)
          (((((q + 1) * 2 ^ k : Nat) - (endCode lens (root + k) : Nat) : Int)) * 2) (by omega) (by omega)
          (by omega) (fun j hj => hc j (by omega)) (by
            rw [hc _ (by omega)]
            have : endCode lens (root + (k + 1)) =
                endCode lens (root + k) * 2 + blCount lens (root + (k + 1)) := rfl
            rw [this, Nat.pow_succ]
            push_cast
            ring)
        refine ⟨by omega, b, c, fun j p r => ?_⟩
        by_cases hj : j = k
        · subst hj; omega
        · exact d j (by omega) r
    · rw [if_neg h1]
      exact ⟨Nat.le_refl _, hm, Or.inl (by omega), fun j a b => by omega⟩

/-- Codes that come earlier are not the beginnings of later ones. -/
theorem before_le (lens : List Nat) {l r l' r' : Nat} (h : l' < l ∨ (l' = l ∧ r' < r))
    (hr : r' < blCount lens l') :
    (firstCode lens l' + r' + 1) * 2 ^ (l - l') ≤ firstCode lens l + r := by
  rcases h with h | ⟨rfl, h⟩
  · obtain ⟨d, rfl⟩ : ∃ d, l = l' + 1 + d := ⟨l - (l' + 1), by omega⟩
    have e : l' + 1 + d - l' = d + 1 := by omega
    rw [e]
    refine Nat.le_trans ?_ (Nat.le_trans (firstCode_le lens l' d) (Nat.le_add_right _ _))
    exact Nat.mul_le_mul_right _ (by unfold endCode; omega)
  · simp; omega

theorem not_begin (lens : List Nat) {l r l' r' h : Nat} (hb : l' < l ∨ (l' = l ∧ r' < r))
    (hr : r' < blCount lens l') (h1 : readBits h l' = firstCode lens l' + r') :
    readBits h l < firstCode lens l + r := by
  have hl : l' ≤ l := by omega
  have e : l = l' + (l - l') := by omega
  have := before_le lens hb hr
  refine Nat.lt_of_lt_of_le ?_ this
  rw [e, readBits_add, h1]
  have e2 : l' + (l - l') - l' = l - l' := by omega
  rw [e2, Nat.add_mul _ 1, Nat.one_mul]
  exact Nat.add_lt_add_left (readBits_lt _ _) _

/-- The codes that are left need at least so many symbols. -/
theorem offsets_room (lens : List Nat) {max : Nat} (hmax : endCode lens max = 2 ^ max)
    (hle : ∀ j, j ≤ max → endCode lens j ≤ 2 ^ j) : ∀ d l, l ≠ 0 → l + d = max →
      2 ^ l + offsets (counts lens) l ≤ firstCode lens l + offsets (counts lens) (max + 1)
  | 0, l, h0, e => by
    obtain rfl : l = max := by omega
    rw [offsets_succ _ h0, counts_pos lens h0, ← hmax]
    unfold endCode
    omega
  | d + 1, l, h0, e => by
    have ih := offsets_room lens hmax hle d (l + 1) (by omega) (by omega)
    rw [offsets_succ _ h0, counts_pos lens h0, firstCode_succ, Nat.pow_succ] at ih
    have := hle l (by omega)
    have e2 : endCode lens l = firstCode lens l + blCount lens l := rfl
    omega

end Verif.Zlib
