import Verif.Zlib.Inftrees
import Verif.Zlib.DeflateSpec
import Mathlib.Tactic.Ring
import Mathlib.Tactic.Linarith

/-! Codes read from a stream. -/

namespace Verif.Zlib

theorem readBits_lt (h n : Nat) : readBits h n < 2 ^ n := by
  induction n with
  | zero => simp [readBits]
  | succ n ih =>
    have := Nat.mod_lt (h / 2 ^ n) (by decide : 0 < 2)
    simp only [readBits, Nat.pow_succ]
    omega

theorem bit_mod (h m n : Nat) (hn : n < m) : h % 2 ^ m / 2 ^ n % 2 = h / 2 ^ n % 2 := by
  obtain ⟨d, rfl⟩ : ∃ d, m = n + 1 + d := ⟨m - (n + 1), by omega⟩
  have : 2 ^ (n + 1 + d) = 2 ^ n * (2 * 2 ^ d) := by rw [Nat.pow_add, Nat.pow_succ, Nat.mul_assoc]
  rw [this, Nat.mod_mul_right_div_self, Nat.mod_mul_right_mod]

theorem readBits_mod (h : Nat) {m n : Nat} (hn : n ≤ m) : readBits (h % 2 ^ m) n = readBits h n := by
  induction n with
  | zero => rfl
  | succ n ih => simp only [readBits]; rw [ih (by omega), bit_mod h m n (by omega)]

theorem readBits_add (h a b : Nat) :
    readBits h (a + b) = readBits h a * 2 ^ b + readBits (h / 2 ^ a) b := by
  induction b with
  | zero => simp [readBits]
  | succ b ih =>
    rw [← Nat.add_assoc]
    simp only [readBits]
    rw [ih, Nat.div_div_eq_div_mul, ← Nat.pow_add, Nat.pow_succ]
    ring

theorem readBits_inj {h h' : Nat} : ∀ {n : Nat}, readBits h n = readBits h' n → h % 2 ^ n = h' % 2 ^ n
  | 0, _ => by simp [Nat.mod_one]
  | n + 1, e => by
    simp only [readBits] at e
    have h1 := Nat.mod_lt (h / 2 ^ n) (by decide : 0 < 2)
    have h2 := Nat.mod_lt (h' / 2 ^ n) (by decide : 0 < 2)
    have e1 : readBits h n = readBits h' n := by omega
    have e2 : h / 2 ^ n % 2 = h' / 2 ^ n % 2 := by omega
    rw [Nat.pow_succ, Nat.mod_mul, Nat.mod_mul, readBits_inj e1, e2]

theorem readBits_eq_iff {h h' n : Nat} : readBits h n = readBits h' n ↔ h % 2 ^ n = h' % 2 ^ n :=
  ⟨readBits_inj, fun e => by rw [← readBits_mod h (Nat.le_refl n), e, readBits_mod _ (Nat.le_refl n)]⟩

theorem readBits_zero (n : Nat) : readBits 0 n = 0 := by
  induction n with
  | zero => rfl
  | succ n ih => simp [readBits, ih]

/-- Zeros are read behind the highest bit. -/
theorem readBits_high {h a : Nat} (hh : h < 2 ^ a) (b : Nat) : readBits h (a + b) = readBits h a * 2 ^ b := by
  rw [readBits_add, Nat.div_eq_of_lt hh, readBits_zero]; rfl

theorem readBits_div (h a b : Nat) : readBits h (a + b) / 2 ^ b = readBits h a := by
  rw [readBits_add, Nat.mul_comm, Nat.mul_add_div (Nat.pow_pos (by decide)),
    Nat.div_eq_of_lt (readBits_lt _ _)]
  rfl

theorem backInc_spec (h : Nat) : ∀ n, (readBits h n + 1 < 2 ^ n →
      backInc h n < 2 ^ n ∧ readBits (backInc h n) n = readBits h n + 1) ∧
    (readBits h n + 1 = 2 ^ n → backInc h n = 0)
  | 0 => by simp [backInc, findIncr, readBits]
  | n + 1 => by
    obtain ⟨ih1, ih2⟩ := backInc_spec h n
    by_cases hb : h / 2 ^ n % 2 = 1
    · have e : backInc h (n + 1) = backInc h n := by simp [backInc, findIncr, hb]
      rw [e]
      simp only [readBits, hb, Nat.pow_succ]
      constructor
      · intro hlt
        obtain ⟨a, b⟩ := ih1 (by omega)
        refine ⟨by omega, ?_⟩
        rw [b, Nat.div_eq_of_lt a]
        omega
      · intro he
        exact ih2 (by omega)
    · have hb0 : h / 2 ^ n % 2 = 0 := by omega
      have hp : 0 < 2 ^ n := Nat.pow_pos (by decide)
      have e : backInc h (n + 1) = h % 2 ^ n + 2 ^ n := by
        have : ¬ (2 ^ n = 0) := by omega
        simp [backInc, findIncr, hb]
      rw [e]
      have hm := Nat.mod_lt h hp
      simp only [readBits, hb0, Nat.pow_succ]
      constructor
      · intro _
        refine ⟨by omega, ?_⟩
        have e1 : readBits (h % 2 ^ n + 2 ^ n) n = readBits h n := by
          rw [readBits_eq_iff]; simp
        have e2 : (h % 2 ^ n + 2 ^ n) / 2 ^ n = 1 := by
          rw [Nat.add_div_right _ hp, Nat.div_eq_of_lt hm]
        rw [e1, e2]
      · intro he
        have := readBits_lt h n
        omega

end Verif.Zlib
