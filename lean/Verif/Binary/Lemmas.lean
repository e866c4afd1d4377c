import Verif.Binary.Model

namespace Verif.Binary

theorem getInt_putInt (k n : Nat) (h : n < 256 ^ k) (r : Str) :
    getInt k (putInt k n ++ r) = some (n, r) := by
  induction k generalizing n with
  | zero => simp at h; simp [getInt, putInt, h]
  | succ k ih =>
    have : n / 256 < 256 ^ k := by
      apply Nat.div_lt_of_lt_mul; rw [Nat.pow_succ] at h; omega
    simp [getInt, putInt, ih _ this]
    omega

/-- `get` reads back what `put` wrote, for the elements in `P`. -/
def Inverse {α : Type} (put : α → Str) (get : Str → Option (α × Str)) (P : α → Prop) : Prop :=
  ∀ x, P x → ∀ r, get (put x ++ r) = some (x, r)

theorem inverse_int (k : Nat) : Inverse (putInt k) (getInt k) (· < 256 ^ k) :=
  fun x h r => getInt_putInt k x h r

theorem inverse_pair (k : Nat) :
    Inverse (putPair k) (getPair k) (fun p => p.1 < 256 ^ k ∧ p.2 < 256 ^ k) := by
  intro x h r
  simp [putPair, getPair, getInt_putInt, h.1, h.2]

theorem getBool_putBool (b : Bool) (r : Str) : getBool (putBool b ++ r) = some (b, r) := by
  cases b <;> rfl

theorem getArray_putArray {α : Type} {put : α → Str} {get} {P : α → Prop} (h : Inverse put get P)
    (l : List α) (hl : ∀ x ∈ l, P x) (r : Str) :
    getArray get l.length (putArray put l ++ r) = some (l, r) := by
  induction l with
  | nil => simp [getArray, putArray]
  | cons x l ih =>
    simp at hl
    have h1 := h x hl.1
    have h2 := ih (fun y hy => hl.2 y hy)
    simp only [putArray] at h2
    simp [getArray, putArray, h1, h2]

theorem getVector_putVector {α : Type} {put : α → Str} {get} {P : α → Prop} (h : Inverse put get P)
    (l : List α) (hl : ∀ x ∈ l, P x) (hn : l.length < 2 ^ 64) (r : Str) :
    getVector get (putVector put l ++ r) = some (l, r) := by
  have : l.length < 256 ^ 8 := by omega
  simp [getVector, putVector, getInt_putInt 8 _ this, getArray_putArray h l hl]

end Verif.Binary
