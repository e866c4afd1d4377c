import Verif.Zlib.PropsGzip

/-! Where the end of a member is. -/

namespace Verif.Zlib

/-- The input from some bit on. -/
def Took (s t s1 t1 : Nat) : Prop := t1 ≤ t ∧ s1 = s / 2 ^ (t - t1)

theorem Took.refl (s t : Nat) : Took s t s t := ⟨Nat.le_refl _, by simp⟩

theorem took_drop {s t n : Nat} (h : n ≤ t) : Took s t (s / 2 ^ n) (t - n) :=
  ⟨by omega, by rw [show t - (t - n) = n by omega]⟩

theorem Took.trans {s t s1 t1 s2 t2 : Nat} (h1 : Took s t s1 t1) (h2 : Took s1 t1 s2 t2) :
    Took s t s2 t2 := by
  obtain ⟨a1, rfl⟩ := h1
  obtain ⟨a2, rfl⟩ := h2
  refine ⟨by omega, ?_⟩
  rw [Nat.div_div_eq_div_mul, ← Nat.pow_add]
  congr 2
  omega

theorem took_number {n s t k s1 t1 : Nat} (h : Number n s t (.got k s1 t1)) : Took s t s1 t1 := by
  cases h with
  | got h => exact took_drop h

theorem took_code {type : CodeType} {lens : List Nat} {s t : Nat} {m : Meaning} {s1 t1 : Nat}
    (h : Code type lens s t (.got m s1 t1)) : Took s t s1 t1 := by
  generalize hr : Outcome.got m s1 t1 = r at h
  cases h with
  | got _ h _ =>
    injection hr with _ h1 h2
    subst h1 h2
    exact took_drop h
  | invalid _ _ _ => cases hr
  | none _ _ => cases hr
  | cut _ _ => cases hr
  | empty _ _ => cases hr

theorem took_command {ll dl : List Nat} {s t : Nat} {c : Option Cmd} {s1 t1 : Nat}
    (h : Command ll dl s t (.got c s1 t1)) : Took s t s1 t1 := by
  cases h with
  | stop h => exact took_code h
  | lit h => exact took_code h
  | copy a b c d =>
    exact (((took_code a).trans (took_number b)).trans (took_code c)).trans (took_number d)

theorem took_commands {ll dl : List Nat} {s t : Nat} {cs : List Cmd} {r : Outcome Unit}
    (h : Commands ll dl s t cs r) : ∀ u s1 t1, r = .got u s1 t1 → Took s t s1 t1 := by
  induction h with
  | stop h =>
    intro u s1 t1 e
    injection e with _ h1 h2
    subst h1 h2
    exact took_command h
  | cut _ => intro u s1 t1 e; cases e
  | wrong _ => intro u s1 t1 e; cases e
  | next h _ ih =>
    intro u s1 t1 e
    exact (took_command h).trans (ih u s1 t1 e)

theorem took_lengths {clens : List Nat} {n : Nat} {out : List Nat} {s t : Nat}
    {r : Outcome (List Nat)} (h : Lengths clens n out s t r) :
    ∀ o s1 t1, r = .got o s1 t1 → Took s t s1 t1 := by
  induction h with
  | done _ =>
    intro o s1 t1 e
    injection e with _ h1 h2
    subst h1 h2
    exact Took.refl _ _
  | cut _ _ _ => intro o s1 t1 e; cases e
  | noLast _ _ _ _ => intro o s1 t1 e; cases e
  | tooMany _ _ _ _ _ => intro o s1 t1 e; cases e
  | next _ _ h _ _ _ ih =>
    intro o s1 t1 e
    exact (took_drop h).trans (ih o s1 t1 e)

theorem took_header {s t : Nat} {p : List Nat × List Nat} {s1 t1 : Nat}
    (h : Header s t (.got p s1 t1)) : Took s t s1 t1 := by
  cases h with
  | noCodes _ _ h => exact took_drop h
  | got h _ hb _ _ => exact (took_drop h.2.2).trans (took_lengths hb _ _ _ rfl)

theorem took_toByte (s t : Nat) : Took s t (toByte s t).1 (toByte s t).2 :=
  took_drop (Nat.mod_le _ _)

theorem took_block {k s t : Nat} {cs : List Cmd} {r : Outcome Unit} (h : Block k s t cs r) :
    ∀ u s1 t1, r = .got u s1 t1 → Took s t s1 t1 := by
  cases h with
  | stored h =>
    intro u s1 t1 e
    refine (took_toByte s t).trans ?_
    generalize (toByte s t).1 = s0 at h
    generalize (toByte s t).2 = t0 at h
    cases h with
    | got h _ =>
      injection e with _ h1 h2
      subst h1 h2
      exact took_drop h
    | cut _ => cases e
    | wrong _ _ => cases e
    | cutBytes _ _ _ => cases e
  | fixed h => exact took_commands h
  | cutHead _ => intro u s1 t1 e; cases e
  | wrongHead _ => intro u s1 t1 e; cases e
  | dynamic h h' =>
    intro u s1 t1 e
    exact (took_header h).trans (took_commands h' u s1 t1 e)
  | wrong => intro u s1 t1 e; cases e

theorem took_blocks {s t : Nat} {cs : List Cmd} {r : Outcome Unit} (h : Blocks s t cs r) :
    ∀ u s1 t1, r = .got u s1 t1 → Took s t s1 t1 := by
  have three : ∀ {s t : Nat}, 3 ≤ t → Took s t (s / 8) (t - 3) := fun h => took_drop h
  induction h with
  | cut _ => intro u s1 t1 e; cases e
  | more _ _ => intro u s1 t1 e; cases e
  | wrong _ _ => intro u s1 t1 e; cases e
  | last h3 _ hb =>
    intro u s1 t1 e
    injection e with _ h1 h2
    subst h1 h2
    exact ((three h3).trans (took_block hb _ _ _ rfl)).trans (took_toByte _ _)
  | next h3 _ hb _ ih =>
    intro u s1 t1 e
    exact ((three h3).trans (took_block hb _ _ _ rfl)).trans (ih u s1 t1 e)

/-- What is left behind the blocks is the end of the input. -/
theorem blocks_suffix {mid tail : List Byte} {cs : List Cmd}
    (h : Blocks (streamOf mid) (8 * mid.length) cs (.got () (streamOf tail) (8 * tail.length))) :
    tail <:+ mid := by
  obtain ⟨h1, h2⟩ := took_blocks h _ _ _ rfl
  have hl : tail.length ≤ mid.length := by omega
  have he : 8 * mid.length - 8 * tail.length = 8 * (mid.length - tail.length) := by omega
  rw [he, ← streamOf_drop] at h2
  have : tail = mid.drop (mid.length - tail.length) :=
    streamOf_inj (by rw [List.length_drop]; omega) h2
  rw [this]
  exact List.drop_suffix _ _

end Verif.Zlib
