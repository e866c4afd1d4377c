import Verif.Quoter.Model
import Verif.Quoter.Spec

/-! Helper lemmas for `Props.lean`. -/
namespace Verif.Quoter
open Verif

theorem unescape_underscore (q s : Str) :
    unescape q (95 :: s) = (unescape q s).map (32 :: ·) := by
  rw [unescape.eq_def]; simp

theorem unescape_esc (q : Str) (c : Byte) (s : Str) :
    unescape q (92 :: c :: s) = (unescapeByte q c).bind fun d => (unescape q s).map (d :: ·) := by
  rw [unescape.eq_def]; simp
  cases unescapeByte q c <;> rfl

theorem unescape_lit (q : Str) (b : Byte) (s : Str) (h1 : b ≠ 95) (h2 : b ≠ 92) :
    unescape q (b :: s) = (unescape q s).map (b :: ·) := by
  rw [unescape.eq_def]; simp [h1, h2]

theorem unescape_bs (q : Str) : unescape q [92] = none := by
  rw [unescape.eq_def]; simp

theorem unescape_escapeByte (q : Str) (hq : ∀ b ∈ q, b ≠ 110 ∧ b ≠ 116 ∧ b ≠ 114)
    (b : Byte) (s : Str) :
    unescape q (escapeByte q b ++ s) = (unescape q s).map (b :: ·) := by
  unfold escapeByte
  repeat' split
  all_goals subst_vars
  all_goals simp [unescape_underscore, unescape_esc, unescapeByte]
  · rename_i h
    have hm : b ∈ q := by simpa using h
    have := hq b hm
    simp_all
  · rw [unescape_lit] <;> simp_all

theorem unescapeByte_iff (q : Str) (c d : Byte) :
    unescapeByte q c = some d ↔ Spec.Escape q c d := by
  constructor
  · intro h
    unfold unescapeByte at h
    repeat' split at h
    all_goals simp at h
    all_goals subst_vars
    all_goals first
      | constructor <;> simp_all
      | simp_all
  · intro h
    cases h <;> simp_all [unescapeByte]
    grind

theorem unescape_iff (q s r : Str) : unescape q s = some r ↔ Spec.Reads q s r := by
  constructor
  · intro h
    induction hn : s.length using Nat.strongRecOn generalizing s r with
    | _ n ih =>
      subst hn
      match s with
      | [] => simp [unescape] at h; subst h; constructor
      | b :: s =>
        by_cases h1 : b = 95
        · subst h1
          rw [unescape_underscore] at h
          obtain ⟨r', hr, rfl⟩ := Option.map_eq_some_iff.1 h
          exact .blank (ih _ (by simp) s r' hr rfl)
        · by_cases h2 : b = 92
          · subst h2
            match s with
            | [] => simp [unescape_bs] at h
            | c :: s =>
              rw [unescape_esc] at h
              obtain ⟨d, hd, h⟩ := Option.bind_eq_some_iff.1 h
              obtain ⟨r', hr, rfl⟩ := Option.map_eq_some_iff.1 h
              exact .esc ((unescapeByte_iff ..).1 hd) (ih _ (by simp; omega) s r' hr rfl)
          · rw [unescape_lit _ _ _ h1 h2] at h
            obtain ⟨r', hr, rfl⟩ := Option.map_eq_some_iff.1 h
            exact .lit h1 h2 (ih _ (by simp) s r' hr rfl)
  · intro h
    induction h with
    | nil => simp [unescape]
    | blank _ ih => simp [unescape_underscore, ih]
    | esc he _ ih => simp [unescape_esc, ih, (unescapeByte_iff q _ _).2 he]
    | lit h1 h2 _ ih => simp [unescape_lit _ _ _ h1 h2, ih]

theorem escape_append (q s t : Str) : escape q (s ++ t) = escape q s ++ escape q t := by
  induction s with
  | nil => simp [escape]
  | cons b s ih => simp [escape, ih]

theorem backslashesBefore_le (s : Str) (p : Nat) : Spec.backslashesBefore s p ≤ p := by
  induction p with
  | zero => simp [Spec.backslashesBefore]
  | succ p ih => simp only [Spec.backslashesBefore]; split <;> omega

theorem findLast_spec (s : Str) (p : Nat) :
    match findLastNotBackslash s p with
    | none => Spec.backslashesBefore s p = p
    | some last => last < p ∧ Spec.backslashesBefore s p = p - last - 1 := by
  induction p with
  | zero => simp [findLastNotBackslash, Spec.backslashesBefore]
  | succ p ih =>
    simp only [findLastNotBackslash, Spec.backslashesBefore]
    by_cases h : s[p]? = some 92
    · simp only [h, if_true]
      revert ih
      cases findLastNotBackslash s p with
      | none => intro ih; simp at *; omega
      | some l => intro ih; simp at *; omega
    · simp [h]

theorem backslashesBefore_append_left (s t : Str) (p : Nat) (h : p ≤ s.length) :
    Spec.backslashesBefore (s ++ t) p = Spec.backslashesBefore s p := by
  induction p with
  | zero => rfl
  | succ p ih =>
    simp only [Spec.backslashesBefore]
    rw [List.getElem?_append_left (by omega), ih (by omega)]

/-- Parity of the backslashes before position `s.length + p` when `s` ends in an even run. -/
theorem backslashesBefore_append_right (s t : Str) (p : Nat)
    (hs : Spec.backslashesBefore s s.length % 2 = 0) :
    Spec.backslashesBefore (s ++ t) (s.length + p) % 2 = Spec.backslashesBefore t p % 2 := by
  suffices h : Spec.backslashesBefore (s ++ t) (s.length + p) =
      if Spec.backslashesBefore t p = p then Spec.backslashesBefore s s.length + p
      else Spec.backslashesBefore t p by
    rw [h]; split <;> omega
  induction p with
  | zero => simp [Spec.backslashesBefore, backslashesBefore_append_left]
  | succ p ih =>
    have := backslashesBefore_le t p
    rw [← Nat.add_assoc]
    simp only [Spec.backslashesBefore]
    rw [List.getElem?_append_right (by omega), Nat.add_sub_cancel_left, ih]
    by_cases h : t[p]? = some 92
    · simp only [h, if_true]; split <;> split <;> omega
    · simp [h]

/-- Every escape block ends in an even run of backslashes. -/
theorem escapeByte_even (q : Str) (b : Byte) :
    Spec.backslashesBefore (escapeByte q b) (escapeByte q b).length % 2 = 0 := by
  unfold escapeByte
  repeat' split
  all_goals simp_all [Spec.backslashesBefore]

/-- Inside one escape block, a special character is preceded by one backslash. -/
theorem escapeByte_special (q : Str) (c b : Byte) (hc : c = 42 ∨ c ∈ q)
    (hn : c ≠ 95 ∧ c ≠ 92 ∧ c ≠ 110 ∧ c ≠ 116 ∧ c ≠ 114) (p : Nat)
    (h : (escapeByte q b)[p]? = some c) : Spec.backslashesBefore (escapeByte q b) p % 2 = 1 := by
  revert h
  unfold escapeByte
  repeat' split
  all_goals
    match p with
    | 0 => intro h; simp_all
    | 1 => intro h; simp_all [Spec.backslashesBefore]
    | p + 2 => simp

theorem brUnescape_lit (b : Byte) (s : Str) (h : b ≠ 92) :
    brUnescape (b :: s) = (brUnescape s).map (b :: ·) := by
  rw [brUnescape.eq_def]; simp [h]

end Verif.Quoter
