import Verif.StringFrag.Lemmas

/-!
Property theorems C18 (string fragments).

The full claim — every operation agrees with the operation on the plain string denoted — is false
of the code: `C18_append_false`, `C18_find_false`, `C18_sub_false`.  What holds is stated over
`Reach f s`: the fragment `f` was made by a sequence of operations (without those cases) that, made on
plain strings, gives `s`.
-/
set_option linter.unusedVariables false
set_option linter.unusedSimpArgs false

namespace Verif.StringFrag
open Verif

/-- **C18 (partial)** A fragment made by any mirrored sequence of operations denotes the plain string:
`str`, `length`, `operator[]`, `substr` and `data` agree with it, however it is stored and however
the underlying text grew in between. -/
theorem C18_denotes_partial {f : Frag} {s : Str} (h : Reach f s) :
    str f = some s ∧ length f = s.length ∧
    (∀ i, i < s.length → charAt f i = s[i]?) ∧
    (∀ pos n, substr f pos n = stdSubstr s pos n) ∧
    (data f).take (length f) = s := by
  have hi := reach_inv h
  have hs := inv_str hi
  have hW : W = npos + 1 := by decide
  refine ⟨hs, ?_, ?_, ?_, ?_⟩
  · cases hst : f.stored with
    | true => simp [length, hst, inv_stored hi hst]
    | false =>
      obtain ⟨h2, h3, h4, h5⟩ := inv_ref hi hst
      simp [length, hst, h5]; omega
  · intro i hlt
    cases hst : f.stored with
    | true => simp [charAt, hst, inv_stored hi hst]
    | false =>
      obtain ⟨h2, h3, h4, h5⟩ := inv_ref hi hst
      have hl : s.length = f.len := by rw [h5]; simp; omega
      rw [charAt, hst]
      simp only [Bool.false_eq_true, if_false]
      rw [Nat.mod_eq_of_lt (by omega), h5, List.getElem?_take, if_pos (by omega), List.getElem?_drop]
  · intro pos n; simp [substr, hs]
  · cases hst : f.stored with
    | true => simp [data, length, hst, inv_stored hi hst]
    | false =>
      obtain ⟨h2, h3, h4, h5⟩ := inv_ref hi hst
      simp [data, length, hst, h5]

/-- **C18 (partial)** `find` returns the right position when the character occurs in the fragment
from `pos` on; otherwise it returns some number not below the length (not always `npos`). -/
theorem C18_find_partial {f : Frag} {s : Str} (h : Reach f s) (c : Byte) (pos : Nat)
    (hp : pos ≤ s.length) (hs : s.length < npos) :
    (c ∈ s.drop pos → find f c pos = stdFind s c pos) ∧
    (c ∉ s.drop pos → s.length ≤ find f c pos) := by
  have hi := reach_inv h
  have hW : W = npos + 1 := by decide
  have hnone : ∀ l : Str, l.findIdx? (· == c) = none ↔ c ∉ l := by
    intro l; rw [List.findIdx?_eq_none_iff]
    constructor
    · intro h hm; simpa using h c hm
    · intro h x hx; simp; rintro rfl; exact h hx
  cases hst : f.stored with
  | true =>
    have := inv_stored hi hst
    refine ⟨fun _ => by simp [find, hst, this], fun hn => ?_⟩
    simp only [find, hst, if_true, this, stdFind, (hnone _).2 hn]
    omega
  | false =>
    obtain ⟨h2, h3, h4, h5⟩ := inv_ref hi hst
    have hl : s.length = f.len := by rw [h5]; simp; omega
    have hm : (f.begin_ + pos) % W = f.begin_ + pos := Nat.mod_eq_of_lt (by omega)
    have hsplit : f.src.drop (f.begin_ + pos) = s.drop pos ++ f.src.drop (f.begin_ + f.len) := by
      rw [h5, List.drop_take]
      rw [← List.drop_drop (i := pos) (j := f.begin_)]
      have : f.src.drop (f.begin_ + f.len) = ((f.src.drop f.begin_).drop pos).drop (f.len - pos) := by
        rw [List.drop_drop, List.drop_drop]; congr 1; omega
      rw [this, List.take_append_drop]
    constructor
    · intro hc
      obtain ⟨i, hidx⟩ : ∃ i, (s.drop pos).findIdx? (· == c) = some i := by
        cases e : (s.drop pos).findIdx? (· == c) with
        | none => exact absurd hc ((hnone _).1 e)
        | some i => exact ⟨i, rfl⟩
      have hilt : i < (s.drop pos).length := by
        rw [List.findIdx?_eq_some_iff_getElem] at hidx
        exact hidx.1
      simp at hilt
      simp only [find, hst, Bool.false_eq_true, if_false, hm, stdFind, hsplit, findIdx_append, hidx]
      have e : f.begin_ + pos + i + W - f.begin_ = (pos + i) + W := by omega
      rw [e, Nat.add_mod_right, Nat.mod_eq_of_lt (by omega)]
    · intro hc
      simp only [find, hst, Bool.false_eq_true, if_false, hm, stdFind, hsplit, findIdx_append,
        (hnone _).2 hc]
      cases e : (f.src.drop (f.begin_ + f.len)).findIdx? (· == c) with
      | none =>
        simp only [Option.map_none]
        have e2 : npos + W - f.begin_ = (npos - f.begin_) + W := by omega
        rw [e2, Nat.add_mod_right, Nat.mod_eq_of_lt (by omega)]
        omega
      | some i =>
        have hilt : i < (f.src.drop (f.begin_ + f.len)).length := by
          rw [List.findIdx?_eq_some_iff_getElem] at e
          exact e.1
        simp only [List.length_drop] at hilt
        simp only [Option.map_some, List.length_drop]
        have e2 : f.begin_ + pos + (i + (s.length - pos)) + W - f.begin_ = (i + s.length) + W := by omega
        rw [e2, Nat.add_mod_right, Nat.mod_eq_of_lt (by omega)]
        omega

/-- **C18 fails for `append`**: appending a fragment that does not continue the receiver in the same
text replaces the receiver ("a" + "c" gives "c"). -/
theorem C18_append_false : ∃ f g h s t, Reach f s ∧ Reach g t ∧ append f g = some h ∧
    str h ≠ some (s ++ t) := by
  refine ⟨ofText [97, 98, 99] 0 1, ofText [97, 98, 99] 2 1, ofText [97, 98, 99] 2 1, [97], [99],
    .ofText _ 0 1 (by decide) (by decide), .ofText _ 2 1 (by decide) (by decide), ?_, ?_⟩
  · decide
  · decide

/-- **C18 fails for `find`**: a character after the end of the fragment is found. -/
theorem C18_find_false : ∃ f s c, Reach f s ∧ c ∉ s ∧ find f c 0 ≠ npos :=
  ⟨ofText [97, 98, 99] 0 1, [97], 99, .ofText _ 0 1 (by decide) (by decide), by decide, by decide⟩

/-- **C18 fails for fragments of stored fragments**: the second character of "abc" comes out as
"a". -/
theorem C18_sub_false : ∃ f s, Reach f s ∧ 1 + 1 ≤ s.length ∧
    str (ofFrag f 1 1) ≠ some ((s.drop 1).take 1) :=
  ⟨store [97, 98, 99], [97, 98, 99], .store _, by decide, by decide⟩

/-- A non-trivial case: two adjacent fragments of a text that grows, then a stored one. -/
example : ∃ f, Reach f [97, 98, 120] := by
  refine ⟨_, .append (s := [97, 98]) (t := [120]) (.append (s := [97]) (t := [98])
    (.grow [99] (.ofText [97, 98] 0 1 (by decide) (by decide)) (by decide) (by decide))
    (.ofText [97, 98, 99] 1 1 (by decide) (by decide)) rfl
    (.inr (.inr (.inr ⟨by decide, rfl, rfl⟩)))) (.store [120]) rfl (.inr (.inr (.inl (by decide))))⟩

end Verif.StringFrag
