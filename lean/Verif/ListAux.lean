/-! Small facts about lists used in several areas. -/
namespace Verif

theorem nodup_length_le' {α : Type} [DecidableEq α] {l U : List α} (h : l.Nodup)
    (hs : ∀ n ∈ l, n ∈ U) : l.length ≤ U.length := by
  induction l generalizing U with
  | nil => simp
  | cons a l ih =>
    rw [List.nodup_cons] at h
    have ha := hs a (by simp)
    have := ih (U := U.erase a) h.2 (fun n hn => by
      have hne : n ≠ a := by rintro rfl; exact h.1 hn
      exact (List.mem_erase_of_ne hne).2 (hs n (by simp [hn])))
    rw [List.length_erase_of_mem ha] at this
    have hp : 0 < U.length := List.length_pos_of_mem ha
    simp; omega

/-- A list of `n` distinct numbers below `n` contains all of them. -/
theorem mem_of_nodup_lt {l : List Nat} (h : l.Nodup) (hb : ∀ x ∈ l, x < l.length) {j : Nat}
    (hj : j < l.length) : j ∈ l := by
  by_cases hm : j ∈ l
  · exact hm
  · have h1 : (j :: l).Nodup := List.nodup_cons.2 ⟨hm, h⟩
    have := nodup_length_le' (U := List.range l.length) h1 (by
      intro n hn; simp at hn ⊢
      rcases hn with rfl | hn
      · exact hj
      · exact hb n hn)
    simp at this; omega

end Verif
