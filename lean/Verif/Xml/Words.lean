import Verif.Xml.Attr

set_option linter.unusedVariables false
set_option linter.unusedSimpArgs false

namespace Verif.Xml
open Verif Verif.Server

/-- The parts between separators. -/
def parts (f : Byte → Bool) (s : Str) : List Str := (s.splitOnP f).filter (fun w => !w.isEmpty)

theorem splitOnP_append_sep (f : Byte → Bool) {c : Byte} (hc : f c = true) : ∀ s t : Str,
    (s ++ c :: t).splitOnP f = s.splitOnP f ++ t.splitOnP f := by
  intro s t
  induction s with
  | nil => simp [List.splitOnP_cons, hc, List.splitOnP_nil]
  | cons x s ih =>
    rw [List.cons_append, List.splitOnP_cons, List.splitOnP_cons, ih]
    split
    · simp
    · have := List.splitOnP_ne_nil f s
      cases h : s.splitOnP f with
      | nil => exact absurd h this
      | cons a l => simp

theorem parts_append (f : Byte → Bool) {c : Byte} (hc : f c = true) (s t : Str) :
    parts f (s ++ c :: t) = parts f s ++ parts f t := by
  simp [parts, splitOnP_append_sep f hc]

theorem parts_nil (f : Byte → Bool) : parts f [] = [] := by simp [parts, List.splitOnP_nil]

theorem parts_word (f : Byte → Bool) {a : Str} (ha : a ≠ []) (h : ∀ c ∈ a, f c = false) : parts f a = [a] := by
  rw [parts, List.splitOnP_eq_singleton (by simpa using h)]
  simp [ha]

theorem parts_skip (f : Byte → Bool) : ∀ s : Str, parts f (s.dropWhile f) = parts f s := by
  intro s
  induction s with
  | nil => rfl
  | cons c s ih =>
    by_cases hc : f c = true
    · rw [List.dropWhile_cons_of_pos hc, ih]
      have := parts_append f hc [] s
      rw [parts_nil] at this
      simpa using this.symm
    · rw [List.dropWhile_cons_of_neg hc]

theorem tokenizeLoop_parts (d : Str) : ∀ (n : Nat) (s : Str), s.length < n →
    tokenizeLoop d n s = parts (fun c => d.contains c) s := by
  intro n
  induction n with
  | zero => intro s h; omega
  | succ n ih =>
    intro s h
    rw [tokenizeLoop, ← parts_skip]
    have hlen : (s.dropWhile (fun c => d.contains c)).length ≤ s.length := (List.dropWhile_suffix _).length_le
    have hhead : ∀ c r, s.dropWhile (fun c => d.contains c) = c :: r → d.contains c = false := by
      intro c r he
      have := List.head?_dropWhile_not (p := fun c => d.contains c) (l := s)
      rw [he] at this
      simpa using this
    generalize s.dropWhile (fun c => d.contains c) = t at hlen hhead ⊢
    cases t with
    | nil => simp [parts_nil]
    | cons c r =>
      have hc := hhead c r rfl
      rw [if_neg (by simp)]
      have hsplit := List.takeWhile_append_dropWhile (p := fun c => !d.contains c) (l := c :: r)
      have hd := List.head?_dropWhile_not (p := fun c => !d.contains c) (l := c :: r)
      have htw : ∀ x ∈ (c :: r).takeWhile (fun c => !d.contains c), d.contains x = false := by
        intro x hx
        have := List.all_eq_true.1 (List.all_takeWhile (p := fun c => !d.contains c) (l := c :: r)) x hx
        simpa using this
      have hne : (c :: r).takeWhile (fun c => !d.contains c) ≠ [] := by
        rw [List.takeWhile_cons_of_pos (by simpa using hc)]
        simp
      have hl : ((c :: r).dropWhile (fun c => !d.contains c)).length < (c :: r).length := by
        rw [List.dropWhile_cons_of_pos (by simpa using hc)]
        have := (List.dropWhile_suffix (l := r) (fun c => !d.contains c)).length_le
        simp only [List.length_cons]
        omega
      rw [ih _ (by omega)]
      generalize (c :: r).takeWhile (fun c => !d.contains c) = a at hsplit htw hne ⊢
      generalize (c :: r).dropWhile (fun c => !d.contains c) = b at hsplit hd hl ⊢
      rw [← hsplit]
      cases b with
      | nil => rw [parts_nil, List.append_nil, parts_word _ hne htw]
      | cons x b =>
        have hx : d.contains x = true := by simpa using hd
        rw [parts_append _ hx, parts_word _ hne htw]
        have := parts_append _ hx [] b
        rw [parts_nil] at this
        rw [List.nil_append, List.nil_append] at this
        rw [this]
        rfl

theorem tokenize_parts (d s : Str) : tokenize d s = parts (fun c => d.contains c) s :=
  tokenizeLoop_parts d _ s (by omega)

theorem tokenize_words (s : Str) : tokenize [32, 9] s = words s := by
  rw [tokenize_parts, parts, words]
  congr 2
  funext c
  simp only [List.contains_cons, List.contains_nil, Bool.or_false]
  rfl

theorem tokenize_dash (s : Str) : tokenize [45] s = (s.splitOnP (fun c => c = 45)).filter (fun w => !w.isEmpty) := by
  rw [tokenize_parts, parts]
  congr 2
  funext c
  simp only [List.contains_cons, List.contains_nil, Bool.or_false]
  rfl

theorem words_append {c : Byte} (hc : c = 32 ∨ c = 9) (s t : Str) : words (s ++ c :: t) = words s ++ words t :=
  parts_append (fun c => c = 32 || c = 9) (by simpa using hc) s t

theorem words_nil : words [] = [] := parts_nil _

theorem words_glue (a b : Str) : words (glue a b) = words a ++ words b := by
  rw [glue]
  split
  · rename_i h
    rcases h with rfl | h | h
    · simp [words_nil]
    · obtain ⟨a', rfl⟩ := List.getLast?_eq_some_iff.1 h
      have h1 := words_append (Or.inl rfl) a' b
      have h2 := words_append (Or.inl rfl) a' []
      rw [words_nil, List.append_nil] at h2
      rw [h2, ← h1]
      simp
    · cases b with
      | nil => simp at h
      | cons x b =>
        simp only [List.head?_cons, Option.some.injEq] at h
        subst h
        have h2 := words_append (Or.inl rfl) [] b
        rw [words_nil] at h2
        rw [words_append (Or.inl rfl), ← List.nil_append (words b), ← h2]
        simp
  · exact words_append (Or.inl rfl) a b

theorem words_fold : ∀ (l : List Str) (a : Str), words (l.foldl glue a) = words a ++ l.flatMap words := by
  intro l
  induction l with
  | nil => intro a; simp
  | cons b l ih => intro a; rw [List.foldl_cons, ih, words_glue]; simp

theorem count_texts : ∀ its : Items, its.count = (its.texts.flatMap words).length := by
  intro its
  induction its with
  | nil => rfl
  | text t r ih => rw [Items.count, Items.texts, List.flatMap_cons, List.length_append, ih]
  | elem _ _ i r ih1 ih2 => rw [Items.count, Items.texts, List.flatMap_append, List.length_append, ih1, ih2]
  | single _ _ r ih => rw [Items.count, Items.texts, ih]

end Verif.Xml
