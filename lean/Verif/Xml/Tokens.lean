import Verif.Xml.Escape

set_option linter.unusedVariables false
set_option linter.unusedSimpArgs false

namespace Verif.Xml
open Verif Verif.Server

theorem tag_not_text {t : Str} (h : IsTag t) : ¬IsText t := by
  obtain ⟨b, rfl, _⟩ := h
  intro h'
  exact h'.2 (by simp)

theorem tag_ne_nil {t : Str} (h : IsTag t) : t ≠ [] := by
  obtain ⟨b, rfl, _⟩ := h
  simp

theorem cut_tag {t s : Str} {ts : List Str} (ht : IsTag t) (h : Cut s ts) : Cut (t ++ s) (t :: ts) := by
  obtain ⟨⟨h1, h2⟩, h3⟩ := h
  refine ⟨⟨?_, ?_⟩, ?_⟩
  · intro x hx
    rcases List.mem_cons.1 hx with rfl | hx
    · exact Or.inl ht
    · exact h1 x hx
  · cases ts with
    | nil => simp
    | cons u ts =>
      rw [List.isChain_cons_cons]
      exact ⟨fun hh => tag_not_text ht hh.1, h2⟩
  · rcases h3 with h3 | ⟨text, rest, h4, h5, h6, h7⟩
    · left; simp [h3]
    · right
      refine ⟨text, rest, by rw [h4]; simp, h5, h6, ?_⟩
      intro x hx
      cases ts with
      | nil => simp at hx; exact hx ▸ ht
      | cons u ts => rw [List.getLast?_cons_cons] at hx; exact h7 x hx

theorem cut_text {a t s : Str} {ts : List Str} (ha : IsText a) (ht : IsTag t) (h : Cut s (t :: ts)) :
    Cut (a ++ s) (a :: t :: ts) := by
  obtain ⟨⟨h1, h2⟩, h3⟩ := h
  refine ⟨⟨?_, ?_⟩, ?_⟩
  · intro x hx
    rcases List.mem_cons.1 hx with rfl | hx
    · exact Or.inr ha
    · exact h1 x hx
  · rw [List.isChain_cons_cons]
    exact ⟨fun hh => tag_not_text ht hh.2, h2⟩
  · rcases h3 with h3 | ⟨text, rest, h4, h5, h6, h7⟩
    · left
      rw [List.flatten_cons, h3]
    · right
      refine ⟨text, rest, by rw [h4]; simp, h5, h6, ?_⟩
      intro x hx
      rw [List.getLast?_cons_cons] at hx
      exact h7 x hx

theorem xml_none {n : Nat} {s : Str} (hs : s ≠ []) (h : 60 ∉ s) : tokenizeXmlLoop (n + 1) s = [s] := by
  rw [tokenizeXmlLoop, if_neg (by simpa using hs), find_none (by simpa using h)]

theorem xml_bad {n : Nat} {a r : Str} (ha : 60 ∉ a) (hr : 62 ∉ r) :
    tokenizeXmlLoop (n + 1) (a ++ 60 :: r) = [] := by
  rw [tokenizeXmlLoop, if_neg (by simp), find_some (a := a) (b := r) (by simp) ha]
  dsimp only
  have : (a ++ 60 :: r).drop (a.length + 0) = 60 :: r := by simp
  rw [find_none (by rw [this]; simpa using hr)]

theorem xml_tag {n : Nat} {a b r : Str} (ha : 60 ∉ a) (hb : 62 ∉ b) :
    tokenizeXmlLoop (n + 1) (a ++ 60 :: (b ++ 62 :: r)) =
      (if a = [] then [] else [a]) ++ (60 :: b ++ [62]) :: tokenizeXmlLoop n r := by
  rw [tokenizeXmlLoop, if_neg (by simp), find_some (a := a) (b := b ++ 62 :: r) (by simp) ha]
  dsimp only
  have h1 : (a ++ 60 :: (b ++ 62 :: r)).drop (a.length + 0) = (60 :: b) ++ 62 :: r := by simp
  rw [find_some h1 (by simpa using hb)]
  dsimp only
  have h2 : substr (a ++ 60 :: (b ++ 62 :: r)) (a.length + 0) (some ((60 :: b).length + (a.length + 0) + 1)) =
      60 :: b ++ [62] := by
    rw [substr, h1]
    have : (60 :: b : Str).length + (a.length + 0) + 1 - (a.length + 0) = (60 :: b ++ [62] : Str).length := by
      simp; omega
    rw [this]
    have : (60 :: b ++ 62 :: r : Str) = (60 :: b ++ [62]) ++ r := by simp
    rw [this, List.take_left]
  have h3 : (a ++ 60 :: (b ++ 62 :: r)).drop ((60 :: b).length + (a.length + 0) + 1) = r := by
    have : (60 :: b : Str).length + (a.length + 0) + 1 = (a ++ 60 :: (b ++ [62])).length := by simp; omega
    rw [this]
    have : a ++ 60 :: (b ++ 62 :: r) = (a ++ 60 :: (b ++ [62])) ++ r := by simp
    rw [this, List.drop_left]
  rw [h2, h3]
  cases a with
  | nil => simp
  | cons x a => simp

theorem cut_exists : ∀ (n : Nat) (s : Str), s.length < n → Cut s (tokenizeXmlLoop n s) := by
  intro n
  induction n with
  | zero => intro s h; omega
  | succ n ih =>
    intro s h
    by_cases hs : s = []
    · subst hs
      rw [tokenizeXmlLoop, if_pos (by simp)]
      exact ⟨⟨by simp, by simp⟩, Or.inl rfl⟩
    · rcases split_at 60 s with h1 | ⟨a, r, rfl, ha⟩
      · rw [xml_none hs h1]
        exact ⟨⟨by simp [IsText, hs, h1], by simp⟩, Or.inl (by simp)⟩
      · rcases split_at 62 r with h2 | ⟨b, r', rfl, hb⟩
        · rw [xml_bad ha h2]
          exact ⟨⟨by simp, by simp⟩, Or.inr ⟨a, r, by simp, ha, h2, by simp⟩⟩
        · rw [xml_tag ha hb]
          have htag : IsTag (60 :: b ++ [62]) := ⟨b, rfl, hb⟩
          have hrest := cut_tag htag (ih r' (by simp at h; omega))
          have he : (60 :: b ++ [62]) ++ r' = 60 :: (b ++ 62 :: r') := by simp
          rw [he] at hrest
          split
          · rename_i ha0; subst ha0; simpa using hrest
          · rename_i ha0
            exact cut_text ⟨ha0, ha⟩ htag hrest

theorem cut_tail {s t : Str} {ts : List Str} (h : Cut s (t :: ts)) (hne : ts = [] → s = t ∨ IsTag t) :
    ∃ s', s = t ++ s' ∧ Cut s' ts := by
  obtain ⟨⟨h1, h2⟩, h3⟩ := h
  have hp : Pieces ts := by
    refine ⟨fun x hx => h1 x (List.mem_cons_of_mem _ hx), ?_⟩
    cases ts with
    | nil => simp
    | cons u ts => exact (List.isChain_cons_cons.1 h2).2
  rcases h3 with h3 | ⟨text, rest, h4, h5, h6, h7⟩
  · exact ⟨ts.flatten, by rw [← h3]; simp, hp, Or.inl rfl⟩
  · refine ⟨ts.flatten ++ text ++ 60 :: rest, by rw [h4]; simp, hp, Or.inr ⟨text, rest, rfl, h5, h6, ?_⟩⟩
    intro x hx
    cases ts with
    | nil => simp at hx
    | cons u ts => exact h7 x (by rw [List.getLast?_cons_cons]; exact hx)

theorem cut_unique : ∀ (n : Nat) (s : Str) (ts : List Str), s.length < n → Cut s ts → tokenizeXmlLoop n s = ts := by
  intro n
  induction n with
  | zero => intro s _ h; omega
  | succ n ih =>
    intro s ts hn h
    cases ts with
    | nil =>
      rcases h.2 with h3 | ⟨text, rest, h4, h5, h6, _⟩
      · simp at h3
        subst h3
        rw [tokenizeXmlLoop, if_pos (by simp)]
      · rw [h4]
        simp only [List.flatten_nil, List.nil_append]
        exact xml_bad h5 h6
    | cons t ts =>
      rcases h.1.1 t (by simp) with ht | ht
      · obtain ⟨s', rfl, h'⟩ := cut_tail h (fun _ => Or.inr ht)
        obtain ⟨b, rfl, hb⟩ := ht
        have he : (60 :: b ++ [62]) ++ s' = [] ++ 60 :: (b ++ 62 :: s') := by simp
        rw [he, xml_tag (by simp) hb, ih s' ts (by simp at hn; omega) h']
        simp
      · cases ts with
        | nil =>
          rcases h.2 with h3 | ⟨text, rest, h4, h5, h6, h7⟩
          · simp at h3
            subst h3
            exact xml_none ht.1 ht.2
          · exact absurd ht (tag_not_text (h7 t (by simp)))
        | cons u ts =>
          obtain ⟨s', rfl, h'⟩ := cut_tail h (by simp)
          have hu : IsTag u := by
            rcases h.1.1 u (by simp) with hu | hu
            · exact hu
            · exact absurd ⟨ht, hu⟩ (List.isChain_cons_cons.1 h.1.2).1
          obtain ⟨s'', rfl, h''⟩ := cut_tail h' (fun _ => Or.inr hu)
          obtain ⟨b, rfl, hb⟩ := hu
          have he : t ++ ((60 :: b ++ [62]) ++ s'') = t ++ 60 :: (b ++ 62 :: s'') := by simp
          rw [he, xml_tag ht.2 hb, ih s'' ts (by simp at hn; omega) h'', if_neg ht.1]
          simp

theorem cut_iff (line : Str) (ts : List Str) : tokenizeXml line = ts ↔ Cut line ts := by
  constructor
  · rintro rfl
    exact cut_exists _ _ (by omega)
  · intro h
    exact cut_unique _ _ _ (by omega) h

theorem flatten_closed : ∀ {ts : List Str}, (∀ t ∈ ts, IsTag t ∨ IsText t) → ∀ a b, ts.flatten = a ++ 60 :: b → 62 ∈ b := by
  intro ts
  induction ts with
  | nil => intro _ a b h; simp at h
  | cons t ts ih =>
    intro h a b e
    rw [List.flatten_cons] at e
    rcases List.append_eq_append_iff.1 e with ⟨c, rfl, hc⟩ | ⟨c, rfl, hc⟩
    · exact ih (fun t ht => h t (List.mem_cons_of_mem _ ht)) c b hc
    · cases c with
      | nil =>
        simp at hc
        exact ih (fun t ht => h t (List.mem_cons_of_mem _ ht)) [] b (by simpa using hc.symm)
      | cons x c =>
        simp only [List.cons_append, List.cons.injEq] at hc
        obtain ⟨rfl, rfl⟩ := hc
        rcases h _ (List.mem_cons_self) with ⟨d, hd, _⟩ | ht
        · have : (a ++ 60 :: c).getLast? = some 62 := by rw [hd, List.getLast?_concat]
          cases c with
          | nil => simp at this
          | cons y c =>
            have hm : (62 : Byte) ∈ (y :: c) := by
              have h2 : (a ++ 60 :: y :: c).getLast? = (y :: c).getLast? := by
                rw [show a ++ 60 :: y :: c = (a ++ [60]) ++ (y :: c) by simp, List.getLast?_append_of_ne_nil _ (by simp)]
              rw [h2] at this
              exact List.mem_of_mem_getLast? this
            simp at hm ⊢
            tauto
        · exact absurd (by simp) ht.2

theorem whole_iff (line : Str) :
    (tokenizeXml line).flatten = line ↔ ∀ a b, line = a ++ 60 :: b → 62 ∈ b := by
  have h := (cut_iff line _).1 rfl
  constructor
  · intro e a b hab
    exact flatten_closed h.1.1 a b (by rw [e]; exact hab)
  · intro hall
    rcases h.2 with h3 | ⟨text, rest, h4, h5, h6, _⟩
    · exact h3
    · exact absurd (hall _ rest h4) h6

end Verif.Xml
