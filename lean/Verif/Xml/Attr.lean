import Verif.Xml.Tokens

set_option linter.unusedVariables false
set_option linter.unusedSimpArgs false

namespace Verif.Xml
open Verif Verif.Server

theorem findStr_some {pat : Str} (hp : pat ≠ []) : ∀ {s : Str} {i : Nat}, findStr pat s = some i →
    ∃ pre rest, s = pre ++ pat ++ rest ∧ pre.length = i ∧
      ∀ pre' rest', s = pre' ++ pat ++ rest' → rest'.length ≤ rest.length := by
  intro s
  induction s with
  | nil => intro i h; simp [findStr, hp] at h
  | cons c s ih =>
    intro i h
    rw [findStr] at h
    split at h
    · rename_i hpre
      rw [List.isPrefixOf_iff_prefix] at hpre
      obtain ⟨rest, hr⟩ := hpre
      simp only [Option.some.injEq] at h
      refine ⟨[], rest, by simp [hr], by simpa using h, ?_⟩
      intro pre' rest' he
      have h1 := congrArg List.length he
      have h2 := congrArg List.length hr
      simp at h1 h2
      omega
    · rename_i hpre
      rw [List.isPrefixOf_iff_prefix] at hpre
      rw [Option.map_eq_some_iff] at h
      obtain ⟨j, hj, rfl⟩ := h
      obtain ⟨pre, rest, h1, h2, h3⟩ := ih hj
      refine ⟨c :: pre, rest, by simp [h1], by simp [h2], ?_⟩
      intro pre' rest' he
      cases pre' with
      | nil => exact absurd ⟨rest', by simpa using he.symm⟩ hpre
      | cons x pre' =>
        simp only [List.cons_append, List.cons.injEq] at he
        exact h3 pre' rest' he.2

theorem findStr_none {pat : Str} (hp : pat ≠ []) : ∀ {s : Str}, findStr pat s = none →
    ∀ pre rest, s ≠ pre ++ pat ++ rest := by
  intro s
  induction s with
  | nil => intro _ pre rest h; have := congrArg List.length h; have hp' := List.length_pos_iff.2 hp; simp at this; omega
  | cons c s ih =>
    intro h pre rest he
    rw [findStr] at h
    split at h
    · simp at h
    · rename_i hpre
      rw [List.isPrefixOf_iff_prefix] at hpre
      rw [Option.map_eq_none_iff] at h
      cases pre with
      | nil => exact hpre ⟨rest, by simpa using he.symm⟩
      | cons x pre =>
        simp only [List.cons_append, List.cons.injEq] at he
        exact ih h pre rest he.2

theorem firstAt_unique {pat tag r r' : Str} (h : FirstAt pat tag r) (h' : FirstAt pat tag r') : r = r' := by
  obtain ⟨⟨p, hp⟩, h1⟩ := h
  obtain ⟨⟨p', hp'⟩, h2⟩ := h'
  have e1 := h1 p' r' hp'
  have e2 := h2 p r hp
  have : (p ++ pat) ++ r = (p' ++ pat) ++ r' := by rw [← hp, ← hp']
  exact (List.append_inj_right' this (by omega))

/-- Each quote of the value, except one at the beginning, is preceded by a backslash. -/
def Escaped (v : Str) : Prop := ∀ a b, v = a ++ 34 :: b → a = [] ∨ a.getLast? = some 92

theorem inner_extend {v b : Str} (h : Escaped v) (hl : v.getLast? = some 92) (hb : 34 ∉ b) :
    Escaped (v ++ 34 :: b) := by
  intro a c e
  rcases List.append_eq_append_iff.1 e with ⟨d, rfl, hd⟩ | ⟨d, rfl, hd⟩
  · cases d with
    | nil => right; simpa using hl
    | cons x d =>
      simp only [List.cons_append, List.cons.injEq] at hd
      exact absurd (by rw [hd.2]; simp) hb
  · cases d with
    | nil => right; simpa using hl
    | cons x d =>
      simp only [List.cons_append, List.cons.injEq] at hd
      obtain ⟨rfl, rfl⟩ := hd
      exact h a d rfl

theorem inner_first {x : Byte} {b : Str} (hb : 34 ∉ b) : Escaped (x :: b) := by
  intro a c e
  cases a with
  | nil => left; rfl
  | cons y a =>
    simp only [List.cons_append, List.cons.injEq] at e
    exact absurd (by rw [e.2]; simp) hb

theorem quoted_unique {v v' post post' : Str} (h : Quoted v post) (h' : Quoted v' post')
    (e : v ++ 34 :: post = v' ++ 34 :: post') : v = v' := by
  have key : ∀ {v v' post post' : Str}, Quoted v post → Quoted v' post' → ∀ d, v' = v ++ d →
      34 :: post = d ++ 34 :: post' → v = v' := by
    intro v v' post post' h h' d hd e
    cases d with
    | nil => simp [hd]
    | cons x d =>
      simp only [List.cons_append, List.cons.injEq] at e
      obtain ⟨rfl, rfl⟩ := e
      rcases h'.2.1 v d hd with h1 | h1
      · exact absurd h1 h.1
      · rcases h.2.2 with h2 | h2
        · exact absurd h1 h2
        · exact absurd (by simp) h2
  rcases List.append_eq_append_iff.1 e with ⟨d, h1, h2⟩ | ⟨d, h1, h2⟩
  · exact key h h' d h1 h2
  · exact (key h' h d h1 h2).symm

theorem attrEnd_spec (tag : Str) (start : Nat) : ∀ (n : Nat) (v post : Str), tag.drop start = v ++ 34 :: post →
    v ≠ [] → Escaped v → post.length < n →
    ∃ v' post', v ++ 34 :: post = v' ++ 34 :: post' ∧ Quoted v' post' ∧
      attrEnd tag n (start + v.length) = start + v'.length := by
  intro n
  induction n with
  | zero => intro v post _ _ _ h; omega
  | succ n ih =>
    intro v post hd hv hi hn
    have hlast : tag[start + v.length - 1]? = v.getLast? := by
      have hp : 0 < v.length := List.length_pos_iff.2 hv
      have : start + v.length - 1 = start + (v.length - 1) := by omega
      rw [this, ← List.getElem?_drop, hd, List.getElem?_append_left (by omega), List.getLast?_eq_getElem?]
    rw [attrEnd, hlast]
    by_cases hl : v.getLast? = some 92
    · rw [if_pos hl]
      have hd2 : tag.drop (start + v.length + 1) = post := by
        rw [Nat.add_assoc, ← List.drop_drop, hd, ← List.drop_drop]
        simp
      rcases split_at 34 post with hp | ⟨b, post', rfl, hb⟩
      · rw [find_none (by rw [hd2]; exact hp)]
        exact ⟨v, post, rfl, ⟨hv, hi, Or.inr hp⟩, rfl⟩
      · rw [find_some hd2 hb]
        dsimp only
        obtain ⟨v', post'', h1, h2, h3⟩ := ih (v ++ 34 :: b) post' (by rw [hd]; simp) (by simp)
          (inner_extend hi hl hb) (by simp at hn; omega)
        refine ⟨v', post'', by rw [← h1]; simp, h2, ?_⟩
        rw [← h3]
        congr 1
        simp
        omega
    · rw [if_neg hl]
      exact ⟨v, post, rfl, ⟨hv, hi, Or.inl hl⟩, rfl⟩

theorem attrValue_iff (tag name v : Str) : attrValue tag name = v ↔ HasAttr tag name v := by
  have main : HasAttr tag name (attrValue tag name) := by
    have hp : name ++ [61, 34] ≠ [] := by simp
    rw [attrValue]
    dsimp only
    cases hf : findStr (name ++ [61, 34]) tag with
    | none =>
      right
      refine ⟨rfl, ?_⟩
      rintro ⟨v', post, ⟨⟨pre, h⟩, _⟩, _⟩
      exact findStr_none hp hf pre _ h
    | some i =>
      obtain ⟨pre, rest, h1, h2, h3⟩ := findStr_some hp hf
      have hfirst : FirstAt (name ++ [61, 34]) tag rest := ⟨⟨pre, h1⟩, h3⟩
      have hd : tag.drop (i + (name ++ [61, 34]).length) = rest := by
        rw [h1, ← h2, ← List.length_append, List.drop_left]
      dsimp only
      generalize i + (name ++ [61, 34]).length = start at hd ⊢
      have hd1 : tag.drop (start + 1) = rest.drop 1 := by rw [← List.drop_drop, hd]
      cases rest with
      | nil =>
        rw [find_none (by rw [hd1]; simp)]
        right
        refine ⟨rfl, ?_⟩
        rintro ⟨v', post, hf', _⟩
        have := firstAt_unique hfirst hf'
        simp at this
      | cons x r =>
        rcases split_at 34 r with hr | ⟨b, post, rfl, hb⟩
        · rw [find_none (by rw [hd1]; simpa using hr)]
          right
          refine ⟨rfl, ?_⟩
          rintro ⟨v', post, hf', hq⟩
          have := firstAt_unique hfirst hf'
          cases v' with
          | nil => exact hq.1 rfl
          | cons y v' =>
            simp only [List.cons_append, List.cons.injEq] at this
            exact hr (by rw [this.2]; simp)
        · rw [find_some (a := b) (b := post) (by rw [hd1]; simp) hb]
          dsimp only
          left
          have hlen : tag.length = start + (b.length + post.length + 2) := by
            have hle : start ≤ tag.length := by
              by_contra hc
              rw [List.drop_eq_nil_of_le (by omega)] at hd
              simp at hd
            have := congrArg List.length hd
            simp at this
            omega
          obtain ⟨v', post', e1, e2, e3⟩ := attrEnd_spec tag start tag.length (x :: b) post (by rw [hd]; simp)
            (by simp) (inner_first hb) (by omega)
          have : b.length + (start + 1) = start + (x :: b).length := by simp; omega
          rw [this, e3]
          have hsub : substr tag start (some (start + v'.length)) = v' := by
            rw [substr, hd]
            have : x :: (b ++ 34 :: post) = v' ++ 34 :: post' := by rw [← e1]; simp
            rw [this]
            simp
          rw [hsub]
          refine ⟨post', ?_, e2⟩
          rw [← e1]
          simpa using hfirst
  constructor
  · rintro rfl
    exact main
  · intro h
    rcases main with ⟨post, hf, hq⟩ | ⟨h1, h2⟩
    · rcases h with ⟨post', hf', hq'⟩ | ⟨_, h'⟩
      · exact quoted_unique hq hq' (firstAt_unique hf hf')
      · exact absurd ⟨_, post, hf, hq⟩ h'
    · rcases h with ⟨post', hf', hq'⟩ | ⟨h', _⟩
      · exact absurd ⟨_, post', hf', hq'⟩ h2
      · rw [h1, h']

theorem occurs_later {n n1 v1 T pre rest : Str} (hn : IsName n) (h1 : IsName n1) (hv : IsValue v1)
    (hl : v1.getLast? ≠ some 61) (hs : ∀ x, n1 ≠ x ++ n)
    (e : attrText (n1, v1) ++ T = pre ++ (n ++ [61, 34]) ++ rest) :
    (T.head?.getD 32 = 32) → ∃ S pre', T = 32 :: S ∧ S = pre' ++ (n ++ [61, 34]) ++ rest := by
  intro hT
  have e1 : (pre ++ n ++ [61]) ++ 34 :: rest = (n1 ++ [61]) ++ 34 :: (v1 ++ 34 :: T) := by
    rw [attrText] at e
    simp only [List.append_assoc, List.cons_append, List.nil_append] at e ⊢
    exact e.symm
  have hq1 : (34 : Byte) ∉ n1 ++ [61] := by
    intro h
    rcases List.mem_append.1 h with h | h
    · exact (h1.2 _ h).2.2 rfl
    · simp at h
  have hq0 : ∀ c ∈ n ++ [61], c ≠ 34 ∧ c ≠ 32 := by
    intro c h
    rcases List.mem_append.1 h with h | h
    · exact ⟨(hn.2 _ h).2.2, (hn.2 _ h).1⟩
    · simp at h; subst h; decide
  -- the quote of the occurrence is not before the first quote
  rcases List.append_eq_append_iff.1 e1 with ⟨d, h2, h3⟩ | ⟨d, h2, h3⟩
  · cases d with
    | nil =>
      simp only [List.append_nil] at h2
      have : n1 = pre ++ n := List.append_cancel_right h2
      exact absurd this (hs pre)
    | cons x d =>
      simp only [List.cons_append, List.cons.injEq] at h3
      rw [h2, ← h3.1] at hq1
      exact absurd (by simp) hq1
  · cases d with
    | nil =>
      simp only [List.append_nil] at h2
      have : n1 = pre ++ n := (List.append_cancel_right h2).symm
      exact absurd this (hs pre)
    | cons x d =>
      simp only [List.cons_append, List.cons.injEq] at h3
      obtain ⟨rfl, h3⟩ := h3
      have hlast : d ≠ v1 := by
        rintro rfl
        have := congrArg List.getLast? h2
        rw [List.getLast?_concat, List.getLast?_append_of_ne_nil _ (by simp)] at this
        cases hv' : d with
        | nil => exact hv.1 hv'
        | cons y v => rw [hv', List.getLast?_cons_cons, ← hv'] at this; exact hl this.symm
      rcases List.append_eq_append_iff.1 h3.symm with ⟨f, h4, h5⟩ | ⟨f, h4, h5⟩
      · cases f with
        | nil => exact absurd (by simpa using h4.symm) hlast
        | cons y f =>
          exfalso
          simp only [List.cons_append, List.cons.injEq] at h5
          exact hv.2.1 (by rw [h4, ← h5.1]; simp)
      · cases f with
        | nil => exact absurd (by simpa using h4) hlast
        | cons y f =>
          simp only [List.cons_append, List.cons.injEq] at h5
          obtain ⟨rfl, h5⟩ := h5
          rw [h5] at hT
          cases f with
          | nil => simp at hT
          | cons z f =>
            simp only [List.cons_append, List.head?_cons, Option.getD_some] at hT
            subst hT
            refine ⟨f ++ 34 :: rest, ?_⟩
            rw [h4] at h2
            have h6 : pre ++ (n ++ [61]) = (n1 ++ [61] ++ 34 :: (v1 ++ [34, 32])) ++ f := by
              have h7 := h2
              simp only [List.append_assoc, List.cons_append, List.nil_append] at h7 ⊢
              exact h7
            rcases List.append_eq_append_iff.1 h6 with ⟨g, h7, h8⟩ | ⟨g, h7, h8⟩
            · have hg : g = [] := by
                by_contra hg
                have := congrArg List.getLast? h7
                have hlast : (n1 ++ [61] ++ 34 :: (v1 ++ [34, 32]) : Str).getLast? = some 32 := by
                  rw [show (n1 ++ [61] ++ 34 :: (v1 ++ [34, 32]) : Str) = (n1 ++ [61] ++ 34 :: (v1 ++ [34])) ++ [32] by simp,
                    List.getLast?_concat]
                rw [hlast, List.getLast?_append_of_ne_nil _ hg] at this
                have hm : (32 : Byte) ∈ g := List.mem_of_mem_getLast? this.symm
                exact (hq0 32 (by rw [h8]; simp [hm])).2 rfl
              subst hg
              refine ⟨[], by rw [h5]; simp, ?_⟩
              simp only [List.nil_append] at h8
              rw [← h8]
              simp
            · refine ⟨g, by rw [h5]; simp, ?_⟩
              rw [h8]
              simp

theorem flat_head (l : List (Str × Str)) : (l.flatMap (fun y => 32 :: attrText y)).head?.getD 32 = 32 := by
  cases l with
  | nil => rfl
  | cons x l => rfl

theorem attrs_absent {n : Str} (hn : IsName n) : ∀ l : List (Str × Str), (∀ x ∈ l, Harmless n x) →
    ∀ pre rest, attrsText l ≠ pre ++ (n ++ [61, 34]) ++ rest := by
  intro l
  induction l with
  | nil => intro _ pre rest h; simp [attrsText] at h
  | cons x l ih =>
    intro h pre rest e
    obtain ⟨h1, h2, h3, h4⟩ := h x (by simp)
    rw [attrsText] at e
    obtain ⟨S, pre', e1, e2⟩ := occurs_later hn h1 h2 h3 h4 e (flat_head l)
    cases l with
    | nil => simp at e1
    | cons y l =>
      rw [List.flatMap_cons] at e1
      simp only [List.cons_append, List.cons.injEq, true_and] at e1
      exact ih (fun z hz => h z (List.mem_cons_of_mem _ hz)) pre' rest (by rw [attrsText, e1, e2])

theorem attrs_first {n v : Str} (hn : IsName n) : ∀ (l l' : List (Str × Str)), (∀ x ∈ l, Harmless n x) →
    FirstAt (n ++ [61, 34]) (attrsText (l ++ (n, v) :: l')) (v ++ 34 :: l'.flatMap (fun y => 32 :: attrText y)) := by
  intro l l'
  induction l with
  | nil =>
    intro _
    have he : attrsText ([] ++ (n, v) :: l') =
        [] ++ (n ++ [61, 34]) ++ (v ++ 34 :: l'.flatMap (fun y => 32 :: attrText y)) := by
      simp [attrsText, attrText]
    refine ⟨⟨[], he⟩, ?_⟩
    intro pre rest e
    rw [he] at e
    have := congrArg List.length e
    simp only [List.length_append, List.length_cons, List.length_nil] at this ⊢
    omega
  | cons x l ih =>
    intro h
    obtain ⟨h1, h2, h3, h4⟩ := h x (by simp)
    obtain ⟨⟨pre, e⟩, hmin⟩ := ih (fun z hz => h z (List.mem_cons_of_mem _ hz))
    have hne : ∃ y m, l ++ (n, v) :: l' = y :: m := by
      cases l with
      | nil => exact ⟨_, _, rfl⟩
      | cons y l => exact ⟨_, _, rfl⟩
    obtain ⟨y, m, hm⟩ := hne
    have hcons : attrsText (x :: l ++ (n, v) :: l') = attrText x ++ 32 :: attrsText (l ++ (n, v) :: l') := by
      rw [List.cons_append, hm, attrsText, attrsText, List.flatMap_cons]
      simp
    refine ⟨⟨attrText x ++ 32 :: pre, ?_⟩, ?_⟩
    · rw [hcons, e]; simp
    · intro pre' rest' e'
      rw [hcons] at e'
      obtain ⟨S, pre'', e1, e2⟩ := occurs_later hn h1 h2 h3 h4 e' (by simp)
      simp only [List.cons.injEq, true_and] at e1
      exact hmin pre'' rest' (by rw [e1, e2])

theorem attrs_value {n v : Str} (hn : IsName n) (hv : IsValue v) (l l' : List (Str × Str))
    (h : ∀ x ∈ l, Harmless n x) : attrValue (attrsText (l ++ (n, v) :: l')) n = v := by
  rw [attrValue_iff]
  left
  refine ⟨_, attrs_first hn l l' h, hv.1, ?_, Or.inl hv.2.2⟩
  intro a b e
  exact absurd (by rw [e]; simp) hv.2.1

theorem attrs_none {n : Str} (hn : IsName n) (l : List (Str × Str))
    (h : ∀ x ∈ l, Harmless n x) : attrValue (attrsText l) n = [] := by
  rw [attrValue_iff]
  right
  refine ⟨rfl, ?_⟩
  rintro ⟨v', post, ⟨⟨pre, e⟩, _⟩, _⟩
  exact attrs_absent hn l h _ _ e

end Verif.Xml
