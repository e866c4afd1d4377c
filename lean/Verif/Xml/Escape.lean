import Verif.Xml.Spec

set_option linter.unusedVariables false
set_option linter.unusedSimpArgs false

namespace Verif.Xml
open Verif Verif.Server

theorem findIdx_append {c : Byte} : ∀ {a : Str} (b : Str), c ∉ a →
    (a ++ c :: b).findIdx? (fun x => x == c) = some a.length := by
  intro a
  induction a with
  | nil => intro b _; simp [List.findIdx?_cons]
  | cons x a ih =>
    intro b h
    have h1 : x ≠ c := fun e => h (by simp [e])
    have h2 : c ∉ a := fun e => h (by simp [e])
    simp [List.findIdx?_cons, h1, ih b h2]

theorem findIdx_none {c : Byte} {a : Str} (h : c ∉ a) : a.findIdx? (fun x => x == c) = none := by
  rw [List.findIdx?_eq_none_iff]
  intro x hx
  have : x ≠ c := fun e => h (e ▸ hx)
  simpa using this

theorem find_some {s a b : Str} {c : Byte} {p : Nat} (h : s.drop p = a ++ c :: b) (hc : c ∉ a) :
    find s c p = some (a.length + p) := by
  simp [find, h, findIdx_append b hc]

theorem find_none {s : Str} {c : Byte} {p : Nat} (h : c ∉ s.drop p) : find s c p = none := by
  simp [find, findIdx_none h]

theorem split_at (c : Byte) : ∀ s : Str, c ∉ s ∨ ∃ a b, s = a ++ c :: b ∧ c ∉ a := by
  intro s
  induction s with
  | nil => left; simp
  | cons x s ih =>
    by_cases hx : x = c
    · right; exact ⟨[], s, by simp [hx], by simp⟩
    · rcases ih with h | ⟨a, b, h, ha⟩
      · left; simp [h, Ne.symm hx]
      · right; exact ⟨x :: a, b, by simp [h], by simp [ha, Ne.symm hx]⟩

theorem charOf_mem {name : Str} {c : Byte} : charOf name = some c ↔ (name, c) ∈ names := by
  constructor
  · intro h
    simp only [charOf] at h
    repeat' split at h
    all_goals first
      | (simp only [Option.some.injEq] at h; subst h; subst_vars; decide +kernel)
      | simp at h
  · intro h
    have : ∀ x ∈ names, charOf x.1 = some x.2 := by decide +kernel
    exact this _ h

theorem names_clean {name : Str} {c : Byte} (h : (name, c) ∈ names) : 59 ∉ name ∧ 38 ∉ name := by
  have : ∀ x ∈ names, (59 : Byte) ∉ x.1 ∧ (38 : Byte) ∉ x.1 := by decide +kernel
  exact this _ h

theorem Encodes.plains : ∀ {a : Str}, 38 ∉ a → ∀ {s e : Str}, Encodes s e → Encodes (a ++ s) (a ++ e) := by
  intro a
  induction a with
  | nil => intro _ s e h; exact h
  | cons c a ih =>
    intro hc s e h
    have h1 : c ≠ 38 := fun e => hc (by simp [e])
    exact Encodes.plain c h1 (ih (fun e => hc (by simp [e])) h)

theorem Encodes.append {s e s' e' : Str} (h : Encodes s e) (h' : Encodes s' e') :
    Encodes (s ++ s') (e ++ e') := by
  induction h with
  | nil => exact h'
  | plain c hc _ ih => exact Encodes.plain c hc ih
  | named name c hc _ ih =>
    have := Encodes.named name c hc ih
    simpa using this

theorem Encodes.split : ∀ {a : Str}, 38 ∉ a → ∀ {t e : Str}, Encodes t (a ++ e) →
    ∃ t', t = a ++ t' ∧ Encodes t' e := by
  intro a
  induction a with
  | nil => intro _ t e h; exact ⟨t, rfl, h⟩
  | cons c a ih =>
    intro hc t e h
    have h1 : c ≠ 38 := fun e => hc (by simp [e])
    generalize hr : (c :: a ++ e : Str) = w at h
    cases h with
    | nil => simp at hr
    | plain _ _ h =>
      simp only [List.cons_append, List.cons.injEq] at hr
      obtain ⟨rfl, rfl⟩ := hr
      obtain ⟨t', rfl, h'⟩ := ih (fun e => hc (by simp [e])) h
      exact ⟨t', rfl, h'⟩
    | named name c' hn h =>
      simp only [List.cons_append, List.cons.injEq] at hr
      exact absurd hr.1 h1

theorem append_cons_inj {c : Byte} : ∀ {a a' b b' : Str}, c ∉ a → c ∉ a' →
    a ++ c :: b = a' ++ c :: b' → a = a' ∧ b = b' := by
  intro a
  induction a with
  | nil =>
    intro a' b b' _ h' e
    cases a' with
    | nil => simpa using e
    | cons x a' => simp at e; exact absurd (by simp [e.1]) h'
  | cons x a ih =>
    intro a' b b' h h' e
    cases a' with
    | nil => simp at e; exact absurd (by simp [e.1]) h
    | cons y a' =>
      simp at e
      obtain ⟨rfl, e⟩ := e
      obtain ⟨rfl, rfl⟩ := ih (fun m => h (by simp [m])) (fun m => h' (by simp [m])) e
      exact ⟨rfl, rfl⟩

theorem Encodes.head {t r : Str} (h : Encodes t (38 :: r)) :
    ∃ name c t' e', (name, c) ∈ names ∧ r = name ++ 59 :: e' ∧ t = c :: t' ∧ Encodes t' e' := by
  generalize hr : (38 :: r : Str) = e at h
  cases h with
  | nil => simp at hr
  | plain c hc h => simp only [List.cons.injEq] at hr; exact absurd hr.1.symm hc
  | @named name c s' e'' hn h' =>
    simp only [List.cons_append, List.cons.injEq, true_and] at hr
    exact ⟨name, c, s', e'', hn, hr, rfl, h'⟩

/-- One round of the loop. -/
theorem loop_step {str a name r : Str} {c : Byte} {start n : Nat} {s : Str}
    (h : str.drop start = a ++ 38 :: (name ++ 59 :: r)) (ha : 38 ∉ a) (hn : (name, c) ∈ names) :
    unescapeLoop str (n + 1) start s =
      if r = [] then some (.ok (s ++ a ++ [c]))
      else unescapeLoop str n (start + a.length + name.length + 2) (s ++ a ++ [c]) := by
  have hc := names_clean hn
  have h2 : str.drop (a.length + start) = 38 :: (name ++ 59 :: r) := by
    rw [Nat.add_comm, ← List.drop_drop, h]; simp
  have h3 : str.drop (a.length + start + 1) = name ++ 59 :: r := by
    rw [← List.drop_drop, h2]; simp
  have hf1 := find_some h ha
  have hf2 : find str 59 (a.length + start) = some ((38 :: name).length + (a.length + start)) :=
    find_some (a := 38 :: name) (b := r) (by rw [h2]; simp) (by simpa using hc.1)
  have hlen : str.length = start + a.length + name.length + 2 + r.length := by
    have hne : start ≤ str.length := by
      by_contra hlt
      rw [List.drop_eq_nil_of_le (by omega)] at h
      simp at h
    have := congrArg List.length h
    simp at this
    omega
  rw [unescapeLoop, hf1]
  simp only [hf2]
  have hsub : substr str (a.length + start + 1) (some ((38 :: name).length + (a.length + start))) = name := by
    rw [substr, h3]
    have : (38 :: name).length + (a.length + start) - (a.length + start + 1) = name.length := by
      simp; omega
    rw [this]
    simp
  rw [hsub, (charOf_mem).2 hn]
  have hsub2 : substr str start (some (a.length + start)) = a := by
    rw [substr, h]
    simp
  rw [hsub2]
  dsimp only
  have hiff : (some ((38 :: name).length + (a.length + start)) = some (str.length - 1)) ↔ r = [] := by
    rw [Option.some.injEq, hlen]
    simp only [List.length_cons]
    constructor
    · intro e
      have : r.length = 0 := by omega
      exact List.eq_nil_of_length_eq_zero this
    · intro e
      subst e
      simp
      omega
  have hnext : (38 :: name : Str).length + (a.length + start) + 1 = start + a.length + name.length + 2 := by
    simp; omega
  simp only [hiff]
  rw [hnext]

theorem drop_next {str a name r : Str} {start : Nat} (h : str.drop start = a ++ 38 :: (name ++ 59 :: r)) :
    str.drop (start + a.length + name.length + 2) = r := by
  have : start + a.length + name.length + 2 = start + ((a ++ 38 :: (name ++ [59])).length) := by simp; omega
  rw [this, ← List.drop_drop, h]
  have : a ++ 38 :: (name ++ 59 :: r) = (a ++ 38 :: (name ++ [59])) ++ r := by simp
  rw [this, List.drop_left]

theorem loop_encodes (str : Str) : ∀ (m : Nat) (e t : Str) (start n : Nat) (s : Str), e.length ≤ m →
    str.drop start = e → Encodes t e → e.length < n →
    unescapeLoop str n start s = some (.ok (s ++ t)) := by
  intro m
  induction m with
  | zero =>
    intro e t start n s hm he ht hn
    have : e = [] := List.eq_nil_of_length_eq_zero (by omega)
    subst this
    cases ht
    obtain ⟨n, rfl⟩ : ∃ k, n = k + 1 := ⟨n - 1, by omega⟩
    rw [unescapeLoop, find_none (by rw [he]; simp)]
    simp [he]
  | succ m ih =>
    intro e t start n s hm he ht hn
    obtain ⟨n, rfl⟩ : ∃ k, n = k + 1 := ⟨n - 1, by omega⟩
    rcases split_at 38 e with h | ⟨a, r, rfl, ha⟩
    · have ht' : t = e := by
        obtain ⟨t', rfl, h'⟩ := Encodes.split (a := e) (e := []) h (by simpa using ht)
        cases h'
        simp
      rw [unescapeLoop, find_none (by rw [he]; exact h)]
      simp [he, ht']
    · obtain ⟨t', rfl, h'⟩ := Encodes.split ha ht
      obtain ⟨name, c, t'', e', hn', rfl, rfl, h''⟩ := h'.head
      rw [loop_step he ha hn']
      split
      · rename_i hr
        subst hr
        cases h''
        simp
      · have hl : (a ++ 38 :: (name ++ 59 :: e')).length = a.length + name.length + 2 + e'.length := by
          simp; omega
        rw [ih e' t'' _ n _ (by omega) (drop_next he) h'' (by omega)]
        simp

/-- What comes before the `&` that cannot be read. -/
theorem loop_prefix (str : Str) : ∀ (m : Nat) (p t q : Str) (start : Nat) (s : Str), p.length ≤ m →
    str.drop start = p ++ 38 :: q → Encodes t p →
    ∃ k start' s' a, k ≤ p.length ∧ 38 ∉ a ∧ str.drop start' = a ++ 38 :: q ∧ s' ++ a = s ++ t ∧
      ∀ n, unescapeLoop str (n + k) start s = unescapeLoop str n start' s' := by
  intro m
  induction m with
  | zero =>
    intro p t q start s hm he ht
    have : p = [] := List.eq_nil_of_length_eq_zero (by omega)
    subst this
    cases ht
    exact ⟨0, start, s, [], by simp, by simp, he, by simp, fun n => rfl⟩
  | succ m ih =>
    intro p t q start s hm he ht
    rcases split_at 38 p with h | ⟨a, r, rfl, ha⟩
    · have ht' : t = p := by
        obtain ⟨t', rfl, h'⟩ := Encodes.split (a := p) (e := []) h (by simpa using ht)
        cases h'
        simp
      subst ht'
      exact ⟨0, start, s, t, by simp, h, he, rfl, fun n => rfl⟩
    · obtain ⟨t', rfl, h'⟩ := Encodes.split ha ht
      obtain ⟨name, c, t'', e', hn', rfl, rfl, h''⟩ := h'.head
      have he' : str.drop start = a ++ 38 :: (name ++ 59 :: (e' ++ 38 :: q)) := by rw [he]; simp
      have hl : (a ++ 38 :: (name ++ 59 :: e')).length = a.length + name.length + 2 + e'.length := by
        simp; omega
      obtain ⟨k, start', s', b, hk, hb, hd, hs, hloop⟩ :=
        ih e' t'' q _ (s ++ a ++ [c]) (by omega) (drop_next he') h''
      refine ⟨k + 1, start', s', b, by omega, hb, hd, by rw [hs]; simp, ?_⟩
      intro n
      have : n + (k + 1) = (n + k) + 1 := by omega
      rw [this, loop_step he' ha hn', if_neg (by simp), hloop]

theorem classify : ∀ (m : Nat) (e : Str), e.length ≤ m → (∃ t, Encodes t e) ∨ Unknown e ∨ Unfinished e := by
  intro m
  induction m with
  | zero =>
    intro e he
    have : e = [] := List.eq_nil_of_length_eq_zero (by omega)
    subst this
    exact Or.inl ⟨[], .nil⟩
  | succ m ih =>
    intro e he
    rcases split_at 38 e with h | ⟨a, r, rfl, ha⟩
    · left
      refine ⟨e, ?_⟩
      have := Encodes.plains h Encodes.nil
      simpa using this
    · have hplain : Encodes a a := by
        have := Encodes.plains ha Encodes.nil
        simpa using this
      rcases split_at 59 r with h | ⟨name, r', rfl, hn⟩
      · cases hc : charOf r with
        | none =>
          right; left
          refine ⟨a, a, r, [], hplain, by simp, h, Or.inl rfl, ?_⟩
          intro c hc'
          rw [charOf_mem.2 hc'] at hc
          simp at hc
        | some c =>
          right; right
          exact ⟨a, a, r, c, hplain, rfl, charOf_mem.1 hc⟩
      · cases hc : charOf name with
        | none =>
          right; left
          refine ⟨a, a, name, 59 :: r', hplain, by simp, hn, Or.inr rfl, ?_⟩
          intro c hc'
          rw [charOf_mem.2 hc'] at hc
          simp at hc
        | some c =>
          have hc' := charOf_mem.1 hc
          have hpre : Encodes (a ++ [c]) (a ++ 38 :: (name ++ [59])) := by
            have := hplain.append (Encodes.named name c hc' Encodes.nil)
            simpa using this
          have hl : r'.length ≤ m := by simp at he; omega
          rcases ih r' hl with ⟨t, h⟩ | ⟨t, p, nm, rest, h1, h2, h3, h4, h5⟩ | ⟨t, p, nm, c', h1, h2, h3⟩
          · left
            refine ⟨a ++ [c] ++ t, ?_⟩
            have := hpre.append h
            simpa using this
          · right; left
            refine ⟨_, _, nm, rest, hpre.append h1, by rw [h2]; simp, h3, h4, h5⟩
          · right; right
            refine ⟨_, _, nm, c', hpre.append h1, by rw [h2]; simp, h3⟩

theorem loop_unknown {str : Str} (h : Unknown str) (n : Nat) (hn : str.length < n) :
    unescapeIn n str = some (.error .exception) := by
  obtain ⟨t, p, name, rest, h1, h2, h3, h4, h5⟩ := h
  obtain ⟨k, start', s', a, hk, ha, hd, hs, hloop⟩ :=
    loop_prefix str p.length p t (name ++ rest) 0 [] (le_refl _) (by rw [h2]; simp) h1
  have hl : p.length + 1 ≤ str.length := by rw [h2]; simp
  obtain ⟨m, rfl⟩ : ∃ m, n = (m + 1) + k := ⟨n - k - 1, by omega⟩
  rw [unescapeIn, hloop, unescapeLoop, find_some hd ha]
  dsimp only
  have hd1 : str.drop (a.length + start') = 38 :: (name ++ rest) := by
    rw [Nat.add_comm, ← List.drop_drop, hd]; simp
  have hd2 : str.drop (a.length + start' + 1) = name ++ rest := by
    rw [← List.drop_drop, hd1]; simp
  have hname : substr str (a.length + start' + 1) (find str 59 (a.length + start')) = name := by
    rcases h4 with rfl | hr
    · rw [find_none (by rw [hd1]; simpa using h3), substr, hd2]; simp
    · cases rest with
      | nil => simp at hr
      | cons x rest =>
        simp only [List.head?_cons, Option.some.injEq] at hr
        subst hr
        rw [find_some (a := 38 :: name) (b := rest) (by rw [hd1]; simp) (by simpa using h3), substr, hd2]
        have : (38 :: name : Str).length + (a.length + start') - (a.length + start' + 1) = name.length := by
          simp; omega
        rw [this]; simp
  rw [hname]
  cases hc : charOf name with
  | none => rfl
  | some c => exact absurd (charOf_mem.1 hc) (h5 c)

theorem loop_unfinished {str : Str} (h : Unfinished str) : ∀ n s, unescapeLoop str n 0 s = none := by
  obtain ⟨t, p, name, c, h1, h2, h3⟩ := h
  intro n
  induction n using Nat.strongRecOn with
  | ind n ih =>
    intro s
    obtain ⟨k, start', s', a, hk, ha, hd, hs, hloop⟩ :=
      loop_prefix str p.length p t name 0 s (le_refl _) (by rw [h2]; simp) h1
    by_cases hn : n ≤ k
    · -- the fuel ends before
      have hk0 := hloop 0
      have mono : ∀ n m start s, unescapeLoop str (n + m) start s = none → unescapeLoop str n start s = none := by
        intro n
        induction n with
        | zero => intros; rfl
        | succ n ihn =>
          intro m start s h
          rw [show n + 1 + m = (n + m) + 1 by omega, unescapeLoop] at h
          rw [unescapeLoop]
          split
          · rename_i hf; rw [hf] at h; simp at h
          · rename_i i hf
            rw [hf] at h
            dsimp only at h ⊢
            split
            · rename_i hc; rw [hc] at h; simp at h
            · rename_i c' hc
              rw [hc] at h
              dsimp only at h
              split
              · rename_i hi; rw [if_pos hi] at h; simp at h
              · rename_i hi
                rw [if_neg hi] at h
                exact ihn m _ _ h
      have : unescapeLoop str (0 + k) 0 s = none := by rw [hk0]; rfl
      obtain ⟨d, hd'⟩ : ∃ d, 0 + k = n + d := ⟨k - n, by omega⟩
      rw [hd'] at this
      exact mono n d 0 s this
    · obtain ⟨m, rfl⟩ : ∃ m, n = (m + 1) + k := ⟨n - k - 1, by omega⟩
      rw [hloop, unescapeLoop, find_some hd ha]
      dsimp only
      have hd1 : str.drop (a.length + start') = 38 :: name := by
        rw [Nat.add_comm, ← List.drop_drop, hd]; simp
      have hd2 : str.drop (a.length + start' + 1) = name := by
        rw [← List.drop_drop, hd1]; simp
      have hf : find str 59 (a.length + start') = none :=
        find_none (by rw [hd1]; simpa using (names_clean h3).1)
      rw [hf]
      have : substr str (a.length + start' + 1) none = name := by rw [substr, hd2]
      rw [this, charOf_mem.2 h3]
      dsimp only
      rw [if_neg (by simp)]
      exact ih m (by omega) _

theorem unescape_ok {str t : Str} : unescape str = .ok t ↔ Encodes t str := by
  have key : Encodes t str → unescape str = .ok t := by
    intro h
    rw [unescape, unescapeIn, loop_encodes str str.length str t 0 _ [] (le_refl _) rfl h (by omega)]
    simp
  constructor
  · intro h
    rcases classify str.length str (le_refl _) with ⟨t', h'⟩ | h' | h'
    · have : unescape str = .ok t' := by
        rw [unescape, unescapeIn, loop_encodes str str.length str t' 0 _ [] (le_refl _) rfl h' (by omega)]
        simp
      rw [this] at h
      simp only [Except.ok.injEq] at h
      exact h ▸ h'
    · rw [unescape, loop_unknown h' _ (by omega)] at h
      simp at h
    · rw [unescape, unescapeIn, loop_unfinished h'] at h
      simp at h
  · exact key

end Verif.Xml
