import Verif.Server.Multipart
import Mathlib.Data.List.Infix
import Mathlib.Data.Nat.Find
import Mathlib.Tactic.Set

set_option linter.unusedVariables false
set_option linter.unusedSimpArgs false

namespace Verif.Server.Mpfd
open Verif.Server

/-! ### Finding -/

theorem find_some_iff {pat : Str} (hp : pat ≠ []) (s : Str) : ∀ n, find pat s = some n ↔
    pat <+: s.drop n ∧ ∀ m < n, ¬ pat <+: s.drop m := by
  induction s with
  | nil =>
    intro n
    simp [find, hp]
  | cons c s ih =>
    intro n
    unfold find
    by_cases h : pat.isPrefixOf (c :: s) = true
    · rw [if_pos h, Option.some.injEq]
      rw [List.isPrefixOf_iff_prefix] at h
      constructor
      · rintro rfl; exact ⟨h, by simp⟩
      · rintro ⟨_, h2⟩
        rcases Nat.eq_zero_or_pos n with rfl | hn
        · rfl
        · exact absurd h (h2 0 hn)
    · rw [if_neg h]
      rw [List.isPrefixOf_iff_prefix] at h
      cases n with
      | zero =>
        constructor
        · intro e; cases e2 : find pat s <;> simp [e2] at e
        · rintro ⟨h1, _⟩; exact absurd h1 h
      | succ n =>
        rw [show (Option.map (· + 1) (find pat s) = some (n + 1)) ↔ find pat s = some n by
          cases find pat s <;> simp, ih n]
        simp only [List.drop_succ_cons]
        constructor
        · rintro ⟨h1, h2⟩
          refine ⟨h1, ?_⟩
          intro m hm
          cases m with
          | zero => exact h
          | succ m => exact h2 m (by omega)
        · rintro ⟨h1, h2⟩
          exact ⟨h1, fun m hm => h2 (m + 1) (by omega)⟩

theorem find_none_iff {pat : Str} (hp : pat ≠ []) (s : Str) : find pat s = none ↔ ∀ n, ¬ pat <+: s.drop n := by
  constructor
  · intro h
    by_contra hn
    push Not at hn
    classical
    have h1 := Nat.find_spec hn
    have : find pat s = some (Nat.find hn) := (find_some_iff hp s _).2 ⟨h1, fun m hm => Nat.find_min hn hm⟩
    rw [h] at this
    cases this
  · intro h
    cases e : find pat s with
    | none => rfl
    | some n => exact absurd ((find_some_iff hp s n).1 e).1 (h n)

/-- A prefix of `s ++ t` that fits into `s`. -/
theorem prefix_of_append {pat s t : Str} (h : pat <+: s ++ t) (hl : pat.length ≤ s.length) : pat <+: s :=
  List.prefix_of_prefix_length_le h (List.prefix_append s t) hl

theorem drop_append_le {s t : Str} {n : Nat} (h : n ≤ s.length) : (s ++ t).drop n = s.drop n ++ t := by
  rw [List.drop_append_of_le_length h]

theorem find_append {pat : Str} (hp : pat ≠ []) {s : Str} {n : Nat} (h : find pat s = some n) (t : Str) :
    find pat (s ++ t) = some n := by
  have hl := find_lt hp s h
  rw [find_some_iff hp] at h ⊢
  refine ⟨?_, ?_⟩
  · rw [drop_append_le (by omega)]; exact h.1.trans (List.prefix_append _ _)
  · intro m hm hpre
    refine h.2 m hm ?_
    rw [drop_append_le (by omega)] at hpre
    exact prefix_of_append hpre (by rw [List.length_drop]; omega)

/-- If the pattern is not in `s`, it is found in `s ++ t` only near the end of `s`, and cutting off a piece before does not
matter. -/
theorem find_later {pat : Str} (hp : pat ≠ []) {s t : Str} (h : find pat s = none) {n : Nat} (hn : n + pat.length ≤ s.length + 1) :
    (∀ p, find pat (s ++ t) = some p → s.length + 1 ≤ p + pat.length) ∧
    find pat (s ++ t) = (find pat (s.drop n ++ t)).map (· + n) := by
  have h0 := (find_none_iff hp s).1 h
  have hlen : 0 < pat.length := List.length_pos_iff.2 hp
  have key : ∀ p, pat <+: (s ++ t).drop p → s.length + 1 ≤ p + pat.length := by
    intro p hpre
    by_contra hlt
    refine h0 p ?_
    rw [drop_append_le (by omega)] at hpre
    exact prefix_of_append hpre (by rw [List.length_drop]; omega)
  have e : ∀ p, (s.drop n ++ t).drop p = (s ++ t).drop (n + p) := by
    intro p
    rw [← drop_append_le (show n ≤ s.length by omega), List.drop_drop]
  refine ⟨fun p h => key p ((find_some_iff hp _ _).1 h).1, ?_⟩
  cases e2 : find pat (s.drop n ++ t) with
  | none =>
    rw [Option.map_none, find_none_iff hp]
    rw [find_none_iff hp] at e2
    intro p hpre
    have := key p hpre
    obtain ⟨q, rfl⟩ := Nat.exists_eq_add_of_le (show n ≤ p by omega)
    exact e2 q (by rw [e]; exact hpre)
  | some q =>
    rw [Option.map_some, find_some_iff hp]
    rw [find_some_iff hp] at e2
    refine ⟨by rw [Nat.add_comm, ← e]; exact e2.1, ?_⟩
    intro m hm hpre
    have := key m hpre
    obtain ⟨k, rfl⟩ := Nat.exists_eq_add_of_le (show n ≤ m by omega)
    exact e2.2 k (by omega) (by rw [e]; exact hpre)

/-! ### The map of fields -/

theorem lookup_assign (n : Str) (f : Field) (l : List (Str × Field)) : lookup n (assign n f l) = some f := by
  induction l with
  | nil => simp [assign, lookup]
  | cons x l ih =>
    obtain ⟨m, g⟩ := x
    unfold assign
    split
    · rename_i h; simp [lookup, h]
    · rename_i h; simp [lookup, h, ih]

theorem assign_assign (n : Str) (f g : Field) (l : List (Str × Field)) : assign n g (assign n f l) = assign n g l := by
  induction l with
  | nil => simp [assign]
  | cons x l ih =>
    obtain ⟨m, k⟩ := x
    unfold assign
    by_cases h : m = n
    · simp [h, assign]
    · simp [h, assign, ih]

/-! ### Confluence -/

/-- Giving data in two pieces is the same as in one. -/
def Additive (acc : Acc) : Prop := ∀ f a b, a ≠ [] → b ≠ [] → acc f (a ++ b) =
  match acc f a with
  | .error e => .error e
  | .ok f' => acc f' b

/-- More data. -/
def State.more (s : State) (e : Str) : State := { s with data := s.data ++ e }

theorem process_eq (b : Str) (acc : Acc) (s : State) : process b acc s =
    match step b acc s with
    | .error e => .error e
    | .ok (false, s') => .ok s'
    | .ok (true, s') => process b acc s' := by
  rw [process]
  split
  · rename_i h; rw [h]
  · rename_i h; rw [h]
  · rename_i h; rw [h]

theorem process_congr {b : Str} {acc : Acc} {s t : State} (h : step b acc s = step b acc t) : process b acc s = process b acc t := by
  rw [process_eq, process_eq, h]

theorem send_more {acc : Acc} {n : Nat} {s : State} (e : Str) (hn : n ≤ s.data.length) :
    send acc n (s.more e) = (send acc n s).map (fun s' => s'.more e) := by
  unfold send
  split
  · rfl
  · simp only [State.more]
    cases lookup s.name s.fields with
    | none => rfl
    | some f =>
      simp only
      rw [List.take_append_of_le_length hn]
      cases acc f (s.data.take n) with
      | error x => rfl
      | ok f' =>
        simp only [Except.map]
        rw [drop_append_le hn]

/-- Sending more at once, or in two steps. -/
theorem send_send {acc : Acc} (ha : Additive acc) {n k : Nat} {s : State} (hn : n + k ≤ s.data.length) :
    send acc (n + k) s = (send acc n s).bind (send acc k) := by
  rcases Nat.eq_zero_or_pos n with rfl | hn0
  · rw [show send acc 0 s = .ok s from if_pos rfl, Nat.zero_add]; rfl
  rcases Nat.eq_zero_or_pos k with rfl | hk0
  · rw [Nat.add_zero]
    cases e : send acc n s with
    | error x => rfl
    | ok s' => rfl
  rw [show send acc (n + k) s = _ from if_neg (by omega), show send acc n s = _ from if_neg (by omega)]
  cases lookup s.name s.fields with
  | none => rfl
  | some f =>
    simp only
    have e : s.data.take (n + k) = s.data.take n ++ (s.data.drop n).take k := by rw [List.take_add]
    have ne : ∀ (l : Str) (m : Nat), 0 < m → m ≤ l.length → l.take m ≠ [] := by
      intro l m h1 h2 h3
      have := congrArg List.length h3
      rw [List.length_take, List.length_nil] at this
      omega
    rw [e, ha f _ _ (ne _ _ hn0 (by omega)) (ne _ _ hk0 (by rw [List.length_drop]; omega))]
    cases acc f (s.data.take n) with
    | error x => rfl
    | ok f' =>
      simp only [Except.bind]
      rw [show send acc k { s with fields := assign s.name f' s.fields, data := s.data.drop n } = _ from if_neg (by omega)]
      simp only [lookup_assign]
      cases acc f' ((s.data.drop n).take k) with
      | error x => rfl
      | ok f2 => simp [assign_assign, List.drop_drop]

theorem send_status {acc : Acc} {n : Nat} {s s' : State} (hn : n ≤ s.data.length) (h : send acc n s = .ok s') :
    s'.status = s.status ∧ s'.data = s.data.drop n := by
  unfold send at h
  split at h
  · cases h; rename_i h; subst h; exact ⟨rfl, by simp⟩
  · split at h
    · cases h
    · split at h
      · cases h
      · cases h; exact ⟨rfl, rfl⟩

theorem bound_ne (b : Str) : bound b ≠ [] := by simp [bound]

theorem send_error {acc : Acc} (ha : Additive acc) {n k : Nat} {s : State} {e : Str} {x : Err} (hn : n ≤ s.data.length)
    (hk : n + k ≤ s.data.length + e.length) (h : send acc n s = .error x) : send acc (n + k) (s.more e) = .error x := by
  rw [send_send ha (by simpa [State.more] using hk), send_more e hn, h]; rfl

theorem send_ok {acc : Acc} (ha : Additive acc) {n k : Nat} {s s' : State} {e : Str} (hn : n ≤ s.data.length)
    (hk : n + k ≤ s.data.length + e.length) (h : send acc n s = .ok s') : send acc (n + k) (s.more e) = send acc k (s'.more e) := by
  rw [send_send ha (by simpa [State.more] using hk), send_more e hn, h]; rfl

theorem boundary_more {b : Str} {s : State} (e : Str) :
    (∀ x, stepBoundary b s ≠ .error x) ∧
    (∀ s', stepBoundary b s = .ok (true, s') → stepBoundary b (s.more e) = .ok (true, s'.more e)) ∧
    (∀ s', stepBoundary b s = .ok (false, s') → s' = s) := by
  unfold stepBoundary
  cases h : find (bound b) s.data with
  | some n =>
    have := find_lt (bound_ne b) _ h
    simp only [State.more]
    rw [find_append (bound_ne b) h]
    refine ⟨fun x hx => (by cases hx), fun s' hs => ?_, fun s' hx => (by cases hx)⟩
    cases hs
    simp only
    rw [drop_append_le this]
  | none =>
    refine ⟨fun x hx => (by cases hx), fun s' hx => (by cases hx), fun s' hs => ?_⟩
    cases hs
    rfl

theorem headers_more {s : State} (e : Str) :
    (∀ x, stepHeaders s = .error x → stepHeaders (s.more e) = .error x) ∧
    (∀ s', stepHeaders s = .ok (true, s') → stepHeaders (s.more e) = .ok (true, s'.more e)) ∧
    (∀ s', stepHeaders s = .ok (false, s') → s' = s) := by
  unfold stepHeaders
  cases h : find [13, 10, 13, 10] s.data with
  | some n =>
    have := find_lt (by simp) _ h
    simp only [List.length_cons, List.length_nil] at this
    simp only [State.more]
    rw [find_append (by simp) h]
    simp only
    rw [List.take_append_of_le_length (by omega)]
    cases parseHeaders (cstr (s.data.take n)) with
    | error x => exact ⟨fun x hx => hx, fun s' hx => (by cases hx), fun s' hx => (by cases hx)⟩
    | ok y =>
      refine ⟨fun x hx => (by cases hx), fun s' hs => ?_, fun s' hx => (by cases hx)⟩
      cases hs
      simp only
      rw [drop_append_le (by omega)]
  | none =>
    refine ⟨fun x hx => (by cases hx), fun s' hx => (by cases hx), fun s' hs => ?_⟩
    cases hs
    rfl

theorem content_more {b : Str} {acc : Acc} (ha : Additive acc) {s : State} (e : Str) :
    (∀ x, stepContent b acc s = .error x → stepContent b acc (s.more e) = .error x) ∧
    (∀ s', stepContent b acc s = .ok (true, s') → stepContent b acc (s.more e) = .ok (true, s'.more e)) ∧
    (∀ s', stepContent b acc s = .ok (false, s') →
      s'.status = s.status ∧ stepContent b acc (s'.more e) = stepContent b acc (s.more e)) := by
  have hmore : ∀ s : State, (s.more e).data = s.data ++ e := fun _ => rfl
  cases h : find (bound b) s.data with
  | some p =>
    have hp := find_lt (bound_ne b) _ h
    unfold stepContent
    rw [h, hmore, find_append (bound_ne b) h]
    simp only
    rw [send_more e (by omega)]
    cases send acc (p - 2) s with
    | error x => exact ⟨fun x hx => (by cases hx; rfl), fun s' hx => (by cases hx), fun s' hx => (by cases hx)⟩
    | ok s1 =>
      refine ⟨fun x hx => (by cases hx), fun s' hx => ?_, fun s' hx => (by cases hx)⟩
      cases hx
      rfl
  | none =>
    rcases Nat.lt_or_ge ((bound b).length + 2) s.data.length with hL | hL
    · obtain ⟨n, hn⟩ := Nat.exists_eq_add_of_lt hL
      have hn : s.data.length = n + 1 + ((bound b).length + 2) := by omega
      have e0 : stepContent b acc s = (send acc (n + 1) s).map (fun s' => (false, s')) := by
        unfold stepContent
        rw [h]
        simp only
        rw [show s.data.length - ((bound b).length + 2) = n + 1 by omega]
      obtain ⟨h1, h2⟩ := find_later (bound_ne b) h (t := e) (n := n + 1) (by omega)
      have hbl : ∀ q, find (bound b) ((s.data.drop (n + 1)) ++ e) = some q → 3 ≤ q ∧ n + 1 + (q - 2) ≤ s.data.length + e.length := by
        intro q hq
        have := h1 (q + (n + 1)) (by rw [h2, hq]; rfl)
        have := find_lt (bound_ne b) _ hq
        rw [List.length_append, List.length_drop] at this
        omega
      have hlen : (s.data ++ e).length - ((bound b).length + 2) = n + 1 + e.length := by
        rw [List.length_append]; omega
      cases hs : send acc (n + 1) s with
      | error x =>
        rw [e0, hs]
        refine ⟨fun y hy => ?_, fun s' hx => (by cases hx), fun s' hx => (by cases hx)⟩
        cases hy
        unfold stepContent
        rw [hmore, h2]
        cases hq : find (bound b) (s.data.drop (n + 1) ++ e) with
        | some q =>
          have := hbl q hq
          simp only [Option.map_some]
          rw [show q + (n + 1) - 2 = n + 1 + (q - 2) by omega, send_error ha (by omega) this.2 hs]
          rfl
        | none =>
          simp only [Option.map_none]
          rw [hlen, send_error ha (by omega) (by omega) hs]
          rfl
      | ok s1 =>
        rw [e0, hs]
        refine ⟨fun y hy => (by cases hy), fun s' hx => (by cases hx), fun s' hx => ?_⟩
        cases hx
        have hst := send_status (by omega) hs
        refine ⟨hst.1, ?_⟩
        unfold stepContent
        rw [hmore, hmore, h2, hst.2]
        cases hq : find (bound b) (s.data.drop (n + 1) ++ e) with
        | some q =>
          have := hbl q hq
          simp only [Option.map_some]
          rw [show q + (n + 1) - 2 = n + 1 + (q - 2) by omega, send_ok ha (by omega) this.2 hs]
        | none =>
          simp only [Option.map_none]
          rw [hlen, send_ok ha (by omega) (by omega) hs, List.length_append, List.length_drop,
            show s.data.length - (n + 1) + e.length - ((bound b).length + 2) = e.length by omega]
    · have e0 : stepContent b acc s = .ok (false, s) := by
        unfold stepContent
        rw [h]
        simp only
        rw [show s.data.length - ((bound b).length + 2) = 0 by omega]
        rfl
      rw [e0]
      refine ⟨fun y hy => (by cases hy), fun s' hx => (by cases hx), fun s' hx => ?_⟩
      cases hx
      exact ⟨rfl, rfl⟩

/-- A turn that goes on or fails is not changed by more data; after a turn that waits, more data have the same effect as if
they had been there before. -/
theorem step_more {b : Str} {acc : Acc} (ha : Additive acc) {s : State} (e : Str) :
    (∀ x, step b acc s = .error x → step b acc (s.more e) = .error x) ∧
    (∀ s', step b acc s = .ok (true, s') → step b acc (s.more e) = .ok (true, s'.more e)) ∧
    (∀ s', step b acc s = .ok (false, s') → step b acc (s'.more e) = step b acc (s.more e)) := by
  unfold step
  simp only [show (s.more e).status = s.status from rfl]
  cases hst : s.status with
  | boundary =>
    obtain ⟨h1, h2, h3⟩ := boundary_more (b := b) (s := s) e
    refine ⟨fun x hx => absurd hx (h1 x), h2, fun s' hs => ?_⟩
    rw [h3 s' hs]
    simp only [show (s.more e).status = s.status from rfl, hst]
  | headers =>
    obtain ⟨h1, h2, h3⟩ := headers_more (s := s) e
    refine ⟨h1, h2, fun s' hs => ?_⟩
    rw [h3 s' hs]
    simp only [show (s.more e).status = s.status from rfl, hst]
  | content =>
    obtain ⟨h1, h2, h3⟩ := content_more (b := b) ha (s := s) e
    refine ⟨h1, h2, fun s' hs => ?_⟩
    obtain ⟨h4, h5⟩ := h3 s' hs
    simp only [show (s'.more e).status = s'.status from rfl, h4, hst]
    exact h5

/-- Working first and getting more data afterwards is the same as having them from the start. -/
theorem process_more {b : Str} {acc : Acc} (ha : Additive acc) (n : Nat) : ∀ (s : State) (e : Str), s.todo < n →
    process b acc (s.more e) = (process b acc s).bind (fun s' => process b acc (s'.more e)) := by
  induction n with
  | zero => intro s e h; omega
  | succ n ih =>
    intro s e hn
    obtain ⟨h1, h2, h3⟩ := step_more (b := b) ha (s := s) e
    rw [process_eq b acc s]
    rcases hs : step b acc s with x | ⟨t, s'⟩
    · rw [process_eq, h1 x hs]; rfl
    · cases t with
      | false => exact (process_congr (h3 s' hs)).symm
      | true =>
        rw [process_eq b acc (s.more e), h2 s' hs]
        exact ih s' e (by have := step_todo hs; omega)

theorem step_len {b : Str} {acc : Acc} {s s' : State} {t : Bool} (h : step b acc s = .ok (t, s')) : s'.data.length ≤ s.data.length := by
  unfold step at h
  split at h
  · unfold stepBoundary at h
    split at h
    · cases h; simp
    · cases h; exact Nat.le_refl _
  · unfold stepHeaders at h
    split at h
    · split at h
      · cases h
      · cases h; simp
    · cases h; exact Nat.le_refl _
  · unfold stepContent at h
    split at h
    · cases e : send acc (_ - 2) s with
      | error x => rw [e] at h; cases h
      | ok s1 => rw [e] at h; have := send_data e; cases h; exact this
    · cases e : send acc (s.data.length - ((bound b).length + 2)) s with
      | error x => rw [e] at h; cases h
      | ok s1 => rw [e] at h; have := send_data e; cases h; exact this

theorem process_len {b : Str} {acc : Acc} (n : Nat) : ∀ {s s' : State}, s.todo < n → process b acc s = .ok s' →
    s'.data.length ≤ s.data.length := by
  induction n with
  | zero => intro s s' h; omega
  | succ n ih =>
    intro s s' hn h
    rw [process_eq] at h
    rcases hs : step b acc s with x | ⟨t, s1⟩
    · rw [hs] at h; cases h
    · rw [hs] at h
      cases t with
      | false => cases h; exact step_len hs
      | true => exact Nat.le_trans (ih (by have := step_todo hs; omega) h) (step_len hs)

/-- Feeding pieces is the same as working on all data at once, if the limit is not reached. -/
theorem feedWith_eq {b : Str} {max : Nat} {acc : Acc} (ha : Additive acc) (ds : List Str) : ∀ (s : State),
    s.data.length + ds.flatten.length ≤ max →
    (feedWith b max acc s ds).bind (process b acc) = process b acc (s.more ds.flatten) := by
  induction ds with
  | nil =>
    intro s _
    simp [feedWith, State.more, Except.bind]
  | cons d ds ih =>
    intro s hl
    rw [List.flatten_cons, List.length_append] at hl
    have e1 : acceptWith b max acc s d = process b acc (s.more d) := by
      unfold acceptWith
      rw [if_neg (by rw [List.length_append]; omega)]
      rfl
    have e2 : s.more (d :: ds).flatten = (s.more d).more ds.flatten := by simp [State.more]
    rw [feedWith, e1, e2, process_more ha ((s.more d).todo + 1) _ _ (Nat.lt_succ_self _)]
    cases hp : process b acc (s.more d) with
    | error x => rfl
    | ok s' =>
      have hlen := process_len ((s.more d).todo + 1) (Nat.lt_succ_self _) hp
      have : (s.more d).data.length = s.data.length + d.length := by simp [State.more]
      exact ih s' (by omega)

/-- A result of `process` is not changed by `process`. -/
theorem process_idem {b : Str} {acc : Acc} (ha : Additive acc) {s s' : State} (h : process b acc s = .ok s') :
    process b acc s' = .ok s' := by
  have := process_more (b := b) ha (s.todo + 1) s [] (Nat.lt_succ_self _)
  rw [show s.more [] = s by simp [State.more], h] at this
  simp only [Except.bind] at this
  rw [show s'.more [] = s' by simp [State.more]] at this
  exact this.symm

theorem feedWith_done {b : Str} {max : Nat} {acc : Acc} (ha : Additive acc) (ds : List Str) : ∀ {s s' : State},
    process b acc s = .ok s → feedWith b max acc s ds = .ok s' → process b acc s' = .ok s' := by
  induction ds with
  | nil => intro s s' h h'; cases h'; exact h
  | cons d ds ih =>
    intro s s' h h'
    unfold feedWith at h'
    split at h'
    · cases h'
    · rename_i s1 e
      unfold acceptWith at e
      split at e
      · cases e
      · exact ih (process_idem ha e) h'

/-- Feeding pieces to a fresh parser. -/
theorem feedWith_flatten {b : Str} {max : Nat} {acc : Acc} (ha : Additive acc) (ds : List Str) (hl : ds.flatten.length ≤ max) :
    feedWith b max acc {} ds = feedWith b max acc {} [ds.flatten] := by
  have h0 : process b acc {} = .ok {} := by
    rw [process_eq]; simp [step, stepBoundary, find, bound]
  have key : ∀ ds : List Str, ds.flatten.length ≤ max → feedWith b max acc {} ds = process b acc (State.more {} ds.flatten) := by
    intro ds hl
    have := feedWith_eq (b := b) ha ds {} (by simpa using hl)
    rw [← this]
    cases e : feedWith b max acc {} ds with
    | error x => rfl
    | ok s' => exact (feedWith_done ha ds h0 e).symm
  rw [key ds hl, key [ds.flatten] (by simpa using hl)]
  simp

end Verif.Server.Mpfd
