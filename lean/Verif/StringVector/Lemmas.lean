import Verif.StringVector.Model
import Verif.MonotonicVector.Lemmas

set_option linter.unusedVariables false
set_option linter.unusedSimpArgs false

namespace Verif.StringVector
open Verif Binary

theorem params_ok {pb : Nat} (h : 2 ≤ pb) : (params pb).Ok := ⟨by simp [params], h, by simp [params]; omega⟩

/-- Start positions of the strings. -/
def starts (xs : List Str) : List Nat := (List.range xs.length).map fun i => (xs.take i).flatten.length

theorem starts_snoc (xs : List Str) (x : Str) : starts (xs ++ [x]) = starts xs ++ [xs.flatten.length] := by
  simp only [starts, List.length_append, List.length_singleton, List.range_succ, List.map_append,
    List.map_cons, List.map_nil, List.take_append_of_le_length (Nat.le_refl _), List.take_length]
  congr 1
  apply List.map_congr_left
  intro i hi
  simp at hi
  rw [List.take_append_of_le_length (by omega)]

theorem starts_get {xs : List Str} {i : Nat} (h : i < xs.length) :
    (starts xs)[i]? = some (xs.take i).flatten.length := by
  simp [starts, h]

theorem flatten_take_le (xs : List Str) (i : Nat) : (xs.take i).flatten.length ≤ xs.flatten.length := by
  have h : xs.flatten = (xs.take i).flatten ++ (xs.drop i).flatten := by
    rw [← List.flatten_append, List.take_append_drop]
  rw [h]; simp

theorem flatten_split {xs : List Str} {i : Nat} {x : Str} (h : xs[i]? = some x) :
    xs.flatten = (xs.take i).flatten ++ (x ++ (xs.drop (i + 1)).flatten) := by
  obtain ⟨hi, rfl⟩ := List.getElem?_eq_some_iff.1 h
  rw [← List.flatten_cons, ← List.drop_eq_getElem_cons hi, ← List.flatten_append,
    List.take_append_drop]

theorem flatten_take_succ {xs : List Str} {i : Nat} {x : Str} (h : xs[i]? = some x) :
    (xs.take (i + 1)).flatten = (xs.take i).flatten ++ x := by
  rw [List.take_succ, h]; simp

theorem less_iff (a b : Str) : less a b = true ↔ a < b := by
  fun_induction less a b with
  | case1 a => simp
  | case2 b t => simp
  | case3 a s b t h => simp [List.cons_lt_cons_iff, h]
  | case4 a s b t h h' =>
    have : a ≠ b := by rintro rfl; exact h h'
    simp [List.cons_lt_cons_iff, h, this]
  | case5 a s b t h h' ih =>
    have h1 : a = b := by
      apply UInt8.toNat_inj.1
      rw [UInt8.lt_iff_toNat_lt] at h h'
      omega
    subst h1
    simp [List.cons_lt_cons_iff, ih]

/-- Every byte is ASCII. -/
def Ascii (s : Str) : Prop := ∀ b ∈ s, b.toNat < 128

theorem promote_eq (a b : Byte) (hb : b.toNat < 128) : (a.toNat : Int) = promoteChar b ↔ a = b := by
  simp only [promoteChar, hb, if_true]
  constructor
  · intro h; exact UInt8.toNat_inj.1 (by omega)
  · rintro rfl; rfl

theorem promote_ne (a b : Byte) (hb : ¬ b.toNat < 128) : ¬ (a.toNat : Int) = promoteChar b := by
  simp only [promoteChar, hb, if_false]
  have := b.toNat_lt
  omega

theorem equal_ascii (a s : Str) (hs : Ascii s) : equal a s = true ↔ a = s := by
  induction a generalizing s with
  | nil => cases s <;> simp [equal, equalBytes]
  | cons x a ih =>
    cases s with
    | nil => simp [equal, equalBytes]
    | cons b t =>
      have hb : b.toNat < 128 := hs b (by simp)
      have := ih t (fun c hc => hs c (by simp [hc]))
      simp only [equal, Bool.and_eq_true, beq_iff_eq] at this
      simp [equal, equalBytes, promote_eq _ _ hb]
      rw [← this]
      constructor
      · rintro ⟨h1, h2, h3⟩; exact ⟨h2, h1, h3⟩
      · rintro ⟨h1, h2, h3⟩; exact ⟨h2, h1, h3⟩

theorem equal_nonascii (a s : Str) (hs : ¬ Ascii s) : equal a s = false := by
  induction s generalizing a with
  | nil => exact absurd (fun b hb => by simp at hb) hs
  | cons b t ih =>
    cases a with
    | nil => simp [equal]
    | cons x a =>
      by_cases hb : b.toNat < 128
      · have : ¬ Ascii t := by
          intro ht; apply hs; intro c hc
          simp at hc; rcases hc with rfl | hc
          · exact hb
          · exact ht c hc
        have := ih a this
        simp only [equal, Bool.and_eq_false_iff] at this ⊢
        rcases this with h | h
        · left; simpa using h
        · right; simp [equalBytes, h]
      · simp [equal, equalBytes, promote_ne _ _ hb]

/-- The vector holds the strings `xs`. -/
structure Holds (pb : Nat) (v : SV) (xs : List Str) : Prop where
  pos : MonotonicVector.Holds (params pb) v.positions (starts xs)
  chars : v.chars = xs.flatten
  sorted : v.sorted = true ↔ xs.Pairwise (· < ·)

theorem holds_size {pb : Nat} (hp : 2 ≤ pb) {v : SV} {xs : List Str} (h : Holds pb v xs)
    (hn : xs.length < 256 ^ pb) : size pb v = xs.length := by
  have := h.pos.shape.size (params_ok hp) (by simp [starts]; exact hn)
  simpa [size, starts] using this

theorem holds_at {pb : Nat} (hp : 2 ≤ pb) {v : SV} {xs : List Str} (h : Holds pb v xs)
    (hn : xs.length < 256 ^ pb) (hc : xs.flatten.length < 256 ^ pb) {i : Nat} {x : Str}
    (hx : xs[i]? = some x) : at' pb v i = some x := by
  have hi := (List.getElem?_eq_some_iff.1 hx).1
  have hsz := holds_size hp h hn
  have hg := h.pos.vals i _ (starts_get hi)
  have hsplit := flatten_split hx
  have hle := flatten_take_le xs i
  have hlen : v.chars.length = (xs.take i).flatten.length + (x.length + (xs.drop (i+1)).flatten.length) := by
    rw [h.chars, hsplit]; simp [Nat.add_assoc]
  have htot : v.chars.length = xs.flatten.length := by rw [h.chars]
  have hL : length pb v i = some x.length := by
    rw [length, hsz]
    by_cases h1 : i + 1 < xs.length
    · have hg1 := h.pos.vals (i+1) _ (starts_get h1)
      rw [if_pos h1, hg1, hg, flatten_take_succ hx]
      simp only [Option.bind_eq_bind, Option.bind_some, List.length_append]
      have : (xs.take i).flatten.length + x.length + 256 ^ pb - (xs.take i).flatten.length
          = x.length + 256 ^ pb := by omega
      rw [this, Nat.add_mod_right, Nat.mod_eq_of_lt (by omega)]
      rfl
    · rw [if_neg h1, hg]
      simp only [Option.bind_eq_bind, Option.bind_some]
      have hd : xs.drop (i + 1) = [] := by apply List.drop_eq_nil_of_le; omega
      rw [hd] at hlen; simp only [List.flatten_nil, List.length_nil] at hlen
      have hb : (xs.take i).flatten.length ≤ v.chars.length := by rw [htot]; exact hle
      rw [if_pos hb]
      have : v.chars.length - (xs.take i).flatten.length = x.length := by
        omega
      rw [this, Nat.mod_eq_of_lt (by omega)]
      rfl
  rw [at', hg, hL]
  simp only [Option.bind_eq_bind, Option.bind_some]
  rw [if_pos (by omega)]
  show some _ = some _
  congr 1
  rw [h.chars, hsplit]
  rw [List.drop_left, List.take_left]

theorem holds_pushBack {pb : Nat} (hp : 2 ≤ pb) {v : SV} {xs : List Str} (h : Holds pb v xs)
    (hn : xs.length + 1 < 256 ^ pb) (hc : xs.flatten.length < 256 ^ pb) (s : Str) :
    ∃ v', pushBack pb v s = some v' ∧ Holds pb v' (xs ++ [s]) := by
  have hsz := holds_size hp h (by omega)
  obtain ⟨pos, hp1, hp2⟩ := MonotonicVector.holds_pushBack (params_ok hp) h.pos
    (by
      intro x hx
      simp [starts] at hx
      obtain ⟨i, _, rfl⟩ := hx
      have := flatten_take_le xs i
      simp only [List.length_flatten, List.map_take] at this hc ⊢
      show _ < 256 ^ pb
      omega)
    (by simp [starts]; show _ < 256 ^ pb; omega) (v.chars.length % 256 ^ pb)
    (by show _ < 256 ^ pb; exact Nat.mod_lt _ (Nat.pow_pos (by omega)))
  rw [h.chars, Nat.mod_eq_of_lt hc, ← starts_snoc xs s] at hp2
  rw [h.chars, Nat.mod_eq_of_lt hc] at hp1
  have hsorted : ∃ b, sortedAfter pb v s = some b ∧ (b = true ↔ (xs ++ [s]).Pairwise (· < ·)) := by
    rw [sortedAfter]
    cases hs : v.sorted with
    | false =>
      refine ⟨false, by simp, ?_⟩
      have h1 := h.sorted
      rw [hs] at h1
      simp only [Bool.false_eq_true, false_iff] at h1 ⊢
      intro h2; exact h1 (List.pairwise_append.1 h2).1
    | true =>
      have h1 := h.sorted.1 hs
      rw [hsz]
      by_cases h0 : xs.length = 0
      · have : xs = [] := List.length_eq_zero_iff.1 h0
        subst this
        exact ⟨true, by simp, by simp⟩
      · have hl : xs[xs.length - 1]? = some (xs[xs.length - 1]'(by omega)) := List.getElem?_eq_getElem _
        have hat := holds_at hp h (by omega) hc hl
        refine ⟨less (xs[xs.length - 1]'(by omega)) s, ?_, ?_⟩
        · have : (true && xs.length != 0) = true := by simpa using h0
          rw [if_pos this, back, hsz, hat]; rfl
        · rw [less_iff, List.pairwise_append]
          constructor
          · intro hlt
            refine ⟨h1, by simp, ?_⟩
            intro a ha b hb
            simp at hb; subst hb
            obtain ⟨k, hk, rfl⟩ := List.getElem_of_mem ha
            by_cases hk' : k = xs.length - 1
            · subst hk'; exact hlt
            · exact List.lt_trans (List.pairwise_iff_getElem.1 h1 k (xs.length - 1) hk (by omega) (by omega)) hlt
          · intro h2
            exact h2.2.2 _ (List.getElem_mem _) _ (by simp)
  obtain ⟨b, hb1, hb2⟩ := hsorted
  refine ⟨⟨v.chars ++ s, pos, b⟩, ?_, hp2, ?_, hb2⟩
  · rw [pushBack, hb1, h.chars, Nat.mod_eq_of_lt hc]
    simp only [Option.bind_eq_bind, Option.bind_some, hp1]
    rfl
  · simp [h.chars]

theorem holds_empty {pb : Nat} (hp : 2 ≤ pb) : Holds pb empty [] :=
  ⟨MonotonicVector.holds_empty (params_ok hp), rfl, by simp [empty]⟩

theorem holds_pushAll {pb : Nat} (hp : 2 ≤ pb) (ys : List Str) {v : SV} {xs : List Str}
    (h : Holds pb v xs) (hn : (xs ++ ys).length < 256 ^ pb)
    (hc : (xs ++ ys).flatten.length < 256 ^ pb) :
    ∃ v', pushAll pb v ys = some v' ∧ Holds pb v' (xs ++ ys) := by
  induction ys generalizing v xs with
  | nil => exact ⟨v, rfl, by simpa using h⟩
  | cons y ys ih =>
    have hc' : xs.flatten.length < 256 ^ pb := by
      rw [List.flatten_append, List.length_append] at hc; omega
    simp only [List.length_append, List.length_cons] at hn
    obtain ⟨v1, h1, h2⟩ := holds_pushBack hp h (by omega) hc' y
    have e : xs ++ y :: ys = (xs ++ [y]) ++ ys := by simp
    obtain ⟨v2, h3, h4⟩ := ih h2 (by rw [← e]; simp; omega) (by rw [← e]; exact hc)
    exact ⟨v2, by simp [pushAll, h1, h3], by rw [e]; exact h4⟩

theorem lowerBound_spec (lt : Nat → Option Bool) (n : Nat)
    (hdef : ∀ i, i < n → ∃ b, lt i = some b)
    (hmono : ∀ i j, i < j → j < n → lt j = some true → lt i = some true)
    (first len : Nat) (hle : first + len ≤ n)
    (hlow : ∀ i, i < first → lt i = some true) (hhigh : ∀ i, first + len ≤ i → i < n → lt i = some false) :
    ∃ r, lowerBound lt first len = some r ∧ r ≤ n ∧ (∀ i, i < r → lt i = some true) ∧
      (∀ i, r ≤ i → i < n → lt i = some false) := by
  induction len using Nat.strongRecOn generalizing first with
  | ind len ih =>
    rw [lowerBound]
    by_cases h0 : len = 0
    · subst h0
      rw [dif_pos rfl]
      exact ⟨first, rfl, by omega, hlow, fun i h1 h2 => hhigh i (by omega) h2⟩
    · simp only [h0, dite_false]
      have hm : first + len / 2 < n := by omega
      obtain ⟨b, hb⟩ := hdef _ hm
      rw [hb]
      cases b with
      | true =>
        simp only
        apply ih _ (by omega)
        · omega
        · intro i hi
          by_cases hi' : i = first + len / 2
          · rw [hi']; exact hb
          · exact hmono i _ (by omega) hm hb
        · intro i h1 h2; exact hhigh i (by omega) h2
      | false =>
        simp only
        apply ih _ (by omega)
        · omega
        · exact hlow
        · intro i h1 h2
          obtain ⟨c, hc⟩ := hdef i h2
          cases c with
          | false => exact hc
          | true =>
            by_cases hi' : i = first + len / 2
            · rw [hi'] at hc; rw [hb] at hc; exact absurd hc (by simp)
            · have := hmono _ i (by omega : first + len / 2 < i) h2 hc
              rw [hb] at this; exact absurd this (by simp)

theorem linearFind_spec (xs : List Str) (p : Str → Bool) (eq : Nat → Option Bool) (i n : Nat)
    (hn : i + n = xs.length)
    (heq : ∀ j x, xs[j]? = some x → eq j = some (p x)) :
    linearFind eq i n = some (i + (xs.drop i).findIdx p) := by
  induction n generalizing i with
  | zero =>
    have : xs.drop i = [] := List.drop_eq_nil_of_le (by omega)
    simp [linearFind, this]
  | succ n ih =>
    have hi : i < xs.length := by omega
    have h1 := heq i _ (List.getElem?_eq_getElem hi)
    rw [linearFind, h1, List.drop_eq_getElem_cons hi, List.findIdx_cons]
    cases hp : p xs[i] with
    | true => simp
    | false =>
      simp only [cond_false]
      rw [ih (i + 1) (by omega)]
      congr 1; omega

theorem load_save {pb : Nat} (hp : 2 ≤ pb) {v : SV} {xs : List Str} (h : Holds pb v xs)
    (hn : xs.length < 2 ^ 64) (hW : xs.length ≤ 256 ^ pb) (hc : xs.flatten.length < 2 ^ 64) (r : Str) :
    load pb (save pb v ++ r) = some (v, r) := by
  simp only [load, save, List.append_assoc]
  rw [getBool_putBool]
  simp only [Option.bind_eq_bind, Option.bind_some]
  rw [MonotonicVector.load_save (params_ok hp) h.pos.shape (by simpa [starts] using hn)
    (by simp [starts]; exact hW)]
  simp only [Option.bind_eq_bind, Option.bind_some]
  rw [getVector_putVector (inverse_int 1) (v.chars.map (·.toNat))
    (by
      intro x hx; simp at hx; obtain ⟨b, _, rfl⟩ := hx
      have := b.toNat_lt; simpa using this)
    (by rw [List.length_map, h.chars]; exact hc)]
  simp only [Option.bind_eq_bind, Option.bind_some, List.map_map]
  have : (UInt8.ofNat ∘ fun b : UInt8 => b.toNat) = id := by
    funext b; simp
  rw [this, List.map_id]
  rfl

end Verif.StringVector
