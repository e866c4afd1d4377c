import Verif.Casing.Factory
import Verif.Casing.Spec

/-!
Finite comparisons of the tables of the code with those of Unicode, and what follows for all
code points.
-/
namespace Verif.Casing
open Verif Verif.Utf8

/-- The pairs a range stands for. -/
def Range.pairs (r : Range) : List (Nat × Nat) :=
  (List.range' r.lo (r.hi + 1 - r.lo)).map fun c => (c, applyRecord r c)

/-- The pairs a table of ranges stands for. -/
def allPairs (t : List Range) : List (Nat × Nat) := t.flatMap Range.pairs

/-- The ranges begin at `n` or later, and follow each other without overlap. -/
def increasing : Nat → List Range → Bool
  | _, [] => true
  | n, r :: t => Nat.ble n r.lo && Nat.ble r.lo r.hi && increasing (r.hi + 1) t

/-- The keys are at least `n` and strictly increase. -/
def keysFrom {α : Type} : Nat → List (Nat × α) → Bool
  | _, [] => true
  | n, q :: l => Nat.ble n q.1 && keysFrom (q.1 + 1) l

/-- The first list is the second with pairs `(c, c)` inserted. -/
def padded : List (Nat × Nat) → List (Nat × Nat) → Bool
  | [], [] => true
  | [], _ :: _ => false
  | q :: l, [] => Nat.beq q.2 q.1 && padded l []
  | q :: l, a :: p =>
    if Nat.beq q.1 a.1 then Nat.beq q.2 a.2 && padded l p
    else Nat.beq q.2 q.1 && padded l (a :: p)

theorem lookup_none_of_lt {α : Type} {n cp : Nat} {l : List (Nat × α)} (h : keysFrom n l = true)
    (hc : cp < n) : l.lookup cp = none := by
  induction l generalizing n with
  | nil => rfl
  | cons q l ih =>
    simp only [keysFrom, Bool.and_eq_true, Nat.ble_eq] at h
    rw [List.lookup_cons]
    have : (cp == q.1) = false := by simp; omega
    rw [this]
    exact ih h.2 (by omega)

theorem lookup_append {α : Type} (a b : List (Nat × α)) (cp : Nat) :
    (a ++ b).lookup cp = (a.lookup cp).or (b.lookup cp) := by
  induction a with
  | nil => rfl
  | cons q a ih =>
    rw [List.cons_append, List.lookup_cons, List.lookup_cons]
    split <;> simp [ih]

theorem lookup_range' (f : Nat → Nat) (lo n cp : Nat) :
    ((List.range' lo n).map fun c => (c, f c)).lookup cp
      = if lo ≤ cp ∧ cp < lo + n then some (f cp) else none := by
  induction n generalizing lo with
  | zero => rw [if_neg (by omega)]; rfl
  | succ n ih =>
    rw [List.range'_succ, List.map_cons, List.lookup_cons]
    by_cases h : cp = lo
    · subst h; rw [if_pos (by omega)]; simp
    · have : (cp == lo) = false := by simp [h]
      simp only [this]
      rw [ih]
      by_cases h2 : lo + 1 ≤ cp ∧ cp < lo + 1 + n
      · rw [if_pos h2, if_pos (by omega)]
      · rw [if_neg h2, if_neg (by omega)]

theorem findRecord_below {n cp : Nat} {t : List Range} (h : increasing n t = true)
    (hc : cp < n) : (allPairs t).lookup cp = none := by
  induction t generalizing n with
  | nil => rfl
  | cons r t ih =>
    simp only [increasing, Bool.and_eq_true, Nat.ble_eq] at h
    rw [allPairs, List.flatMap_cons, lookup_append, Range.pairs, lookup_range',
      if_neg (by omega)]
    exact ih h.2 (by omega)

theorem rangeConvert_eq_image {n : Nat} {t : List Range} (h : increasing n t = true) (cp : Nat) :
    rangeConvert t cp = Spec.image (allPairs t) cp := by
  induction t generalizing n with
  | nil => rfl
  | cons r t ih =>
    have h' := h
    simp only [increasing, Bool.and_eq_true, Nat.ble_eq] at h'
    obtain ⟨⟨h1, h2⟩, h3⟩ := h'
    unfold rangeConvert Spec.image
    rw [findRecord]
    by_cases ha : cp < r.lo
    · rw [if_pos ha]
      have := findRecord_below (n := r.lo) (t := r :: t) (cp := cp)
        (by simp [increasing, h2, h3]) ha
      rw [this]; rfl
    rw [if_neg ha, allPairs, List.flatMap_cons, lookup_append, Range.pairs, lookup_range']
    by_cases hb : cp ≤ r.hi
    · rw [if_pos hb, if_pos (by omega)]; rfl
    · rw [if_neg hb, if_neg (by omega)]
      have := ih h3
      unfold rangeConvert Spec.image allPairs at this
      exact this

theorem padded_lookup {n : Nat} {l p : List (Nat × Nat)} (hn : keysFrom n l = true)
    (h : padded l p = true) {cp : Nat} (hc : l.lookup cp = none) : p.lookup cp = none := by
  fun_induction padded l p generalizing n with
  | case1 => rfl
  | case2 => simp at h
  | case3 => rfl
  | case4 q l a p hb ih =>
    simp only [Nat.beq_eq, Bool.and_eq_true] at hb h
    simp only [keysFrom, Bool.and_eq_true] at hn
    rw [List.lookup_cons] at hc ⊢
    rw [← hb]
    split at hc
    · simp at hc
    · exact ih hn.2 h.2 hc
  | case5 q l a p hb ih =>
    simp only [Bool.and_eq_true] at h
    simp only [keysFrom, Bool.and_eq_true] at hn
    rw [List.lookup_cons] at hc
    split at hc
    · simp at hc
    · exact ih hn.2 h.2 hc

theorem padded_image {n : Nat} {l p : List (Nat × Nat)} (hn : keysFrom n l = true)
    (h : padded l p = true) (cp : Nat) : Spec.image l cp = Spec.image p cp := by
  unfold Spec.image
  fun_induction padded l p generalizing n with
  | case1 => rfl
  | case2 => simp at h
  | case3 q l ih =>
    simp only [Nat.beq_eq, Bool.and_eq_true] at h
    simp only [keysFrom, Bool.and_eq_true] at hn
    rw [List.lookup_cons]
    split
    · rename_i he; have := eq_of_beq he; subst this; simp [h.1]
    · exact ih hn.2 h.2
  | case4 q l a p hb ih =>
    simp only [Nat.beq_eq, Bool.and_eq_true] at hb h
    simp only [keysFrom, Bool.and_eq_true] at hn
    rw [List.lookup_cons, List.lookup_cons, ← hb, h.1]
    split
    · rfl
    · exact ih hn.2 h.2
  | case5 q l a p hb ih =>
    simp only [Nat.beq_eq, Bool.and_eq_true] at h
    simp only [keysFrom, Bool.and_eq_true] at hn
    rw [List.lookup_cons]
    split
    · rename_i he; have := eq_of_beq he; subst this
      have h0 := padded_lookup hn.2 h.2 (lookup_none_of_lt hn.2 (Nat.lt_succ_self q.1))
      rw [h0]; simp [h.1]
    · exact ih hn.2 h.2

/-- Everything `rangeConvert_eq_simple` needs, as one computation. -/
def tableCheck (t : List Range) (p : List (Nat × Nat)) : Bool :=
  increasing 0 t && keysFrom 0 (allPairs t) && padded (allPairs t) p

theorem rangeConvert_eq_simple {t : List Range} {p : List (Nat × Nat)}
    (h : tableCheck t p = true) (cp : Nat) : rangeConvert t cp = Spec.image p cp := by
  simp only [tableCheck, Bool.and_eq_true] at h
  rw [rangeConvert_eq_image h.1.1, padded_image h.1.2 h.2]

theorem lower_check : tableCheck lowerRanges Spec.lowerPairs = true := by decide +kernel
theorem upper_check : tableCheck upperRanges Spec.upperPairs = true := by decide +kernel
theorem title_check : tableCheck titleRanges Spec.titlePairs = true := by decide +kernel

/-- The Unicode table of simple mappings for a case. -/
def Case.pairs : Case → List (Nat × Nat)
  | .lower => Spec.lowerPairs
  | .upper => Spec.upperPairs
  | .title => Spec.titlePairs

/-- The Unicode table of special mappings for a case. -/
def Case.full : Case → List (Nat × List Nat)
  | .lower => Spec.lowerFull
  | .upper => Spec.upperFull
  | .title => Spec.titleFull

theorem rangeConvert_case (k : Case) (cp : Nat) :
    rangeConvert k.ranges cp = Spec.image k.pairs cp := by
  cases k
  · exact rangeConvert_eq_simple lower_check cp
  · exact rangeConvert_eq_simple upper_check cp
  · exact rangeConvert_eq_simple title_check cp

/-! Special casing. -/

theorem specialConvert_some {t : List (Nat × Str)} {cp : Nat} {r : Str}
    (h : specialConvert t cp = some r) : (cp, r) ∈ t := by
  fun_induction specialConvert t cp with
  | case1 => simp at h
  | case2 => simp at h
  | case3 r t hlt => simp only [Option.some.injEq] at h; subst h; simp
  | case4 r t c hlt he ih => exact List.mem_cons_of_mem _ (ih h)

/-- What the code finds for a code point: the row of SpecialCasing.txt if it is a used one. -/
def found (k : Case) (cp : Nat) : Option Str :=
  if cp ∈ Spec.used then (k.full.lookup cp).map Utf8.Spec.encodeAll else none

/-- Every row of the table of the code, and every used code point. -/
def specialCheck (k : Case) : Bool :=
  (k.special.all fun q => specialConvert k.special q.1 == found k q.1)
    && Spec.used.all fun c => specialConvert k.special c == found k c

theorem special_check (k : Case) : specialCheck k = true := by
  cases k <;> decide +kernel

theorem specialConvert_case (k : Case) (cp : Nat) :
    specialConvert k.special cp = found k cp := by
  have h := special_check k
  simp only [specialCheck, Bool.and_eq_true, List.all_eq_true, beq_iff_eq] at h
  by_cases hu : cp ∈ Spec.used
  · exact h.2 cp hu
  · cases hc : specialConvert k.special cp with
    | none => simp [found, hu]
    | some r =>
      have := h.1 _ (specialConvert_some hc)
      rw [← this, hc]

/-- All rows of special casing for the used characters exist, and stand for scalar values other
than zero. -/
def fullCheck (k : Case) : Bool :=
  (Spec.used.all fun c => (k.full.lookup c).isSome)
    && k.full.all fun q => q.2.all fun d =>
      Nat.blt 0 d && (Nat.blt d 0xD800 || (Nat.blt 0xDFFF d && Nat.blt d 0x110000))

theorem full_check (k : Case) : fullCheck k = true := by
  cases k <;> decide +kernel

/-- The images of the simple mappings are scalar values. -/
def pairsCheck (p : List (Nat × Nat)) : Bool :=
  p.all fun q => Nat.blt q.2 0xD800 || (Nat.blt 0xDFFF q.2 && Nat.blt q.2 0x110000)

theorem pairs_check (k : Case) : pairsCheck k.pairs = true := by
  cases k <;> decide +kernel

/-- For lower case the rows that are not used say the same as the simple mapping. -/
def lowerFullCheck : Bool :=
  Spec.lowerFull.all fun q => Spec.used.contains q.1 || q.2 == [rangeConvert lowerRanges q.1]

theorem lower_full_check : lowerFullCheck = true := by decide +kernel

end Verif.Casing
