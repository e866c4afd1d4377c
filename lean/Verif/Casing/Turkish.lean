import Verif.Casing.Lemmas

/-!
Helper lemmas on the conversions for Turkish and Azeri.
-/
namespace Verif.Casing
open Verif Verif.Utf8
open Verif.Utf8.Spec (Scalar encode encodeAll)

/-- The lower case converter for Turkish and Azeri. -/
def turkishLower : Converter := ⟨lowerRanges, lowerSpecial, turkishLowerContext⟩

/-- The upper or title case converter for Turkish and Azeri. -/
def turkishUpper (k : Case) : Converter := ⟨k.ranges, k.special, turkishUpperContext⟩

theorem afterI_near {ccc : Nat → Nat} {before : List Nat}
    (h : ∀ c ∈ before, Spec.between ccc c = false) :
    Spec.afterI ccc before = true ↔ before.head?.getD noCodePoint = 0x49 := by
  cases before with
  | nil => simp [Spec.afterI, noCodePoint]
  | cons b before => simp [Spec.afterI, h b (by simp)]

theorem beforeDot_near {ccc : Nat → Nat} {after : List Nat}
    (h : ∀ c ∈ after, Spec.between ccc c = false) :
    Spec.beforeDot ccc after = false ↔ after.head?.getD noCodePoint ≠ 0x307 := by
  cases after with
  | nil => simp [Spec.beforeDot, noCodePoint]
  | cons b before => simp [Spec.beforeDot, h b (by simp)]

theorem single_turkish {ccc : Nat → Nat} {before after : List Nat} {c : Nat} (hc : Scalar c)
    (hb : ∀ c ∈ before, Spec.between ccc c = false)
    (ha : ∀ c ∈ after, Spec.between ccc c = false) :
    convertSingle turkishLower (before.head?.getD noCodePoint) c (after.head?.getD noCodePoint)
      = encodeAll
          (if c = 0x130 then [0x69]
           else if c = 0x307 ∧ Spec.afterI ccc before = true then []
           else if c = 0x49 ∧ Spec.beforeDot ccc after = false then [0x131]
           else Spec.lower c) := by
  simp only [afterI_near hb, beforeDot_near ha]
  generalize before.head?.getD noCodePoint = p
  generalize after.head?.getD noCodePoint = n
  by_cases h1 : c = 0x130
  · subst h1; rfl
  rw [if_neg h1]
  by_cases h2 : c = 0x307 ∧ p = 0x49
  · rw [if_pos h2]
    obtain ⟨rfl, rfl⟩ := h2
    rfl
  rw [if_neg h2]
  by_cases h3 : c = 0x49 ∧ n ≠ 0x307
  · rw [if_pos h3]
    have : turkishLowerContext p c n = some [0xC4, 0xB1] := by
      rw [turkishLowerContext, if_pos h3]
    simp only [convertSingle, turkishLower, this]
    rfl
  rw [if_neg h3]
  have : turkishLowerContext p c n = none := by
    rw [turkishLowerContext, if_neg h3, if_neg h1, if_neg h2]
  exact convertSingle_plain (k := .lower) this hc

theorem convertFrom_turkish {ccc : Nat → Nat} (before : List Nat) (c : Nat) (after : List Nat)
    (hc : Scalar c) (hs : ∀ x ∈ after, Scalar x) (hb : ∀ x ∈ before, Spec.between ccc x = false)
    (hcb : Spec.between ccc c = false) (ha : ∀ x ∈ after, Spec.between ccc x = false) :
    convertFrom turkishLower (before.head?.getD noCodePoint) c after
      = encodeAll (Spec.turkishLower ccc before (c :: after)) := by
  induction after generalizing before c with
  | nil =>
    rw [convertFrom, if_pos (scalar_ne hc), Spec.turkishLower, Spec.turkishLower,
      List.append_nil]
    exact single_turkish hc hb ha
  | cons d after ih =>
    rw [convertFrom, if_pos (scalar_ne hc), Spec.turkishLower]
    have h1 := single_turkish hc hb ha
    have h2 := ih (c :: before) d (hs d (by simp)) (fun x hx => hs x (by simp [hx]))
      (fun x hx => by
        rcases List.mem_cons.1 hx with rfl | hx
        · exact hcb
        · exact hb x hx)
      (ha d (by simp)) (fun x hx => ha x (by simp [hx]))
    simp only [List.head?_cons, Option.getD_some] at h1 h2
    rw [h1, h2]
    simp [encodeAll]

theorem convert_turkishLower {ccc : Nat → Nat} {cs : List Nat} (h : ∀ c ∈ cs, Scalar c)
    (hb : ∀ c ∈ cs, Spec.between ccc c = false) :
    convert turkishLower (encodeAll cs) = some (encodeAll (Spec.turkishLower ccc [] cs)) := by
  rw [convert, C21_utf8to32 cs h, Option.map_some]
  congr 1
  cases cs with
  | nil => simp [convertFrom, encodeAll, Spec.turkishLower]
  | cons c cs =>
    rw [convertFrom, if_neg (by simp), List.nil_append]
    exact convertFrom_turkish [] c cs (h c (by simp)) (fun x hx => h x (by simp [hx])) (by simp)
      (hb c (by simp)) (fun x hx => hb x (by simp [hx]))

theorem convertFrom_turkishUpper (k : Case) {pp p : Nat} (hp : Scalar p) (cs : List Nat)
    (h : ∀ c ∈ cs, Scalar c) :
    convertFrom (turkishUpper k) pp p cs
      = encodeAll ((p :: cs).flatMap fun c => if c = 0x69 then [0x130] else codeMap k c) := by
  have hsingle : ∀ pp p n, Scalar p → convertSingle (turkishUpper k) pp p n
      = encodeAll (if p = 0x69 then [0x130] else codeMap k p) := by
    intro pp p n hp
    by_cases hi : p = 0x69
    · subst hi; rfl
    · rw [if_neg hi]
      exact convertSingle_plain (k := k) (by simp [turkishUpperContext, hi]) hp
  induction cs generalizing pp p with
  | nil =>
    rw [convertFrom, if_pos (scalar_ne hp), hsingle _ _ _ hp]
    simp
  | cons c cs ih =>
    rw [convertFrom, if_pos (scalar_ne hp), ih (h c (by simp)) (fun x hx => h x (by simp [hx])),
      hsingle _ _ _ hp]
    simp [encodeAll]

theorem convert_turkishUpper (k : Case) {cs : List Nat} (h : ∀ c ∈ cs, Scalar c) :
    convert (turkishUpper k) (encodeAll cs)
      = some (encodeAll (cs.flatMap fun c => if c = 0x69 then [0x130] else codeMap k c)) := by
  rw [convert, C21_utf8to32 cs h, Option.map_some]
  congr 1
  cases cs with
  | nil => simp [convertFrom, encodeAll]
  | cons c cs =>
    rw [convertFrom, if_neg (by simp), List.nil_append,
      convertFrom_turkishUpper k (h c (by simp)) cs (fun x hx => h x (by simp [hx]))]

end Verif.Casing
