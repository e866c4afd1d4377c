import Verif.Casing.Compose
import Verif.Casing.Turkish

/-!
Helper lemmas on whole texts, for the properties.
-/
namespace Verif.Casing
open Verif Verif.Utf8
open Verif.Utf8.Spec (Scalar encode encodeAll WellFormed)

/-- A language without rules of its own for upper and lower case. -/
def Plain (lang : Str) : Prop :=
  lang ≠ Server.ascii "lt" ∧ lang ≠ Server.ascii "tr" ∧ lang ≠ Server.ascii "az"

theorem converter_plain {lang : Str} (h : Plain lang) {k : Case} {K : Converter}
    (hK : converter lang k = some K) : K = regular k := by
  obtain ⟨h1, h2, h3⟩ := h
  simp only [converter, contextFor, if_neg h1, h2, h3, or_self, if_false, Option.map_some,
    Option.some.injEq] at hK
  exact hK.symm

theorem encodeAll_append (a b : List Nat) : encodeAll (a ++ b) = encodeAll a ++ encodeAll b := by
  simp [encodeAll]

theorem encodeAll_cons (c : Nat) (b : List Nat) : encodeAll (c :: b) = encode c ++ encodeAll b := by
  simp [encodeAll]

theorem flatMap_scalar (k : Case) {cs : List Nat} (h : ∀ c ∈ cs, Scalar c) :
    ∀ d ∈ cs.flatMap (codeMap k), Scalar d := by
  intro d hd
  obtain ⟨c, hc, hd⟩ := List.mem_flatMap.1 hd
  exact codeMap_scalar k (h c hc) d hd

theorem convert_twice {f g : Case} {ex : List Nat} (hch : composeCheck f g ex = true)
    {cs : List Nat} (h : ∀ c ∈ cs, Scalar c) (hex : ∀ c ∈ cs, c ∉ ex) :
    (convert (regular g) (encodeAll cs)).bind (convert (regular f))
      = convert (regular f) (encodeAll cs) := by
  rw [convert_regular g h, Option.bind_some, convert_regular f (flatMap_scalar g h),
    convert_regular f h, List.flatMap_assoc]
  congr 2
  induction cs with
  | nil => rfl
  | cons c cs ih =>
    rw [List.flatMap_cons, List.flatMap_cons, compose_of_check hch (hex c (by simp)),
      ih (fun x hx => h x (by simp [hx])) (fun x hx => hex x (by simp [hx]))]

theorem flatMap_unused {k : Case} {cs : List Nat} (hu : ∀ c ∈ cs, c ∉ Spec.used) :
    cs.flatMap (codeMap k) = cs.map (Spec.image k.pairs) := by
  induction cs with
  | nil => rfl
  | cons c cs ih =>
    rw [List.flatMap_cons, ih (fun x hx => hu x (by simp [hx])), ← plainMap_eq, plainMap,
      if_neg (hu c (by simp))]
    rfl

theorem map_changed {f : Nat → Nat} {cs : List Nat} (h : ∃ c ∈ cs, f c ≠ c) : cs.map f ≠ cs := by
  intro he
  obtain ⟨c, hc, hne⟩ := h
  have : ∀ (l : List Nat), l.map f = l → ∀ c ∈ l, f c = c := by
    intro l
    induction l with
    | nil => simp
    | cons a l ih =>
      intro he c hc
      simp only [List.map_cons, List.cons.injEq] at he
      rcases List.mem_cons.1 hc with rfl | hc
      · exact he.1
      · exact ih he.2 c hc
  exact hne (this cs he c hc)

theorem encodeAll_inj {a b : List Nat} (ha : ∀ c ∈ a, Scalar c) (hb : ∀ c ∈ b, Scalar c)
    (h : encodeAll a = encodeAll b) : a = b := C21_reading_unique a b ha hb h

/-- A text without touched characters is its own conversion, in all languages. -/
theorem untouched_regular {k : Case} {cs : List Nat}
    (hn : ∀ c ∈ cs, touches (regular k) c = false) : cs.flatMap (codeMap k) = cs := by
  induction cs with
  | nil => rfl
  | cons c cs ih =>
    rw [List.flatMap_cons, ih (fun x hx => hn x (by simp [hx])),
      codeMap_untouched (f := regularContext) (hn c (by simp))]
    rfl

theorem touched_I : touches turkishLower 0x49 = true := by decide +kernel
theorem touched_I_dot : touches turkishLower 0x130 = true := by decide +kernel

theorem touched_i (k : Case) (hk : k ≠ .lower) : touches (turkishUpper k) 0x69 = true := by
  cases k
  · exact absurd rfl hk
  · decide +kernel
  · decide +kernel

theorem turkishLower_untouched {before cs : List Nat}
    (hb : ∀ c ∈ before, touches turkishLower c = false)
    (hn : ∀ c ∈ cs, touches turkishLower c = false) :
    Spec.turkishLower (fun _ => 0) before cs = cs := by
  induction cs generalizing before with
  | nil => rfl
  | cons c cs ih =>
    have hc := hn c (by simp)
    have h1 : c ≠ 0x130 := by rintro rfl; rw [touched_I_dot] at hc; simp at hc
    have h2 : c ≠ 0x49 := by rintro rfl; rw [touched_I] at hc; simp at hc
    have h3 : Spec.afterI (fun _ => 0) before = false := by
      cases before with
      | nil => rfl
      | cons b before =>
        have : b ≠ 0x49 := by
          rintro rfl
          have := hb 0x49 (by simp)
          rw [touched_I] at this; simp at this
        simp [Spec.afterI, Spec.between, this]
    have h4 : Spec.lower c = [c] :=
      codeMap_untouched (k := .lower) (f := turkishLowerContext) hc
    rw [Spec.turkishLower, if_neg h1, if_neg (by simp [h3]), if_neg (by simp [h2]), h4,
      ih (fun x hx => by
        rcases List.mem_cons.1 hx with rfl | hx
        · exact hc
        · exact hb x hx) (fun x hx => hn x (by simp [hx]))]
    rfl

theorem turkishUpper_untouched {k : Case} (hk : k ≠ .lower) {cs : List Nat}
    (hn : ∀ c ∈ cs, touches (turkishUpper k) c = false) :
    cs.flatMap (fun c => if c = 0x69 then [0x130] else codeMap k c) = cs := by
  induction cs with
  | nil => rfl
  | cons c cs ih =>
    have hc := hn c (by simp)
    have h1 : c ≠ 0x69 := by rintro rfl; rw [touched_i k hk] at hc; simp at hc
    have h2 : codeMap k c = [c] := codeMap_untouched (k := k) (f := turkishUpperContext) hc
    rw [List.flatMap_cons, ih (fun x hx => hn x (by simp [hx])), if_neg h1, h2]
    rfl

/-- What the converters of the factory are. -/
theorem converter_cases {lang : Str} {k : Case} {K : Converter} (hK : converter lang k = some K) :
    K = regular k ∨ (k = .lower ∧ K = turkishLower) ∨ (k ≠ .lower ∧ K = turkishUpper k) := by
  unfold converter contextFor at hK
  split at hK
  · simp at hK
  split at hK
  · simp only [Option.map_some, Option.some.injEq] at hK
    by_cases hk : k = .lower
    · subst hk
      right; left
      exact ⟨rfl, hK.symm⟩
    · rw [if_neg hk] at hK
      right; right
      exact ⟨hk, hK.symm⟩
  · simp only [Option.map_some, Option.some.injEq] at hK
    left; exact hK.symm

theorem convert_untouched {lang : Str} {k : Case} {K : Converter} (hK : converter lang k = some K)
    {cs : List Nat} (h : ∀ c ∈ cs, Scalar c) (hn : ∀ c ∈ cs, touches K c = false) :
    convert K (encodeAll cs) = some (encodeAll cs) := by
  rcases converter_cases hK with rfl | ⟨rfl, rfl⟩ | ⟨hk, rfl⟩
  · rw [convert_regular k h, untouched_regular hn]
  · rw [convert_turkishLower (ccc := fun _ => 0) h (by simp [Spec.between]),
      turkishLower_untouched (by simp) hn]
  · rw [convert_turkishUpper k h, turkishUpper_untouched hk hn]

/-- The spellings a word is looked up under. -/
theorem lookups_enc (k : Case) {c : Nat} {cs : List Nat} (hc : Scalar c)
    (hs : ∀ x ∈ cs, Scalar x) :
    lookups (regular k) (encodeAll (c :: cs))
      = some ([encodeAll (c :: cs)]
          ++ (if cs.any (touches (regular k)) then [encodeAll (c :: cs.flatMap (codeMap k))] else [])
          ++ (if touches (regular k) c then [encodeAll (codeMap k c ++ cs)] else [])) := by
  unfold lookups
  have e : encodeAll (c :: cs) = encode c ++ encodeAll cs := encodeAll_cons c cs
  have h1 : convert (regular k) (encode c) = some (encodeAll (codeMap k c)) := by
    have := convert_regular k (cs := [c]) (by simpa using hc)
    simpa [encodeAll] using this
  rw [e, willBeTouchedTail_enc _ hc hs, willBeTouchedHead_enc _ hc, tailConvert_enc _ hc,
    headConvert_enc _ hc, convert_regular k hs, h1, encodeAll_cons, encodeAll_append]
  cases cs.any (touches (regular k)) <;> cases touches (regular k) c <;> rfl

end Verif.Casing
