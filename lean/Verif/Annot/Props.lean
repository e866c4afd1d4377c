import Verif.Annot.Numbers
set_option linter.unusedSimpArgs false
set_option linter.unusedVariables false

/-! C74–C76: attributes of annotation items. -/
namespace Verif.Annot
open Verif
open Verif.Server (ascii)

/-! ### C74 -/

/-- **C74** Whatever a program does with any number of items of one manager: as long as it has used at most 128
attributes, each item has the category, the text and the attributes it should have; an attribute without a value is read
as `NULL`, and the attributes are listed in the order in which the program first used them in any item. -/
theorem C74_store {ops : List Op} {s : State} (h : run State.empty ops = some s) :
    ∃ S, AState.run ⟨[], []⟩ ops = some S ∧ s.items.length = S.items.length ∧
      ∀ (k : Nat) it x, s.items[k]? = some it → S.items[k]? = some x →
        it.cat = x.cat ∧ it.text = x.text ∧
        (∀ a, getValue s.m it a = some ((x.val a).getD .null)) ∧
        getValuesAsZvalues s.m it = some (x.pairs S.used) := by
  rcases run_rep (ops := ops) SRep.start with ⟨_, e⟩ | ⟨S, e1, ⟨_, e⟩ | ⟨_, s', e2, hr⟩⟩
  · rw [e] at h; cases h
  · rw [e] at h; cases h
  · rw [e2] at h
    cases h
    refine ⟨S, e1, hr.len, ?_⟩
    intro k it x h1 h2
    have r := hr.items k it x h1 h2
    exact ⟨r.cat, r.text, fun a => getValue_rep r hr.size a, by rw [getValues_rep r hr.size, hr.m]⟩

/-- **C74** A program goes wrong only by using an item that does not exist, or a 129th attribute. -/
theorem C74_limit (ops : List Op) :
    (∃ s, run State.empty ops = some s) ↔ ∃ S, AState.run ⟨[], []⟩ ops = some S ∧ S.used.length ≤ 128 := by
  rcases run_rep (ops := ops) SRep.start with ⟨e1, e⟩ | ⟨S, e1, ⟨hS, e⟩ | ⟨hS, s', e2, hr⟩⟩
  · rw [e, e1]; simp
  · rw [e, e1]
    have : ¬ S.used.length ≤ 128 := Nat.not_le.2 hS
    simp [this]
  · rw [e2, e1]
    have : S.used.length ≤ 128 := hS
    simp [this]

/-- Two items, the second gets an attribute the first does not have; the first has both in the end. -/
def sample : List Op :=
  [.new (ascii "word") (ascii "ala"), .set 0 (ascii "b") (.sym (ascii "x")), .copyAs 0 (ascii "form"), .set 1 (ascii "a") (.int 7),
   .set 1 (ascii "b") .any, .add 0 1]

example : ∃ s, run State.empty sample = some s ∧ s.m = [ascii "b", ascii "a"] ∧
    s.items.map (getValuesAsZvalues s.m) =
      [some [(ascii "b", .any), (ascii "a", .int 7)], some [(ascii "b", .any), (ascii "a", .int 7)]] := by
  refine ⟨(run State.empty sample).getD State.empty, by decide +kernel, by decide +kernel, by decide +kernel⟩

/-- **C74** The order in which attributes are listed is not that in which they were set in the item. -/
theorem C74_order_false : ∃ ops s it, run State.empty ops = some s ∧ s.items[1]? = some it ∧
    ops.filterMap (fun op => match op with | .set 1 a v => some (a, v) | _ => none) = [(ascii "b", .int 1), (ascii "a", .int 2)] ∧
    getValuesAsZvalues s.m it = some [(ascii "a", .int 2), (ascii "b", .int 1)] :=
  ⟨[.new [] [], .new [] [], .set 0 (ascii "a") .any, .set 1 (ascii "b") (.int 1), .set 1 (ascii "a") (.int 2)],
   ⟨[ascii "a", ascii "b"], [⟨[], [], [.any], true :: List.replicate 127 false⟩,
     ⟨[], [], [.int 2, .int 1], true :: true :: List.replicate 126 false⟩]⟩,
   ⟨[], [], [.int 2, .int 1], true :: true :: List.replicate 126 false⟩,
   by decide +kernel, by decide +kernel, by decide +kernel, by decide +kernel⟩

/-! ### C75 -/

theorem itoa_ne (i : Int) : itoa i ≠ [] := by
  obtain ⟨ds, ⟨hd, _⟩, _, ⟨_, h, _⟩ | ⟨_, h, _⟩⟩ := itoa_written i
  · rw [h]; exact hd
  · rw [h]; simp

theorem prints_empty (v : ZVal) : zvalueToString v = [] ↔ v = .sym [] := by
  cases v with
  | null => simp [zvalueToString]; decide
  | any => simp [zvalueToString]; decide
  | int i => simp [zvalueToString, itoa_ne]
  | sym s => simp [zvalueToString]

theorem blank_iff (vs : List ZVal) : blank vs = true ↔ ∀ v ∈ vs, v = .sym [] := by
  simp [blank, prints_empty]

theorem sameValues_iff (vs ws : List ZVal) :
    sameValues vs ws = true ↔ ∀ i : Nat, (vs[i]?).getD (.sym []) = (ws[i]?).getD (.sym []) := by
  induction vs generalizing ws with
  | nil =>
    simp only [sameValues, blank_iff]
    constructor
    · intro h i
      cases e : ws[i]? with
      | none => simp
      | some w => simp [h w (List.mem_of_getElem? e)]
    · intro h v hv
      obtain ⟨i, hi⟩ := List.mem_iff_getElem?.1 hv
      have := h i
      rw [hi] at this
      simpa using this.symm
  | cons v vs ih =>
    cases ws with
    | nil =>
      simp only [sameValues, blank_iff]
      constructor
      · intro h i
        cases e : (v :: vs)[i]? with
        | none => simp
        | some w => simp [h w (List.mem_of_getElem? e)]
      · intro h w hw
        obtain ⟨i, hi⟩ := List.mem_iff_getElem?.1 hw
        have := h i
        rw [hi] at this
        simpa using this
    | cons w ws =>
      simp only [sameValues, Bool.and_eq_true, decide_eq_true_eq, ih]
      constructor
      · rintro ⟨rfl, h⟩ i
        cases i with
        | zero => simp
        | succ i => simpa using h i
      · intro h
        exact ⟨by simpa using h 0, fun i => by simpa using h (i + 1)⟩

theorem eq_iff (x y : Item) : x.eq y = true ↔ x.cat = y.cat ∧ x.text = y.text ∧ ∀ i : Nat, (x.values[i]?).getD (.sym []) = (y.values[i]?).getD (.sym []) := by
  simp [Item.eq, sameValues_iff, and_assoc]

/-- **C75** Items are compared by an equivalence relation. -/
theorem C75_equivalence : (∀ x : Item, x.eq x = true) ∧ (∀ x y : Item, x.eq y = true → y.eq x = true) ∧
    (∀ x y z : Item, x.eq y = true → y.eq z = true → x.eq z = true) := by
  refine ⟨fun x => (eq_iff x x).2 ⟨rfl, rfl, fun _ => rfl⟩, ?_, ?_⟩
  · intro x y h
    obtain ⟨h1, h2, h3⟩ := (eq_iff x y).1 h
    exact (eq_iff y x).2 ⟨h1.symm, h2.symm, fun i => (h3 i).symm⟩
  · intro x y z h k
    obtain ⟨h1, h2, h3⟩ := (eq_iff x y).1 h
    obtain ⟨k1, k2, k3⟩ := (eq_iff y z).1 k
    exact (eq_iff x z).2 ⟨h1.trans k1, h2.trans k2, fun i => (h3 i).trans (k3 i)⟩

/-- **C75** Equal items have the same hash, whatever the hash function of the locale. -/
theorem C75_hash (hash : Str → Int) (x y : Item) (h : x.eq y = true) : hash x.hashed = hash y.hashed := by
  obtain ⟨h1, h2, h3⟩ := (eq_iff x y).1 h
  have key : ∀ vs ws : List ZVal, (∀ i : Nat, (vs[i]?).getD (.sym []) = (ws[i]?).getD (.sym [])) →
      vs.flatMap zvalueToString = ws.flatMap zvalueToString := by
    intro vs
    induction vs with
    | nil =>
      intro ws h
      induction ws with
      | nil => rfl
      | cons w ws ih =>
        have h0 := h 0
        simp at h0
        have := ih (fun i => by simpa using h (i + 1))
        simp only [List.flatMap_nil, List.flatMap_cons, ← h0, zvalueToString, List.nil_append] at this ⊢
        exact this
    | cons v vs ih =>
      intro ws h
      cases ws with
      | nil =>
        have h0 := h 0
        simp at h0
        have := ih [] (fun i => by simpa using h (i + 1))
        simp only [List.flatMap_nil, List.flatMap_cons, h0, zvalueToString, List.nil_append] at this ⊢
        exact this
      | cons w ws =>
        have h0 := h 0
        simp at h0
        have := ih ws (fun i => by simpa using h (i + 1))
        simp only [List.flatMap_cons, h0, this]
  unfold Item.hashed
  rw [h1, h2, key _ _ h3]

theorem rep_values {m it x} (h : Rep m it x) (hm : m.length ≤ maxAttrs) (i : Nat) :
    it.values[i]? = if i < it.values.length then some ((m[i]?.bind x.val).getD .null) else none := by
  split
  · rename_i hi
    have him : i < m.length := by have := h.size; omega
    rw [List.getElem?_eq_getElem hi, List.getElem?_eq_getElem him]
    simp only [Option.bind_some, Option.some.injEq]
    cases e : x.val m[i] with
    | none => exact h.gap i m[i] _ (by simp [him]) e (by simp [hi])
    | some v =>
      have := h.val i m[i] v (by simp [him]) e
      rw [List.getElem?_eq_getElem hi] at this
      simpa using this
  · rename_i hi; exact List.getElem?_eq_none (by omega)

theorem rep_length {m it x} (h : Rep m it x) (n : Nat) (hv : ∀ i a, m[i]? = some a → (x.val a).isSome → i < n) :
    it.values.length ≤ n := by
  by_cases h0 : 0 < it.values.length
  · have him : it.values.length - 1 < m.length := by have := h.size; omega
    have := hv (it.values.length - 1) m[it.values.length - 1] (by simp [him]) (h.last _ (by simp [him]) h0)
    omega
  · omega

theorem rep_has_lt {m it x} (h : Rep m it x) (i : Nat) (a : Str) (hi : m[i]? = some a) (ha : (x.val a).isSome) : i < it.values.length := by
  obtain ⟨v, hv⟩ := Option.isSome_iff_exists.1 ha
  exact (List.getElem?_eq_some_iff.1 (h.val i a v hi hv)).1

/-- **C75** Items with the same category, text and attributes are equal, however they were made. -/
theorem C75_same {ops : List Op} {s : State} (h : run State.empty ops = some s) {S : AState}
    (hS : AState.run ⟨[], []⟩ ops = some S) {j k : Nat} {it it' : Item} {x x' : AItem}
    (h1 : s.items[j]? = some it) (h2 : s.items[k]? = some it') (h3 : S.items[j]? = some x) (h4 : S.items[k]? = some x')
    (hc : x.cat = x'.cat) (ht : x.text = x'.text) (hv : x.val = x'.val) : it.eq it' = true := by
  rcases run_rep (ops := ops) SRep.start with ⟨_, e⟩ | ⟨S', e1, ⟨_, e⟩ | ⟨_, s', e2, hr⟩⟩
  · rw [e] at h; cases h
  · rw [e] at h; cases h
  · rw [e2] at h; rw [e1] at hS
    cases h; cases hS
    have r := hr.items j it x h1 h3
    have r' := hr.items k it' x' h2 h4
    refine (eq_iff _ _).2 ⟨by rw [r.cat, r'.cat, hc], by rw [r.text, r'.text, ht], fun i => ?_⟩
    have hl : it.values.length = it'.values.length := by
      apply Nat.le_antisymm
      · exact rep_length r _ (fun i a hi ha => rep_has_lt r' i a hi (hv ▸ ha))
      · exact rep_length r' _ (fun i a hi ha => rep_has_lt r i a hi (hv ▸ ha))
    rw [rep_values r hr.size, rep_values r' hr.size, hl, hv]

/-- **C75** Equal items have the same attributes with the same values, unless one of the values is `false` or the empty
string.  Missing: items that have such values, see `C75_absent_false` and `C75_empty_false`. -/
theorem C75_attributes_partial {ops : List Op} {s : State} (h : run State.empty ops = some s) {S : AState}
    (hS : AState.run ⟨[], []⟩ ops = some S) {j k : Nat} {it it' : Item} {x x' : AItem}
    (h1 : s.items[j]? = some it) (h2 : s.items[k]? = some it') (h3 : S.items[j]? = some x) (h4 : S.items[k]? = some x')
    (hx : ∀ a, x.val a ≠ some .null ∧ x.val a ≠ some (.sym [])) (hx' : ∀ a, x'.val a ≠ some .null ∧ x'.val a ≠ some (.sym []))
    (he : it.eq it' = true) : x.cat = x'.cat ∧ x.text = x'.text ∧ x.val = x'.val := by
  rcases run_rep (ops := ops) SRep.start with ⟨_, e⟩ | ⟨S', e1, ⟨_, e⟩ | ⟨_, s', e2, hr⟩⟩
  · rw [e] at h; cases h
  · rw [e] at h; cases h
  · rw [e2] at h; rw [e1] at hS
    cases h; cases hS
    have r := hr.items j it x h1 h3
    have r' := hr.items k it' x' h2 h4
    obtain ⟨g1, g2, g3⟩ := (eq_iff _ _).1 he
    refine ⟨by rw [← r.cat, ← r'.cat, g1], by rw [← r.text, ← r'.text, g2], ?_⟩
    have half : ∀ {it it' : Item} {x x' : AItem}, Rep s.m it x → Rep s.m it' x' → (∀ a, x.val a ≠ some .null ∧ x.val a ≠ some (.sym [])) →
        (∀ i : Nat, (it.values[i]?).getD (.sym []) = (it'.values[i]?).getD (.sym [])) → ∀ a v, x.val a = some v → x'.val a = some v := by
      intro it it' x x' r r' hx g a v hv
      obtain ⟨i, hi⟩ := List.mem_iff_getElem?.1 (r.known a v hv)
      have gi := g i
      rw [r.val i a v hi hv] at gi
      have hl : i < it'.values.length := by
        apply Nat.lt_of_not_le
        intro hl
        rw [List.getElem?_eq_none hl] at gi
        simp at gi
        exact (hx a).2 (by rw [hv, gi])
      rw [rep_values r' hr.size, if_pos hl, hi] at gi
      simp only [Option.bind_some, Option.getD_some] at gi
      cases e : x'.val a with
      | none => rw [e] at gi; exact absurd (by rw [hv, gi]; rfl) (hx a).1
      | some w => rw [e] at gi; simp at gi; rw [gi]
    funext a
    cases e : x.val a with
    | some v => rw [half r r' hx g3 a v e]
    | none =>
      cases e' : x'.val a with
      | none => rfl
      | some v => rw [half r' r hx' (fun i => (g3 i).symm) a v e'] at e; cases e

/-- The hypotheses of `C75_same` and of `C75_attributes_partial` are met by two items that got the same attributes in
different order. -/
example : ∃ s S it it' x x', run State.empty [.new [] [], .new [] [], .set 0 (ascii "a") .any, .set 0 (ascii "b") (.int 1),
      .set 1 (ascii "b") (.int 1), .set 1 (ascii "a") .any] = some s ∧
    AState.run ⟨[], []⟩ [.new [] [], .new [] [], .set 0 (ascii "a") .any, .set 0 (ascii "b") (.int 1),
      .set 1 (ascii "b") (.int 1), .set 1 (ascii "a") .any] = some S ∧
    s.items[0]? = some it ∧ s.items[1]? = some it' ∧ S.items[0]? = some x ∧ S.items[1]? = some x' ∧ x.val = x'.val ∧ it.eq it' = true := by
  refine ⟨⟨[ascii "a", ascii "b"], [⟨[], [], [.any, .int 1], true :: true :: List.replicate 126 false⟩, ⟨[], [], [.any, .int 1], true :: true :: List.replicate 126 false⟩]⟩, _,
    ⟨[], [], [.any, .int 1], true :: true :: List.replicate 126 false⟩, ⟨[], [], [.any, .int 1], true :: true :: List.replicate 126 false⟩, _, _,
    by decide +kernel, rfl, by decide +kernel, by decide +kernel, rfl, rfl, ?_, by decide +kernel⟩
  funext a
  simp only [AItem.put]
  by_cases ha : a = ascii "a"
  · subst ha; decide
  · by_cases hb : a = ascii "b"
    · subst hb; decide
    · simp [ha, hb]

/-- **C75** An attribute with the value `false` and no attribute are sometimes the same and sometimes not: it depends on
whether there is a value for an attribute of the manager that is later. -/
theorem C75_absent_false : ∃ ops s, run State.empty ops = some s ∧ ∃ x y z w, s.items = [x, y, z, w] ∧
    getValues s.m x = some [(ascii "a", ascii "fail"), (ascii "b", ascii "1")] ∧ getValues s.m y = some [(ascii "b", ascii "1")] ∧
    x.eq y = true ∧
    getValues s.m z = some [(ascii "a", ascii "fail")] ∧ getValues s.m w = some [] ∧ z.eq w = false :=
  ⟨[.new [] [], .new [] [], .new [] [], .new [] [], .set 0 (ascii "a") (ofString (ascii "fail")), .set 0 (ascii "b") (ofString (ascii "1")),
    .set 1 (ascii "b") (ofString (ascii "1")), .set 2 (ascii "a") (ofString (ascii "fail"))],
   ⟨[ascii "a", ascii "b"], [⟨[], [], [.null, .int 1], true :: true :: List.replicate 126 false⟩, ⟨[], [], [.null, .int 1], false :: true :: List.replicate 126 false⟩,
     ⟨[], [], [.null], true :: List.replicate 127 false⟩, Item.new [] []]⟩,
   by decide +kernel, _, _, _, _, rfl, by decide +kernel, by decide +kernel, by decide +kernel, by decide +kernel, by decide +kernel, by decide +kernel⟩

/-- **C75** An attribute whose value is the empty string does not count, if it is the last one. -/
theorem C75_empty_false : ∃ ops s, run State.empty ops = some s ∧ ∃ x y, s.items = [x, y] ∧
    getValues s.m x = some [(ascii "a", [])] ∧ getValues s.m y = some [] ∧ x.eq y = true :=
  ⟨[.new [] [], .new [] [], .set 0 (ascii "a") (ofString [])],
   ⟨[ascii "a"], [⟨[], [], [.sym []], true :: List.replicate 127 false⟩, Item.new [] []]⟩,
   by decide +kernel, _, _, rfl, by decide +kernel, by decide +kernel, by decide +kernel⟩

/-! ### C76 -/

theorem takeWhile_all {p : Byte → Bool} {s : Str} (h : ∀ c ∈ s, p c = true) : s.takeWhile p = s := by
  induction s with
  | nil => rfl
  | cons c s ih => rw [List.takeWhile_cons, h c (by simp), if_pos rfl, ih (fun d hd => h d (by simp [hd]))]

theorem ofString_numeral {s : Str} {i : Int} (h : Numeral s i) : ofString s = .int (shifted i) := by
  unfold ofString
  rw [(readInt_iff s i).2 h]; rfl

theorem ofString_word {s : Str} (h : ∀ i, ¬ Numeral s i) : ofString s = fromString s := by
  unfold ofString
  cases e : readInt s with
  | none => rfl
  | some i => exact absurd ((readInt_iff s i).1 e) (h i)

/-- **C76** What is read after a string was set: a number, written in the usual way, if the string is a numeral for a
number of 31 bits. -/
theorem C76_number {s : Str} {i : Int} (h : Numeral s i) (hs : Small i) : Written (toString (ofString s)) i := by
  rw [ofString_numeral h, shifted_small hs]
  exact itoa_written i

/-- **C76** What is read after a string that is no numeral was set: the words `nil` and `fail` for the words that stand
for the special values, otherwise the string (up to a zero byte). -/
theorem C76_word {s : Str} (h : ∀ i, ¬ Numeral s i) :
    (s ∈ [ascii "any", ascii "nil"] → toString (ofString s) = ascii "nil") ∧
    (s ∈ [ascii "fail", ascii "false", ascii "empty"] → toString (ofString s) = ascii "fail") ∧
    (s ∉ [ascii "any", ascii "nil", ascii "fail", ascii "false", ascii "empty"] → toString (ofString s) = s.takeWhile (· ≠ 0)) := by
  rw [ofString_word h]
  refine ⟨?_, ?_, ?_⟩
  · intro hm
    simp only [List.mem_cons, List.not_mem_nil, or_false] at hm
    simp [fromString, hm, toString]
  · intro hm
    simp only [List.mem_cons, List.not_mem_nil, or_false] at hm
    rcases hm with rfl | rfl | rfl <;> decide
  · intro hm
    simp only [List.mem_cons, List.not_mem_nil, or_false, not_or] at hm
    obtain ⟨a, b, c, d, e⟩ := hm
    simp only [fromString, a, b, c, d, e, or_self, if_false, stringToZ, toString, zvalueToString, cStr]
    congr 1
    funext x
    by_cases hx : x = 0 <;> simp [hx]

example : Numeral (ascii " +007") 7 ∧ Small 7 :=
  ⟨⟨by decide, by decide, ascii " ", ascii "+", ascii "007", by decide, by simp [ascii, Space], ⟨by decide, by decide⟩, Or.inr (Or.inl ⟨by decide, by decide⟩)⟩,
   by unfold Small; decide⟩

example : ∀ i, ¬ Numeral (ascii "nom") i := fun i h => by
  rw [← readInt_iff] at h
  have : readInt (ascii "nom") = none := by decide
  rw [this] at h; cases h

/-- **C76** Exactly which strings are read back as they were set: numbers of 31 bits as they are usually written, and
strings that are no numerals, none of the words `any`, `false`, `empty`, and have no zero byte.  The property says all
strings; the rest are missing, see `C76_zeros_false`, `C76_large_false` and `C76_alias_false`. -/
theorem C76_unchanged_partial (s : Str) :
    toString (ofString s) = s ↔
      (∃ i, Small i ∧ Written s i) ∨ ((∀ i, ¬ Numeral s i) ∧ s ∉ aliases ∧ 0 ∉ s) := by
  by_cases hn : ∃ i, Numeral s i
  · obtain ⟨i, hi⟩ := hn
    constructor
    · intro h
      left
      rw [ofString_numeral hi] at h
      have := itoa_written (shifted i)
      simp only [toString, zvalueToString] at h
      rw [h] at this
      exact ⟨_, shifted_range i, this⟩
    · rintro (⟨j, hj, hw⟩ | ⟨h, _⟩)
      · have hnum := hw.numeral (by have := hj.1; omega) (by have := hj.2; omega)
        exact Written.unique (C76_number hnum hj) hw
      · exact absurd hi (h i)
  · have hn : ∀ i, ¬ Numeral s i := fun i h => hn ⟨i, h⟩
    obtain ⟨w1, w2, w3⟩ := C76_word hn
    constructor
    · intro h
      right
      refine ⟨hn, ?_, ?_⟩
      · intro hm
        simp only [aliases, List.mem_cons, List.not_mem_nil, or_false] at hm
        rcases hm with rfl | rfl | rfl
        · revert h; decide
        · revert h; decide
        · revert h; decide
      · intro h0
        by_cases hm : s ∈ [ascii "any", ascii "nil", ascii "fail", ascii "false", ascii "empty"]
        · simp only [List.mem_cons, List.not_mem_nil, or_false] at hm
          rcases hm with rfl | rfl | rfl | rfl | rfl <;> exact absurd h0 (by decide)
        · rw [w3 hm] at h
          rw [← h] at h0
          have := List.all_eq_true.1 (List.all_takeWhile (l := s) (p := fun x => decide (x ≠ 0))) 0 h0
          simp at this
    · rintro (⟨j, hj, hw⟩ | ⟨_, ha, h0⟩)
      · exact absurd (hw.numeral (by have := hj.1; omega) (by have := hj.2; omega)) (hn j)
      · by_cases hm : s ∈ [ascii "any", ascii "nil", ascii "fail", ascii "false", ascii "empty"]
        · simp only [aliases, List.mem_cons, List.not_mem_nil, or_false, not_or] at hm ha
          rcases hm with rfl | rfl | rfl | rfl | rfl
          · exact absurd rfl ha.1
          · decide
          · decide
          · exact absurd rfl ha.2.1
          · exact absurd rfl ha.2.2
        · rw [w3 hm]
          exact takeWhile_all fun c hc => by
            simp
            rintro rfl; exact h0 hc

example : toString (ofString (ascii "-15")) = ascii "-15" ∧ toString (ofString (ascii "acc")) = ascii "acc" := by decide +kernel

/-- **C76** A string of digits with needless zeros, or white space before it, is not read back. -/
theorem C76_zeros_false : toString (ofString (ascii "007")) = ascii "7" ∧ toString (ofString (ascii " 7")) = ascii "7" ∧
    toString (ofString (ascii "-0")) = ascii "0" ∧ toString (ofString (ascii "7 ")) = ascii "7 " := by decide +kernel

/-- **C76** The number 1073741824 is read back with another sign, although it fits in an `int`; 2147483648, which does
not, is read back as it is. -/
theorem C76_large_false : toString (ofString (ascii "1073741824")) = ascii "-1073741824" ∧
    toString (ofString (ascii "2147483647")) = ascii "-1" ∧ toString (ofString (ascii "2147483648")) = ascii "2147483648" :=
  ⟨by decide +kernel, by decide +kernel, by decide +kernel⟩

/-- **C76** The words `any`, `false` and `empty` are not read back, and two different strings become the same value. -/
theorem C76_alias_false : toString (ofString (ascii "any")) = ascii "nil" ∧ toString (ofString (ascii "false")) = ascii "fail" ∧
    toString (ofString (ascii "empty")) = ascii "fail" := by decide +kernel

end Verif.Annot
