import Verif.Lexicon.MapperLemmas
import Verif.Lexicon.Props

/-!
Property theorems C130-C136 (the mapper, lexemes, simplenorm and detok).

`Rep m it x` says that `it` is an item of a manager with the attributes `m` (in the order of their first use) that has the category,
the text and the attributes of `x`; C74 says that all items a program makes are such.
-/
set_option linter.unusedVariables false
set_option linter.unusedSimpArgs false

namespace Verif.Lexicon
open Verif Annot

/-! ### C130 -/

/-- **C130** A record of an entry gives back the fields if none has a tab: the text, the category if there is one, and the attributes
between commas if there is a third field. -/
theorem C130_fields (k : Str) (fs : List Str) (h0 : fs ≠ []) (h : ∀ f ∈ fs, (9 : Byte) ∉ f) :
    (parseEntry (Spec.record (k, fs))).1 = fs[0]? ∧ (parseEntry (Spec.record (k, fs))).2.1 = fs[1]? ∧
    (fs[2]? = none → (parseEntry (Spec.record (k, fs))).2.2 = []) ∧
    (∀ avs, avs ≠ [] → (∀ av ∈ avs, (44 : Byte) ∉ av.1 ∧ (61 : Byte) ∉ av.1 ∧ (44 : Byte) ∉ av.2) →
      fs[2]? = some (Spec.attributes avs) → (parseEntry (Spec.record (k, fs))).2.2 = avs) := by
  have hs : split (· == 9) (Spec.record (k, fs)) = fs := by
    rw [split_eq]
    refine splitOnP_intercalate_none _ (by simp) h0 (fun w hw d hd => ?_)
    rw [beq_eq_false_iff_ne]
    rintro rfl
    exact h w hw hd
  have ha : ∀ avs : List (Str × Str), avs ≠ [] → (∀ av ∈ avs, (44 : Byte) ∉ av.1 ∧ (61 : Byte) ∉ av.1 ∧ (44 : Byte) ∉ av.2) →
      (split (· == 44) (Spec.attributes avs)).map parseAttribute = avs := by
    intro avs h1 h2
    rw [split_eq, Spec.attributes, splitOnP_intercalate_none _ (by simp) (by simpa using h1), List.map_map]
    · conv => rhs; rw [← List.map_id avs]
      apply List.map_congr_left
      intro av hav
      exact parseAttribute_pair (h2 av hav).2.1
    · intro w hw d hd
      obtain ⟨av, hav, rfl⟩ := List.mem_map.1 hw
      rw [beq_eq_false_iff_ne]
      rintro rfl
      obtain ⟨p, q, r⟩ := h2 av hav
      simp [p, r] at hd
  unfold parseEntry
  rw [hs]
  match fs, h0 with
  | [t], _ => simp
  | [t, c], _ => simp
  | t :: c :: a :: rest, _ =>
    refine ⟨rfl, rfl, by simp, fun avs h1 h2 h3 => ?_⟩
    simp only [List.getElem?_cons_succ, List.getElem?_cons_zero, Option.some.injEq] at h3
    rw [h3]
    exact ha avs h1 h2

/-- **C130** An attribute without a value has the value "1". -/
theorem C130_bare (a : Str) (h : (61 : Byte) ∉ a) : parseAttribute a = (a, [49]) := parseAttribute_bare h

/-- **C130** The claim is that the fields of an entry are kept apart.  A field with a (quoted) tab is taken for two, and a field with
";" for two records. -/
theorem C130_false : ∃ k f g l l', Spec.Means l (some (k, [f])) ∧ Spec.Means l' (some (k, [g, g])) ∧
    readPlainText (Spec.text [l]) = readPlainText (Spec.text [l']) ∧
    ∃ f' l1 l2 l3, Spec.Means l1 (some (k, [f'])) ∧ Spec.Means l2 (some (k, [g])) ∧ Spec.Means l3 (some (k, [g])) ∧
      readPlainText (Spec.text [l1]) = readPlainText (Spec.text [l2, l3]) :=
  ⟨Server.ascii "k", Server.ascii "x\tx", Server.ascii "x", Server.ascii "k x\\tx", Server.ascii "k x x",
    fieldsOf_ok.1 (by decide +kernel), fieldsOf_ok.1 (by decide +kernel), by decide +kernel,
    Server.ascii "x;x", Server.ascii "k x;x", Server.ascii "k x", Server.ascii "k x",
    fieldsOf_ok.1 (by decide +kernel), fieldsOf_ok.1 (by decide +kernel), fieldsOf_ok.1 (by decide +kernel), by decide +kernel⟩

example : ∀ f ∈ [Server.ascii "dom", Server.ascii "subst", Spec.attributes [(Server.ascii "case", Server.ascii "nom")]], (9 : Byte) ∉ f := by
  decide +kernel

example : parseEntry (Server.ascii "dom\tsubst\tcase=nom,hum") = (some (Server.ascii "dom"), some (Server.ascii "subst"),
    [(Server.ascii "case", Server.ascii "nom"), (Server.ascii "hum", Server.ascii "1")]) := by decide +kernel

/-! ### C131 -/

/-- **C131** What the mapper looks up: the text and the category if they are considered and then, if they are considered, the attributes
with their values in the order of their bytes, with commas between. -/
theorem C131_key (o : Options) {m it x} (h : Rep m it x) (hm : m.length ≤ 128) :
    ∃ avs : List Str, avs.Perm (if o.considerAttributes then (x.pairs m).map (fun av => av.1 ++ [61] ++ Annot.toString av.2) else []) ∧
      avs.Pairwise (fun s t => ¬ List.Lex (· < ·) t s) ∧
      keyOf o m it = some ([44].intercalate ((if o.considerText then [x.text] else []) ++ (if o.considerCategory then [x.cat] else []) ++ avs)) := by
  unfold keyOf
  rw [getValuesStr_rep h hm, h.text, h.cat]
  have hsort : ∀ l : List Str, (sortStr l).Pairwise (fun s t => ¬ List.Lex (· < ·) t s) := fun l =>
    (sortStr_sorted l).imp (fun {a b} h => (strLe_iff a b).1 h)
  cases o.considerAttributes with
  | false =>
    simp only [Bool.false_eq_true, if_false, List.map_nil]
    exact ⟨_, sortStr_perm [], hsort _, by rw [join_eq]⟩
  | true =>
    simp only [if_true, List.map_map]
    exact ⟨_, sortStr_perm _, hsort _, by rw [join_eq]; rfl⟩

/-- **C131** The key depends on the item only, not on the order in which the attributes became known to the manager. -/
theorem C131_order_free (o : Options) {m m' it it' x} (h : Rep m it x) (h' : Rep m' it' x) (hm : m.length ≤ 128) (hm' : m'.length ≤ 128)
    (hn : m.Nodup) (hn' : m'.Nodup) : keyOf o m it = keyOf o m' it' := by
  unfold keyOf
  rw [getValuesStr_rep h hm, getValuesStr_rep h' hm', h.text, h.cat, h'.text, h'.cat]
  cases o.considerAttributes with
  | false => rfl
  | true =>
    simp only [if_true]
    rw [sortStr_perm_eq (((pairs_perm hn hn' h.known h'.known).map _).map _)]

/-- **C131** The claim is that different items have different keys.  The comma is not quoted: the text "a,b" with the category "c" has
the key of the text "a" with the category "b,c". -/
theorem C131_false : ∃ o : Options, o.accepted = true ∧ o.considerText = true ∧ o.considerCategory = true ∧ ∃ t c t' c',
    t ≠ t' ∧ c ≠ c' ∧ keyOf o [] (Item.new c t) = keyOf o [] (Item.new c' t') :=
  ⟨{ considerText := true, considerCategory := true }, rfl, rfl, rfl, Server.ascii "a,b", Server.ascii "c", Server.ascii "a", Server.ascii "b,c",
    by decide +kernel, by decide +kernel, by decide +kernel⟩

theorem intercalate_inj {c : Byte} : ∀ {l l' : List Str}, l ≠ [] → l' ≠ [] → (∀ w ∈ l, c ∉ w) → (∀ w ∈ l', c ∉ w) →
    [c].intercalate l = [c].intercalate l' → l = l' := by
  intro l l' h0 h0' h h' he
  have h1 := splitOnP_intercalate_none (c := c) (· == c) (by simp) h0 (fun w hw d hd => by
    rw [beq_eq_false_iff_ne]; rintro rfl; exact h w hw hd)
  have h2 := splitOnP_intercalate_none (c := c) (· == c) (by simp) h0' (fun w hw d hd => by
    rw [beq_eq_false_iff_ne]; rintro rfl; exact h' w hw hd)
  rw [← h1, ← h2, he]

/-- **C131** Without commas in texts and categories the text and the category are known from the key, if both are considered and attributes
are not.  (The claim is about all that is considered.) -/
theorem C131_partial (o : Options) (ht : o.considerText = true) (hc : o.considerCategory = true) (ha : o.considerAttributes = false)
    {m it it'} (h1 : (44 : Byte) ∉ it.text ∧ (44 : Byte) ∉ it.cat) (h2 : (44 : Byte) ∉ it'.text ∧ (44 : Byte) ∉ it'.cat)
    (h : keyOf o m it = keyOf o m it') : it.text = it'.text ∧ it.cat = it'.cat := by
  unfold keyOf at h
  simp only [ht, hc, ha, if_true, Bool.false_eq_true, if_false, List.map_nil, join_eq, Option.some.injEq] at h
  rw [show sortStr [] = [] from rfl] at h
  have := intercalate_inj (by simp) (by simp) (by simpa using h1) (by simpa using h2) h
  simpa using this

/-- A manager that has seen two attributes, in either order, and items. -/
example : keyOf { considerText := true, considerAttributes := true } [Server.ascii "b", Server.ascii "a"]
      ⟨[], Server.ascii "t", [.int 1, .sym (Server.ascii "x")], true :: true :: List.replicate 126 false⟩ = some (Server.ascii "t,a=x,b=1") ∧
    keyOf { considerText := true, considerAttributes := true } [Server.ascii "a", Server.ascii "b"]
      ⟨[], Server.ascii "t", [.sym (Server.ascii "x"), .int 1], true :: true :: List.replicate 126 false⟩ = some (Server.ascii "t,a=x,b=1") := by
  decide +kernel

/-! ### C132 -/

/-- The strings from which the attributes of a new item come, in the order in which they are set. -/
theorem strings_pairs {m it x} (h : Rep m it x) (hn : m.Nodup) (hm : m.length ≤ maxAttrs) (clone : Bool) (y : AItem) (a : Str) :
    (putAll y (if clone then (x.pairs m).map (fun av => (av.1, Annot.toString av.2)) else [])).val a =
      (if clone then (x.val a).map (fun v => ofString (Annot.toString v)) else none).or (y.val a) := by
  rw [putAll_val]
  cases clone with
  | false => simp [Spec.lastOf]
  | true =>
    simp only [if_true, lastOf_pairs hn h.known, Option.map_map]
    rfl

theorem cloneStrings_some {m it x} (h : Rep m it x) (hn : m.Nodup) (hm : m.length ≤ maxAttrs) (clone : Bool) {ai y m' ai'} (hy : Rep m ai y)
    (hs : cloneStrings clone m it ai = some (m', ai')) : m'.Nodup ∧ m'.length ≤ maxAttrs ∧
      ∃ z, Rep m' ai' z ∧ z.cat = y.cat ∧ z.text = y.text ∧
        ∀ a, z.val a = (if clone then (x.val a).map (fun v => ofString (Annot.toString v)) else none).or (y.val a) := by
  have hs2 : setStrings m ai (if clone then (x.pairs m).map (fun av => (av.1, Annot.toString av.2)) else []) = some (m', ai') := by
    unfold cloneStrings at hs
    cases clone with
    | false => simpa [setStrings] using hs
    | true => simpa [getValuesStr_rep h hm] using hs
  obtain ⟨_, h1, h2, h3⟩ := setStrings_some hy hn hm _ hs2
  exact ⟨h1, h2, _, h3, (putAll_cat _ _).1, (putAll_cat _ _).2, fun a => strings_pairs h hn hm clone y a⟩

/-- **C132** The item made for a record: the text is the one that is set, or that of the edge if it is cloned, or the first field; the same for
the category and the second field, except that the whole record takes the place of a field that is missing; an attribute has the value of the
record if attributes are added, or else the one that is set, or else that of the edge if they are cloned, passed on as a string. -/
theorem C132_item (o : Options) {m it x} (h : Rep m it x) (hn : m.Nodup) (hm : m.length ≤ 128) (record : Str) {m' ai}
    (hs : entryItem o m it record = some (m', ai)) :
    ai.text = (o.setText.or (if o.cloneText then some x.text else (parseEntry record).1)).getD record ∧
    ai.cat = (o.setCategory.or (if o.cloneCategory then some x.cat else (parseEntry record).2.1)).getD record ∧
    ∀ a, Annot.getValue m' ai a = some
      (((((if o.addAttributes then Spec.lastOf (parseEntry record).2.2 a else none).or (o.setAttributes.bind fun s => Spec.lastOf (parseSet s) a)).map ofString).or
        (if o.cloneAttributes then (x.val a).map (fun v => ofString (Annot.toString v)) else none)).getD .null) := by
  have ht : ∀ (b : Bool) (d : Option Str) (s : Option Str) (t : Str), (if s.isSome then s else (if b then some t else d)) = s.or (if b then some t else d) := by
    intro b d s t; cases s <;> simp
  unfold entryItem at hs
  simp only [ht, h.text, h.cat] at hs
  split at hs
  · simp at hs
  · rename_i m1 ai1 h1
    obtain ⟨hn1, hm1, z1, hr1, hc1, ht1, hv1⟩ := cloneStrings_some h hn hm _ (Rep.new m _ _) h1
    split at hs
    · simp at hs
    · rename_i m2 ai2 h2
      obtain ⟨_, hn2, hm2, hr2⟩ := setStrings_some hr1 hn1 hm1 _ h2
      have h3 : setStrings m2 ai2 (if o.addAttributes then (parseEntry record).2.2 else []) = some (m', ai) := by
        cases hadd : o.addAttributes with
        | false => rw [hadd] at hs; simpa [setStrings] using hs
        | true => rw [hadd] at hs; simpa using hs
      obtain ⟨_, hn3, hm3, hr3⟩ := setStrings_some hr2 hn2 hm2 _ h3
      refine ⟨?_, ?_, fun a => ?_⟩
      · rw [hr3.text, (putAll_cat _ _).2, (putAll_cat _ _).2, ht1]
      · rw [hr3.cat, (putAll_cat _ _).1, (putAll_cat _ _).1, hc1]
      · rw [getValue_rep hr3 hm3, putAll_val, putAll_val, hv1]
        congr 2
        have hset : Spec.lastOf (o.setAttributes.elim [] parseSet) a =
            o.setAttributes.bind fun s => Spec.lastOf (parseSet s) a := by
          cases o.setAttributes <;> rfl
        rw [hset]
        cases o.addAttributes with
        | false =>
          simp only [Bool.false_eq_true, if_false, Spec.lastOf, List.filter_nil, List.getLast?_nil, Option.map_none, Option.none_or]
          cases o.setAttributes.bind _ <;> simp
        | true =>
          simp only [if_true]
          cases Spec.lastOf (parseEntry record).2.2 a <;> cases o.setAttributes.bind _ <;> simp

/-- **C132** The same for an item that is made when nothing is found: without text or category they are "unknown". -/
theorem C132_unknown (o : Options) {m it x} (h : Rep m it x) (hn : m.Nodup) (hm : m.length ≤ 128) {m' ai}
    (hs : unknownItem o m it = some (m', ai)) :
    ai.text = (o.unknownSetText.or (if o.unknownCloneText then some x.text else none)).getD (Server.ascii "unknown") ∧
    ai.cat = (o.unknownSetCategory.or (if o.unknownCloneCategory then some x.cat else none)).getD (Server.ascii "unknown") ∧
    ∀ a, Annot.getValue m' ai a = some
      ((((o.unknownSetAttributes.bind fun s => Spec.lastOf (parseSet s) a).map ofString).or
        (if o.unknownCloneAttributes then (x.val a).map (fun v => ofString (Annot.toString v)) else none)).getD .null) := by
  have ht : ∀ (b : Bool) (d : Option Str) (s : Option Str) (t : Str), (if s.isSome then s else (if b then some t else d)) = s.or (if b then some t else d) := by
    intro b d s t; cases s <;> simp
  unfold unknownItem at hs
  simp only [ht, h.text, h.cat] at hs
  split at hs
  · simp at hs
  · rename_i m1 ai1 h1
    obtain ⟨hn1, hm1, z1, hr1, hc1, ht1, hv1⟩ := cloneStrings_some h hn hm _ (Rep.new m _ _) h1
    obtain ⟨_, hn2, hm2, hr2⟩ := setStrings_some hr1 hn1 hm1 _ hs
    refine ⟨?_, ?_, fun a => ?_⟩
    · rw [hr2.text, (putAll_cat _ _).2, ht1]; rfl
    · rw [hr2.cat, (putAll_cat _ _).1, hc1]; rfl
    · rw [getValue_rep hr2 hm2, putAll_val, hv1]
      congr 2
      cases o.unknownSetAttributes <;> simp [Spec.lastOf]

/-- **C132** The attributes that are set are exactly those that the option names. -/
theorem C132_set {avs : List (Str × Str)} (h0 : avs ≠ [])
    (h : ∀ av ∈ avs, (44 : Byte) ∉ av.1 ∧ (61 : Byte) ∉ av.1 ∧ (44 : Byte) ∉ av.2)
    (h9 : (9 : Byte) ∉ Spec.attributes avs) : parseSet (Spec.attributes avs) = avs := by
  have hr : Spec.record ([], [Server.ascii "dummyLemma", Server.ascii "dummyCategory", Spec.attributes avs]) =
      Server.ascii "dummyLemma" ++ [9] ++ Server.ascii "dummyCategory" ++ [9] ++ Spec.attributes avs := by
    simp [Spec.record, List.intercalate]
  have key := C130_fields [] [Server.ascii "dummyLemma", Server.ascii "dummyCategory", Spec.attributes avs] (by simp) (by
    intro f hf
    simp only [List.mem_cons, List.not_mem_nil, or_false] at hf
    rcases hf with rfl | rfl | rfl
    · decide +kernel
    · decide +kernel
    · exact h9)
  rw [hr] at key
  exact key.2.2.2 avs h0 h rfl

example : parseSet (Server.ascii "a=1,b=x=y") = [(Server.ascii "a", Server.ascii "1"), (Server.ascii "b", Server.ascii "x=y")] := by
  decide +kernel

/-- **C132** The claim is that cloned attributes have the values of the edge.  A symbol that looks like a number becomes a number, and a
symbol "any" the special value. -/
theorem C132_clone_false : ∃ (o : Options) (m : List Str) (it ai : Item) (a b : Str), o.accepted = true ∧ o.cloneAttributes = true ∧
    entryItem o m it (Server.ascii "r") = some (m, ai) ∧
    Annot.getValue m it a = some (.sym (Server.ascii "12")) ∧ Annot.getValue m ai a = some (.int 12) ∧
    Annot.getValue m it b = some (.sym (Server.ascii "any")) ∧ Annot.getValue m ai b = some .any :=
  ⟨{ considerText := true, cloneAttributes := true }, [Server.ascii "a", Server.ascii "b"],
    ⟨[], [], [.sym (Server.ascii "12"), .sym (Server.ascii "any")], true :: true :: List.replicate 126 false⟩,
    ⟨Server.ascii "r", Server.ascii "r", [.int 12, .any], true :: true :: List.replicate 126 false⟩,
    Server.ascii "a", Server.ascii "b", by decide +kernel, by decide +kernel, by decide +kernel, by decide +kernel, by decide +kernel, by decide +kernel, by decide +kernel⟩

/-- **C132** Numbers of 31 bits, the two special values and symbols that are no numerals, no special words and have no zero byte are cloned
as they are. -/
theorem C132_clone_partial (v : ZVal) (h : match v with
    | .null => True
    | .any => True
    | .int i => Small i
    | .sym s => (∀ i, ¬ Numeral s i) ∧ s ∉ [Server.ascii "any", Server.ascii "nil", Server.ascii "fail", Server.ascii "false", Server.ascii "empty"] ∧ (0 : Byte) ∉ s) :
    ofString (Annot.toString v) = v := by
  cases v with
  | null => decide +kernel
  | any => decide +kernel
  | int i =>
    simp only at h
    have hw := itoa_written i
    have hn := hw.numeral (by have := h.1; omega) (by have := h.2; omega)
    rw [show Annot.toString (.int i) = itoa i from rfl, ofString_numeral hn, shifted_small h]
  | sym s =>
    simp only at h
    obtain ⟨h1, h2, h3⟩ := h
    simp only [List.mem_cons, List.not_mem_nil, or_false, not_or] at h2
    obtain ⟨a, b, c, d, e⟩ := h2
    rw [show Annot.toString (.sym s) = s from rfl, ofString_word h1]
    simp only [fromString, a, b, c, d, e, or_self, if_false, stringToZ, cStr, ZVal.sym.injEq]
    exact takeWhile_all fun x hx => by
      rw [bne_iff_ne]; rintro rfl; exact h3 hx

/-- **C132** Nothing is wrong as long as there are not more than 128 attributes. -/
theorem C132_defined (o : Options) {m it x} (h : Rep m it x) (hn : m.Nodup) (record : Str)
    (hm : m.length + (o.setAttributes.elim 0 fun s => (parseSet s).length) + (parseEntry record).2.2.length ≤ 128) :
    ∃ m' ai, entryItem o m it record = some (m', ai) := by
  have hm0 : m.length ≤ maxAttrs := by have : maxAttrs = 128 := rfl; omega
  have hpm : entered m (((x.pairs m).map (fun av => (av.1, Annot.toString av.2))).map (·.1)) = m := by
    have hsub : ∀ a ∈ ((x.pairs m).map (fun av => (av.1, Annot.toString av.2))).map (·.1), a ∈ m := by
      intro a ha
      simp only [List.map_map, List.mem_map, Function.comp, AItem.pairs, List.mem_filterMap, Option.map_eq_some_iff] at ha
      obtain ⟨⟨b, v⟩, ⟨c, hc, w, _, he⟩, rfl⟩ := ha
      simp only [Prod.mk.injEq] at he
      rw [← he.1]; exact hc
    generalize ((x.pairs m).map (fun av => (av.1, Annot.toString av.2))).map (·.1) = as at hsub
    induction as with
    | nil => rfl
    | cons a as ih =>
      have : entered m (a :: as) = entered (enter m a) as := rfl
      rw [this, enter_eq, if_pos (hsub a (by simp))]
      exact ih (fun b hb => hsub b (by simp [hb]))
  have hclone : ∀ ai y, Rep m ai y → ∃ ai', cloneStrings o.cloneAttributes m it ai = some (m, ai') := by
    intro ai y hy
    cases hc : o.cloneAttributes with
    | false => exact ⟨ai, by simp [cloneStrings]⟩
    | true =>
      obtain ⟨m1, ai1, h1⟩ := setStrings_total hy hn ((x.pairs m).map (fun av => (av.1, Annot.toString av.2))) (by rw [hpm]; exact hm0)
      have h2 := (setStrings_some hy hn hm0 _ h1).1
      rw [hpm] at h2
      exact ⟨ai1, by simp [cloneStrings, getValuesStr_rep h hm0, h1, h2]⟩
  unfold entryItem
  simp only
  obtain ⟨ai1, h1⟩ := hclone _ _ (Rep.new m _ _)
  rw [h1]
  obtain ⟨hn1, hm1, z1, hr1, _⟩ := cloneStrings_some h hn hm0 _ (Rep.new m _ _) h1
  simp only
  have hset : (o.setAttributes.elim [] parseSet).length = o.setAttributes.elim 0 fun s => (parseSet s).length := by
    cases o.setAttributes <;> rfl
  generalize hsl : (o.setAttributes.elim [] parseSet) = sl at *
  have hl1 := entered_length m (sl.map (·.1))
  rw [List.length_map] at hl1
  obtain ⟨m2, ai2, h2⟩ := setStrings_total hr1 hn1 sl (by have : maxAttrs = 128 := rfl; omega)
  rw [h2]
  obtain ⟨he2, hn2, hm2, hr2⟩ := setStrings_some hr1 hn1 hm1 _ h2
  simp only
  split
  · have hl2 := entered_length m2 ((parseEntry record).2.2.map (·.1))
    rw [List.length_map] at hl2
    refine setStrings_total hr2 hn2 _ (Nat.le_trans hl2.2 ?_)
    have : maxAttrs = 128 := rfl
    rw [he2]; omega
  · exact ⟨_, _, rfl⟩

example : Rep [] (Item.new (Server.ascii "c") (Server.ascii "t")) ⟨Server.ascii "c", Server.ascii "t", fun _ => none⟩ := Rep.new _ _ _

example : (entryItem { considerText := true, addAttributes := true, setAttributes := some (Server.ascii "a=1,b=2") } [] (Item.new [] [])
    (Server.ascii "dom\tsubst\tb=3")).map (fun r => (r.2.text, r.2.cat, (Annot.getValues r.1 r.2).getD [])) =
    some (Server.ascii "dom", Server.ascii "subst", [(Server.ascii "a", Server.ascii "1"), (Server.ascii "b", Server.ascii "3")]) := by decide +kernel

/-! ### C133 -/

/-- **C133** For each record found there is exactly one new edge, in the order of the records, with the text and category of C132. -/
theorem C133_found (o : Options) {m it x} (h : Rep m it x) (hn : m.Nodup) (hm : m.length ≤ 128) {records key rs m' ais}
    (hk : keyOf o m it = some key) (hr : records key = some rs) (hne : rs ≠ [])
    (hs : processEdge o records m it = some (m', ais)) :
    List.Forall₂ (fun r ai => ai.text = (o.setText.or (if o.cloneText then some x.text else (parseEntry r).1)).getD r ∧
      ai.cat = (o.setCategory.or (if o.cloneCategory then some x.cat else (parseEntry r).2.1)).getD r) rs ais := by
  have hnew : ∀ rs m it', Rep m it x → it' = it → m.Nodup → m.length ≤ maxAttrs → ∀ m' ais, entryItems o it' m rs = some (m', ais) →
      List.Forall₂ (fun r ai => ai.text = (o.setText.or (if o.cloneText then some x.text else (parseEntry r).1)).getD r ∧
      ai.cat = (o.setCategory.or (if o.cloneCategory then some x.cat else (parseEntry r).2.1)).getD r) rs ais := by
    intro rs
    induction rs with
    | nil => intro m it' hr hi hn hm m' ais he; simp [entryItems] at he; rw [he.2]; exact .nil
    | cons r rs ih =>
      intro m it' hrep hi hn hm m' ais he
      subst hi
      rw [entryItems] at he
      split at he
      · simp at he
      · rename_i m1 ai1 h1
        split at he
        · simp at he
        · rename_i m2 ais2 h2
          simp only [Option.some.injEq, Prod.mk.injEq] at he
          obtain ⟨rfl, rfl⟩ := he
          have h3 := C132_item o hrep hn hm r h1
          have h4 : m1.Nodup ∧ m1.length ≤ maxAttrs ∧ Rep m1 it' x := by
            have hgrow : ∀ as : List Str, ∀ m it x, Rep m it x → Rep (entered m as) it x := by
              intro as
              induction as with
              | nil => intro m it x h; exact h
              | cons a as ih => intro m it x h; exact ih _ _ _ (h.enter a)
            unfold entryItem at h1
            simp only at h1
            split at h1
            · simp at h1
            · rename_i m3 ai3 h5
              have h5' : m3.Nodup ∧ m3.length ≤ maxAttrs ∧ Rep m3 it' x ∧ ∃ z, Rep m3 ai3 z := by
                unfold cloneStrings at h5
                split at h5
                · rw [getValuesStr_rep hrep hm] at h5
                  obtain ⟨e, a, b, c⟩ := setStrings_some (Rep.new m _ _) hn hm _ h5
                  exact ⟨a, b, by rw [e]; exact hgrow _ _ _ _ hrep, _, c⟩
                · simp only [Option.some.injEq, Prod.mk.injEq] at h5
                  obtain ⟨rfl, rfl⟩ := h5
                  exact ⟨hn, hm, hrep, _, Rep.new _ _ _⟩
              obtain ⟨a1, a2, a3, z, a4⟩ := h5'
              split at h1
              · simp at h1
              · rename_i m4 ai4 h6
                obtain ⟨e, b1, b2, b3⟩ := setStrings_some a4 a1 a2 _ h6
                have b4 : Rep m4 it' x := by rw [e]; exact hgrow _ _ _ _ a3
                split at h1
                · obtain ⟨e', c1, c2, c3⟩ := setStrings_some b3 b1 b2 _ h1
                  exact ⟨c1, c2, by rw [e']; exact hgrow _ _ _ _ b4⟩
                · simp only [Option.some.injEq, Prod.mk.injEq] at h1
                  rw [← h1.1]
                  exact ⟨b1, b2, b4⟩
          exact .cons ⟨h3.1, h3.2.1⟩ (ih m1 it' h4.2.2 rfl h4.1 h4.2.1 m2 ais2 h2)
  unfold processEdge at hs
  rw [hk] at hs
  simp only [hr] at hs
  match rs, hne with
  | r :: rs, _ => exact hnew (r :: rs) m it h rfl hn hm m' ais hs

/-- **C133** If nothing is found, there is one new edge if any of the options for unknown words is given, and none otherwise. -/
theorem C133_unknown (o : Options) {m it} {records key m' ais} (hk : keyOf o m it = some key) (hr : records key = some [])
    (hs : processEdge o records m it = some (m', ais)) :
    (ais.length = 1 ∧ (o.unknownCloneText = true ∨ o.unknownCloneCategory = true ∨ o.unknownCloneAttributes = true ∨
      o.unknownSetText ≠ none ∨ o.unknownSetCategory ≠ none ∨ o.unknownSetAttributes ≠ none) ∧ ∃ ai, ais = [ai] ∧ unknownItem o m it = some (m', ai)) ∨
    (ais = [] ∧ m' = m ∧ o.unknownCloneText = false ∧ o.unknownCloneCategory = false ∧ o.unknownCloneAttributes = false ∧
      o.unknownSetText = none ∧ o.unknownSetCategory = none ∧ o.unknownSetAttributes = none) := by
  unfold processEdge at hs
  rw [hk] at hs
  simp only [hr] at hs
  cases hu : o.unknowns with
  | true =>
    left
    rw [hu] at hs
    simp only [if_true, Option.map_eq_some_iff, Prod.mk.injEq] at hs
    obtain ⟨⟨m1, ai⟩, h1, rfl, rfl⟩ := hs
    refine ⟨rfl, ?_, ai, rfl, h1⟩
    simpa [Options.unknowns, or_assoc, Option.isSome_iff_ne_none] using hu
  | false =>
    right
    rw [hu] at hs
    simp only [Bool.false_eq_true, if_false, Option.some.injEq, Prod.mk.injEq] at hs
    refine ⟨hs.2.symm, hs.1.symm, ?_⟩
    simpa [Options.unknowns, and_assoc] using hu

example : (processEdge { considerText := true } (fun k => if k = Server.ascii "t" then some [Server.ascii "a\tx", Server.ascii "b"] else some [])
    [] (Item.new (Server.ascii "c") (Server.ascii "t"))).map (fun r => r.2.map fun ai => (ai.text, ai.cat)) =
    some [(Server.ascii "a", Server.ascii "x"), (Server.ascii "b", Server.ascii "b")] := by decide +kernel

/-! ### C134 -/

/-- **C134** A lexeme is its lemma, a "+" and its category; the bilingual lexicon takes the whole record for the text. -/
theorem C134_lexeme (l c : Str) (h : (43 : Byte) ∉ l) : getLemma (l ++ [43] ++ c) = l ∧ parseRecord (l ++ [43] ++ c) = (c, l ++ [43] ++ c) := by
  have hp : ∀ d ∈ l, (d != 43) = true := by
    intro d hd; rw [bne_iff_ne]; rintro rfl; exact h hd
  obtain ⟨h1, h2⟩ := takeWhile_pos (t := c) (c := 43) hp (by decide)
  rw [List.append_assoc, List.singleton_append, getLemma, parseRecord, h1, h2]
  exact ⟨rfl, rfl⟩

/-- **C134** Without a "+" the lemma and the category are both the whole. -/
theorem C134_bare (s : Str) (h : (43 : Byte) ∉ s) : getLemma s = s ∧ parseRecord s = (s, s) := by
  have hp : ∀ d ∈ s, (d != 43) = true := by
    intro d hd; rw [bne_iff_ne]; rintro rfl; exact h hd
  obtain ⟨h1, h2⟩ := while_all hp
  rw [getLemma, parseRecord, h1, h2]
  exact ⟨rfl, rfl⟩

/-- **C134** The claim is that a lemma of a lexeme is found again.  A lemma with a "+" is cut. -/
theorem C134_false : ∃ l c, getLemma (l ++ [43] ++ c) ≠ l ∧ (parseRecord (l ++ [43] ++ c)).1 ≠ c :=
  ⟨Server.ascii "C++", Server.ascii "subst", by decide +kernel, by decide +kernel⟩

example : (43 : Byte) ∉ Server.ascii "dom" ∧ parseRecord (Server.ascii "dom+subst") = (Server.ascii "subst", Server.ascii "dom+subst") := by decide +kernel

/-! ### C135 -/

theorem row_columns {l : Str} {kv : Str × Str} (h : Spec.Row l kv) : columns l = some kv := by
  obtain ⟨h1, h2, rest, rfl, hr⟩ := h
  have hf : ∀ s : Str, (9 : Byte) ∉ s → ∀ c ∈ s, (c == 9) = false := by
    intro s hs c hc; rw [beq_eq_false_iff_ne]; rintro rfl; exact hs hc
  unfold columns
  rcases hr with rfl | hr
  · rw [List.append_nil, List.append_assoc, List.singleton_append, splitOnP_sep _ (by simp), splitOnP_none _ (hf _ h1), splitOnP_none _ (hf _ h2)]
    rfl
  · cases rest with
    | nil => simp at hr
    | cons c rest =>
      simp only [List.head?_cons, Option.some.injEq] at hr
      subst hr
      rw [List.append_assoc, List.append_assoc, List.singleton_append, splitOnP_sep _ (by simp), splitOnP_sep _ (by simp),
        splitOnP_none _ (hf _ h1), splitOnP_none _ (hf _ h2)]
      rfl

/-- **C135** A token of the category "T" is replaced by what the last line for its text in the table says; other tokens by nothing. -/
theorem C135_normalize_partial {ls : List Str} {kvs : List (Str × Str)} (hl : ∀ l ∈ ls, (10 : Byte) ∉ l) (h : List.Forall₂ Spec.Row ls kvs) :
    ∃ table, readTable (Spec.text ls) = some table ∧ ∀ category text,
      normalizeToken table category text = if category = Server.ascii "T" then Spec.lastOf kvs text else none := by
  have hc : ls.filterMap columns = kvs ∧ ∀ l ∈ ls, columns l ≠ none := by
    clear hl
    induction h with
    | nil => simp
    | cons h1 _ ih =>
      have := row_columns h1
      refine ⟨by rw [List.filterMap_cons, this]; simp [ih.1], ?_⟩
      intro l hl
      rcases List.mem_cons.1 hl with rfl | hl
      · rw [this]; simp
      · exact ih.2 l hl
  obtain ⟨h1, h2⟩ := tableLoop_spec ls []
  obtain ⟨table, ht⟩ := h2.2 hc.2
  refine ⟨table, by rw [readTable, getlines_text hl, ht], fun category text => ?_⟩
  have : Server.ascii "T" = [84] := by decide
  rw [normalizeToken, this, h1 table ht, hc.1]
  simp [mapFind]

/-- **C135** The claim is that every table can be read.  A line without a tab, also an empty one, is read beyond the end of a vector;
this is so for all tables with such a line. -/
theorem C135_undefined {ls : List Str} (hl : ∀ l ∈ ls, (10 : Byte) ∉ l) : readTable (Spec.text ls) = none ↔ ∃ l ∈ ls, (9 : Byte) ∉ l := by
  have h2 := (tableLoop_spec ls []).2
  have hcol : ∀ l, columns l = none ↔ (9 : Byte) ∉ l := by
    intro l
    constructor
    · intro h h9
      obtain ⟨s, t, rfl⟩ := List.append_of_mem h9
      unfold columns at h
      rw [splitOnP_sep _ (by simp)] at h
      cases hs : s.splitOnP (· == 9) with
      | nil => exact absurd hs (List.splitOnP_ne_nil _ _)
      | cons a as =>
        cases ht : t.splitOnP (· == 9) with
        | nil => exact absurd ht (List.splitOnP_ne_nil _ _)
        | cons b bs =>
          rw [hs, ht] at h
          cases as <;> simp at h
    · intro h
      unfold columns
      rw [splitOnP_none _ (fun c hc => by rw [beq_eq_false_iff_ne]; rintro rfl; exact h hc)]
  rw [readTable, getlines_text hl]
  have h3 : tableLoop ls [] = none ↔ ¬ ∃ m', tableLoop ls [] = some m' := by
    cases tableLoop ls [] <;> simp
  rw [h3, h2]
  simp only [ne_eq, hcol, not_forall, Classical.not_not, exists_prop]

/-- **C135** The claim is false. -/
theorem C135_false : ∃ file, readTable file = none ∧ file = Server.ascii "a\tb\n\nc\td\n" := ⟨_, by decide +kernel, rfl⟩

example : List.Forall₂ Spec.Row [Server.ascii "a\tb", Server.ascii "a\tc\tx"] [(Server.ascii "a", Server.ascii "b"), (Server.ascii "a", Server.ascii "c")] :=
  .cons ⟨by decide +kernel, by decide +kernel, [], by decide +kernel, .inl rfl⟩
    (.cons ⟨by decide +kernel, by decide +kernel, Server.ascii "\tx", by decide +kernel, .inr (by decide +kernel)⟩ .nil)

/-! ### C136 -/

/-- **C136** The text that detok makes: of the tokens at the same position the last one is taken; these, in the order of their positions
and without empty ones, are put together with a space between two neighbours unless there is a bracket or a mark that forbids it. -/
theorem C136_text (tokens : List (Int × Str)) : ∃ l : List (Int × Str), l.Pairwise (·.1 < ·.1) ∧
    (∀ p t, (p, t) ∈ l ↔ Spec.lastAt tokens p = some t) ∧ detok tokens = Spec.glue ((l.map (·.2)).filter (· ≠ [])) :=
  ⟨orderAll tokens, (orderAll_spec tokens).1, (orderAll_spec tokens).2, by rw [detok, joinTokens_glue]⟩

theorem lastAt_distinct {tokens : List (Int × Str)} (h : (tokens.map (·.1)).Nodup) (p : Int) (t : Str) :
    Spec.lastAt tokens p = some t ↔ (p, t) ∈ tokens := by
  unfold Spec.lastAt
  induction tokens with
  | nil => simp
  | cons a tokens ih =>
    rw [List.map_cons, List.nodup_cons] at h
    rw [List.filter_cons]
    by_cases hp : a.1 = p
    · have : tokens.filter (fun t => t.1 = p) = [] := by
        rw [List.filter_eq_nil_iff]
        intro b hb hbp
        exact h.1 (List.mem_map.2 ⟨b, hb, by simp at hbp; rw [hbp, hp]⟩)
      have hnm : (p, t) ∉ tokens := fun hm => h.1 (List.mem_map.2 ⟨_, hm, hp.symm⟩)
      rw [this]
      subst hp
      simp only [decide_true, if_true, List.getLast?_singleton, Option.map_some, Option.some.injEq, List.mem_cons, hnm, or_false]
      obtain ⟨q, u⟩ := a
      simp [eq_comm]
    · rw [if_neg (by simpa using hp), ih h.2, List.mem_cons]
      constructor
      · exact .inr
      · rintro (rfl | h)
        · exact absurd rfl hp
        · exact h

/-- **C136** If the positions of the tokens are distinct, all tokens are in the text, in the order of their positions. -/
theorem C136_partial (tokens : List (Int × Str)) (h : (tokens.map (·.1)).Nodup) : ∃ l : List (Int × Str), l.Perm tokens ∧
    l.Pairwise (·.1 < ·.1) ∧ detok tokens = Spec.glue ((l.map (·.2)).filter (· ≠ [])) := by
  obtain ⟨l, h1, h2, h3⟩ := C136_text tokens
  refine ⟨l, ?_, h1, h3⟩
  rw [List.perm_ext_iff_of_nodup]
  · rintro ⟨p, t⟩; rw [h2, lastAt_distinct h]
  · exact h1.imp (fun {a b} hab hh => by rw [hh] at hab; omega)
  · exact List.Nodup.of_map _ h

/-- **C136** The claim is that every token is in the text.  All tokens without the attribute `SurfacePosition` have the position 0, so of a
text of such tokens only the last one is left. -/
theorem C136_false (addr : ZVal → Int) (texts : List Str) (t : Str) :
    detok ((texts ++ [t]).map fun u => (positionOf addr .null, u)) = t := by
  obtain ⟨l, h1, h2, h3⟩ := C136_text ((texts ++ [t]).map fun u => (positionOf addr .null, u))
  have hl : ∀ p u, Spec.lastAt ((texts ++ [t]).map fun u => (positionOf addr .null, u)) p = some u ↔ p = 0 ∧ u = t := by
    intro p u
    unfold Spec.lastAt
    by_cases hp : p = 0
    · subst hp
      rw [List.filter_eq_self.2 (by intro a ha; obtain ⟨_, _, rfl⟩ := List.mem_map.1 ha; simp [positionOf])]
      simp [eq_comm]
    · rw [List.filter_eq_nil_iff.2 (by intro a ha; obtain ⟨_, _, rfl⟩ := List.mem_map.1 ha; simp [positionOf]; exact decide_eq_false (fun h : (0 : Int) = p => hp h.symm))]
      simp [hp]
  simp only [hl] at h2
  have hl2 : l = [(0, t)] := by
    have hp : l.Perm [((0 : Int), t)] := by
      rw [List.perm_ext_iff_of_nodup (h1.imp (fun {a b} hab hh => by rw [hh] at hab; omega)) (by simp)]
      rintro ⟨p, u⟩; rw [h2]; simp
    exact List.perm_singleton.1 hp
  rw [h3, hl2]
  by_cases ht : t = []
  · subst ht; rfl
  · simp [ht, Spec.glue]

/-- **C136** Positions that are numbers of 31 bits are used as they are. -/
theorem C136_positions (addr : ZVal → Int) (i : Int) (h : Small i) : positionOf addr (.int i) = i := by
  unfold Small at h
  unfold positionOf toInt
  simp only
  rw [Int.bmod_eq_of_le] <;> omega

example : (([(2, Server.ascii "cat"), (1, Server.ascii "(The"), (3, Server.ascii ")")] : List (Int × Str)).map (·.1)).Nodup ∧
    detok [(2, Server.ascii "cat"), (1, Server.ascii "(The"), (3, Server.ascii ")")] = Server.ascii "(The cat)" := by decide +kernel

end Verif.Lexicon
