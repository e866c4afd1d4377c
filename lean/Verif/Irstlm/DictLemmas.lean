import Verif.Irstlm.TableLemmas
import Mathlib.Data.List.Range

/-! # Lemmas about dictionaries -/

namespace Verif.Irstlm

/-- What holds of dictionaries. -/
structure DictInv (d : Dict) : Prop where
  codes : d.tb.map Entry.code = List.range d.tb.length
  table : TableInv hashStr (wordOf d.tb) d.htb (firsts (wordOf d.tb) (List.range d.tb.length))
  room : d.tb.length < d.lim
  stack : 6 < d.stSize
  dist : ((d.tb.map Entry.word).filter fun w => decide (w ≠ oov)).Nodup

/-- The place of a word: the first one. -/
def place (tb : List Entry) (w : Str) : Option Nat :=
  (List.range tb.length).find? fun k => decide (wordOf tb k = w)

theorem wordOf_append_left {tb : List Entry} {l k} (h : k < tb.length) : wordOf (tb ++ l) k = wordOf tb k := by
  unfold wordOf; rw [List.getElem?_append_left h]

theorem wordOf_append_self {tb : List Entry} {e} : wordOf (tb ++ [e]) tb.length = e.word := by
  unfold wordOf; simp

theorem wordOf_eq {tb : List Entry} {k} (h : k < tb.length) : wordOf tb k = tb[k].word := by
  unfold wordOf; simp [h]

theorem place_some {tb : List Entry} {w : Str} {c : Nat} : place tb w = some c ↔
    tb[c]?.map Entry.word = some w ∧ ∀ j < c, tb[j]?.map Entry.word ≠ some w := by
  unfold place
  rw [List.find?_range_eq_some]
  simp only [decide_eq_true_eq, List.mem_range, Bool.not_eq_true', decide_eq_false_iff_not]
  constructor
  · rintro ⟨h1, h2, h3⟩
    refine ⟨?_, fun j hj h => ?_⟩
    · rw [← h1, wordOf_eq h2, List.getElem?_eq_getElem h2]; rfl
    · refine h3 j hj ?_
      unfold wordOf; rw [h]; rfl
  · rintro ⟨h1, h2⟩
    have hc : c < tb.length := by
      by_contra hc
      rw [List.getElem?_eq_none (by omega)] at h1; cases h1
    refine ⟨by unfold wordOf; rw [h1]; rfl, hc, fun j hj h => h2 j hj ?_⟩
    have : j < tb.length := by omega
    rw [wordOf_eq this] at h
    rw [List.getElem?_eq_getElem this, ← h]; rfl

theorem place_none {tb : List Entry} {w : Str} : place tb w = none ↔ w ∉ tb.map Entry.word := by
  unfold place
  rw [List.find?_eq_none]
  simp only [List.mem_range, decide_eq_true_eq, List.mem_map, not_exists, not_and]
  constructor
  · intro h e he hw
    obtain ⟨k, hk, rfl⟩ := List.mem_iff_getElem.1 he
    exact h k hk (by rw [wordOf_eq hk, hw])
  · intro h k hk hw
    rw [wordOf_eq hk] at hw
    exact h _ (List.getElem_mem hk) hw

theorem DictInv.find {d} (h : DictInv d) (w : Str) : d.find w = some (place d.tb w) := by
  unfold Dict.find
  rw [h.table.find, find?_firsts]; rfl

theorem DictInv.codeAt {d} (h : DictInv d) {k} (hk : k < d.tb.length) : d.codeAt k = k := by
  unfold Dict.codeAt
  have : (d.tb.map Entry.code)[k]? = some k := by rw [h.codes]; simp [hk]
  rw [List.getElem?_map] at this
  rw [this]; rfl

theorem place_lt {tb : List Entry} {w k} (h : place tb w = some k) : k < tb.length := by
  have := List.mem_of_find?_eq_some h
  simpa using this

theorem DictInv.codeAt_place {d} (h : DictInv d) {w k} (hk : place d.tb w = some k) : d.codeAt k = k :=
  h.codeAt (place_lt hk)

/-- What holds of dictionaries, but perhaps there is no room for another entry. -/
structure DictInv' (d : Dict) : Prop where
  codes : d.tb.map Entry.code = List.range d.tb.length
  table : TableInv hashStr (wordOf d.tb) d.htb (firsts (wordOf d.tb) (List.range d.tb.length))
  room : d.tb.length ≤ d.lim
  stack : 6 < d.stSize
  dist : ((d.tb.map Entry.word).filter fun w => decide (w ≠ oov)).Nodup

theorem place_append_new {tb : List Entry} {e : Entry} (h : place tb e.word = none) :
    place (tb ++ [e]) e.word = some tb.length := by
  rw [place_some]
  refine ⟨by simp, fun j hj he => ?_⟩
  rw [List.getElem?_append_left hj, List.getElem?_eq_getElem hj] at he
  simp only [Option.map_some, Option.some.injEq] at he
  exact place_none.1 h (List.mem_map.2 ⟨_, List.getElem_mem hj, he⟩)

theorem place_append_old {tb : List Entry} {l : List Entry} {w c} (h : place tb w = some c) :
    place (tb ++ l) w = some c := by
  have hc := place_lt h
  rw [place_some] at h ⊢
  refine ⟨by rw [List.getElem?_append_left hc]; exact h.1, fun j hj => ?_⟩
  rw [List.getElem?_append_left (by omega)]; exact h.2 j hj

/-- Adding an entry. -/
theorem DictInv.add' {d} (h : DictInv d) {w : Str} (f : Int) (hw : w.length + 1 < d.stSize) :
    ∃ t, d.add w f = .ok ((place d.tb w).getD d.tb.length,
        { d with tb := d.tb ++ [⟨w, d.tb.length, f⟩], htb := t }) ∧
      (w = oov ∨ place d.tb w = none → DictInv' { d with tb := d.tb ++ [⟨w, d.tb.length, f⟩], htb := t }) := by
  have hagree : ∀ k ∈ List.range d.tb.length,
      wordOf (d.tb ++ [⟨w, d.tb.length, f⟩]) k = wordOf d.tb k := fun k hk =>
    wordOf_append_left (List.mem_range.1 hk)
  have htab : TableInv hashStr (wordOf (d.tb ++ [⟨w, d.tb.length, f⟩])) d.htb
      (firsts (wordOf d.tb) (List.range d.tb.length)) :=
    h.table.congr fun k hk => hagree k (mem_firsts hk)
  obtain ⟨j, t, h1, h2, _, h4⟩ := htab.enter d.tb.length
  have hf := (firsts_congr hagree).1
  rw [wordOf_append_self] at h2
  refine ⟨t, ?_, ?_⟩
  · unfold Dict.add
    rw [if_neg (by omega), if_neg (by have := h.room; omega)]
    simp only [h1]
    congr 2
    rw [h2, ← hf, find?_firsts]
    congr 1
    unfold place
    have : ∀ l : List Nat, (∀ k ∈ l, k < d.tb.length) →
        l.find? (fun k => decide (wordOf (d.tb ++ [⟨w, d.tb.length, f⟩]) k = w)) =
          l.find? fun k => decide (wordOf d.tb k = w) := by
      intro l
      induction l with
      | nil => simp
      | cons a l ih =>
        intro hl
        simp only [List.find?_cons]
        rw [wordOf_append_left (hl a (by simp)), ih fun k hk => hl k (by simp [hk])]
    exact this _ fun k hk => List.mem_range.1 hk
  · intro hn
    refine ⟨?_, ?_, ?_, h.stack, ?_⟩
    · simp [h.codes, List.range_succ]
    · simp only [List.length_append, List.length_cons, List.length_nil, Nat.zero_add]
      rw [List.range_succ, firsts_append, hf]
      exact h4
    · simp only [List.length_append, List.length_cons, List.length_nil]
      have := h.room; omega
    · simp only [List.map_append, List.map_cons, List.map_nil, List.filter_append]
      rcases hn with rfl | hn
      · simpa using h.dist
      · rw [List.nodup_append]
        refine ⟨h.dist, ?_, ?_⟩
        · exact (List.filter_sublist).nodup (List.nodup_singleton _)
        · intro a ha b hb
          have hb' := (List.mem_filter.1 hb).1
          rw [List.mem_singleton] at hb'
          rw [hb']
          rintro rfl
          exact place_none.1 hn (List.mem_filter.1 ha).1

theorem DictInv.add {d} (h : DictInv d) {w : Str} (f : Int) (hw : w.length + 1 < d.stSize)
    (hn : w = oov ∨ place d.tb w = none) :
    ∃ t, d.add w f = .ok ((place d.tb w).getD d.tb.length,
        { d with tb := d.tb ++ [⟨w, d.tb.length, f⟩], htb := t }) ∧
      DictInv' { d with tb := d.tb ++ [⟨w, d.tb.length, f⟩], htb := t } := by
  obtain ⟨t, h1, h2⟩ := h.add' f hw
  exact ⟨t, h1, h2 hn⟩

theorem DictInv'.grown {d} (h : DictInv' d) : ∃ t lim, d.grown = .ok { d with htb := t, lim := lim } ∧
    DictInv { d with htb := t, lim := lim } := by
  unfold Dict.grown
  by_cases hl : d.tb.length = d.lim
  · rw [if_pos hl]
    unfold Dict.grow
    obtain ⟨u, h1, _, h3⟩ := enterAll_inv (hash := hashStr) (val := wordOf d.tb) (List.range d.lim)
      (new_table_inv hashStr (wordOf d.tb) (n := (d.lim + growthStep) / 5) (by unfold growthStep; omega))
    rw [h1]
    refine ⟨u, d.lim + growthStep, rfl, h.codes, ?_, ?_, h.stack, h.dist⟩
    · simp only; rw [hl]; exact h3
    · simp only; unfold growthStep; omega
  · rw [if_neg hl]
    exact ⟨d.htb, d.lim, rfl, h.codes, h.table, by have := h.room; simp only; omega, h.stack, h.dist⟩

/-- The word, or the one for unknown words. -/
def clean (w : Str) : Str := if w = [] then oov else w

theorem clean_ne (w : Str) : clean w ≠ [] := by
  unfold clean; split
  · decide
  · assumption

theorem clean_oov : clean oov = oov := by decide

theorem encode_known {d} (h : DictInv d) {w c} (hp : place d.tb (clean w) = some c) (fuel) :
    encodeLoop (fuel + 1) d w = .ok (c, d) := by
  unfold encodeLoop
  rw [show (if w = [] then oov else w) = clean w from rfl]
  simp only [h.find, hp, h.codeAt_place hp]

theorem encode_new {d} (h : DictInv d) {w} (hp : place d.tb (clean w) = none) (hi : d.ifl = true)
    (hw : (clean w).length + 1 < d.stSize) (fuel) :
    ∃ t lim, encodeLoop (fuel + 1) d w =
        .ok (d.tb.length, { d with tb := d.tb ++ [⟨clean w, d.tb.length, 0⟩], htb := t, lim := lim }) ∧
      DictInv { d with tb := d.tb ++ [⟨clean w, d.tb.length, 0⟩], htb := t, lim := lim } := by
  obtain ⟨t, h1, h2⟩ := h.add 0 hw (Or.inr hp)
  obtain ⟨t', lim, h3, h4⟩ := h2.grown
  refine ⟨t', lim, ?_, h4⟩
  unfold encodeLoop
  rw [show (if w = [] then oov else w) = clean w from rfl]
  simp only [h.find, hp]
  rw [if_pos hi, h1]
  simp only [h3]

theorem encode_long {d} (h : DictInv d) {w} (hp : place d.tb (clean w) = none) (hi : d.ifl = true)
    (hw : d.stSize ≤ (clean w).length + 1) (fuel) : encodeLoop (fuel + 1) d w = .error .exit := by
  unfold encodeLoop
  rw [show (if w = [] then oov else w) = clean w from rfl]
  simp only [h.find, hp]
  rw [if_pos hi]
  simp only [Dict.add, if_pos hw]

theorem startOov_none {d} (h : DictInv d) (ho : d.oovCode = none) :
    ∃ t lim, d.startOov = .ok { d with tb := d.tb ++ [⟨oov, d.tb.length, 0⟩], htb := t, lim := lim, oovCode := some d.tb.length } ∧
      DictInv { d with tb := d.tb ++ [⟨oov, d.tb.length, 0⟩], htb := t, lim := lim, oovCode := some d.tb.length } := by
  have hlen : oov.length = 5 := by decide
  obtain ⟨t, h1, h2⟩ := h.add (w := oov) 0 (by have := h.stack; omega) (Or.inl rfl)
  have h2' : DictInv' { d with tb := d.tb ++ [⟨oov, d.tb.length, 0⟩], htb := t, oovCode := some d.tb.length } :=
    ⟨h2.codes, h2.table, h2.room, h2.stack, h2.dist⟩
  obtain ⟨t', lim, h3, h4⟩ := h2'.grown
  refine ⟨t', lim, ?_, h4⟩
  unfold Dict.startOov
  simp only [ho, h1]
  exact h3

theorem lookOovlex_ok {d : Dict} (w : Str) {f} (hf : d.oovlex = some f) : ∃ b c,
    d.lookOovlex w = .ok { d with inOovLex := b, oovLexCode := c } ∧
      (∀ g, f = some g → b = (g w).isSome ∧ ∀ x, g w = some x → c = some x) := by
  unfold Dict.lookOovlex
  obtain ⟨tb, lim, htb, total, oovCode, ifl, stSize, oovlex, inOovLex, oovLexCode⟩ := d
  simp only at hf
  subst hf
  cases f with
  | none => exact ⟨inOovLex, oovLexCode, rfl, by simp⟩
  | some g =>
    refine ⟨_, _, rfl, ?_⟩
    intro g' hg
    cases hg
    exact ⟨rfl, fun x hx => by rw [hx]⟩

/-! ## All operations keep what holds -/

theorem wordOf_map {tb tb' : List Entry} (h : tb'.map Entry.word = tb.map Entry.word) : wordOf tb' = wordOf tb := by
  funext k
  unfold wordOf
  rw [← List.getElem?_map, ← List.getElem?_map, h]

/-- Only words, codes, the hash table and the sizes matter. -/
theorem DictInv.of_words {d e : Dict} (h : DictInv d) (hw : e.tb.map Entry.word = d.tb.map Entry.word)
    (hc : e.tb.map Entry.code = d.tb.map Entry.code) (ht : e.htb = d.htb) (hl : e.lim = d.lim)
    (hs : e.stSize = d.stSize) : DictInv e := by
  have hlen : e.tb.length = d.tb.length := by
    have := congrArg List.length hw; simpa using this
  refine ⟨?_, ?_, ?_, ?_, ?_⟩
  · rw [hc, hlen]; exact h.codes
  · rw [wordOf_map hw, ht, hlen]; exact h.table
  · rw [hlen, hl]; exact h.room
  · rw [hs]; exact h.stack
  · rw [hw]; exact h.dist

theorem map_modify_same {α β : Type} (f : α → β) (g : α → α) (h : ∀ a, f (g a) = f a) (l : List α) (i : Nat) :
    (l.modify i g).map f = l.map f := by
  refine List.ext_getElem? fun k => ?_
  rw [List.getElem?_map, List.getElem?_modify, List.getElem?_map]
  cases l[k]? with
  | none => simp
  | some a => by_cases hi : i = k <;> simp [hi, h]

theorem incfreq_inv {d e c v} (h : DictInv d) (hi : d.incfreq c v = .ok e) : DictInv e := by
  unfold Dict.incfreq at hi
  split at hi
  · cases hi
    exact h.of_words (map_modify_same Entry.word _ (by simp) _ _) (map_modify_same Entry.code _ (by simp) _ _)
      rfl rfl rfl
  · cases hi

theorem setFreq_inv {d e c v} (h : DictInv d) (hi : d.setFreq c v = .ok e) : DictInv e := by
  unfold Dict.setFreq at hi
  split at hi
  · cases hi
  · cases hi
    exact h.of_words (map_modify_same Entry.word _ (by simp) _ _) (map_modify_same Entry.code _ (by simp) _ _)
      rfl rfl rfl

theorem lookOovlex_inv {d e : Dict} {w : Str} (h : DictInv d) (hl : d.lookOovlex w = .ok e) : DictInv e := by
  unfold Dict.lookOovlex at hl
  split at hl
  · cases hl
  · cases hl; exact h
  · cases hl; exact h.of_words rfl rfl rfl rfl rfl

theorem startOov_inv {d e : Dict} (h : DictInv d) (hl : d.startOov = .ok e) : DictInv e := by
  cases ho : d.oovCode with
  | some c => unfold Dict.startOov at hl; rw [ho] at hl; cases hl; exact h
  | none =>
    obtain ⟨t, lim, h1, h2⟩ := startOov_none h ho
    rw [h1] at hl; cases hl; exact h2

theorem encodeLoop_inv : ∀ fuel {d e : Dict} {w : Str} {c}, DictInv d → encodeLoop fuel d w = .ok (c, e) → DictInv e
  | 0, _, _, _, _, _, he => by cases he
  | fuel + 1, d, e, w, c, h, he => by
    cases hp : place d.tb (clean w) with
    | some k => rw [encode_known h hp] at he; cases he; exact h
    | none =>
      by_cases hi : d.ifl = true
      · by_cases hw : (clean w).length + 1 < d.stSize
        · obtain ⟨t, lim, h1, h2⟩ := encode_new h hp hi hw fuel
          rw [h1] at he; cases he; exact h2
        · rw [encode_long h hp hi (by omega)] at he; cases he
      · unfold encodeLoop at he
        rw [show (if w = [] then oov else w) = clean w from rfl] at he
        simp only [h.find, hp] at he
        rw [if_neg hi] at he
        split at he
        · cases he
        · rename_i d1 h1
          split at he
          · cases he
          · rename_i d2 h2
            exact encodeLoop_inv fuel (lookOovlex_inv (startOov_inv h h1) h2) he

theorem generateLoop_inv (is : Str) : ∀ fuel {s : Str} {d e : Dict}, DictInv d →
    generateLoop is fuel s d = .ok e → DictInv e
  | 0, _, _, _, h, he => by cases he; exact h
  | fuel + 1, s, d, e, h, he => by
    unfold generateLoop at he
    split at he
    · cases he; exact h
    · simp only at he
      split at he
      · exact generateLoop_inv is fuel h he
      · split at he
        · exact generateLoop_inv is fuel h he
        · split at he
          · cases he
          · rename_i h1
            split at he
            · cases he
            · rename_i h2
              exact generateLoop_inv is fuel (incfreq_inv (encodeLoop_inv 2 h h1) h2) he

theorem loadLoop_inv : ∀ n {s : Str} {d e : Dict}, DictInv d → loadLoop n s d = .ok e → DictInv e
  | 0, _, _, _, h, he => by cases he; exact h
  | n + 1, s, d, e, h, he => by
    unfold loadLoop at he
    split at he
    · cases he
    · simp only at he
      split at he
      · cases he
      · split at he
        · cases he
        · rename_i buffer rest _ _ _ f rest1 _
          by_cases hw : (cstring buffer).length + 1 < d.stSize
          · obtain ⟨t, h1, h2⟩ := h.add' f hw
            rw [h1] at he
            simp only at he
            split at he
            · cases he
            · rename_i hk
              have hp : place d.tb (cstring buffer) = none := by
                cases hp : place d.tb (cstring buffer) with
                | none => rfl
                | some j =>
                  have := place_lt hp
                  rw [hp] at hk
                  simp only [Option.getD_some, ne_eq, not_not] at hk
                  omega
              have h2' := h2 (Or.inr hp)
              split at he
              · cases he
              · rename_i d2 h3
                have h4 : DictInv' { d with
                    tb := d.tb ++ [⟨cstring buffer, d.tb.length, f⟩], htb := t, total := d.total + f
                    oovCode := if cstring buffer = oov then some d.tb.length else d.oovCode } :=
                  ⟨h2'.codes, h2'.table, h2'.room, h2'.stack, h2'.dist⟩
                obtain ⟨t', lim, h5, h6⟩ := h4.grown
                rw [h5] at h3
                cases h3
                exact loadLoop_inv n h6 he
          · have : d.add (cstring buffer) f = .error .exit := by
              unfold Dict.add; rw [if_pos (by omega)]
            rw [this] at he; cases he

theorem new_dict_inv {size : Nat} (f) (h : 5 ≤ size) : DictInv (Dict.new size f) := by
  refine ⟨rfl, new_table_inv _ _ (n := size / 5) (by omega), ?_, ?_, by simp [Dict.new]⟩
  · simp only [Dict.new, List.length_nil]; omega
  · simp only [Dict.new]; omega

end Verif.Irstlm
