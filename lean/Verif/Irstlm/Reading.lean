import Verif.Irstlm.DictLemmas
import Verif.Irstlm.Spec
import Mathlib.Data.List.SplitOn
import Mathlib.Data.List.Dedup
import Mathlib.Data.List.TakeWhile

/-! # Lemmas about texts and files -/

namespace Verif.Irstlm

open Verif.Server (decimal isSpace ascii)

theorem textWords_space {c : Byte} (h : isSpace c = true) (s : Str) : textWords (c :: s) = textWords s := by
  have h' : (c == 32 || (9 ≤ c && c ≤ 13)) = true := h
  unfold textWords
  have := List.splitOnP_append_cons_of_forall_mem (p := fun c : Byte => c == 32 || (9 ≤ c && c ≤ 13))
    (xs := []) (by simp) c h' s
  rw [List.nil_append] at this
  rw [this, List.filter_cons]
  simp

theorem textWords_dropWhile (s : Str) : textWords (s.dropWhile isSpace) = textWords s := by
  induction s with
  | nil => rfl
  | cons c s ih =>
    rw [List.dropWhile_cons]
    split
    · rename_i h; rw [ih, textWords_space h]
    · rfl

theorem textWords_word {w t : Str} (hw : w ≠ []) (hn : ∀ c ∈ w, isSpace c = false)
    (ht : t = [] ∨ ∃ c u, t = c :: u ∧ isSpace c = true) : textWords (w ++ t) = w :: textWords t := by
  have hf : ∀ c ∈ w, (c == 32 || (9 ≤ c && c ≤ 13)) = false := fun c hc => hn c hc
  rcases ht with rfl | ⟨c, u, rfl, hc⟩
  · unfold textWords
    rw [List.append_nil, List.splitOnP_eq_single hf]
    simp [hw]
  · rw [textWords_space hc]
    unfold textWords
    rw [List.splitOnP_append_cons_of_forall_mem hf c hc, List.filter_cons, if_pos (by simpa using hw)]

/-- The next word of a text. -/
theorem readWord_spec (s : Str) :
    (readWord s = none ∧ textWords s = []) ∨
    ∃ w ws, textWords s = w :: ws ∧ w ≠ [] ∧ (∀ c ∈ w, isSpace c = false) ∧
      (w.length ≤ 999 → ∃ t, readWord s = some (w, t) ∧ textWords t = ws ∧ t.length < s.length) := by
  have hle : (s.dropWhile isSpace).length ≤ s.length := (List.dropWhile_suffix _).length_le
  by_cases hu : s.dropWhile isSpace = []
  · left
    refine ⟨?_, ?_⟩
    · unfold readWord; simp only; rw [if_pos hu]
    · rw [← textWords_dropWhile, hu]; rfl
  · right
    have hsplit : s.dropWhile isSpace = (s.dropWhile isSpace).takeWhile (fun c => !isSpace c) ++
        (s.dropWhile isSpace).dropWhile (fun c => !isSpace c) := List.takeWhile_append_dropWhile.symm
    generalize hU : s.dropWhile isSpace = u at hu hsplit hle
    have hhead : ∀ c r, u = c :: r → isSpace c = false := by
      intro c r he
      have := List.head_dropWhile_not isSpace (l := s) (by rw [hU]; exact hu)
      simp only [hU, he, List.head_cons] at this
      exact this
    have hwne : u.takeWhile (fun c => !isSpace c) ≠ [] := by
      obtain ⟨c, r, he⟩ := List.exists_cons_of_ne_nil hu
      rw [he, List.takeWhile_cons, hhead c r he]; simp
    have hno : ∀ c ∈ u.takeWhile (fun c => !isSpace c), isSpace c = false := fun c hc => by
      have := List.mem_takeWhile_imp hc; simpa using this
    have htail : u.dropWhile (fun c => !isSpace c) = [] ∨
        ∃ c r, u.dropWhile (fun c => !isSpace c) = c :: r ∧ isSpace c = true := by
      by_cases hd : u.dropWhile (fun c => !isSpace c) = []
      · exact Or.inl hd
      · right
        obtain ⟨c, r, he⟩ := List.exists_cons_of_ne_nil hd
        refine ⟨c, r, he, ?_⟩
        have := List.head_dropWhile_not (fun c => !isSpace c) (l := u) hd
        simp only [he, List.head_cons] at this
        simpa using this
    refine ⟨u.takeWhile (fun c => !isSpace c), textWords (u.dropWhile fun c => !isSpace c), ?_, hwne, hno, ?_⟩
    · rw [← textWords_dropWhile, hU]
      conv_lhs => rw [hsplit]
      exact textWords_word hwne hno htail
    · intro hl
      have htake : (u.take 999).takeWhile (fun c => !isSpace c) = u.takeWhile fun c => !isSpace c := by
        rw [← List.take_takeWhile]
        exact List.take_of_length_le hl
      refine ⟨u.dropWhile fun c => !isSpace c, ?_, rfl, ?_⟩
      · unfold readWord
        simp only
        rw [hU, if_neg hu, htake]
        congr 2
        conv_lhs => rw [hsplit]
        rw [List.takeWhile_append_dropWhile]
        conv_lhs => arg 2; rw [hsplit]
        rw [List.drop_left' rfl]
      · have := congrArg List.length hsplit
        rw [List.length_append] at this
        have hp := List.length_pos_of_ne_nil hwne
        omega

/-! ## Counting words -/

theorem firstWords_snoc (seen : List Str) (w : Str) :
    firstWords (seen ++ [w]) = if w ∈ seen then firstWords seen else firstWords seen ++ [w] := by
  unfold firstWords
  rw [List.reverse_append]
  simp only [List.reverse_cons, List.reverse_nil, List.nil_append, List.singleton_append]
  split
  · rename_i h
    rw [List.dedup_cons_of_mem (by simpa using h)]
  · rename_i h
    rw [List.dedup_cons_of_notMem (by simpa using h), List.reverse_cons]

theorem mem_firstWords {seen : List Str} {w : Str} : w ∈ firstWords seen ↔ w ∈ seen := by
  simp [firstWords]

theorem firstWords_nodup (seen : List Str) : (firstWords seen).Nodup := by
  unfold firstWords; rw [List.nodup_reverse]; exact List.nodup_dedup _

/-- The dictionary has counted these words. -/
structure Counted (size : Nat) (seen : List Str) (d : Dict) : Prop where
  inv : DictInv d
  ifl : d.ifl = true
  st : d.stSize = size * 10
  oovc : d.oovCode = none
  counts : d.tb.map (fun e => (e.word, e.freq)) = (firstWords seen).map fun w => (w, (seen.count w : Int))
  total : d.total = seen.length

theorem Counted.words {size seen d} (h : Counted size seen d) : d.tb.map Entry.word = firstWords seen := by
  have := congrArg (List.map Prod.fst) h.counts
  simpa [List.map_map, Function.comp_def] using this

theorem counts_incr {seen : List Str} {w : Str} {c : Nat} (ws : List Str) (hn : ws.Nodup)
    (hc : ws[c]? = some w) {tb : List Entry}
    (h : tb.map (fun e => (e.word, e.freq)) = ws.map fun w => (w, (seen.count w : Int))) :
    (tb.modify c fun e => { e with freq := e.freq + 1 }).map (fun e => (e.word, e.freq)) =
      ws.map fun v => (v, ((seen ++ [w]).count v : Int)) := by
  refine List.ext_getElem? fun k => ?_
  have hk := congrArg (fun l => l[k]?) h
  simp only [List.getElem?_map] at hk
  rw [List.getElem?_map, List.getElem?_modify, List.getElem?_map]
  cases hw : ws[k]? with
  | none =>
    rw [hw] at hk
    cases ht : tb[k]? with
    | none => simp
    | some e => rw [ht] at hk; simp at hk
  | some v =>
    rw [hw] at hk
    cases ht : tb[k]? with
    | none => rw [ht] at hk; simp at hk
    | some e =>
      rw [ht] at hk
      simp only [Option.map_some, Option.some.injEq, Prod.mk.injEq] at hk
      simp only [Option.map_some, Option.some.injEq, List.count_append, Option.map_eq_map]
      by_cases hck : c = k
      · subst hck
        rw [hw] at hc; cases hc
        simp [hk.1, hk.2]
      · have hvw : v ≠ w := by
          rintro rfl
          have h1 := List.getElem?_eq_some_iff.1 hw
          have h2 := List.getElem?_eq_some_iff.1 hc
          obtain ⟨l1, e1⟩ := h1
          obtain ⟨l2, e2⟩ := h2
          exact hck ((List.Nodup.getElem_inj_iff hn).1 (e2.trans e1.symm))
        have : [w].count v = 0 := List.count_eq_zero.2 (by simpa using hvw)
        simp [hck, hk.1, hk.2, this]

theorem counted_step {size seen d} {w : Str} (h : Counted size seen d) (hne : w ≠ [])
    (hw : w.length + 1 < size * 10) : ∃ c d1 d2, d.encode w = .ok (c, d1) ∧ d1.incfreq c 1 = .ok d2 ∧
      Counted size (seen ++ [w]) d2 := by
  have hcl : clean w = w := by unfold clean; rw [if_neg hne]
  have htot : ∀ x : Int, x = seen.length → x + 1 = (seen ++ [w]).length := by
    intro x hx; rw [hx]; simp
  cases hp : place d.tb w with
  | some c =>
    have hlt := place_lt hp
    have hi : d.incfreq c 1 = .ok { d with
        tb := d.tb.modify c (fun e => { e with freq := e.freq + 1 }), total := d.total + 1 } := by
      unfold Dict.incfreq; rw [if_pos hlt]
    refine ⟨c, d, _, encode_known h.inv (by rw [hcl]; exact hp) 1, hi, incfreq_inv h.inv hi, h.ifl, h.st,
      h.oovc, ?_, htot _ h.total⟩
    have hwc : (firstWords seen)[c]? = some w := by
      rw [← h.words, List.getElem?_map]; exact (place_some.1 hp).1
    have hmem : w ∈ seen := mem_firstWords.1 (List.mem_of_getElem? hwc)
    rw [firstWords_snoc, if_pos hmem]
    exact counts_incr _ (firstWords_nodup _) hwc h.counts
  | none =>
    have hmem : w ∉ seen := by
      rw [← mem_firstWords, ← h.words]; exact place_none.1 hp
    obtain ⟨t, lim, h1, h2⟩ := encode_new h.inv (w := w) (by rw [hcl]; exact hp) h.ifl
      (by rw [hcl, h.st]; exact hw) 1
    rw [hcl] at h1 h2
    have hi : ({ d with tb := d.tb ++ [⟨w, d.tb.length, 0⟩], htb := t, lim := lim } : Dict).incfreq
        d.tb.length 1 = .ok { d with
          tb := (d.tb ++ [(⟨w, d.tb.length, 0⟩ : Entry)]).modify d.tb.length (fun e => { e with freq := e.freq + 1 }),
          total := d.total + 1, htb := t, lim := lim } := by
      unfold Dict.incfreq; rw [if_pos (by simp)]
    refine ⟨d.tb.length, _, _, h1, hi, incfreq_inv h2 hi, h.ifl, h.st, h.oovc, ?_, htot _ h.total⟩
    rw [firstWords_snoc, if_neg hmem]
    refine counts_incr _ ?_ ?_ ?_
    · have := firstWords_nodup (seen ++ [w])
      rw [firstWords_snoc, if_neg hmem] at this
      exact this
    · rw [← h.words, List.getElem?_append_right (by simp)]; simp
    · rw [List.map_append, List.map_append, h.counts]
      simp [List.count_eq_zero.2 hmem]

theorem cstring_eq {w : Str} (h : (0 : Byte) ∉ w) : cstring w = w := by
  unfold cstring
  rw [List.takeWhile_eq_self_iff]
  intro c hc
  simp only [bne_iff_ne, ne_eq]
  rintro rfl
  exact h hc

theorem generateLoop_spec (is : Str) {size : Nat} : ∀ fuel (s : Str) {seen : List Str} {d : Dict},
    s.length < fuel → (∀ w ∈ textWords s, w.length ≤ 999 ∧ (0 : Byte) ∉ w) → 100 < size → Counted size seen d →
    ∃ e, generateLoop is fuel s d = .ok e ∧
      Counted size (seen ++ (textWords s).filter fun w => !(decide (w.length = 1) && w.all is.contains)) e
  | 0, _, _, _, h, _, _, _ => by omega
  | fuel + 1, s, seen, d, hf, hall, hsz, hc => by
    unfold generateLoop
    rcases readWord_spec s with ⟨h1, h2⟩ | ⟨w, ws, h1, h2, h3, h4⟩
    · rw [h1, h2]
      exact ⟨d, rfl, by simpa using hc⟩
    · obtain ⟨hl, hz⟩ := hall w (by rw [h1]; simp)
      obtain ⟨t, h5, h6, h7⟩ := h4 hl
      have hrest : ∀ v ∈ textWords t, v.length ≤ 999 ∧ (0 : Byte) ∉ v := fun v hv =>
        hall v (by rw [h1, ← h6]; simp [hv])
      simp only [h5, cstring_eq hz, if_neg h2]
      rw [h1, List.filter_cons]
      by_cases hi : w.length = 1 ∧ w.all is.contains = true
      · rw [if_pos hi, if_neg (by simp [hi.1, hi.2])]
        obtain ⟨e, he⟩ := generateLoop_spec is fuel t (by omega) hrest hsz hc
        rw [h6] at he
        exact ⟨e, he⟩
      · rw [if_neg hi, if_pos (by
          rw [Bool.not_eq_true', Bool.and_eq_false_iff]
          by_cases h8 : w.length = 1
          · right; rw [Bool.eq_false_iff]; exact fun h9 => hi ⟨h8, h9⟩
          · left; simpa using h8)]
        obtain ⟨c, d1, d2, h8, h9, h10⟩ := counted_step hc h2 (by omega)
        simp only [h8, h9]
        obtain ⟨e, he⟩ := generateLoop_spec is fuel t (by omega) hrest hsz h10
        rw [h6] at he
        refine ⟨e, he.1, ?_⟩
        have := he.2
        rw [List.append_assoc] at this
        exact this

end Verif.Irstlm
