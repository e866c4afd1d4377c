import Verif.Zlib.HeaderLemmas
import Verif.Zlib.PropsInf

/-! Lemmas about the whole header of a dynamic block. -/

namespace Verif.Zlib

theorem order_at {k sym : Nat} (hk : k < 19) (hs : sym < 19) :
    order.getD k 0 = sym ↔ lengthOrder.idxOf sym = k := by
  have : ∀ k < 19, ∀ sym < 19, (order.getD k 0 = sym ↔ lengthOrder.idxOf sym = k) := by decide
  exact this k hk sym hs

theorem idx_lt {sym : Nat} (hs : sym < 19) : lengthOrder.idxOf sym < 19 := by
  have : ∀ sym < 19, lengthOrder.idxOf sym < 19 := by decide
  exact this sym hs

theorem lenLens_spec {ncode : Nat} (hn : ncode ≤ 19) : ∀ (fuel k : Nat) (lens : Nat → Nat) (b : Bits),
    b.Ok → 19 ≤ k + fuel → k ≤ ncode →
    (3 * (ncode - k) ≤ b.total → ∃ lens' b', lenLens ncode fuel k lens b = .ok lens' b' ∧ b'.Ok ∧
      b'.stream = b.stream / 2 ^ (3 * (ncode - k)) ∧ b'.total = b.total - 3 * (ncode - k) ∧
      ∀ sym < 19, lens' sym =
        if k ≤ lengthOrder.idxOf sym ∧ lengthOrder.idxOf sym < ncode then
          b.stream / 2 ^ (3 * (lengthOrder.idxOf sym - k)) % 8 else lens sym) ∧
    (b.total < 3 * (ncode - k) → lenLens ncode fuel k lens b = .more)
  | 0, k, lens, b, hb, hf, hk => by
    have e : ncode - k = 0 := by omega
    refine ⟨fun _ => ⟨lens, b, rfl, hb, by rw [e]; simp, by omega, ?_⟩, fun h => by omega⟩
    intro sym hs
    rw [if_neg (by omega)]
  | fuel + 1, k, lens, b, hb, hf, hk => by
    by_cases hlt : k < ncode
    · by_cases h3 : 3 ≤ b.total
      · obtain ⟨b1, n1, n2, n3, n4⟩ := need_some hb.hold h3
        obtain ⟨d1, d2, d3, d4, d5⟩ := bits_drop n2.hold n3
        have hb8 := hb.bits
        have hok : (dropBits b1 3).Ok := ⟨d4, by omega⟩
        obtain ⟨i1, i2⟩ := lenLens_spec hn fuel (k + 1)
          (upd lens (order.getD k 0) (lowBits b1 3)) (dropBits b1 3) hok (by omega) (by omega)
        have ed : lenLens ncode (fuel + 1) k lens b = lenLens ncode fuel (k + 1)
            (upd lens (order.getD k 0) (lowBits b1 3)) (dropBits b1 3) := by
          simp only [lenLens, if_pos hlt, n1]
        rw [ed]
        rw [d3, n2.total] at i1 i2
        rw [d2, n2.stream] at i1
        constructor
        · intro h
          obtain ⟨lens', b', j1, j2, j3, j4, j5⟩ := i1 (by omega)
          refine ⟨lens', b', j1, j2, ?_, by omega, ?_⟩
          · rw [j3, Nat.div_div_eq_div_mul, ← Nat.pow_add]
            congr 2
            omega
          · intro sym hs
            rw [j5 sym hs]
            have hi := idx_lt hs
            by_cases hik : lengthOrder.idxOf sym = k
            · rw [if_neg (by omega), if_pos (by omega)]
              have ho : order.getD k 0 = sym := (order_at (by omega) hs).2 hik
              simp only [upd, ho, if_true]
              rw [d1, n2.stream, hik]
              simp
            · have ho : order.getD k 0 ≠ sym := fun h => hik ((order_at (by omega) hs).1 h)
              by_cases hc : k + 1 ≤ lengthOrder.idxOf sym ∧ lengthOrder.idxOf sym < ncode
              · rw [if_pos hc, if_pos (by omega), Nat.div_div_eq_div_mul, ← Nat.pow_add]
                congr 3
                omega
              · rw [if_neg hc, if_neg (by omega)]
                simp only [upd]
                rw [if_neg (fun h => ho h.symm)]
        · intro h
          exact i2 (by omega)
      · refine ⟨fun h => by omega, fun _ => ?_⟩
        simp only [lenLens, if_pos hlt, need_none hb.hold (show b.total < 3 by omega)]
    · have e : ncode - k = 0 := by omega
      refine ⟨fun _ => ⟨lens, b, by simp only [lenLens, if_neg hlt], hb, by rw [e]; simp,
        by omega, ?_⟩, fun h => by omega⟩
      intro sym hs
      rw [if_neg (by omega)]

theorem zeroLens_spec : ∀ (fuel k : Nat) (lens : Nat → Nat), 19 ≤ k + fuel → ∀ sym < 19,
    zeroLens fuel k lens sym = if k ≤ lengthOrder.idxOf sym then 0 else lens sym
  | 0, k, lens, hf, sym, hs => by
    have hi := idx_lt hs
    rw [if_neg (by omega)]
    rfl
  | fuel + 1, k, lens, hf, sym, hs => by
    have hi := idx_lt hs
    by_cases hk : k < 19
    · simp only [zeroLens, if_pos hk]
      rw [zeroLens_spec fuel (k + 1) _ (by omega) sym hs]
      by_cases hik : lengthOrder.idxOf sym = k
      · have ho : order.getD k 0 = sym := (order_at hk hs).2 hik
        rw [if_neg (by omega), if_pos (by omega)]
        simp only [upd, ho, if_true]
      · have ho : order.getD k 0 ≠ sym := fun h => hik ((order_at hk hs).1 h)
        simp only [upd]
        rw [if_neg (fun h : sym = order.getD k 0 => ho h.symm)]
        by_cases hc : k + 1 ≤ lengthOrder.idxOf sym
        · rw [if_pos hc, if_pos (by omega)]
        · rw [if_neg hc, if_neg (by omega)]
    · simp only [zeroLens, if_neg hk]
      rw [if_neg (by omega)]

theorem usable_ok {type : CodeType} {lens : List Nat} (bits : Nat) (hl : ∀ l ∈ lens, l ≤ 15)
    (hsp : inflateTable type lens bits ≠ some .space) (hu : Usable type lens) :
    ∃ t root used, inflateTable type lens bits = some (.ok t root used) := by
  have h1 := C193_no_wild type bits hl
  have h2 : inflateTable type lens bits ≠ some .invalid := fun h => (C193_refused type bits hl).1 h hu
  cases h : inflateTable type lens bits with
  | none => exact absurd h h1
  | some r =>
    cases r with
    | invalid => exact absurd h h2
    | space => exact absurd h hsp
    | ok t root used => exact ⟨t, root, used, rfl⟩

theorem space_lens {type : CodeType} {lens : List Nat} (bits : Nat) (hl : ∀ l ∈ lens, l ≤ 15)
    (ht : type ≠ .lens) : inflateTable type lens bits ≠ some .space := by
  rcases cases_of type hl with ⟨a, _⟩ | ⟨a, _, b⟩ | ⟨a, _, b, c⟩
  · rw [inflate_empty type bits hl a]; simp
  · rw [inflate_invalid bits hl a b]; simp
  · rcases inflate_ok bits hl a b c with ⟨e, _⟩ | ⟨s, _, e⟩
    · exact absurd e ht
    · rw [e]; simp

theorem lengths_le {clens : List Nat} (hsize : clens.length ≤ 19) {n : Nat} {out : List Nat}
    {s u : Nat} {r : Outcome (List Nat)} (h : Lengths clens n out s u r) :
    (∀ l ∈ out, l ≤ 15) → ∀ o s' t', r = .got o s' t' → (∀ l ∈ o, l ≤ 15) ∧ o.length = n := by
  induction h with
  | @done out s u hlen =>
    intro ho o s' t' hr
    cases hr
    exact ⟨ho, hlen⟩
  | cut => intro _ o s' t' hr; cases hr
  | noLast => intro _ o s' t' hr; cases hr
  | tooMany => intro _ o s' t' hr; cases hr
  | @next out out' s u sym r hlt hs hu hg hle _ ih =>
    intro ho
    apply ih
    unfold grow at hg
    split at hg
    · simp only [Option.some.injEq] at hg
      subst hg
      intro l hm
      rcases List.mem_append.mp hm with hm | hm
      · exact ho l hm
      · simp at hm; omega
    · split at hg
      · obtain ⟨x, hx, rfl⟩ := Option.map_eq_some_iff.mp hg
        intro l hm
        rcases List.mem_append.mp hm with hm | hm
        · exact ho l hm
        · have := List.eq_of_mem_replicate hm
          subst this
          exact ho _ (List.mem_of_getLast? hx)
      · split at hg <;>
        · simp only [Option.some.injEq] at hg
          subst hg
          intro l hm
          rcases List.mem_append.mp hm with hm | hm
          · exact ho l hm
          · have := List.eq_of_mem_replicate hm
            omega

/-- The tables for two sets of lengths. -/
def TablesFor (p : List Nat × List Nat) (x : Tables) : Prop :=
  (∃ used, inflateTable .lens p.1 9 = some (.ok x.lencode x.lenbits used)) ∧
  (∃ used, inflateTable .dists p.2 6 = some (.ok x.distcode x.distbits used)) ∧
  (∀ l ∈ p.1, l ≤ 15) ∧ (∀ l ∈ p.2, l ≤ 15) ∧ p.1.length ≤ 286 ∧ p.2.length ≤ 30

theorem lol_le (n s : Nat) : ∀ l ∈ lengthsOfLengths n s, l ≤ 7 := by
  intro l hm
  simp only [lengthsOfLengths, List.mem_map] at hm
  obtain ⟨sym, _, rfl⟩ := hm
  split <;> omega

theorem lol_length (n s : Nat) : (lengthsOfLengths n s).length = 19 := by simp [lengthsOfLengths]

theorem readHeader_spec (old : Nat → Nat) {b : Bits} (hb : b.Ok)
    {r : Outcome (List Nat × List Nat)} (h : Header b.stream b.total r) :
    Agrees TablesFor r (readHeader old b) := by
  have hb8 := hb.bits
  by_cases h14 : 14 ≤ b.total
  · obtain ⟨b1, n1, n2, n3, n4⟩ := need_some hb.hold h14
    obtain ⟨d1, d2, d3, d4, d5⟩ := bits_drop n2.hold (n := 5) (by omega)
    obtain ⟨e1, e2, e3, e4, e5⟩ := bits_drop d4 (n := 5) (by omega)
    obtain ⟨f1, f2, f3, f4, f5⟩ := bits_drop e4 (n := 4) (by omega)
    rw [n2.stream] at d1 d2
    rw [d2] at e1 e2
    rw [e2] at f1 f2
    rw [Nat.div_div_eq_div_mul] at e2 f1 f2
    rw [Nat.div_div_eq_div_mul] at f2
    have k1 : lowBits b1 5 + 257 = (headNumbers b.stream).1 := by rw [d1]; rfl
    have k2 : lowBits (dropBits b1 5) 5 + 1 = (headNumbers b.stream).2.1 := by rw [e1]; rfl
    have k3 : lowBits (dropBits (dropBits b1 5) 5) 4 + 4 = (headNumbers b.stream).2.2 := by
      rw [f1]; rfl
    generalize hB : dropBits (dropBits (dropBits b1 5) 5) 4 = B at *
    have hBs : B.stream = b.stream / 2 ^ 14 := by rw [f2]; rfl
    have hBt : B.total = b.total - 14 := by rw [f3, e3, d3, n2.total]; omega
    have hBok : B.Ok := ⟨f4, by omega⟩
    have hncode : (headNumbers b.stream).2.2 ≤ 19 := by simp only [headNumbers]; omega
    unfold readHeader
    rw [n1]
    simp only [k1, k2, k3, hB]
    obtain ⟨l1, l2⟩ := lenLens_spec hncode 19 0 old B hBok (by omega) (by omega)
    simp only [Nat.sub_zero] at l1 l2
    by_cases hnum : (headNumbers b.stream).1 > 286 ∨ (headNumbers b.stream).2.1 > 30
    · rw [if_pos hnum]
      cases h with
      | cut h => omega
      | numbers _ _ => rfl
      | cutLengths _ h1 h2 _ => omega
      | unusable h => obtain ⟨h1, h2, _⟩ := h; omega
      | cutBoth h => obtain ⟨h1, h2, _⟩ := h; omega
      | wrongBoth h => obtain ⟨h1, h2, _⟩ := h; omega
      | unusableBoth h => obtain ⟨h1, h2, _⟩ := h; omega
      | cutNone h => obtain ⟨h1, h2, _⟩ := h; omega
      | noCodes h => obtain ⟨h1, h2, _⟩ := h; omega
      | got h => obtain ⟨h1, h2, _⟩ := h; omega
    · rw [if_neg hnum]
      by_cases hlen : 14 + 3 * (headNumbers b.stream).2.2 ≤ b.total
      · obtain ⟨lens', B', m1, m2, m3, m4, m5⟩ := l1 (by omega)
        rw [m1]
        simp only
        have hmap : (List.range 19).map (zeroLens 19 (headNumbers b.stream).2.2 lens')
            = headLengths b.stream := by
          unfold headLengths lengthsOfLengths
          apply List.map_congr_left
          intro sym hm
          have hs : sym < 19 := List.mem_range.mp hm
          rw [zeroLens_spec 19 _ lens' (by omega) sym hs, m5 sym hs]
          by_cases hc : lengthOrder.idxOf sym < (headNumbers b.stream).2.2
          · rw [if_neg (by omega), if_pos (by omega), if_pos hc, hBs]
          · rw [if_pos (by omega), if_neg hc]
        rw [hmap]
        have hle7 : ∀ l ∈ headLengths b.stream, l ≤ 7 := lol_le _ _
        have hle : ∀ l ∈ headLengths b.stream, l ≤ 15 := fun l hm => by
          have := hle7 l hm; omega
        have hlen19 : (headLengths b.stream).length ≤ 19 := Nat.le_of_eq (lol_length _ _)
        have hB's : B'.stream = b.stream / 2 ^ (14 + 3 * (headNumbers b.stream).2.2) := by
          rw [m3, hBs, Nat.div_div_eq_div_mul, ← Nat.pow_add]
        have hB't : B'.total = b.total - (14 + 3 * (headNumbers b.stream).2.2) := by
          rw [m4, hBt, Nat.sub_sub]
        by_cases hu : Usable .codes (headLengths b.stream)
        · obtain ⟨t, root, used, ht⟩ := usable_ok 7 hle (space_lens 7 hle (by decide)) hu
          rw [ht]
          simp only
          have hmade := (made_all hle ht).1
          have hroot := codes_root hle (fun _ => hle7) ht rfl
          have both : ∀ r, Both b.stream b.total r → Agrees Eq r
              (codeLens t root ((headNumbers b.stream).1 + (headNumbers b.stream).2.1)
                ((headNumbers b.stream).1 + (headNumbers b.stream).2.1 + 1) [] B') := by
            intro r hr
            exact codeLens_spec hmade hlen19 hroot hr _ B' m2 hB's hB't (by simp)
          have zero : (∀ l ∈ headLengths b.stream, l = 0) → ∀ x, t (x % 2 ^ root) = some ⟨64, 1, 0⟩ := by
            intro hz x
            refine (hmade.other x ?_).2
            rintro ⟨sym, h1, h2, _⟩
            apply h2
            rw [List.getD_eq_getElem?_getD, List.getElem?_eq_getElem h1]
            exact hz _ (List.getElem_mem h1)
          have zeros := fun hz => codeLens_zero (n := (headNumbers b.stream).1 + (headNumbers b.stream).2.1)
            (zero hz) ((headNumbers b.stream).1 + (headNumbers b.stream).2.1 + 1) [] B' m2 (by simp)
            (by simp)
          simp only [List.length_nil, Nat.sub_zero, List.nil_append] at zeros
          cases h with
          | cut h => omega
          | numbers _ h => omega
          | cutLengths _ _ _ h => omega
          | unusable _ h => exact absurd hu h
          | cutNone _ hz h =>
            rw [(zeros hz).2 (by omega)]
            rfl
          | noCodes _ hz h =>
            obtain ⟨b2, g1, g2, g3, g4⟩ := (zeros hz).1 (by omega)
            rw [g1]
            simp only [List.take_replicate, List.drop_replicate, Nat.min_eq_left (Nat.le_add_right _ _),
              Nat.add_sub_cancel_left]
            have qa : ∀ l ∈ List.replicate (headNumbers b.stream).1 0, l ≤ 15 :=
              fun l hm => by rw [List.eq_of_mem_replicate hm]; omega
            have qb : ∀ l ∈ List.replicate (headNumbers b.stream).2.1 0, l ≤ 15 :=
              fun l hm => by rw [List.eq_of_mem_replicate hm]; omega
            obtain ⟨lt, lr, lu, hlt⟩ := usable_ok 9 qa
              (C195_enough .lens qa (by simp; omega))
              (Or.inr (Or.inl fun l hm => List.eq_of_mem_replicate hm))
            obtain ⟨dt, dr, du, hdt⟩ := usable_ok (type := .dists) 6 qb (space_lens 6 qb (by decide))
              (Or.inr (Or.inl fun l hm => List.eq_of_mem_replicate hm))
            rw [hlt]
            simp only
            rw [hdt]
            refine ⟨_, _, rfl, ⟨⟨lu, hlt⟩, ⟨du, hdt⟩, qa, qb, ?_, ?_⟩, g2, ?_, ?_⟩
            · simp; omega
            · simp; omega
            · rw [g3, hB's, Nat.div_div_eq_div_mul, ← Nat.pow_add]
            · rw [g4, hB't, Nat.sub_sub]
          | cutBoth _ _ h =>
            have := both _ h
            simp only [Agrees] at this
            rw [this]
            rfl
          | wrongBoth _ _ h =>
            have := both _ h
            simp only [Agrees] at this
            rw [this]
            rfl
          | @unusableBoth out s' t' _ _ h hn =>
            obtain ⟨c, b2, g1, g2, g3, g4, g5⟩ := both _ h
            subst g2
            obtain ⟨q1, q2⟩ := lengths_le hlen19 h (by simp) out s' t' rfl
            rw [g1]
            simp only
            have qa : ∀ l ∈ out.take (headNumbers b.stream).1, l ≤ 15 :=
              fun l hm => q1 l (List.mem_of_mem_take hm)
            have qb : ∀ l ∈ out.drop (headNumbers b.stream).1, l ≤ 15 :=
              fun l hm => q1 l (List.mem_of_mem_drop hm)
            by_cases ha : Usable .lens (out.take (headNumbers b.stream).1)
            · obtain ⟨lt, lr, lu, hlt⟩ := usable_ok 9 qa
                (C195_enough .lens qa (by simp; omega)) ha
              rw [hlt]
              simp only
              have hb' : ¬ Usable .dists (out.drop (headNumbers b.stream).1) :=
                fun hx => hn ⟨ha, hx⟩
              rw [(C193_refused .dists 6 qb).2 hb']
              rfl
            · rw [(C193_refused .lens 9 qa).2 ha]
              rfl
          | @got out s' t' _ _ h ha hd =>
            obtain ⟨c, b2, g1, g2, g3, g4, g5⟩ := both _ h
            subst g2
            obtain ⟨q1, q2⟩ := lengths_le hlen19 h (by simp) out s' t' rfl
            rw [g1]
            simp only
            have qa : ∀ l ∈ out.take (headNumbers b.stream).1, l ≤ 15 :=
              fun l hm => q1 l (List.mem_of_mem_take hm)
            have qb : ∀ l ∈ out.drop (headNumbers b.stream).1, l ≤ 15 :=
              fun l hm => q1 l (List.mem_of_mem_drop hm)
            obtain ⟨lt, lr, lu, hlt⟩ := usable_ok 9 qa
              (C195_enough .lens qa (by simp; omega)) ha
            obtain ⟨dt, dr, du, hdt⟩ := usable_ok 6 qb (space_lens 6 qb (by decide)) hd
            rw [hlt]
            simp only
            rw [hdt]
            refine ⟨_, _, rfl, ⟨⟨lu, hlt⟩, ⟨du, hdt⟩, qa, qb, ?_, ?_⟩, g3, g4, g5⟩
            · simp; omega
            · simp; omega
        · rw [(C193_refused .codes 7 hle).2 hu]
          have hnk : kraft (headLengths b.stream) ≠ 2 ^ 15 := fun hk => hu (Or.inl hk)
          cases h with
          | cut h => omega
          | numbers _ h => omega
          | cutLengths _ _ _ h => omega
          | unusable _ h => rfl
          | cutBoth _ h _ => exact absurd h hnk
          | wrongBoth _ h _ => exact absurd h hnk
          | unusableBoth _ h _ _ => exact absurd h hnk
          | cutNone _ h _ => exact absurd (Or.inr (Or.inl h)) hu
          | noCodes _ h _ => exact absurd (Or.inr (Or.inl h)) hu
          | got _ h _ _ _ => exact absurd h hnk
      · rw [l2 (by omega)]
        cases h with
        | cut h => omega
        | numbers _ h => omega
        | cutLengths _ _ _ h => rfl
        | unusable h => obtain ⟨_, _, h3⟩ := h; omega
        | cutBoth h => obtain ⟨_, _, h3⟩ := h; omega
        | wrongBoth h => obtain ⟨_, _, h3⟩ := h; omega
        | unusableBoth h => obtain ⟨_, _, h3⟩ := h; omega
        | cutNone h => obtain ⟨_, _, h3⟩ := h; omega
        | noCodes h => obtain ⟨_, _, h3⟩ := h; omega
        | got h => obtain ⟨_, _, h3⟩ := h; omega
  · have hn := need_none hb.hold (show b.total < 14 by omega)
    unfold readHeader
    rw [hn]
    simp only
    cases h with
    | cut h => rfl
    | numbers h _ => omega
    | cutLengths h _ _ _ => omega
    | unusable h => obtain ⟨_, _, h3⟩ := h; omega
    | cutBoth h => obtain ⟨_, _, h3⟩ := h; omega
    | wrongBoth h => obtain ⟨_, _, h3⟩ := h; omega
    | unusableBoth h => obtain ⟨_, _, h3⟩ := h; omega
    | cutNone h => obtain ⟨_, _, h3⟩ := h; omega
    | noCodes h => obtain ⟨_, _, h3⟩ := h; omega
    | got h => obtain ⟨_, _, h3⟩ := h; omega

/-- The input always says something about the lengths. -/
theorem lengths_exists {clens : List Nat} (hle : ∀ l ∈ clens, l ≤ 15) (hk : kraft clens = 2 ^ 15)
    {n : Nat} : ∀ (k : Nat) (out : List Nat) (s u : Nat), out.length ≤ n → n - out.length ≤ k →
    ∃ r, Lengths clens n out s u r := by
  intro k
  induction k with
  | zero =>
    intro out s u h1 h2
    exact ⟨_, .done (by omega)⟩
  | succ k ih =>
    intro out s u h1 h2
    by_cases hl : out.length = n
    · exact ⟨_, .done hl⟩
    · obtain ⟨sym, hs⟩ := begins_exists hle hk s
      by_cases hu : clens.getD sym 0 + extraBits sym ≤ u
      · cases hg : grow out sym (s / 2 ^ clens.getD sym 0 % 2 ^ extraBits sym) with
        | none => exact ⟨_, .noLast (by omega) hs hu hg⟩
        | some out' =>
          have hgrow : out.length < out'.length := by
            unfold grow at hg
            split at hg
            · simp only [Option.some.injEq] at hg; subst hg; simp
            · split at hg
              · obtain ⟨l, _, rfl⟩ := Option.map_eq_some_iff.mp hg
                simp
              · split at hg <;> (simp only [Option.some.injEq] at hg; subst hg; simp)
          by_cases hn : out'.length ≤ n
          · obtain ⟨r, hr⟩ := ih out' (s / 2 ^ (clens.getD sym 0 + extraBits sym))
              (u - (clens.getD sym 0 + extraBits sym)) hn (by omega)
            exact ⟨r, .next (by omega) hs hu hg hn hr⟩
          · exact ⟨_, .tooMany (by omega) hs hu hg (by omega)⟩
      · exact ⟨_, .cut (by omega) hs (by omega)⟩

end Verif.Zlib
