import Verif.Zlib.InfTop

/-! Decoding with the tables. -/

namespace Verif.Zlib

theorem rank_lt (lens : List Nat) {s : Nat} (hs : s < lens.length) :
    (lens.take s).count (lens.getD s 0) < lens.count (lens.getD s 0) := by
  have h3 : lens.getD s 0 = lens[s] := by simp [hs]
  have h5 : lens = lens.take s ++ lens[s] :: lens.drop (s + 1) := by
    rw [List.getElem_cons_drop, List.take_append_drop]
  generalize hx : lens.getD s 0 = x at *
  conv_rhs => rw [h5]
  rw [List.count_append, ← h3, List.count_cons_self]
  omega

/-- The place of a symbol that a stream begins with. -/
theorem begins_pos {lens : List Nat} {hold sym : Nat} (h : BeginsWith lens hold sym) :
    ∃ l r, l = lens.getD sym 0 ∧ l ≠ 0 ∧ r < blCount lens l ∧ readBits hold l = firstCode lens l + r ∧
      sorted lens (offsets (counts lens) l + r) = sym := by
  obtain ⟨h1, h2, h3⟩ := h
  refine ⟨_, (lens.take sym).count (lens.getD sym 0), rfl, h2, ?_, h3, sorted_spec lens h1 h2⟩
  unfold blCount
  rw [if_neg h2]
  exact rank_lt lens h1

theorem begins_unique {lens : List Nat} {hold sym sym' : Nat} (h : BeginsWith lens hold sym)
    (h' : BeginsWith lens hold sym') : sym = sym' := by
  obtain ⟨l, r, _, _, a3, a4, a5⟩ := begins_pos h
  obtain ⟨l', r', _, _, b3, b4, b5⟩ := begins_pos h'
  rcases Nat.lt_trichotomy l l' with hl | rfl | hl
  · have := not_begin lens (l := l') (r := r') (Or.inl hl) a3 a4
    omega
  · have : r = r' := by omega
    rw [← a5, ← b5, this]
  · have := not_begin lens (l := l) (r := r) (Or.inl hl) b3 b4
    omega

theorem begins_exists {lens : List Nat} (hl : ∀ l ∈ lens, l ≤ 15) (hk : kraft lens = 2 ^ 15) (hold : Nat) :
    ∃ sym, BeginsWith lens hold sym := by
  have hc := (complete_iff hl).1 hk
  have hex : ∃ l, readBits hold l < endCode lens l := ⟨maxLen lens, by rw [hc]; exact readBits_lt _ _⟩
  classical
  have h1 := Nat.find_spec hex
  have h2 : ∀ j, j < Nat.find hex → ¬ readBits hold j < endCode lens j := fun j hj => Nat.find_min hex hj
  generalize Nat.find hex = l at h1 h2
  cases l with
  | zero => simp [endCode, firstCode, blCount] at h1
  | succ l =>
    have h3 := h2 l (by omega)
    have h4 : firstCode lens (l + 1) ≤ readBits hold (l + 1) := by
      rw [firstCode_succ]
      simp only [readBits]
      omega
    have h5 : readBits hold (l + 1) - firstCode lens (l + 1) < lens.count (l + 1) := by
      have : endCode lens (l + 1) = firstCode lens (l + 1) + lens.count (l + 1) := rfl
      omega
    obtain ⟨s, s1, s2, s3⟩ := exists_sym lens (l + 1) _ h5
    refine ⟨s, s1, by rw [s2]; omega, ?_⟩
    rw [codeOf, s2, s3]
    omega

/-- A stream that begins the same way. -/
theorem begins_congr {lens : List Nat} {hold hold' sym : Nat} (h : BeginsWith lens hold sym) {n : Nat}
    (hn : lens.getD sym 0 ≤ n) (e : hold % 2 ^ n = hold' % 2 ^ n) : BeginsWith lens hold' sym := by
  obtain ⟨h1, h2, h3⟩ := h
  refine ⟨h1, h2, ?_⟩
  rw [← h3, ← readBits_mod hold' hn, ← e, readBits_mod hold hn]

/-- What the tables have for a stream that begins with a code of the length `l`. -/
def Has (type : CodeType) (root : Nat) (t : Table) (sym l hold : Nat) : Prop :=
  (l ≤ root ∧ t (hold % 2 ^ root) = some (symEntry type sym l)) ∨
  (root < l ∧ ∃ k v, 1 ≤ k ∧ k ≤ 14 ∧ t (hold % 2 ^ root) = some ⟨k, root, v⟩ ∧
    t (v + hold / 2 ^ root % 2 ^ k) = some (symEntry type sym (l - root)))

/-- What is known of tables that have been made. -/
structure Made (type : CodeType) (lens : List Nat) (root : Nat) (t : Table) : Prop where
  root0 : root ≠ 0
  has : ∀ hold sym, BeginsWith lens hold sym → Has type root t sym (lens.getD sym 0) hold
  other : ∀ hold, (¬ ∃ sym, BeginsWith lens hold sym) → root = 1 ∧ t (hold % 2 ^ root) = some ⟨64, 1, 0⟩

theorem found_has {type : CodeType} {root : Nat} {t : Table} {low curr next sym l h : Nat}
    (f : Found type root t low curr next sym l h) : Has type root t sym l h := by
  rcases f with f | ⟨f1, k, v, x1, x2, x3, x4, x5, x6⟩
  · exact Or.inl f
  · exact Or.inr ⟨f1, k, v, by omega, x4, x1, x5⟩

theorem made_of {type : CodeType} {lens : List Nat} {bits root used : Nat} {t : Table}
    (hl : ∀ l ∈ lens, l ≤ 15) (h0 : maxLen lens ≠ 0) (hk : kraft lens ≤ 2 ^ 15)
    (hc : kraft lens = 2 ^ 15 ∨ (type ≠ .codes ∧ maxLen lens = 1))
    (h : inflateTable type lens bits = some (.ok t root used)) :
    root = rootBits lens bits ∧ Made type lens root t ∧ (∀ x, t x ≠ none → x < used) ∧
      (used = 2 ^ root ∨ (root < maxLen lens ∧
        used + 2 ≤ 2 ^ root + 2 ^ (maxLen lens - root) + lens.countP (fun l => l ≠ 0))) := by
  rcases inflate_ok bits hl h0 hk hc with ⟨_, e, _⟩ | ⟨s, f, e⟩
  · rw [e] at h; simp at h
  · rw [e] at h
    simp only [Option.some.injEq, Res.ok.injEq] at h
    obtain ⟨rfl, rfl, rfl⟩ := h
    obtain ⟨g, hmr⟩ := good_of hl h0 hk bits
    have hm15 := g.max15
    by_cases hkk : kraft lens = 2 ^ 15
    · simp only [hkk, if_true]
      refine ⟨trivial, ⟨g.root0, ?_, fun hold hn => absurd (begins_exists hl hkk hold) hn⟩, ?_, ?_⟩
      · intro hold sym hb
        obtain ⟨l, r, a1, a2, a3, a4, a5⟩ := begins_pos hb
        have := f.found l r hold a2 a3 a4
        rw [a5, a1] at this
        exact found_has this
      · intro x hx
        rw [f.used]
        exact f.bound x hx
      · rcases f.phase with ⟨p1, p2, p3, p4⟩ | ⟨p1, p2⟩
        · exact Or.inl (by rw [f.used, p3, p4]; omega)
        · refine Or.inr ⟨p2, ?_⟩
          have := f.total p1 ((complete_iff hl).1 hkk)
          rw [total_eq lens hl] at this
          exact this
    · have hm1 : maxLen lens = 1 := by
        rcases hc with hc | hc
        · exact absurd hc hkk
        · exact hc.2
      have hr1 : rootBits lens bits = 1 := by
        have := g.root0; have := g.rootmax; omega
      have hE : endCode lens 1 < 2 ^ 1 := by
        have h1 : endCode lens 1 ≠ 2 ^ 1 := by
          rw [← hm1]; exact fun h => hkk ((complete_iff hl).2 h)
        have := g.fits 1 (by omega)
        omega
      have hN : blCount lens 1 = 1 := by
        have h1 := g.last
        rw [hm1] at h1
        have : endCode lens 1 = firstCode lens 1 + blCount lens 1 := rfl
        omega
      have hF : firstCode lens 1 = 0 := by
        have : endCode lens 1 = firstCode lens 1 + blCount lens 1 := rfl
        omega
      have hone : ∀ hold, readBits hold 1 = hold % 2 := by intro hold; simp [readBits]
      simp only [hkk, if_false, hr1]
      have hused : s.used = 2 ^ 1 ∧ s.next + 2 ^ s.curr = 2 ^ 1 := by
        rcases f.phase with ⟨p1, p2, p3, p4⟩ | ⟨p1, p2⟩
        · rw [f.used, p3, p4, hr1]; exact ⟨rfl, rfl⟩
        · omega
      refine ⟨trivial, ⟨by decide, ?_, ?_⟩, ?_, Or.inl hused.1⟩
      · intro hold sym hb
        obtain ⟨l, r, a1, a2, a3, a4, a5⟩ := begins_pos hb
        have hl1 : l = 1 := by
          by_contra hne
          have := g.above l (by omega)
          omega
        have := found_has (f.found l r hold a2 a3 a4)
        rw [a5, hr1] at this
        rw [← a1]
        subst hl1
        rcases this with ⟨b1, b2⟩ | ⟨b1, _⟩
        · refine Or.inl ⟨b1, ?_⟩
          rw [hone, hF] at a4
          have hne : hold % 2 ^ 1 ≠ 1 := by omega
          simp only [upd, hne, if_false]
          exact b2
        · omega
      · intro hold hn
        refine ⟨rfl, ?_⟩
        have h1 : hold % 2 = 1 := by
          by_contra hne
          have h2 : 0 < lens.count 1 := by
            have : blCount lens 1 = lens.count 1 := rfl
            omega
          obtain ⟨s, s1, s2, s3⟩ := exists_sym lens 1 0 h2
          exact hn ⟨s, s1, by rw [s2]; decide, by rw [codeOf, s2, s3, hF, hone]; omega⟩
        simp [upd, h1]
      · intro x hx
        rw [hused.1]
        simp only [upd] at hx
        split at hx
        · omega
        · have := f.bound x hx
          omega

theorem symEntry_bits (type : CodeType) (sym l : Nat) : (symEntry type sym l).bits = l := by
  unfold symEntry
  cases type with
  | codes => simp only; split <;> rfl
  | lens => simp only; split <;> (try split) <;> rfl
  | dists => rfl

/-- An entry is determined by the bits that it takes. -/
theorem made_stable {type : CodeType} {lens : List Nat} {root : Nat} {t : Table} (m : Made type lens root t)
    {h h' : Nat} {e : Entry} (he : t (h % 2 ^ root) = some e) (hh : h % 2 ^ e.bits = h' % 2 ^ e.bits) :
    t (h' % 2 ^ root) = some e := by
  by_cases hb : ∃ sym, BeginsWith lens h sym
  · obtain ⟨sym, hb⟩ := hb
    rcases m.has h sym hb with ⟨a1, a2⟩ | ⟨a1, k, v, _, _, a2, a3⟩
    · rw [he, Option.some.injEq] at a2
      have hbits : e.bits = lens.getD sym 0 := by rw [a2, symEntry_bits]
      rw [hbits] at hh
      rcases m.has h' sym (begins_congr hb (Nat.le_refl _) hh) with ⟨b1, b2⟩ | ⟨b1, _⟩
      · rw [b2, a2]
      · omega
    · rw [he, Option.some.injEq] at a2
      have hbits : e.bits = root := by rw [a2]
      rw [hbits] at hh
      rw [← hh, he]
  · obtain ⟨a1, a2⟩ := m.other h hb
    rw [he, Option.some.injEq] at a2
    have hbits : e.bits = root := by rw [a2, a1]
    rw [hbits] at hh
    rw [← hh, he]

end Verif.Zlib
