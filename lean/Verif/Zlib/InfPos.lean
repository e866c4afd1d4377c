import Verif.Zlib.InfFill

/-! The places that the main loop goes through, and what has been entered. -/

namespace Verif.Zlib

/-- What is known about the lengths. -/
structure Good (lens : List Nat) (root max : Nat) : Prop where
  max0 : max ≠ 0
  max15 : max ≤ 15
  last : blCount lens max ≠ 0
  above : ∀ j, max < j → blCount lens j = 0
  fits : ∀ j, j ≤ max → endCode lens j ≤ 2 ^ j
  root0 : root ≠ 0
  rootmax : root ≤ max

/-- The code with the number `r` among those of the length `len`. -/
structure Pos (lens : List Nat) (max len r huff sym : Nat) : Prop where
  len0 : len ≠ 0
  lenmax : len ≤ max
  rank : r < blCount lens len
  place : sym = offsets (counts lens) len + r
  small : huff < 2 ^ len
  read : readBits huff len = firstCode lens len + r

/-- An earlier place. -/
def Before (l' r' l r : Nat) : Prop := l' < l ∨ (l' = l ∧ r' < r)

theorem next_length (lens : List Nat) {root max : Nat} (g : Good lens root max) {l : Nat} (h : l < max) :
    ∃ l', l < l' ∧ l' ≤ max ∧ blCount lens l' ≠ 0 ∧ ∀ j, l < j → j < l' → blCount lens j = 0 := by
  have hex : ∃ d, blCount lens (l + 1 + d) ≠ 0 :=
    ⟨max - (l + 1), by rw [show l + 1 + (max - (l + 1)) = max by omega]; exact g.last⟩
  classical
  refine ⟨l + 1 + Nat.find hex, by omega, ?_, Nat.find_spec hex, fun j a b => ?_⟩
  · have := Nat.find_min' hex (m := max - (l + 1))
      (by rw [show l + 1 + (max - (l + 1)) = max by omega]; exact g.last)
    omega
  · have := Nat.find_min hex (m := j - (l + 1)) (by omega)
    rw [show l + 1 + (j - (l + 1)) = j by omega] at this
    simpa using this

theorem Pos.next {lens : List Nat} {root max len r huff sym : Nat} (g : Good lens root max)
    (p : Pos lens max len r huff sym) (hn : ¬ (r + 1 = blCount lens len ∧ len = max)) :
    ∃ len' r', len' = (if r + 1 = blCount lens len then lens.getD (sorted lens (sym + 1)) 0 else len) ∧
      Pos lens max len' r' (backInc huff len) (sym + 1) ∧ len ≤ len' ∧
      firstCode lens len' + r' = (firstCode lens len + r + 1) * 2 ^ (len' - len) ∧
      (∀ l'' r'', r'' < blCount lens l'' → Before l'' r'' len' r' →
        Before l'' r'' len r ∨ (l'' = len ∧ r'' = r)) ∧
      (len' = len → r' = r + 1 ∧ r + 1 ≠ blCount lens len) ∧
      (len' ≠ len → r' = 0 ∧ r + 1 = blCount lens len) := by
  have hfit := g.fits len p.lenmax
  have hE : endCode lens len = firstCode lens len + blCount lens len := rfl
  have hrank := p.rank
  have hread := p.read
  by_cases hlast : r + 1 = blCount lens len
  · have hlm : len < max := by
      have := p.lenmax
      have : len ≠ max := fun e => hn ⟨hlast, e⟩
      omega
    obtain ⟨l', h1, h2, h3, h4⟩ := next_length lens g hlm
    obtain ⟨d, hd⟩ : ∃ d, l' = len + 1 + d := ⟨l' - (len + 1), by omega⟩
    have hF : firstCode lens l' = endCode lens len * 2 ^ (d + 1) := by
      rw [hd]; exact firstCode_gap lens len d fun j a b => h4 j a (by omega)
    have hlt : endCode lens len < 2 ^ len := by
      by_contra hc
      have he : endCode lens len = 2 ^ len := by omega
      have hf := g.fits l' h2
      have : endCode lens l' = firstCode lens l' + blCount lens l' := rfl
      have hpw : 2 ^ len * 2 ^ (d + 1) = 2 ^ l' := by rw [← Nat.pow_add, hd]; congr 1; omega
      rw [hF, he, hpw] at this
      omega
    obtain ⟨hb1, hb2⟩ := (backInc_spec huff len).1 (by omega)
    have hoff : offsets (counts lens) l' = sym + 1 := by
      rw [offsets_gap (counts lens) p.len0 h1 fun j a b => by
        rw [counts_pos lens (by omega)]; exact h4 j a b]
      rw [counts_pos lens p.len0, p.place]
      omega
    have hat := (sorted_at lens (l := l') (r := 0) (by omega)
      (by rw [counts_pos lens (by omega)]; omega)).1
    rw [Nat.add_zero, hoff] at hat
    have hcode : firstCode lens l' + 0 = (firstCode lens len + r + 1) * 2 ^ (l' - len) := by
      rw [hF, hE, ← hlast, show l' - len = d + 1 by omega]
      rfl
    refine ⟨l', 0, by rw [if_pos hlast, hat], ⟨by omega, h2, by omega, by omega, ?_, ?_⟩, by omega, hcode,
      ?_, fun e => by omega, fun _ => ⟨rfl, hlast⟩⟩
    · exact Nat.lt_of_lt_of_le hb1 (Nat.pow_le_pow_right (by decide) (by omega))
    · rw [hcode]
      have := readBits_high hb1 (l' - len)
      rw [show len + (l' - len) = l' by omega] at this
      rw [this, hb2, hread]
    · rintro l'' r'' hr hb
      rcases hb with hb | ⟨_, hb⟩
      · rcases Nat.lt_trichotomy l'' len with h | h | h
        · exact Or.inl (Or.inl h)
        · subst h
          by_cases hrr : r'' = r
          · exact Or.inr ⟨rfl, hrr⟩
          · exact Or.inl (Or.inr ⟨rfl, by omega⟩)
        · rw [h4 l'' h hb] at hr; omega
      · omega
  · obtain ⟨hb1, hb2⟩ := (backInc_spec huff len).1 (by omega)
    refine ⟨len, r + 1, by rw [if_neg hlast], ⟨p.len0, p.lenmax, by omega, by rw [p.place]; rfl, hb1, ?_⟩,
      Nat.le_refl _, by simp; omega, ?_, fun _ => ⟨rfl, hlast⟩, fun h => absurd rfl h⟩
    · rw [hb2, hread]; rfl
    · rintro l'' r'' hr hb
      rcases hb with hb | ⟨rfl, hb⟩
      · exact Or.inl (Or.inl hb)
      · by_cases hrr : r'' = r
        · exact Or.inr ⟨rfl, hrr⟩
        · exact Or.inl (Or.inr ⟨rfl, by omega⟩)

/-- How the table decodes a stream that begins with a code that has been entered. -/
def Found (type : CodeType) (root : Nat) (t : Table) (low curr next sym l h : Nat) : Prop :=
  (l ≤ root ∧ t (h % 2 ^ root) = some (symEntry type sym l)) ∨
  (root < l ∧ ∃ k v, t (h % 2 ^ root) = some ⟨k, root, v⟩ ∧ 2 ^ root ≤ v ∧ l ≤ root + k ∧ k ≤ 14 ∧
    t (v + h / 2 ^ root % 2 ^ k) = some (symEntry type sym (l - root)) ∧
    ((h % 2 ^ root = low ∧ k = curr ∧ v = next) ∨
      (readBits h root < readBits low root ∧ v + 2 ^ k ≤ next)))

/-- The phase of the main loop: the root table or a further one. -/
def Phase (lens : List Nat) (root max : Nat) (t : Table) (len next curr drop low huff : Nat) : Prop :=
  (drop = 0 ∧ len ≤ root ∧ next = 0 ∧ curr = root ∧ low = 2 ^ 32 - 1) ∨
  (drop = root ∧ root < len ∧ len ≤ root + curr ∧ root + curr ≤ max ∧ 2 ^ root ≤ next ∧
    huff % 2 ^ root = low ∧ t low = some ⟨curr, root, next⟩ ∧
    (root + curr = max ∨
      (readBits low root + 1) * 2 ^ curr ≤ endCode lens (root + curr)))

/-- The table with the entry of the current code. -/
def entered (type : CodeType) (t : Table) (next curr drop len huff sym : Nat) : Table :=
  fun x => if ∃ i, i < 2 ^ curr ∧ i % 2 ^ (len - drop) = huff / 2 ^ drop ∧ x = next + i
    then some (symEntry type sym (len - drop)) else t x

theorem mod_div_mod (h a b : Nat) (k : Nat) (hk : b ≤ k) :
    h / 2 ^ a % 2 ^ k % 2 ^ b = h % 2 ^ (a + b) / 2 ^ a := by
  rw [Nat.mod_mod_of_dvd _ (Nat.pow_dvd_pow 2 hk), Nat.pow_add, Nat.mod_mul_right_div_self]

theorem mod_eq_of_parts {h huff a b : Nat} (h1 : h % 2 ^ a = huff % 2 ^ a)
    (h2 : h % 2 ^ (a + b) / 2 ^ a = huff / 2 ^ a) : h % 2 ^ (a + b) = huff := by
  have e1 := Nat.div_add_mod (h % 2 ^ (a + b)) (2 ^ a)
  have e2 := Nat.div_add_mod huff (2 ^ a)
  rw [Nat.mod_mod_of_dvd _ (Nat.pow_dvd_pow 2 (Nat.le_add_right a b)), h2, h1] at e1
  omega

theorem found_entered {lens : List Nat} {root max len r huff sym : Nat} (g : Good lens root max)
    (p : Pos lens max len r huff sym) {type : CodeType} {t : Table} {next curr drop low : Nat}
    (ph : Phase lens root max t len next curr drop low huff)
    (hf : ∀ l' r' h, l' ≠ 0 → r' < blCount lens l' → Before l' r' len r →
      readBits h l' = firstCode lens l' + r' →
      Found type root t low curr next (sorted lens (offsets (counts lens) l' + r')) l' h) :
    ∀ l' r' h, l' ≠ 0 → r' < blCount lens l' → (Before l' r' len r ∨ (l' = len ∧ r' = r)) →
      readBits h l' = firstCode lens l' + r' →
      Found type root (entered type t next curr drop len huff (sorted lens sym)) low curr next
        (sorted lens (offsets (counts lens) l' + r')) l' h := by
  intro l' r' h h0 hr hb hh
  have hpr : 0 < 2 ^ root := Nat.pow_pos (by decide)
  have hmr := Nat.mod_lt h hpr
  have hsame : readBits h len = firstCode lens len + r → h % 2 ^ len = huff := by
    intro e
    rw [← p.read] at e
    rw [readBits_inj e, Nat.mod_eq_of_lt p.small]
  have hother : Before l' r' len r → h % 2 ^ len ≠ huff := by
    intro hb e
    have := not_begin lens hb hr hh
    rw [← readBits_mod h (Nat.le_refl len), e, p.read] at this
    omega
  rcases ph with ⟨rfl, p1, rfl, rfl, _⟩ | ⟨rfl, p1, p2, p3, p4, p5, p6, _⟩
  · -- the root table
    have hl' : l' ≤ curr := by
      rcases hb with (hb | hb) | hb <;> omega
    refine Or.inl ⟨hl', ?_⟩
    have hmm : h % 2 ^ curr % 2 ^ len = h % 2 ^ len := Nat.mod_mod_of_dvd _ (Nat.pow_dvd_pow 2 p1)
    unfold entered
    rcases hb with hb | ⟨rfl, rfl⟩
    · rcases hf l' r' h h0 hr hb hh with ⟨_, hx⟩ | ⟨hx, _⟩
      · rw [if_neg, hx]
        rintro ⟨i, _, i2, i3⟩
        simp only [Nat.sub_zero, Nat.pow_zero, Nat.div_one, Nat.zero_add] at i2 i3
        rw [← i3, hmm] at i2
        exact hother hb i2
      · omega
    · rw [if_pos ⟨h % 2 ^ curr, hmr, by simp [hmm, hsame hh], by simp⟩, p.place]
      simp
  · -- a further table
    have hlenr : drop + (len - drop) = len := by omega
    have hnot : ∀ x, x < next → entered type t next curr drop len huff (sorted lens sym) x = t x := by
      intro x hx
      unfold entered
      rw [if_neg]
      rintro ⟨i, _, _, i3⟩
      omega
    rcases hb with hb | ⟨rfl, rfl⟩
    · rcases hf l' r' h h0 hr hb hh with ⟨q1, hx⟩ | ⟨q1, k, v, x1, x2, x3, x4, x5, x6⟩
      · exact Or.inl ⟨q1, by rw [hnot _ (by omega), hx]⟩
      · refine Or.inr ⟨q1, k, v, by rw [hnot _ (by omega), x1], x2, x3, x4, ?_, x6⟩
        have hk := Nat.mod_lt (h / 2 ^ drop) (Nat.pow_pos (n := k) (by decide : 0 < 2))
        rcases x6 with ⟨y1, rfl, rfl⟩ | ⟨_, y2⟩
        · unfold entered
          rw [if_neg, x5]
          rintro ⟨i, _, i2, i3⟩
          have : i = h / 2 ^ drop % 2 ^ k := by omega
          rw [this, mod_div_mod _ _ _ _ (by omega)] at i2
          have := mod_eq_of_parts (by rw [y1, p5]) i2
          rw [hlenr] at this
          exact hother hb this
        · rw [hnot _ (by omega), x5]
    · have hm := hsame hh
      have hlow : h % 2 ^ drop = low := by
        rw [← p5, ← hm, Nat.mod_mod_of_dvd _ (Nat.pow_dvd_pow 2 (by omega))]
      have hll : low < next := by omega
      refine Or.inr ⟨p1, curr, next, by rw [hlow, hnot _ hll, p6], p4, p2, ?_, ?_, Or.inl ⟨hlow, rfl, rfl⟩⟩
      · have := g.max15; have := g.root0; omega
      · unfold entered
        have hc : ∃ i, i < 2 ^ curr ∧ i % 2 ^ (l' - drop) = huff / 2 ^ drop ∧
            next + h / 2 ^ drop % 2 ^ curr = next + i :=
          ⟨h / 2 ^ drop % 2 ^ curr, Nat.mod_lt _ (Nat.pow_pos (by decide)),
            by rw [mod_div_mod _ _ _ _ (by omega), hlenr, hm], rfl⟩
        rw [if_pos hc, p.place]

end Verif.Zlib
