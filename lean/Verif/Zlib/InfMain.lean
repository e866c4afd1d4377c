import Verif.Zlib.InfPos

/-! The main loop that builds the tables. -/

namespace Verif.Zlib

/-- How much room the tables have needed: the last one began `a` bits below the root table and
has got `x` symbols. -/
def Room (lens : List Nat) (root len r used sym curr low : Nat) : Prop :=
  ∃ a x, 1 ≤ a ∧ root + a ≤ len ∧ a ≤ curr ∧ x ≤ sym ∧ used + 2 + x ≤ 2 ^ root + 2 ^ curr + sym + 2 ^ a ∧
    firstCode lens len + r ≤ readBits low root * 2 ^ (len - root) + x * 2 ^ (len - root - a) ∧
    ∀ j, a ≤ j → j < curr → endCode lens (root + j) < (readBits low root + 1) * 2 ^ j

/-- The invariant of the main loop, before the code number `r` of its length is entered. -/
structure Inv (type : CodeType) (lens : List Nat) (root max : Nat) (s : St) (r : Nat) : Prop where
  pos : Pos lens max s.len r s.huff s.sym
  cntNow : s.cnt s.len = blCount lens s.len - r
  cntLater : ∀ j, s.len < j → s.cnt j = blCount lens j
  phase : Phase lens root max s.table s.len s.next s.curr s.drop s.low s.huff
  found : ∀ l' r' h, l' ≠ 0 → r' < blCount lens l' → Before l' r' s.len r →
    readBits h l' = firstCode lens l' + r' →
    Found type root s.table s.low s.curr s.next (sorted lens (offsets (counts lens) l' + r')) l' h
  bound : ∀ x, s.table x ≠ none → x < s.next + 2 ^ s.curr
  used : s.used = s.next + 2 ^ s.curr
  room : s.drop = root → Room lens root s.len r s.used s.sym s.curr s.low
  total : s.drop = root → endCode lens max = 2 ^ max →
    s.used + 2 ≤ 2 ^ root + 2 ^ (max - root) + offsets (counts lens) (max + 1)

/-- What the main loop ends with. -/
structure Final (type : CodeType) (lens : List Nat) (root max : Nat) (s : St) : Prop where
  len : s.len = max
  huff : ∃ h0, h0 < 2 ^ max ∧ s.huff = backInc h0 max ∧ readBits h0 max + 1 = endCode lens max
  phase : (s.drop = 0 ∧ max ≤ root ∧ s.next = 0 ∧ s.curr = root) ∨ (s.drop = root ∧ root < max)
  found : ∀ l' r' h, l' ≠ 0 → r' < blCount lens l' → readBits h l' = firstCode lens l' + r' →
    Found type root s.table s.low s.curr s.next (sorted lens (offsets (counts lens) l' + r')) l' h
  bound : ∀ x, s.table x ≠ none → x < s.next + 2 ^ s.curr
  used : s.used = s.next + 2 ^ s.curr
  total : s.drop = root → endCode lens max = 2 ^ max →
    s.used + 2 ≤ 2 ^ root + 2 ^ (max - root) + offsets (counts lens) (max + 1)

theorem phase_fits {lens : List Nat} {root max : Nat} {t : Table} {len next curr drop low huff : Nat}
    (ph : Phase lens root max t len next curr drop low huff) : drop ≤ len ∧ len - drop ≤ curr := by
  rcases ph with ⟨a, b, _, c, _⟩ | ⟨a, b, c, _⟩ <;> omega

theorem step_fill {type : CodeType} {lens : List Nat} {root max : Nat} {s : St} {r : Nat}
    (i : Inv type lens root max s r) :
    fillLoop (2 ^ s.curr) (s.next + s.huff / 2 ^ s.drop) (2 ^ (s.len - s.drop)) (2 ^ s.curr)
      (symEntry type (sorted lens s.sym) (s.len - s.drop)) s.table =
    some (entered type s.table s.next s.curr s.drop s.len s.huff (sorted lens s.sym)) := by
  obtain ⟨h1, h2⟩ := phase_fits i.phase
  refine fill_table h2 s.table s.next _ ?_ _
  rw [Nat.div_lt_iff_lt_mul (Nat.pow_pos (by decide)), ← Nat.pow_add,
    show s.len - s.drop + s.drop = s.len by omega]
  exact i.pos.small

theorem entered_bound {type : CodeType} {t : Table} {next curr drop len huff sym : Nat}
    (h : ∀ x, t x ≠ none → x < next + 2 ^ curr) :
    ∀ x, entered type t next curr drop len huff sym x ≠ none → x < next + 2 ^ curr := by
  intro x hx
  unfold entered at hx
  split at hx
  · rename_i hc
    obtain ⟨i, a, _, b⟩ := hc
    omega
  · exact h x hx

theorem entered_low {type : CodeType} {t : Table} {next curr drop len huff sym x : Nat} (h : x < next) :
    entered type t next curr drop len huff sym x = t x := by
  unfold entered
  rw [if_neg]
  rintro ⟨i, _, _, i3⟩
  omega

theorem pow_split {a b : Nat} (h : a ≤ b) : 2 ^ b = 2 ^ a * 2 ^ (b - a) := by
  rw [← Nat.pow_add]; congr 1; omega

/-- The first bits of a code. -/
theorem readBits_root {root len huff c : Nat} (h : root ≤ len) (hr : readBits huff len = c) :
    readBits huff root = c / 2 ^ (len - root) := by
  have := readBits_div huff root (len - root)
  rw [show root + (len - root) = len by omega, hr] at this
  exact this.symm

theorem low_q (huff root : Nat) : readBits (huff % 2 ^ root) root = readBits huff root :=
  readBits_mod huff (Nat.le_refl _)

/-- A new table begins with the first code that has its first bits. -/
theorem aligned {root len len' c c' q q' : Nat} (h1 : root < len) (h2 : len ≤ len')
    (hc : c' = (c + 1) * 2 ^ (len' - len)) (hq : q = c / 2 ^ (len - root)) (hq' : q' = c' / 2 ^ (len' - root))
    (hne : q' ≠ q) : q' = q + 1 ∧ c + 1 = (q + 1) * 2 ^ (len - root) ∧ c' = q' * 2 ^ (len' - root) := by
  have hp : 0 < 2 ^ (len - root) := Nat.pow_pos (by decide)
  have he : 2 ^ (len' - root) = 2 ^ (len - root) * 2 ^ (len' - len) := by
    rw [← Nat.pow_add]; congr 1; omega
  have hq2 : q' = (c + 1) / 2 ^ (len - root) := by
    rw [hq', hc, he, Nat.mul_div_mul_right _ _ (Nat.pow_pos (by decide))]
  have hlt : c < (q + 1) * 2 ^ (len - root) := by
    have := Nat.lt_mul_div_succ c hp
    rw [← hq, Nat.mul_comm] at this
    exact this
  have hle : q ≤ q' := by rw [hq2, hq]; exact Nat.div_le_div_right (by omega)
  have hge : (q + 1) * 2 ^ (len - root) ≤ c + 1 := by
    have : q + 1 ≤ (c + 1) / 2 ^ (len - root) := by omega
    exact (Nat.le_div_iff_mul_le hp).1 this
  have heq : c + 1 = (q + 1) * 2 ^ (len - root) := by omega
  have hq3 : q' = q + 1 := by rw [hq2, heq, Nat.mul_div_cancel _ hp]
  refine ⟨hq3, heq, ?_⟩
  rw [hc, heq, he, hq3, Nat.mul_assoc]

theorem aligned0 {root len len' c c' q' : Nat} (h1 : len ≤ root) (h2 : root < len')
    (hc : c' = (c + 1) * 2 ^ (len' - len)) (hq' : q' = c' / 2 ^ (len' - root)) :
    c' = q' * 2 ^ (len' - root) := by
  have he : 2 ^ (len' - len) = 2 ^ (root - len) * 2 ^ (len' - root) := by
    rw [← Nat.pow_add]; congr 1; omega
  rw [hc, he, ← Nat.mul_assoc] at hq'
  rw [Nat.mul_div_cancel _ (Nat.pow_pos (by decide))] at hq'
  rw [hc, he, ← Nat.mul_assoc, hq']

theorem room_done {a b x q c : Nat} (hab : a ≤ b) (h1 : c ≤ q * 2 ^ b + x * 2 ^ (b - a))
    (h2 : c + 1 = (q + 1) * 2 ^ b) : 2 ^ a ≤ x + 1 := by
  have hp : 0 < 2 ^ (b - a) := Nat.pow_pos (by decide)
  have h3 : 2 ^ b ≤ (x + 1) * 2 ^ (b - a) := by
    rw [Nat.add_mul, Nat.one_mul] at h2 ⊢
    omega
  rw [pow_split hab] at h3
  exact Nat.le_of_mul_le_mul_right h3 hp

theorem room_more {root a len len' x q c : Nat} (hab : root + a ≤ len) (h : len ≤ len')
    (h1 : c ≤ q * 2 ^ (len - root) + x * 2 ^ (len - root - a)) :
    (c + 1) * 2 ^ (len' - len) ≤ q * 2 ^ (len' - root) + (x + 1) * 2 ^ (len' - root - a) := by
  have e1 : 2 ^ (len' - root) = 2 ^ (len - root) * 2 ^ (len' - len) := by
    rw [← Nat.pow_add]; congr 1; omega
  have e2 : 2 ^ (len' - root - a) = 2 ^ (len - root - a) * 2 ^ (len' - len) := by
    rw [← Nat.pow_add]; congr 1; omega
  have hp : 0 < 2 ^ (len - root - a) := Nat.pow_pos (by decide)
  rw [e1, e2, ← Nat.mul_assoc, ← Nat.mul_assoc, ← Nat.add_mul]
  refine Nat.mul_le_mul_right _ ?_
  rw [Nat.add_mul x, Nat.one_mul]
  omega

theorem fits_next {lens : List Nat} {root max len' r' curr q : Nat} (g : Good lens root max)
    (h0 : root < len') (hm : len' ≤ max) (hr : r' < blCount lens len')
    (hq : (firstCode lens len' + r') / 2 ^ (len' - root) = q)
    (h : root + curr = max ∨ (q + 1) * 2 ^ curr ≤ endCode lens (root + curr)) : len' ≤ root + curr := by
  rcases h with h | h
  · omega
  · by_contra hc
    obtain ⟨d, hd⟩ : ∃ d, len' = root + curr + 1 + d := ⟨len' - (root + curr + 1), by omega⟩
    have h1 := firstCode_le lens (root + curr) d
    rw [← hd] at h1
    have h2 : (q + 1) * 2 ^ (len' - root) ≤ firstCode lens len' := by
      refine Nat.le_trans ?_ h1
      have e : 2 ^ (len' - root) = 2 ^ curr * 2 ^ (d + 1) := by
        rw [← Nat.pow_add]; congr 1; omega
      rw [e, ← Nat.mul_assoc]
      exact Nat.mul_le_mul_right _ h
    have h3 : q + 1 ≤ (firstCode lens len' + r') / 2 ^ (len' - root) :=
      (Nat.le_div_iff_mul_le (Nat.pow_pos (by decide))).2 (by omega)
    omega

theorem pow_lt_32 {root max : Nat} (h : root ≤ max) (h15 : max ≤ 15) : 2 ^ root < 2 ^ 32 - 1 := by
  have : 2 ^ root ≤ 2 ^ 15 := Nat.pow_le_pow_right (by decide) (by omega)
  have e1 : (2 : Nat) ^ 15 = 32768 := by decide
  have e2 : (2 : Nat) ^ 32 - 1 = 4294967295 := by decide
  omega

/-- The state after a code has been entered, when no new table is needed. -/
theorem inv_same {type : CodeType} {lens : List Nat} {root max : Nat} {s : St} {r len' r' : Nat}
    (g : Good lens root max) (i : Inv type lens root max s r)
    (p' : Pos lens max len' r' (backInc s.huff s.len) (s.sym + 1)) (hle : s.len ≤ len')
    (hc : firstCode lens len' + r' = (firstCode lens s.len + r + 1) * 2 ^ (len' - s.len))
    (hbef : ∀ l'' r'', r'' < blCount lens l'' → Before l'' r'' len' r' →
        Before l'' r'' s.len r ∨ (l'' = s.len ∧ r'' = r))
    (hsame : len' = s.len → r' = r + 1 ∧ r + 1 ≠ blCount lens s.len)
    (hdiff : len' ≠ s.len → r' = 0 ∧ r + 1 = blCount lens s.len)
    (hno : ¬ (root < len' ∧ backInc s.huff s.len % 2 ^ root ≠ s.low)) :
    Inv type lens root max ⟨backInc s.huff s.len, s.sym + 1, len', s.next, s.curr, s.drop, s.low, s.used,
      upd s.cnt s.len (s.cnt s.len - 1),
      entered type s.table s.next s.curr s.drop s.len s.huff (sorted lens s.sym)⟩ r' := by
  have hroot0 := g.root0
  have hph : Phase lens root max (entered type s.table s.next s.curr s.drop s.len s.huff (sorted lens s.sym))
      len' s.next s.curr s.drop s.low (backInc s.huff s.len) := by
    rcases i.phase with ⟨a, b, c, d, e⟩ | ⟨a, b, c, d, e, f, k, l⟩
    · by_cases hl : len' ≤ root
      · exact Or.inl ⟨a, hl, c, d, e⟩
      · exfalso
        apply hno
        refine ⟨by omega, ?_⟩
        have h1 := Nat.mod_lt (backInc s.huff s.len) (Nat.pow_pos (n := root) (by decide : 0 < 2))
        have h2 := pow_lt_32 g.rootmax g.max15
        rw [e]
        omega
    · have hl : root < len' := by omega
      have hlow : backInc s.huff s.len % 2 ^ root = s.low := by
        by_contra hx; exact hno ⟨hl, hx⟩
      have hq := readBits_root (root := root) (by omega) p'.read
      rw [← low_q, hlow] at hq
      have hll : s.low < s.next := by
        have := Nat.mod_lt (backInc s.huff s.len) (Nat.pow_pos (n := root) (by decide : 0 < 2))
        omega
      exact Or.inr ⟨a, hl, fits_next g hl p'.lenmax p'.rank hq.symm l, d, e, hlow,
        by rw [entered_low hll, k], l⟩
  refine ⟨p', ?_, ?_, hph, ?_, entered_bound i.bound, i.used, ?_, i.total⟩
  · have h1 := i.cntNow
    by_cases hl : len' = s.len
    · obtain ⟨e1, _⟩ := hsame hl
      simp only [upd, hl, if_true, h1, e1]
      omega
    · obtain ⟨e1, _⟩ := hdiff hl
      simp only [upd, hl, if_false, e1]
      rw [i.cntLater len' (by omega)]
      rfl
  · intro j hj
    have : j ≠ s.len := by simp at hj; omega
    simp only [upd, this, if_false]
    exact i.cntLater j (by simp at hj; omega)
  · intro l'' r'' h h0 hr hb hh
    exact found_entered g i.pos i.phase i.found l'' r'' h h0 hr (hbef l'' r'' hr hb) hh
  · intro hd
    obtain ⟨a, x, h1, h2, h3, h4, h5, h6, h7⟩ := i.room hd
    refine ⟨a, x + 1, h1, by simp; omega, h3, by simp; omega, ?_, ?_, h7⟩
    · show s.used + 2 + (x + 1) ≤ 2 ^ root + 2 ^ s.curr + (s.sym + 1) + 2 ^ a
      omega
    · show firstCode lens len' + r' ≤ _
      rw [hc]
      exact room_more h2 hle h6

/-- The state after a code has been entered, when a new table begins. -/
theorem inv_new {type : CodeType} {lens : List Nat} {root max : Nat} {s : St} {r len' r' : Nat}
    (g : Good lens root max) (i : Inv type lens root max s r)
    (p' : Pos lens max len' r' (backInc s.huff s.len) (s.sym + 1)) (hle : s.len ≤ len')
    (hc : firstCode lens len' + r' = (firstCode lens s.len + r + 1) * 2 ^ (len' - s.len))
    (hbef : ∀ l'' r'', r'' < blCount lens l'' → Before l'' r'' len' r' →
        Before l'' r'' s.len r ∨ (l'' = s.len ∧ r'' = r))
    (hsame : len' = s.len → r' = r + 1 ∧ r + 1 ≠ blCount lens s.len)
    (hdiff : len' ≠ s.len → r' = 0 ∧ r + 1 = blCount lens s.len)
    (hl : root < len') (hlow : backInc s.huff s.len % 2 ^ root ≠ s.low) {curr : Nat}
    (hcurr : curr = lookAhead (upd s.cnt s.len (s.cnt s.len - 1)) root max max (len' - root)
      (2 ^ (len' - root))) :
    Inv type lens root max ⟨backInc s.huff s.len, s.sym + 1, len', s.next + 2 ^ s.curr, curr, root,
      backInc s.huff s.len % 2 ^ root, s.used + 2 ^ curr, upd s.cnt s.len (s.cnt s.len - 1),
      upd (entered type s.table s.next s.curr s.drop s.len s.huff (sorted lens s.sym))
        (backInc s.huff s.len % 2 ^ root) (some ⟨curr, root, s.next + 2 ^ s.curr⟩)⟩ r' := by
  have hroot0 := g.root0
  have hlm := p'.lenmax
  have hpc : 0 < 2 ^ s.curr := Nat.pow_pos (by decide)
  have hlowlt := Nat.mod_lt (backInc s.huff s.len) (Nat.pow_pos (n := root) (by decide : 0 < 2))
  have hq' := readBits_root (root := root) (by omega) p'.read
  have hlq := low_q (backInc s.huff s.len) root
  have hqlt := readBits_lt (backInc s.huff s.len) root
  have hread := p'.read
  have hrank := p'.rank
  have hplace := p'.place
  generalize hlowe : backInc s.huff s.len % 2 ^ root = low' at *
  generalize hqe : readBits (backInc s.huff s.len) root = q' at *
  -- counts
  have hcn : upd s.cnt s.len (s.cnt s.len - 1) len' = blCount lens len' - r' := by
    have h1 := i.cntNow
    by_cases hl : len' = s.len
    · obtain ⟨e1, _⟩ := hsame hl
      simp only [upd, hl, if_true, h1, e1]
      omega
    · obtain ⟨e1, _⟩ := hdiff hl
      simp only [upd, hl, if_false, e1]
      rw [i.cntLater len' (by omega)]
      rfl
  have hcl : ∀ j, len' < j → upd s.cnt s.len (s.cnt s.len - 1) j = blCount lens j := by
    intro j hj
    have : j ≠ s.len := by omega
    simp only [upd, this, if_false]
    exact i.cntLater j (by omega)
  -- the beginning of the new table
  have hal : firstCode lens len' + r' = q' * 2 ^ (len' - root) ∧
      (s.drop = root → q' = readBits s.low root + 1 ∧
        firstCode lens s.len + r + 1 = (readBits s.low root + 1) * 2 ^ (s.len - root)) := by
    rcases i.phase with ⟨a, b, c, d, e⟩ | ⟨a, b, c, d, e, f, k, l⟩
    · exact ⟨aligned0 b hl hc hq', fun h => by omega⟩
    · have hq := readBits_root (root := root) (by omega) i.pos.read
      rw [← low_q, f] at hq
      have hne : q' ≠ readBits s.low root := by
        intro e
        rw [← hlq] at e
        have := readBits_inj e
        rw [Nat.mod_eq_of_lt hlowlt, ← f, Nat.mod_mod, f] at this
        exact hlow this
      obtain ⟨x, y, z⟩ := aligned b hle hc hq hq' hne
      exact ⟨z, fun _ => ⟨x, y⟩⟩
  obtain ⟨hal1, hal2⟩ := hal
  -- look-ahead
  obtain ⟨k1, k2, k3, k4⟩ := lookAhead_spec lens (upd s.cnt s.len (s.cnt s.len - 1)) root max q' max
    (len' - root) (2 ^ (len' - root)) (by omega) (by omega) (by omega)
    (fun j hj => hcl j (by omega)) (by
      rw [show root + (len' - root) = len' by omega, hcn]
      have : endCode lens len' = q' * 2 ^ (len' - root) + (blCount lens len' - r') := by
        rw [← hal1, endCode]; omega
      rw [this, Nat.add_mul, Nat.one_mul]
      push_cast
      ring)
  rw [← hcurr] at k1 k2 k3 k4
  have hnext : 2 ^ root ≤ s.next + 2 ^ s.curr := by
    rcases i.phase with ⟨a, b, c, d, e⟩ | ⟨a, b, c, d, e, f, k, l⟩
    · rw [d]; omega
    · omega
  have hpc2 : 0 < 2 ^ curr := Nat.pow_pos (by decide)
  have hroom1 : s.used + 2 ^ curr + 2 + 0 ≤ 2 ^ root + 2 ^ curr + (s.sym + 1) + 2 ^ (len' - root) := by
    have h2 : 2 ^ 1 ≤ 2 ^ (len' - root) := Nat.pow_le_pow_right (by decide) (by omega)
    rcases i.phase with ⟨a, b, c, d, e⟩ | ⟨a, b, c, d, e, f, k, l⟩
    · have := i.used
      rw [c, d] at this
      omega
    · obtain ⟨al, x, h1, h2, h3, h4, h5, h6, h7⟩ := i.room a
      obtain ⟨y1, y2⟩ := hal2 a
      have hx := room_done (a := al) (b := s.len - root) (by omega) h6 y2
      have hcur : s.curr ≤ len' - root := by
        by_contra hcon
        have h8 := h7 (len' - root) (by omega) (by omega)
        rw [show root + (len' - root) = len' by omega, ← y1, ← hal1] at h8
        unfold endCode at h8
        omega
      have := Nat.pow_le_pow_right (n := 2) (by decide) hcur
      omega
  have hroom : Room lens root len' r' (s.used + 2 ^ curr) (s.sym + 1) curr low' := by
    refine ⟨len' - root, 0, by omega, by omega, k1, by omega, hroom1, ?_, fun j a b => ?_⟩
    · rw [hlq, hal1]; omega
    · rw [hlq]; exact k4 j a b
  refine ⟨p', hcn, hcl, Or.inr ⟨rfl, hl, by simp; omega, k2, hnext, hlowe, by simp [upd], ?_⟩, ?_, ?_, ?_,
    fun _ => hroom, ?_⟩
  · rw [hlq]; exact k3
  · intro l'' r'' h h0 hr hb hh
    have hF := found_entered g i.pos i.phase i.found l'' r'' h h0 hr (hbef l'' r'' hr hb) hh
    rcases hF with ⟨f1, f2⟩ | ⟨f1, k, v, x1, x2, x3, x4, x5, x6⟩
    · refine Or.inl ⟨f1, ?_⟩
      have hne : h % 2 ^ root ≠ low' := by
        intro e
        have e1 : readBits (backInc s.huff s.len) l'' = readBits h l'' := by
          rw [← readBits_mod (backInc s.huff s.len) f1, hlowe, ← e, readBits_mod h f1]
        have := not_begin lens hb hr (e1.trans hh)
        simp only at this
        omega
      simp only [upd, hne, if_false]
      exact f2
    · have hB : s.drop = root := by
        rcases i.phase with ⟨a, b, c, d, e⟩ | ⟨a, _⟩
        · exfalso
          rcases hbef l'' r'' hr hb with (h | h) | h <;> omega
        · exact a
      have hqq := (hal2 hB).1
      have hne : h % 2 ^ root ≠ low' ∧ readBits h root < readBits low' root := by
        rw [hlq]
        rcases x6 with ⟨y1, y2, y3⟩ | ⟨y1, y2⟩
        · refine ⟨fun e => hlow (by rw [← e, y1]), ?_⟩
          rw [← low_q h, y1]
          omega
        · refine ⟨fun e => ?_, by omega⟩
          have : readBits h root = q' := by rw [← low_q h, e, hlq]
          omega
      have hne2 : v + h / 2 ^ root % 2 ^ k ≠ low' := by omega
      refine Or.inr ⟨f1, k, v, ?_, x2, x3, x4, ?_, Or.inr ⟨hne.2, ?_⟩⟩
      · simp only [upd, hne.1, if_false]; exact x1
      · simp only [upd, hne2, if_false]; exact x5
      · show v + 2 ^ k ≤ s.next + 2 ^ s.curr
        rcases x6 with ⟨y1, y2, y3⟩ | ⟨y1, y2⟩
        · rw [y2, y3]
        · omega
  · intro x hx
    show x < s.next + 2 ^ s.curr + 2 ^ curr
    simp only [upd] at hx
    split at hx
    · omega
    · have := entered_bound i.bound x hx
      omega
  · show s.used + 2 ^ curr = _
    rw [i.used]
  · intro _ hfull
    show s.used + 2 ^ curr + 2 ≤ _
    have hro := offsets_room lens hfull g.fits (max - len') len' p'.len0 (by omega)
    have hpw : (q' + 1) * 2 ^ (len' - root) ≤ 2 ^ len' := by
      rw [pow_split (a := root) (b := len') (by omega)]
      exact Nat.mul_le_mul_right _ hqlt
    rw [Nat.add_mul, Nat.one_mul] at hpw
    have hmx := Nat.pow_le_pow_right (n := 2) (by decide) (show curr ≤ max - root by omega)
    omega

/-- What a round of the main loop leads to. -/
def StepGood (type : CodeType) (lens : List Nat) (root max : Nat) (s : St) : Step → Prop
  | .wild => False
  | .space => type = .lens ∧ root < max ∧ (endCode lens max = 2 ^ max →
      enough + 2 ≤ 2 ^ root + 2 ^ (max - root) + offsets (counts lens) (max + 1))
  | .done s' => Final type lens root max s'
  | .more s' => s'.sym = s.sym + 1 ∧ ∃ r', Inv type lens root max s' r'

theorem step_good {type : CodeType} {lens : List Nat} {root max : Nat} {s : St} {r : Nat}
    (g : Good lens root max) (i : Inv type lens root max s r) :
    StepGood type lens root max s (mainStep type lens (sorted lens) root max s) := by
  have hroot0 := g.root0
  have hcnt : upd s.cnt s.len (s.cnt s.len - 1) s.len = 0 ↔ r + 1 = blCount lens s.len := by
    have := i.pos.rank
    simp only [upd, if_true, i.cntNow]
    omega
  have hE : endCode lens s.len = firstCode lens s.len + blCount lens s.len := rfl
  unfold mainStep
  simp only [step_fill i, hcnt]
  by_cases hd : r + 1 = blCount lens s.len ∧ s.len = max
  · rw [if_pos hd]
    obtain ⟨hd1, hd2⟩ := hd
    have hread := i.pos.read
    refine ⟨hd2, ⟨s.huff, by rw [← hd2]; exact i.pos.small, by rw [← hd2], by rw [← hd2]; omega⟩, ?_, ?_,
      entered_bound i.bound, i.used, i.total⟩
    · rcases i.phase with ⟨a, b, c, d, e⟩ | ⟨a, b, _⟩
      · exact Or.inl ⟨a, by omega, c, d⟩
      · exact Or.inr ⟨a, by omega⟩
    · intro l' r' h h0 hr hh
      refine found_entered g i.pos i.phase i.found l' r' h h0 hr ?_ hh
      by_cases hl : l' < s.len
      · exact Or.inl (Or.inl hl)
      · by_cases hl2 : l' = s.len
        · subst hl2
          by_cases hrr : r' = r
          · exact Or.inr ⟨rfl, hrr⟩
          · exact Or.inl (Or.inr ⟨rfl, by omega⟩)
        · rw [g.above l' (by omega)] at hr; omega
  · rw [if_neg hd]
    obtain ⟨len', r', e1, p', hle, hc, hbef, hsame, hdiff⟩ := i.pos.next g hd
    rw [← e1]
    by_cases hnew : root < len' ∧ backInc s.huff s.len % 2 ^ root ≠ s.low
    · rw [if_pos hnew]
      have hdrop : (if s.drop = 0 then root else s.drop) = root := by
        rcases i.phase with ⟨a, _⟩ | ⟨a, _⟩
        · rw [if_pos a]
        · rw [if_neg (by omega), a]
      simp only [hdrop]
      have I := inv_new g i p' hle hc hbef hsame hdiff hnew.1 hnew.2 rfl
      by_cases hsp : type = .lens ∧ enough ≤ s.used +
          2 ^ lookAhead (upd s.cnt s.len (s.cnt s.len - 1)) root max max (len' - root) (2 ^ (len' - root))
      · rw [if_pos hsp]
        refine ⟨hsp.1, Nat.lt_of_lt_of_le hnew.1 p'.lenmax, fun hf => ?_⟩
        have := I.total rfl hf
        simp only at this
        omega
      · rw [if_neg hsp]
        exact ⟨rfl, r', I⟩
    · rw [if_neg hnew]
      exact ⟨rfl, r', inv_same g i p' hle hc hbef hsame hdiff hnew⟩

theorem offsets_total (lens : List Nat) {root max : Nat} (g : Good lens root max) {s : St} {r : Nat}
    {type : CodeType} (i : Inv type lens root max s r) : s.sym < offsets (counts lens) (max + 1) := by
  have := offsets_le (counts lens) i.pos.len0 (l' := max + 1) (by have := i.pos.lenmax; omega)
  rw [counts_pos lens i.pos.len0] at this
  have h1 := i.pos.rank
  have h2 := i.pos.place
  omega

theorem loop_good {type : CodeType} {lens : List Nat} {root max : Nat} (g : Good lens root max) :
    ∀ fuel (s : St) (r : Nat), Inv type lens root max s r →
      offsets (counts lens) (max + 1) ≤ s.sym + fuel →
      match mainLoop type lens (sorted lens) root max fuel s with
      | .wild => False
      | .more _ => False
      | .space => type = .lens ∧ root < max ∧ (endCode lens max = 2 ^ max →
          enough + 2 ≤ 2 ^ root + 2 ^ (max - root) + offsets (counts lens) (max + 1))
      | .done s' => Final type lens root max s'
  | 0, s, r, i, hf => by
    have := offsets_total lens g i
    omega
  | fuel + 1, s, r, i, hf => by
    have hs := step_good g i
    unfold mainLoop
    generalize mainStep type lens (sorted lens) root max s = st at hs
    cases st with
    | wild => exact hs
    | space => exact hs
    | done s' => exact hs
    | more s' =>
      obtain ⟨h1, r', i'⟩ := hs
      exact loop_good g fuel s' r' i' (by omega)

/-- The state before the main loop. -/
theorem inv_init {type : CodeType} {lens : List Nat} {root max min : Nat} (g : Good lens root max)
    (h0 : min ≠ 0) (hm : min ≤ root) (hb : blCount lens min ≠ 0) (hbelow : ∀ j, j < min → blCount lens j = 0) :
    Inv type lens root max
      ⟨0, 0, min, 0, root, 0, 2 ^ 32 - 1, 2 ^ root, counts lens, fun _ => none⟩ 0 := by
  have hF : ∀ j, j ≤ min → firstCode lens j = 0 := by
    intro j
    induction j with
    | zero => intro _; rfl
    | succ j ih => intro hj; rw [firstCode, ih (by omega), hbelow j (by omega)]
  have hO : ∀ j, j ≤ min → offsets (counts lens) j = 0 := by
    intro j
    induction j with
    | zero => intro _; rfl
    | succ j ih =>
      intro hj
      by_cases hj0 : j = 0
      · subst hj0; rfl
      · rw [offsets_succ _ hj0, ih (by omega), counts_pos lens hj0, hbelow j (by omega)]
  have hroot0 := g.root0
  have hroot := g.rootmax
  refine ⟨⟨h0, by simp; omega, by simp; omega, ?_, Nat.pow_pos (by decide), ?_⟩, counts_pos lens h0,
    fun j hj => counts_pos lens (by simp at hj; omega), Or.inl ⟨rfl, hm, rfl, rfl, rfl⟩, ?_, ?_, ?_, ?_, ?_⟩
  · simp [hO min (Nat.le_refl _)]
  · simp [hF min (Nat.le_refl _), readBits_zero]
  · intro l' r' h hl hr hb'
    rcases hb' with hb' | hb'
    · rw [hbelow l' hb'] at hr; omega
    · omega
  · simp
  · simp
  · intro h; simp only at h; omega
  · intro h; simp only at h; omega

end Verif.Zlib
