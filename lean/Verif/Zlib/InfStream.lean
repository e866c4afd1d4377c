import Verif.Zlib.InfDecode

/-! Codes taken from a buffer of bits that is filled byte by byte. -/

namespace Verif.Zlib

/-- The bits in the buffer and those that come. -/
def Bits.stream (b : Bits) : Nat := b.hold + 2 ^ b.bits * streamOf b.next

/-- How many bits there are. -/
def Bits.total (b : Bits) : Nat := b.bits + 8 * b.next.length

theorem pull_spec {b b' : Bits} (h : pullByte b = some b') (hb : b.hold < 2 ^ b.bits) :
    b'.stream = b.stream ∧ b'.total = b.total ∧ b'.hold < 2 ^ b'.bits ∧
      b'.next.length + 1 = b.next.length ∧ b.bits ≤ b'.bits := by
  obtain ⟨hold, bits, next⟩ := b
  cases next with
  | nil => simp [pullByte] at h
  | cons x xs =>
    simp only [pullByte, Option.some.injEq] at h
    subst h
    have hx : x.toNat < 256 := x.toNat_lt
    refine ⟨?_, ?_, ?_, by simp, by simp⟩
    · simp only [Bits.stream, streamOf, Nat.pow_add]
      rw [show (2 : Nat) ^ 8 = 256 by decide]
      ring
    · simp only [Bits.total, List.length_cons]; omega
    · simp only at hb ⊢
      rw [Nat.pow_add, show (2 : Nat) ^ 8 = 256 by decide]
      calc hold + x.toNat * 2 ^ bits < 2 ^ bits + x.toNat * 2 ^ bits := by omega
        _ = (x.toNat + 1) * 2 ^ bits := by ring
        _ ≤ 256 * 2 ^ bits := Nat.mul_le_mul_right _ (by omega)
        _ = 2 ^ bits * 256 := Nat.mul_comm _ _

theorem pull_none {b : Bits} (h : pullByte b = none) : b.next = [] := by
  obtain ⟨hold, bits, next⟩ := b
  cases next with
  | nil => rfl
  | cons x xs => simp [pullByte] at h

theorem hold_mod {b : Bits} (hb : b.hold < 2 ^ b.bits) {n : Nat} (hn : n ≤ b.bits) :
    b.hold % 2 ^ n = b.stream % 2 ^ n := by
  unfold Bits.stream
  rw [pow_split hn, Nat.mul_assoc, Nat.add_mul_mod_self_left]

theorem takeEntry_spec {t : Table} {index : Nat → Nat} {drop S : Nat} {E : Entry}
    (hE : t (index S) = some E)
    (hdef : ∀ h, h % 2 ^ drop = S % 2 ^ drop → ∃ e, t (index h) = some e)
    (hst : ∀ h e, h % 2 ^ drop = S % 2 ^ drop → t (index h) = some e →
      ∀ h', h' % 2 ^ (drop + e.bits) = h % 2 ^ (drop + e.bits) → t (index h') = some e) :
    ∀ fuel (b : Bits), b.stream = S → b.hold < 2 ^ b.bits → drop ≤ b.bits → b.next.length < fuel →
      (drop + E.bits ≤ b.total → ∃ b', takeEntry t index drop fuel b = some (E, b') ∧ b'.stream = S ∧
        b'.total = b.total ∧ b'.hold < 2 ^ b'.bits ∧ drop + E.bits ≤ b'.bits) ∧
      (b.total < drop + E.bits → takeEntry t index drop fuel b = none)
  | 0, b, _, _, _, hf => by omega
  | fuel + 1, b, hs, hb, hd, hf => by
    have hmod : ∀ n, n ≤ b.bits → b.hold % 2 ^ n = S % 2 ^ n := fun n hn => by rw [hold_mod hb hn, hs]
    obtain ⟨e, he⟩ := hdef b.hold (hmod drop hd)
    have htot : b.bits ≤ b.total := by unfold Bits.total; omega
    unfold takeEntry
    simp only [he]
    by_cases hle : drop + e.bits ≤ b.bits
    · rw [if_pos hle]
      have : E = e := by
        have := hst b.hold e (hmod drop hd) he S (hmod _ hle).symm
        rw [hE] at this
        exact Option.some.inj this
      subst this
      exact ⟨fun _ => ⟨b, rfl, hs, rfl, hb, hle⟩, fun h => by omega⟩
    · rw [if_neg hle]
      cases hp : pullByte b with
      | none =>
        have hn := pull_none hp
        have ht : b.total = b.bits := by unfold Bits.total; rw [hn]; simp
        refine ⟨fun h => ?_, fun _ => rfl⟩
        exfalso
        have := hst S E rfl hE b.hold (hmod _ (by omega))
        rw [he] at this
        have := Option.some.inj this
        subst this
        omega
      | some b' =>
        obtain ⟨p1, p2, p3, p4, p5⟩ := pull_spec hp hb
        simp only
        rw [← p2]
        exact takeEntry_spec hE hdef hst fuel b' (p1.trans hs) p3 (by omega) (by omega)

theorem drop_spec {b : Bits} {n : Nat} (hb : b.hold < 2 ^ b.bits) (hn : n ≤ b.bits) :
    (dropBits b n).stream = b.stream / 2 ^ n ∧ (dropBits b n).total + n = b.total ∧
      (dropBits b n).hold < 2 ^ (dropBits b n).bits := by
  obtain ⟨hold, bits, next⟩ := b
  simp only at hb hn
  refine ⟨?_, ?_, ?_⟩
  · simp only [Bits.stream, dropBits]
    rw [pow_split hn, Nat.mul_assoc, Nat.add_mul_div_left _ _ (Nat.pow_pos (by decide))]
  · simp only [Bits.total, dropBits]; omega
  · simp only [dropBits]
    rw [Nat.div_lt_iff_lt_mul (Nat.pow_pos (by decide)), Nat.mul_comm, ← pow_split hn]
    exact hb

theorem takeEntry_bits {t : Table} {index : Nat → Nat} {drop S : Nat} {E : Entry}
    (hE : t (index S) = some E)
    (hst : ∀ h e, h % 2 ^ drop = S % 2 ^ drop → t (index h) = some e →
      ∀ h', h' % 2 ^ (drop + e.bits) = h % 2 ^ (drop + e.bits) → t (index h') = some e) :
    ∀ fuel (b b' : Bits), b.stream = S → b.hold < 2 ^ b.bits →
      takeEntry t index drop fuel b = some (E, b') → b'.bits ≤ max b.bits (drop + E.bits + 7)
  | 0, b, b', _, _, h => by simp [takeEntry] at h
  | fuel + 1, b, b', hs, hb, h => by
    have hmod : ∀ n, n ≤ b.bits → b.hold % 2 ^ n = S % 2 ^ n := fun n hn => by rw [hold_mod hb hn, hs]
    unfold takeEntry at h
    cases he : t (index b.hold) with
    | none => simp [he] at h
    | some e =>
      simp only [he] at h
      by_cases hle : drop + e.bits ≤ b.bits
      · rw [if_pos hle] at h
        simp only [Option.some.injEq, Prod.mk.injEq] at h
        obtain ⟨_, rfl⟩ := h
        omega
      · rw [if_neg hle] at h
        cases hp : pullByte b with
        | none => simp [hp] at h
        | some b1 =>
          simp only [hp] at h
          obtain ⟨p1, p2, p3, p4, p5⟩ := pull_spec hp hb
          have hb8 : b1.bits = b.bits + 8 := by
            obtain ⟨hold, bits, next⟩ := b
            cases next with
            | nil => simp [pullByte] at hp
            | cons x xs => simp only [pullByte, Option.some.injEq] at hp; subst hp; rfl
          have ih := takeEntry_bits hE hst fuel b1 b' (p1.trans hs) p3 h
          by_cases hEb : drop + E.bits ≤ b.bits
          · exfalso
            have := hst S E rfl hE b.hold (hmod _ hEb)
            rw [he] at this
            have := Option.some.inj this
            subst this
            omega
          · omega

theorem ext_op (n : Nat) : lext.getD n 0 = 0 ∨ lext.getD n 0 &&& 0xf0 ≠ 0 := by
  by_cases h : n < 31
  · have : ∀ n < 31, lext.getD n 0 = 0 ∨ lext.getD n 0 &&& 0xf0 ≠ 0 := by decide
    exact this n h
  · left
    rw [List.getD_eq_getElem?_getD, List.getElem?_eq_none (by show 31 ≤ n; omega)]
    rfl

theorem symEntry_op (type : CodeType) (sym l : Nat) :
    (symEntry type sym l).op = 0 ∨ (symEntry type sym l).op &&& 0xf0 ≠ 0 := by
  cases type with
  | codes =>
    simp only [symEntry]
    split
    · left; rfl
    · right; show 96 &&& 0xf0 ≠ 0; decide
  | lens =>
    simp only [symEntry]
    split
    · left; rfl
    · split
      · have h := ext_op (sym - 257)
        generalize lext.getD (sym - 257) 0 = x at h ⊢
        exact h
      · right; show 96 &&& 0xf0 ≠ 0; decide
  | dists =>
    simp only [symEntry]
    by_cases h : sym < 32
    · have : ∀ n < 32, dext.getD n 0 = 0 ∨ dext.getD n 0 &&& 0xf0 ≠ 0 := by decide
      exact this sym h
    · left
      rw [List.getD_eq_getElem?_getD, List.getElem?_eq_none (by show 32 ≤ sym; omega)]
      rfl

theorem small_op {k : Nat} (h1 : 1 ≤ k) (h2 : k ≤ 14) : k ≠ 0 ∧ k &&& 0xf0 = 0 := by
  have : ∀ k < 15, k &&& 0xf0 = 0 := by decide
  exact ⟨by omega, this k (by omega)⟩

/-- The entries of symbols are not links. -/
theorem symEntry_noLink {type : CodeType} {sym : Nat} (hs : sym < type.size) (l : Nat) :
    isLink type (symEntry type sym l).op = false := by
  cases type with
  | codes => rfl
  | lens =>
    rcases symEntry_op .lens sym l with h | h
    · simp [isLink, h]
    · simp [isLink, h]
  | dists =>
    have : ∀ n < 32, dext.getD n 0 &&& 0xf0 ≠ 0 := by decide
    have := this sym hs
    simp only [isLink, symEntry]
    simpa using this

theorem link_isLink {type : CodeType} (ht : type ≠ .codes) {k : Nat} (h1 : 1 ≤ k) (h2 : k ≤ 14) :
    isLink type k = true := by
  obtain ⟨a, b⟩ := small_op h1 h2
  cases type with
  | codes => exact absurd rfl ht
  | lens => simp [isLink, a, b]
  | dists => simp [isLink, b]

theorem symEntry_ne_link {type : CodeType} {sym l k root v : Nat} (h1 : 1 ≤ k) (h2 : k ≤ 14) :
    symEntry type sym l ≠ ⟨k, root, v⟩ := by
  intro e
  obtain ⟨a, b⟩ := small_op h1 h2
  rcases symEntry_op type sym l with h | h <;> rw [e] at h
  · exact a h
  · exact h b

/-- Below a link. -/
theorem made_below {type : CodeType} {lens : List Nat} {root : Nat} {t : Table} (m : Made type lens root t)
    {h k v : Nat} (h1 : 1 ≤ k) (h2 : k ≤ 14) (hl : t (h % 2 ^ root) = some ⟨k, root, v⟩) :
    ∃ sym, BeginsWith lens h sym ∧ root < lens.getD sym 0 ∧
      t (v + h / 2 ^ root % 2 ^ k) = some (symEntry type sym (lens.getD sym 0 - root)) := by
  by_cases hb : ∃ sym, BeginsWith lens h sym
  · obtain ⟨sym, hb⟩ := hb
    rcases m.has h sym hb with ⟨a1, a2⟩ | ⟨a1, k', v', _, _, a2, a3⟩
    · rw [hl, Option.some.injEq] at a2
      exact absurd a2.symm (symEntry_ne_link h1 h2)
    · rw [hl, Option.some.injEq, Entry.mk.injEq] at a2
      obtain ⟨rfl, _, rfl⟩ := a2
      exact ⟨sym, hb, a1, a3⟩
  · obtain ⟨_, a2⟩ := m.other h hb
    rw [hl, Option.some.injEq, Entry.mk.injEq] at a2
    omega

theorem takeCode_spec {type : CodeType} {lens : List Nat} {root : Nat} {t : Table} (m : Made type lens root t)
    (hsize : lens.length ≤ type.size) (hcodes : type = .codes → ∀ l ∈ lens, l ≤ root)
    {b : Bits} (hb : b.hold < 2 ^ b.bits) {sym : Nat} (hs : BeginsWith lens b.stream sym) :
    (lens.getD sym 0 ≤ b.total → ∃ e b', takeCode type t root b = some (e, b') ∧
      (∃ l, e = symEntry type sym l) ∧ b'.stream = b.stream / 2 ^ lens.getD sym 0 ∧
      b'.total + lens.getD sym 0 = b.total ∧ b'.hold < 2 ^ b'.bits ∧
      (b.bits < lens.getD sym 0 + 8 → b'.bits < 8)) ∧
    (b.total < lens.getD sym 0 → takeCode type t root b = none) := by
  have hsz : sym < type.size := Nat.lt_of_lt_of_le hs.1 hsize
  have hdef : ∀ h, ∃ e, t (h % 2 ^ root) = some e := by
    intro h
    by_cases hb : ∃ sym, BeginsWith lens h sym
    · obtain ⟨s, hb⟩ := hb
      rcases m.has h s hb with ⟨_, a2⟩ | ⟨_, k, v, _, _, a2, _⟩
      · exact ⟨_, a2⟩
      · exact ⟨_, a2⟩
    · exact ⟨_, (m.other h hb).2⟩
  obtain ⟨E, hE⟩ := hdef b.stream
  have hst : ∀ h e, h % 2 ^ 0 = b.stream % 2 ^ 0 → t (h % 2 ^ root) = some e →
      ∀ h', h' % 2 ^ (0 + e.bits) = h % 2 ^ (0 + e.bits) → t (h' % 2 ^ root) = some e := by
    intro h e _ he h' hh
    rw [Nat.zero_add] at hh
    exact made_stable m he hh.symm
  have first := takeEntry_spec (t := t) (index := fun hold => hold % 2 ^ root) (drop := 0) (S := b.stream)
    hE (fun h _ => hdef h) hst (b.next.length + 1) b rfl hb (by omega) (by omega)
  have firstb := fun b' => takeEntry_bits (t := t) (index := fun hold => hold % 2 ^ root) (drop := 0)
    (S := b.stream) hE hst (b.next.length + 1) b b' rfl hb
  simp only [Nat.zero_add] at first firstb
  rcases m.has b.stream sym hs with ⟨a1, a2⟩ | ⟨a1, k, v, k1, k2, a2, a3⟩
  · rw [hE, Option.some.injEq] at a2
    have hbits : E.bits = lens.getD sym 0 := by rw [a2, symEntry_bits]
    rw [hbits] at first firstb
    constructor
    · intro hle
      obtain ⟨b', f1, f2, f3, f4, f5⟩ := first.1 hle
      obtain ⟨d1, d2, d3⟩ := drop_spec f4 f5
      refine ⟨E, dropBits b' (lens.getD sym 0), ?_, ⟨_, a2⟩, by rw [d1, f2], by omega, d3, ?_⟩
      swap
      · intro h8
        have := firstb b' f1
        simp only [dropBits]
        omega
      unfold takeCode
      simp only [f1]
      rw [a2, symEntry_noLink hsz]
      simp [symEntry_bits]
    · intro hlt
      unfold takeCode
      simp only [first.2 hlt]
  · rw [hE, Option.some.injEq] at a2
    have htype : type ≠ .codes := by
      intro e
      have : lens.getD sym 0 ∈ lens := by
        have h1 := hs.1
        rw [List.getD_eq_getElem?_getD, List.getElem?_eq_getElem h1]
        exact List.getElem_mem h1
      have := hcodes e _ this
      omega
    have hidx : ∀ h, h % 2 ^ (root + k) / 2 ^ root = h / 2 ^ root % 2 ^ k := by
      intro h; rw [Nat.pow_add, Nat.mod_mul_right_div_self]
    have hlk : ∀ h, h % 2 ^ root = b.stream % 2 ^ root → t (h % 2 ^ root) = some ⟨k, root, v⟩ := by
      intro h hh; rw [hh, hE, a2]
    have hst2 : ∀ h e, h % 2 ^ root = b.stream % 2 ^ root →
        t (v + h % 2 ^ (root + k) / 2 ^ root) = some e →
        ∀ h', h' % 2 ^ (root + e.bits) = h % 2 ^ (root + e.bits) →
          t (v + h' % 2 ^ (root + k) / 2 ^ root) = some e :=
      fun h e hh he h' hh' => by
        obtain ⟨s, c1, c2, c3⟩ := made_below m k1 k2 (hlk h hh)
        simp only [hidx] at he ⊢
        rw [he, Option.some.injEq] at c3
        have hbits : root + e.bits = lens.getD s 0 := by rw [c3, symEntry_bits]; omega
        rw [hbits] at hh'
        have hroot : h' % 2 ^ root = b.stream % 2 ^ root := by
          rw [← hh]
          have : root ≤ lens.getD s 0 := by omega
          rw [← Nat.mod_mod_of_dvd h' (Nat.pow_dvd_pow 2 this), hh',
            Nat.mod_mod_of_dvd h (Nat.pow_dvd_pow 2 this)]
        obtain ⟨s', d1, d2, d3⟩ := made_below m k1 k2 (hlk h' hroot)
        have := begins_unique d1 (begins_congr c1 (Nat.le_refl _) hh'.symm)
        subst this
        rw [d3, c3]
    have second := fun (b1 : Bits) (h1 : b1.stream = b.stream) (h2 : b1.hold < 2 ^ b1.bits)
        (h3 : root ≤ b1.bits) => takeEntry_spec (t := t)
      (index := fun hold => v + hold % 2 ^ (root + k) / 2 ^ root) (drop := root) (S := b.stream)
      (E := symEntry type sym (lens.getD sym 0 - root)) (by simp only [hidx]; exact a3)
      (fun h hh => by
        obtain ⟨s, _, _, c⟩ := made_below m k1 k2 (hlk h hh)
        exact ⟨_, by simp only [hidx]; exact c⟩)
      hst2 (b1.next.length + 1) b1 h1 h2 h3 (by omega)
    have secondb := fun (b1 b2 : Bits) (h1 : b1.stream = b.stream) (h2 : b1.hold < 2 ^ b1.bits) =>
      takeEntry_bits (t := t)
      (index := fun hold => v + hold % 2 ^ (root + k) / 2 ^ root) (drop := root) (S := b.stream)
      (E := symEntry type sym (lens.getD sym 0 - root)) (by simp only [hidx]; exact a3)
      hst2 (b1.next.length + 1) b1 b2 h1 h2
    simp only [symEntry_bits] at second secondb
    have hsum : root + (lens.getD sym 0 - root) = lens.getD sym 0 := by omega
    rw [hsum] at second secondb
    have hEb : E.bits = root := by rw [a2]
    rw [hEb] at first firstb
    have hlink : isLink type E.op = true := by rw [a2]; exact link_isLink htype k1 k2
    by_cases hr : root ≤ b.total
    · obtain ⟨b1, f1, f2, f3, f4, f5⟩ := first.1 hr
      have sec := second b1 f2 f4 f5
      rw [f3] at sec
      constructor
      · intro hle
        obtain ⟨b2, g1, g2, g3, g4, g5⟩ := sec.1 hle
        obtain ⟨d1, d2, d3⟩ := drop_spec (n := root) g4 (by omega)
        have h4 : lens.getD sym 0 - root ≤ (dropBits b2 root).bits := by
          simp only [dropBits]; omega
        obtain ⟨e1, e2, e3⟩ := drop_spec d3 h4
        refine ⟨symEntry type sym (lens.getD sym 0 - root), dropBits (dropBits b2 root) (lens.getD sym 0 - root),
          ?_, ⟨_, rfl⟩, ?_, by omega, e3, ?_⟩
        · unfold takeCode
          simp only [f1, hlink, if_true]
          rw [a2]
          simp only [g1, symEntry_bits]
        · rw [e1, d1, g2, Nat.div_div_eq_div_mul, ← Nat.pow_add, hsum]
        · intro h8
          have i1 := firstb b1 f1
          have i2 := secondb b1 b2 f2 f4 g1
          simp only [dropBits]
          omega
      · intro hlt
        unfold takeCode
        simp only [f1, hlink, if_true]
        rw [a2]
        simp only [sec.2 hlt]
    · constructor
      · intro hle; omega
      · intro hlt
        unfold takeCode
        simp only [first.2 (by omega)]

/-- Streams that begin with no code. -/
theorem takeCode_other {type : CodeType} {lens : List Nat} {root : Nat} {t : Table} (m : Made type lens root t)
    {b : Bits} (hb : b.hold < 2 ^ b.bits) (hn : ¬ ∃ sym, BeginsWith lens b.stream sym) :
    (1 ≤ b.total → ∃ b', takeCode type t root b = some (⟨64, 1, 0⟩, b')) ∧
    (b.total < 1 → takeCode type t root b = none) := by
  obtain ⟨hr, hE⟩ := m.other b.stream hn
  have hdef : ∀ h, ∃ e, t (h % 2 ^ root) = some e := by
    intro h
    by_cases hb : ∃ sym, BeginsWith lens h sym
    · obtain ⟨s, hb⟩ := hb
      rcases m.has h s hb with ⟨_, a2⟩ | ⟨_, k, v, _, _, a2, _⟩
      · exact ⟨_, a2⟩
      · exact ⟨_, a2⟩
    · exact ⟨_, (m.other h hb).2⟩
  have first := takeEntry_spec (t := t) (index := fun hold => hold % 2 ^ root) (drop := 0) (S := b.stream)
    hE (fun h _ => hdef h) (fun h e _ he h' hh => by
      rw [Nat.zero_add] at hh
      exact made_stable m he hh.symm) (b.next.length + 1) b rfl hb (by omega) (by omega)
  simp only [Nat.zero_add] at first
  have hlink : isLink type 64 = false := by cases type <;> decide
  constructor
  · intro h
    obtain ⟨b', f1, _⟩ := first.1 h
    refine ⟨dropBits b' 1, ?_⟩
    unfold takeCode
    simp only [f1, hlink]
    rfl
  · intro h
    unfold takeCode
    simp only [first.2 h]

end Verif.Zlib
