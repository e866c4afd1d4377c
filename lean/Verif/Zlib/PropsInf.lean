import Verif.Zlib.InfStream
import Verif.Zlib.InfFixed

/-! What is proved of the decoding tables of inflate. -/

namespace Verif.Zlib

theorem inflate_invalid {type : CodeType} {lens : List Nat} (bits : Nat) (hl : ∀ l ∈ lens, l ≤ 15)
    (h0 : maxLen lens ≠ 0)
    (hc : 2 ^ 15 < kraft lens ∨ (kraft lens < 2 ^ 15 ∧ (type = .codes ∨ maxLen lens ≠ 1))) :
    inflateTable type lens bits = some .invalid := by
  have hleft := leftLoop_spec lens 15 0 (by simp [endCode, firstCode, blCount])
  have e0 : endCode lens 0 = 0 := by simp [endCode, firstCode, blCount]
  simp only [e0, Nat.pow_zero, Nat.zero_add] at hleft
  have e1 : ((1 : Nat) - (0 : Nat) : Int) = 1 := by decide
  rw [e1] at hleft
  obtain ⟨hn, hs⟩ := hleft
  unfold inflateTable
  simp only
  have hmx : findMax (counts lens) 15 = maxLen lens := rfl
  rw [hmx, if_neg h0]
  cases hlo : leftLoop (counts lens) 15 1 1 with
  | none => rfl
  | some left =>
    obtain ⟨h1, h2⟩ := hs left hlo
    rw [endCode_kraft lens hl] at h1
    have h3 := h2 15 (by omega) (by omega)
    rw [endCode_kraft lens hl] at h3
    rcases hc with hc | ⟨hc1, hc2⟩
    · omega
    · simp only
      rw [if_pos ⟨by omega, hc2⟩]

theorem inflate_empty (type : CodeType) {lens : List Nat} (bits : Nat) (hl : ∀ l ∈ lens, l ≤ 15)
    (h0 : maxLen lens = 0) : inflateTable type lens bits =
      some (.ok (upd (upd (fun _ => none) 0 (some ⟨64, 1, 0⟩)) 1 (some ⟨64, 1, 0⟩)) 1 2) := by
  unfold inflateTable
  simp only
  have hmx : findMax (counts lens) 15 = maxLen lens := rfl
  rw [hmx, if_pos h0]

theorem kraft_ones {lens : List Nat} (h : ∀ l ∈ lens, l ≤ 1) : kraft lens = lens.count 1 * 2 ^ 14 := by
  induction lens with
  | nil => rfl
  | cons a as ih =>
    rw [kraft_cons, ih fun l hl => h l (List.mem_cons_of_mem _ hl)]
    have := h a List.mem_cons_self
    by_cases ha : a = 0
    · subst ha; simp
    · obtain rfl : a = 1 := by omega
      rw [List.count_cons_self, Nat.add_mul]
      simp
      omega

theorem kraft_zero {lens : List Nat} (h : ∀ l ∈ lens, l = 0) : kraft lens = 0 := by
  induction lens with
  | nil => rfl
  | cons a as ih =>
    rw [kraft_cons, ih fun l hl => h l (List.mem_cons_of_mem _ hl), h a List.mem_cons_self]
    rfl

/-- The cases. -/
theorem cases_of (type : CodeType) {lens : List Nat} (hl : ∀ l ∈ lens, l ≤ 15) :
    (maxLen lens = 0 ∧ Usable type lens) ∨
    (maxLen lens ≠ 0 ∧ ¬ Usable type lens ∧
      (2 ^ 15 < kraft lens ∨ (kraft lens < 2 ^ 15 ∧ (type = .codes ∨ maxLen lens ≠ 1)))) ∨
    (maxLen lens ≠ 0 ∧ Usable type lens ∧ kraft lens ≤ 2 ^ 15 ∧
      (kraft lens = 2 ^ 15 ∨ (type ≠ .codes ∧ maxLen lens = 1))) := by
  by_cases h0 : maxLen lens = 0
  · exact Or.inl ⟨h0, Or.inr (Or.inl ((maxLen_zero hl).1 h0))⟩
  · have hnz : ¬ ∀ l ∈ lens, l = 0 := fun h => h0 ((maxLen_zero hl).2 h)
    rcases Nat.lt_trichotomy (kraft lens) (2 ^ 15) with hk | hk | hk
    · by_cases hc : type = .codes ∨ maxLen lens ≠ 1
      · refine Or.inr (Or.inl ⟨h0, ?_, Or.inr ⟨hk, hc⟩⟩)
        rintro (h | h | ⟨a, b, c⟩)
        · omega
        · exact hnz h
        · rcases hc with hc | hc
          · exact a hc
          · have := c _ (maxLen_mem h0)
            omega
      · have hc1 : type ≠ .codes := fun e => hc (Or.inl e)
        have hc2 : maxLen lens = 1 := by by_contra e; exact hc (Or.inr e)
        have h1 : ∀ l ∈ lens, l ≤ 1 := fun l hm => hc2 ▸ le_maxLen hl hm
        refine Or.inr (Or.inr ⟨h0, Or.inr (Or.inr ⟨hc1, ?_, h1⟩), by omega, Or.inr ⟨hc1, hc2⟩⟩)
        have h2 := kraft_ones h1
        have h3 : 0 < lens.count 1 := List.count_pos_iff.2 (hc2 ▸ maxLen_mem h0)
        have h4 : lens.count 1 = 1 := by
          have e14 : (2 : Nat) ^ 14 = 16384 := by decide
          have e15 : (2 : Nat) ^ 15 = 32768 := by decide
          rw [e14] at h2; rw [e15] at hk
          omega
        rw [h2, h4]
        decide
    · exact Or.inr (Or.inr ⟨h0, Or.inl hk, by omega, Or.inl hk⟩)
    · refine Or.inr (Or.inl ⟨h0, ?_, Or.inl hk⟩)
      rintro (h | h | ⟨_, b, _⟩)
      · omega
      · exact hnz h
      · have e14 : (2 : Nat) ^ 14 = 16384 := by decide
        have e15 : (2 : Nat) ^ 15 = 32768 := by decide
        rw [e14] at b; rw [e15] at hk
        omega

theorem made_empty (type : CodeType) {lens : List Nat} (h : ∀ l ∈ lens, l = 0) :
    Made type lens 1 (upd (upd (fun _ => none) 0 (some ⟨64, 1, 0⟩)) 1 (some ⟨64, 1, 0⟩)) := by
  refine ⟨by decide, fun hold sym hb => ?_, fun hold _ => ⟨rfl, ?_⟩⟩
  · exfalso
    obtain ⟨h1, h2, _⟩ := hb
    apply h2
    rw [List.getD_eq_getElem?_getD, List.getElem?_eq_getElem h1]
    exact h _ (List.getElem_mem h1)
  · have := Nat.mod_lt hold (by decide : 0 < 2 ^ 1)
    have : hold % 2 ^ 1 = 0 ∨ hold % 2 ^ 1 = 1 := by omega
    rcases this with e | e <;> rw [e] <;> rfl

/-- Tables that are returned have been made. -/
theorem made_all {type : CodeType} {lens : List Nat} {bits root used : Nat} {t : Table}
    (hl : ∀ l ∈ lens, l ≤ 15) (h : inflateTable type lens bits = some (.ok t root used)) :
    Made type lens root t ∧ (∀ x, t x ≠ none → x < used) ∧
      (maxLen lens = 0 ∨ root = rootBits lens bits) := by
  rcases cases_of type hl with ⟨a, _⟩ | ⟨a, _, b⟩ | ⟨a, _, b, c⟩
  · rw [inflate_empty type bits hl a] at h
    simp only [Option.some.injEq, Res.ok.injEq] at h
    obtain ⟨rfl, rfl, rfl⟩ := h
    refine ⟨made_empty type ((maxLen_zero hl).1 a), fun x hx => ?_, Or.inl a⟩
    simp only [upd] at hx
    split at hx
    · omega
    · split at hx
      · omega
      · exact absurd rfl hx
  · rw [inflate_invalid bits hl a b] at h
    simp at h
  · obtain ⟨h1, h2, h3, _⟩ := made_of hl a b c h
    exact ⟨h2, h3, Or.inr h1⟩

/-! ## C193: which lengths are accepted -/

/-- Lengths are refused exactly when they do not make a usable code. -/
theorem C193_refused (type : CodeType) {lens : List Nat} (bits : Nat) (hl : ∀ l ∈ lens, l ≤ 15) :
    inflateTable type lens bits = some .invalid ↔ ¬ Usable type lens := by
  rcases cases_of type hl with ⟨a, b⟩ | ⟨a, b, c⟩ | ⟨a, b, c, d⟩
  · rw [inflate_empty type bits hl a]
    simp [b]
  · rw [inflate_invalid bits hl a c]
    simp [b]
  · rcases inflate_ok bits hl a c d with ⟨_, e, _⟩ | ⟨s, _, e⟩
    · rw [e]; simp [b]
    · rw [e]; simp [b]

/-- Nothing is ever written at a wild place, and the loops end. -/
theorem C193_no_wild (type : CodeType) {lens : List Nat} (bits : Nat) (hl : ∀ l ∈ lens, l ≤ 15) :
    inflateTable type lens bits ≠ none := by
  rcases cases_of type hl with ⟨a, b⟩ | ⟨a, b, c⟩ | ⟨a, b, c, d⟩
  · rw [inflate_empty type bits hl a]; simp
  · rw [inflate_invalid bits hl a c]; simp
  · rcases inflate_ok bits hl a c d with ⟨_, e, _⟩ | ⟨s, _, e⟩
    · rw [e]; simp
    · rw [e]; simp

/-- Lengths of codes that are all zero are accepted although the set is incomplete, and then each
bit of the input is taken for a length zero. -/
theorem C193_empty_codes {lens : List Nat} (hz : ∀ l ∈ lens, l = 0) (bits : Nat) {b : Bits}
    (hb : b.hold < 2 ^ b.bits) (h1 : 1 ≤ b.total) :
    ∃ t used e b', inflateTable .codes lens bits = some (.ok t 1 used) ∧
      takeCode .codes t 1 b = some (e, b') ∧ interpret .codes e = .number 0 := by
  have hl : ∀ l ∈ lens, l ≤ 15 := fun l h => by rw [hz l h]; omega
  have he := inflate_empty .codes bits hl ((maxLen_zero hl).2 hz)
  have hn : ¬ ∃ sym, BeginsWith lens b.stream sym := by
    rintro ⟨sym, s1, s2, _⟩
    apply s2
    rw [List.getD_eq_getElem?_getD, List.getElem?_eq_getElem s1]
    exact hz _ (List.getElem_mem s1)
  obtain ⟨b', h2⟩ := (takeCode_other (made_empty .codes hz) hb hn).1 h1
  exact ⟨_, _, _, b', he, h2, rfl⟩

example : Usable .lens [1, 2, 2] ∧ ¬ Usable .lens [1, 2] ∧ ¬ Usable .codes [1] ∧ Usable .dists [0, 1] := by
  refine ⟨Or.inl (by decide), ?_, ?_, Or.inr (Or.inr (by decide))⟩
  · rintro (h | h | ⟨_, h, _⟩)
    · revert h; decide
    · exact absurd (h 1 (by decide)) (by decide)
    · revert h; decide
  · rintro (h | h | ⟨h, _⟩)
    · revert h; decide
    · exact absurd (h 1 (by decide)) (by decide)
    · exact h rfl

/-! ## C194: what is decoded -/

theorem interp_all : (∀ sym < 19, interpret .codes (symEntry .codes sym 0) = meaning .codes sym) ∧
    (∀ sym < 288, interpret .lens (symEntry .lens sym 0) = meaning .lens sym) ∧
    (∀ sym < 32, interpret .dists (symEntry .dists sym 0) = meaning .dists sym) := by
  decide +kernel

theorem interp_sym {type : CodeType} {sym : Nat} (h : sym < type.size) (l : Nat) :
    interpret type (symEntry type sym l) = meaning type sym := by
  have e : interpret type (symEntry type sym l) = interpret type (symEntry type sym 0) := by
    cases type with
    | codes => simp only [symEntry]; split <;> rfl
    | lens => simp only [symEntry]; split <;> (try split) <;> rfl
    | dists => rfl
  rw [e]
  cases type with
  | codes => exact interp_all.1 sym h
  | lens => exact interp_all.2.1 sym h
  | dists => exact interp_all.2.2 sym h

/-- The lengths of codes have no further tables. -/
theorem codes_root {type : CodeType} {lens : List Nat} {bits root used : Nat} {t : Table}
    (hl : ∀ l ∈ lens, l ≤ 15) (hcodes : type = .codes → ∀ l ∈ lens, l ≤ bits)
    (h : inflateTable type lens bits = some (.ok t root used)) : type = .codes → ∀ l ∈ lens, l ≤ root := by
  intro ht l hm
  obtain ⟨_, _, h0 | hr⟩ := made_all hl h
  · have := (maxLen_zero hl).1 h0 l hm
    omega
  · have h1 := le_maxLen hl hm
    by_cases h0 : maxLen lens = 0
    · omega
    · have h2 := hcodes ht _ (maxLen_mem h0)
      have h3 : maxLen lens ≤ root := by
        rw [hr]
        simp only [rootBits]
        split <;> split <;> omega
      omega

/-- The input begins with the code of a symbol: the symbol is what is decoded, and exactly its bits
are used up, however many bits there are in the buffer at first; no byte is pulled before it is
needed. -/
theorem C194_decodes {type : CodeType} {lens : List Nat} {bits root used : Nat} {t : Table}
    (hl : ∀ l ∈ lens, l ≤ 15) (hsize : lens.length ≤ type.size)
    (hcodes : type = .codes → ∀ l ∈ lens, l ≤ bits)
    (h : inflateTable type lens bits = some (.ok t root used))
    {b : Bits} (hb : b.hold < 2 ^ b.bits) {sym : Nat} (hs : BeginsWith lens b.stream sym)
    (hen : lens.getD sym 0 ≤ b.total) :
    ∃ e b', takeCode type t root b = some (e, b') ∧ interpret type e = meaning type sym ∧
      b'.stream = b.stream / 2 ^ lens.getD sym 0 ∧ b'.total + lens.getD sym 0 = b.total ∧
      b'.hold < 2 ^ b'.bits ∧ (b.bits < 8 → b'.bits < 8) := by
  obtain ⟨m, _⟩ := made_all hl h
  obtain ⟨e, b', h1, ⟨l, h2⟩, h3, h4, h5, h6⟩ :=
    (takeCode_spec m hsize (codes_root hl hcodes h) hb hs).1 hen
  exact ⟨e, b', h1, by rw [h2]; exact interp_sym (Nat.lt_of_lt_of_le hs.1 hsize) l, h3, h4, h5,
    fun h8 => h6 (by omega)⟩

/-- The input ends within the code: nothing is decoded, more is asked for. -/
theorem C194_needs_more {type : CodeType} {lens : List Nat} {bits root used : Nat} {t : Table}
    (hl : ∀ l ∈ lens, l ≤ 15) (hsize : lens.length ≤ type.size)
    (hcodes : type = .codes → ∀ l ∈ lens, l ≤ bits)
    (h : inflateTable type lens bits = some (.ok t root used))
    {b : Bits} (hb : b.hold < 2 ^ b.bits) {sym : Nat} (hs : BeginsWith lens b.stream sym)
    (hen : b.total < lens.getD sym 0) : takeCode type t root b = none := by
  obtain ⟨m, _⟩ := made_all hl h
  exact (takeCode_spec m hsize (codes_root hl hcodes h) hb hs).2 hen

/-- The input begins with no code: that is found out (except for the lengths of codes). -/
theorem C194_no_code {type : CodeType} {lens : List Nat} {bits root used : Nat} {t : Table}
    (hl : ∀ l ∈ lens, l ≤ 15) (ht : type ≠ .codes)
    (h : inflateTable type lens bits = some (.ok t root used))
    {b : Bits} (hb : b.hold < 2 ^ b.bits) (hn : ¬ ∃ sym, BeginsWith lens b.stream sym)
    (hen : 1 ≤ b.total) :
    ∃ e b', takeCode type t root b = some (e, b') ∧ interpret type e = .invalid := by
  obtain ⟨m, _⟩ := made_all hl h
  obtain ⟨b', h1⟩ := (takeCode_other m hb hn).1 hen
  refine ⟨_, b', h1, ?_⟩
  cases type with
  | codes => exact absurd rfl ht
  | lens => decide
  | dists => decide

/-- Streams begin with at most one code, and with exactly one if the code is complete. -/
theorem C194_one_code {lens : List Nat} (hold : Nat) :
    (∀ sym sym', BeginsWith lens hold sym → BeginsWith lens hold sym' → sym = sym') ∧
    ((∀ l ∈ lens, l ≤ 15) → kraft lens = 2 ^ 15 → ∃ sym, BeginsWith lens hold sym) :=
  ⟨fun _ _ => begins_unique, fun hl hk => begins_exists hl hk hold⟩

example : BeginsWith [2, 1, 3, 3] (Bits.stream ⟨0b11, 2, [0b10]⟩) 2 := by unfold BeginsWith; decide

/-- The number of index bits and the size of tables. -/
def sizes : Option Res → Nat × Nat
  | some (.ok _ root used) => (root, used)
  | _ => (0, 0)

-- further tables are needed
example : sizes (inflateTable .lens [2, 1, 3, 3] 2) = (2, 6) := by decide +kernel

/-! ## C195: the space for the tables -/

theorem rootBits_le {type : CodeType} {lens : List Nat} {bits : Nat} (hl : ∀ l ∈ lens, l ≤ 15)
    (h0 : maxLen lens ≠ 0) (hk : kraft lens ≤ 2 ^ 15)
    (hc : kraft lens = 2 ^ 15 ∨ (type ≠ .codes ∧ maxLen lens = 1)) (hb : bits ≠ 0)
    (hlen : lens.length < 2 ^ (bits + 1)) :
    (rootBits lens bits ≤ bits) ∧ (rootBits lens bits < maxLen lens → rootBits lens bits = bits) := by
  obtain ⟨a, b, c, d⟩ := minLen_spec h0
  obtain ⟨g, _⟩ := good_of hl h0 hk bits
  have hmin : minLen lens ≤ bits := by
    rcases hc with hc | ⟨_, hc⟩
    · have hro := offsets_room lens ((complete_iff hl).1 hc) g.fits (maxLen lens - minLen lens) (minLen lens) a
        (by omega)
      have hF : firstCode lens (minLen lens) = 0 := by
        have : ∀ j, j ≤ minLen lens → firstCode lens j = 0 := by
          intro j
          induction j with
          | zero => intro _; rfl
          | succ j ih => intro hj; rw [firstCode, ih (by omega), d j (by omega)]
        exact this _ (Nat.le_refl _)
      rw [hF, total_eq lens hl] at hro
      have h1 : lens.countP (fun l => decide (l ≠ 0)) ≤ lens.length := List.countP_le_length
      have h2 : 2 ^ minLen lens < 2 ^ (bits + 1) := by omega
      have := (Nat.pow_lt_pow_iff_right (by decide : 1 < 2)).1 h2
      omega
    · omega
  simp only [rootBits]
  split <;> split <;> omega

/-- How much space the tables take: what the root table needs, and for the further tables less than
the number of symbols and what the longest code needs. -/
theorem C195_bound {type : CodeType} {lens : List Nat} {bits root used : Nat} {t : Table}
    (hl : ∀ l ∈ lens, l ≤ 15) (hb : bits ≠ 0) (hlen : lens.length < 2 ^ (bits + 1))
    (h : inflateTable type lens bits = some (.ok t root used)) :
    (∀ x, t x ≠ none → x < used) ∧ used ≤ 2 ^ bits + 2 ^ (15 - bits) + lens.countP (fun l => l ≠ 0) := by
  obtain ⟨_, hin, _⟩ := made_all hl h
  refine ⟨hin, ?_⟩
  have hp : 2 ^ 1 ≤ 2 ^ bits := Nat.pow_le_pow_right (by decide) (by omega)
  have hp2 : 0 < 2 ^ (15 - bits) := Nat.pow_pos (by decide)
  rcases cases_of type hl with ⟨a, _⟩ | ⟨a, _, b⟩ | ⟨a, _, b, c⟩
  · rw [inflate_empty type bits hl a] at h
    simp only [Option.some.injEq, Res.ok.injEq] at h
    omega
  · rw [inflate_invalid bits hl a b] at h
    simp at h
  · obtain ⟨h1, _, _, h4⟩ := made_of hl a b c h
    obtain ⟨r1, r2⟩ := rootBits_le (type := type) (bits := bits) hl a b c hb hlen
    rw [← h1] at r1 r2
    have hm : maxLen lens ≤ 15 := (findMax_spec (counts lens) 15).1
    rcases h4 with h4 | ⟨h4, h5⟩
    · have := Nat.pow_le_pow_right (n := 2) (by decide) r1
      omega
    · rw [r2 h4] at h5
      have := Nat.pow_le_pow_right (n := 2) (by decide) (show maxLen lens - bits ≤ 15 - bits by omega)
      omega

/-- The check that "has not been proven": with nine bits there is always enough space for the codes of
literals and lengths. -/
theorem C195_enough {lens : List Nat} (type : CodeType) (hl : ∀ l ∈ lens, l ≤ 15) (hlen : lens.length ≤ 288) :
    inflateTable type lens 9 ≠ some .space := by
  rcases cases_of type hl with ⟨a, _⟩ | ⟨a, _, b⟩ | ⟨a, _, b, c⟩
  · rw [inflate_empty type 9 hl a]; simp
  · rw [inflate_invalid 9 hl a b]; simp
  · rcases inflate_ok 9 hl a b c with ⟨_, e, f⟩ | ⟨s, _, e⟩
    · exfalso
      obtain ⟨r1, r2⟩ := rootBits_le (type := type) (bits := 9) hl a b c (by decide)
        (by have : (2 : Nat) ^ (9 + 1) = 1024 := by decide
            omega)
      have hen : enough = 1456 := rfl
      have hm : maxLen lens ≤ 15 := (findMax_spec (counts lens) 15).1
      have h1 : lens.countP (fun l => decide (l ≠ 0)) ≤ lens.length := List.countP_le_length
      have h2 : 2 ^ rootBits lens 9 ≤ 2 ^ 9 := Nat.pow_le_pow_right (by decide) r1
      have h3 : (2 : Nat) ^ 9 = 512 := by decide
      rcases f with f | ⟨f1, f2⟩
      · omega
      · have hk : kraft lens = 2 ^ 15 := by
          rcases c with c | ⟨_, c⟩
          · exact c
          · obtain ⟨g, _⟩ := good_of hl a b 9
            have := g.root0
            omega
        have f3 := f2 hk
        have h4 : 2 ^ (maxLen lens - rootBits lens 9) ≤ 2 ^ 6 :=
          Nat.pow_le_pow_right (by decide) (by have := r2 f1; omega)
        have h5 : (2 : Nat) ^ 6 = 64 := by decide
        omega
    · rw [e]; simp

/-- The tables of a block fit into the space of 2048 entries: first those of the literals and lengths,
then those of the distances. -/
theorem C195_fit {ll dl : List Nat} {t t' : Table} {r r' used used' : Nat}
    (hl : ∀ l ∈ ll, l ≤ 15) (hd : ∀ l ∈ dl, l ≤ 15) (nl : ll.length ≤ 286) (nd : dl.length ≤ 30)
    (h : inflateTable .lens ll 9 = some (.ok t r used)) (h' : inflateTable .dists dl 6 = some (.ok t' r' used')) :
    used ≤ 862 ∧ used' ≤ 606 ∧ used + used' ≤ 2048 := by
  have e10 : (2 : Nat) ^ (9 + 1) = 1024 := by decide
  have e7 : (2 : Nat) ^ (6 + 1) = 128 := by decide
  have b1 := (C195_bound hl (by decide) (by omega) h).2
  have b2 := (C195_bound hd (by decide) (by omega) h').2
  have c1 : ll.countP (fun l => decide (l ≠ 0)) ≤ ll.length := List.countP_le_length
  have c2 : dl.countP (fun l => decide (l ≠ 0)) ≤ dl.length := List.countP_le_length
  have e1 : (2 : Nat) ^ 9 = 512 := by decide
  have e2 : (2 : Nat) ^ (15 - 9) = 64 := by decide
  have e3 : (2 : Nat) ^ 6 = 64 := by decide
  have e4 : (2 : Nat) ^ (15 - 6) = 512 := by decide
  omega

/-! ## C196: lengths and distances -/

/-- The numbers that can be written are from `lo` to `hi - 1`. -/
def copyWithin (lo hi : Nat) : Meaning → Bool
  | .copy base extra => lo ≤ base ∧ base + 2 ^ extra ≤ hi
  | _ => true

theorem firstOf_find (start : Nat) (extra : Nat → Nat) (n : Nat) (h1 : start ≤ n) : ∀ k,
    n < firstOf start extra k → ∃ i x, i < k ∧ x < 2 ^ extra i ∧ n = firstOf start extra i + x
  | 0, h => by simp only [firstOf] at h; omega
  | k + 1, h => by
    by_cases hk : n < firstOf start extra k
    · obtain ⟨i, x, a, b⟩ := firstOf_find start extra n h1 k hk
      exact ⟨i, x, by omega, b⟩
    · simp only [firstOf] at h
      exact ⟨k, n - firstOf start extra k, by omega, by omega, by omega⟩

/-- All lengths of matches from 3 to 258 can be written, and no others. -/
theorem C196_lengths (n : Nat) : (3 ≤ n ∧ n ≤ 258) ↔
    ∃ sym base extra x, sym < 288 ∧ interpret .lens (symEntry .lens sym 0) = .copy base extra ∧
      x < 2 ^ extra ∧ n = base + x := by
  constructor
  · rintro ⟨h1, h2⟩
    obtain ⟨i, x, a, b, c⟩ := firstOf_find 3 lengthExtra n h1 28
      (by have : firstOf 3 lengthExtra 28 = 259 := by decide
          omega)
    refine ⟨257 + i, _, _, x, by omega, ?_, b, c⟩
    rw [interp_all.2.1 _ (by omega)]
    have e1 : 257 + i - 257 = i := by omega
    simp only [meaning, e1]
    rw [if_neg (by omega), if_neg (by omega), if_pos (by omega)]
  · rintro ⟨sym, base, extra, x, a, b, c, rfl⟩
    rw [interp_all.2.1 _ a] at b
    have key : ∀ sym < 288, copyWithin 3 259 (meaning .lens sym) = true := by decide +kernel
    have := key sym a
    rw [b] at this
    simp only [copyWithin, decide_eq_true_eq] at this
    omega

/-- All distances from 1 to 32768 can be written, and no others. -/
theorem C196_distances (n : Nat) : (1 ≤ n ∧ n ≤ 32768) ↔
    ∃ sym base extra x, sym < 32 ∧ interpret .dists (symEntry .dists sym 0) = .copy base extra ∧
      x < 2 ^ extra ∧ n = base + x := by
  constructor
  · rintro ⟨h1, h2⟩
    obtain ⟨i, x, a, b, c⟩ := firstOf_find 1 distExtra n h1 30
      (by have : firstOf 1 distExtra 30 = 32769 := by decide +kernel
          omega)
    refine ⟨i, _, _, x, by omega, ?_, b, c⟩
    rw [interp_all.2.2 _ (by omega)]
    simp only [meaning]
    rw [if_pos a]
  · rintro ⟨sym, base, extra, x, a, b, c, rfl⟩
    rw [interp_all.2.2 _ a] at b
    have key : ∀ sym < 32, copyWithin 1 32769 (meaning .dists sym) = true := by decide +kernel
    have := key sym a
    rw [b] at this
    simp only [copyWithin, decide_eq_true_eq] at this
    omega

example : interpret .lens (symEntry .lens 284 0) = .copy 227 5 ∧
    interpret .dists (symEntry .dists 29 0) = .copy 24577 13 := by decide

/-! ## C197: the fixed tables -/

/-- The symbol of the fixed code that nine bits begin with. -/
def fixedSym (x : Nat) : Nat :=
  if readBits x 7 < 24 then 256 + readBits x 7
  else if readBits x 8 < 192 then readBits x 8 - 48
  else if readBits x 8 < 200 then 280 + (readBits x 8 - 192)
  else 144 + (readBits x 9 - 400)

theorem fixed_all : ∀ x < 512, BeginsWith fixedLens x (fixedSym x) ∧
    (lenfix.getD x ⟨0, 0, 0⟩).bits = fixedLens.getD (fixedSym x) 0 ∧
    interpret .lens (lenfix.getD x ⟨0, 0, 0⟩) = meaning .lens (fixedSym x) ∧
    isLink .lens (lenfix.getD x ⟨0, 0, 0⟩).op = false := by
  unfold BeginsWith
  decide +kernel

theorem fixedd_all : ∀ x < 32, BeginsWith fixedDists x (readBits x 5) ∧
    (distfix.getD x ⟨0, 0, 0⟩).bits = 5 ∧
    interpret .dists (distfix.getD x ⟨0, 0, 0⟩) = meaning .dists (readBits x 5) ∧
    isLink .dists (distfix.getD x ⟨0, 0, 0⟩).op = false := by
  unfold BeginsWith
  decide +kernel

theorem fixed_len (s : Nat) : fixedLens.getD s 0 ≤ 9 := by
  by_cases h : s < 288
  · have : ∀ s < 288, fixedLens.getD s 0 ≤ 9 := by decide +kernel
    exact this s h
  · rw [List.getD_eq_getElem?_getD, List.getElem?_eq_none (by
      have : fixedLens.length = 288 := by decide +kernel
      omega)]
    simp

/-- The table that is written out for the fixed codes of literals and lengths is right. -/
theorem C197_lengths {hold sym : Nat} (h : BeginsWith fixedLens hold sym) :
    ∃ e, lenfix[hold % 2 ^ 9]? = some e ∧ e.bits = fixedLens.getD sym 0 ∧
      interpret .lens e = meaning .lens sym ∧ isLink .lens e.op = false := by
  have hx : hold % 2 ^ 9 < 512 := Nat.mod_lt _ (by decide)
  have hb := begins_congr (hold' := hold % 2 ^ 9) h (fixed_len sym) (by rw [Nat.mod_mod])
  obtain ⟨f1, f2, f3, f4⟩ := fixed_all _ hx
  have := begins_unique hb f1
  rw [← this] at f2 f3
  have hlen : lenfix.length = 512 := by decide +kernel
  have he : lenfix[hold % 2 ^ 9]? = some (lenfix.getD (hold % 2 ^ 9) ⟨0, 0, 0⟩) := by
    rw [List.getD_eq_getElem?_getD, List.getElem?_eq_getElem (by omega)]
    rfl
  exact ⟨_, he, f2, f3, f4⟩

/-- The table that is written out for the fixed codes of distances is right. -/
theorem C197_distances {hold sym : Nat} (h : BeginsWith fixedDists hold sym) :
    ∃ e, distfix[hold % 2 ^ 5]? = some e ∧ e.bits = fixedDists.getD sym 0 ∧
      interpret .dists e = meaning .dists sym ∧ isLink .dists e.op = false := by
  have hx : hold % 2 ^ 5 < 32 := Nat.mod_lt _ (by decide)
  have hl : fixedDists.getD sym 0 = 5 := by
    have : ∀ s < 32, fixedDists.getD s 0 = 5 := by decide
    exact this sym h.1
  have hb := begins_congr (hold' := hold % 2 ^ 5) h (n := 5) (by omega) (by rw [Nat.mod_mod])
  obtain ⟨f1, f2, f3, f4⟩ := fixedd_all _ hx
  have := begins_unique hb f1
  rw [← this] at f3
  have hlen : distfix.length = 32 := by decide +kernel
  have he : distfix[hold % 2 ^ 5]? = some (distfix.getD (hold % 2 ^ 5) ⟨0, 0, 0⟩) := by
    rw [List.getD_eq_getElem?_getD, List.getElem?_eq_getElem (by omega)]
    rfl
  exact ⟨_, he, by rw [f2, hl], f3, f4⟩

/-- The tables that are built have other marks for the two unused symbols than those written out. -/
theorem C197_marks : (symEntry .lens 286 8).op = 201 ∧ (symEntry .lens 287 8).op = 196 ∧
    (∀ x < 512, fixedSym x = 286 ∨ fixedSym x = 287 → lenfix.getD x ⟨0, 0, 0⟩ = ⟨64, 8, 0⟩) := by
  decide +kernel

example : BeginsWith fixedLens 0b110001110 65 := by unfold BeginsWith; decide +kernel

end Verif.Zlib
