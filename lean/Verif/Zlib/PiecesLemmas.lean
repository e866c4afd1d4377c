import Verif.Zlib.PropsFast
import Verif.Zlib.Pieces

/-! Lemmas about input in pieces. -/

namespace Verif.Zlib

/-! ### What is said does not depend on what follows -/

theorem more_mod {s t z n : Nat} (h : n ≤ t) : (s + 2 ^ t * z) % 2 ^ n = s % 2 ^ n := by
  rw [pow_split h, Nat.mul_assoc, Nat.add_mul_mod_self_left]

theorem more_div {s t z n : Nat} (h : n ≤ t) :
    (s + 2 ^ t * z) / 2 ^ n = s / 2 ^ n + 2 ^ (t - n) * z := by
  rw [pow_split h, Nat.mul_assoc, Nat.add_mul_div_left _ _ (Nat.pow_pos (by decide))]

theorem number_mono {n s t v s1 t1 : Nat} (z k : Nat) (h : Number n s t (.got v s1 t1)) :
    Number n (s + 2 ^ t * z) (t + k) (.got v (s1 + 2 ^ t1 * z) (t1 + k)) := by
  cases h with
  | got h =>
    have := Number.got (n := n) (s := s + 2 ^ t * z) (t := t + k) (by omega)
    rw [more_mod h, more_div h, show t + k - n = t - n + k by omega] at this
    exact this

/-- Tables that can be used with input in pieces. -/
structure PReads (type : CodeType) (lens : List Nat) (t : Table) (root : Nat) : Prop where
  got : ∀ {b : Bits} {sym : Nat}, b.hold < 2 ^ b.bits → BeginsWith lens b.stream sym →
    lens.getD sym 0 ≤ b.total →
    ∃ e b', takeCode type t root b = some (e, b') ∧ interpret type e = meaning type sym ∧
      b'.stream = b.stream / 2 ^ lens.getD sym 0 ∧ b'.total = b.total - lens.getD sym 0 ∧
      b'.hold < 2 ^ b'.bits ∧ (b.bits < lens.getD sym 0 + 8 → b'.bits < 8)
  more : ∀ {b : Bits}, b.hold < 2 ^ b.bits → Code type lens b.stream b.total .more →
    takeCode type t root b = none
  none : ∀ {b : Bits}, b.hold < 2 ^ b.bits → (¬ ∃ sym, BeginsWith lens b.stream sym) →
    1 ≤ b.total → ∃ e b', takeCode type t root b = some (e, b') ∧ interpret type e = .invalid
  late : ∀ {s u z sym : Nat}, 1 ≤ u → BeginsWith lens (s + 2 ^ u * z) sym → u < lens.getD sym 0 →
    ∃ sym', BeginsWith lens s sym'

theorem made_pieces {type : CodeType} {lens : List Nat} {bits root used : Nat} {t : Table}
    (hl : ∀ l ∈ lens, l ≤ 15) (hsize : lens.length ≤ type.size) (ht : type ≠ .codes)
    (h : inflateTable type lens bits = some (.ok t root used)) : PReads type lens t root where
  got := by
    intro b sym hb hs hle
    obtain ⟨e, b', g1, ⟨l, g2⟩, g3, g4, g5, g6⟩ :=
      (takeCode_spec (made_all hl h).1 hsize (fun e => absurd e ht) hb hs).1 hle
    exact ⟨e, b', g1, by rw [g2]; exact interp_sym (Nat.lt_of_lt_of_le hs.1 hsize) l, g3, by omega,
      g5, g6⟩
  more := by
    intro b hb hc
    cases hc with
    | cut h1 h2 => exact C194_needs_more hl hsize (fun e => absurd e ht) h hb h1 h2
    | empty h1 h2 => exact (takeCode_other (made_all hl h).1 hb h1).2 (by omega)
  none := by
    intro b hb h1 h2
    obtain ⟨b', g⟩ := (takeCode_other (made_all hl h).1 hb h1).1 h2
    refine ⟨_, _, g, ?_⟩
    cases type with
    | codes => exact absurd rfl ht
    | lens => decide
    | dists => decide
  late := by
    intro s u z sym hu hs hlt
    by_contra hn
    have m := (made_all hl h).1
    have h1 := (m.other s hn).2
    have h2 : t ((s + 2 ^ u * z) % 2 ^ root) = some ⟨64, 1, 0⟩ :=
      made_stable m h1 (more_mod (n := 1) hu).symm
    rcases m.has _ _ hs with ⟨a1, a2⟩ | ⟨a1, k, v, k1, k2, a2, _⟩
    · rw [h2, Option.some.injEq] at a2
      have : (symEntry type sym (lens.getD sym 0)).bits = 1 := by rw [← a2]
      rw [symEntry_bits] at this
      omega
    · rw [h2, Option.some.injEq, Entry.mk.injEq] at a2
      omega

theorem flat_pieces {type : CodeType} {lens : List Nat} {t : Table} {root : Nat} (f : Nat → Entry)
    (hall : ∀ h, ∃ sym, BeginsWith lens h sym ∧ t (h % 2 ^ root) = some (f sym))
    (hf : ∀ sym < lens.length, (f sym).bits = lens.getD sym 0 ∧
      interpret type (f sym) = meaning type sym ∧ isLink type (f sym).op = false) :
    PReads type lens t root := by
  have hone : ∀ {h sym}, BeginsWith lens h sym → t (h % 2 ^ root) = some (f sym) := by
    intro h sym hb
    obtain ⟨s', h1, h2⟩ := hall h
    rw [begins_unique hb h1]
    exact h2
  have hst : ∀ (S h : Nat) (e : Entry), h % 2 ^ 0 = S % 2 ^ 0 → t (h % 2 ^ root) = some e →
      ∀ h', h' % 2 ^ (0 + e.bits) = h % 2 ^ (0 + e.bits) → t (h' % 2 ^ root) = some e := by
    intro S h e _ he h' hh
    obtain ⟨sym, h1, h2⟩ := hall h
    rw [he, Option.some.injEq] at h2
    rw [h2]
    apply hone
    rw [Nat.zero_add, h2, (hf sym h1.1).1] at hh
    exact begins_congr h1 (Nat.le_refl _) hh.symm
  have key : ∀ {b : Bits} {sym : Nat}, b.hold < 2 ^ b.bits → BeginsWith lens b.stream sym →
      (lens.getD sym 0 ≤ b.total → ∃ b', takeCode type t root b = some (f sym, b') ∧
        b'.stream = b.stream / 2 ^ lens.getD sym 0 ∧ b'.total = b.total - lens.getD sym 0 ∧
        b'.hold < 2 ^ b'.bits ∧ (b.bits < lens.getD sym 0 + 8 → b'.bits < 8)) ∧
      (b.total < lens.getD sym 0 → takeCode type t root b = none) := by
    intro b sym hb hs
    obtain ⟨q1, q2, q3⟩ := hf sym hs.1
    have hE := hone hs
    have first := takeEntry_spec (t := t) (index := fun hold => hold % 2 ^ root) (drop := 0)
      (S := b.stream) hE (fun h _ => by obtain ⟨s', _, h2⟩ := hall h; exact ⟨_, h2⟩)
      (hst b.stream) (b.next.length + 1) b rfl hb (by omega) (by omega)
    have firstb := fun b' => takeEntry_bits (t := t) (index := fun hold => hold % 2 ^ root)
      (drop := 0) (S := b.stream) hE (hst b.stream) (b.next.length + 1) b b' rfl hb
    simp only [Nat.zero_add, q1] at first firstb
    constructor
    · intro hle
      obtain ⟨b', f1, f2, f3, f4, f5⟩ := first.1 hle
      obtain ⟨d1, d2, d3⟩ := drop_spec f4 f5
      have := firstb b' f1
      refine ⟨dropBits b' (lens.getD sym 0), ?_, by rw [d1, f2], by omega, d3, ?_⟩
      · unfold takeCode
        simp only [f1, q3, q1]
        rfl
      · intro h8
        simp only [dropBits]
        omega
    · intro hlt
      unfold takeCode
      simp only [first.2 hlt]
  refine ⟨?_, ?_, ?_, ?_⟩
  · intro b sym hb hs hle
    obtain ⟨b', g1, g2⟩ := (key hb hs).1 hle
    exact ⟨_, b', g1, (hf sym hs.1).2.1, g2⟩
  · intro b hb hc
    cases hc with
    | cut h1 h2 => exact (key hb h1).2 h2
    | empty h1 h2 =>
      obtain ⟨sym, hs, _⟩ := hall b.stream
      exact absurd ⟨sym, hs⟩ h1
  · intro b hb h1 h2
    obtain ⟨sym, hs, _⟩ := hall b.stream
    exact absurd ⟨sym, hs⟩ h1
  · intro s u z sym _ _ _
    obtain ⟨sym', hs, _⟩ := hall s
    exact ⟨sym', hs⟩

theorem fixed_pieces : PReads .lens fixedLens fixedTables.lencode fixedTables.lenbits ∧
    PReads .dists fixedDists fixedTables.distcode fixedTables.distbits := by
  constructor
  · apply flat_pieces fixEntry
    · intro h
      have hx : h % 2 ^ 9 < 512 := Nat.mod_lt _ (by decide)
      refine ⟨fixedSym (h % 2 ^ 9), ?_, lenfix_at _ hx⟩
      exact begins_congr (fixed_all _ hx).1 (fixed_len _) (by rw [Nat.mod_mod])
    · intro sym hs
      have hlen : fixedLens.length = 288 := by decide +kernel
      exact fixEntry_ok sym (by omega)
  · apply flat_pieces fixDist
    · intro h
      have hx : h % 2 ^ 5 < 32 := Nat.mod_lt _ (by decide)
      refine ⟨readBits (h % 2 ^ 5) 5, ?_, distfix_at _ hx⟩
      refine begins_congr (fixedd_all _ hx).1 (n := 5) ?_ (by rw [Nat.mod_mod])
      have : ∀ s < 32, fixedDists.getD s 0 ≤ 5 := by decide
      exact this _ (fixedd_all _ hx).1.1
    · intro sym hs
      exact fixDist_ok sym hs

theorem code_mono {type : CodeType} {lens : List Nat} {tab : Table} {root : Nat}
    (hx : PReads type lens tab root) {s t : Nat} (z k : Nat) {r : Outcome Meaning}
    (h : Code type lens s t r) :
    match r with
    | .got m s1 t1 => Code type lens (s + 2 ^ t * z) (t + k) (.got m (s1 + 2 ^ t1 * z) (t1 + k))
    | .bad => Code type lens (s + 2 ^ t * z) (t + k) .bad
    | .more => True := by
  cases h with
  | @got sym h1 h2 h3 =>
    have := Code.got (type := type) (lens := lens) (s := s + 2 ^ t * z) (t := t + k) (sym := sym)
      (begins_congr h1 (Nat.le_refl _) (more_mod h2).symm) (by omega) h3
    rw [more_div h2, show t + k - lens.getD sym 0 = t - lens.getD sym 0 + k by omega] at this
    exact this
  | @invalid sym h1 h2 h3 =>
    exact .invalid (begins_congr h1 (Nat.le_refl _) (more_mod h2).symm) (by omega) h3
  | none h1 h2 =>
    refine .none ?_ (by omega)
    rintro ⟨sym, hs⟩
    by_cases hle : lens.getD sym 0 ≤ t
    · exact h1 ⟨sym, begins_congr hs (Nat.le_refl _) (more_mod hle)⟩
    · exact h1 (hx.late h2 hs (by omega))
  | cut _ _ => trivial
  | empty _ _ => trivial

theorem command_mono {ll dl : List Nat} {lt dt : Table} {lroot droot : Nat}
    (hx : PReads .lens ll lt lroot) (hy : PReads .dists dl dt droot) {s t : Nat} (z k : Nat)
    {r : Outcome (Option Cmd)} (h : Command ll dl s t r) :
    match r with
    | .got c s1 t1 => Command ll dl (s + 2 ^ t * z) (t + k) (.got c (s1 + 2 ^ t1 * z) (t1 + k))
    | .bad => Command ll dl (s + 2 ^ t * z) (t + k) .bad
    | .more => True := by
  cases h with
  | cut _ => trivial
  | cutLength _ _ => trivial
  | cutDist _ _ _ => trivial
  | cutExtra _ _ _ _ => trivial
  | wrong h => exact .wrong (code_mono hx z k h)
  | stop h => exact .stop (code_mono hx z k h)
  | lit h => exact .lit (code_mono hx z k h)
  | wrongDist h1 h2 h3 =>
    exact .wrongDist (code_mono hx z k h1) (number_mono z k h2) (code_mono hy z k h3)
  | copy h1 h2 h3 h4 =>
    exact .copy (code_mono hx z k h1) (number_mono z k h2) (code_mono hy z k h3) (number_mono z k h4)

/-! ### The fast loop -/

/-- What the loop leaves, whatever follows the input. -/
def LeavesAny (ll dl : List Nat) (b : Bits) (cs : List Cmd) : Left → Prop
  | .ended b' => b'.hold < 2 ^ b'.bits ∧ Took b.stream b.total b'.stream b'.total ∧
      ∀ z k, Commands ll dl (b.stream + 2 ^ b.total * z) (b.total + k) cs
        (.got () (b'.stream + 2 ^ b'.total * z) (b'.total + k))
  | .wrong => ∀ z k, Commands ll dl (b.stream + 2 ^ b.total * z) (b.total + k) cs .bad
  | .paused b' => b'.hold < 2 ^ b'.bits ∧ Took b.stream b.total b'.stream b'.total ∧
      b'.total < b.total ∧ ∀ z k cs2 r,
        Commands ll dl (b'.stream + 2 ^ b'.total * z) (b'.total + k) cs2 r →
        Commands ll dl (b.stream + 2 ^ b.total * z) (b.total + k) (cs ++ cs2) r

/-- The bits of the first code are used up. -/
def Uses (b : Bits) : Left → Prop
  | .ended b' => b'.total < 8 * b.next.length + 8
  | .wrong => True
  | .paused b' => b'.total < 8 * b.next.length + 8

theorem fastLoop_any {ll dl : List Nat} {x : Tables}
    (hx : FastReads .lens ll x.lencode x.lenbits) (hy : FastReads .dists dl x.distcode x.distbits)
    (px : PReads .lens ll x.lencode x.lenbits) (py : PReads .dists dl x.distcode x.distbits) :
    ∀ (fuel left : Nat) (b : Bits), b.hold < 2 ^ b.bits →
      6 ≤ b.next.length → 258 ≤ left → b.total < fuel →
      ∃ cs l, fastLoop x fuel left b = some (cs, l) ∧ LeavesAny ll dl b cs l ∧
        ((∀ sym, BeginsWith ll b.stream sym → b.bits < ll.getD sym 0 + 8) → Uses b l)
  | 0, _, _, _, _, _, hf => by omega
  | fuel + 1, left, b, hb, h6, hl, hf => by
    have h48 : 48 ≤ b.total := by unfold Bits.total; omega
    have first : ∀ {c s1 t1}, Command ll dl b.stream b.total (.got c s1 t1) →
        (∀ sym, BeginsWith ll b.stream sym → b.bits < ll.getD sym 0 + 8) →
        t1 < 8 * b.next.length + 8 := by
      intro c s1 t1 h hw
      have code : ∀ {m s1 t1}, Code .lens ll b.stream b.total (.got m s1 t1) →
          t1 < 8 * b.next.length + 8 := by
        intro m s1 t1 h
        generalize hq : Outcome.got m s1 t1 = q at h
        cases h with
        | @got sym a1 a2 _ =>
          injection hq with _ _ e
          have := hw sym a1
          rw [e]
          unfold Bits.total at *
          omega
        | invalid _ _ _ => cases hq
        | none _ _ => cases hq
        | cut _ _ => cases hq
        | empty _ _ => cases hq
      cases h with
      | stop h => exact code h
      | lit h => exact code h
      | copy h1 h2 h3 h4 =>
        have := code h1
        have := number_shorter h2
        have := code_shorter h3
        have := number_shorter h4
        omega
    obtain ⟨q, h⟩ := command_exists ll dl b.stream b.total
    have hm := fun z k => command_mono px py z k h
    have hc := fastCommand_spec hx hy hb h48 h
    cases q with
    | more => exact hc.elim
    | bad =>
      have hc : fastCommand x b = some .bad := hc
      exact ⟨[], .wrong, by simp only [fastLoop, hc], fun z k => .wrong (hm z k), fun _ => trivial⟩
    | got c s1 t1 =>
      obtain ⟨b1, g1, g2, rfl, rfl⟩ := hc
      have tk := took_command h
      have hsh := command_shorter h
      cases c with
      | none =>
        exact ⟨[], .ended b1, by simp only [fastLoop, g1], ⟨g2, tk, fun z k => .stop (hm z k)⟩,
          fun hw => first h hw⟩
      | some c =>
        have hmk := command_makes h
        by_cases hgo : 6 ≤ b1.next.length ∧ 258 ≤ left - c.makes
        · obtain ⟨cs, l, i1, i2, _⟩ :=
            fastLoop_any hx hy px py fuel (left - c.makes) b1 g2 hgo.1 hgo.2 (by omega)
          refine ⟨c :: cs, l, ?_, ?_, ?_⟩
          · simp only [fastLoop, g1]
            rw [if_neg (by omega), if_pos hgo, i1]
            rfl
          · cases l with
            | ended b' =>
              obtain ⟨j1, j2, j3⟩ := i2
              exact ⟨j1, tk.trans j2, fun z k => .next (hm z k) (j3 z k)⟩
            | wrong => exact fun z k => .next (hm z k) (i2 z k)
            | paused b' =>
              obtain ⟨j1, j2, j3, j4⟩ := i2
              exact ⟨j1, tk.trans j2, by omega, fun z k cs2 r hr => .next (hm z k) (j4 z k cs2 r hr)⟩
          · intro hw
            have := first h hw
            cases l with
            | ended b' =>
              have := i2.2.1.1
              simp only [Uses]
              omega
            | wrong => trivial
            | paused b' =>
              have := i2.2.2.1
              simp only [Uses]
              omega
        · refine ⟨[c], .paused b1, ?_, ⟨g2, tk, hsh, fun z k cs2 r hr => .next (hm z k) hr⟩,
            fun hw => first h hw⟩
          simp only [fastLoop, g1]
          rw [if_neg (by omega), if_neg hgo]

/-- The bytes that are given back, if they were read in this call. -/
theorem giveBack_any {b b' : Bits} (hb : b.hold < 2 ^ b.bits) (hb' : b'.hold < 2 ^ b'.bits)
    (ht : Took b.stream b.total b'.stream b'.total) (hu : b'.total < 8 * b.next.length + 8) :
    (giveBack b.next b').Ok ∧ (giveBack b.next b').stream = b'.stream ∧
      (giveBack b.next b').total = b'.total := by
  obtain ⟨t1, t2⟩ := ht
  have hlt : b'.bits % 8 < 8 := Nat.mod_lt _ (by decide)
  have hle : b'.next.length + b'.bits / 8 ≤ b.next.length := by
    unfold Bits.total at hu
    omega
  refine ⟨⟨Nat.mod_lt _ (Nat.pow_pos (by decide)), hlt⟩, ?_, ?_⟩
  · have hpos : b.total - b'.total + b'.bits % 8 =
        b.bits + 8 * (b.next.length - b'.next.length - b'.bits / 8) := by
      unfold Bits.total at *
      omega
    have hb0 : b.stream / 2 ^ b.bits = streamOf b.next := by
      unfold Bits.stream
      rw [Nat.add_mul_div_left _ _ (Nat.pow_pos (by decide)), Nat.div_eq_of_lt hb, Nat.zero_add]
    have hdiv : b'.stream / 2 ^ (b'.bits % 8) =
        streamOf (b.next.drop (b.next.length - b'.next.length - b'.bits / 8)) := by
      rw [streamOf_drop, ← hb0, t2, Nat.div_div_eq_div_mul, Nat.div_div_eq_div_mul, ← Nat.pow_add,
        ← Nat.pow_add, hpos]
    have hmod : b'.hold % 2 ^ (b'.bits % 8) = b'.stream % 2 ^ (b'.bits % 8) :=
      hold_mod hb' (Nat.mod_le _ _)
    show b'.hold % 2 ^ (b'.bits % 8) + 2 ^ (b'.bits % 8) *
      streamOf (b.next.drop (b.next.length - b'.next.length - b'.bits / 8)) = _
    rw [← hdiv, hmod]
    exact Nat.mod_add_div _ _
  · show b'.bits % 8 + 8 * (b.next.drop _).length = _
    rw [List.length_drop]
    unfold Bits.total
    omega

end Verif.Zlib
