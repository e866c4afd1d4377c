import Verif.Zlib.HeaderTop
import Verif.Zlib.StreamSpec
import Verif.Zlib.Stream

/-! Lemmas about the reading of the commands of blocks. -/

namespace Verif.Zlib

/-- A table reads a code. -/
structure Reads (type : CodeType) (lens : List Nat) (t : Table) (root : Nat) : Prop where
  got : ∀ {b : Bits} {m : Meaning} {s u : Nat}, b.Ok →
    Code type lens b.stream b.total (.got m s u) →
    ∃ e b', takeCode type t root b = some (e, b') ∧ interpret type e = m ∧ b'.Ok ∧
      b'.stream = s ∧ b'.total = u
  more : ∀ {b : Bits}, b.Ok → Code type lens b.stream b.total .more → takeCode type t root b = none
  bad : ∀ {b : Bits}, b.Ok → Code type lens b.stream b.total .bad →
    ∃ e b', takeCode type t root b = some (e, b') ∧ interpret type e = .invalid

theorem made_reads {type : CodeType} {lens : List Nat} {bits root used : Nat} {t : Table}
    (hl : ∀ l ∈ lens, l ≤ 15) (hsize : lens.length ≤ type.size) (ht : type ≠ .codes)
    (h : inflateTable type lens bits = some (.ok t root used)) : Reads type lens t root where
  got := by
    intro b m s u hb hc
    cases hc with
    | @got sym h1 h2 h3 =>
      obtain ⟨e, b', g1, g2, g3, g4, g5, g6⟩ :=
        C194_decodes hl hsize (fun e => absurd e ht) h hb.hold h1 h2
      exact ⟨e, b', g1, g2, ⟨g5, g6 hb.bits⟩, g3, by omega⟩
  more := by
    intro b hb hc
    cases hc with
    | cut h1 h2 => exact C194_needs_more hl hsize (fun e => absurd e ht) h hb.hold h1 h2
    | empty h1 h2 => exact (takeCode_other (made_all hl h).1 hb.hold h1).2 (by omega)
  bad := by
    intro b hb hc
    cases hc with
    | @invalid sym h1 h2 h3 =>
      obtain ⟨e, b', g1, g2, _⟩ := C194_decodes hl hsize (fun e => absurd e ht) h hb.hold h1 h2
      exact ⟨e, b', g1, by rw [g2, h3]⟩
    | none h1 h2 =>
      obtain ⟨b', g⟩ := (takeCode_other (made_all hl h).1 hb.hold h1).1 h2
      refine ⟨_, _, g, ?_⟩
      cases type with
      | codes => exact absurd rfl ht
      | lens => decide
      | dists => decide

/-- Tables without links, in which each code is found. -/
theorem flat_reads {type : CodeType} {lens : List Nat} {t : Table} {root : Nat} (f : Nat → Entry)
    (hall : ∀ h, ∃ sym, BeginsWith lens h sym ∧ t (h % 2 ^ root) = some (f sym))
    (hf : ∀ sym < lens.length, (f sym).bits = lens.getD sym 0 ∧
      interpret type (f sym) = meaning type sym ∧ isLink type (f sym).op = false) :
    Reads type lens t root := by
  have hone : ∀ {h sym}, BeginsWith lens h sym → t (h % 2 ^ root) = some (f sym) := by
    intro h sym hb
    obtain ⟨s', h1, h2⟩ := hall h
    rw [begins_unique hb h1]
    exact h2
  have hst : ∀ (S h : Nat) (e : Entry), h % 2 ^ 0 = S % 2 ^ 0 → t (h % 2 ^ root) = some e →
      ∀ h', h' % 2 ^ (0 + e.bits) = h % 2 ^ (0 + e.bits) → t (h' % 2 ^ root) = some e := by
    intro S h e _ he h' hh
    obtain ⟨sym, h1, h2⟩ := hall h
    rw [he, Option.some.injEq] at h2
    rw [h2]
    apply hone
    rw [Nat.zero_add, h2, (hf sym h1.1).1] at hh
    exact begins_congr h1 (Nat.le_refl _) hh.symm
  have key : ∀ {b : Bits} {sym : Nat}, b.Ok → BeginsWith lens b.stream sym →
      (lens.getD sym 0 ≤ b.total → ∃ b', takeCode type t root b = some (f sym, b') ∧ b'.Ok ∧
        b'.stream = b.stream / 2 ^ lens.getD sym 0 ∧ b'.total = b.total - lens.getD sym 0) ∧
      (b.total < lens.getD sym 0 → takeCode type t root b = none) := by
    intro b sym hb hs
    obtain ⟨q1, q2, q3⟩ := hf sym hs.1
    have hE := hone hs
    have first := takeEntry_spec (t := t) (index := fun hold => hold % 2 ^ root) (drop := 0)
      (S := b.stream) hE (fun h _ => by obtain ⟨s', _, h2⟩ := hall h; exact ⟨_, h2⟩)
      (hst b.stream) (b.next.length + 1) b rfl hb.hold (by omega) (by omega)
    have firstb := fun b' => takeEntry_bits (t := t) (index := fun hold => hold % 2 ^ root)
      (drop := 0) (S := b.stream) hE (hst b.stream) (b.next.length + 1) b b' rfl hb.hold
    simp only [Nat.zero_add, q1] at first firstb
    constructor
    · intro hle
      obtain ⟨b', f1, f2, f3, f4, f5⟩ := first.1 hle
      obtain ⟨d1, d2, d3⟩ := drop_spec f4 f5
      have := firstb b' f1
      have h8 := hb.bits
      refine ⟨dropBits b' (lens.getD sym 0), ?_, ⟨d3, ?_⟩, by rw [d1, f2], by omega⟩
      · unfold takeCode
        simp only [f1, q3, q1]
        rfl
      · simp only [dropBits]; omega
    · intro hlt
      unfold takeCode
      simp only [first.2 hlt]
  refine ⟨?_, ?_, ?_⟩
  · intro b m s u hb hc
    cases hc with
    | @got sym h1 h2 h3 =>
      obtain ⟨b', g1, g2, g3, g4⟩ := (key hb h1).1 h2
      exact ⟨_, b', g1, (hf sym h1.1).2.1, g2, g3, g4⟩
  · intro b hb hc
    cases hc with
    | cut h1 h2 => exact (key hb h1).2 h2
    | empty h1 h2 =>
      obtain ⟨sym, hs, _⟩ := hall b.stream
      exact absurd ⟨sym, hs⟩ h1
  · intro b hb hc
    cases hc with
    | @invalid sym h1 h2 h3 =>
      obtain ⟨b', g1, _⟩ := (key hb h1).1 h2
      exact ⟨_, b', g1, by rw [(hf sym h1.1).2.1, h3]⟩
    | none h1 h2 =>
      obtain ⟨sym, hs, _⟩ := hall b.stream
      exact absurd ⟨sym, hs⟩ h1

/-- The entries of `lenfix`. -/
def fixEntry (sym : Nat) : Entry :=
  if sym < 286 then symEntry .lens sym (fixedLens.getD sym 0) else ⟨64, 8, 0⟩

theorem lenfix_at : ∀ x < 512, lenfix[x]? = some (fixEntry (fixedSym x)) := by decide +kernel

theorem fixEntry_ok : ∀ sym < 288, (fixEntry sym).bits = fixedLens.getD sym 0 ∧
      interpret .lens (fixEntry sym) = meaning .lens sym ∧
      isLink .lens (fixEntry sym).op = false := by decide +kernel

/-- The entries of `distfix`. -/
def fixDist (sym : Nat) : Entry :=
  if sym < 30 then symEntry .dists sym 5 else ⟨64, 5, 0⟩

theorem distfix_at : ∀ x < 32, distfix[x]? = some (fixDist (readBits x 5)) := by decide +kernel

theorem fixDist_ok : ∀ sym < 32, (fixDist sym).bits = fixedDists.getD sym 0 ∧
      interpret .dists (fixDist sym) = meaning .dists sym ∧
      isLink .dists (fixDist sym).op = false := by decide +kernel

theorem fixed_reads : Reads .lens fixedLens fixedTables.lencode fixedTables.lenbits ∧
    Reads .dists fixedDists fixedTables.distcode fixedTables.distbits := by
  constructor
  · apply flat_reads fixEntry
    · intro h
      have hx : h % 2 ^ 9 < 512 := Nat.mod_lt _ (by decide)
      refine ⟨fixedSym (h % 2 ^ 9), ?_, lenfix_at _ hx⟩
      exact begins_congr (fixed_all _ hx).1 (fixed_len _) (by rw [Nat.mod_mod])
    · intro sym hs
      have hlen : fixedLens.length = 288 := by decide +kernel
      exact fixEntry_ok sym (by omega)
  · apply flat_reads fixDist
    · intro h
      have hx : h % 2 ^ 5 < 32 := Nat.mod_lt _ (by decide)
      refine ⟨readBits (h % 2 ^ 5) 5, ?_, distfix_at _ hx⟩
      refine begins_congr (fixedd_all _ hx).1 (n := 5) ?_ (by rw [Nat.mod_mod])
      have : ∀ s < 32, fixedDists.getD s 0 ≤ 5 := by decide
      exact this _ (fixedd_all _ hx).1.1
    · intro sym hs
      exact fixDist_ok sym hs

/-- A number that is read. -/
theorem number_got {b : Bits} (hb : b.Ok) {n k s u : Nat}
    (h : Number n b.stream b.total (.got k s u)) :
    ∃ b', need n b = some b' ∧ lowBits b' n = k ∧ (dropBits b' n).Ok ∧ (dropBits b' n).stream = s ∧
      (dropBits b' n).total = u := by
  cases h with
  | got h =>
    obtain ⟨b', n1, n2, n3, n4⟩ := need_some hb.hold h
    obtain ⟨d1, d2, d3, d4, d5⟩ := bits_drop n2.hold n3
    have h8 := hb.bits
    exact ⟨b', n1, by rw [d1, n2.stream], ⟨d4, by omega⟩, by rw [d2, n2.stream],
      by rw [d3, n2.total]⟩

theorem number_more {b : Bits} (hb : b.Ok) {n : Nat} (h : Number n b.stream b.total .more) :
    need n b = none := by
  cases h with
  | more h => exact need_none hb.hold h

theorem takeCommand_spec {ll dl : List Nat} {x : Tables} (hx : Reads .lens ll x.lencode x.lenbits)
    (hy : Reads .dists dl x.distcode x.distbits) {b : Bits} (hb : b.Ok) {r : Outcome (Option Cmd)}
    (h : Command ll dl b.stream b.total r) : Agrees Eq r (takeCommand x b) := by
  unfold takeCommand
  cases h with
  | cut h => rw [hx.more hb h]; rfl
  | wrong h =>
    obtain ⟨e, b1, g1, g2⟩ := hx.bad hb h
    rw [g1]
    simp only [g2]
    rfl
  | stop h =>
    obtain ⟨e, b1, g1, g2, g3, g4, g5⟩ := hx.got hb h
    rw [g1]
    simp only [g2]
    exact ⟨_, _, rfl, rfl, g3, g4, g5⟩
  | lit h =>
    obtain ⟨e, b1, g1, g2, g3, g4, g5⟩ := hx.got hb h
    rw [g1]
    simp only [g2]
    exact ⟨_, _, rfl, rfl, g3, g4, g5⟩
  | cutLength h k =>
    obtain ⟨e, b1, g1, g2, g3, g4, g5⟩ := hx.got hb h
    rw [← g4, ← g5] at k
    rw [g1]
    simp only [g2, number_more g3 k]
    rfl
  | cutDist h k l =>
    obtain ⟨e, b1, g1, g2, g3, g4, g5⟩ := hx.got hb h
    rw [← g4, ← g5] at k
    obtain ⟨b2, i1, i2, i3, i4, i5⟩ := number_got g3 k
    rw [← i4, ← i5] at l
    rw [g1]
    simp only [g2, i1, hy.more i3 l]
    rfl
  | wrongDist h k l =>
    obtain ⟨e, b1, g1, g2, g3, g4, g5⟩ := hx.got hb h
    rw [← g4, ← g5] at k
    obtain ⟨b2, i1, i2, i3, i4, i5⟩ := number_got g3 k
    rw [← i4, ← i5] at l
    obtain ⟨e', b3, j1, j2⟩ := hy.bad i3 l
    rw [g1]
    simp only [g2, i1, j1, j2]
    rfl
  | cutExtra h k l o =>
    obtain ⟨e, b1, g1, g2, g3, g4, g5⟩ := hx.got hb h
    rw [← g4, ← g5] at k
    obtain ⟨b2, i1, i2, i3, i4, i5⟩ := number_got g3 k
    rw [← i4, ← i5] at l
    obtain ⟨e', b3, j1, j2, j3, j4, j5⟩ := hy.got i3 l
    rw [← j4, ← j5] at o
    rw [g1]
    simp only [g2, i1, j1, j2, number_more j3 o]
    rfl
  | copy h k l o =>
    obtain ⟨e, b1, g1, g2, g3, g4, g5⟩ := hx.got hb h
    rw [← g4, ← g5] at k
    obtain ⟨b2, i1, i2, i3, i4, i5⟩ := number_got g3 k
    rw [← i4, ← i5] at l
    obtain ⟨e', b3, j1, j2, j3, j4, j5⟩ := hy.got i3 l
    rw [← j4, ← j5] at o
    obtain ⟨b4, o1, o2, o3, o4, o5⟩ := number_got j3 o
    rw [g1]
    simp only [g2, i1, i2, j1, j2, o1, o2]
    exact ⟨_, _, rfl, rfl, o3, o4, o5⟩

/-- A command uses up at least a bit. -/
theorem code_shorter {type : CodeType} {lens : List Nat} {s t : Nat} {m : Meaning} {s' t' : Nat}
    (h : Code type lens s t (.got m s' t')) : t' < t := by
  cases h with
  | @got sym h1 h2 _ =>
    have := h1.2.1
    omega

theorem number_shorter {n s t k s' t' : Nat} (h : Number n s t (.got k s' t')) : t' ≤ t := by
  cases h; omega

theorem command_shorter {ll dl : List Nat} {s t : Nat} {c : Option Cmd} {s' t' : Nat}
    (h : Command ll dl s t (.got c s' t')) : t' < t := by
  cases h with
  | stop h => exact code_shorter h
  | lit h => exact code_shorter h
  | copy h k l o =>
    have := code_shorter h
    have := number_shorter k
    have := code_shorter l
    have := number_shorter o
    omega

/-- What the model does is what the input says, commands included. -/
def Does (cs : List Cmd) (r : Outcome Unit) (x : List Cmd × Read Unit) : Prop :=
  x.1 = cs ∧ Agrees Eq r x.2

theorem takeCommands_spec {ll dl : List Nat} {x : Tables} (hx : Reads .lens ll x.lencode x.lenbits)
    (hy : Reads .dists dl x.distcode x.distbits) {s t : Nat} {cs : List Cmd} {r : Outcome Unit}
    (h : Commands ll dl s t cs r) : ∀ (fuel : Nat) (b : Bits), b.Ok → b.stream = s → b.total = t →
      t < fuel → Does cs r (takeCommands x fuel b) := by
  induction h with
  | stop h =>
    intro fuel b hb hs ht hf
    subst hs ht
    obtain ⟨fuel, rfl⟩ : ∃ f, fuel = f + 1 := ⟨fuel - 1, by omega⟩
    obtain ⟨c, b1, g1, g2, g3⟩ := takeCommand_spec hx hy hb h
    subst g2
    rw [takeCommands.eq_2, g1]
    exact ⟨rfl, _, _, rfl, rfl, g3⟩
  | cut h =>
    intro fuel b hb hs ht hf
    subst hs ht
    obtain ⟨fuel, rfl⟩ : ∃ f, fuel = f + 1 := ⟨fuel - 1, by omega⟩
    have g1 := takeCommand_spec hx hy hb h
    simp only [Agrees] at g1
    rw [takeCommands.eq_2, g1]
    exact ⟨rfl, rfl⟩
  | wrong h =>
    intro fuel b hb hs ht hf
    subst hs ht
    obtain ⟨fuel, rfl⟩ : ∃ f, fuel = f + 1 := ⟨fuel - 1, by omega⟩
    have g1 := takeCommand_spec hx hy hb h
    simp only [Agrees] at g1
    rw [takeCommands.eq_2, g1]
    exact ⟨rfl, rfl⟩
  | next h _ ih =>
    intro fuel b hb hs ht hf
    subst hs ht
    obtain ⟨fuel, rfl⟩ : ∃ f, fuel = f + 1 := ⟨fuel - 1, by omega⟩
    obtain ⟨c, b1, g1, g2, g3, g4, g5⟩ := takeCommand_spec hx hy hb h
    subst g2
    have hsh := command_shorter h
    obtain ⟨i1, i2⟩ := ih fuel b1 g3 g4 g5 (by omega)
    rw [takeCommands.eq_2, g1]
    exact ⟨by simp only [i1], i2⟩

end Verif.Zlib
