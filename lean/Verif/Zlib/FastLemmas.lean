import Verif.Zlib.GzSize
import Verif.Zlib.Fast

/-! Lemmas about `inflate_fast`. -/

namespace Verif.Zlib

/-- Operations for which both ways of decoding agree. -/
def goodOp (type : CodeType) (op : Nat) : Bool :=
  match type with
  | .codes => false
  | .lens => op = 0 ∨ (op &&& 16 ≠ 0 ∧ op &&& 32 = 0 ∧ op &&& 64 = 0) ∨
      (op &&& 16 = 0 ∧ op &&& 64 ≠ 0)
  | .dists => (op &&& 16 ≠ 0 ∧ op &&& 64 = 0) ∨ (op &&& 16 = 0 ∧ op &&& 64 ≠ 0)

theorem good_link {type : CodeType} {op : Nat} (h : goodOp type op = true) :
    fastLink type op = false := by
  cases type with
  | codes => rfl
  | lens =>
    simp only [goodOp, decide_eq_true_eq] at h
    simp only [fastLink, decide_eq_false_iff_not]
    rintro ⟨h1, h2, h3⟩
    rcases h with h | h | h
    · exact h1 h
    · exact h.1 h2
    · exact h.2 h3
  | dists =>
    simp only [goodOp, decide_eq_true_eq] at h
    simp only [fastLink, decide_eq_false_iff_not]
    rintro ⟨h2, h3⟩
    rcases h with h | h
    · exact h.1 h2
    · exact h.2 h3

theorem good_kind {type : CodeType} {e : Entry} (h : goodOp type e.op = true) :
    fastKind type e = interpret type e := by
  cases type with
  | codes => simp [goodOp] at h
  | lens =>
    simp only [goodOp, decide_eq_true_eq] at h
    simp only [fastKind, interpret]
    rcases h with h | ⟨h1, h2, h3⟩ | ⟨h1, h2⟩
    · simp [h]
    · have h0 : e.op ≠ 0 := by
        intro h0
        rw [h0] at h1
        simp at h1
      rw [if_neg h0, if_neg h0, if_pos h1, if_neg (by simp [h2]), if_neg (by simp [h3])]
    · have h0 : e.op ≠ 0 := by
        intro h0
        rw [h0] at h2
        simp at h2
      rw [if_neg h0, if_neg h0, if_neg (by simp [h1]), if_pos h2]
  | dists =>
    simp only [goodOp, decide_eq_true_eq] at h
    simp only [fastKind, interpret]
    rcases h with ⟨h1, h2⟩ | ⟨h1, h2⟩
    · rw [if_pos h1, if_neg (by simp [h2])]
    · rw [if_neg (by simp [h1]), if_pos h2]

theorem link_fast {type : CodeType} {op : Nat} (h : isLink type op = true) :
    fastLink type op = true := by
  have key : op &&& 0xf0 = 0 → op &&& 16 = 0 ∧ op &&& 64 = 0 := by
    intro h
    constructor
    · rw [show (16 : Nat) = 0xf0 &&& 16 from rfl, ← Nat.and_assoc, h, Nat.zero_and]
    · rw [show (64 : Nat) = 0xf0 &&& 64 from rfl, ← Nat.and_assoc, h, Nat.zero_and]
  cases type with
  | codes => simp [isLink] at h
  | lens =>
    simp only [isLink, decide_eq_true_eq] at h
    simp only [fastLink, decide_eq_true_eq]
    exact ⟨h.1, key h.2⟩
  | dists =>
    simp only [isLink, decide_eq_true_eq] at h
    simp only [fastLink, decide_eq_true_eq]
    exact key h

/-- Without further input an entry is taken at once or not at all. -/
theorem takeEntry_now {t : Table} {index : Nat → Nat} {drop fuel h n : Nat} {e : Entry} {b : Bits}
    (hh : takeEntry t index drop fuel ⟨h, n, []⟩ = some (e, b)) :
    t (index h) = some e ∧ drop + e.bits ≤ n ∧ b = ⟨h, n, []⟩ := by
  cases fuel with
  | zero => simp [takeEntry] at hh
  | succ fuel =>
    simp only [takeEntry, pullByte] at hh
    cases ht : t (index h) with
    | none => rw [ht] at hh; cases hh
    | some e' =>
      rw [ht] at hh
      simp only at hh
      split at hh
      · rename_i hle
        simp only [Option.some.injEq, Prod.mk.injEq] at hh
        obtain ⟨rfl, rfl⟩ := hh
        exact ⟨rfl, hle, rfl⟩
      · cases hh

/-- The entry that is found with bits enough is found in the fast way. -/
theorem fast_of_take {type : CodeType} {t : Table} {root h n : Nat} {e : Entry} {b : Bits}
    (hg : goodOp type e.op = true) (hh : takeCode type t root ⟨h, n, []⟩ = some (e, b)) :
    fastLook type t 2 (h % 2 ^ root) h n = some (e, b.hold, b.bits) ∧ b.next = [] := by
  unfold takeCode at hh
  cases h1 : takeEntry t (fun hold => hold % 2 ^ root) 0 ((⟨h, n, []⟩ : Bits).next.length + 1)
      ⟨h, n, []⟩ with
  | none => rw [h1] at hh; cases hh
  | some x =>
    obtain ⟨e0, b0⟩ := x
    obtain ⟨f1, f2, rfl⟩ := takeEntry_now h1
    rw [h1] at hh
    simp only at hh
    rw [Nat.zero_add] at f2
    split at hh
    · rename_i hl
      cases h2 : takeEntry t (fun hold => e0.val + hold % 2 ^ (e0.bits + e0.op) / 2 ^ e0.bits)
          e0.bits ((⟨h, n, []⟩ : Bits).next.length + 1) ⟨h, n, []⟩ with
      | none =>
        simp only [List.length_nil] at h2
        simp only [List.length_nil] at hh
        rw [h2] at hh
        cases hh
      | some x =>
        obtain ⟨e1, b1⟩ := x
        obtain ⟨g1, g2, rfl⟩ := takeEntry_now h2
        simp only [List.length_nil] at h2
        simp only [List.length_nil] at hh
        rw [h2] at hh
        simp only [Option.some.injEq, Prod.mk.injEq] at hh
        obtain ⟨rfl, rfl⟩ := hh
        have hi : h % 2 ^ (e0.bits + e0.op) / 2 ^ e0.bits = h / 2 ^ e0.bits % 2 ^ e0.op := by
          rw [Nat.pow_add, Nat.mod_mul_right_div_self]
        simp only [hi] at g1
        refine ⟨?_, rfl⟩
        simp only [fastLook, f1]
        rw [if_neg (by omega), link_fast hl]
        simp only [if_true, g1]
        rw [if_neg (by omega), good_link hg]
        rfl
    · simp only [Option.some.injEq, Prod.mk.injEq] at hh
      obtain ⟨rfl, rfl⟩ := hh
      refine ⟨?_, rfl⟩
      simp only [fastLook, f1]
      rw [if_neg (by omega), good_link hg]
      rfl

/-- A table reads a code in the fast way. -/
structure FastReads (type : CodeType) (lens : List Nat) (t : Table) (root : Nat) : Prop where
  short : ∀ sym, lens.getD sym 0 ≤ 15
  size : lens.length ≤ type.size
  got : ∀ {h n sym : Nat}, h < 2 ^ n → BeginsWith lens h sym → lens.getD sym 0 ≤ n →
    ∃ e, fastLook type t 2 (h % 2 ^ root) h n =
      some (e, h / 2 ^ lens.getD sym 0, n - lens.getD sym 0) ∧ fastKind type e = meaning type sym
  other : ∀ {h n : Nat}, h < 2 ^ n → (¬ ∃ sym, BeginsWith lens h sym) → 1 ≤ n →
    ∃ e h' n', fastLook type t 2 (h % 2 ^ root) h n = some (e, h', n') ∧ fastKind type e = .invalid

theorem good_sym {type : CodeType} (ht : type ≠ .codes) {sym : Nat} (hs : sym < type.size) (l : Nat) :
    goodOp type (symEntry type sym l).op = true := by
  cases type with
  | codes => exact absurd rfl ht
  | lens =>
    have all : ∀ sym < 288, goodOp .lens (symEntry .lens sym 0).op = true := by decide +kernel
    have hop : (symEntry .lens sym l).op = (symEntry .lens sym 0).op := by
      simp only [symEntry]
      split
      · rfl
      · split <;> rfl
    rw [hop]
    exact all sym hs
  | dists =>
    have all : ∀ sym < 32, goodOp .dists (symEntry .dists sym 0).op = true := by decide +kernel
    exact all sym hs

theorem stream_now (h n : Nat) : (⟨h, n, []⟩ : Bits).stream = h := by simp [Bits.stream, streamOf]

theorem total_now (h n : Nat) : (⟨h, n, []⟩ : Bits).total = n := by simp [Bits.total]

theorem made_fast {type : CodeType} {lens : List Nat} {bits root used : Nat} {t : Table}
    (hl : ∀ l ∈ lens, l ≤ 15) (hsize : lens.length ≤ type.size) (ht : type ≠ .codes)
    (h : inflateTable type lens bits = some (.ok t root used)) : FastReads type lens t root where
  size := hsize
  short := by
    intro sym
    rw [List.getD_eq_getElem?_getD]
    cases hx : lens[sym]? with
    | none => simp
    | some l => exact hl l (List.mem_of_getElem? hx)
  got := by
    intro hold n sym hlt hb hn
    obtain ⟨m, _⟩ := made_all hl h
    obtain ⟨e, b', g1, ⟨l, g2⟩, g3, g4, g5, _⟩ :=
      (takeCode_spec m hsize (fun e => absurd e ht) (b := ⟨hold, n, []⟩) hlt
        (by rw [stream_now]; exact hb)).1 (by rw [total_now]; exact hn)
    have hgood : goodOp type e.op = true := by
      rw [g2]
      exact good_sym ht (Nat.lt_of_lt_of_le hb.1 hsize) l
    obtain ⟨f1, f2⟩ := fast_of_take hgood g1
    refine ⟨e, ?_, ?_⟩
    · rw [f1]
      obtain ⟨h', n', next'⟩ := b'
      simp only at f2
      subst f2
      rw [stream_now, stream_now] at g3
      rw [total_now, total_now] at g4
      simp only [Option.some.injEq, Prod.mk.injEq, true_and]
      exact ⟨g3, by omega⟩
    · rw [good_kind hgood, g2]
      exact interp_sym (Nat.lt_of_lt_of_le hb.1 hsize) l
  other := by
    intro hold n hlt hb hn
    obtain ⟨b', g⟩ := (takeCode_other (made_all hl h).1 (b := ⟨hold, n, []⟩) hlt
      (by rw [stream_now]; exact hb)).1 (by rw [total_now]; exact hn)
    have hgood : goodOp type (⟨64, 1, 0⟩ : Entry).op = true := by
      cases type with
      | codes => exact absurd rfl ht
      | lens => decide
      | dists => decide
    obtain ⟨f1, f2⟩ := fast_of_take hgood g
    refine ⟨_, _, _, f1, ?_⟩
    rw [good_kind hgood]
    cases type with
    | codes => exact absurd rfl ht
    | lens => decide
    | dists => decide

/-- The same for tables without links, in which each code is found. -/
theorem flat_fast {type : CodeType} {lens : List Nat} {t : Table} {root : Nat} (f : Nat → Entry)
    (hshort : ∀ sym, lens.getD sym 0 ≤ 15) (hsize : lens.length ≤ type.size)
    (hall : ∀ h, ∃ sym, BeginsWith lens h sym ∧ t (h % 2 ^ root) = some (f sym))
    (hf : ∀ sym < lens.length, (f sym).bits = lens.getD sym 0 ∧
      interpret type (f sym) = meaning type sym ∧ goodOp type (f sym).op = true) :
    FastReads type lens t root where
  short := hshort
  size := hsize
  got := by
    intro h n sym _ hb hn
    obtain ⟨s', h1, h2⟩ := hall h
    obtain rfl := begins_unique hb h1
    obtain ⟨q1, q2, q3⟩ := hf sym hb.1
    refine ⟨f sym, ?_, by rw [good_kind q3, q2]⟩
    simp only [fastLook, h2, q1]
    rw [if_neg (by omega), good_link q3]
    rfl
  other := by
    intro h n _ hb _
    obtain ⟨s', h1, _⟩ := hall h
    exact absurd ⟨s', h1⟩ hb

theorem fixed_fast : FastReads .lens fixedLens fixedTables.lencode fixedTables.lenbits ∧
    FastReads .dists fixedDists fixedTables.distcode fixedTables.distbits := by
  constructor
  · have hlen : fixedLens.length = 288 := by decide +kernel
    apply flat_fast fixEntry
    · intro sym
      exact Nat.le_trans (fixed_len sym) (by decide)
    · exact Nat.le_of_eq hlen
    · intro h
      have hx : h % 2 ^ 9 < 512 := Nat.mod_lt _ (by decide)
      refine ⟨fixedSym (h % 2 ^ 9), ?_, lenfix_at _ hx⟩
      exact begins_congr (fixed_all _ hx).1 (fixed_len _) (by rw [Nat.mod_mod])
    · intro sym hs
      have all : ∀ sym < 288, goodOp .lens (fixEntry sym).op = true := by decide +kernel
      have h1 := fixEntry_ok sym (by omega)
      exact ⟨h1.1, h1.2.1, all sym (by omega)⟩
  · have hd : ∀ s < 32, fixedDists.getD s 0 = 5 := by decide
    apply flat_fast fixDist
    · intro sym
      by_cases h : sym < 32
      · rw [hd sym h]; decide
      · rw [List.getD_eq_getElem?_getD, List.getElem?_eq_none (by
          have : fixedDists.length = 32 := by decide
          omega)]
        simp
    · decide
    · intro h
      have hx : h % 2 ^ 5 < 32 := Nat.mod_lt _ (by decide)
      refine ⟨readBits (h % 2 ^ 5) 5, ?_, distfix_at _ hx⟩
      exact begins_congr (fixedd_all _ hx).1 (n := 5)
        (Nat.le_of_eq (hd _ (fixedd_all _ hx).1.1)) (by rw [Nat.mod_mod])
    · intro sym hs
      have all : ∀ sym < 32, goodOp .dists (fixDist sym).op = true := by decide +kernel
      have h1 := fixDist_ok sym hs
      exact ⟨h1.1, h1.2.1, all sym hs⟩

theorem fastPull_spec {b : Bits} (hb : b.hold < 2 ^ b.bits) (h24 : b.bits ≤ 24)
    (ht : b.bits < b.total) : ∃ b', fastPull b = some b' ∧ Same b b' ∧ b'.bits = b.bits + 8 := by
  unfold fastPull
  rw [if_neg (by omega)]
  cases hp : pullByte b with
  | none =>
    have hnil := pull_none hp
    unfold Bits.total at ht
    rw [hnil] at ht
    simp at ht
  | some b1 =>
    obtain ⟨p1, p2, p3, p4, p5⟩ := pull_spec hp hb
    refine ⟨b1, rfl, ⟨p1, p2, p3⟩, ?_⟩
    unfold Bits.total at p2
    omega

theorem Same.trans {a b c : Bits} (h1 : Same a b) (h2 : Same b c) : Same a c :=
  ⟨h2.stream.trans h1.stream, h2.total.trans h1.total, h2.hold⟩

theorem fill15_spec {b : Bits} (hb : b.hold < 2 ^ b.bits) (ht : 28 ≤ b.total) :
    ∃ b', fill15 b = some b' ∧ Same b b' ∧ 15 ≤ b'.bits := by
  unfold fill15
  split
  · obtain ⟨b1, p1, p2, p3⟩ := fastPull_spec hb (by omega) (by omega)
    have := p2.total
    have hlt : b1.bits < b1.total := by
      unfold Bits.total at *
      omega
    obtain ⟨b2, q1, q2, q3⟩ := fastPull_spec p2.hold (by omega) hlt
    refine ⟨b2, by rw [p1]; exact q1, p2.trans q2, by omega⟩
  · exact ⟨b, rfl, ⟨rfl, rfl, hb⟩, by omega⟩

theorem fastLow_spec {b : Bits} (hb : b.hold < 2 ^ b.bits) {n k s u : Nat} (hn : n ≤ b.bits)
    (h : Number n b.stream b.total (.got k s u)) :
    ∃ b', fastLow n b = some (k, b') ∧ b'.hold < 2 ^ b'.bits ∧ b'.stream = s ∧ b'.total = u := by
  cases h with
  | got h =>
    obtain ⟨d1, d2, d3, d4, _⟩ := bits_drop hb hn
    refine ⟨dropBits b n, ?_, d4, d2, d3⟩
    unfold fastLow
    rw [if_neg (by omega), d1]

theorem fastLength_spec {b : Bits} (hb : b.hold < 2 ^ b.bits) {n k s u : Nat} (hn : n ≤ 5)
    (h : Number n b.stream b.total (.got k s u)) :
    ∃ b', fastLength n b = some (k, b') ∧ b'.hold < 2 ^ b'.bits ∧ b'.stream = s ∧ b'.total = u := by
  unfold fastLength
  split
  · have hle : n ≤ b.total := by cases h; assumption
    split
    · obtain ⟨b1, p1, p2, p3⟩ := fastPull_spec hb (by omega) (by omega)
      rw [← p2.stream, ← p2.total] at h
      rw [p1]
      exact fastLow_spec p2.hold (by omega) h
    · exact fastLow_spec hb (by omega) h
  · rename_i h0
    obtain rfl : n = 0 := by omega
    cases h
    exact ⟨b, by rw [Nat.pow_zero, Nat.mod_one], hb, by simp, by simp⟩

theorem fastDist_spec {b : Bits} (hb : b.hold < 2 ^ b.bits) {n k s u : Nat} (hn : n ≤ 13)
    (h : Number n b.stream b.total (.got k s u)) :
    ∃ b', fastDist n b = some (k, b') ∧ b'.hold < 2 ^ b'.bits ∧ b'.stream = s ∧ b'.total = u := by
  unfold fastDist
  have hle : n ≤ b.total := by cases h; assumption
  split
  · obtain ⟨b1, p1, p2, p3⟩ := fastPull_spec hb (by omega) (by omega)
    have ht := p2.total
    rw [← p2.stream, ← p2.total] at h
    rw [p1, Option.bind_some]
    split
    · obtain ⟨b2, q1, q2, q3⟩ := fastPull_spec p2.hold (by omega) (by omega)
      rw [← q2.stream, ← q2.total] at h
      rw [q1]
      exact fastLow_spec q2.hold (by omega) h
    · exact fastLow_spec p2.hold (by omega) h
  · exact fastLow_spec hb (by omega) h

/-- A code when there are bits enough. -/
theorem FastReads.code {type : CodeType} {lens : List Nat} {t : Table} {root : Nat}
    (hx : FastReads type lens t root) {b : Bits} (hb : b.hold < 2 ^ b.bits) (h15 : 15 ≤ b.bits)
    {r : Outcome Meaning} (h : Code type lens b.stream b.total r) :
    match r with
    | .got m s u => ∃ e k, fastLook type t 2 (b.hold % 2 ^ root) b.hold b.bits =
        some (e, b.hold / 2 ^ k, b.bits - k) ∧ fastKind type e = m ∧ k ≤ 15 ∧
        (dropBits b k).hold < 2 ^ (dropBits b k).bits ∧ (dropBits b k).stream = s ∧
        (dropBits b k).total = u ∧ u + 15 ≥ b.total
    | .bad => ∃ e h' n', fastLook type t 2 (b.hold % 2 ^ root) b.hold b.bits = some (e, h', n') ∧
        fastKind type e = .invalid
    | .more => False := by
  have htot : b.bits ≤ b.total := by unfold Bits.total; omega
  have hm : b.stream % 2 ^ 15 = b.hold % 2 ^ 15 := (hold_mod hb h15).symm
  have key : ∀ {sym}, BeginsWith lens b.stream sym →
      ∃ e, fastLook type t 2 (b.hold % 2 ^ root) b.hold b.bits =
      some (e, b.hold / 2 ^ lens.getD sym 0, b.bits - lens.getD sym 0) ∧
      fastKind type e = meaning type sym := by
    intro sym hs
    exact hx.got hb (begins_congr hs (hx.short sym) hm) (Nat.le_trans (hx.short sym) h15)
  cases h with
  | @got sym h1 h2 h3 =>
    obtain ⟨e, g1, g2⟩ := key h1
    have hk := hx.short sym
    obtain ⟨_, d2, d3, d4, _⟩ := bits_drop hb (n := lens.getD sym 0) (by omega)
    exact ⟨e, _, g1, g2, hk, d4, d2, d3, by omega⟩
  | @invalid sym h1 h2 h3 =>
    obtain ⟨e, g1, g2⟩ := key h1
    exact ⟨e, _, _, g1, by rw [g2, h3]⟩
  | none h1 h2 =>
    apply hx.other hb _ (by omega)
    rintro ⟨sym, hs⟩
    exact h1 ⟨sym, begins_congr hs (hx.short sym) hm.symm⟩
  | @cut sym h1 h2 =>
    have := hx.short sym
    simp only
    omega
  | empty h1 h2 =>
    simp only
    omega

theorem copy_length {sym base extra : Nat} (hm : meaning .lens sym = .copy base extra) :
    extra ≤ 5 ∧ base + 2 ^ extra ≤ 259 := by
  have hs : sym < 286 := by
    simp only [meaning] at hm
    split at hm
    · omega
    · split at hm
      · omega
      · split at hm
        · omega
        · split at hm
          · omega
          · cases hm
  have all : ∀ sym < 286, (match meaning .lens sym with
      | .copy base extra => decide (extra ≤ 5 ∧ base + 2 ^ extra ≤ 259)
      | _ => true) = true := by decide +kernel
  have := all sym hs
  rw [hm] at this
  simpa using this

theorem copy_dist {sym base extra : Nat} (hm : meaning .dists sym = .copy base extra) :
    extra ≤ 13 := by
  have hs : sym < 30 := by
    simp only [meaning] at hm
    split at hm
    · omega
    · cases hm
  have all : ∀ sym < 30, (match meaning .dists sym with
      | .copy _ extra => decide (extra ≤ 13)
      | _ => true) = true := by decide +kernel
  have := all sym hs
  rw [hm] at this
  simpa using this

/-- What the fast way gives for a command. -/
def FastAgrees (r : Outcome (Option Cmd)) (x : Option (Read (Option Cmd))) : Prop :=
  match r with
  | .got c s u => ∃ b, x = some (.ok c b) ∧ b.hold < 2 ^ b.bits ∧ b.stream = s ∧ b.total = u
  | .bad => x = some .bad
  | .more => False

theorem fastCommand_spec {ll dl : List Nat} {x : Tables}
    (hx : FastReads .lens ll x.lencode x.lenbits) (hy : FastReads .dists dl x.distcode x.distbits)
    {b : Bits} (hb : b.hold < 2 ^ b.bits) (h48 : 48 ≤ b.total) {r : Outcome (Option Cmd)}
    (h : Command ll dl b.stream b.total r) : FastAgrees r (fastCommand x b) := by
  obtain ⟨B, f1, f2, f3⟩ := fill15_spec hb (by omega)
  unfold fastCommand
  rw [f1, Option.bind_some]
  rw [← f2.stream, ← f2.total] at h
  rw [← f2.total] at h48
  replace f2 := f2.hold
  clear f1 hb
  have number : ∀ {n s u}, n ≤ u → ¬ Number n s u .more := by
    intro n s u hle hn
    cases hn
    omega
  -- the second code
  have second : ∀ {n : Nat} {base extra s1 t1 s2 t2}, Code .lens ll B.stream B.total
      (.got (.copy base extra) s1 t1) → Number extra s1 t1 (.got n s2 t2) → ∀ {r},
      Code .dists dl s2 t2 r →
      ∃ C : Bits, C.hold < 2 ^ C.bits ∧ 15 ≤ C.bits ∧ 28 ≤ C.total ∧
      Code .dists dl C.stream C.total r ∧
      fastFirst x B = fastSecond x (base + n) C := by
    intro n base extra s1 t1 s2 t2 h1 h2 r h3
    obtain ⟨e, k, g1, g2, g3, g4, g5, g6, g7⟩ := hx.code f2 f3 h1
    obtain ⟨sym, m1, _⟩ := code_meaning h1 _ _ _ rfl
    have hex := (copy_length m1).1
    rw [← g5, ← g6] at h2
    obtain ⟨b1, i1, i2, i3, i4⟩ := fastLength_spec g4 hex h2
    have hsz : t2 + 5 ≥ t1 := by
      rw [← g6]
      cases h2
      omega
    obtain ⟨C, j1, j2, j3⟩ := fill15_spec i2 (by omega)
    rw [← i3, ← i4, ← j2.stream, ← j2.total] at h3
    refine ⟨C, j2.hold, j3, by rw [j2.total]; omega, h3, ?_⟩
    unfold fastFirst
    rw [g1, Option.bind_some]
    simp only [g2]
    rw [show (⟨B.hold / 2 ^ k, B.bits - k, B.next⟩ : Bits) = dropBits B k from rfl, i1,
      Option.bind_some]
    simp only [j1, Option.bind_some]
  cases h with
  | cut h => exact hx.code f2 f3 h
  | wrong h =>
    obtain ⟨e, h', n', g1, g2⟩ := hx.code f2 f3 h
    unfold fastFirst
    rw [g1, Option.bind_some]
    simp only [g2]
    rfl
  | stop h =>
    obtain ⟨e, k, g1, g2, g3, g4, g5, g6, g7⟩ := hx.code f2 f3 h
    unfold fastFirst
    rw [g1, Option.bind_some]
    simp only [g2]
    exact ⟨dropBits B k, rfl, g4, g5, g6⟩
  | lit h =>
    obtain ⟨e, k, g1, g2, g3, g4, g5, g6, g7⟩ := hx.code f2 f3 h
    unfold fastFirst
    rw [g1, Option.bind_some]
    simp only [g2]
    exact ⟨dropBits B k, rfl, g4, g5, g6⟩
  | cutLength h1 h2 =>
    obtain ⟨e, k, g1, g2, g3, g4, g5, g6, g7⟩ := hx.code f2 f3 h1
    obtain ⟨sym, m1, _⟩ := code_meaning h1 _ _ _ rfl
    have hex := (copy_length m1).1
    exact number (by omega) h2
  | cutDist h1 h2 h3 =>
    obtain ⟨C, c1, c2, c3, c4, _⟩ := second h1 h2 h3
    exact hy.code c1 c2 c4
  | wrongDist h1 h2 h3 =>
    obtain ⟨C, c1, c2, c3, c4, c5⟩ := second h1 h2 h3
    obtain ⟨e, h', n', g1, g2⟩ := hy.code c1 c2 c4
    refine c5.trans ?_
    unfold fastSecond
    rw [g1, Option.bind_some]
    simp only [g2]
  | cutExtra h1 h2 h3 h4 =>
    obtain ⟨C, c1, c2, c3, c4, _⟩ := second h1 h2 h3
    obtain ⟨e, k, g1, g2, g3, g4, g5, g6, g7⟩ := hy.code c1 c2 c4
    obtain ⟨sym, m1, _⟩ := code_meaning c4 _ _ _ rfl
    have hex := copy_dist m1
    exact number (by omega) h4
  | copy h1 h2 h3 h4 =>
    obtain ⟨C, c1, c2, c3, c4, c5⟩ := second h1 h2 h3
    obtain ⟨e, k, g1, g2, g3, g4, g5, g6, g7⟩ := hy.code c1 c2 c4
    obtain ⟨sym, m1, _⟩ := code_meaning c4 _ _ _ rfl
    have hex := copy_dist m1
    rw [← g5, ← g6] at h4
    obtain ⟨b4, i1, i2, i3, i4⟩ := fastDist_spec g4 hex h4
    refine ⟨b4, ?_, i2, i3, i4⟩
    refine c5.trans ?_
    unfold fastSecond
    rw [g1, Option.bind_some]
    simp only [g2]
    rw [show (⟨C.hold / 2 ^ k, C.bits - k, C.next⟩ : Bits) = dropBits C k from rfl, i1]
    rfl

theorem command_makes {ll dl : List Nat} {s t : Nat} {c : Cmd} {s1 t1 : Nat}
    (h : Command ll dl s t (.got (some c) s1 t1)) : c.makes ≤ 258 := by
  cases h with
  | lit _ => simp [Cmd.makes]
  | copy h1 h2 _ _ =>
    obtain ⟨sym, m1, _⟩ := code_meaning h1 _ _ _ rfl
    have hex := (copy_length m1).2
    cases h2 with
    | got _ =>
      rename_i base extra s1 t1 _ _ _ _ _ _
      have := Nat.mod_lt s1 (Nat.pow_pos (n := extra) (show 0 < 2 by decide))
      simp only [Cmd.makes]
      omega

/-- The bytes that are given back. -/
theorem giveBack_spec {b b' : Bits} (hb : b.Ok) (hb' : b'.hold < 2 ^ b'.bits)
    (ht : Took b.stream b.total b'.stream b'.total) :
    (giveBack b.next b').Ok ∧ (giveBack b.next b').stream = b'.stream ∧
      (giveBack b.next b').total = b'.total := by
  obtain ⟨t1, t2⟩ := ht
  have h8 := hb.bits
  have hlt : b'.bits % 8 < 8 := Nat.mod_lt _ (by decide)
  have hle : b'.next.length + b'.bits / 8 ≤ b.next.length := by
    unfold Bits.total at t1
    omega
  refine ⟨⟨Nat.mod_lt _ (Nat.pow_pos (by decide)), hlt⟩, ?_, ?_⟩
  · have hpos : b.total - b'.total + b'.bits % 8 =
        b.bits + 8 * (b.next.length - b'.next.length - b'.bits / 8) := by
      unfold Bits.total at *
      omega
    have hb0 : b.stream / 2 ^ b.bits = streamOf b.next := by
      unfold Bits.stream
      rw [Nat.add_mul_div_left _ _ (Nat.pow_pos (by decide)), Nat.div_eq_of_lt hb.hold, Nat.zero_add]
    have hdiv : b'.stream / 2 ^ (b'.bits % 8) =
        streamOf (b.next.drop (b.next.length - b'.next.length - b'.bits / 8)) := by
      rw [streamOf_drop, ← hb0, t2, Nat.div_div_eq_div_mul, Nat.div_div_eq_div_mul, ← Nat.pow_add,
        ← Nat.pow_add, hpos]
    have hmod : b'.hold % 2 ^ (b'.bits % 8) = b'.stream % 2 ^ (b'.bits % 8) :=
      hold_mod hb' (Nat.mod_le _ _)
    show b'.hold % 2 ^ (b'.bits % 8) + 2 ^ (b'.bits % 8) *
      streamOf (b.next.drop (b.next.length - b'.next.length - b'.bits / 8)) = _
    rw [← hdiv, hmod]
    exact Nat.mod_add_div _ _
  · show b'.bits % 8 + 8 * (b.next.drop _).length = _
    rw [List.length_drop]
    unfold Bits.total
    omega

/-- What the loop leaves. -/
def Leaves (ll dl : List Nat) (b : Bits) (cs : List Cmd) (r : Outcome Unit) : Left → Prop
  | .ended b' => cs = [] ∧ r = .got () b'.stream b'.total ∧ b'.hold < 2 ^ b'.bits ∧
      Took b.stream b.total b'.stream b'.total
  | .wrong => cs = [] ∧ r = .bad
  | .paused b' => Commands ll dl b'.stream b'.total cs r ∧ b'.hold < 2 ^ b'.bits ∧
      Took b.stream b.total b'.stream b'.total ∧ b'.total < b.total

theorem fastLoop_spec {ll dl : List Nat} {x : Tables}
    (hx : FastReads .lens ll x.lencode x.lenbits) (hy : FastReads .dists dl x.distcode x.distbits) :
    ∀ (fuel left : Nat) (b : Bits) (cs : List Cmd) (r : Outcome Unit), b.hold < 2 ^ b.bits →
      6 ≤ b.next.length → 258 ≤ left → b.total < fuel → Commands ll dl b.stream b.total cs r →
      ∃ cs1 cs2 l, fastLoop x fuel left b = some (cs1, l) ∧ cs = cs1 ++ cs2 ∧
        Leaves ll dl b cs2 r l
  | 0, _, _, _, _, _, _, _, hf, _ => by omega
  | fuel + 1, left, b, cs, r, hb, h6, hl, hf, h => by
    have h48 : 48 ≤ b.total := by unfold Bits.total; omega
    cases h with
    | stop h =>
      obtain ⟨b1, g1, g2, g3, g4⟩ := fastCommand_spec hx hy hb h48 h
      have tk := took_command h
      rw [← g3, ← g4] at tk
      refine ⟨[], [], .ended b1, by simp only [fastLoop, g1], rfl, rfl, by rw [g3, g4], g2, tk⟩
    | cut h => exact (fastCommand_spec hx hy hb h48 h).elim
    | wrong h =>
      have g1 : fastCommand x b = some .bad := fastCommand_spec hx hy hb h48 h
      exact ⟨[], [], .wrong, by simp only [fastLoop, g1], rfl, rfl, rfl⟩
    | @next _ _ c s1 t1 cs' _ h hc =>
      obtain ⟨b1, g1, g2, rfl, rfl⟩ := fastCommand_spec hx hy hb h48 h
      have tk := took_command h
      have hsh := command_shorter h
      have hmk := command_makes h
      by_cases hgo : 6 ≤ b1.next.length ∧ 258 ≤ left - c.makes
      · obtain ⟨cs1, cs2, l, i1, i2, i3⟩ :=
          fastLoop_spec hx hy fuel (left - c.makes) b1 cs' r g2 hgo.1 hgo.2 (by omega) hc
        refine ⟨c :: cs1, cs2, l, ?_, by rw [i2]; rfl, ?_⟩
        · simp only [fastLoop, g1]
          rw [if_neg (by omega), if_pos hgo, i1]
          rfl
        · cases l with
          | ended b' => exact ⟨i3.1, i3.2.1, i3.2.2.1, tk.trans i3.2.2.2⟩
          | wrong => exact i3
          | paused b' =>
            obtain ⟨j1, j2, j3, j4⟩ := i3
            exact ⟨j1, j2, tk.trans j3, by omega⟩
      · refine ⟨[c], cs', .paused b1, ?_, rfl, hc, g2, tk, hsh⟩
        simp only [fastLoop, g1]
        rw [if_neg (by omega), if_neg hgo]

theorem takeMixed_spec {ll dl : List Nat} {x : Tables}
    (rx : Reads .lens ll x.lencode x.lenbits) (ry : Reads .dists dl x.distcode x.distbits)
    (hx : FastReads .lens ll x.lencode x.lenbits) (hy : FastReads .dists dl x.distcode x.distbits)
    (space : Nat → Nat) :
    ∀ (fuel : Nat) (b : Bits) (cs : List Cmd) (r : Outcome Unit), b.Ok → b.total < fuel →
      Commands ll dl b.stream b.total cs r →
      ∃ y, takeMixed x space fuel b = some y ∧ Does cs r y
  | 0, _, _, _, _, hf, _ => by omega
  | fuel + 1, b, cs, r, hb, hf, h => by
    by_cases hgo : 6 ≤ b.next.length ∧ 258 ≤ space fuel
    · obtain ⟨cs1, cs2, l, i1, i2, i3⟩ := fastLoop_spec hx hy (b.bits + 8 * b.next.length + 1)
        (space fuel) b cs r hb.hold hgo.1 hgo.2 (by unfold Bits.total; omega) h
      cases l with
      | ended b' =>
        obtain ⟨j1, j2, j3, j4⟩ := i3
        obtain ⟨k1, k2, k3⟩ := giveBack_spec hb j3 j4
        refine ⟨(cs1, .ok () (giveBack b.next b')), ?_, ?_, ?_⟩
        · simp only [takeMixed]
          rw [if_pos hgo]
          simp only [inflateFast, i1, Option.map_some]
        · rw [i2, j1, List.append_nil]
        · rw [j2]
          exact ⟨(), _, rfl, rfl, k1, k2, k3⟩
      | wrong =>
        obtain ⟨j1, j2⟩ := i3
        refine ⟨(cs1, .bad), ?_, ?_, ?_⟩
        · simp only [takeMixed]
          rw [if_pos hgo]
          simp only [inflateFast, i1, Option.map_some]
        · rw [i2, j1, List.append_nil]
        · rw [j2]
          rfl
      | paused b' =>
        obtain ⟨j1, j2, j3, j4⟩ := i3
        obtain ⟨k1, k2, k3⟩ := giveBack_spec hb j2 j3
        rw [← k2, ← k3] at j1
        obtain ⟨y, y1, y2, y3⟩ := takeMixed_spec rx ry hx hy space fuel (giveBack b.next b') cs2 r k1
          (by omega) j1
        refine ⟨(cs1 ++ y.1, y.2), ?_, ?_, y3⟩
        · simp only [takeMixed]
          rw [if_pos hgo]
          simp only [inflateFast, i1, Option.map_some, y1]
        · rw [i2, y2]
    · cases h with
      | stop h =>
        obtain ⟨c, b1, g1, g2, g3⟩ := takeCommand_spec rx ry hb h
        subst g2
        refine ⟨([], .ok () b1), ?_, rfl, _, _, rfl, rfl, g3⟩
        simp only [takeMixed]
        rw [if_neg hgo, g1]
      | cut h =>
        have g1 := takeCommand_spec rx ry hb h
        simp only [Agrees] at g1
        refine ⟨([], .more), ?_, rfl, rfl⟩
        simp only [takeMixed]
        rw [if_neg hgo, g1]
      | wrong h =>
        have g1 := takeCommand_spec rx ry hb h
        simp only [Agrees] at g1
        refine ⟨([], .bad), ?_, rfl, rfl⟩
        simp only [takeMixed]
        rw [if_neg hgo, g1]
      | @next _ _ c s1 t1 cs' _ h hc =>
        obtain ⟨c', b1, g1, g2, g3, rfl, rfl⟩ := takeCommand_spec rx ry hb h
        subst g2
        have hsh := command_shorter h
        obtain ⟨y, y1, y2, y3⟩ := takeMixed_spec rx ry hx hy space fuel b1 cs' r g3 (by omega) hc
        refine ⟨(c :: y.1, y.2), ?_, by rw [y2], y3⟩
        simp only [takeMixed]
        rw [if_neg hgo, g1]
        simp only [y1, Option.map_some]

/-- A bit buffer with less than a byte in it is known by what there is to be read. -/
theorem bits_eq {b b' : Bits} (h : b.Ok) (h' : b'.Ok) (hs : b.stream = b'.stream)
    (ht : b.total = b'.total) : b = b' := by
  have hbits : b.bits = b'.bits := by
    have := h.bits
    have := h'.bits
    unfold Bits.total at ht
    omega
  have hhold : b.hold = b'.hold := by
    have h1 := hold_mod h.hold (Nat.le_refl _)
    have h2 := hold_mod h'.hold (Nat.le_refl _)
    rw [Nat.mod_eq_of_lt h.hold] at h1
    rw [Nat.mod_eq_of_lt h'.hold] at h2
    rw [h1, h2, hs, hbits]
  have hlen : b.next.length = b'.next.length := by
    unfold Bits.total at ht
    omega
  have hnext : streamOf b.next = streamOf b'.next := by
    unfold Bits.stream at hs
    rw [hhold, hbits] at hs
    exact Nat.eq_of_mul_eq_mul_left (Nat.pow_pos (by decide)) (Nat.add_left_cancel hs)
  have e1 := bytesOf_stream b.next.length b.next (Nat.le_refl _)
  have e2 := bytesOf_stream b'.next.length b'.next (Nat.le_refl _)
  rw [List.take_length] at e1 e2
  obtain ⟨hold, bits, next⟩ := b
  obtain ⟨hold', bits', next'⟩ := b'
  simp only at *
  rw [hhold, hbits]
  congr 1
  rw [← e1, ← e2, hlen, hnext]

theorem does_unique {cs : List Cmd} {r : Outcome Unit} {x y : List Cmd × Read Unit}
    (hx : Does cs r x) (hy : Does cs r y) : x = y := by
  obtain ⟨x1, x2⟩ := x
  obtain ⟨y1, y2⟩ := y
  obtain ⟨h1, h2⟩ := hx
  obtain ⟨g1, g2⟩ := hy
  simp only at h1 h2 g1 g2
  subst h1 g1
  congr 1
  cases r with
  | more => rw [h2, g2]
  | bad => rw [h2, g2]
  | got a s t =>
    obtain ⟨_, b, rfl, _, p1, p2, p3⟩ := h2
    obtain ⟨_, b', rfl, _, q1, q2, q3⟩ := g2
    rw [bits_eq p1 q1 (by rw [p2, q2]) (by rw [p3, q3])]

end Verif.Zlib
