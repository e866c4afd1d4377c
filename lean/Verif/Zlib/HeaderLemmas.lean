import Verif.Zlib.BlockSpec
import Verif.Zlib.Header
import Verif.Zlib.InfStream

/-! Lemmas about the reading of the lengths of codes. -/

namespace Verif.Zlib

/-- The bit buffer between two things that are read. -/
structure Bits.Ok (b : Bits) : Prop where
  hold : b.hold < 2 ^ b.bits
  bits : b.bits < 8

/-- The bit buffer is that of another one, perhaps with more bytes in it. -/
structure Same (b b' : Bits) : Prop where
  stream : b'.stream = b.stream
  total : b'.total = b.total
  hold : b'.hold < 2 ^ b'.bits

theorem needBits_spec (n : Nat) : ∀ (fuel : Nat) (b : Bits), b.hold < 2 ^ b.bits →
    b.next.length ≤ fuel →
    (n ≤ b.total → ∃ b', needBits n fuel b = some b' ∧ Same b b' ∧ n ≤ b'.bits ∧
      b'.bits ≤ max b.bits (n + 7)) ∧
    (b.total < n → needBits n fuel b = none)
  | 0, b, hb, hf => by
    have ht : b.total = b.bits := by unfold Bits.total; omega
    constructor
    · intro h
      exact ⟨b, by simp only [needBits]; rw [if_pos (by omega)], ⟨rfl, rfl, hb⟩, by omega, by omega⟩
    · intro h
      simp only [needBits]
      rw [if_neg (by omega)]
  | fuel + 1, b, hb, hf => by
    have htot : b.bits ≤ b.total := by unfold Bits.total; omega
    by_cases hn : n ≤ b.bits
    · exact ⟨fun _ => ⟨b, by simp only [needBits]; rw [if_pos hn], ⟨rfl, rfl, hb⟩, hn, by omega⟩,
        fun h => by omega⟩
    · cases hp : pullByte b with
      | none =>
        have hnil := pull_none hp
        have ht : b.total = b.bits := by unfold Bits.total; rw [hnil]; simp
        refine ⟨fun h => by omega, fun _ => ?_⟩
        simp only [needBits, if_neg hn, hp]
      | some b1 =>
        obtain ⟨p1, p2, p3, p4, p5⟩ := pull_spec hp hb
        have hb8 : b1.bits = b.bits + 8 := by
          obtain ⟨hold, bits, next⟩ := b
          cases next with
          | nil => simp [pullByte] at hp
          | cons x xs => simp only [pullByte, Option.some.injEq] at hp; subst hp; rfl
        obtain ⟨q1, q2⟩ := needBits_spec n fuel b1 p3 (by omega)
        constructor
        · intro h
          obtain ⟨b', r1, r2, r3, r4⟩ := q1 (by omega)
          refine ⟨b', by simp only [needBits, if_neg hn, hp, r1],
            ⟨r2.stream.trans p1, r2.total.trans p2, r2.hold⟩, r3, by omega⟩
        · intro h
          simp only [needBits, if_neg hn, hp]
          exact q2 (by omega)

theorem need_some {n : Nat} {b : Bits} (hb : b.hold < 2 ^ b.bits) (h : n ≤ b.total) :
    ∃ b', need n b = some b' ∧ Same b b' ∧ n ≤ b'.bits ∧ b'.bits ≤ max b.bits (n + 7) :=
  (needBits_spec n _ b hb (Nat.le_refl _)).1 h

theorem need_none {n : Nat} {b : Bits} (hb : b.hold < 2 ^ b.bits) (h : b.total < n) :
    need n b = none :=
  (needBits_spec n _ b hb (Nat.le_refl _)).2 h

/-- `BITS` and `DROPBITS` for bits that are in the buffer. -/
theorem bits_drop {b : Bits} (hb : b.hold < 2 ^ b.bits) {n : Nat} (hn : n ≤ b.bits) :
    lowBits b n = b.stream % 2 ^ n ∧ (dropBits b n).stream = b.stream / 2 ^ n ∧
      (dropBits b n).total = b.total - n ∧ (dropBits b n).hold < 2 ^ (dropBits b n).bits ∧
      (dropBits b n).bits = b.bits - n := by
  obtain ⟨d1, d2, d3⟩ := drop_spec hb hn
  exact ⟨hold_mod hb hn, d1, by omega, d3, rfl⟩

/-- A symbol of the code for lengths. -/
theorem codes_entry {clens : List Nat} {root : Nat} {t : Table} (m : Made .codes clens root t)
    (hsize : clens.length ≤ 19) (hroot : ∀ l ∈ clens, l ≤ root) {b : Bits} (hb : b.Ok) {sym : Nat}
    (hs : BeginsWith clens b.stream sym) :
    (clens.getD sym 0 ≤ b.total → ∃ b',
      takeEntry t (fun hold => hold % 2 ^ root) 0 (b.next.length + 1) b =
        some (⟨0, clens.getD sym 0, sym⟩, b') ∧ Same b b' ∧ clens.getD sym 0 ≤ b'.bits ∧
        b'.bits < clens.getD sym 0 + 8) ∧
    (b.total < clens.getD sym 0 →
      takeEntry t (fun hold => hold % 2 ^ root) 0 (b.next.length + 1) b = none) := by
  have hdef : ∀ h, ∃ e, t (h % 2 ^ root) = some e := by
    intro h
    by_cases hb : ∃ sym, BeginsWith clens h sym
    · obtain ⟨s, hb⟩ := hb
      rcases m.has h s hb with ⟨_, a2⟩ | ⟨_, k, v, _, _, a2, _⟩
      · exact ⟨_, a2⟩
      · exact ⟨_, a2⟩
    · exact ⟨_, (m.other h hb).2⟩
  have hmem : clens.getD sym 0 ∈ clens := by
    have h1 := hs.1
    rw [List.getD_eq_getElem?_getD, List.getElem?_eq_getElem h1]
    exact List.getElem_mem h1
  have hE : t (b.stream % 2 ^ root) = some ⟨0, clens.getD sym 0, sym⟩ := by
    rcases m.has b.stream sym hs with ⟨_, a2⟩ | ⟨a1, _⟩
    · rw [a2]
      simp only [symEntry]
      rw [if_pos (Nat.lt_of_lt_of_le hs.1 hsize)]
    · have := hroot _ hmem
      omega
  have hst : ∀ h e, h % 2 ^ 0 = b.stream % 2 ^ 0 → t (h % 2 ^ root) = some e →
      ∀ h', h' % 2 ^ (0 + e.bits) = h % 2 ^ (0 + e.bits) → t (h' % 2 ^ root) = some e := by
    intro h e _ he h' hh
    rw [Nat.zero_add] at hh
    exact made_stable m he hh.symm
  obtain ⟨f1, f2⟩ := takeEntry_spec (t := t) (index := fun hold => hold % 2 ^ root) (drop := 0)
    (S := b.stream) hE (fun h _ => hdef h) hst (b.next.length + 1) b rfl hb.hold (by omega)
    (by omega)
  simp only [Nat.zero_add] at f1 f2
  refine ⟨fun h => ?_, f2⟩
  obtain ⟨b', g1, g2, g3, g4, g5⟩ := f1 h
  have := takeEntry_bits (t := t) (index := fun hold => hold % 2 ^ root) (drop := 0)
    (S := b.stream) hE hst _ b b' rfl hb.hold g1
  have hb8 := hb.bits
  exact ⟨b', g1, ⟨g2, g3, g4⟩, g5, by simp only at this; omega⟩

/-- The model does what the input says. -/
def Agrees {α β : Type} (rel : α → β → Prop) : Outcome α → Read β → Prop
  | .got a s t, x => ∃ c b, x = .ok c b ∧ rel a c ∧ b.Ok ∧ b.stream = s ∧ b.total = t
  | .more, x => x = .more
  | .bad, x => x = .bad

theorem getLast_getD (l : List Nat) (h : l ≠ []) : l.getLast? = some (l.getD (l.length - 1) 0) := by
  have hp : 0 < l.length := List.length_pos_iff.mpr h
  rw [List.getLast?_eq_getElem?, List.getD_eq_getElem?_getD,
    List.getElem?_eq_getElem (by omega)]
  rfl

theorem codeLens_spec {clens : List Nat} {root n : Nat} {t : Table} (m : Made .codes clens root t)
    (hsize : clens.length ≤ 19) (hroot : ∀ l ∈ clens, l ≤ root) {out : List Nat} {s u : Nat}
    {r : Outcome (List Nat)} (h : Lengths clens n out s u r) :
    ∀ (fuel : Nat) (b : Bits), b.Ok → b.stream = s → b.total = u → n < out.length + fuel →
      Agrees Eq r (codeLens t root n fuel out b) := by
  -- the part all cases but the first have in common
  have key : ∀ (fuel : Nat) (b : Bits) (out : List Nat) (sym : Nat), b.Ok → out.length < n →
      BeginsWith clens b.stream sym →
      (b.total < clens.getD sym 0 + extraBits sym → codeLens t root n (fuel + 1) out b = .more) ∧
      (clens.getD sym 0 + extraBits sym ≤ b.total →
        ∃ b', b'.Ok ∧ b'.stream = b.stream / 2 ^ (clens.getD sym 0 + extraBits sym) ∧
          b'.total = b.total - (clens.getD sym 0 + extraBits sym) ∧
          codeLens t root n (fuel + 1) out b =
            match grow out sym (b.stream / 2 ^ clens.getD sym 0 % 2 ^ extraBits sym) with
            | none => .bad
            | some out' => if out'.length > n then .bad else codeLens t root n fuel out' b') := by
    intro fuel b out sym hb hlt hs
    obtain ⟨c1, c2⟩ := codes_entry m hsize hroot hb hs
    have hsym : sym < 19 := Nat.lt_of_lt_of_le hs.1 hsize
    have hle : clens.getD sym 0 ≤ clens.getD sym 0 + extraBits sym := Nat.le_add_right _ _
    generalize clens.getD sym 0 = L at *
    by_cases hT : L ≤ b.total
    · obtain ⟨b1, e1, e2, e3, e4⟩ := c1 hT
      rw [codeLens.eq_2]
      rw [if_pos hlt, e1]
      simp only
      -- the bits of the code and the extra bits
      have fields : ∀ k, L + k ≤ b.total →
          ∃ b2, need (L + k) b1 = some b2 ∧
            lowBits (dropBits b2 L) k = b.stream / 2 ^ L % 2 ^ k ∧
            (dropBits (dropBits b2 L) k).Ok ∧
            (dropBits (dropBits b2 L) k).stream = b.stream / 2 ^ (L + k) ∧
            (dropBits (dropBits b2 L) k).total = b.total - (L + k) := by
        intro k hk
        obtain ⟨b2, n1, n2, n3, n4⟩ := need_some (n := L + k) e2.hold (by rw [e2.total]; exact hk)
        obtain ⟨d1, d2, d3, d4, d5⟩ := bits_drop n2.hold (n := L) (by omega)
        obtain ⟨g1, g2, g3, g4, g5⟩ := bits_drop d4 (n := k) (by omega)
        have hst : b2.stream = b.stream := n2.stream.trans e2.stream
        have htt : b2.total = b.total := n2.total.trans e2.total
        refine ⟨b2, n1, by rw [g1, d2, hst], ⟨g4, by omega⟩, ?_, by omega⟩
        rw [g2, d2, hst, Nat.div_div_eq_div_mul, ← Nat.pow_add]
      have lacks : ∀ k, b.total < L + k → need (L + k) b1 = none := by
        intro k hk
        exact need_none e2.hold (by rw [e2.total]; exact hk)
      by_cases h16 : sym < 16
      · have ex : extraBits sym = 0 := by
          unfold extraBits; rw [if_neg (by omega), if_neg (by omega), if_neg (by omega)]
        rw [ex, if_pos h16]
        simp only [Nat.add_zero]
        refine ⟨fun h => by omega, fun h => ?_⟩
        obtain ⟨b2, n1, n2, n3, n4, n5⟩ := fields 0 (by omega)
        simp only [Nat.add_zero] at n1 n4 n5
        rw [n1]
        have hd0 : dropBits (dropBits b2 L) 0 = dropBits b2 L := by simp [dropBits]
        rw [hd0] at n3 n4 n5
        refine ⟨_, n3, n4, n5, ?_⟩
        simp only [grow, if_pos h16]
        rw [if_neg (by simp; omega)]
      · rw [if_neg h16]
        by_cases e16 : sym = 16
        · have ex : extraBits sym = 2 := by unfold extraBits; rw [if_pos e16]
          rw [ex, if_pos e16]
          refine ⟨fun h => by rw [lacks 2 h], fun h => ?_⟩
          obtain ⟨b2, n1, n2, n3, n4, n5⟩ := fields 2 h
          rw [n1]
          refine ⟨_, n3, n4, n5, ?_⟩
          simp only [grow, if_neg h16, if_pos e16, n2]
          by_cases ho : out = []
          · subst ho; simp
          · rw [getLast_getD out ho, if_neg (by
              intro h0; exact ho (List.length_eq_zero_iff.mp h0))]
            simp only [Option.map_some, List.length_append, List.length_replicate]
        · rw [if_neg e16]
          by_cases e17 : sym = 17
          · have ex : extraBits sym = 3 := by
              unfold extraBits; rw [if_neg e16, if_pos e17]
            rw [ex, if_pos e17]
            refine ⟨fun h => by rw [lacks 3 h], fun h => ?_⟩
            obtain ⟨b2, n1, n2, n3, n4, n5⟩ := fields 3 h
            rw [n1]
            refine ⟨_, n3, n4, n5, ?_⟩
            simp only [grow, if_neg h16, if_neg e16, if_pos e17, n2, List.length_append,
              List.length_replicate]
          · have ex : extraBits sym = 7 := by
              unfold extraBits; rw [if_neg e16, if_neg e17, if_pos (by omega)]
            rw [ex, if_neg e17]
            refine ⟨fun h => by rw [lacks 7 h], fun h => ?_⟩
            obtain ⟨b2, n1, n2, n3, n4, n5⟩ := fields 7 h
            rw [n1]
            refine ⟨_, n3, n4, n5, ?_⟩
            simp only [grow, if_neg h16, if_neg e16, if_neg e17, n2, List.length_append,
              List.length_replicate]
    · refine ⟨fun _ => ?_, fun h => by omega⟩
      rw [codeLens.eq_2]
      rw [if_pos hlt, c2 (by omega)]
  induction h with
  | @done out s u hlen =>
    intro fuel b hb h1 h2 hf
    cases fuel with
    | zero => omega
    | succ fuel =>
      refine ⟨out, b, ?_, rfl, hb, h1, h2⟩
      simp only [codeLens]
      rw [if_neg (by omega)]
  | @cut out s u sym hlt hs hu =>
    intro fuel b hb h1 h2 hf
    cases fuel with
    | zero => omega
    | succ fuel =>
      subst h1
      exact (key fuel b out sym hb hlt hs).1 (by omega)
  | @next out out' s u sym r hlt hs hu hg hle _ ih =>
    intro fuel b hb h1 h2 hf
    cases fuel with
    | zero => omega
    | succ fuel =>
      subst h1
      obtain ⟨b', k1, k2, k3, k4⟩ := (key fuel b out sym hb hlt hs).2 (by omega)
      rw [hg] at k4
      simp only at k4
      rw [if_neg (by omega)] at k4
      rw [k4]
      have hgrow : out.length < out'.length := by
        unfold grow at hg
        split at hg
        · simp only [Option.some.injEq] at hg; subst hg; simp
        · split at hg
          · obtain ⟨l, _, rfl⟩ := Option.map_eq_some_iff.mp hg
            simp
          · split at hg <;> (simp only [Option.some.injEq] at hg; subst hg; simp)
      exact ih fuel b' k1 k2 (by omega) (by omega)
  | @noLast out s u sym hlt hs hu hg =>
    intro fuel b hb h1 h2 hf
    cases fuel with
    | zero => omega
    | succ fuel =>
      subst h1
      obtain ⟨b', k1, k2, k3, k4⟩ := (key fuel b out sym hb hlt hs).2 (by omega)
      rw [hg] at k4
      exact k4
  | @tooMany out out' s u sym hlt hs hu hg hgt =>
    intro fuel b hb h1 h2 hf
    cases fuel with
    | zero => omega
    | succ fuel =>
      subst h1
      obtain ⟨b', k1, k2, k3, k4⟩ := (key fuel b out sym hb hlt hs).2 (by omega)
      rw [hg] at k4
      simp only at k4
      rw [if_pos hgt] at k4
      exact k4

/-- The table without codes: each bit is a length of zero. -/
theorem codeLens_zero {root n : Nat} {t : Table} (h : ∀ x, t (x % 2 ^ root) = some ⟨64, 1, 0⟩) :
    ∀ (fuel : Nat) (out : List Nat) (b : Bits), b.Ok → out.length ≤ n → n < out.length + fuel →
    (n - out.length ≤ b.total → ∃ b',
      codeLens t root n fuel out b = .ok (out ++ List.replicate (n - out.length) 0) b' ∧ b'.Ok ∧
      b'.stream = b.stream / 2 ^ (n - out.length) ∧ b'.total = b.total - (n - out.length)) ∧
    (b.total < n - out.length → codeLens t root n fuel out b = .more)
  | 0, out, b, hb, h1, h2 => by omega
  | fuel + 1, out, b, hb, h1, h2 => by
    rw [codeLens.eq_2]
    by_cases hlt : out.length < n
    · rw [if_pos hlt]
      have hst : ∀ x e, x % 2 ^ 0 = b.stream % 2 ^ 0 → t (x % 2 ^ root) = some e →
          ∀ x', x' % 2 ^ (0 + e.bits) = x % 2 ^ (0 + e.bits) → t (x' % 2 ^ root) = some e := by
        intro x e _ he x' _
        rw [h] at he ⊢
        exact he
      obtain ⟨f1, f2⟩ := takeEntry_spec (t := t) (index := fun hold => hold % 2 ^ root) (drop := 0)
        (S := b.stream) (h b.stream) (fun x _ => ⟨_, h x⟩) hst (b.next.length + 1) b rfl hb.hold
        (by omega) (by omega)
      simp only [Nat.zero_add] at f1 f2
      have h8 := hb.bits
      by_cases hT : 1 ≤ b.total
      · obtain ⟨b1, g1, g2, g3, g4, g5⟩ := f1 hT
        have gb := takeEntry_bits (t := t) (index := fun hold => hold % 2 ^ root) (drop := 0)
          (S := b.stream) (h b.stream) hst _ b b1 rfl hb.hold g1
        simp only at gb
        obtain ⟨b2, n1, n2, n3, n4⟩ := need_some (n := 1) g4 (by omega)
        obtain ⟨d1, d2, d3, d4, d5⟩ := bits_drop n2.hold n3
        have hok : (dropBits b2 1).Ok := ⟨d4, by omega⟩
        obtain ⟨i1, i2⟩ := codeLens_zero (n := n) h fuel (out ++ [0]) (dropBits b2 1) hok
          (by simp; omega) (by simp; omega)
        rw [g1]
        simp only [show (0 : Nat) < 16 by decide, if_true, n1]
        have e1 : n - (out ++ [0]).length = n - out.length - 1 := by simp; omega
        rw [e1, d3, n2.total, g3] at i1 i2
        rw [d2, n2.stream, g2, Nat.div_div_eq_div_mul, ← Nat.pow_add] at i1
        constructor
        · intro hle
          obtain ⟨b', j1, j2, j3, j4⟩ := i1 (by omega)
          refine ⟨b', ?_, j2, ?_, by omega⟩
          · rw [j1, List.append_assoc]
            have e2 : n - out.length = (n - out.length - 1) + 1 := by omega
            rw [e2, Nat.add_sub_cancel, List.replicate_succ]
            rfl
          · rw [j3]
            congr 2
            omega
        · intro hl
          exact i2 (by omega)
      · rw [f2 (by omega)]
        exact ⟨fun hle => by omega, fun _ => rfl⟩
    · rw [if_neg hlt]
      have e : n - out.length = 0 := by omega
      rw [e]
      exact ⟨fun _ => ⟨b, by simp, hb, by simp, by omega⟩, fun hh => by omega⟩

end Verif.Zlib
