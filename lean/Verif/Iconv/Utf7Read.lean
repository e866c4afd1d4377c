import Verif.Iconv.Utf7Lemmas
import Verif.Iconv.Run

namespace Verif.Iconv
open Verif Spec

theorem go_plain {b : Byte} (h : b ∈ direct ++ optional) (orig : Nat) (start : Byte) (f count : Nat) (bs : Str) :
    utf7Go orig start (f + 1) 0 count (b :: bs) = (.char b.toNat (count + 1), 0) := by
  rw [utf7Go.eq_def]
  simp [(xdirect_iff b).2 h]

theorem go_plus (orig : Nat) (start : Byte) (f count : Nat) (bs : Str) :
    utf7Go orig start (f + 1) 0 count (43 :: 45 :: bs) = (.char 43 (count + 2), 0) := by
  rw [utf7Go.eq_def]
  have : inTab xdirectTab 43 = false := by decide
  simp [this]

theorem go_shift {d : Byte} (h : d ≠ 45) (orig : Nat) (start : Byte) (f count : Nat) (bs : Str) :
    utf7Go orig start (f + 1) 0 count (43 :: d :: bs) = utf7Go orig start f 1 (count + 1) (d :: bs) := by
  rw [utf7Go.eq_def]
  have : inTab xdirectTab 43 = false := by decide
  simp [this, h]

/-- The states after a run of base64 whose last bits are zeros. -/
def Over (st : Nat) : Prop := st = 1 ∨ st = 2 ∨ st = 3

theorem over_of {st : Nat} {lb : List Bool} (h : Left st lb) {ds : List Nat} {z : Nat} (hz : z < 6)
    (he : lb ++ ds.flatMap (bits 6) = List.replicate z false) : ds = [] ∧ Over st := by
  have hlen := congrArg List.length he
  match ds with
  | d :: ds => simp [bits_length] at hlen; omega
  | [] =>
    refine ⟨rfl, ?_⟩
    simp only [List.flatMap_nil, List.append_nil] at he hlen
    cases h with
    | none => exact .inl rfl
    | four y hy =>
      have : y = 0 := by
        simp only [bits_length, List.length_replicate] at hlen
        subst hlen
        have h2 : bits 4 y = bits 4 0 := he
        have := bits_inj h2
        omega
      subst this; exact .inr (.inl rfl)
    | two y hy =>
      have : y = 0 := by
        simp only [bits_length, List.length_replicate] at hlen
        subst hlen
        have h2 : bits 2 y = bits 2 0 := he
        have := bits_inj h2
        omega
      subst this; exact .inr (.inr rfl)

/-- How reading a text starts. -/
def Start (cs : List Nat) (bs : Str) : Prop :=
  (cs = [] ∧ bs = []) ∨
  ∃ c cs' n, cs = c :: cs' ∧ n + 1 ≤ bs.length ∧ ∃ st', (∃ se, Reads utf7 st' (bs.drop (n + 1)) cs' se) ∧
    ∀ orig start f count, utf7Go orig start (f + 2) 0 count bs = (.char c (count + (n + 1)), st')

theorem Start.reads {cs : List Nat} {bs : Str} (h : Start cs bs) : ∃ se, Reads utf7 0 bs cs se := by
  rcases h with ⟨h1, h2⟩ | ⟨c, cs', n, h1, h2, st', ⟨se, h3⟩, h4⟩
  · subst h1 h2; exact ⟨0, .nil 0⟩
  · subst h1
    match bs, h2, h3, h4 with
    | b :: bs, h2, h3, h4 =>
      refine ⟨se, .char (by simp) ?_ h2 h3⟩
      have := h4 0 b (2 * bs.length + 1) 0
      simp only [utf7, utf7Mbtowc, List.length_cons]
      rw [show 2 * (bs.length + 1) + 1 = 2 * bs.length + 1 + 2 by omega, this, Nat.zero_add]

theorem over_stop {st : Nat} (h : Over st) {b : Byte} (hb : base64Value b = none) (bs : Str) (orig : Nat) (start : Byte) (f count : Nat) :
    utf7Go orig start (f + 1) st count (b :: bs) =
      if b = 45 then utf7Go orig start f 0 (count + 1) bs else utf7Go orig start f 0 count (b :: bs) := by
  rw [utf7Go.eq_def]
  have h3 : st &&& 3 ≠ 0 := by rcases h with rfl | rfl | rfl <;> decide
  have hd : dataOf st = 0 := by rcases h with rfl | rfl | rfl <;> decide
  simp only [baseLoop, hb, hd, h3, ne_eq, not_false_iff, if_true, not_true, if_false]

/-- After `-`. -/
theorem Start.closed {cs : List Nat} {bs : Str} (h : Start cs bs) {st : Nat} (ho : Over st) : ∃ se, Reads utf7 st (45 :: bs) cs se := by
  have hv : base64Value 45 = none := by decide
  rcases h with ⟨h1, h2⟩ | ⟨c, cs', n, h1, h2, st', ⟨se, h3⟩, h4⟩
  · subst h1 h2
    refine ⟨0, .skip (n := 0) (st' := 0) (by simp) ?_ (by simp) (.nil 0)⟩
    simp only [utf7, utf7Mbtowc, List.length_cons, List.length_nil, Nat.zero_add, Nat.mul_one]
    rw [over_stop ho hv, if_pos rfl, utf7Go.eq_def]
    simp
  · subst h1
    refine ⟨se, .char (n := n + 1) (st' := st') (by simp) ?_ (by simp; omega) h3⟩
    have := h4 st 45 (2 * bs.length) 1
    simp only [utf7, utf7Mbtowc, List.length_cons]
    rw [show 2 * (bs.length + 1) + 1 = 2 * bs.length + 2 + 1 by omega, over_stop ho hv, if_pos rfl, this]
    congr 2
    omega

/-- After a character that ends base64. -/
theorem Start.broken {cs : List Nat} {bs : Str} (h : Start cs bs) (hb : ∀ b, bs.head? = some b → b ∉ alphabet ∧ b ≠ 45) {st : Nat} (ho : Over st) :
    ∃ se, Reads utf7 st bs cs se := by
  rcases h with ⟨h1, h2⟩ | ⟨c, cs', n, h1, h2, st', ⟨se, h3⟩, h4⟩
  · subst h1 h2; exact ⟨st, .nil st⟩
  · subst h1
    match bs, h2, h3, h4 with
    | b :: bs, h2, h3, h4 =>
      refine ⟨se, .char (by simp) ?_ h2 h3⟩
      obtain ⟨b1, b2⟩ := hb b rfl
      have := h4 st b (2 * bs.length) 0
      simp only [utf7, utf7Mbtowc, List.length_cons]
      rw [show 2 * (bs.length + 1) + 1 = 2 * bs.length + 2 + 1 by omega, over_stop ho ((base64Value_none b).2 b1), if_neg b2, this, Nat.zero_add]

/-- A run of base64. -/
theorem base_run {tail : Str} {cs : List Nat} (ht : ∀ st, Over st → ∃ se, Reads utf7 st tail cs se) {z : Nat} (hz : z < 6) :
    ∀ (us : List Nat) {st : Nat} {lb : List Bool} (_ : Left st lb) (_ : ∀ u ∈ us, Spec.Scalar u) {ds : List Nat} (_ : ∀ d ∈ ds, d < 64)
      (_ : lb ++ ds.flatMap (bits 6) = (us.flatMap utf16).flatMap (bits 16) ++ List.replicate z false),
      ∃ se, Reads utf7 st (ds.map digit ++ tail) (us ++ cs) se := by
  intro us
  induction us with
  | nil =>
    intro st lb hl _ ds _ he
    obtain ⟨h1, h2⟩ := over_of hl hz (by simpa using he)
    subst h1
    simpa using ht st h2
  | cons u us ih =>
    intro st lb hl hu ds hd he
    simp only [List.flatMap_cons, List.flatMap_append, List.append_assoc] at he
    obtain ⟨x, hx⟩ : ∃ x xs, ds.map digit ++ tail = x :: xs := by
      match ds, hd, he with
      | d :: ds, _, _ => exact ⟨_, _, rfl⟩
      | [], _, he =>
        have h1 := congrArg List.length he
        have h2 := hl.lt.2
        have : 16 ≤ ((utf16 u).flatMap (bits 16)).length := by unfold utf16; split <;> simp [bits_length]
        simp at h1; simp at this
        omega
    obtain ⟨xs, hx⟩ := hx
    obtain ⟨d1, d2, st', lb', e1, e2, e3, e4, e5⟩ :=
      go_char hl (hu u (by simp)) hd he tail
    obtain ⟨se, hse⟩ := ih e3 (fun v hv => hu v (by simp [hv])) (fun d hm => hd d (by rw [e1]; simp [hm])) e4
    obtain ⟨n, hn⟩ : ∃ n, d1.length = n + 1 := ⟨d1.length - 1, by have := List.length_pos_iff.2 e2; omega⟩
    refine ⟨se, .char (n := n) (st' := st') (by rw [hx]; simp) ?_ (by rw [e1]; simp; omega) ?_⟩
    · show utf7Mbtowc st (ds.map digit ++ tail) = _
      unfold utf7Mbtowc
      rw [hx] at e5 ⊢
      simp only
      rw [e5 st x (2 * (x :: xs).length) 0, hn, Nat.zero_add]
    · rw [e1, List.map_append, List.append_assoc, List.drop_left' (by simp [hn])]
      exact hse

theorem shift_start {us : List Nat} (hne : us ≠ []) (hu : ∀ u ∈ us, Spec.Scalar u) {t : Str} (ht : Base64 t ((us.flatMap utf16).flatMap (bits 16)))
    {tail : Str} {cs : List Nat} (htail : ∀ st, Over st → ∃ se, Reads utf7 st tail cs se) : Start (us ++ cs) (43 :: t ++ tail) := by
  obtain ⟨ds, hd, rfl, z, hz, he⟩ := ht
  obtain ⟨u, us, rfl⟩ := List.exists_cons_of_ne_nil hne
  simp only [List.flatMap_cons, List.flatMap_append, List.append_assoc] at he
  obtain ⟨d, ds', rfl⟩ : ∃ d ds', ds = d :: ds' := by
    match ds, he with
    | d :: ds', _ => exact ⟨d, ds', rfl⟩
    | [], he =>
      have h1 := congrArg List.length he
      have : 16 ≤ ((utf16 u).flatMap (bits 16)).length := by unfold utf16; split <;> simp [bits_length]
      simp at h1; simp at this
      omega
  obtain ⟨d1, d2, st', lb', e1, e2, e3, e4, e5⟩ := go_char (R := (us.flatMap utf16).flatMap (bits 16) ++ List.replicate z false) Left.none
    (hu u (by simp)) hd (by rw [List.nil_append, he]) tail
  obtain ⟨n, hn⟩ : ∃ n, d1.length = n + 1 := ⟨d1.length - 1, by have := List.length_pos_iff.2 e2; omega⟩
  refine .inr ⟨u, us ++ cs, n + 1, rfl, ?_, st', ?_, ?_⟩
  · have := congrArg List.length e1
    simp only [List.cons_append, List.length_cons, List.length_append, List.length_map] at this ⊢
    omega
  · have := base_run htail hz us e3 (fun v hv => hu v (by simp [hv])) (fun d hm => hd d (by rw [e1]; simp [hm])) e4
    obtain ⟨se, hse⟩ := this
    refine ⟨se, ?_⟩
    show Reads utf7 st' (((d :: ds').map digit ++ tail).drop (n + 1)) _ _
    rw [e1, List.map_append, List.append_assoc, List.drop_left' (by simp [hn])]
    exact hse
  · intro orig start f count
    show utf7Go orig start (f + 2) 0 count (43 :: (digit d :: (ds'.map digit ++ tail))) = _
    rw [go_shift (digit_ne (hd d (by simp)))]
    have e5' : utf7Go orig start (f + 1) 1 (count + 1) (digit d :: (ds'.map digit ++ tail)) = _ := e5 orig start f (count + 1)
    rw [e5', hn, Nat.add_assoc count 1 (n + 1), Nat.add_comm 1 (n + 1)]

theorem utf7_start {cs : List Nat} {bs : Str} (h : Utf7 cs bs) : Start cs bs := by
  induction h with
  | nil => exact .inl ⟨rfl, rfl⟩
  | @plain b cs bs hb _ ih =>
    obtain ⟨se, hse⟩ := ih.reads
    exact .inr ⟨b.toNat, cs, 0, rfl, by simp, 0, ⟨se, hse⟩, fun orig start f count => go_plain hb orig start (f + 1) count bs⟩
  | @plus cs bs _ ih =>
    obtain ⟨se, hse⟩ := ih.reads
    exact .inr ⟨43, cs, 1, rfl, by simp, 0, ⟨se, hse⟩, fun orig start f count => go_plus orig start (f + 1) count bs⟩
  | @closed us t cs bs hne hu ht _ ih => exact shift_start hne hu ht (fun st ho => ih.closed ho)
  | @broken us t cs bs hne hu ht _ hb ih => exact shift_start hne hu ht (fun st ho => ih.broken hb ho)

end Verif.Iconv
