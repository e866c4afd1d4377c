import Verif.Cutter.Model
import Verif.Cutter.Spec

/-! Helper lemmas for `Props.lean`. -/
set_option linter.unusedVariables false
set_option linter.unusedSimpArgs false

namespace Verif.Cutter
open Verif Utf8

theorem charAt_get {text : Str} {k : Nat} (h : k < text.length) :
    text[k]? = some (charAt text k) := by
  simp [charAt, h]

theorem softScan_spec (text : Str) (hwf : Spec.WellFormed text) (m c : Nat) (hm : Boundary text m)
    (hc : c ≤ m) : Boundary text (softScan text m c) ∧ c ≤ softScan text m c ∧
      softScan text m c ≤ m ∧
      (∀ k, c ≤ k → k < softScan text m c → charAt text k ≠ 32) ∧
      (softScan text m c < m → charAt text (softScan text m c) = 32) := by
  fun_induction softScan text m c with
  | case1 c h h3 =>
    refine ⟨?_, by omega, by omega, by intro k; omega, fun _ => h3⟩
    have hl := hm.1
    apply boundary_of_not_trail hwf (charAt_get (by omega))
    rw [h3]; decide
  | case2 c h h3 ih =>
    obtain ⟨h1, h2, h4, h5, h6⟩ := ih (by omega)
    refine ⟨h1, by omega, h4, ?_, h6⟩
    intro k hk hk2
    by_cases e : k = c
    · subst e; exact h3
    · exact h5 k (by omega) hk2
  | case3 c h => exact ⟨hm, hc, by omega, by intro k; omega, by omega⟩

/-- Invariant of the scan: a boundary is reached before the limit. -/
theorem hardScan_spec (text : Str) (hwf : Spec.WellFormed text) (p c : Nat) (hp : p ≤ text.length)
    (hc : c ≤ p) (b : Nat) (hb : Boundary text b) (hcb : c ≤ b) (hbp : b ≤ p)
    (ht : ∀ i, c ≤ i → i < b → isTrail (charAt text i) = true) :
    Boundary text (hardScan text p c) ∧ hardScan text p c ≤ p ∧ c ≤ hardScan text p c ∧
      (hardScan text p c < p →
        p < hardScan text p c + symbolLength (charAt text (hardScan text p c))) := by
  fun_induction hardScan text p c generalizing b with
  | case1 c h h3 =>
    have hget := charAt_get (text := text) (k := c) (by omega)
    by_cases e : c = b
    · subst e; exact ⟨hb, by omega, by omega, fun _ => h3⟩
    · have := symbolLength_trail (ht c (by omega) (by omega))
      omega
  | case2 c h h3 ih =>
    have hpos := symbolLength_pos (charAt text c)
    have hget := charAt_get (text := text) (k := c) (by omega)
    by_cases e : c = b
    · subst e
      have hb' := boundary_step hb hget
      obtain ⟨h1, h2, h4, h5⟩ := ih (by omega) _ hb' (by omega) (by omega) (by intro i; omega)
      exact ⟨h1, h2, by omega, h5⟩
    · have h1 := symbolLength_trail (ht c (by omega) (by omega))
      rw [h1] at ih ⊢
      obtain ⟨h1, h2, h4, h5⟩ := ih (by omega) b hb (by omega) hbp
        (fun i hi hi2 => ht i (by omega) hi2)
      exact ⟨h1, h2, by omega, h5⟩
  | case3 c h =>
    have : c = b := by omega
    subst this
    exact ⟨hb, by omega, by omega, by omega⟩

theorem hardScan_start (text : Str) (hwf : Spec.WellFormed text) (p : Nat) (hp : p ≤ text.length) :
    Boundary text (hardScan text p (p - 4)) ∧ hardScan text p (p - 4) ≤ p ∧
      p - 4 ≤ hardScan text p (p - 4) ∧
      (hardScan text p (p - 4) < p →
        p < hardScan text p (p - 4) + symbolLength (charAt text (hardScan text p (p - 4)))) := by
  by_cases h4 : p < 4
  · have e : p - 4 = 0 := by omega
    rw [e]
    exact hardScan_spec text hwf p 0 hp (by omega) 0 (boundary_zero hwf) (by omega) (by omega)
      (by intro i; omega)
  · obtain ⟨j, hj, h1, h2⟩ := boundary_next text hwf (p - 4) (by omega)
    refine hardScan_spec text hwf p (p - 4) hp (by omega) _ h1 (by omega) (by omega) ?_
    intro i hi hi2
    obtain ⟨b, hb, hb2⟩ := h2 (i - (p - 4)) (by omega)
    have e : p - 4 + (i - (p - 4)) = i := by omega
    rw [e] at hb
    simp [charAt, hb, hb2]

/-- `findHardLimitCutPoint_` on well-formed text. -/
theorem findHard_spec (text : Str) (hwf : Spec.WellFormed text) (hard cut : Nat)
    (hcut : Boundary text cut) (hp : cut + hard ≤ text.length) (hh : hard ≠ 0) :
    match findHard text hard cut with
    | some c => Boundary text c ∧ cut < c ∧ c ≤ cut + hard ∧
        (c < cut + hard → cut + hard < c + symbolLength (charAt text c))
    | none => hard < symbolLength (charAt text cut) := by
  obtain ⟨h1, h2, h3, h4⟩ := hardScan_start text hwf (cut + hard) hp
  simp only [findHard]
  generalize hardScan text (cut + hard) (cut + hard - 4) = r at *
  by_cases h : r ≤ cut
  · rw [if_pos h]
    have h5 := h4 (by omega)
    by_cases e : r = cut
    · subst e; dsimp only; omega
    · exfalso
      have := boundary_gap h1 hcut (by omega) (charAt_get (by omega))
      omega
  · rw [if_neg h]
    exact ⟨h1, by omega, h2, h4⟩

theorem nextCut_spec (text : Str) (hwf : Spec.WellFormed text) (soft hard pos len cut : Nat)
    (hcut : Boundary text cut) (hend : Boundary text (pos + len)) (hpos : pos ≤ cut)
    (hlt : cut < pos + len) :
    match nextCut text soft hard pos len cut with
    | some c => Boundary text c ∧ cut < c ∧ c ≤ pos + len ∧ (hard ≠ 0 → c - cut ≤ hard)
    | none => hard ≠ 0 ∧ hard < symbolLength (charAt text cut) := by
  have hs : isLimitBroken soft (len - (cut - pos)) = true →
      Boundary text (findSoft text soft cut (pos + len)) ∧
      cut + soft ≤ findSoft text soft cut (pos + len) ∧
      findSoft text soft cut (pos + len) ≤ pos + len ∧ soft ≠ 0 := by
    intro hb
    simp [isLimitBroken] at hb
    obtain ⟨h1, h2, h3, _⟩ := softScan_spec text hwf (pos + len) (cut + soft) hend (by omega)
    exact ⟨h1, h2, h3, by omega⟩
  have hl := hend.1
  simp only [nextCut]
  by_cases hb : isLimitBroken hard (len - (cut - pos)) = true
  · simp only [hb, if_true]
    simp [isLimitBroken] at hb
    have hf := findHard_spec text hwf hard cut hcut (by omega) hb.1
    split at hf
    · rename_i c hc
      rw [hc]
      dsimp only
      by_cases hsb : isLimitBroken soft (len - (cut - pos)) = true
      · simp only [hsb, if_true]
        obtain ⟨s1, s2, s3, s4⟩ := hs hsb
        rcases Nat.le_total (findSoft text soft cut (pos + len)) c with h | h
        · rw [Nat.min_eq_left h]; exact ⟨s1, by omega, s3, fun _ => by omega⟩
        · rw [Nat.min_eq_right h]; exact ⟨hf.1, hf.2.1, by omega, fun _ => by omega⟩
      · simp only [hsb]
        exact ⟨hf.1, hf.2.1, by omega, fun _ => by omega⟩
    · rename_i hc
      rw [hc]
      exact ⟨hb.1, hf⟩
  · have hnb : hard ≠ 0 → len - (cut - pos) < hard := by
      intro h0; simp [isLimitBroken, h0] at hb; omega
    simp only [hb]
    by_cases hsb : isLimitBroken soft (len - (cut - pos)) = true
    · simp only [hsb, if_true]
      obtain ⟨s1, s2, s3, s4⟩ := hs hsb
      exact ⟨s1, by omega, s3, fun h0 => by have := hnb h0; omega⟩
    · simp only [hsb]
      exact ⟨hend, by omega, by omega, fun h0 => by have := hnb h0; omega⟩

/-- Pieces lying one after another in the text, from `pos`. -/
def Pieces (text : Str) (hard : Nat) : Nat → List Str → Prop
  | pos, [] => Boundary text pos
  | pos, p :: ps => Boundary text pos ∧ p ≠ [] ∧ p = (text.drop pos).take p.length ∧
      pos + p.length ≤ text.length ∧ (hard ≠ 0 → p.length ≤ hard) ∧
      Pieces text hard (pos + p.length) ps

theorem fragmentLoop_pieces (text : Str) (hwf : Spec.WellFormed text) (soft hard pos len cut : Nat)
    (hcut : Boundary text cut) (hend : Boundary text (pos + len)) (hpos : pos ≤ cut)
    (hle : cut ≤ pos + len) :
    match fragmentLoop text soft hard pos len cut with
    | some ps => Pieces text hard cut ps ∧ cut + ps.flatten.length = pos + len ∧
        (cut < pos + len → ps ≠ [])
    | none => ∃ k, Boundary text k ∧ cut ≤ k ∧ k < pos + len ∧ hard ≠ 0 ∧
        hard < symbolLength (charAt text k) := by
  fun_induction fragmentLoop text soft hard pos len cut with
  | case1 cut h hc =>
    have := nextCut_spec text hwf soft hard pos len cut hcut hend hpos h
    rw [hc] at this
    exact ⟨cut, hcut, by omega, h, this⟩
  | case2 cut h c hc hr ih =>
    have hn := nextCut_spec text hwf soft hard pos len cut hcut hend hpos h
    rw [hc] at hn
    obtain ⟨h1, h2, h3, h4⟩ := hn
    have := ih h1 (by omega) h3
    rw [hr] at this
    obtain ⟨k, hk1, hk2, hk3⟩ := this
    exact ⟨k, hk1, by omega, hk3⟩
  | case3 cut h c hc rest hr ih =>
    have hn := nextCut_spec text hwf soft hard pos len cut hcut hend hpos h
    rw [hc] at hn
    obtain ⟨h1, h2, h3, h4⟩ := hn
    have := ih h1 (by omega) h3
    rw [hr] at this
    obtain ⟨hp, hl, _⟩ := this
    have hlen : ((text.drop cut).take (c - cut)).length = c - cut := by
      have := h1.1
      simp; omega
    refine ⟨⟨hcut, ?_, ?_, ?_, ?_, ?_⟩, ?_, by simp⟩
    · intro e; rw [e] at hlen; simp at hlen; omega
    · rw [hlen]
    · rw [hlen]; have := h1.1; omega
    · rw [hlen]; exact h4
    · rw [hlen]
      have e : cut + (c - cut) = c := by omega
      rw [e]; exact hp
    · simp only [List.flatten_cons, List.length_append, hlen]; omega
  | case4 cut h => exact ⟨hcut, by simp; omega, by omega⟩

/-- Where `nextCut` cuts: not behind a space that follows the soft limit; before the end only at such a space or
because the next character exceeds the hard limit. -/
theorem nextCut_cut (text : Str) (hwf : Spec.WellFormed text) (soft hard pos len cut c : Nat)
    (hcut : Boundary text cut) (hend : Boundary text (pos + len)) (hpos : pos ≤ cut)
    (hlt : cut < pos + len) (hc : nextCut text soft hard pos len cut = some c) :
    (soft ≠ 0 → ∀ k, cut + soft ≤ k → k < c → charAt text k ≠ 32) ∧
    (c < pos + len → (soft ≠ 0 ∧ cut + soft ≤ c ∧ charAt text c = 32) ∨
      (hard ≠ 0 ∧ cut + hard < c + symbolLength (charAt text c))) := by
  have hs : isLimitBroken soft (len - (cut - pos)) = true → soft ≠ 0 ∧
      cut + soft ≤ findSoft text soft cut (pos + len) ∧
      (∀ k, cut + soft ≤ k → k < findSoft text soft cut (pos + len) → charAt text k ≠ 32) ∧
      (findSoft text soft cut (pos + len) < pos + len → charAt text (findSoft text soft cut (pos + len)) = 32) := by
    intro hb
    simp [isLimitBroken] at hb
    obtain ⟨h1, h2, h3, h4, h5⟩ := softScan_spec text hwf (pos + len) (cut + soft) hend (by omega)
    exact ⟨hb.1, h2, h4, h5⟩
  have hns : ¬ isLimitBroken soft (len - (cut - pos)) = true → soft ≠ 0 → pos + len < cut + soft := by
    intro hb h0; simp [isLimitBroken, h0] at hb; omega
  have hl := hend.1
  have hp := symbolLength_pos (charAt text c)
  simp only [nextCut] at hc
  by_cases hb : isLimitBroken hard (len - (cut - pos)) = true
  · simp only [hb, if_true] at hc
    simp [isLimitBroken] at hb
    have hf := findHard_spec text hwf hard cut hcut (by omega) hb.1
    cases hh : findHard text hard cut with
    | none => rw [hh] at hc; simp at hc
    | some h =>
      rw [hh] at hc hf
      obtain ⟨f1, f2, f3, f4⟩ := hf
      by_cases hsb : isLimitBroken soft (len - (cut - pos)) = true
      · simp only [hsb, if_true, Option.some.injEq] at hc
        obtain ⟨s1, s2, s3, s4⟩ := hs hsb
        refine ⟨fun _ k k1 k2 => s3 k k1 (by omega), fun hcl => ?_⟩
        rcases Nat.le_total (findSoft text soft cut (pos + len)) h with hle | hle
        · rw [Nat.min_eq_left hle] at hc
          subst hc
          exact Or.inl ⟨s1, s2, s4 hcl⟩
        · rw [Nat.min_eq_right hle] at hc
          subst hc
          refine Or.inr ⟨hb.1, ?_⟩
          rcases Nat.lt_or_ge h (cut + hard) with hx | hx
          · exact f4 hx
          · omega
      · simp only [hsb] at hc
        simp only [Bool.false_eq_true, if_false, Option.some.injEq] at hc
        subst hc
        refine ⟨fun h0 k k1 k2 => by have := hns hsb h0; omega, fun hcl => Or.inr ⟨hb.1, ?_⟩⟩
        rcases Nat.lt_or_ge h (cut + hard) with hx | hx
        · exact f4 hx
        · omega
  · simp only [hb] at hc
    by_cases hsb : isLimitBroken soft (len - (cut - pos)) = true
    · simp only [hsb, if_true, Bool.false_eq_true, if_false, Option.some.injEq] at hc
      obtain ⟨s1, s2, s3, s4⟩ := hs hsb
      subst hc
      exact ⟨fun _ => s3, fun hcl => Or.inl ⟨s1, s2, s4 hcl⟩⟩
    · simp only [hsb, Bool.false_eq_true, if_false, Option.some.injEq] at hc
      subst hc
      exact ⟨fun h0 k k1 k2 => by have := hns hsb h0; omega, fun hcl => by omega⟩

theorem fragmentLoop_cuts (text : Str) (hwf : Spec.WellFormed text) (soft hard pos len cut : Nat)
    (hcut : Boundary text cut) (hend : Boundary text (pos + len)) (hpos : pos ≤ cut) (hle : cut ≤ pos + len)
    (ps : List Str) (h : fragmentLoop text soft hard pos len cut = some ps) :
    (∀ f ∈ ps, soft ≠ 0 → (32 : Byte) ∉ f.drop soft) ∧
    (∀ g rest, ps = g :: rest → g.head? = some (charAt text cut)) ∧
    (∀ before after f g, ps = before ++ f :: g :: after → ∃ x, g.head? = some x ∧
      ((soft ≠ 0 ∧ soft ≤ f.length ∧ x = 32) ∨ (hard ≠ 0 ∧ hard < f.length + symbolLength x))) := by
  fun_induction fragmentLoop text soft hard pos len cut generalizing ps with
  | case1 cut hlt hc => simp at h
  | case2 cut hlt c hc hr ih => simp at h
  | case3 cut hlt c hc rest hr ih =>
    simp only [Option.some.injEq] at h
    subst h
    have hn := nextCut_spec text hwf soft hard pos len cut hcut hend hpos hlt
    rw [hc] at hn
    obtain ⟨n1, n2, n3, n4⟩ := hn
    obtain ⟨c1, c2⟩ := nextCut_cut text hwf soft hard pos len cut c hcut hend hpos hlt hc
    obtain ⟨i1, i2, i3⟩ := ih n1 (by omega) n3 rest hr
    have hcl := n1.1
    have hlen : ((text.drop cut).take (c - cut)).length = c - cut := by simp; omega
    refine ⟨?_, ?_, ?_⟩
    · intro f hf h0
      simp only [List.mem_cons] at hf
      rcases hf with rfl | hf
      · intro hm
        rw [List.mem_iff_getElem?] at hm
        obtain ⟨i, hi⟩ := hm
        rw [List.getElem?_drop, List.getElem?_take] at hi
        split at hi
        · rw [List.getElem?_drop] at hi
          have := c1 h0 (cut + (soft + i)) (by omega) (by omega)
          simp [charAt, hi] at this
        · simp at hi
      · exact i1 f hf h0
    · intro g rest' he
      simp only [List.cons.injEq] at he
      obtain ⟨rfl, _⟩ := he
      rw [List.head?_take, if_neg (by omega), List.head?_drop, charAt_get (by omega)]
    · intro before after f g he
      cases before with
      | cons b before =>
        simp only [List.cons_append, List.cons.injEq] at he
        exact i3 before after f g he.2
      | nil =>
        simp only [List.nil_append, List.cons.injEq] at he
        obtain ⟨rfl, rfl⟩ := he
        refine ⟨charAt text c, i2 g after rfl, ?_⟩
        have hclt : c < pos + len := by
          rcases Nat.lt_or_ge c (pos + len) with h | h
          · exact h
          · rw [fragmentLoop, dif_neg (by omega)] at hr; simp at hr
        rw [hlen]
        rcases c2 hclt with ⟨a, b, d⟩ | ⟨a, b⟩
        · exact Or.inl ⟨a, by omega, d⟩
        · exact Or.inr ⟨a, by omega⟩
  | case4 cut hlt => simp at h; subst h; simp

theorem pieces_flatten (text : Str) (hard pos : Nat) (ps : List Str) (h : Pieces text hard pos ps) :
    ps.flatten = (text.drop pos).take ps.flatten.length ∧ Boundary text (pos + ps.flatten.length) := by
  induction ps generalizing pos with
  | nil => simpa [Pieces] using h
  | cons p ps ih =>
    obtain ⟨h1, h2, h3, h4, h5, h6⟩ := h
    obtain ⟨i1, i2⟩ := ih _ h6
    constructor
    · simp only [List.flatten_cons, List.length_append]
      rw [List.take_add, ← h3, List.drop_drop, ← i1]
    · simpa [Nat.add_assoc] using i2

theorem pieces_boundary {text : Str} {hard pos : Nat} {ps : List Str}
    (h : Pieces text hard pos ps) : Boundary text pos := by
  cases ps with
  | nil => exact h
  | cons => exact h.1

theorem pieces_good (text : Str) (hard pos : Nat) (ps : List Str) (h : Pieces text hard pos ps) :
    ∀ p ∈ ps, p ≠ [] ∧ Spec.WellFormed p ∧ (hard ≠ 0 → p.length ≤ hard) := by
  induction ps generalizing pos with
  | nil => simp
  | cons p ps ih =>
    obtain ⟨h1, h2, h3, h4, h5, h6⟩ := h
    intro q hq
    simp only [List.mem_cons] at hq
    rcases hq with rfl | hq
    · refine ⟨h2, ?_, h5⟩
      have := wf_between h1 (pieces_boundary h6) (by omega)
      rw [h3]
      have e : pos + q.length - pos = q.length := by omega
      rw [e] at this; exact this
    · exact ih _ h6 q hq

theorem run_spec (doCut : Nat → Option Nat) (text : Str) (hwf : Spec.WellFormed text)
    (hcut : GoodCutter doCut text) (soft hard fuel pos : Nat) (queue : List Str)
    (hf : text.length - pos < fuel) (hlt : pos < text.length) (hpos : Boundary text pos)
    (hq : Pieces text hard pos queue) :
    match run doCut text soft hard fuel pos queue with
    | some ps => ps.flatten = text.drop pos ∧
        ∀ p ∈ ps, p ≠ [] ∧ Spec.WellFormed p ∧ (hard ≠ 0 → p.length ≤ hard)
    | none => ∃ k, Boundary text k ∧ k < text.length ∧ hard ≠ 0 ∧
        hard < symbolLength (charAt text k) := by
  induction fuel generalizing pos queue with
  | zero => omega
  | succ fuel ih =>
    -- a nonempty queue
    have hpop : ∀ (p : Str) (ps : List Str), Pieces text hard pos (p :: ps) →
        match (match popQueue text pos (p :: ps) with
          | none => none
          | some (piece, none, _) => some [piece]
          | some (piece, some pos', queue') =>
            if pos' < text.length then
              match run doCut text soft hard fuel pos' queue' with
              | none => none
              | some pieces => some (piece :: pieces)
            else some [piece] : Option (List Str)) with
        | some ps => ps.flatten = text.drop pos ∧
            ∀ p ∈ ps, p ≠ [] ∧ Spec.WellFormed p ∧ (hard ≠ 0 → p.length ≤ hard)
        | none => ∃ k, Boundary text k ∧ k < text.length ∧ hard ≠ 0 ∧
            hard < symbolLength (charAt text k) := by
      intro p ps hp
      have hg := pieces_good _ _ _ _ hp p (by simp)
      obtain ⟨h1, h2, h3, h4, h5, h6⟩ := hp
      have hlen : 0 < p.length := by
        rcases Nat.eq_zero_or_pos p.length with h | h
        · exact absurd (List.length_eq_zero_iff.1 h) h2
        · exact h
      simp only [popQueue]
      by_cases he : pos + p.length = text.length
      · simp only [he, if_true]
        refine ⟨?_, by simpa using hg⟩
        simp only [List.flatten_cons, List.flatten_nil, List.append_nil]
        rw [h3, List.take_of_length_le (by simp; omega)]
      · simp only [he, if_false]
        rw [if_pos (by omega)]
        have := ih (pos + p.length) ps (by omega) (by omega) (pieces_boundary h6) h6
        cases hr : run doCut text soft hard fuel (pos + p.length) ps with
        | none => rw [hr] at this; exact this
        | some qs =>
          rw [hr] at this
          obtain ⟨t1, t2⟩ := this
          refine ⟨?_, ?_⟩
          · simp only [List.flatten_cons, t1]
            conv => lhs; lhs; rw [h3]
            rw [← List.drop_drop, List.take_append_drop]
          · intro q hq
            simp only [List.mem_cons] at hq
            rcases hq with rfl | hq
            · exact hg
            · exact t2 q hq
    simp only [run]
    match queue with
    | p :: ps =>
      have := hpop p ps hq
      simp only [cutOff, ne_eq, reduceCtorEq, not_false_eq_true, if_true]
      exact this
    | [] =>
      simp only [cutOff, ne_eq, not_true_eq_false, if_false]
      have hreal : pos < realPosition text (doCut pos) ∧
          Boundary text (realPosition text (doCut pos)) := by
        cases hd : doCut pos with
        | none => exact ⟨hlt, boundary_length hwf⟩
        | some q => exact hcut pos hpos hlt q hd
      have hdc : ∀ q, doCut pos = some q → realPosition text (doCut pos) = q := by
        intro q hq; rw [hq]; rfl
      have hdn : doCut pos = none → realPosition text (doCut pos) = text.length := by
        intro hq; rw [hq]; rfl
      generalize realPosition text (doCut pos) = r at *
      obtain ⟨r1, r2⟩ := hreal
      by_cases hb : areLimitsBroken soft hard (r - pos) = true
      · simp only [hb, if_true]
        have e : pos + (r - pos) = r := by omega
        have hfl := fragmentLoop_pieces text hwf soft hard pos (r - pos) pos hpos
          (by rw [e]; exact r2) (by omega) (by omega)
        simp only [fragmentSegment]
        cases hfr : fragmentLoop text soft hard pos (r - pos) pos with
        | none =>
          rw [hfr] at hfl
          obtain ⟨k, k1, k2, k3, k4, k5⟩ := hfl
          exact ⟨k, k1, by have := r2.1; omega, k4, k5⟩
        | some ps =>
          rw [hfr] at hfl
          obtain ⟨f1, f2, f3⟩ := hfl
          match ps, f3 (by omega) with
          | p :: ps, _ => exact hpop p ps f1
      · rw [if_neg hb]
        have hlen : ((text.drop pos).take (r - pos)).length = r - pos := by
          have := r2.1; simp; omega
        have hgood : (text.drop pos).take (r - pos) ≠ [] ∧
            Spec.WellFormed ((text.drop pos).take (r - pos)) ∧
            (hard ≠ 0 → ((text.drop pos).take (r - pos)).length ≤ hard) := by
          refine ⟨?_, wf_between hpos r2 (by omega), ?_⟩
          · intro e; rw [e] at hlen; simp at hlen; omega
          · intro h0
            rw [hlen]
            simp [areLimitsBroken, isLimitBroken, h0] at hb
            omega
        cases hd : doCut pos with
        | none =>
          have := hdn hd
          subst this
          refine ⟨?_, by simpa using hgood⟩
          simp only [List.flatten_cons, List.flatten_nil, List.append_nil]
          rw [List.take_of_length_le (by simp)]
        | some q =>
          have := hdc q hd
          subst this
          dsimp only
          by_cases hrl : r < text.length
          · rw [if_pos hrl]
            have := ih r [] (by omega) hrl r2 r2
            cases hr : run doCut text soft hard fuel r [] with
            | none => rw [hr] at this; exact this
            | some qs =>
              rw [hr] at this
              obtain ⟨t1, t2⟩ := this
              refine ⟨?_, ?_⟩
              · simp only [List.flatten_cons, t1]
                have e : r = pos + (r - pos) := by omega
                conv => lhs; rhs; rw [e]
                rw [← List.drop_drop, List.take_append_drop]
              · intro q hq
                simp only [List.mem_cons] at hq
                rcases hq with rfl | hq
                · exact hgood
                · exact t2 q hq
          · rw [if_neg hrl]
            have : r = text.length := by have := r2.1; omega
            subst this
            refine ⟨?_, by simpa using hgood⟩
            simp only [List.flatten_cons, List.flatten_nil, List.append_nil]
            rw [List.take_of_length_le (by simp)]

end Verif.Cutter
