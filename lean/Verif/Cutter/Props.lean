import Verif.Cutter.Lemmas

/-!
Property theorems C19 (cutting under length limits).

`Utf8.Spec.WellFormed` is the standard's well-formedness; `Utf8.Boundary s k` says that splitting `s`
at `k` gives two well-formed strings.
-/
set_option linter.unusedVariables false
set_option linter.unusedSimpArgs false

namespace Verif.Cutter
open Verif Utf8

/-- **C19** Fragmenting one segment of a well-formed text: the fragments concatenate to the
segment, are nonempty, well-formed (so all cuts fall on character boundaries) and within the hard
limit. -/
theorem C19_fragment (text : Str) (hwf : Spec.WellFormed text) (soft hard pos len : Nat)
    (hpos : Boundary text pos) (hend : Boundary text (pos + len)) (frags : List Str)
    (h : fragmentSegment text soft hard pos len = some frags) :
    frags.flatten = (text.drop pos).take len ∧
    ∀ f ∈ frags, f ≠ [] ∧ Spec.WellFormed f ∧ (hard ≠ 0 → f.length ≤ hard) := by
  have := fragmentLoop_pieces text hwf soft hard pos len pos hpos hend (by omega) (by omega)
  simp only [fragmentSegment] at h
  rw [h] at this
  obtain ⟨h1, h2, _⟩ := this
  refine ⟨?_, pieces_good _ _ _ _ h1⟩
  rw [(pieces_flatten _ _ _ _ h1).1]
  congr 1; omega

/-- **C19** The whole cutting loop: for every cutter that advances to character boundaries, either the
pieces concatenate to the text, each nonempty, well-formed and within the hard limit, or the cutter
reports an error, and then the text contains a character longer than the hard limit.  The
fuel bounds the number of rounds by the length of the text, so cutting terminates. -/
theorem C19_run (doCut : Nat → Option Nat) (text : Str) (hne : text ≠ [])
    (hwf : Spec.WellFormed text) (hcut : GoodCutter doCut text) (soft hard : Nat) :
    match run doCut text soft hard (text.length + 1) 0 [] with
    | some pieces => pieces.flatten = text ∧
        ∀ p ∈ pieces, p ≠ [] ∧ Spec.WellFormed p ∧ (hard ≠ 0 → p.length ≤ hard)
    | none => hard ≠ 0 ∧ ∃ a c b, text = a ++ Spec.encode c ++ b ∧ Spec.Scalar c ∧
        hard < (Spec.encode c).length := by
  have hl : 0 < text.length := List.length_pos_iff.2 hne
  have := run_spec doCut text hwf hcut soft hard (text.length + 1) 0 [] (by omega) hl
    (boundary_zero hwf) (boundary_zero hwf)
  cases hr : run doCut text soft hard (text.length + 1) 0 [] with
  | some ps => rw [hr] at this; simpa using this
  | none =>
    rw [hr] at this
    obtain ⟨k, k1, k2, k3, k4⟩ := this
    refine ⟨k3, ?_⟩
    have hnk : text.drop k ≠ [] := by
      intro e; simp at e; omega
    obtain ⟨b, c, r, hc, h2, h3, h4, h5, h6⟩ := wf_cons k1.2.2 hnk
    refine ⟨text.take k, c, r, ?_, hc, ?_⟩
    · rw [List.append_assoc, ← h2]; simp
    · have : charAt text k = b := by
        simp [List.getElem?_drop] at h4
        simp [charAt, h4]
      rw [← h6, ← this]; exact k4

/-- **C19** With a hard limit of at least four bytes (or none) cutting never fails. -/
theorem C19_no_error (doCut : Nat → Option Nat) (text : Str) (hne : text ≠ [])
    (hwf : Spec.WellFormed text) (hcut : GoodCutter doCut text) (soft hard : Nat)
    (hh : hard = 0 ∨ 4 ≤ hard) :
    ∃ pieces, run doCut text soft hard (text.length + 1) 0 [] = some pieces := by
  have := C19_run doCut text hne hwf hcut soft hard
  cases hr : run doCut text soft hard (text.length + 1) 0 [] with
  | some ps => exact ⟨ps, rfl⟩
  | none =>
    rw [hr] at this
    obtain ⟨h1, _, c, _, _, _, h2⟩ := this
    have := encode_length_le c
    omega

/-- **C19** Where the cuts are, for any two limits.  No fragment reaches past a space that follows the soft limit.  A
fragment that is not the last one ends at a space at or behind the soft limit, or else the next character would exceed the
hard limit: no fragment is shorter than need be. -/
theorem C19_cuts (text : Str) (hwf : Spec.WellFormed text) (soft hard pos len : Nat)
    (hpos : Boundary text pos) (hend : Boundary text (pos + len)) (frags : List Str)
    (h : fragmentSegment text soft hard pos len = some frags) :
    (∀ f ∈ frags, soft ≠ 0 → (32 : Byte) ∉ f.drop soft) ∧
    ∀ before after f g, frags = before ++ f :: g :: after →
      (soft ≠ 0 ∧ soft ≤ f.length ∧ g.head? = some 32) ∨
      (hard ≠ 0 ∧ ∃ ch rest, Spec.Scalar ch ∧ g = Spec.encode ch ++ rest ∧ hard < f.length + (Spec.encode ch).length) := by
  obtain ⟨h1, _, h3⟩ := fragmentLoop_cuts text hwf soft hard pos len pos hpos hend (by omega) (by omega) frags h
  refine ⟨h1, ?_⟩
  intro before after f g he
  obtain ⟨x, hx, hcase⟩ := h3 before after f g he
  rcases hcase with ⟨a, b, rfl⟩ | ⟨a, b⟩
  · exact Or.inl ⟨a, b, hx⟩
  · right
    have hg := (C19_fragment text hwf soft hard pos len hpos hend frags h).2 g (by rw [he]; simp)
    obtain ⟨y, c, r, hc, h2, h3, h4, h5, h6⟩ := wf_cons hg.2.1 hg.1
    refine ⟨a, c, r, hc, h2, ?_⟩
    rw [List.head?_eq_getElem?, h4] at hx
    simp only [Option.some.injEq] at hx
    subst hx; rw [← h6]; exact b

/-- Both limits at work on "ab cdefgh i": the soft limit 2 cuts at a space, the hard limit 4 inside a word. -/
example : fragmentSegment [97, 98, 32, 99, 100, 101, 102, 103, 104, 32, 105] 2 4 0 11 =
    some [[97, 98], [32, 99, 100, 101], [102, 103, 104], [32, 105]] := by decide +kernel

/-- **C19** The soft limit: with no hard limit, every fragment but the last reaches the soft limit,
is followed by a space, and contains no space after the soft limit. -/
theorem C19_soft (text : Str) (hwf : Spec.WellFormed text) (soft pos len : Nat)
    (hpos : Boundary text pos) (hend : Boundary text (pos + len)) (frags : List Str)
    (h : fragmentSegment text soft 0 pos len = some frags) (before after : List Str) (f g : Str)
    (hf : frags = before ++ f :: g :: after) :
    soft ≤ f.length ∧ g.head? = some 32 ∧ (32 : Byte) ∉ f.drop soft := by
  have key : ∀ cut frags, Boundary text cut → pos ≤ cut → cut ≤ pos + len →
      fragmentLoop text soft 0 pos len cut = some frags →
      ∀ before after f g, frags = before ++ f :: g :: after →
        soft ≤ f.length ∧ g.head? = some 32 ∧ (32 : Byte) ∉ f.drop soft := by
    intro cut frags hcut hpc hle hl before
    induction before generalizing cut frags with
    | nil =>
      intro after f g hf
      rw [fragmentLoop] at hl
      split at hl
      · rename_i hlt
        have hn := nextCut_spec text hwf soft 0 pos len cut hcut hend hpc hlt
        split at hl
        · simp at hl
        · rename_i c hc
          rw [hc] at hn
          obtain ⟨n1, n2, n3, _⟩ := hn
          split at hl
          · simp at hl
          · rename_i rest hr
            simp at hl; subst hl
            simp only [List.nil_append, List.cons.injEq] at hf
            obtain ⟨rfl, rfl⟩ := hf
            have hll := hend.1
            have hcl := n1.1
            have hlen : ((text.drop cut).take (c - cut)).length = c - cut := by
              simp; omega
            have hclt : c < pos + len := by
              rcases Nat.lt_or_ge c (pos + len) with h | h
              · exact h
              · rw [fragmentLoop, dif_neg (by omega)] at hr; simp at hr
            -- how `c` was found
            have hsoft : isLimitBroken soft (len - (cut - pos)) = true ∧
                c = softScan text (pos + len) (cut + soft) := by
              simp only [nextCut, isLimitBroken, bne_self_eq_false, Bool.false_and] at hc
              by_cases hb : isLimitBroken soft (len - (cut - pos)) = true
              · refine ⟨hb, ?_⟩
                simp only [isLimitBroken] at hb
                simp [hb, findSoft] at hc
                exact hc.symm
              · exfalso
                simp only [isLimitBroken] at hb
                simp [hb] at hc
                omega
            obtain ⟨hb, hcs⟩ := hsoft
            simp [isLimitBroken] at hb
            obtain ⟨s1, s2, s3, s4, s5⟩ := softScan_spec text hwf (pos + len) (cut + soft) hend (by omega)
            rw [← hcs] at s1 s2 s3 s4 s5
            refine ⟨by rw [hlen]; omega, ?_, ?_⟩
            · have hr2 := hr
              rw [fragmentLoop] at hr2
              rw [dif_pos hclt] at hr2
              split at hr2
              · simp at hr2
              · rename_i c2 hc2
                have hgt := nextCut_gt hclt hc2
                split at hr2
                · simp at hr2
                · simp at hr2
                  obtain ⟨rfl, _⟩ := hr2
                  have h32 := s5 hclt
                  rw [List.head?_take, if_neg (by omega), List.head?_drop, charAt_get (by omega), h32]
            · intro hm
              rw [List.mem_iff_getElem?] at hm
              obtain ⟨i, hi⟩ := hm
              rw [List.getElem?_drop, List.getElem?_take] at hi
              split at hi
              · rename_i hlt2
                rw [List.getElem?_drop] at hi
                have := s4 (cut + (soft + i)) (by omega) (by omega)
                simp [charAt, hi] at this
              · simp at hi
      · simp at hl; subst hl; simp at hf
    | cons x before ih =>
      intro after f g hf
      rw [fragmentLoop] at hl
      split at hl
      · rename_i hlt
        have hn := nextCut_spec text hwf soft 0 pos len cut hcut hend hpc hlt
        split at hl
        · simp at hl
        · rename_i c hc
          rw [hc] at hn
          obtain ⟨n1, n2, n3, _⟩ := hn
          split at hl
          · simp at hl
          · rename_i rest hr
            simp at hl; subst hl
            simp only [List.cons_append, List.cons.injEq] at hf
            exact ih c rest n1 (by omega) n3 hr after f g hf.2
      · simp at hl; subst hl; simp at hf
  exact key pos frags hpos (by omega) (by omega) h before after f g hf

/-- "ala ma" (ASCII) is well-formed; a cutter taking everything at once is a good cutter. -/
example : (∃ p, run (fun _ => none) [97, 108, 97, 32, 109, 97] 0 4 7 0 [] = some p) := by
  have hwf : Spec.WellFormed [97, 108, 97, 32, 109, 97] :=
    ⟨[97, 108, 97, 32, 109, 97], by simp [Spec.Scalar], by decide⟩
  exact C19_no_error (fun _ => none) [97, 108, 97, 32, 109, 97] (by simp) hwf
    (by intro p _ _ q hq; simp at hq) 0 4 (by omega)

/-- The euro sign takes three bytes: with a hard limit of two the error is reported. -/
example : findHard (Spec.encode 0x20AC) 2 0 = none := by
  simp [findHard, hardScan, charAt, Utf8.symbolLength, Utf8.sequenceLength, Spec.encode, Spec.byte]

end Verif.Cutter
