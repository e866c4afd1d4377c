import Verif.Iconv.Tables
import Verif.Iconv.Standard

set_option maxRecDepth 10000

namespace Verif.Iconv
open Verif

/-- The check of one branch of `wctomb`. -/
def EncCase.ok (t : OneByte) : EncCase → Bool
  | .page lo l => l.zipIdx.all (fun p => p.1 == 0 || (decide (p.1 < 256) && t.mbtowc p.1 == some (lo + p.2)))
  | .same lo hi => (List.range (hi - lo)).all (fun i => decide (lo + i < 256) && t.mbtowc (lo + i) == some (lo + i))
  | .one x b => decide (b < 256) && t.mbtowc b == some x
  | .minus lo hi d => (List.range (hi - lo)).all (fun i => decide (lo + i - d < 256) && t.mbtowc (lo + i - d) == some (lo + i))

/-- The check of a character set. -/
def OneByte.ok (t : OneByte) : Bool :=
  decide (t.direct ≤ 256) && (List.range t.direct).all (fun i => t.mbtowc i == some i) && t.enc.all (EncCase.ok t) &&
    (List.range 256).all (fun c => match t.mbtowc c with | none => true | some wc => t.wctomb wc == some c)

theorem EncCase.ok_run {t : OneByte} {k : EncCase} (h : k.ok t = true) {wc : Nat} (ht : k.taken wc = true) (hne : k.run wc ≠ 0) :
    k.run wc < 256 ∧ t.mbtowc (k.run wc) = some wc := by
  cases k with
  | page lo l =>
    simp only [EncCase.ok, EncCase.taken, EncCase.run, List.all_eq_true, Bool.and_eq_true, Bool.or_eq_true, decide_eq_true_eq, beq_iff_eq] at *
    have hlt : wc - lo < l.length := by omega
    have := h (l[wc - lo], wc - lo) (by rw [List.mk_mem_zipIdx_iff_getElem?]; simp [hlt])
    rw [List.getD_eq_getElem?_getD, List.getElem?_eq_getElem hlt] at hne ⊢
    simp only [Option.getD_some] at hne ⊢
    rcases this with h0 | ⟨h1, h2⟩
    · exact absurd h0 hne
    · exact ⟨h1, by rw [h2]; congr 1; omega⟩
  | same lo hi =>
    simp only [EncCase.ok, EncCase.taken, EncCase.run, List.all_eq_true, Bool.and_eq_true, decide_eq_true_eq, beq_iff_eq, List.mem_range] at *
    have := h (wc - lo) (by omega)
    rwa [show lo + (wc - lo) = wc by omega] at this
  | one x b =>
    simp only [EncCase.ok, EncCase.taken, EncCase.run, Bool.and_eq_true, decide_eq_true_eq, beq_iff_eq] at *
    exact ⟨h.1, by rw [h.2, ht]⟩
  | minus lo hi d =>
    simp only [EncCase.ok, EncCase.taken, EncCase.run, List.all_eq_true, Bool.and_eq_true, decide_eq_true_eq, beq_iff_eq, List.mem_range] at *
    have := h (wc - lo) (by omega)
    rwa [show lo + (wc - lo) = wc by omega] at this

/-- A checked character set: the two functions are inverse to each other. -/
theorem OneByte.inverse {t : OneByte} (h : t.ok = true) (c wc : Nat) : t.wctomb wc = some c ↔ c < 256 ∧ t.mbtowc c = some wc := by
  simp only [OneByte.ok, Bool.and_eq_true, decide_eq_true_eq, List.all_eq_true, List.mem_range, beq_iff_eq] at h
  obtain ⟨⟨⟨h1, h2⟩, h3⟩, h4⟩ := h
  constructor
  · intro hw
    unfold OneByte.wctomb at hw
    split at hw
    · rename_i hd
      injection hw with hw
      subst hw
      exact ⟨by omega, h2 _ hd⟩
    · split at hw
      · exact absurd hw (by simp)
      · rename_i k hk
        split at hw
        · rename_i hne
          injection hw with hw
          subst hw
          exact EncCase.ok_run (h3 k (List.mem_of_find?_eq_some hk)) (List.find?_some hk) hne
        · exact absurd hw (by simp)
  · rintro ⟨hc, hm⟩
    have := h4 c hc
    rw [hm] at this
    simpa using this

/-- All character sets of one byte. -/
def oneByteSets : List OneByte :=
  [ascii_, cp1250, cp1251, cp1252, cp1253, cp1254, cp1256, cp1257, iso8859_1, iso8859_2, iso8859_3, iso8859_4, iso8859_5, iso8859_6,
    iso8859_7, iso8859_8, iso8859_9, iso8859_10, iso8859_11, iso8859_13, iso8859_14, iso8859_15, iso8859_16, cp866, koi8_r, koi8_ru, koi8_u, mac_cyrillic]

theorem oneByteSets_ok : ∀ t ∈ oneByteSets, t.ok = true := by decide +kernel

end Verif.Iconv
