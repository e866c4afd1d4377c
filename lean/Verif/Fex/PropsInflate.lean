import Verif.Fex.InflateSpec
import Verif.Fex.Props

/-! Properties of the reading of compressed files. -/

namespace Verif.Fex

variable {σ : Type} {d : Decoder σ} {size : Nat}

theorem inflateLoop_serves {I : σ → List Byte → List Byte → List Byte → Prop} (hd : Serves d I)
    (hs : 0 < size) {rest : List Byte} :
    ∀ (fuel : Nat) (s : σ) (avail file out : List Byte) (space : Nat),
      I s (avail ++ file) out rest → 0 < space → file.length < fuel →
      (out.length ≤ space ∧ ∃ file', inflateLoop d size fuel s avail file space = some (.ended file' out)) ∨
      ∃ s' avail' file', inflateLoop d size fuel s avail file space =
          some (.kept s' avail' file' (out.take space)) ∧ space ≤ out.length ∧
        I s' (avail' ++ file') (out.drop space) rest
  | 0, _, _, _, _, _, _, _, h => by omega
  | fuel + 1, s, avail, file, out, space, hi, h0, hf => by
    rw [inflateLoop]
    rcases hd s avail file out rest space hi h0 with ⟨h1, h2, h3, _⟩ | ⟨h1, out', h2, h3, h4, h5⟩
    · simp only [h1, if_true]
      exact .inl ⟨h3, file, by rw [h2]⟩
    · have hne : (d s avail space).code ≠ .streamEnd := by
        rcases h1 with h1 | ⟨h1, _⟩ <;> rw [h1] <;> decide
      have hok : ¬ ((d s avail space).code ≠ .ok ∧
          ((d s avail space).code ≠ .bufError ∨ avail.length ≠ 0)) := by
        rcases h1 with h1 | ⟨h1, ha⟩
        · exact fun hc => hc.1 h1
        · rintro ⟨_, hc | hc⟩
          · exact hc h1
          · rw [ha] at hc
            exact hc rfl
      simp only
      rw [if_neg hne, if_neg hok]
      subst h2
      generalize d s avail space = r at *
      by_cases hfull : space - r.made.length = 0
      · rw [if_pos hfull]
        have he : r.made.length = space := by omega
        refine .inr ⟨r.state, r.left, file, ?_, ?_, ?_⟩
        · rw [← he, List.take_left]
        · rw [List.length_append]
          omega
        · rw [← he, List.drop_left]
          exact h5
      · rw [if_neg hfull]
        obtain ⟨hl, hlater⟩ := h4 (by omega)
        have hpos : 0 < file.length := List.length_pos_iff.mpr hlater
        rw [if_neg (by simp [hl]), if_neg (by rw [List.length_take]; omega)]
        rw [hl, List.nil_append, ← List.take_append_drop size file] at h5
        have hlt : (file.drop size).length < fuel := by
          rw [List.length_drop]
          omega
        rcases inflateLoop_serves hd hs fuel r.state (file.take size) (file.drop size) out'
          (space - r.made.length) h5 (by omega) hlt with ⟨g1, file', g2⟩ | ⟨s', avail', file', g1, g2, g3⟩
        · refine .inl ⟨by rw [List.length_append]; omega, file', ?_⟩
          rw [g2]
          rfl
        · refine .inr ⟨s', avail', file', ?_, by rw [List.length_append]; omega, ?_⟩
          · rw [g1, List.take_append, List.take_of_length_le h3]
            rfl
          · rw [List.drop_append, List.drop_eq_nil_of_le h3, List.nil_append]
            exact g3

/-! ### C215 -/

theorem pieces_nil : ∀ (counts : List Nat), pieces [] counts = counts.map fun _ => []
  | [] => rfl
  | n :: ns => by simp [pieces, pieces_nil ns]

/-- C215.  With any decoder that serves, whatever part of the file is in the buffer at first and however large
the buffer is, the calls of `read` give the content one behind the other, each as many bytes as it was asked for,
or all that were left; and there is no error. -/
theorem C215_read {I : σ → List Byte → List Byte → List Byte → Prop} (hd : Serves d I) (hs : 0 < size)
    {rest : List Byte} : ∀ (counts : List Nat) (s : σ) (avail file out : List Byte),
      I s (avail ++ file) out rest → inflateAll d size s avail file counts = some (pieces out counts)
  | [], _, _, _, _, _ => rfl
  | count :: counts, s, avail, file, out, hi => by
    rw [inflateAll, inflateRead, pieces]
    by_cases h0 : count = 0
    · subst h0
      simp only [ne_eq, not_true_eq_false, if_false]
      rw [C215_read hd hs counts s avail file out hi]
      simp
    · rw [if_pos h0]
      rcases inflateLoop_serves hd hs (file.length + 1) s avail file out count hi (by omega) (by omega) with
        ⟨g1, file', g2⟩ | ⟨s', avail', file', g1, g2, g3⟩
      · rw [g2]
        simp only
        rw [List.take_of_length_le g1, List.drop_eq_nil_of_le g1, pieces_nil]
      · rw [g1]
        simp only
        rw [C215_read hd hs counts s' avail' file' _ g3]
        rfl

/-- C215.  As `Gzip_Reader::open` uses it: a part of the file is read into the buffer, and then `read` gives the
content. -/
theorem C215_open {I : σ → List Byte → List Byte → List Byte → Prop} (hd : Serves d I) {s0 : σ}
    {file out rest : List Byte} (hi : I s0 file out rest) :
    ∃ s later, begin 0 0 true file = some (s, later) ∧
      ∀ counts, inflateAll d s.size s0 s.avail later counts = some (pieces out counts) := by
  obtain ⟨s, e1, _, e3, e4, _⟩ := fillBuf_inv (file := file) (count := blockSize)
    (s := { ended with size := 4 * blockSize }) (by simp [blockSize])
  refine ⟨s, _, by simpa [begin] using e1, fun counts => C215_read (rest := rest) hd ?_ counts s0 s.avail _ out ?_⟩
  · rw [e4]
    simp [blockSize]
  · rw [e3, List.take_append_drop]
    exact hi

theorem inflateLoop_endless {J : σ → List Byte → Prop} (hd : Endless d J) :
    ∀ (fuel : Nat) (s : σ) (avail file : List Byte) (space : Nat),
      J s (avail ++ file) → 0 < space → file.length < fuel →
      inflateLoop d size fuel s avail file space = some .failed ∨
      ∃ s' avail' file' out, inflateLoop d size fuel s avail file space =
          some (.kept s' avail' file' out) ∧ out.length = space ∧ J s' (avail' ++ file')
  | 0, _, _, _, _, _, _, h => by omega
  | fuel + 1, s, avail, file, space, hj, h0, hf => by
    rw [inflateLoop]
    obtain ⟨h1, h2, h3⟩ := hd s avail file space hj h0
    simp only
    rw [if_neg h1]
    generalize d s avail space = r at *
    split
    · exact .inl rfl
    · split
      · exact .inr ⟨_, _, _, _, rfl, by omega, h3⟩
      · split
        · exact .inl rfl
        · rename_i hfull hl
          have hl' : r.left = [] := List.eq_nil_of_length_eq_zero (by omega)
          split
          · exact .inl rfl
          · rename_i hne
            rw [List.length_take] at hne
            rw [hl', List.nil_append, ← List.take_append_drop size file] at h3
            have hlt : (file.drop size).length < fuel := by
              rw [List.length_drop]
              omega
            rcases inflateLoop_endless hd fuel r.state (file.take size) (file.drop size)
              (space - r.made.length) h3 (by omega) hlt with g | ⟨s', avail', file', out, g1, g2, g3⟩
            · rw [g]
              exact .inl rfl
            · rw [g1]
              exact .inr ⟨s', avail', file', r.made ++ out, rfl, by rw [List.length_append]; omega, g3⟩

/-- C215.  If the stream is never ended, because it is wrong or cut, a call of `read` gives an error or just as
many bytes as it was asked for: it is never taken for the end of the content. -/
theorem C215_endless {J : σ → List Byte → Prop} (hd : Endless d J) :
    ∀ (counts : List Nat) (s : σ) (avail file : List Byte), J s (avail ++ file) →
      ∀ outs, inflateAll d size s avail file counts = some outs → outs.map List.length = counts
  | [], _, _, _, _, outs, h => by
    simp only [inflateAll, Option.some.injEq] at h
    subst h
    rfl
  | count :: counts, s, avail, file, hj, outs, h => by
    rw [inflateAll, inflateRead] at h
    by_cases h0 : count = 0
    · subst h0
      simp only [ne_eq, not_true_eq_false, if_false, Option.map_eq_some_iff] at h
      obtain ⟨outs', h1, rfl⟩ := h
      rw [List.map_cons, C215_endless hd counts s avail file hj outs' h1]
      rfl
    · rw [if_pos h0] at h
      rcases inflateLoop_endless hd (file.length + 1) s avail file count hj (by omega) (by omega) with
        g | ⟨s', avail', file', out, g1, g2, g3⟩
      · rw [g] at h
        cases h
      · rw [g1] at h
        simp only [Option.map_eq_some_iff] at h
        obtain ⟨outs', h1, rfl⟩ := h
        rw [List.map_cons, C215_endless hd counts s' avail' file' g3 outs' h1, g2]

/-! ### Examples -/

/-- A decoder for streams that say how many bytes follow: the state is that number once it is known. -/
def counted : Decoder (Option Nat) := fun s avail space =>
  match s, avail with
  | none, [] => ⟨none, [], [], .bufError⟩
  | none, n :: avail =>
    let made := avail.take (min n.toNat space)
    if made.length = n.toNat then ⟨some 0, made, avail.drop (min n.toNat space), .streamEnd⟩
    else ⟨some (n.toNat - made.length), made, avail.drop (min n.toNat space), .ok⟩
  | some n, avail =>
    let made := avail.take (min n space)
    if made.length = n then ⟨some 0, made, avail.drop (min n space), .streamEnd⟩
    else ⟨some (n - made.length), made, avail.drop (min n space), if avail = [] then .bufError else .ok⟩

theorem counted_part {avail later out rest : List Byte} {space : Nat}
    (h : avail ++ later = out ++ rest) :
    let made := avail.take (min out.length space)
    let left := avail.drop (min out.length space)
    (made.length = out.length → made = out ∧ out.length ≤ space ∧ left ++ later = rest) ∧
    (made.length ≠ out.length → ∃ out', out = made ++ out' ∧ made.length ≤ space ∧
      (made.length < space → left = [] ∧ later ≠ []) ∧ left ++ later = out' ++ rest ∧
      out'.length = out.length - made.length ∧ 0 < out.length - made.length) := by
  intro made left
  have hlen : made.length = min (min out.length space) avail.length := List.length_take
  have hm : made = out.take made.length := by
    have h1 : made = (avail ++ later).take made.length := by
      rw [List.take_append_of_le_length (by omega), hlen]
      show avail.take (min out.length space) = _
      rcases Nat.le_total (min out.length space) avail.length with hc | hc
      · rw [Nat.min_eq_left hc]
      · rw [Nat.min_eq_right hc, List.take_length, List.take_of_length_le hc]
    rw [h1, h, List.take_append_of_le_length (by omega)]
    simp only [List.length_take]
    congr 1
    omega
  have hl : left ++ later = out.drop made.length ++ rest := by
    have h1 : out.drop made.length ++ rest = (out ++ rest).drop made.length :=
      (List.drop_append_of_le_length (by omega)).symm
    rw [h1, ← h, List.drop_append_of_le_length (by omega), hlen]
    show avail.drop (min out.length space) ++ later = _
    rcases Nat.le_total (min out.length space) avail.length with hc | hc
    · rw [Nat.min_eq_left hc]
    · rw [Nat.min_eq_right hc, List.drop_length, List.drop_of_length_le hc]
  constructor
  · intro he
    refine ⟨by rw [hm, he, List.take_length], by omega, ?_⟩
    rw [hl, he, List.drop_length, List.nil_append]
  · intro hne
    refine ⟨out.drop made.length, ?_, by omega, ?_, hl, List.length_drop, by omega⟩
    · have h1 := List.take_append_drop made.length out
      rw [← hm] at h1
      exact h1.symm
    · intro hlt
      have ha : left = [] := List.drop_eq_nil_of_le (by omega)
      refine ⟨ha, ?_⟩
      rintro rfl
      rw [ha] at hl
      have := congrArg List.length hl
      simp only [List.length_append, List.length_nil, List.length_drop] at this
      omega

/-- It serves. -/
theorem counted_serves : Serves counted fun s input out rest =>
    match s with
    | none => input = UInt8.ofNat out.length :: out ++ rest ∧ out.length < 256
    | some n => input = out ++ rest ∧ out.length = n ∧ 0 < n := by
  intro s avail later out rest space hi h0
  cases s with
  | none =>
    obtain ⟨hi, h256⟩ := hi
    cases avail with
    | nil =>
      refine .inr ⟨.inr ⟨rfl, rfl⟩, out, rfl, Nat.zero_le _, fun _ => ⟨rfl, ?_⟩, hi, h256⟩
      intro hc
      rw [hc] at hi
      simp at hi
    | cons n avail =>
      simp only [List.cons_append, List.cons.injEq] at hi
      obtain ⟨rfl, hi⟩ := hi
      have hn : (UInt8.ofNat out.length).toNat = out.length := by
        simp only [UInt8.toNat_ofNat']
        omega
      obtain ⟨p1, p2⟩ := counted_part (space := space) hi
      simp only [counted, hn]
      by_cases he : (avail.take (min out.length space)).length = out.length
      · rw [if_pos he]
        obtain ⟨q1, q2, q3⟩ := p1 he
        exact .inl ⟨rfl, q1, q2, q3⟩
      · rw [if_neg he]
        obtain ⟨out', q1, q2, q3, q4, q5, q6⟩ := p2 he
        exact .inr ⟨.inl rfl, out', q1, q2, q3, q4, q5, q6⟩
  | some n =>
    obtain ⟨hi, rfl, hn⟩ := hi
    obtain ⟨p1, p2⟩ := counted_part (space := space) hi
    simp only [counted]
    by_cases he : (avail.take (min out.length space)).length = out.length
    · rw [if_pos he]
      obtain ⟨q1, q2, q3⟩ := p1 he
      exact .inl ⟨rfl, q1, q2, q3⟩
    · rw [if_neg he]
      obtain ⟨out', q1, q2, q3, q4, q5, q6⟩ := p2 he
      refine .inr ⟨?_, out', q1, q2, q3, q4, q5, q6⟩
      by_cases ha : avail = []
      · exact .inr ⟨if_pos ha, ha⟩
      · exact .inl (if_neg ha)

example : inflateAll counted 2 none [] [5, 1, 2, 3, 4, 5, 9, 9] [2, 0, 2, 7, 1] =
    some [[1, 2], [], [3, 4], [5], []] := by decide

/-- Cut. -/
example : inflateAll counted 2 none [] [5, 1, 2, 3] [2, 1] = some [[1, 2], [3]] := by decide

example : inflateAll counted 2 none [] [5, 1, 2, 3] [2, 2] = none := by decide

end Verif.Fex
