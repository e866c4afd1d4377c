import Verif.Zlib.GzipPieces
import Verif.Zlib.PropsGzip
import Verif.Zlib.PropsStreamPieces

/-! Properties of the reading of gzip files when the input comes in pieces. -/

namespace Verif.Zlib

/-! ### The parts of the head -/

theorem wordIn_read (k : Nat) : ∀ (ps : List (List Byte)) (b : Bits),
    (wordIn k b ps).map (fun y => (y.1, y.2.1 ++ y.2.2.flatten)) =
      (need (8 * k) (b.app ps.flatten)).map fun b => (b.hold, b.next)
  | [], b => by
    rw [wordIn, List.flatten_nil, bits_app_nil]
    cases need (8 * k) b with
    | none => rfl
    | some b1 => simp
  | p :: ps, b => by
    rw [wordIn]
    cases h : need (8 * k) b with
    | none =>
      simp only
      rw [wordIn_read k ps]
      exact congrArg _ (need_later (p :: ps).flatten b.next b.hold b.bits h).symm
    | some b1 =>
      have := need_app (p :: ps).flatten b.next b.hold b.bits b1 h
      rw [show b.app (p :: ps).flatten = ⟨b.hold, b.bits, b.next ++ (p :: ps).flatten⟩ from rfl, this]
      rfl

theorem wordIn_take (k : Nat) (next : List Byte) (ps : List (List Byte)) :
    (wordIn k ⟨0, 0, next⟩ ps).map (fun y => (y.1, y.2.1 ++ y.2.2.flatten)) =
      takeWord k (next ++ ps.flatten) := by
  rw [wordIn_read, takeWord]
  show Option.map _ (need (8 * k) ⟨0, 0, next ++ ps.flatten⟩) = _
  cases need (8 * k) ⟨0, 0, next ++ ps.flatten⟩ <;> rfl

theorem crcIf_nil (q : Place) (flags : Nat) (check : U4) : crcIf q flags check [] = check := by
  unfold crcIf crcBuf
  rw [crc32_bytes]
  simp

theorem crcIf_append (q : Place) (flags : Nat) (check : U4) (s t : List Byte) :
    crcIf q flags (crcIf q flags check s) t = crcIf q flags check (s ++ t) := by
  unfold crcIf crcBuf
  split
  · rw [crc32_bytes, crc32_bytes, crc32_bytes, BitVec.not_not, List.foldl_append]
  · rfl

theorem untilZero_later (t : List Byte) : ∀ (s : List Byte), untilZero s = none →
    untilZero (s ++ t) = (untilZero t).map fun r => (s ++ r.1, r.2)
  | [], _ => by simp
  | x :: xs, h => by
    rw [untilZero] at h
    split at h
    · simp at h
    · rename_i hx
      rw [Option.map_eq_none_iff] at h
      rw [List.cons_append, untilZero, if_neg hx, untilZero_later t xs h, Option.map_map]
      rfl

theorem nameIn_read (q : Place) (flags : Nat) : ∀ (ps : List (List Byte)) (check : U4) (next : List Byte),
    (nameIn q flags check next ps).map (fun y => (y.1, y.2.1 ++ y.2.2.flatten)) =
      (untilZero (next ++ ps.flatten)).map fun r => (crcIf q flags check r.1, r.2)
  | [], check, next => by
    rw [nameIn, List.flatten_nil, List.append_nil]
    cases untilZero next with
    | none => rfl
    | some r => simp
  | p :: ps, check, next => by
    rw [nameIn]
    cases h : untilZero next with
    | none =>
      simp only
      rw [nameIn_read q flags ps, untilZero_later _ _ h, Option.map_map, List.flatten_cons]
      have hc : (if next.length = 0 then check else crcIf q flags check next) =
          crcIf q flags check next := by
        split
        · rename_i h0
          rw [List.eq_nil_of_length_eq_zero h0, crcIf_nil]
        · rfl
      rw [hc]
      congr 1
      funext r
      simp [crcIf_append]
    | some r =>
      obtain ⟨s, rest⟩ := r
      rw [untilZero_append _ h]
      rfl

theorem extraIn_read (q : Place) (flags : Nat) :
    ∀ (ps : List (List Byte)) (length : Nat) (check : U4) (next : List Byte),
    (extraIn q flags length check next ps).map (fun y => (y.1, y.2.1 ++ y.2.2.flatten)) =
      if (next ++ ps.flatten).length < length then none
      else some (crcIf q flags check ((next ++ ps.flatten).take length),
        (next ++ ps.flatten).drop length)
  | [], length, check, next => by
    rw [extraIn, List.flatten_nil, List.append_nil]
    by_cases h : next.length < length
    · rw [if_pos h]
      simp only [gt_iff_lt, if_pos h]
      rw [if_pos (by omega)]
      rfl
    · rw [if_neg h]
      simp only [gt_iff_lt, if_neg h]
      rw [if_neg (by omega)]
      by_cases h0 : length = 0
      · simp [h0, crcIf_nil]
      · simp [h0]
  | p :: ps, length, check, next => by
    rw [extraIn]
    by_cases h : next.length < length
    · simp only [gt_iff_lt, if_pos h]
      rw [if_pos (show length - next.length ≠ 0 by omega), extraIn_read q flags ps]
      have hc : (if next.length ≠ 0 then crcIf q flags check (next.take next.length) else check) =
          crcIf q flags check next := by
        split
        · rw [List.take_length]
        · rename_i h0
          have hn : next = [] := List.eq_nil_of_length_eq_zero (by omega)
          rw [hn, crcIf_nil]
      rw [hc, crcIf_append, List.flatten_cons]
      generalize p ++ ps.flatten = t
      have e : (next ++ t).length = next.length + t.length := by simp
      have e1 : (next ++ t).take length = next ++ t.take (length - next.length) := by
        rw [List.take_append, List.take_of_length_le (by omega)]
      have e2 : (next ++ t).drop length = t.drop (length - next.length) := by
        rw [List.drop_append, List.drop_eq_nil_of_le (by omega), List.nil_append]
      rw [e, e1, e2]
      by_cases h2 : t.length < length - next.length
      · rw [if_pos h2, if_pos (by omega)]
      · rw [if_neg h2, if_neg (by omega)]
    · simp only [gt_iff_lt, if_neg h, Nat.sub_self, ne_eq, not_true_eq_false, if_false]
      have e : ¬ (next ++ (p :: ps).flatten).length < length := by
        rw [List.length_append]
        omega
      rw [if_neg e, List.take_append_of_le_length (by omega), List.drop_append_of_le_length (by omega)]
      by_cases h0 : length = 0
      · simp [h0, crcIf_nil]
      · simp [h0]

/-! ### The head -/

theorem word_cases {k : Nat} {next : List Byte} {ps : List (List Byte)} :
    (wordIn k ⟨0, 0, next⟩ ps = none ∧ takeWord k (next ++ ps.flatten) = none) ∨
    ∃ w n r, wordIn k ⟨0, 0, next⟩ ps = some (w, n, r) ∧
      takeWord k (next ++ ps.flatten) = some (w, n ++ r.flatten) := by
  rw [← wordIn_take]
  cases h : wordIn k ⟨0, 0, next⟩ ps with
  | none => exact .inl ⟨rfl, rfl⟩
  | some y => exact .inr ⟨y.1, y.2.1, y.2.2, rfl, rfl⟩

theorem hcrcIn_read (flags : Nat) (check : U4) (next : List Byte) (ps : List (List Byte)) :
    (hcrcIn flags check next ps).read = gzHcrc flags check (next ++ ps.flatten) := by
  unfold hcrcIn gzHcrc
  split
  · rcases word_cases (k := 2) (next := next) (ps := ps) with ⟨h1, h2⟩ | ⟨w, n, r, h1, h2⟩
    · rw [h1, h2]
      rfl
    · rw [h1, h2]
      simp only
      split <;> rfl
  · rfl

theorem name_cases (q : Place) {flags : Nat} {check : U4} {next : List Byte} {ps : List (List Byte)} :
    (nameIn q flags check next ps = none ∧ untilZero (next ++ ps.flatten) = none) ∨
    ∃ s n r, nameIn q flags check next ps = some (crcIf q flags check s, n, r) ∧
      untilZero (next ++ ps.flatten) = some (s, n ++ r.flatten) := by
  have h := nameIn_read q flags ps check next
  cases h1 : untilZero (next ++ ps.flatten) with
  | none =>
    rw [h1] at h
    exact .inl ⟨Option.map_eq_none_iff.mp h, rfl⟩
  | some y =>
    obtain ⟨s, rest⟩ := y
    rw [h1, Option.map_some, Option.map_eq_some_iff] at h
    obtain ⟨⟨c, n, r⟩, e1, e2⟩ := h
    simp only [Prod.mk.injEq] at e2
    obtain ⟨rfl, rfl⟩ := e2
    exact .inr ⟨s, n, r, e1, rfl⟩

theorem commentIn_read (q : Place) (flags : Nat) (check : U4) (next : List Byte) (ps : List (List Byte)) :
    (commentIn q flags check next ps).read = gzComment q flags check (next ++ ps.flatten) := by
  unfold commentIn gzComment
  split
  · rcases name_cases q (flags := flags) (check := check) (next := next) (ps := ps) with
      ⟨h1, h2⟩ | ⟨s, n, r, h1, h2⟩
    · rw [h1, h2]
      rfl
    · rw [h1, h2]
      exact hcrcIn_read _ _ _ _
  · exact hcrcIn_read _ _ _ _

theorem fileNameIn_read (q : Place) (flags : Nat) (check : U4) (next : List Byte)
    (ps : List (List Byte)) :
    (fileNameIn q flags check next ps).read = gzName q flags check (next ++ ps.flatten) := by
  unfold fileNameIn gzName
  split
  · rcases name_cases q (flags := flags) (check := check) (next := next) (ps := ps) with
      ⟨h1, h2⟩ | ⟨s, n, r, h1, h2⟩
    · rw [h1, h2]
      rfl
    · rw [h1, h2]
      exact commentIn_read _ _ _ _ _
  · exact commentIn_read _ _ _ _ _

theorem exlenIn_read (q : Place) (flags : Nat) (check : U4) (next : List Byte) (ps : List (List Byte)) :
    (exlenIn q flags check next ps).read = gzExtra q flags check (next ++ ps.flatten) := by
  unfold exlenIn gzExtra
  split
  · rcases word_cases (k := 2) (next := next) (ps := ps) with ⟨h1, h2⟩ | ⟨w, n, r, h1, h2⟩
    · rw [h1, h2]
      rfl
    · rw [h1, h2]
      simp only
      have h := extraIn_read q flags r w (crcIf q flags check (hbuf 2 w)) n
      by_cases hl : (n ++ r.flatten).length < w
      · rw [if_pos hl] at h ⊢
        rw [Option.map_eq_none_iff.mp h]
        rfl
      · rw [if_neg hl, Option.map_eq_some_iff] at h
        obtain ⟨⟨c, n', r'⟩, e1, e2⟩ := h
        simp only [Prod.mk.injEq] at e2
        rw [if_neg hl, e1]
        simp only
        rw [fileNameIn_read, e2.1, e2.2]
        congr 1
        by_cases h0 : w = 0
        · simp [h0, crcIf_nil]
        · simp [h0]
  · exact fileNameIn_read _ _ _ _ _

theorem timeIn_read (q : Place) (flags : Nat) (check : U4) (next : List Byte) (ps : List (List Byte)) :
    (timeIn q flags check next ps).read = gzTime q flags check (next ++ ps.flatten) := by
  unfold timeIn gzTime
  rcases word_cases (k := 4) (next := next) (ps := ps) with ⟨h1, h2⟩ | ⟨w, n, r, h1, h2⟩
  · rw [h1, h2]
    rfl
  · rw [h1, h2]
    simp only
    rcases word_cases (k := 2) (next := n) (ps := r) with ⟨h1, h2⟩ | ⟨w', n', r', h1, h2⟩
    · rw [h1, h2]
      rfl
    · rw [h1, h2]
      exact exlenIn_read _ _ _ _ _

/-! ### C214 -/

/-- C214.  However it is divided among the calls, the head of a gzip file is read as if all of it were there
at once, with the same rest. -/
theorem C214_head (q : Place) (next : List Byte) (ps : List (List Byte)) :
    (gzHeadIn q next ps).read = gzHead q (next ++ ps.flatten) := by
  unfold gzHeadIn gzHead
  rcases word_cases (k := 2) (next := next) (ps := ps) with ⟨h1, h2⟩ | ⟨w, n, r, h1, h2⟩
  · rw [h1, h2]
    rfl
  · rw [h1, h2]
    simp only
    split
    · rfl
    · rcases word_cases (k := 2) (next := n) (ps := r) with ⟨h1, h2⟩ | ⟨w', n', r', h1, h2⟩
      · rw [h1, h2]
        rfl
      · rw [h1, h2]
        simp only
        split
        · rfl
        · split
          · rfl
          · exact timeIn_read _ _ _ _ _

/-- C214.  So is its end. -/
theorem C214_tail (q : Place) (written : List (List Byte)) (next : List Byte) (ps : List (List Byte)) :
    (gzTailIn q written next ps).read = gzTail q written (next ++ ps.flatten) := by
  unfold gzTailIn gzTail
  rcases word_cases (k := 4) (next := next) (ps := ps) with ⟨h1, h2⟩ | ⟨w, n, r, h1, h2⟩
  · rw [h1, h2]
    rfl
  · rw [h1, h2]
    simp only
    split
    · rfl
    · rcases word_cases (k := 4) (next := n) (ps := r) with ⟨h1, h2⟩ | ⟨w', n', r', h1, h2⟩
      · rw [h1, h2]
        rfl
      · rw [h1, h2]
        simp only
        split <;> rfl

/-- C214.  And so is all of it: with the same outcome and the same rest. -/
theorem C214_gunzip (q : Place) (old : Nat → Nat → Nat) (space : Nat → Nat → Nat → Nat)
    (written pieces : List (List Byte)) :
    ∃ y, gunzipIn q old space written pieces = some y ∧
      y.read = gunzip q old written pieces.flatten := by
  have hh := C214_head q [] pieces
  rw [List.nil_append] at hh
  unfold gunzipIn gunzip
  rw [← hh]
  cases gzHeadIn q [] pieces with
  | more => exact ⟨_, rfl, rfl⟩
  | bad => exact ⟨_, rfl, rfl⟩
  | ok f b ps =>
    obtain ⟨⟨cs, y⟩, e1, _, e3⟩ := C213_stream old space (b.next :: ps)
    simp only [Fed.read, e1]
    rw [show (b.app ps.flatten).next = (b.next :: ps).flatten from rfl, ← e3]
    cases y with
    | more => exact ⟨_, rfl, rfl⟩
    | bad => exact ⟨_, rfl, rfl⟩
    | ok u b ps => exact ⟨_, rfl, C214_tail _ _ _ _⟩

/-- C214.  So a member of a gzip file is accepted however it is divided, just up to its end. -/
theorem C214_accepts (q : Place) (old : Nat → Nat → Nat) (space : Nat → Nat → Nat → Nat)
    {pieces written : List (List Byte)} {rest : List Byte}
    (h : Member pieces.flatten written.flatten rest) :
    ∃ b ps, gunzipIn q old space written pieces = some (.ok () b ps) ∧
      b.bits = 0 ∧ b.next ++ ps.flatten = rest := by
  obtain ⟨y, h1, h2⟩ := C214_gunzip q old space written pieces
  rw [C206_accepts q old h written rfl] at h2
  cases y with
  | more => cases h2
  | bad => cases h2
  | ok u b ps =>
    simp only [Fed.read, Read.ok.injEq, true_and] at h2
    exact ⟨b, ps, h1, congrArg Bits.bits h2, congrArg Bits.next h2⟩

/-- C214.  And what is accepted is one, if what was written is what its blocks mean. -/
theorem C214_sound (q : Place) (old : Nat → Nat → Nat) (space : Nat → Nat → Nat → Nat)
    {pieces written : List (List Byte)} {b : Bits} {ps : List (List Byte)}
    (h : gunzipIn q old space written pieces = some (.ok () b ps))
    (hp : ∀ hdr mid cs r, pieces.flatten = hdr ++ mid → GzHeader hdr →
      Blocks (streamOf mid) (8 * mid.length) cs r → expand [] cs = (written.flatten, true)) :
    Member pieces.flatten written.flatten (b.next ++ ps.flatten) := by
  obtain ⟨y, h1, h2⟩ := C214_gunzip q old space written pieces
  rw [h] at h1
  cases h1
  obtain ⟨rest, e1, e2⟩ := C206_sound q old h2.symm hp
  have := congrArg Bits.next e1
  rw [show b.next ++ ps.flatten = rest from this]
  exact e2

/-- C214.  With another CRC or length at the end it is refused, however it is divided. -/
theorem C214_damaged (q : Place) (old : Nat → Nat → Nat) (space : Nat → Nat → Nat → Nat)
    {pieces written : List (List Byte)} {hdr mid tail rest : List Byte} {cs : List Cmd}
    (hpc : pieces.flatten = hdr ++ mid) (hg : GzHeader hdr)
    (hb : Blocks (streamOf mid) (8 * mid.length) cs
      (.got () (streamOf (tail ++ rest)) (8 * (tail ++ rest).length)))
    (h8 : tail.length = 8) (ht : ¬ GzTrailer written.flatten tail) :
    gunzipIn q old space written pieces = some .bad := by
  obtain ⟨y, h1, h2⟩ := C214_gunzip q old space written pieces
  rw [hpc, C206_damaged q old hg hb h8 written ht] at h2
  cases y with
  | more => cases h2
  | bad => exact h1
  | ok u b ps => cases h2

/-- C214.  The calls that read a member in pieces, wherever they stop for want of input or of space, write
its content and never more; and with this content it is accepted. -/
theorem C214_content (q : Place) (old : Nat → Nat → Nat) (space : Nat → Nat → Nat → Nat)
    {memory : List Byte} (hm : memory.length = 32768) {pieces : List (List Byte)} {out rest : List Byte}
    (h : Member pieces.flatten out rest) :
    ∃ f b ps cs b' ps', gzHeadIn q [] pieces = .ok f b ps ∧
      streamIn old space (b.next :: ps) = some (cs, .ok () b' ps') ∧
      ∀ (calls : List (Nat × List (Bool × Cmd))) (room : Nat) (cmds : List (Bool × Cmd)),
        allCmds calls ++ plain cmds = cs →
        ∃ s1 before s2 made, inflateCalls 15 (freshStream memory) calls = some (s1, before) ∧
          inflateCall 15 s1 room cmds = some (s2, made) ∧ before ++ made <+: out ∧
          s2.mode ≠ .bad ∧
          (made.length < room → before ++ made = out ∧
            ∀ written : List (List Byte), written.flatten = before ++ made →
              ∃ b ps, gunzipIn q old space written pieces = some (.ok () b ps) ∧
                b.bits = 0 ∧ b.next ++ ps.flatten = rest) := by
  have hmem := h
  obtain ⟨hdr, mid, tail, cs, hp, hg, hb, he, _⟩ := h
  obtain ⟨f, hf⟩ := (C204_head q (hdr ++ mid) ⟨0, 0, mid⟩).mpr ⟨hdr, mid, rfl, hg, rfl⟩
  have hh := C214_head q [] pieces
  rw [List.nil_append, hp, hf] at hh
  cases hx : gzHeadIn q [] pieces with
  | more => rw [hx] at hh; cases hh
  | bad => rw [hx] at hh; cases hh
  | ok f' b ps =>
    rw [hx] at hh
    simp only [Fed.read, Read.ok.injEq] at hh
    have hmid : (b.next :: ps).flatten = mid := congrArg Bits.next hh.2
    rw [← hmid] at hb
    obtain ⟨⟨cs', y⟩, s1, _, s3⟩ := C213_follows old space (b.next :: ps) hb
    obtain ⟨b', ps', s4, _⟩ := s3
    simp only at s4
    subst s4
    refine ⟨f', b, ps, cs', b', ps', rfl, s1, ?_⟩
    intro calls room cmds hcs
    obtain ⟨hall, t1, before, t2, made, h1, h2, h3, _, h5, h6, _⟩ :=
      C213_output old space (b.next :: ps) hb hm s1 calls room cmds hcs
    rw [hall, he] at h3 h5 h6
    refine ⟨t1, before, t2, made, h1, h2, by simpa using h3, ?_, ?_⟩
    · intro hbad
      have := h6 hbad
      simp at this
    · intro hlt
      have hout : before ++ made = out := by simpa using (h5 hlt).1
      refine ⟨hout, fun written hw => C214_accepts q old space ?_⟩
      rw [hw, hout]
      exact hmem

/-! ### Examples -/

/-- A member with a name and a comment, divided in the magic number, in the name, in the CRC of the head,
within the block and in the trailer. -/
example : gunzipIn ⟨.plain, fun _ => 1⟩ (fun _ _ => 0) (fun _ _ _ => 300) [[97], [97, 97, 97]]
    [[0x1f], [0x8b, 8, 0x1a, 0, 0], [], [0, 0, 0, 3, 97], [0, 98], [0, 0xcb], [0x62, 75, 4], [2, 0, 0x45],
      [0xe5, 0x98, 0xad, 4, 0], [0, 0, 7], [9]] = some (.ok () ⟨0, 0, [7]⟩ [[9]]) := by decide +kernel

/-- The same with another length at its end. -/
example : gunzipIn ⟨.plain, fun _ => 1⟩ (fun _ _ => 0) (fun _ _ _ => 300) [[97], [97, 97, 97]]
    [[0x1f], [0x8b, 8, 0x1a, 0, 0], [], [0, 0, 0, 3, 97], [0, 98], [0, 0xcb], [0x62, 75, 4], [2, 0, 0x45],
      [0xe5, 0x98, 0xad, 4, 1], [0, 0, 7], [9]] = some .bad := by decide +kernel

/-- An extra field of three bytes, divided. -/
example : gzHeadIn ⟨.plain, fun _ => 1⟩ [0x1f, 0x8b, 8, 4, 0] [[0, 0, 0, 0, 3, 3], [0, 5], [], [6, 7, 8]] =
    .ok 0x408 ⟨0, 0, [8]⟩ [] := by decide +kernel

example : gzHeadIn ⟨.plain, fun _ => 1⟩ [0x1f, 0x8b, 8, 4, 0] [[0, 0, 0, 0, 3, 3], [0, 5], [], [6]] = .more := by
  decide +kernel

/-- A head with another CRC. -/
example : gzHeadIn ⟨.plain, fun _ => 1⟩ [] [[0x1f, 0x8b, 8, 0x1a, 0, 0], [0, 0, 0, 3, 97], [0, 98, 0, 0xcb], [0x63]] =
    .bad := by decide +kernel

end Verif.Zlib
