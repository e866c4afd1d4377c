import Verif.Md5.Lemmas
import Verif.Md5.Storage
import Verif.Server.PropsSession

/-!
Property theorems C83 (MD5 as in RFC 1321) and C84 (stored files are kept).
-/
set_option linter.unusedVariables false
set_option linter.unusedSimpArgs false

namespace Verif.Md5
open Verif Verif.Server Verif.Server.Site

/-! ## C83 -/

/-- Pieces of a message fed one after another. -/
def feed (m : Md5) : List Str → Option Md5
  | [] => some m
  | c :: cs => match update m c (BitVec.ofNat 32 c.length) with
    | none => none
    | some m => feed m cs

theorem feed_ok {w : Str} {cs : List Str} (hs : ∀ c ∈ cs, c.length + 64 < 2 ^ 32) : ∀ {m : Md5}, Fed m w → ∃ m', feed m cs = some m' ∧ Fed m' (w ++ cs.flatten) := by
  induction cs generalizing w with
  | nil => intro m h; exact ⟨m, rfl, by simpa using h⟩
  | cons c cs ih =>
    intro m h
    have hc := hs c (by simp)
    have hl : (BitVec.ofNat 32 c.length).toNat = c.length := by rw [BitVec.toNat_ofNat, Nat.mod_eq_of_lt (by omega)]
    obtain ⟨m1, h1, h2, _⟩ := update_ok (input := c) (length := BitVec.ofNat 32 c.length) h (by omega) (by omega)
    rw [hl, List.take_length] at h2
    obtain ⟨m2, h3, h4⟩ := ih (fun d hd => hs d (by simp [hd])) h2
    exact ⟨m2, by rw [feed, h1]; exact h3, by simpa [List.append_assoc] using h4⟩

/-- **C83** The digest of a message that is fed in any pieces, each of less than 2³² - 64 bytes, is that
of RFC 1321, whatever was in the memory of the object; `hexdigest` prints two digits for each byte. -/
theorem C83_digest {buffer digest : Str} (hb : buffer.length = 64) {cs : List Str} (hs : ∀ c ∈ cs, c.length + 64 < 2 ^ 32) :
    ∃ m m', feed (init buffer digest) cs = some m ∧ finalize m = some m' ∧ m'.digest = Spec.digest cs.flatten ∧
      Spec.Hex (Spec.digest cs.flatten) (hexdigest m') := by
  obtain ⟨m, h1, h2⟩ := feed_ok hs (fed_init (digest := digest) hb)
  obtain ⟨m', h3, h4, h5⟩ := finalize_ok h2
  rw [List.nil_append] at h5
  refine ⟨m, m', h1, h3, h5, ?_⟩
  rw [← h5]
  unfold hexdigest
  rw [h4]
  exact hex_ok _

/-- **C83** for `md5(text)`. -/
theorem C83_text {buffer digest : Str} (hb : buffer.length = 64) {text : Str} (hs : text.length + 64 < 2 ^ 32) :
    ∃ s, md5 buffer digest text = some s ∧ Spec.Hex (Spec.digest text) s := by
  obtain ⟨m, m', h1, h2, _, h4⟩ := C83_digest (digest := digest) hb (cs := [text]) (by simpa using hs)
  refine ⟨hexdigest m', ?_, by simpa using h4⟩
  unfold md5 ofText
  simp only [feed] at h1
  cases hu : update (init buffer digest) text (BitVec.ofNat 32 text.length) with
  | none => rw [hu] at h1; simp at h1
  | some m0 =>
    rw [hu] at h1
    simp only [Option.some.injEq] at h1
    subst h1
    dsimp only
    rw [h2]
    rfl

/-- Texts with equal printed digests have equal digests. -/
theorem C83_same {buffer digest buffer' digest' : Str} (hb : buffer.length = 64) (hb' : buffer'.length = 64) {a b : Str}
    (ha : a.length + 64 < 2 ^ 32) (hb2 : b.length + 64 < 2 ^ 32) :
    md5 buffer digest a = md5 buffer' digest' b ↔ Spec.digest a = Spec.digest b := by
  obtain ⟨s, h1, h2⟩ := C83_text (digest := digest) hb ha
  obtain ⟨s', h3, h4⟩ := C83_text (digest := digest') hb' hb2
  rw [h1, h3]
  constructor
  · intro h
    cases h
    exact hex_unique h2 h4
  · intro h
    rw [h] at h2
    rw [hex_function h2 h4]

/-- The test suite of RFC 1321, A.5. -/
example : md5 (List.replicate 64 7) [] [] = some (ascii "d41d8cd98f00b204e9800998ecf8427e") ∧
    md5 (List.replicate 64 7) [] (ascii "abc") = some (ascii "900150983cd24fb0d6963f7d28e17f72") ∧
    md5 (List.replicate 64 7) [] (ascii "12345678901234567890123456789012345678901234567890123456789012345678901234567890") =
      some (ascii "57edf4a22be3c955ac49da2e2107b67a") := by decide +kernel

/-- The hypotheses: three pieces of a message of 130 bytes. -/
example : (List.replicate 64 (0 : Byte)).length = 64 ∧ ∀ c ∈ [List.replicate 3 (97 : Byte), [], List.replicate 127 98], c.length + 64 < 2 ^ 32 := by
  refine ⟨by simp, ?_⟩
  simp

theorem update_digest {m m' : Md5} {input : Str} {length : Word} (h : update m input length = some m') : m'.digest = m.digest ∧ m'.finalized = m.finalized := by
  unfold update at h
  simp only at h
  split at h
  · split at h
    · split at h
      · simp at h
      · split at h
        · cases h; exact ⟨rfl, rfl⟩
        · simp at h
    · simp at h
  · split at h
    · cases h; exact ⟨rfl, rfl⟩
    · simp at h

/-- **C83** After `finalize` neither more input nor another `finalize` changes what is printed; before it
nothing is printed. -/
theorem C83_final {m m1 m2 : Md5} (h : finalize m = some m1) {input : Str} {length : Word} (hu : update m1 input length = some m2) :
    finalize m1 = some m1 ∧ hexdigest m2 = hexdigest m1 ∧ finalize m2 = some m2 ∧ (m.finalized = false → hexdigest m = []) := by
  have hf : m1.finalized = true := by
    unfold finalize at h
    split at h
    · cases h; assumption
    · simp only at h
      split at h
      · simp at h
      · split at h
        · simp at h
        · cases h; rfl
  obtain ⟨h1, h2⟩ := update_digest hu
  refine ⟨by simp [finalize, hf], by simp [hexdigest, h1, h2], by simp [finalize, h2, hf], fun h => by simp [hexdigest, h]⟩

example : ∃ m m1 m2, feed (init (List.replicate 64 0) []) [[97]] = some m ∧ finalize m = some m1 ∧ update m1 [98] 1 = some m2 := by
  cases h : feed (init (List.replicate 64 0) []) [[97]] with
  | none => exact absurd h (by decide +kernel)
  | some m =>
    obtain ⟨m', m1, h1, h2, _⟩ := C83_digest (digest := []) (show (List.replicate 64 (0 : Byte)).length = 64 by simp) (cs := [[97]]) (by simp)
    rw [h] at h1; cases h1
    have : (update m1 [98] 1).isSome = true := by
      have e : (feed (init (List.replicate 64 0) []) [[97]]).bind finalize = some m1 := by rw [h]; exact h2
      have : (((feed (init (List.replicate 64 0) []) [[97]]).bind finalize).bind (fun m => update m [98] 1)).isSome = true := by decide +kernel
      rw [e] at this
      exact this
    obtain ⟨m2, h3⟩ := Option.isSome_iff_exists.1 this
    exact ⟨m, m1, m2, rfl, h2, h3⟩

/-- **C83** fails of the code for texts of 2³² bytes and more: the length is cut to 32 bits, so that what
follows does not count. -/
theorem C83_large_false {buffer digest : Str} (hb : buffer.length = 64) {text more : Str} (hs : text.length + 64 < 2 ^ 32)
    (hm : more.length = 2 ^ 32) : md5 buffer digest (text ++ more) = md5 buffer digest text := by
  have key : ∀ t : Str, (∃ u, t = text ++ u ∧ t.length % 2 ^ 32 = text.length) → ∃ m m', update (init buffer digest) t (BitVec.ofNat 32 t.length) = some m ∧
      finalize m = some m' ∧ m'.digest = Spec.digest text ∧ m'.finalized = true := by
    rintro t ⟨u, rfl, ht⟩
    have hl : (BitVec.ofNat 32 (text ++ u).length).toNat = text.length := by rw [BitVec.toNat_ofNat, ht]
    obtain ⟨m, h1, h2, _⟩ := update_ok (input := text ++ u) (length := BitVec.ofNat 32 (text ++ u).length) (fed_init (digest := digest) hb)
      (by rw [hl]; simp) (by rw [hl]; exact hs)
    rw [hl, List.nil_append, List.take_left] at h2
    obtain ⟨m', h3, h4, h5⟩ := finalize_ok h2
    exact ⟨m, m', h1, h3, h5, h4⟩
  obtain ⟨m1, m1', a1, a2, a3, a4⟩ := key (text ++ more) ⟨more, rfl, by rw [List.length_append, hm]; omega⟩
  obtain ⟨m2, m2', b1, b2, b3, b4⟩ := key text ⟨[], by simp, by omega⟩
  unfold md5 ofText
  rw [a1, b1]
  dsimp only
  rw [a2, b2]
  simp [hexdigest, a3, b3, a4, b4]

theorem chunks_behind {input : Str} {length : Word} (h1 : 2 ^ 32 - 64 ≤ length.toNat) (h2 : input.length < 2 ^ 32) :
    ∀ (n : Nat) (i : Word) (r : Regs), i.toNat % 64 = 0 → chunks input length n i r = none := by
  intro n
  induction n with
  | zero => intros; rfl
  | succ n ih =>
    intro i r hi
    have hlt := i.isLt
    unfold chunks
    have hadd : (i + 64).toNat = (i.toNat + 64) % 2 ^ 32 := by rw [BitVec.toNat_add]; rfl
    rw [if_pos (by rw [BitVec.le_def, hadd]; omega)]
    split
    · exact ih _ _ (by rw [hadd]; omega)
    · rfl

/-- **C83** fails of the code for texts whose length is just below 2³²: the sum of position and block
size is cut to 32 bits, and bytes behind the text are read. -/
theorem C83_behind_false {buffer digest : Str} {text : Str} (h1 : 2 ^ 32 - 64 ≤ text.length) (h2 : text.length < 2 ^ 32) :
    md5 buffer digest text = none := by
  have hl : (BitVec.ofNat 32 text.length).toNat = text.length := by rw [BitVec.toNat_ofNat, Nat.mod_eq_of_lt h2]
  have hu : update (init buffer digest) text (BitVec.ofNat 32 text.length) = none := by
    have hidx : (init buffer digest).lo.toNat / 8 % 64 = 0 := by simp [init]
    unfold update
    simp only [hidx, hl, Nat.sub_zero]
    rw [if_pos (by omega), if_pos (by omega), chunks_behind (by omega) h2 _ _ _ (by decide)]
  unfold md5 ofText
  rw [hu]
  rfl

/-- Such texts. -/
example : 2 ^ 32 - 64 ≤ (List.replicate (2 ^ 32 - 10) (0 : Byte)).length ∧ (List.replicate (2 ^ 32) (0 : Byte)).length = 2 ^ 32 := by
  constructor <;> (rw [List.length_replicate]; try decide)

/-! ## C84 -/

theorem storePath_eq (root name ext : Str) : storePath root name ext = root ++ htmlPath name ext := by
  simp [storePath, htmlPath]

theorem path_inj {root a b x y : Str} (hl : a.length = b.length) (h : storePath root a x = storePath root b y) : a = b ∧ x = y := by
  unfold storePath at h
  simp only [List.append_assoc] at h
  have h := List.append_cancel_left (List.append_cancel_left (List.append_cancel_left (List.append_cancel_left h)))
  obtain ⟨h1, h2⟩ := List.append_inj h hl
  exact ⟨h1, List.append_cancel_left h2⟩

theorem hex_chars {l s : Str} (h : Spec.Hex l s) : s.length = 2 * l.length ∧ (46 : Byte) ∉ s := by
  induction h with
  | nil => simp
  | @cons b h l bs s x y a b' c d ih =>
    refine ⟨by simp [ih.1]; omega, ?_⟩
    have hne : ∀ {q : Byte} {z : Nat}, Spec.Digit q z → (46 : Byte) ≠ q := by
      rintro q z hq rfl
      rcases hq with ⟨h1, _⟩ | ⟨h1, _⟩ <;> exact absurd h1 (by decide)
    simp only [List.mem_cons, not_or]
    exact ⟨hne a, hne b', ih.2⟩

theorem digest_length (w : Str) : (Spec.digest w).length = 16 := by
  unfold Spec.digest
  simp only
  cases Spec.blocks (Spec.padded w) ((Spec.padded w).length / 64) with
  | mk a t =>
    obtain ⟨b, c, d⟩ := t
    simp [littleEndian_length]

/-- A name given by the generator is never one made of a digest. -/
theorem path_apart {root a b x y : Str} (ha : a.length = 20) (hb : b.length = 32) (hd : (46 : Byte) ∉ b) : storePath root a x ≠ storePath root b y := by
  intro h
  unfold storePath at h
  simp only [List.append_assoc] at h
  have h := List.append_cancel_left (List.append_cancel_left (List.append_cancel_left (List.append_cancel_left h)))
  have h1 := congrArg (fun l : Str => l[20]?) h
  have e1 : (a ++ ([46] ++ x))[20]? = some 46 := by rw [List.getElem?_append_right (Nat.le_of_eq ha), ha]; rfl
  have e2 : (b ++ ([46] ++ y))[20]? = b[20]? := List.getElem?_append_left (by omega)
  rw [e1, e2] at h1
  exact hd (List.mem_of_getElem? h1.symm)

/-- What is asked for is of a proper size. -/
def Op.Ok : Op → Prop
  | .new e _ _ => e.date.length = 6 ∧ e.random.length = 8
  | .byMd5 buffer _ content _ => buffer.length = 64 ∧ content.length + 64 < 2 ^ 32

/-- A path for each thing to do: the file there has the content, or one with the same digest. -/
def Kept (root : Str) (files : Str → Option Str) : Op → Str → Prop
  | .new _ content _, path => files (root ++ path) = some content
  | .byMd5 _ _ content _, path => ∃ c, files (root ++ path) = some c ∧ Spec.digest c = Spec.digest content

/-- Files whose names are digests have contents with these digests. -/
def Faithful (root : Str) (files : Str → Option Str) : Prop :=
  ∀ w s ext c, Spec.Hex (Spec.digest w) s → files (storePath root s ext) = some c → Spec.digest c = Spec.digest w

/-- No file has a name that the generator may still give. -/
def Unused (root : Str) (files : Str → Option Str) (counter : Nat) : Prop :=
  ∀ e n ext, e.date.length = 6 → e.random.length = 8 → counter < n → n < 10000 → files (storePath root (guid e n) ext) = none

theorem guid_twenty {e : Env} (hd : e.date.length = 6) (hr : e.random.length = 8) (n : Nat) : (guid e n).length = 20 := by
  simp [guid, pad_length, hd, hr]

/-- Files that are there stay as they are, as long as the generator gives new names. -/
theorem op_ok {root : Str} {st : Store} {op : Op} (ho : op.Ok) (hf : Faithful root st.files) (hu : Unused root st.files st.counter)
    (hc : st.counter + 1 < 10000) :
    ∃ path st', runOp root st op = some (path, st') ∧ Kept root st'.files op path ∧ Faithful root st'.files ∧ Unused root st'.files st'.counter ∧
      st'.counter ≤ st.counter + 1 ∧ (∀ p c, st.files p = some c → st'.files p = some c) ∧ (∀ p, p ≠ root ++ path → st'.files p = st.files p) := by
  cases op with
  | new e content ext =>
    obtain ⟨hd, hr⟩ := ho
    have hnone := hu e (st.counter + 1) ext hd hr (by omega) hc
    refine ⟨_, _, rfl, ?_, ?_, ?_, ?_, ?_, ?_⟩
    · simp [Kept, storeFile, storeAs, ← storePath_eq]
    · intro w s x c hw hs
      simp only [storeFile, storeAs] at hs
      rw [if_neg (Ne.symm (path_apart (guid_twenty hd hr _) (by rw [(hex_chars hw).1, digest_length]) (hex_chars hw).2))] at hs
      exact hf w s x c hw hs
    · intro e' n x hd' hr' hn hn'
      simp only [storeFile, storeAs] at hn ⊢
      rw [if_neg]
      · exact hu e' n x hd' hr' (by omega) hn'
      · intro h
        have := (path_inj (by rw [guid_twenty hd' hr', guid_twenty hd hr]) h).1
        have := C51_ids hd' hd hn' hc this
        omega
    · simp [storeFile, storeAs]
    · intro p c hp
      simp only [storeFile, storeAs]
      rw [if_neg]
      · exact hp
      · rintro rfl
        rw [hnone] at hp
        simp at hp
    · intro p hp
      simp only [storeFile, storeAs] at hp ⊢
      rw [← storePath_eq] at hp
      rw [if_neg hp]
  | byMd5 buffer digest content ext =>
    obtain ⟨hb, hl⟩ := ho
    obtain ⟨s, h1, h2⟩ := C83_text (digest := digest) hb hl
    simp only [runOp, storeByMd5, h1]
    cases hfile : st.files (storePath root s ext) with
    | none =>
      simp only [Option.isNone_none, if_true]
      refine ⟨_, _, rfl, ?_, ?_, ?_, ?_, ?_, ?_⟩
      · exact ⟨content, by simp [storeAs, ← storePath_eq], rfl⟩
      · intro w s' x c hw hs
        simp only [storeAs] at hs
        split at hs
        · next heq =>
          have := (path_inj (by rw [(hex_chars hw).1, (hex_chars h2).1, digest_length, digest_length]) heq).1
          subst this
          cases hs
          exact hex_unique h2 hw
        · exact hf w s' x c hw hs
      · intro e n x hd hr hn hn'
        simp only [storeAs] at hn ⊢
        rw [if_neg (path_apart (guid_twenty hd hr _) (by rw [(hex_chars h2).1, digest_length]) (hex_chars h2).2)]
        exact hu e n x hd hr hn hn'
      · simp [storeAs]
      · intro p c hp
        simp only [storeAs]
        rw [if_neg]
        · exact hp
        · rintro rfl
          rw [hfile] at hp
          simp at hp
      · intro p hp
        simp only [storeAs] at hp ⊢
        rw [← storePath_eq] at hp
        rw [if_neg hp]
    | some c =>
      simp only [Option.isNone_some, Bool.false_eq_true, if_false]
      refine ⟨_, _, rfl, ⟨c, by rw [← storePath_eq]; exact hfile, hf content s ext c h2 hfile⟩, hf, hu, by omega, fun _ _ h => h, fun _ _ => rfl⟩

theorem kept_mono {root : Str} {f g : Str → Option Str} (h : ∀ p c, f p = some c → g p = some c) {op : Op} {path : Str} (hk : Kept root f op path) :
    Kept root g op path := by
  cases op with
  | new e content ext => exact h _ _ hk
  | byMd5 b d content ext =>
    obtain ⟨c, h1, h2⟩ := hk
    exact ⟨c, h _ _ h1, h2⟩

theorem ops_ok {root : Str} (ops : List Op) : ∀ {st : Store}, (∀ op ∈ ops, op.Ok) → Faithful root st.files → Unused root st.files st.counter →
    st.counter + ops.length < 10000 →
    ∃ paths st', runOps root st ops = some (paths, st') ∧ List.Forall₂ (Kept root st'.files) ops paths ∧
      (∀ p c, st.files p = some c → st'.files p = some c) ∧ (∀ p, (∀ path ∈ paths, p ≠ root ++ path) → st'.files p = st.files p) := by
  induction ops with
  | nil => intro st _ _ _ _; exact ⟨[], st, rfl, .nil, fun _ _ h => h, fun _ _ => rfl⟩
  | cons op ops ih =>
    intro st ho hf hu hc
    simp only [List.length_cons] at hc
    obtain ⟨path, st1, h1, h2, h3, h4, h5, h6, h7⟩ := op_ok (ho op (by simp)) hf hu (by omega)
    obtain ⟨paths, st2, g1, g2, g3, g4⟩ := ih (fun o h => ho o (by simp [h])) h3 h4 (by omega)
    refine ⟨path :: paths, st2, by rw [runOps, h1]; simp only [g1], .cons (kept_mono g3 h2) g2, fun p c hp => g3 p c (h6 p c hp), ?_⟩
    intro p hp
    rw [g4 p (fun q hq => hp q (by simp [hq])), h7 p (hp path (by simp))]

/-- **C84** A server that has just been started and stores less than 10000 things keeps all of them: when
all is done, the file at each path it has returned has the content stored there, or, for
`storeFileByMD5`, a content with the same digest.  Nothing that was there before is changed, and no
other files are made. -/
theorem C84_stored {root : Str} {files : Str → Option Str} {ops : List Op} (ho : ∀ op ∈ ops, op.Ok) (hf : Faithful root files)
    (hu : Unused root files 0) (hn : ops.length < 10000) :
    ∃ paths st', runOps root ⟨files, 0⟩ ops = some (paths, st') ∧ List.Forall₂ (Kept root st'.files) ops paths ∧
      (∀ p c, files p = some c → st'.files p = some c) ∧ (∀ p, (∀ path ∈ paths, p ≠ root ++ path) → st'.files p = files p) :=
  ops_ok ops ho hf hu (by simpa using hn)

example : (∀ op ∈ [Op.new ⟨ascii "130214", ascii "abcdefgh"⟩ (ascii "x") (ascii "txt"), .byMd5 (List.replicate 64 0) [] (ascii "y") (ascii "png")], op.Ok) ∧
    Faithful (ascii "www") (fun _ => none) ∧ Unused (ascii "www") (fun _ => none) 0 := by
  refine ⟨?_, ?_, ?_⟩
  · intro op h
    simp only [List.mem_cons, List.not_mem_nil, or_false] at h
    rcases h with rfl | rfl
    · exact ⟨by decide, by decide⟩
    · exact ⟨by simp, by decide⟩
  · intro w s e c _ h; simp at h
  · intro e n x _ _ _ _; rfl

/-- **C84** fails of the code across starts of the server: the number starts again at 1, only its last
four digits are used, and the random string is that for the time plus the number.  The 10001st file of
a server is lost when a new server stores its first file 10000 seconds later on the same day. -/
theorem C84_restart_false {root : Str} {date rnd : Nat → Str} {time : Nat} (hd : date (time + 10000) = date time) {files : Str → Option Str}
    {a b ext : Str} (hab : a ≠ b) : ∃ path st st', storeAt root date rnd time ⟨files, 10000⟩ a ext = (path, st) ∧
      st.files (root ++ path) = some a ∧ storeAt root date rnd (time + 10000) ⟨st.files, 0⟩ b ext = (path, st') ∧ st'.files (root ++ path) ≠ some a := by
  have hpad : pad (10000 + 1) = pad (0 + 1) := by decide +kernel
  have hg : guid ⟨date (time + 10000), rnd (time + 10000 + (0 + 1))⟩ (0 + 1) = guid ⟨date time, rnd (time + (10000 + 1))⟩ (10000 + 1) := by
    unfold guid
    simp only [hd, hpad, Nat.add_assoc]
  have h2 : ∀ f : Str → Option Str, storeAt root date rnd (time + 10000) ⟨f, 0⟩ b ext =
      storeAs root ⟨f, 1⟩ b (guid ⟨date time, rnd (time + (10000 + 1))⟩ (10000 + 1)) ext := by
    intro f
    unfold storeAt storeFile
    rw [hg]
  refine ⟨_, _, _, rfl, ?_, h2 _, ?_⟩
  · simp [storeFile, storeAs, ← storePath_eq]
  · simp [storeAs, ← storePath_eq]
    exact fun h => hab h.symm

end Verif.Md5
