import Verif.Server.Handler
import Verif.Server.Lemmas
import Mathlib.Data.List.Infix
import Mathlib.Data.List.SplitOn

/-!
C42: the file server stays inside its document root.
-/
set_option linter.unusedVariables false
set_option linter.unusedSimpArgs false

namespace Verif.Server
open Spec

/-! ### What a path means -/

namespace Spec

/-- The parts of a path between slashes. -/
def parts (path : Str) : List Str := path.splitOn 47

/-- One step of walking along a path; the current place is the list of directory names from the root. -/
def walk (place : List Str) (part : Str) : List Str :=
  if part = [] ∨ part = [46] then place
  else if part = [46, 46] then place.dropLast
  else place ++ [part]

/-- Where a path leads (no symbolic links). -/
def resolve (path : Str) : List Str := (parts path).foldl walk []

/-- The place is the directory `root` or below it. -/
def Inside (root path : Str) : Prop := resolve root <+: resolve path

/-- A hexadecimal digit and its value. -/
inductive Hex : Byte → Nat → Prop
  | dec {c : Byte} (h : 48 ≤ c.toNat) (h' : c.toNat ≤ 57) : Hex c (c.toNat - 48)
  | upper {c : Byte} (h : 65 ≤ c.toNat) (h' : c.toNat ≤ 70) : Hex c (c.toNat - 55)
  | lower {c : Byte} (h : 97 ≤ c.toNat) (h' : c.toNat ≤ 102) : Hex c (c.toNat - 87)

/-- Percent-encoding: every byte may be written as `%` and two hexadecimal digits; bytes other than `%` and `+` may stand
for themselves; a blank may be written as `+`. -/
inductive Encodes : Str → Str → Prop
  | nil : Encodes [] []
  | plain {c : Byte} {s e : Str} (h : c ≠ 37) (h' : c ≠ 43) : Encodes s e → Encodes (c :: s) (c :: e)
  | plus {s e : Str} : Encodes s e → Encodes (32 :: s) (43 :: e)
  | percent {c a b : Byte} {v w : Nat} {s e : Str} (ha : Hex a v) (hb : Hex b w) (hc : c.toNat = v * 16 + w) :
      Encodes s e → Encodes (c :: s) (37 :: a :: b :: e)

end Spec

/-! ### Decoding -/

theorem hexDigit_eq {c : Byte} {v : Nat} (h : Hex c v) : hexDigit c = some v ∧ v < 16 := by
  unfold hexDigit
  simp only [UInt8.le_iff_toNat_le, show (48 : UInt8).toNat = 48 from rfl, show (57 : UInt8).toNat = 57 from rfl,
    show (97 : UInt8).toNat = 97 from rfl, show (102 : UInt8).toNat = 102 from rfl,
    show (65 : UInt8).toNat = 65 from rfl, show (70 : UInt8).toNat = 70 from rfl]
  cases h with
  | dec h h' => exact ⟨by rw [if_pos ⟨h, h'⟩], by omega⟩
  | upper h h' => exact ⟨by rw [if_neg (by omega), if_neg (by omega), if_pos ⟨h, h'⟩], by omega⟩
  | lower h h' => exact ⟨by rw [if_neg (by omega), if_pos ⟨h, h'⟩], by omega⟩

theorem hex_ge {c : Byte} {v : Nat} (h : Hex c v) : 48 ≤ c.toNat ∧ c ≠ 120 ∧ c ≠ 88 := by
  cases h with
  | dec h h' => refine ⟨h, ?_, ?_⟩ <;> (rintro rfl; simp at h')
  | upper h h' => refine ⟨by omega, ?_, ?_⟩ <;> (rintro rfl; simp at h')
  | lower h h' => refine ⟨by omega, ?_, ?_⟩ <;> (rintro rfl; simp at h h')

theorem readHex_eq {a b : Byte} {v w : Nat} (ha : Hex a v) (hb : Hex b w) : readHex [a, b] = some ((v * 16 + w : Nat) : Int) := by
  obtain ⟨h1, _, _⟩ := hex_ge ha
  obtain ⟨_, h2, h3⟩ := hex_ge hb
  have hsp : isSpace a = false := by
    simp only [isSpace, Bool.or_eq_false_iff, beq_eq_false_iff_ne, Bool.and_eq_false_iff, decide_eq_false_iff_not,
      UInt8.le_iff_toNat_le]
    refine ⟨by rintro rfl; simp at h1, Or.inr ?_⟩
    show ¬ a.toNat ≤ 13
    omega
  unfold readHex
  rw [List.dropWhile_cons_of_neg (by simp [hsp])]
  have hd : hexDigits [a, b] = some (v * 16 + w) := by
    simp only [hexDigits, (hexDigit_eq ha).1, (hexDigit_eq hb).1]
    rw [if_neg (by simp [h2, h3])]
  unfold hexSigned
  split
  · rename_i e; simp only [List.cons.injEq] at e; rw [e.1] at h1; simp at h1
  · rename_i e; simp only [List.cons.injEq] at e; rw [e.1] at h1; simp at h1
  · rw [hd]; rfl

/-- **C42** (decoding): decoding undoes every percent-encoding. -/
theorem C42_decode {s e : Str} (h : Encodes s e) : urlDecode e = some s := by
  induction h with
  | nil => rfl
  | plain h1 h2 _ ih => rw [urlDecode.eq_def]; simp [h1, h2, ih]
  | plus _ ih => rw [urlDecode.eq_def]; simp [ih]
  | @percent c a b v w s e ha hb hc _ ih =>
    rw [urlDecode.eq_def]
    simp only [if_true]
    rw [readHex_eq ha hb]
    simp only [ih, Option.map_some]
    congr 2
    unfold toChar
    rw [← hc, show ((c.toNat : Nat) : Int) % 256 = (c.toNat : Int) from by
      have := c.toNat_lt; omega]
    simp

/-- `/a b%/.` in several encodings. -/
example : Encodes [47, 97, 32, 37, 47, 46] [47, 37, 54, 49, 43, 37, 50, 53, 37, 50, 102, 37, 50, 69] :=
  .plain (by decide) (by decide) (.percent (v := 6) (w := 1) (.dec (by decide) (by decide)) (.dec (by decide) (by decide)) rfl
    (.plus (.percent (v := 2) (w := 5) (.dec (by decide) (by decide)) (.dec (by decide) (by decide)) rfl
      (.percent (v := 2) (w := 15) (.dec (by decide) (by decide)) (.lower (by decide) (by decide)) rfl
        (.percent (v := 2) (w := 14) (.dec (by decide) (by decide)) (.upper (by decide) (by decide)) rfl .nil)))))

/-- The converse fails: `%-1`, `% 7` and `%5g` are no encodings, but are decoded all the same. -/
theorem C42_decode_false : urlDecode [37, 45, 49] = some [255] ∧ urlDecode [37, 32, 55] = some [7] ∧
    urlDecode [37, 53, 103] = some [5] := by decide +kernel

/-! ### The root -/

theorem hasDots_iff (s : Str) : hasDots s = true ↔ [46, 46] <:+: s := by
  fun_induction hasDots s with
  | case1 t => simp only [true_iff]; exact ⟨[], t, rfl⟩
  | case2 c t hne ih =>
    rw [ih, List.infix_cons_iff]
    constructor
    · intro h; exact Or.inr h
    · rintro (h | h)
      · obtain ⟨u, e⟩ := h
        simp only [List.cons_append, List.nil_append, List.cons.injEq] at e
        exact absurd (show c = 46 from e.1.symm) (fun h => hne u h (by rw [← e.2]))
      · exact h
  | case3 => simp

theorem splitOn_cons (c : Byte) (s : Str) : (c :: s).splitOn 47 =
    if c = 47 then [] :: s.splitOn 47 else (s.splitOn 47).modifyHead (c :: ·) := by
  rw [List.splitOn, List.splitOnP_cons]
  by_cases h : c = 47 <;> simp [h, List.splitOn]

theorem splitOn_append (a b : Str) : ∃ l x, a.splitOn 47 = l ++ [x] ∧ (a ++ 47 :: b).splitOn 47 = a.splitOn 47 ++ b.splitOn 47 := by
  induction a with
  | nil => exact ⟨[], [], by simp [List.splitOn], by rw [List.nil_append, splitOn_cons]; simp [List.splitOn]⟩
  | cons c a ih =>
    obtain ⟨l, x, e, e2⟩ := ih
    rw [List.cons_append, splitOn_cons, splitOn_cons, e2, e]
    by_cases h : c = 47
    · simp only [h, if_true]
      exact ⟨[] :: l, x, rfl, rfl⟩
    · simp only [h, if_false]
      cases l with
      | nil => exact ⟨[], c :: x, rfl, rfl⟩
      | cons y l => exact ⟨(c :: y) :: l, x, rfl, rfl⟩

theorem first_prefix (s : Str) : ∀ y ys, s.splitOn 47 = y :: ys → y <+: s := by
  induction s with
  | nil => intro y ys e; simp [List.splitOn] at e; simp [e.1]
  | cons d s ih =>
    intro y ys e
    obtain ⟨l, x, e0, _⟩ := splitOn_append s []
    rw [splitOn_cons] at e
    by_cases hd : d = 47
    · simp only [hd, if_true, List.cons.injEq] at e; rw [← e.1]; exact List.nil_prefix
    · simp only [hd, if_false] at e
      cases hl : s.splitOn 47 with
      | nil => rw [hl] at e0; simp at e0
      | cons z zs =>
        rw [hl] at e
        simp only [List.modifyHead_cons, List.cons.injEq] at e
        rw [← e.1]
        exact (List.cons_prefix_cons).2 ⟨rfl, ih z zs hl⟩

theorem part_infix (s : Str) : ∀ p ∈ s.splitOn 47, p <:+: s := by
  induction s with
  | nil => simp [List.splitOn]
  | cons c s ih =>
    intro p hp
    rw [splitOn_cons] at hp
    by_cases h : c = 47
    · simp only [h, if_true, List.mem_cons] at hp
      rcases hp with rfl | hp
      · exact List.nil_infix
      · exact (ih p hp).trans (List.suffix_cons c s).isInfix
    · simp only [h, if_false] at hp
      obtain ⟨l, x, e, _⟩ := splitOn_append s []
      cases hl : s.splitOn 47 with
      | nil => rw [hl] at e; simp at e
      | cons y ys =>
        rw [hl] at hp
        simp only [List.modifyHead_cons, List.mem_cons] at hp
        rcases hp with rfl | hp
        · exact ((List.cons_prefix_cons).2 ⟨rfl, first_prefix s y ys hl⟩).isInfix
        · exact (ih p (by rw [hl]; simp [hp])).trans (List.suffix_cons c s).isInfix

theorem hasDots_append (a b : Str) : hasDots (a ++ 47 :: b) = (hasDots a || hasDots b) := by
  fun_induction hasDots a with
  | case1 t => simp [hasDots]
  | case2 c t hne ih =>
    rw [List.cons_append, ← ih]
    cases t with
    | nil => rw [hasDots.eq_def]; simp
    | cons d t =>
      rw [hasDots.eq_def]
      split
      · rename_i e
        simp only [List.cons_append, List.cons.injEq] at e
        exact absurd (show d :: t = 46 :: t by rw [e.2.1]) (fun h => hne t e.1 h)
      · rename_i e; simp only [List.cons.injEq] at e; rw [← e.2]
      · rename_i e; simp at e
  | case3 => rw [List.nil_append, hasDots.eq_def]; simp

theorem foldl_walk (ps : List Str) : ∀ place : List Str, (∀ p ∈ ps, p ≠ [46, 46]) → place <+: ps.foldl walk place := by
  induction ps with
  | nil => intro place _; exact List.prefix_refl _
  | cons p ps ih =>
    intro place h
    have h1 : place <+: walk place p := by
      unfold walk
      rw [if_neg (h p (by simp))]
      split
      · exact List.prefix_refl _
      · exact List.prefix_append _ _
    exact h1.trans (ih _ (fun q hq => h q (by simp [hq])))

theorem inside_of {root p : Str} (h : ¬ [46, 46] <:+: p) : Inside root (root ++ 47 :: p) := by
  unfold Inside resolve parts
  obtain ⟨_, _, _, e⟩ := splitOn_append root p
  rw [e, List.foldl_append]
  apply foldl_walk
  rintro q hq rfl
  exact h (part_infix p _ hq)

theorem cstr_append {root : Str} (h : 0 ∉ root) (p : Str) : cstr (root ++ p) = root ++ cstr p := by
  unfold cstr
  rw [List.takeWhile_append_of_pos]
  intro c hc
  simp only [bne_iff_ne]
  rintro rfl
  exact h hc

/-- The name that is opened. -/
theorem opened_inside {root path : Str} (h0 : 0 ∉ root) (hs : path.head? = some 47) (hd : hasDots path = false) :
    Inside root (cstr (root ++ (if path.getLast? = some 47 then path ++ ascii "index.html" else path))) := by
  have hd' : ¬ [46, 46] <:+: path := by rw [← hasDots_iff]; simp [hd]
  cases path with
  | nil => simp at hs
  | cons c p =>
    simp only [List.head?_cons, Option.some.injEq] at hs
    subst hs
    rw [cstr_append h0]
    have key : ∀ q : Str, ¬ [46, 46] <:+: q → Inside root (root ++ cstr (47 :: q)) := by
      intro q hq
      have : cstr (47 :: q) = 47 :: cstr q := by simp [cstr]
      rw [this]
      exact inside_of (fun h => hq (h.trans (List.takeWhile_prefix _).isInfix))
    split
    · rename_i hl
      obtain ⟨q, e⟩ := List.getLast?_eq_some_iff.1 hl
      have h1 : hasDots (47 :: (p ++ ascii "index.html")) = false := by
        rw [← List.cons_append, e, List.append_assoc, List.singleton_append, hasDots_append]
        rw [e, hasDots_append] at hd
        simp only [Bool.or_eq_false_iff] at hd ⊢
        exact ⟨hd.1, by decide +kernel⟩
      refine key (p ++ ascii "index.html") (fun h => ?_)
      have := (hasDots_iff _).2 (h.trans (List.suffix_cons 47 _).isInfix)
      rw [h1] at this
      exact Bool.noConfusion this
    · exact key p (fun h => hd' (h.trans (List.suffix_cons 47 p).isInfix))

/-- **C42** (root): which files exist outside the document root, and what is in them, has no influence on any reply:
two file systems that agree inside the root give the same reply.  (No symbolic links.) -/
theorem C42_root {root : Str} (h0 : 0 ∉ root) {fs fs' : Str → Option Str} (h : ∀ name, Inside root name → fs name = fs' name)
    (uri : Str) : handle root fs uri = handle root fs' uri := by
  unfold handle
  split
  · rfl
  · split
    · rfl
    · rename_i path e hn
      simp only [not_or, ne_eq, not_not, Bool.not_eq_true] at hn
      simp only
      rw [h _ (opened_inside h0 hn.2.1 hn.2.2)]

/-- **C42** (only clean paths): a file is sent only if the decoded path begins with a slash and does not contain `..`, and then the
content is that of the file of this name below the root (with `index.html` added to directories). -/
theorem C42_path {root : Str} {fs : Str → Option Str} {uri : Str} (h : (handle root fs uri).status = 200) :
    ∃ path, urlDecode uri = some path ∧ path.head? = some 47 ∧ ¬ [46, 46] <:+: path ∧
      fs (cstr (root ++ (if path.getLast? = some 47 then path ++ ascii "index.html" else path))) =
        some (handle root fs uri).content := by
  unfold handle at h ⊢
  split at h
  · simp [stockReply] at h
  · rename_i path e
    split at h
    · simp [stockReply] at h
    · rename_i hn
      rw [e]
      simp only [hn, if_false]
      simp only [not_or, ne_eq, not_not, Bool.not_eq_true] at hn
      refine ⟨path, rfl, hn.2.1, ?_, ?_⟩
      · rw [← hasDots_iff, hn.2.2]; simp
      · simp only at h
        split at h
        · simp [stockReply] at h
        · rename_i c hc; rw [hc]

/-- Every escape attempt is refused: a path that decodes to one with `..` is answered with status 400, in whatever way it
is encoded. -/
theorem C42_refused {root : Str} {fs : Str → Option Str} {path uri : Str} (he : Encodes path uri) (h : [46, 46] <:+: path) :
    (handle root fs uri).status = 400 := by
  unfold handle
  rw [C42_decode he]
  simp only
  rw [if_pos (Or.inr (Or.inr ((hasDots_iff _).2 h)))]
  rfl

/-- `/%2e./x` with root `/srv/www`; the place `/srv/www/a` is inside, `/srv/www/../x` is not. -/
example : (handle [47, 115] (fun _ => some []) [47, 37, 50, 101, 46, 47, 120]).status = 400 ∧
    (handle [47, 115] (fun n => if n = [47, 115, 47, 97, 47] ++ ascii "index.html" then some [1] else none) [47, 97, 47]).content = [1] ∧
    Inside [47, 115] [47, 115, 47, 97] ∧ ¬ Inside [47, 115] [47, 115, 47, 46, 46, 47, 120] := by
  refine ⟨by decide +kernel, by decide +kernel, ?_, ?_⟩
  · unfold Inside; decide +kernel
  · unfold Inside; decide +kernel

/-! ### Replies -/

theorem number_decimal (n : Nat) : number (decimal n) = n ∧ (∀ d ∈ decimal n, Digit d) ∧ decimal n ≠ [] := by
  fun_induction decimal n with
  | case1 n h =>
    have e : (UInt8.ofNat (48 + n)).toNat = 48 + n := by simp; omega
    refine ⟨?_, ?_, by simp⟩
    · simp only [number, List.foldl_cons, List.foldl_nil]; omega
    · intro d hd; simp only [List.mem_singleton] at hd; subst hd; unfold Digit; omega
  | case2 n h ih =>
    have e : (UInt8.ofNat (48 + n % 10)).toNat = 48 + n % 10 := by simp; omega
    refine ⟨?_, ?_, by simp⟩
    · rw [number_snoc, ih.1]; omega
    · intro d hd
      simp only [List.mem_append, List.mem_singleton] at hd
      rcases hd with hd | rfl
      · exact ih.2.1 d hd
      · unfold Digit; omega

/-- **C42** (framing): the first header of every reply is `Content-Length`, with the number of bytes of the content. -/
theorem C42_length (root : Str) (fs : Str → Option Str) (uri : Str) :
    ∃ v t, (handle root fs uri).headers = [⟨ascii "Content-Length", v⟩, ⟨ascii "Content-Type", t⟩] ∧ v ≠ [] ∧ (∀ d ∈ v, Digit d) ∧
      number v = (handle root fs uri).content.length := by
  have key : ∀ n, ∃ v t, (stockReply n).headers = [⟨ascii "Content-Length", v⟩, ⟨ascii "Content-Type", t⟩] ∧ v ≠ [] ∧
      (∀ d ∈ v, Digit d) ∧ number v = (stockReply n).content.length := fun n =>
    ⟨_, _, rfl, (number_decimal _).2.2, (number_decimal _).2.1, (number_decimal _).1⟩
  unfold handle
  split
  · exact key _
  · split
    · exact key _
    · simp only
      split
      · exact key _
      · exact ⟨_, _, rfl, (number_decimal _).2.2, (number_decimal _).2.1, (number_decimal _).1⟩

end Verif.Server
