import Verif.Server.Props
import Mathlib.Tactic.Positivity
import Mathlib.Tactic.NormNum

/-!
C46, continued: when nothing undefined happens in the request parser.
-/
set_option linter.unusedVariables false
set_option linter.unusedSimpArgs false

namespace Verif.Server
open Spec

/-- The number of digits in a string. -/
def digitCount (s : Str) : Nat := s.countP isDigit

theorem digits_lt (s : Str) : ∀ {v k}, v < 10 ^ k → digits v s < 10 ^ (k + digitCount s) := by
  induction s with
  | nil => intro v k h; simpa [digits, digitCount] using h
  | cons c s ih =>
    intro v k h
    have e : digitCount (c :: s) = digitCount s + (if isDigit c then 1 else 0) := by
      simp [digitCount, List.countP_cons]
    unfold digits
    split
    · rename_i hc
      have h2 := ((isDigit_iff c).1 hc).2
      have : v * 10 + (c.toNat - 48) < 10 ^ (k + 1) := by rw [Nat.pow_succ]; omega
      have := ih this
      rw [e, if_pos hc]
      rw [show k + (digitCount s + 1) = k + 1 + digitCount s by omega]; exact this
    · exact Nat.lt_of_lt_of_le h (Nat.pow_le_pow_right (by omega) (by omega))

theorem digitCount_dropWhile (f : Byte → Bool) (s : Str) : digitCount (s.dropWhile f) ≤ digitCount s :=
  (List.dropWhile_sublist f).countP_le

theorem atoi_some {s : Str} (h : digitCount s ≤ 9) : ∃ v, atoi s = some v := by
  have hd := Nat.le_trans (digitCount_dropWhile isSpace s) h
  unfold atoi
  have key : ∀ t : Str, digitCount t ≤ 9 → digits 0 t < 1000000000 := by
    intro t ht
    have := digits_lt t (v := 0) (k := 0) (by simp)
    exact Nat.lt_of_lt_of_le this (by
      rw [show (1000000000 : Nat) = 10 ^ 9 by norm_num]; exact Nat.pow_le_pow_right (by omega) (by omega))
  split
  · rename_i t e
    rw [e] at hd
    have := key t (by simpa [digitCount, List.countP_cons, isDigit] using hd)
    exact ⟨_, if_pos ⟨by omega, by omega⟩⟩
  · rename_i t e
    rw [e] at hd
    have := key t (by simpa [digitCount, List.countP_cons, isDigit] using hd)
    exact ⟨_, if_pos ⟨by omega, by omega⟩⟩
  · have := key _ hd
    exact ⟨_, if_pos ⟨by omega, by omega⟩⟩

/-- The states inside a header. -/
def inHeader : St → Bool
  | .lws | .name | .spaceBefore | .value | .newline2 => true
  | _ => false

/-- After `k` digits. -/
structure Safe (p : Parser) (r : Request) (k : Nat) : Prop where
  major : 0 ≤ r.major ∧ r.major < 10 ^ k
  minor : 0 ≤ r.minor ∧ r.minor < 10 ^ k
  values : ∀ h ∈ r.headers, digitCount h.value ≤ k
  header : inHeader p.st = true → r.headers ≠ []

/-- The value of one byte as a digit count. -/
def one (c : Byte) : Nat := if isDigit c then 1 else 0

theorem Safe.mono {p r k n} (h : Safe p r k) (hn : k ≤ n) : Safe p r n := by
  have : (10 : Int) ^ k ≤ 10 ^ n := by exact_mod_cast Nat.pow_le_pow_right (by omega) hn
  exact ⟨⟨h.1.1, by have := h.1.2; omega⟩, ⟨h.2.1, by have := h.2.2; omega⟩, fun x hx => Nat.le_trans (h.3 x hx) hn, h.4⟩

theorem Safe.st {p r k} (h : Safe p r k) (s : St) (hs : inHeader s = true → r.headers ≠ []) : Safe { p with st := s } r k :=
  ⟨h.1, h.2, h.3, hs⟩

theorem addDigit_safe {v : Int} {k : Nat} {c : Byte} (hv : 0 ≤ v ∧ v < 10 ^ k) (hc : isDigit c = true) (hk : k + 1 ≤ 9) :
    ∃ w, addDigit v c = some w ∧ 0 ≤ w ∧ w < 10 ^ (k + 1) := by
  have h := (isDigit_iff c).1 hc
  have h1 := h.1
  have h2 := h.2
  have h3 : (10 : Int) ^ (k + 1) ≤ 10 ^ 9 := by exact_mod_cast Nat.pow_le_pow_right (by omega) hk
  rw [pow_succ] at h3 ⊢
  have h4 : (10 : Int) ^ 9 = 1000000000 := by norm_num
  refine ⟨_, if_pos (by omega), by omega, by omega⟩

theorem pushValue_safe {r : Request} {c : Byte} (h : r.headers ≠ []) :
    ∃ hs x, r.headers = hs ++ [x] ∧ pushValue r c = some { r with headers := hs ++ [⟨x.name, x.value ++ [c]⟩] } := by
  obtain ⟨hs, x, e⟩ := List.eq_nil_or_concat r.headers |>.resolve_left h
  rw [List.concat_eq_append] at e
  exact ⟨hs, x, e, by simp [pushValue, e]⟩

theorem pushName_safe {r : Request} {c : Byte} (h : r.headers ≠ []) :
    ∃ hs x, r.headers = hs ++ [x] ∧ pushName r c = some { r with headers := hs ++ [⟨x.name ++ [c], x.value⟩] } := by
  obtain ⟨hs, x, e⟩ := List.eq_nil_or_concat r.headers |>.resolve_left h
  rw [List.concat_eq_append] at e
  exact ⟨hs, x, e, by simp [pushName, e]⟩

/-- What holds of a step: it is defined, and if it goes on, the invariant holds. -/
def StepOk (x : Option (Verdict × Parser × Request)) (k : Nat) : Prop :=
  ∃ v p r, x = some (v, p, r) ∧ (v = .more → Safe p r k)

theorem stepOk_go {p r k s} (h : Safe p r k) (hs : inHeader s = true → r.headers ≠ []) : StepOk (go p s r) k :=
  ⟨_, _, _, rfl, fun _ => h.st s hs⟩

theorem stepOk_reject {p r k} : StepOk (reject p r) k := ⟨_, _, _, rfl, by simp⟩

theorem consume_safe {p r k c} (h : Safe p r k) (hk : k + one c ≤ 9) : StepOk (consume p r c) (k + one c) := by
  have hm := h.mono (Nat.le_add_right k (one c))
  have hdig : isDigit c = true → one c = 1 := fun h => by simp [one, h]
  have hval : inHeader p.st = true → StepOk ((pushValue r c).bind (fun r' => go p .value r')) (k + one c) := by
    intro hp
    obtain ⟨hs, x, e, e2⟩ := pushValue_safe (c := c) (h.header hp)
    rw [e2]
    refine stepOk_go ⟨hm.1, hm.2, ?_, by simp⟩ (by simp)
    intro y hy
    simp only [List.mem_append, List.mem_singleton] at hy
    rcases hy with hy | rfl
    · exact hm.3 y (by rw [e]; simp [hy])
    · have := h.3 x (by rw [e]; simp)
      simpa [digitCount, List.countP_append, one, List.countP_cons] using this
  have hmaj : isDigit c = true → StepOk ((addDigit r.major c).bind (fun v => go p .major { r with major := v })) (k + one c) := by
    intro hc
    obtain ⟨w, e, hw⟩ := addDigit_safe h.1 hc (by rw [hdig hc] at hk; exact hk)
    rw [e]
    exact stepOk_go ⟨by rw [hdig hc]; exact hw, hm.2, hm.3, hm.4⟩ (by simp [inHeader])
  have hmin : isDigit c = true → StepOk ((addDigit r.minor c).bind (fun v => go p .minor { r with minor := v })) (k + one c) := by
    intro hc
    obtain ⟨w, e, hw⟩ := addDigit_safe h.2 hc (by rw [hdig hc] at hk; exact hk)
    rw [e]
    exact stepOk_go ⟨hm.1, by rw [hdig hc]; exact hw, hm.3, hm.4⟩ (by simp [inHeader])
  rcases p with ⟨st, l, n⟩
  cases st <;> simp only [consume]
  case methodStart =>
    split
    · exact stepOk_go ⟨hm.1, hm.2, hm.3, hm.4⟩ (by simp [inHeader])
    · exact stepOk_reject
  case method =>
    split
    · exact stepOk_go hm (by simp [inHeader])
    split
    · exact stepOk_go ⟨hm.1, hm.2, hm.3, hm.4⟩ (by simp [inHeader])
    · exact stepOk_reject
  case uriStart =>
    split
    · exact stepOk_reject
    · exact stepOk_go ⟨hm.1, hm.2, hm.3, hm.4⟩ (by simp [inHeader])
  case uri =>
    split
    · exact stepOk_go hm (by simp [inHeader])
    split
    · exact stepOk_reject
    · exact stepOk_go ⟨hm.1, hm.2, hm.3, hm.4⟩ (by simp [inHeader])
  case versionH => split; exacts [stepOk_go hm (by simp [inHeader]), stepOk_reject]
  case versionT1 => split; exacts [stepOk_go hm (by simp [inHeader]), stepOk_reject]
  case versionT2 => split; exacts [stepOk_go hm (by simp [inHeader]), stepOk_reject]
  case versionP => split; exacts [stepOk_go hm (by simp [inHeader]), stepOk_reject]
  case versionSlash =>
    split
    · exact stepOk_go ⟨⟨by simp, by positivity⟩, ⟨by simp, by positivity⟩, hm.3, hm.4⟩ (by simp [inHeader])
    · exact stepOk_reject
  case majorStart => split; exacts [hmaj (by assumption), stepOk_reject]
  case major =>
    split
    · exact stepOk_go hm (by simp [inHeader])
    split
    · exact hmaj (by assumption)
    · exact stepOk_reject
  case minorStart => split; exacts [hmin (by assumption), stepOk_reject]
  case minor =>
    split
    · exact stepOk_go hm (by simp [inHeader])
    split
    · exact hmin (by assumption)
    · exact stepOk_reject
  case newline1 => split; exacts [stepOk_go hm (by simp [inHeader]), stepOk_reject]
  case lineStart =>
    split
    · exact stepOk_go hm (by simp [inHeader])
    split
    · rename_i hh
      refine stepOk_go hm (fun _ => ?_)
      simp only [Bool.and_eq_true, Bool.not_eq_true', List.isEmpty_eq_false_iff] at hh
      exact hh.1
    split
    · refine stepOk_go ⟨hm.1, hm.2, ?_, by simp⟩ (by simp)
      intro y hy
      simp only [List.mem_append, List.mem_singleton] at hy
      rcases hy with hy | rfl
      · exact hm.3 y hy
      · simp [digitCount]
    · exact stepOk_reject
  case lws =>
    split
    · exact stepOk_go hm (fun _ => h.header rfl)
    split
    · exact stepOk_go hm (fun _ => h.header rfl)
    split
    · exact stepOk_reject
    · exact hval rfl
  case name =>
    split
    · exact stepOk_go hm (fun _ => h.header rfl)
    split
    · obtain ⟨hs, x, e, e2⟩ := pushName_safe (c := c) (h.header rfl)
      rw [e2]
      refine stepOk_go ⟨hm.1, hm.2, ?_, by simp⟩ (by simp)
      intro y hy
      simp only [List.mem_append, List.mem_singleton] at hy
      rcases hy with hy | rfl
      · exact hm.3 y (by rw [e]; simp [hy])
      · exact hm.3 x (by rw [e]; simp)
    · exact stepOk_reject
  case spaceBefore =>
    split
    · exact stepOk_go hm (fun _ => h.header rfl)
    · exact stepOk_reject
  case value =>
    split
    · exact stepOk_go hm (fun _ => h.header rfl)
    split
    · exact stepOk_reject
    · exact hval rfl
  case newline2 => split; exacts [stepOk_go hm (by simp [inHeader]), stepOk_reject]
  case newline3 =>
    split
    · split
      · have : ∃ v, postLength r = some v := by
          unfold postLength
          simp only
          split
          · exact ⟨0, rfl⟩
          · apply atoi_some
            unfold Request.header
            split
            · rename_i x e
              have hx : x ∈ r.headers := by simpa using List.mem_of_find?_eq_some e
              exact Nat.le_trans (hm.3 x hx) hk
            · simp [digitCount]
        obtain ⟨v, e⟩ := this
        rw [e]
        refine ⟨_, _, _, rfl, fun _ => ⟨hm.1, hm.2, hm.3, ?_⟩⟩
        simp only
        split <;> simp [inHeader]
      · exact ⟨_, _, _, rfl, by simp⟩
    · exact stepOk_reject
  case postLine =>
    split
    · split
      · exact ⟨_, _, _, rfl, fun _ => ⟨hm.1, hm.2, hm.3, by simp [inHeader]⟩⟩
      · exact ⟨_, _, _, rfl, by simp⟩
    · exact stepOk_reject
  case multipart =>
    split
    · exact ⟨_, _, _, rfl, fun _ => ⟨hm.1, hm.2, hm.3, by simp [inHeader]⟩⟩
    · exact ⟨_, _, _, rfl, by simp⟩

theorem parse_safe (s : Str) : ∀ {p r k}, Safe p r k → k + digitCount s ≤ 9 → parse p r s ≠ none := by
  induction s with
  | nil => intro p r k _ _; simp [parse]
  | cons c s ih =>
    intro p r k h hk
    have e : digitCount (c :: s) = digitCount s + one c := by simp [digitCount, List.countP_cons, one]
    obtain ⟨v, p', r', e1, h1⟩ := consume_safe (c := c) h (by omega)
    rw [parse, e1]
    cases v with
    | more =>
      have := ih (h1 rfl) (by omega)
      simp only
      revert this
      rcases parse p' r' s with _ | ⟨v, n, p2, r2⟩ <;> simp [Result.add]
    | yes => simp
    | no => simp

/-- **C46** (definedness): whatever the bytes are and however they are cut, nothing undefined happens unless there
are ten or more digits among them.  (With ten digits a number can overflow, see `C46_overflow_false`.) -/
theorem C46_defined (chunks : List Str) (h : (chunks.flatten.filter (fun c => 48 ≤ c && c ≤ 57)).length < 10) :
    feed {} {} chunks ≠ none := by
  rw [feed_eq]
  refine parse_safe _ (k := 0) ⟨⟨by simp, by simp⟩, ⟨by simp, by simp⟩, by simp, by simp [inHeader]⟩ ?_
  rw [← List.countP_eq_length_filter] at h
  have : digitCount chunks.flatten < 10 := h
  omega

/-- Nine digits, garbage. -/
example : ((([[80, 48, 49, 50], [51, 52, 53, 54, 55, 56, 0, 255, 13, 10]] : List Str).flatten).filter
    (fun c => 48 ≤ c && c ≤ 57)).length < 10 := by decide

end Verif.Server
