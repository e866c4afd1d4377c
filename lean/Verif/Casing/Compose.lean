import Verif.Casing.Lemmas

/-!
Doing one conversion after the other, compared on all characters by finite computations.
-/
namespace Verif.Casing
open Verif Verif.Utf8

/-- The chunks of the table, each with its greatest key. -/
def lowerIndex : List (Nat × List (Nat × Nat)) :=
  [(292, Spec.lowerPairs0),
   (434, Spec.lowerPairs1),
   (588, Spec.lowerPairs2),
   (1041, Spec.lowerPairs3),
   (1216, Spec.lowerPairs4),
   (1352, Spec.lowerPairs5),
   (7724, Spec.lowerPairs6),
   (7882, Spec.lowerPairs7),
   (8072, Spec.lowerPairs8),
   (9404, Spec.lowerPairs9),
   (11374, Spec.lowerPairs10),
   (42592, Spec.lowerPairs11),
   (65315, Spec.lowerPairs12),
   (66599, Spec.lowerPairs13)]

/-- The chunks of the table, each with its greatest key. -/
def upperIndex : List (Nat × List (Nat × Nat)) :=
  [(289, Spec.upperPairs0),
   (464, Spec.upperPairs1),
   (626, Spec.upperPairs2),
   (1072, Spec.upperPairs3),
   (1183, Spec.upperPairs4),
   (1383, Spec.upperPairs5),
   (7763, Spec.upperPairs6),
   (7921, Spec.upperPairs7),
   (8069, Spec.upperPairs8),
   (11313, Spec.upperPairs9),
   (11435, Spec.upperPairs10),
   (42573, Spec.upperPairs11),
   (42897, Spec.upperPairs12),
   (66639, Spec.upperPairs13)]

/-- The chunks of the table, each with its greatest key. -/
def titleIndex : List (Nat × List (Nat × Nat)) :=
  [(289, Spec.titlePairs0),
   (464, Spec.titlePairs1),
   (626, Spec.titlePairs2),
   (1072, Spec.titlePairs3),
   (1183, Spec.titlePairs4),
   (1383, Spec.titlePairs5),
   (7763, Spec.titlePairs6),
   (7921, Spec.titlePairs7),
   (8069, Spec.titlePairs8),
   (11313, Spec.titlePairs9),
   (11435, Spec.titlePairs10),
   (42573, Spec.titlePairs11),
   (42897, Spec.titlePairs12),
   (66639, Spec.titlePairs13)]

/-- The index of a case. -/
def Case.index : Case → List (Nat × List (Nat × Nat))
  | .lower => lowerIndex
  | .upper => upperIndex
  | .title => titleIndex

/-- `List.lookup`, arranged for quick computation. -/
def findIn : List (Nat × Nat) → Nat → Option Nat
  | [], _ => none
  | q :: t, cp => match Nat.beq cp q.1 with | true => some q.2 | false => findIn t cp

theorem findIn_eq (t : List (Nat × Nat)) (cp : Nat) : findIn t cp = t.lookup cp := by
  induction t with
  | nil => rfl
  | cons q t ih =>
    rw [findIn, List.lookup_cons, ih]
    by_cases h : cp = q.1
    · subst h; simp
    · have h1 : (cp == q.1) = false := by simp [h]
      have h2 : Nat.beq cp q.1 = false := by
        cases hb : Nat.beq cp q.1 with
        | false => rfl
        | true => exact absurd (Nat.eq_of_beq_eq_true hb) h
      rw [h1, h2]

/-- Membership, arranged for quick computation. -/
def memB : List Nat → Nat → Bool
  | [], _ => false
  | q :: t, cp => match Nat.beq cp q with | true => true | false => memB t cp

theorem memB_iff (t : List Nat) (cp : Nat) : memB t cp = true ↔ cp ∈ t := by
  induction t with
  | nil => simp [memB]
  | cons q t ih =>
    rw [memB, List.mem_cons, ← ih]
    cases hb : Nat.beq cp q with
    | true => simp [Nat.eq_of_beq_eq_true hb]
    | false =>
      have : cp ≠ q := by rintro rfl; simp at hb
      simp [this]

/-- Searching a table by chunks. -/
def fastFind : List (Nat × List (Nat × Nat)) → Nat → Option Nat
  | [], _ => none
  | q :: t, cp => match Nat.ble cp q.1 with | true => findIn q.2 cp | false => fastFind t cp

/-- The chunks follow each other. -/
def chunksFrom : Nat → List (Nat × List (Nat × Nat)) → Bool
  | _, [] => true
  | n, q :: t =>
    Nat.ble n (q.1 + 1) && keysFrom n q.2 && q.2.all (fun x => Nat.ble x.1 q.1)
      && chunksFrom (q.1 + 1) t

theorem chunks_below {n cp : Nat} {t : List (Nat × List (Nat × Nat))}
    (h : chunksFrom n t = true) (hc : cp < n) : (t.flatMap Prod.snd).lookup cp = none := by
  induction t generalizing n with
  | nil => rfl
  | cons q t ih =>
    simp only [chunksFrom, Bool.and_eq_true, Nat.ble_eq] at h
    rw [List.flatMap_cons, lookup_append, lookup_none_of_lt h.1.1.2 hc, ih h.2 (by omega)]
    rfl

theorem fastFind_eq {n : Nat} {t : List (Nat × List (Nat × Nat))} (h : chunksFrom n t = true)
    (cp : Nat) : fastFind t cp = (t.flatMap Prod.snd).lookup cp := by
  induction t generalizing n with
  | nil => rfl
  | cons q t ih =>
    simp only [chunksFrom, Bool.and_eq_true] at h
    rw [fastFind, List.flatMap_cons, lookup_append]
    cases hc : Nat.ble cp q.1 with
    | true =>
      rw [Nat.ble_eq] at hc
      rw [chunks_below h.2 (by omega), Option.or_none]
      exact findIn_eq _ _
    | false =>
      simp only [ih h.2]
      have : q.2.lookup cp = none := by
        cases hl : q.2.lookup cp with
        | none => rfl
        | some v =>
          have := (List.all_eq_true.1 h.1.2) _ (lookup_mem hl)
          rw [hc] at this; simp at this
      rw [this]; rfl

theorem index_check (k : Case) :
    (chunksFrom 0 k.index && (k.index.flatMap Prod.snd == k.pairs)) = true := by
  cases k <;> decide +kernel

/-- `plainMap`, computed by chunks. -/
def fastMap (k : Case) (cp : Nat) : List Nat :=
  match memB Spec.used cp with
  | true => (k.full.lookup cp).getD []
  | false => [(fastFind k.index cp).getD cp]

theorem fastMap_eq (k : Case) (cp : Nat) : fastMap k cp = codeMap k cp := by
  have h := index_check k
  simp only [Bool.and_eq_true, beq_iff_eq] at h
  rw [← plainMap_eq, fastMap, plainMap, fastFind_eq h.1, h.2]
  cases hm : memB Spec.used cp with
  | true => rw [if_pos ((memB_iff _ _).1 hm)]
  | false => rw [if_neg (fun hc => by rw [(memB_iff _ _).2 hc] at hm; simp at hm)]; rfl

/-- Equality of lists, arranged for quick computation. -/
def sameB : List Nat → List Nat → Bool
  | [], [] => true
  | a :: s, b :: t => match Nat.beq a b with | true => sameB s t | false => false
  | _, _ => false

theorem eq_of_sameB {s t : List Nat} (h : sameB s t = true) : s = t := by
  fun_induction sameB s t with
  | case1 => rfl
  | case2 a s b t hb ih => rw [Nat.eq_of_beq_eq_true hb, ih h]
  | case3 => simp at h
  | case4 => simp at h

/-- After case `g`, case `f` does what it does alone, on all characters the tables of `g` change
except the listed ones. -/
def composeCheck (f g : Case) (except : List Nat) : Bool :=
  (g.pairs.all fun q => memB except q.1 || memB Spec.used q.1
      || sameB (fastMap f q.2) (fastMap f q.1))
    && Spec.used.all fun c => memB except c
      || (fastMap g c).flatMap (fastMap f) == fastMap f c

theorem compose_of_check {f g : Case} {ex : List Nat} (h : composeCheck f g ex = true)
    {cp : Nat} (hc : cp ∉ ex) : (codeMap g cp).flatMap (codeMap f) = codeMap f cp := by
  have hf : codeMap f = fastMap f := funext fun c => (fastMap_eq f c).symm
  rw [hf]
  simp only [composeCheck, Bool.and_eq_true, List.all_eq_true, Bool.or_eq_true,
    memB_iff, beq_iff_eq] at h
  by_cases hu : cp ∈ Spec.used
  · rcases h.2 cp hu with h' | h'
    · exact absurd h' hc
    · rw [← fastMap_eq g cp]; exact h'
  · rw [← plainMap_eq g cp, plainMap, if_neg hu, List.flatMap_cons, List.flatMap_nil,
      List.append_nil]
    unfold Spec.image
    cases hl : g.pairs.lookup cp with
    | none => rfl
    | some d =>
      rcases h.1 _ (lookup_mem hl) with (h' | h') | h'
      · exact absurd h' hc
      · exact absurd h' hu
      · exact eq_of_sameB h'

/-- The characters whose lower case changes once they have been made upper case. -/
def unstableLower : List Nat :=
  [0xb5, 0xdf, 0x131, 0x17f, 0x345, 0x3c2, 0x3d0, 0x3d1, 0x3d5, 0x3d6, 0x3f0, 0x3f1, 0x3f5,
   0x1e9b, 0x1fbe, 0xfb00, 0xfb01, 0xfb02, 0xfb03, 0xfb04, 0xfb05, 0xfb06, 0xfb13, 0xfb14,
   0xfb15, 0xfb16, 0xfb17]

/-- The characters whose upper case changes once they have been made lower case. -/
def unstableUpper : List Nat := [0x130, 0x3f4, 0x1e9e, 0x2126, 0x212a, 0x212b]

theorem lower_lower_check : composeCheck .lower .lower [] = true := by decide +kernel
theorem upper_upper_check : composeCheck .upper .upper [] = true := by decide +kernel
theorem upper_lower_check : composeCheck .upper .lower unstableUpper = true := by
  decide +kernel
theorem lower_upper_check : composeCheck .lower .upper unstableLower = true := by
  decide +kernel
theorem upper_title_check : composeCheck .upper .title [] = true := by decide +kernel

/-- The characters whose title case is not stable: sharp s and the ligatures, which become two or
three letters. -/
def unstableTitle : List Nat :=
  [0xdf, 0xfb00, 0xfb01, 0xfb02, 0xfb03, 0xfb04, 0xfb05, 0xfb06, 0xfb13, 0xfb14, 0xfb15, 0xfb16,
   0xfb17]

theorem title_title_check : composeCheck .title .title unstableTitle = true := by decide +kernel

/-- The exceptions are all real. -/
theorem unstable_check :
    (unstableUpper.all (fun c => (fastMap .lower c).flatMap (fastMap .upper) != fastMap .upper c)
      && unstableLower.all
        (fun c => (fastMap .upper c).flatMap (fastMap .lower) != fastMap .lower c)) = true := by
  decide +kernel

end Verif.Casing
