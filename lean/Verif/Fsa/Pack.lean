import Verif.Fsa.Dfsa
import Verif.Fsa.Paths
import Mathlib.Data.List.Forall2
import Mathlib.Data.List.TakeWhile

/-!
The packed automaton represents a list of states.
-/
set_option linter.unusedVariables false
set_option linter.unusedSimpArgs false

namespace Verif.Fsa

/-! ### What it should do -/
namespace BinSpec

/-- An automaton: for each state whether it is an end state, and its arcs (in no particular order). -/
abbrev Abs := List (Bool × List (Sym × Nat))

/-- The number of arcs. -/
def arcCount (A : Abs) : Nat := (A.map (fun s => s.2.length)).sum

/-- What the operations do. -/
def apply (A : Abs) : BinOp → Abs
  | .addState => A ++ [(false, [])]
  | .addArc p arc => A.modify p (fun s => (s.1, arc :: s.2))
  | .setEnd p => A.modify p (fun s => (true, s.2))
  | .unsetEnd p => A.modify p (fun s => (false, s.2))
  | .deleteLastState => A.dropLast

/-- When the operations may be called: the state must exist, and there is room for 2^31 - 1 arcs. -/
def Ok (A : Abs) : BinOp → Prop
  | .addState => True
  | .addArc _ _ => arcCount A + 1 < 2 ^ 31
  | .setEnd p => p < A.length
  | .unsetEnd p => p < A.length
  | .deleteLastState => A ≠ []

/-- A sequence of operations. -/
inductive Run : Abs → List BinOp → Abs → Prop
  | nil {A} : Run A [] A
  | cons {A o os A'} : Ok A o → Run (apply A o) os A' → Run A (o :: os) A'

/-- Paths. -/
inductive Path (A : Abs) : Nat → List Sym → Nat → Prop
  | nil {p} : Path A p [] p
  | cons {p s x q w r} : A[p]? = some s → (x, q) ∈ s.2 → Path A q w r → Path A p (x :: w) r

/-- No state has two arcs with the same symbol. -/
def Deterministic (A : Abs) : Prop := ∀ (p : Nat) (s : Bool × List (Sym × Nat)), A[p]? = some s →
  s.2.Pairwise (fun x y => x.1 ≠ y.1)

/-- All arcs lead to states. -/
def Closed (A : Abs) : Prop := ∀ (p : Nat) (s : Bool × List (Sym × Nat)), A[p]? = some s → ∀ x q, (x, q) ∈ s.2 →
  q < A.length

end BinSpec

open BinSpec

/-! ### Packed positions -/

/-- A position with a flag. -/
def enc (n : Nat) (f : Bool) : UInt32 := UInt32.ofNat (n + if f then 2 ^ 31 else 0)

theorem enc_toNat {n : Nat} (h : n < 2 ^ 31) (f : Bool) : (enc n f).toNat = n + if f then 2 ^ 31 else 0 := by
  unfold enc
  rw [UInt32.toNat_ofNat']
  apply Nat.mod_eq_of_lt
  cases f <;> simp <;> omega

theorem unset_enc {n : Nat} (h : n < 2 ^ 31) (f : Bool) : unsetLastBit (enc n f) = enc n false := by
  apply UInt32.toNat.inj
  rw [enc_toNat h]
  unfold unsetLastBit
  rw [UInt32.toNat_and, enc_toNat h]
  have : (~~~topBit).toNat = 2 ^ 31 - 1 := by decide
  rw [this, Nat.and_two_pow_sub_one_eq_mod]
  cases f
  · simp; omega
  · simp; omega

theorem set_enc {n : Nat} (h : n < 2 ^ 31) (f : Bool) : setLastBit (enc n f) = enc n true := by
  apply UInt32.toNat.inj
  rw [enc_toNat h]
  unfold setLastBit
  rw [UInt32.toNat_or, enc_toNat h]
  have ht : topBit.toNat = 2 ^ 31 := by decide
  have h1 : 2 ^ 31 ||| n = 2 ^ 31 + n := (Nat.two_pow_add_eq_or_of_lt h 1).symm ▸ by simp
  rw [ht]
  cases f
  · simp only [Bool.false_eq_true, if_false, Nat.add_zero, if_true]
    rw [Nat.or_comm, h1]; omega
  · simp only [if_true]
    rw [Nat.add_comm n, ← h1, Nat.or_comm, ← Nat.or_assoc, Nat.or_self]

theorem has_enc {n : Nat} (h : n < 2 ^ 31) (f : Bool) : hasLastBit (enc n f) = f := by
  unfold hasLastBit
  have : (enc n f &&& topBit).toNat = if f then 2 ^ 31 else 0 := by
    rw [UInt32.toNat_and, enc_toNat h]
    have ht : topBit.toNat = 2 ^ 31 := by decide
    rw [ht]
    cases f
    · simp only [Bool.false_eq_true, if_false, Nat.add_zero]
      apply Nat.eq_of_testBit_eq
      intro i
      rw [Nat.testBit_and, Nat.testBit_two_pow, Nat.zero_testBit]
      by_cases hi : 31 = i
      · subst hi; rw [Nat.testBit_lt_two_pow h]; rfl
      · simp [hi]
    · simp only [if_true]
      apply Nat.eq_of_testBit_eq
      intro i
      rw [Nat.testBit_and, Nat.testBit_two_pow]
      by_cases hi : 31 = i
      · subst hi
        rw [Nat.add_comm, Nat.testBit_two_pow_add_eq, Nat.testBit_lt_two_pow h]; rfl
      · simp [hi]
  cases f
  · simp only [decide_eq_false_iff_not, not_not]
    apply UInt32.toNat.inj; rw [this]; rfl
  · simp only [decide_eq_true_eq]
    intro e; rw [e] at this; simp at this

theorem bump_enc {n : Nat} (h : n + 1 < 2 ^ 31) (f : Bool) : bump (enc n f) = enc (n + 1) f := by
  have hn : n < 2 ^ 31 := by omega
  have hinc : enc n false + 1 = enc (n + 1) false := by
    apply UInt32.toNat.inj
    rw [UInt32.toNat_add, enc_toNat hn, enc_toNat h]
    simp; omega
  unfold bump
  rw [has_enc hn]
  cases f
  · simp only [Bool.false_eq_true, if_false]; exact hinc
  · simp only [if_true]
    rw [unset_enc hn, hinc, set_enc h]

theorem enc_false {n : Nat} (h : n < 2 ^ 31) : (enc n false).toNat = n := by rw [enc_toNat h]; simp

/-! ### The representation -/

/-- The positions of the states, when the arcs are laid out from `k` on. -/
def offs : Nat → Abs → List UInt32
  | _, [] => []
  | k, s :: B => enc k s.1 :: offs (k + s.2.length) B

/-- The arcs. -/
def flat (B : Abs) : List (Sym × Nat) := (B.map (·.2)).flatten

theorem length_flat (B : Abs) : (flat B).length = arcCount B := by
  simp [flat, arcCount, List.length_flatten, List.map_map, Function.comp_def]

theorem length_offs (B : Abs) : ∀ k, (offs k B).length = B.length := by
  induction B with
  | nil => intro k; rfl
  | cons s B ih => intro k; simp [offs, ih]

theorem offs_append (B C : Abs) : ∀ k, offs k (B ++ C) = offs k B ++ offs (k + arcCount B) C := by
  induction B with
  | nil => intro k; simp [offs, arcCount]
  | cons s B ih =>
    intro k
    simp only [List.cons_append, offs, ih, arcCount, List.map_cons, List.sum_cons]
    rw [Nat.add_assoc]

theorem offs_bump (B : Abs) : ∀ k, k + arcCount B + 1 < 2 ^ 31 → (offs k B).map bump = offs (k + 1) B := by
  induction B with
  | nil => intro k _; rfl
  | cons s B ih =>
    intro k h
    simp only [arcCount, List.map_cons, List.sum_cons] at h
    have : arcCount B = (B.map (fun s => s.2.length)).sum := rfl
    simp only [offs, List.map_cons]
    rw [bump_enc (by omega), ih _ (by omega)]
    congr 2; omega

theorem arcCount_append (B C : Abs) : arcCount (B ++ C) = arcCount B + arcCount C := by
  simp [arcCount]

theorem flat_append (B C : Abs) : flat (B ++ C) = flat B ++ flat C := by simp [flat]

/-- Splitting at a state. -/
theorem split_at {B : Abs} {p : Nat} (hp : p < B.length) :
    ∃ B1 s B2, B = B1 ++ s :: B2 ∧ B1.length = p := by
  refine ⟨B.take p, B[p], B.drop (p + 1), ?_, by simp; omega⟩
  rw [List.getElem_cons_drop, List.take_append_drop]

theorem modify_split {α : Type} (l1 l2 : List α) (s : α) (f : α → α) :
    (l1 ++ s :: l2).modify l1.length f = l1 ++ f s :: l2 := by
  induction l1 with
  | nil => rfl
  | cons x l1 ih => simp [ih]

/-- The state at a place, and the places of the arcs. -/
theorem offs_get (B1 B2 : Abs) (s : Bool × List (Sym × Nat)) :
    (offs 0 (B1 ++ s :: B2))[B1.length]? = some (enc (arcCount B1) s.1) := by
  rw [offs_append, List.getElem?_append_right (by rw [length_offs]), length_offs]
  simp [offs]

theorem offs_get_succ (B1 B2 : Abs) (s : Bool × List (Sym × Nat)) :
    (offs 0 (B1 ++ s :: B2))[B1.length + 1]? =
      (B2.head?).map (fun t => enc (arcCount B1 + s.2.length) t.1) := by
  rw [offs_append, List.getElem?_append_right (by rw [length_offs]; omega), length_offs]
  cases B2 with
  | nil => simp [offs]
  | cons t B2 => simp [offs, show B1.length + 1 - B1.length = 1 by omega]

/-! ### The operations -/

/-- The packed automaton represents the list of states `B`. -/
structure Pack (b : Bin) (B : Abs) : Prop where
  states : b.states = offs 0 B
  arcs : b.arcs = flat B
  small : arcCount B < 2 ^ 31

theorem pack_empty : Pack .empty [] := ⟨rfl, rfl, by simp [arcCount]⟩

theorem pack_addState {b : Bin} {B : Abs} (h : Pack b B) : Pack b.addState.2 (B ++ [(false, [])]) := by
  obtain ⟨h2, h3, h4⟩ := h
  refine ⟨?_, ?_, ?_⟩
  · show b.states ++ [UInt32.ofNat b.arcs.length] = _
    rw [offs_append, h2, h3, length_flat]
    simp [offs, enc]
  · show b.arcs = _
    rw [flat_append, h3]; simp [flat]
  · rw [arcCount_append]; simpa [arcCount] using h4

theorem pack_flag {b : Bin} {B : Abs} (h : Pack b B) {p : Nat} (hp : p < B.length) (g : UInt32 → UInt32) (f : Bool)
    (hg : ∀ n f', n < 2 ^ 31 → g (enc n f') = enc n f) :
    ∃ b', (b.states[p]?).map (fun s => { b with states := b.states.set p (g s) }) = some b' ∧
      Pack b' (B.modify p (fun s => (f, s.2))) := by
  obtain ⟨h2, h3, h4⟩ := h
  obtain ⟨B1, s, B2, rfl, rfl⟩ := split_at (B := B) (p := p) hp
  have hlt : arcCount B1 < 2 ^ 31 := by rw [arcCount_append] at h4; omega
  rw [h2, offs_get]
  refine ⟨_, rfl, ?_, ?_, ?_⟩
  · rw [modify_split]
    show (offs 0 (B1 ++ s :: B2)).set B1.length _ = _
    rw [hg _ _ hlt, offs_append, offs_append, List.set_append_right _ _ (by rw [length_offs]), length_offs]
    simp [offs]
  · show b.arcs = _
    rw [h3, modify_split]; simp [flat]
  · rw [modify_split]
    rw [arcCount_append] at h4 ⊢
    simpa [arcCount] using h4

theorem pack_setEnd {b : Bin} {B : Abs} (h : Pack b B) {p : Nat} (hp : p < B.length) :
    ∃ b', b.setEnd p = some b' ∧ Pack b' (B.modify p (fun s => (true, s.2))) :=
  pack_flag h hp setLastBit true (fun n f hn => set_enc hn f)

theorem pack_unsetEnd {b : Bin} {B : Abs} (h : Pack b B) {p : Nat} (hp : p < B.length) :
    ∃ b', b.unsetEnd p = some b' ∧ Pack b' (B.modify p (fun s => (false, s.2))) :=
  pack_flag h hp unsetLastBit false (fun n f hn => unset_enc hn f)

theorem insertSorted_eq (lt : α → α → Bool) (x : α) (l : List α) :
    insertSorted lt x l = l.takeWhile (fun y => lt y x) ++ x :: l.dropWhile (fun y => lt y x) := by
  induction l with
  | nil => rfl
  | cons y l ih =>
    unfold insertSorted
    by_cases h : lt y x
    · rw [if_pos h, List.takeWhile_cons, if_pos h, List.dropWhile_cons, if_pos h, ih]; rfl
    · rw [if_neg h, List.takeWhile_cons, if_neg h, List.dropWhile_cons, if_neg h]; rfl

theorem scan_spec (arc : Sym × Nat) (l : List (Sym × Nat)) : ∀ (pre post : List (Sym × Nat)),
    scan (pre ++ l ++ post) arc l.length pre.length =
      some (pre.length + (l.takeWhile (fun y => arcLt natLt y arc)).length) := by
  induction l with
  | nil => intro pre post; simp [scan]
  | cons x l ih =>
    intro pre post
    rw [List.length_cons, scan]
    have hget : (pre ++ x :: l ++ post)[pre.length]? = some x := by simp
    rw [hget]
    dsimp only
    by_cases h : arcLt natLt x arc
    · rw [if_pos h, List.takeWhile_cons, if_pos h]
      have := ih (pre ++ [x]) post
      simp only [List.append_assoc, List.singleton_append, List.length_append, List.length_singleton] at this
      rw [List.append_assoc, this, List.length_cons]
      congr 1; omega
    · rw [if_neg h, List.takeWhile_cons, if_neg h]; simp

theorem pack_split {B1 B2 : Abs} {s : Bool × List (Sym × Nat)} :
    arcCount (B1 ++ s :: B2) = arcCount B1 + (s.2.length + arcCount B2) ∧
      flat (B1 ++ s :: B2) = flat B1 ++ s.2 ++ flat B2 :=
  ⟨by rw [arcCount_append]; simp [arcCount], by rw [flat_append]; simp [flat]⟩

theorem pack_endPos {b : Bin} {B1 B2 : Abs} {s : Bool × List (Sym × Nat)} (h : Pack b (B1 ++ s :: B2)) :
    (b.endPos B1.length).toNat = arcCount B1 + s.2.length := by
  obtain ⟨h2, h3, h4⟩ := h
  rw [pack_split.1] at h4
  unfold Bin.endPos
  rw [h2, offs_get_succ]
  cases B2 with
  | nil =>
    show (UInt32.ofNat b.arcs.length).toNat = _
    have h0 : arcCount ([] : Abs) = 0 := rfl
    rw [h3, length_flat, pack_split.1, UInt32.toNat_ofNat', h0]
    omega
  | cons t B2 =>
    show (unsetLastBit _).toNat = _
    rw [unset_enc (by omega), enc_false (by omega)]

theorem pack_addArc {b : Bin} {B : Abs} (h : Pack b B) {p : Nat} {arc : Sym × Nat} (hc : arcCount B + 1 < 2 ^ 31) :
    ∃ b', b.addArc p arc = some b' ∧
      Pack b' (B.modify p (fun s => (s.1, insertSorted (arcLt natLt) arc s.2))) := by
  by_cases hp : p < B.length
  · obtain ⟨B1, s, B2, rfl, rfl⟩ := split_at (B := B) (p := p) hp
    have hend := pack_endPos h
    obtain ⟨h2, h3, h4⟩ := h
    obtain ⟨hcount, hflat⟩ := pack_split (B1 := B1) (B2 := B2) (s := s)
    have hlt : arcCount B1 + (s.2.length + arcCount B2) + 1 < 2 ^ 31 := by
      rw [← hcount]; exact hc
    unfold Bin.addArc
    rw [h2, offs_get]
    dsimp only
    rw [unset_enc (by omega), enc_false (by omega), hend, h3, hflat,
      show arcCount B1 + s.2.length - arcCount B1 = s.2.length by omega]
    have hsc := scan_spec arc s.2 (flat B1) (flat B2)
    rw [length_flat] at hsc
    rw [hsc]
    dsimp only
    have htw : (s.2.takeWhile (fun y => arcLt natLt y arc)).length ≤ s.2.length := (List.takeWhile_sublist _).length_le
    rw [if_neg (by simp only [List.length_append, length_flat]; omega)]
    refine ⟨_, rfl, ?_, ?_, ?_⟩
    · rw [modify_split]
      show List.take (B1.length + 1) _ ++ List.map bump _ = _
      have e1 : offs 0 (B1 ++ s :: B2) = (offs 0 B1 ++ [enc (arcCount B1) s.1]) ++ offs (arcCount B1 + s.2.length) B2 := by
        rw [offs_append]; simp [offs]
      have hl : (offs 0 B1 ++ [enc (arcCount B1) s.1]).length = B1.length + 1 := by simp [length_offs]
      rw [e1, List.take_left' hl, List.drop_left' hl, offs_bump _ _ (by omega), offs_append]
      simp only [offs, List.append_assoc, List.singleton_append, Nat.zero_add]
      rw [(perm_insertSorted (lt := arcLt natLt) arc s.2).length_eq, List.length_cons]
      rfl
    · rw [modify_split]
      show List.take _ _ ++ arc :: List.drop _ _ = _
      have e2 : flat B1 ++ s.2 ++ flat B2 = (flat B1 ++ s.2.takeWhile (fun y => arcLt natLt y arc)) ++
          (s.2.dropWhile (fun y => arcLt natLt y arc) ++ flat B2) := by
        rw [List.append_assoc, List.append_assoc, ← List.append_assoc (List.takeWhile _ _), List.takeWhile_append_dropWhile]
      have hl : (flat B1 ++ s.2.takeWhile (fun y => arcLt natLt y arc)).length =
          arcCount B1 + (s.2.takeWhile (fun y => arcLt natLt y arc)).length := by
        rw [List.length_append, length_flat]
      rw [e2, List.take_left' hl, List.drop_left' hl, flat_append]
      simp [flat, insertSorted_eq]
    · rw [modify_split, pack_split.1]
      have := (perm_insertSorted (lt := arcLt natLt) arc s.2).length_eq
      rw [List.length_cons] at this
      dsimp only
      omega
  · refine ⟨b, ?_, ?_⟩
    · unfold Bin.addArc
      rw [h.states, List.getElem?_eq_none (by rw [length_offs]; omega)]
    · rw [List.modify_eq_self (by omega)]; exact h

theorem pack_delete {b : Bin} {B : Abs} (h : Pack b B) (hB : B ≠ []) :
    ∃ b', b.deleteLastState = some b' ∧ Pack b' B.dropLast := by
  obtain ⟨h2, h3, h4⟩ := h
  obtain ⟨B1, s, rfl⟩ : ∃ B1 s, B = B1 ++ [s] := ⟨B.dropLast, B.getLast hB, (List.dropLast_append_getLast hB).symm⟩
  have hlt : arcCount B1 < 2 ^ 31 := by rw [arcCount_append] at h4; omega
  unfold Bin.deleteLastState
  have hlast : b.states.getLast? = some (enc (arcCount B1) s.1) := by
    rw [h2, offs_append]; simp [offs]
  rw [hlast]
  dsimp only
  rw [unset_enc hlt, enc_false hlt, h3, length_flat, arcCount_append, if_neg (by omega)]
  refine ⟨_, rfl, ?_, ?_, ?_⟩
  · rw [List.dropLast_concat]
    show b.states.dropLast = _
    rw [h2, offs_append]; simp [offs]
  · rw [List.dropLast_concat]
    show List.take _ _ = _
    rw [flat_append, List.take_left' (length_flat B1)]
  · rw [List.dropLast_concat]; exact hlt

/-! ### The queries -/

theorem pack_size {b : Bin} {B : Abs} (h : Pack b B) : b.size = B.length := by
  rw [Bin.size, h.states, length_offs]

theorem pack_isEnd {b : Bin} {B : Abs} (h : Pack b B) (p : Nat) : b.isEnd p = (B[p]?).map (·.1) := by
  by_cases hp : p < B.length
  · obtain ⟨B1, s, B2, rfl, rfl⟩ := split_at (B := B) (p := p) hp
    obtain ⟨h2, h3, h4⟩ := h
    have hlt : arcCount B1 < 2 ^ 31 := by rw [arcCount_append] at h4; omega
    unfold Bin.isEnd
    rw [h2, offs_get, Option.map_some, has_enc hlt]
    simp
  · unfold Bin.isEnd
    rw [h.states, List.getElem?_eq_none (by rw [length_offs]; omega), List.getElem?_eq_none (by omega)]
    rfl

theorem pack_getArcs {b : Bin} {B : Abs} (h : Pack b B) (hB : B ≠ []) (p : Nat) :
    b.getArcs p = some ((B[p]?.map (·.2)).getD []) := by
  have hne : b.states ≠ [] := by
    intro e
    have := congrArg List.length e
    rw [h.states, length_offs] at this
    exact hB (List.length_eq_zero_iff.1 this)
  unfold Bin.getArcs
  rw [if_neg hne]
  by_cases hp : p < B.length
  · obtain ⟨B1, s, B2, rfl, rfl⟩ := split_at (B := B) (p := p) hp
    obtain ⟨h2, h3, h4⟩ := h
    obtain ⟨hcount, hflat⟩ := pack_split (B1 := B1) (B2 := B2) (s := s)
    have hlt : arcCount B1 + (s.2.length + arcCount B2) < 2 ^ 31 := by rw [← hcount]; exact h4
    rw [List.append_assoc] at hflat
    have hget : ((B1 ++ s :: B2)[B1.length]?.map (·.2)).getD [] = s.2 := by simp
    rw [hget, h2, offs_get, offs_get_succ]
    cases B2 with
    | nil =>
      show b.range _ _ = _
      have h0 : arcCount ([] : Abs) = 0 := rfl
      rw [unset_enc (by omega), enc_false (by omega)]
      unfold Bin.range
      rw [h3, length_flat, hcount, h0, hflat, if_pos (by omega), List.drop_left' (length_flat B1)]
      simp [flat]
    | cons u B2 =>
      show b.range _ _ = _
      rw [unset_enc (by omega), enc_false (by omega), unset_enc (by omega), enc_false (by omega)]
      unfold Bin.range
      rw [h3, length_flat, hcount, hflat, if_pos (by omega), List.drop_left' (length_flat B1),
        show arcCount B1 + s.2.length - arcCount B1 = s.2.length by omega, List.take_left' rfl]
  · rw [h.states, List.getElem?_eq_none (l := offs 0 B) (by rw [length_offs]; omega),
      List.getElem?_eq_none (l := B) (by omega)]
    rfl

end Verif.Fsa
