import Verif.Irstlm.Dict
import Mathlib.Data.List.Nodup
import Mathlib.Data.List.GetD
import Mathlib.Data.List.Induction
import Mathlib.Data.List.Perm.Basic
import Mathlib.Tactic.Linarith

/-! # Lemmas about hash tables -/

namespace Verif.Irstlm

variable {V : Type} [DecidableEq V]

/-- The first of the keys with the same value. -/
def firsts (val : Nat → V) (ks : List Nat) : List Nat :=
  ks.foldl (fun acc k => if acc.any fun j => decide (val j = val k) then acc else acc ++ [k]) []

/-- What holds of a hash table with these keys. -/
structure TableInv (hash : V → Nat) (val : Nat → V) (t : Htable) (fs : List Nat) : Prop where
  pos : 0 < t.size
  len : t.table.length = t.size
  right : ∀ i, ∀ k ∈ t.table.getD i [], hash (val k) % t.size = i
  perm : t.table.flatten.Perm fs
  distinct : (fs.map val).Nodup
  count : t.keys = fs.length

theorem mem_flatten_getD {l : List (List Nat)} {k : Nat} : k ∈ l.flatten ↔ ∃ i, k ∈ l.getD i [] := by
  rw [List.mem_flatten]
  constructor
  · rintro ⟨c, hc, hk⟩
    obtain ⟨i, hi, rfl⟩ := List.mem_iff_getElem.1 hc
    exact ⟨i, by rw [List.getD_eq_getElem _ _ hi]; exact hk⟩
  · rintro ⟨i, hk⟩
    by_cases hi : i < l.length
    · rw [List.getD_eq_getElem _ _ hi] at hk
      exact ⟨_, List.getElem_mem hi, hk⟩
    · rw [List.getD_eq_default _ _ (by omega)] at hk
      cases hk

theorem find?_distinct {val : Nat → V} {fs : List Nat} {v : V} (h : (fs.map val).Nodup) {k : Nat} (hk : k ∈ fs)
    (hv : val k = v) : fs.find? (fun j => decide (val j = v)) = some k := by
  induction fs with
  | nil => cases hk
  | cons j fs ih =>
    rw [List.map_cons, List.nodup_cons] at h
    rw [List.find?_cons]
    by_cases hj : val j = v
    · rw [show decide (val j = v) = true by simpa using hj]
      simp only [Option.some.injEq]
      rw [List.mem_cons] at hk
      rcases hk with rfl | hk
      · rfl
      · exact absurd (List.mem_map.2 ⟨k, hk, hv.trans hj.symm⟩) h.1
    · rw [show decide (val j = v) = false by simpa using hj]
      rw [List.mem_cons] at hk
      rcases hk with rfl | hk
      · exact absurd hv hj
      · exact ih h.2 hk

theorem TableInv.find {hash : V → Nat} {val : Nat → V} {t fs} (h : TableInv hash val t fs) (v : V) :
    t.find hash val v = some (fs.find? fun k => decide (val k = v)) := by
  unfold Htable.find
  rw [if_neg (by have := h.pos; omega)]
  simp only [Option.some.injEq]
  cases hf : (t.table.getD (hash v % t.size) []).find? (fun k => decide (val k = v)) with
  | some k =>
    have hk := List.mem_of_find?_eq_some hf
    have hv : val k = v := by simpa using List.find?_some hf
    exact (find?_distinct h.distinct (h.perm.subset (mem_flatten_getD.2 ⟨_, hk⟩)) hv).symm
  | none =>
    symm
    rw [List.find?_eq_none] at hf ⊢
    intro k hk hv
    have hv' : val k = v := by simpa using hv
    obtain ⟨i, hi⟩ := mem_flatten_getD.1 (h.perm.symm.subset hk)
    have := h.right i k hi
    rw [hv'] at this
    rw [← this] at hi
    exact hf k hi hv

theorem flatten_modify (l : List (List Nat)) (i : Nat) (k : Nat) (h : i < l.length) :
    (l.modify i (· ++ [k])).flatten.Perm (l.flatten ++ [k]) := by
  induction l generalizing i with
  | nil => simp at h
  | cons c l ih =>
    cases i with
    | zero =>
      simp only [List.modify_zero_cons, List.flatten_cons, List.append_assoc]
      exact List.perm_append_comm.append_left _
    | succ i =>
      simp only [List.modify_succ_cons, List.flatten_cons, List.append_assoc]
      exact (ih i (by simpa using h)).append_left _

theorem getD_modify (l : List (List Nat)) (i j : Nat) (k : Nat) :
    (l.modify i (· ++ [k])).getD j [] = if i = j ∧ j < l.length then l.getD j [] ++ [k] else l.getD j [] := by
  rw [List.getD_eq_getElem?_getD, List.getElem?_modify, List.getD_eq_getElem?_getD]
  by_cases h : i = j
  · subst h
    by_cases hl : i < l.length
    · simp [hl]
    · simp [hl]
  · simp [h]

theorem TableInv.enter {hash : V → Nat} {val : Nat → V} {t fs} (h : TableInv hash val t fs) (k : Nat) :
    ∃ j u, t.enter hash val k = some (j, u) ∧ j = ((fs.find? fun j => decide (val j = val k)).getD k) ∧
      u.size = t.size ∧
      TableInv hash val u (if fs.any fun j => decide (val j = val k) then fs else fs ++ [k]) := by
  unfold Htable.enter
  rw [h.find]
  cases hf : fs.find? (fun j => decide (val j = val k)) with
  | some j =>
    have hany : (fs.any fun j => decide (val j = val k)) = true :=
      List.any_eq_true.2 ⟨j, List.mem_of_find?_eq_some hf, by
        have := List.find?_some hf; simpa using this⟩
    refine ⟨j, t, rfl, rfl, rfl, ?_⟩
    rw [if_pos hany]
    exact h
  | none =>
    have hn : ∀ j ∈ fs, val j ≠ val k := fun j hj => by simpa using List.find?_eq_none.1 hf j hj
    have hany : ¬ (fs.any fun j => decide (val j = val k)) = true := by simpa using hn
    have hlt : hash (val k) % t.size < t.table.length := by rw [h.len]; exact Nat.mod_lt _ h.pos
    refine ⟨k, _, rfl, rfl, rfl, ?_⟩
    rw [if_neg hany]
    refine ⟨h.pos, by simpa using h.len, ?_, ?_, ?_, ?_⟩
    · intro i j hj
      simp only at hj
      rw [getD_modify] at hj
      split at hj
      · rename_i hc
        rw [List.mem_append, List.mem_singleton] at hj
        rcases hj with hj | rfl
        · exact h.right i j hj
        · exact hc.1
      · exact h.right i j hj
    · exact (flatten_modify _ _ _ hlt).trans (h.perm.append_right _)
    · rw [List.map_append, List.nodup_append]
      refine ⟨h.distinct, by simp, ?_⟩
      intro a ha b hb
      simp only [List.map_cons, List.map_nil, List.mem_singleton] at hb
      obtain ⟨j, hj, rfl⟩ := List.mem_map.1 ha
      rw [hb]
      exact hn j hj
    · simp [h.count]

theorem new_table_inv (hash : V → Nat) (val : Nat → V) {n : Nat} (h : 0 < n) :
    TableInv hash val (Htable.new n) [] := by
  refine ⟨h, by simp [Htable.new], ?_, ?_, by simp, rfl⟩
  · intro i k hk
    have : k ∈ (Htable.new n).table.flatten := mem_flatten_getD.2 ⟨i, hk⟩
    simp [Htable.new, List.mem_flatten] at this
  · have : (Htable.new n).table.flatten = [] := by
      simp [Htable.new, List.flatten_eq_nil_iff]
    rw [this]

/-- Only the values of the keys matter. -/
theorem TableInv.congr {hash : V → Nat} {val val' : Nat → V} {t fs} (h : TableInv hash val t fs)
    (he : ∀ k ∈ fs, val' k = val k) : TableInv hash val' t fs := by
  refine ⟨h.pos, h.len, ?_, h.perm, ?_, h.count⟩
  · intro i k hk
    rw [he k (h.perm.subset (mem_flatten_getD.2 ⟨i, hk⟩))]
    exact h.right i k hk
  · rw [List.map_congr_left he]; exact h.distinct

theorem firsts_append (val : Nat → V) (ks : List Nat) (k : Nat) :
    firsts val (ks ++ [k]) =
      if (firsts val ks).any fun j => decide (val j = val k) then firsts val ks else firsts val ks ++ [k] := by
  unfold firsts; rw [List.foldl_append]; rfl

theorem firsts_congr {val val' : Nat → V} {ks : List Nat} (he : ∀ k ∈ ks, val' k = val k) :
    firsts val' ks = firsts val ks ∧ ∀ k ∈ firsts val ks, k ∈ ks := by
  induction ks using List.reverseRecOn with
  | nil => simp [firsts]
  | append_singleton ks k ih =>
    obtain ⟨ih1, ih2⟩ := ih fun j hj => he j (by simp [hj])
    have hany : (firsts val ks).any (fun j => decide (val' j = val' k)) =
        (firsts val ks).any fun j => decide (val j = val k) := by
      rw [Bool.eq_iff_iff]
      simp only [List.any_eq_true, decide_eq_true_eq]
      constructor
      · rintro ⟨j, hj, h⟩
        exact ⟨j, hj, by rw [← he j (by simp [ih2 j hj]), h, he k (by simp)]⟩
      · rintro ⟨j, hj, h⟩
        exact ⟨j, hj, by rw [he j (by simp [ih2 j hj]), h, ← he k (by simp)]⟩
    rw [firsts_append, firsts_append, ih1, hany]
    refine ⟨rfl, ?_⟩
    intro j hj
    split at hj
    · simp [ih2 j hj]
    · rw [List.mem_append] at hj
      rcases hj with hj | hj
      · simp [ih2 j hj]
      · simp at hj; simp [hj]

theorem mem_firsts {val : Nat → V} {ks : List Nat} {k : Nat} (h : k ∈ firsts val ks) : k ∈ ks :=
  (firsts_congr (val' := val) fun _ _ => rfl).2 k h

theorem find?_firsts (val : Nat → V) (ks : List Nat) (v : V) :
    (firsts val ks).find? (fun k => decide (val k = v)) = ks.find? fun k => decide (val k = v) := by
  induction ks using List.reverseRecOn with
  | nil => rfl
  | append_singleton ks k ih =>
    rw [firsts_append, List.find?_append, ← ih]
    split
    · rename_i hany
      simp only [List.any_eq_true, decide_eq_true_eq] at hany
      obtain ⟨j, hj, he⟩ := hany
      by_cases hv : val k = v
      · have : ((firsts val ks).find? fun k => decide (val k = v)).isSome := by
          rw [List.find?_isSome]; exact ⟨j, hj, by simpa using he.trans hv⟩
        obtain ⟨x, hx⟩ := Option.isSome_iff_exists.1 this
        rw [hx]; rfl
      · rw [List.find?_cons, show decide (val k = v) = false by simpa using hv]
        simp
    · rw [List.find?_append]

theorem enterAll_inv {hash : V → Nat} {val : Nat → V} (ks : List Nat) : ∀ {t fs}, TableInv hash val t fs →
    ∃ u, enterAll hash val ks t = some u ∧ u.size = t.size ∧ TableInv hash val u
      (ks.foldl (fun acc k => if acc.any fun j => decide (val j = val k) then acc else acc ++ [k]) fs) := by
  induction ks with
  | nil => intro t fs h; exact ⟨t, rfl, rfl, h⟩
  | cons k ks ih =>
    intro t fs h
    obtain ⟨j, u, h1, _, h3, h4⟩ := h.enter k
    obtain ⟨u', h5, h6, h7⟩ := ih h4
    refine ⟨u', ?_, h6.trans h3, h7⟩
    rw [enterAll, h1]; exact h5

/-! ## Scanning -/

/-- What is left to scan. -/
def rest (t : Htable) (s : Scan) : List Nat := s.2 ++ (t.table.drop (s.1 + 1)).flatten

theorem advance_rest {t : Htable} (hl : t.table.length = t.size) : ∀ fuel (s : Scan), t.size ≤ s.1 + fuel →
    rest t (t.advance fuel s) = rest t s ∧ ((t.advance fuel s).2 = [] → rest t s = [])
  | 0, (i, c), h => by
    simp only [Nat.add_zero] at h
    refine ⟨rfl, fun hc => ?_⟩
    simp only [Htable.advance] at hc
    simp only [rest, hc, List.nil_append]
    rw [List.drop_eq_nil_of_le (by omega)]; rfl
  | fuel + 1, (i, k :: c), h => by
    simp [Htable.advance]
  | fuel + 1, (i, []), h => by
    rw [Htable.advance]
    have hstep : i + 1 < t.size → rest t (i + 1, t.table.getD (i + 1) []) = rest t (i, []) := by
      intro hi
      simp only [rest, List.nil_append]
      rw [List.drop_eq_getElem_cons (i := i + 1) (by omega), List.flatten_cons,
        List.getD_eq_getElem _ _ (by omega)]
    split
    · rename_i hi
      obtain ⟨h1, h2⟩ := advance_rest hl fuel (i + 1, t.table.getD (i + 1) []) (by simp only at h ⊢; omega)
      rw [hstep hi] at h1 h2
      exact ⟨h1, h2⟩
    · rename_i hi
      have : rest t (i, []) = [] := by
        simp only [rest, List.nil_append]
        rw [List.drop_eq_nil_of_le (by omega)]; rfl
      refine ⟨?_, fun _ => this⟩
      rw [this]
      simp only [rest, List.nil_append]
      rw [List.drop_eq_nil_of_le (by omega)]; rfl

theorem scanned_eq {t : Htable} (hl : t.table.length = t.size) : ∀ n (s : Scan),
    t.scanned n s = ((rest t s).map some ++ List.replicate n none).take n
  | 0, s => by simp [Htable.scanned]
  | n + 1, s => by
    obtain ⟨h1, h2⟩ := advance_rest hl t.size s (by omega)
    rw [Htable.scanned]
    unfold Htable.scanCont
    generalize ha : t.advance t.size s = a at h1 h2
    obtain ⟨i, c⟩ := a
    cases c with
    | nil =>
      have hr := h2 rfl
      simp only
      rw [hr] at h1
      rw [scanned_eq hl n, h1, hr]
      simp [List.replicate_succ]
    | cons k c =>
      simp only
      rw [scanned_eq hl n, ← h1]
      simp only [rest, List.cons_append, List.map_cons, List.take_succ_cons, List.cons.injEq, true_and]
      rw [List.replicate_succ', ← List.append_assoc,
        List.take_append_of_le_length (l₁ := List.map some (c ++ (List.drop (i + 1) t.table).flatten) ++
          List.replicate n none) (by rw [List.length_append, List.length_replicate]; omega)]

end Verif.Irstlm
