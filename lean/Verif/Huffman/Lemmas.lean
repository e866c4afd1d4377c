import Verif.Huffman.Build

/-! Putting the parts together. -/
set_option linter.unusedVariables false
set_option linter.unusedSimpArgs false

namespace Verif.Huffman
open Verif Spec Tree

/-- A tree with more than one leaf has no leaf at the top. -/
theorem leafDepths_pos (t : Tree) (h : 2 ≤ (t.leafDepths 0).length) :
    ∀ e ∈ t.leafDepths 0, 1 ≤ e.2 := by
  cases t with
  | leaf i => simp [leafDepths] at h
  | node i l r =>
    intro e he
    simp only [leafDepths, List.mem_append] at he
    rcases he with he | he
    · exact (leafDepths_le l _ e he).1
    · exact (leafDepths_le r _ e he).1

/-- The lengths of a tree whose depths fit in 16 bits. -/
theorem lengths_of_tree {ops : HeapOps} {freqs : List Nat} (hn : 2 ≤ freqs.length) {t : Tree} {ls : List Nat}
    (hp : ((t.leafDepths 0).map (·.1)).Perm (List.range' freqs.length freqs.length))
    (hl : ls.length = freqs.length)
    (hd : ∀ e ∈ t.leafDepths 0, ls[e.1 - freqs.length]? = some (e.2 % 65536))
    (hh : t.height < 65536) :
    ls.Perm ((t.leafDepths 0).map (·.2)) ∧ Complete ls ∧ ∀ l ∈ ls, 1 ≤ l ∧ l ≤ t.height := by
  have hlen : (t.leafDepths 0).length = freqs.length := by
    have := hp.length_eq; simpa using this
  have hmod : (t.leafDepths 0).map (fun e => e.2 % 65536) = (t.leafDepths 0).map (·.2) := by
    apply List.map_congr_left
    intro e he
    have := (leafDepths_le t 0 e he).2
    exact Nat.mod_eq_of_lt (by omega)
  have h1 := calcLengths_perm (ops := ops) hp hl hd
  rw [hmod] at h1
  have hb : ∀ l ∈ ls, 1 ≤ l ∧ l ≤ t.height := by
    intro l hl'
    have := h1.mem_iff.1 hl'
    obtain ⟨e, he, rfl⟩ := List.mem_map.1 this
    have a := leafDepths_pos t (by omega) e he
    have b := (leafDepths_le t 0 e he).2
    omega
  refine ⟨h1, ⟨t.height, fun l hl' => (hb l hl').2, ?_⟩, hb⟩
  have := kraft_leafDepths t t.height 0 (by omega)
  unfold kraft at this ⊢
  rw [(h1.map _).sum_nat]; simpa using this

theorem calcLengths_single (ops : HeapOps) (freqs : List Nat) (h : freqs.length = 1) :
    calcLengths ops freqs = [1] := by simp [calcLengths, h]

theorem complete_small {ops : HeapOps} (hops : Standard ops) (freqs : List Nat)
    (hn : 2 ≤ freqs.length) (hn' : freqs.length ≤ 65536) (hf : ∀ f ∈ freqs, f < 2 ^ 64) :
    (calcLengths ops freqs).length = freqs.length ∧ Complete (calcLengths ops freqs) ∧
      ∀ l ∈ calcLengths ops freqs, 1 ≤ l ∧ l < freqs.length := by
  obtain ⟨t, _, hp, hl, hd⟩ := calcLengths_tree hops freqs hn hf (fun _ => True)
    (fun _ _ _ _ => trivial) (fun _ _ _ _ _ _ _ => trivial) trivial
  have hh := height_lt t 0
  have hlen : (t.leafDepths 0).length = freqs.length := by
    have := hp.length_eq; simpa using this
  obtain ⟨h1, h2, h3⟩ := lengths_of_tree (ops := ops) hn hp hl hd (by omega)
  exact ⟨hl, h2, fun l hl' => by have := h3 l hl'; omega⟩

theorem fib_lt {h n : Nat} (hlt : fib (h + 2) < fib (n + 3)) : h ≤ n := by
  apply Classical.byContradiction
  intro hc
  have := fib_mono (show n + 3 ≤ h + 2 by omega)
  omega

theorem weight_le {freqs : List Nat} {t : Tree}
    (hp : ((t.leafDepths 0).map (·.1)).Perm (List.range' freqs.length freqs.length)) :
    t.weight (freqAt freqs) = freqs.sum := by
  rw [weight_sum _ t 0]
  have h1 : (t.leafDepths 0).map (fun e => freqAt freqs e.1) = ((t.leafDepths 0).map (·.1)).map (freqAt freqs) := by
    rw [List.map_map]; rfl
  have h2 : (List.range' freqs.length freqs.length).map (freqAt freqs) = freqs := by
    apply List.ext_getElem?
    intro i
    by_cases hi : i < freqs.length
    · simp [hi, freqAt]
    · simp [hi]
  rw [h1, (hp.map _).sum_nat, h2]

theorem complete_fib {ops : HeapOps} (hops : Standard ops) (freqs : List Nat)
    (hn : 2 ≤ freqs.length) (hpos : ∀ f ∈ freqs, 1 ≤ f) (n : Nat) (hfib : freqs.sum < fib (n + 3))
    (hs : freqs.sum < 2 ^ 64) (hn16 : n < 65536) :
    (calcLengths ops freqs).length = freqs.length ∧ Complete (calcLengths ops freqs) ∧
      ∀ l ∈ calcLengths ops freqs, 1 ≤ l ∧ l ≤ n := by
  have hf : ∀ f ∈ freqs, f < 2 ^ 64 := fun f hf => by have := le_sum_of_mem hf; omega
  obtain ⟨t, ⟨_, M, hq⟩, hp, hl, hd⟩ := calcLengths_tree hops freqs hn hf (FibForest (freqAt freqs))
    (fun ts ts' => fibForest_perm _ ts ts') (fibForest_step _) (fibForest_leaves freqs hpos hs)
  have hw := (hq t (by simp)).2.1
  rw [weight_le hp] at hw
  have hh : t.height ≤ n := fib_lt (by omega)
  obtain ⟨h1, h2, h3⟩ := lengths_of_tree (ops := ops) hn hp hl hd (by omega)
  exact ⟨hl, h2, fun l hl' => by have := h3 l hl'; omega⟩

theorem good_of {ops : HeapOps} {freqs : List Nat} (hne : freqs ≠ [])
    (h : 2 ≤ freqs.length → (calcLengths ops freqs).length = freqs.length ∧
      Complete (calcLengths ops freqs) ∧ ∀ l ∈ calcLengths ops freqs, 1 ≤ l) :
    (calcLengths ops freqs).length = freqs.length ∧ Good (calcLengths ops freqs) := by
  have := List.length_pos_iff.2 hne
  by_cases h1 : freqs.length = 1
  · rw [calcLengths_single ops freqs h1]
    exact ⟨h1.symm, Or.inl rfl⟩
  · obtain ⟨a, b, c⟩ := h (by omega)
    refine ⟨a, Or.inr ⟨b, c, ?_⟩⟩
    intro e; rw [e] at a; simp at a; omega

theorem build_valid {α : Type} {ops : HeapOps} (table : List (α × Nat))
    (hl : (calcLengths ops (table.map (·.2))).length = table.length)
    (hg : Good (calcLengths ops (table.map (·.2)))) :
    ∃ c D, build ops table = some c ∧
      Valid c ((table.map (·.1)).zip (calcLengths ops (table.map (·.2)))) D := by
  obtain ⟨t, D, h1, h2⟩ := place_valid (table.map (·.1)) _ (by simp [hl]) hg
  exact ⟨_, D, by simp only [build]; rw [h1]; rfl, h2⟩

theorem mem_zip_of_mem {α : Type} (syms : List α) (ls : List Nat) (h : syms.length = ls.length) (d : α)
    (hd : d ∈ syms) : ∃ l ∈ ls, (d, l) ∈ syms.zip ls := by
  induction syms generalizing ls with
  | nil => simp at hd
  | cons a syms ih =>
    cases ls with
    | nil => simp at h
    | cons l ls =>
      simp only [List.mem_cons] at hd
      rcases hd with rfl | hd
      · exact ⟨l, by simp, by simp⟩
      · obtain ⟨l', h1, h2⟩ := ih ls (by simpa using h) hd
        exact ⟨l', by simp [h1], by simp [h2]⟩

/-- The code word of a symbol. -/
theorem put_spec {α : Type} [DecidableEq α] {c : Coder α} {ps : List (α × Nat)} {D : Nat}
    (hv : Valid c ps D) {d : α} {l0 : Nat} (hd : (d, l0) ∈ ps) (h64 : ∀ e ∈ ps, e.2 ≤ 64) :
    ∃ l k, 1 ≤ l ∧ l ≤ D ∧ (row ps l)[k]? = some d ∧
      put c d = some (bitsDown (c.first[l]?.getD 0 + k) l) := by
  obtain ⟨l, k, h1, h2, h3, h4⟩ := hv.codeMap hd
  refine ⟨l, k, h2, h3, h4, ?_⟩
  have hm : (d, l) ∈ ps := (mem_row ps l d).1 (List.mem_of_getElem? h4)
  simp only [put, h1]
  rw [if_pos (h64 _ hm)]

theorem putAll_append (w : BitStream.W) (a b : List Bool) :
    BitStream.putAll w (a ++ b) = BitStream.putAll (BitStream.putAll w a) b := by
  simp [BitStream.putAll]

/-- Encoding concatenates code words; the decoder reads them back one by one. -/
theorem roundtrip {α : Type} [DecidableEq α] {c : Coder α} {ps : List (α × Nat)} {D : Nat}
    (hv : Valid c ps D) (h64 : ∀ e ∈ ps, e.2 ≤ 64) (xs : List α) (hxs : ∀ x ∈ xs, ∃ l, (x, l) ∈ ps) :
    ∃ bs, (∀ w, putAll c xs w = some (BitStream.putAll w bs)) ∧
      ∀ w rest, Ahead w (bs ++ rest) →
        ∃ w', readAll c xs.length w = some (xs, w') ∧ w'.bitPos = w.bitPos + bs.length ∧ w'.data = w.data := by
  induction xs with
  | nil => exact ⟨[], fun w => rfl, fun w rest h => ⟨w, rfl, rfl, rfl⟩⟩
  | cons x xs ih =>
    obtain ⟨bs, b1, b2⟩ := ih (fun y hy => hxs y (by simp [hy]))
    obtain ⟨l0, hl0⟩ := hxs x (by simp)
    obtain ⟨l, k, k1, k2, k3, k4⟩ := put_spec hv hl0 h64
    refine ⟨bitsDown (c.first[l]?.getD 0 + k) l ++ bs, ?_, ?_⟩
    · intro w
      rw [putAll, k4]
      show putAll c xs _ = _
      rw [b1, putAll_append]
    · intro w rest ha
      rw [List.append_assoc] at ha
      obtain ⟨w1, w2, w3, w4, w5⟩ := read_spec hv k1 k2 k3 w _ ha
      obtain ⟨w', v1, v2, v3⟩ := b2 w1 rest w3
      refine ⟨w', ?_, ?_, v3.trans w4⟩
      · rw [List.length_cons, readAll, w2]
        simp only
        rw [v1]; rfl
      · have hl : ∀ v j, (bitsDown v j).length = j := by
          intro v j; induction j with
          | zero => rfl
          | succ j ih => simp [bitsDown, ih]
        rw [v2, w5, List.length_append, hl]; omega

theorem bitsDown_length (v j : Nat) : (bitsDown v j).length = j := by
  induction j with
  | zero => rfl
  | succ j ih => simp [bitsDown, ih]

/-- Reading a stream that starts with a code word yields its symbol, so code words are prefix-free. -/
theorem ahead_new (data : Str) (bs : List Bool) (h : bs <+: BitStream.bitsOf data) :
    Ahead (BitStream.new data) bs := ⟨BitStream.sync_new data, by simpa [BitStream.new] using h⟩

end Verif.Huffman
