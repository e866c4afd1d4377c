import Verif.Huffman.Lemmas
import Verif.BitStream.Props

/-!
Property theorems C30 (Huffman coding is lossless).

All theorems hold for any implementation of the heap functions that obeys the C++ standard
(`Standard`), so for every order of ties.  `table` lists the symbols with their frequencies.
-/
set_option linter.unusedVariables false
set_option linter.unusedSimpArgs false

namespace Verif.Huffman
open Verif Spec

/-- **C30** The code lengths computed for up to 65536 symbols, with any 64-bit frequencies (sums may
overflow), form a complete prefix code. -/
theorem C30_complete {ops : HeapOps} (hops : Standard ops) (freqs : List Nat)
    (hn : 2 ≤ freqs.length) (hn' : freqs.length ≤ 65536) (hf : ∀ f ∈ freqs, f < 2 ^ 64) :
    (calcLengths ops freqs).length = freqs.length ∧ Complete (calcLengths ops freqs) ∧
      ∀ l ∈ calcLengths ops freqs, 1 ≤ l ∧ l < freqs.length :=
  complete_small hops freqs hn hn' hf

/-- **C30** For any number of symbols with positive frequencies whose sum fits in 64 bits, the code
lengths form a complete prefix code. -/
theorem C30_complete_any {ops : HeapOps} (hops : Standard ops) (freqs : List Nat)
    (hn : 2 ≤ freqs.length) (hpos : ∀ f ∈ freqs, 1 ≤ f) (hs : freqs.sum < 2 ^ 64) :
    (calcLengths ops freqs).length = freqs.length ∧ Complete (calcLengths ops freqs) ∧
      ∀ l ∈ calcLengths ops freqs, 1 ≤ l ∧ l ≤ 91 :=
  complete_fib hops freqs hn hpos 91 (Nat.lt_trans hs (by decide +kernel)) hs (by omega)

/-- **C30** Prefix-free: whenever no code is longer than 64 bits, all symbols of the table have code words
and no code word is a prefix of the code word of another symbol. -/
theorem C30_prefix_free_partial {α : Type} [DecidableEq α] {ops : HeapOps} (hops : Standard ops)
    (table : List (α × Nat)) (hne : table ≠ []) (hn : table.length ≤ 65536)
    (hf : ∀ e ∈ table, e.2 < 2 ^ 64) (h64 : ∀ l ∈ calcLengths ops (table.map (·.2)), l ≤ 64) :
    ∃ c, build ops table = some c ∧ (∀ d ∈ table.map (·.1), (put c d).isSome) ∧
      PrefixFree (fun d => (put c d).getD []) (table.map (·.1)) := by
  obtain ⟨hl, hg⟩ := good_of (ops := ops) (freqs := table.map (·.2)) (by simpa using hne)
    (fun h2 => by
      obtain ⟨a, b, c⟩ := C30_complete hops (table.map (·.2)) h2 (by simpa using hn)
        (by intro f hf'; obtain ⟨e, he, rfl⟩ := List.mem_map.1 hf'; exact hf e he)
      exact ⟨a, b, fun l hl => (c l hl).1⟩)
  rw [List.length_map] at hl
  obtain ⟨c, D, hc, hv⟩ := build_valid (ops := ops) table hl hg
  have h64' : ∀ e ∈ (table.map (·.1)).zip (calcLengths ops (table.map (·.2))), e.2 ≤ 64 := by
    intro e he; exact h64 _ (List.of_mem_zip (a := e.1) (b := e.2) he).2
  have hz : ∀ d ∈ table.map (·.1), ∃ l, (d, l) ∈ (table.map (·.1)).zip (calcLengths ops (table.map (·.2))) := by
    intro d hd
    obtain ⟨l, _, h⟩ := mem_zip_of_mem _ (calcLengths ops (table.map (·.2))) (by simp [hl]) d hd
    exact ⟨l, h⟩
  refine ⟨c, hc, ?_, ?_⟩
  · intro d hd
    obtain ⟨l0, hl0⟩ := hz d hd
    obtain ⟨l, k, k1, k2, k3, k4⟩ := put_spec hv hl0 h64'
    rw [k4]; rfl
  · intro a ha b hb hab
    obtain ⟨la, hla⟩ := hz a ha
    obtain ⟨lb, hlb⟩ := hz b hb
    obtain ⟨l, k, k1, k2, k3, k4⟩ := put_spec hv hla h64'
    obtain ⟨l', k', k1', k2', k3', k4'⟩ := put_spec hv hlb h64'
    simp only [k4, k4', Option.getD_some] at hab
    obtain ⟨pad, _, hw⟩ := BitStream.C31_put (bitsDown (c.first[l']?.getD 0 + k') l')
    have hb' := read_spec hv k1' k2' k3' (BitStream.new (BitStream.putAll (BitStream.new []) (bitsDown (c.first[l']?.getD 0 + k') l')).data) []
      (ahead_new _ _ (by rw [hw]; simp))
    have ha' := read_spec hv k1 k2 k3 (BitStream.new (BitStream.putAll (BitStream.new []) (bitsDown (c.first[l']?.getD 0 + k') l')).data) []
      (ahead_new _ _ (by rw [hw]; simp; exact hab.trans (List.prefix_append _ _)))
    obtain ⟨w1, e1, _⟩ := hb'
    obtain ⟨w2, e2, _⟩ := ha'
    rw [e1] at e2
    simp only [Option.some.injEq, Prod.mk.injEq] at e2
    exact e2.1.symm

/-- **C30** Lossless (partial: no code longer than 64 bits): decoding the bits written for any sequence of
symbols returns the sequence and consumes exactly the bits written. -/
theorem C30_lossless_partial {α : Type} [DecidableEq α] {ops : HeapOps} (hops : Standard ops)
    (table : List (α × Nat)) (hne : table ≠ []) (hn : table.length ≤ 65536)
    (hf : ∀ e ∈ table, e.2 < 2 ^ 64) (h64 : ∀ l ∈ calcLengths ops (table.map (·.2)), l ≤ 64)
    (xs : List α) (hxs : ∀ x ∈ xs, x ∈ table.map (·.1)) :
    ∃ c w w', build ops table = some c ∧ putAll c xs (BitStream.new []) = some w ∧
      readAll c xs.length (BitStream.new w.data) = some (xs, w') ∧ w'.bitPos = w.bitPos := by
  obtain ⟨hl, hg⟩ := good_of (ops := ops) (freqs := table.map (·.2)) (by simpa using hne)
    (fun h2 => by
      obtain ⟨a, b, c⟩ := C30_complete hops (table.map (·.2)) h2 (by simpa using hn)
        (by intro f hf'; obtain ⟨e, he, rfl⟩ := List.mem_map.1 hf'; exact hf e he)
      exact ⟨a, b, fun l hl => (c l hl).1⟩)
  rw [List.length_map] at hl
  obtain ⟨c, D, hc, hv⟩ := build_valid (ops := ops) table hl hg
  obtain ⟨bs, b1, b2⟩ := roundtrip hv
    (by intro e he; exact h64 _ (List.of_mem_zip (a := e.1) (b := e.2) he).2) xs
    (by
      intro d hd
      obtain ⟨l, _, h⟩ := mem_zip_of_mem _ (calcLengths ops (table.map (·.2))) (by simp [hl]) d (hxs d hd)
      exact ⟨l, h⟩)
  obtain ⟨pad, _, hw⟩ := BitStream.C31_put bs
  obtain ⟨w', v1, v2, _⟩ := b2 (BitStream.new (BitStream.putAll (BitStream.new []) bs).data) []
    (ahead_new _ _ (by rw [hw]; simp))
  refine ⟨c, _, w', hc, b1 _, v1, ?_⟩
  rw [v2]
  have := (BitStream.written_putAll bs (BitStream.new []) [] [] (BitStream.written_new [])).pos
  simp only [List.nil_append] at this
  rw [this]; simp [BitStream.new]

/-- **C30** Lossless: for every table of any size whose frequencies are positive and sum up to less than
44945570212853 (the 67th Fibonacci number), decoding the bits written for any sequence of symbols returns the
sequence and consumes exactly the bits written. -/
theorem C30_lossless {α : Type} [DecidableEq α] {ops : HeapOps} (hops : Standard ops)
    (table : List (α × Nat)) (hne : table ≠ []) (hpos : ∀ e ∈ table, 1 ≤ e.2)
    (hs : (table.map (·.2)).sum < 44945570212853)
    (xs : List α) (hxs : ∀ x ∈ xs, x ∈ table.map (·.1)) :
    ∃ c w w', build ops table = some c ∧ putAll c xs (BitStream.new []) = some w ∧
      readAll c xs.length (BitStream.new w.data) = some (xs, w') ∧ w'.bitPos = w.bitPos := by
  have hfib : fib (64 + 3) = 44945570212853 := by decide +kernel
  have hc := fun h2 => complete_fib hops (table.map (·.2)) h2
    (by intro f hf'; obtain ⟨e, he, rfl⟩ := List.mem_map.1 hf'; exact hpos e he) 64
    (by rw [hfib]; exact hs) (by omega) (by omega)
  obtain ⟨hl, hg⟩ := good_of (ops := ops) (freqs := table.map (·.2)) (by simpa using hne)
    (fun h2 => ⟨(hc h2).1, (hc h2).2.1, fun l hl => ((hc h2).2.2 l hl).1⟩)
  have h64 : ∀ l ∈ calcLengths ops (table.map (·.2)), l ≤ 64 := by
    by_cases h1 : (table.map (·.2)).length = 1
    · rw [calcLengths_single _ _ h1]; simp
    · have : (table.map (·.2)).length ≠ 0 := by simpa using hne
      intro l hl
      exact ((hc (by omega)).2.2 l hl).2
  rw [List.length_map] at hl
  obtain ⟨c, D, hc, hv⟩ := build_valid (ops := ops) table hl hg
  obtain ⟨bs, b1, b2⟩ := roundtrip hv
    (by intro e he; exact h64 _ (List.of_mem_zip (a := e.1) (b := e.2) he).2) xs
    (by
      intro d hd
      obtain ⟨l, _, h⟩ := mem_zip_of_mem _ (calcLengths ops (table.map (·.2))) (by simp [hl]) d (hxs d hd)
      exact ⟨l, h⟩)
  obtain ⟨pad, _, hw⟩ := BitStream.C31_put bs
  obtain ⟨w', v1, v2, _⟩ := b2 (BitStream.new (BitStream.putAll (BitStream.new []) bs).data) []
    (ahead_new _ _ (by rw [hw]; simp))
  refine ⟨c, _, w', hc, b1 _, v1, ?_⟩
  rw [v2]
  have := (BitStream.written_putAll bs (BitStream.new []) [] [] (BitStream.written_new [])).pos
  simp only [List.nil_append] at this
  rw [this]; simp [BitStream.new]

/-! ### A standard heap, and the disagreement -/

/-- Insertion into a list sorted by weight. -/
def insertW (w : Nat → Nat) (x : Nat) : List Nat → List Nat
  | [] => [x]
  | y :: l => if w x ≤ w y then x :: y :: l else y :: insertW w x l

/-- Sorting by weight. -/
def sortW (w : Nat → Nat) : List Nat → List Nat
  | [] => []
  | x :: l => insertW w x (sortW w l)

/-- A simple implementation of the heap functions that keeps the heap sorted. -/
def sortedOps : HeapOps where
  make := sortW
  pop := fun w l => match l with
    | [] => []
    | x :: l => sortW w l ++ [x]
  push := sortW

theorem insertW_perm (w : Nat → Nat) (x : Nat) (l : List Nat) : (insertW w x l).Perm (x :: l) := by
  induction l with
  | nil => exact List.Perm.refl _
  | cons y l ih =>
    rw [insertW]; split
    · exact List.Perm.refl _
    · exact (List.Perm.cons y ih).trans (List.Perm.swap x y l)

theorem sortW_perm (w : Nat → Nat) (l : List Nat) : (sortW w l).Perm l := by
  induction l with
  | nil => exact List.Perm.refl _
  | cons x l ih => exact (insertW_perm w x _).trans (List.Perm.cons x ih)

theorem insertW_sorted (w : Nat → Nat) (x : Nat) (l : List Nat) (h : l.Pairwise (fun a b => w a ≤ w b)) :
    (insertW w x l).Pairwise (fun a b => w a ≤ w b) := by
  induction l with
  | nil => simp [insertW]
  | cons y l ih =>
    rw [List.pairwise_cons] at h
    rw [insertW]; split
    · rename_i hxy
      rw [List.pairwise_cons, List.pairwise_cons]
      refine ⟨?_, h⟩
      intro z hz
      simp only [List.mem_cons] at hz
      rcases hz with rfl | hz
      · exact hxy
      · exact Nat.le_trans hxy (h.1 z hz)
    · rename_i hxy
      rw [List.pairwise_cons]
      refine ⟨?_, ih h.2⟩
      intro z hz
      have := (insertW_perm w x l).mem_iff.1 hz
      simp only [List.mem_cons] at this
      rcases this with rfl | hz
      · omega
      · exact h.1 z hz

theorem sortW_heap (w : Nat → Nat) (l : List Nat) : IsHeap w (sortW w l) := by
  have hs : (sortW w l).Pairwise (fun a b => w a ≤ w b) := by
    induction l with
    | nil => simp [sortW]
    | cons x l ih => exact insertW_sorted w x _ ih
  intro i hi h0
  exact List.pairwise_iff_getElem.1 hs _ _ _ hi (by omega)

theorem sortedOps_standard : Standard sortedOps where
  make := fun w l => ⟨sortW_perm w l, sortW_heap w l⟩
  pop := fun w x l _ => ⟨sortW w l, rfl, sortW_perm w l, sortW_heap w l⟩
  push := fun w l x _ => ⟨sortW_perm w _, sortW_heap w _⟩

/-- Symbols 0 … 65 with Fibonacci frequencies. -/
def fibTable : List (Nat × Nat) := (List.range 66).map fun i => (i, fib (i + 1))

/-- **C30 (disagreement)** With 66 symbols of Fibonacci frequencies the code of symbol 0 has 65 bits, and
writing it shifts a 64-bit word by 64 positions, which is undefined. -/
theorem C30_shift_false :
    ∃ c, build sortedOps fibTable = some c ∧ (codeMap c 0).1 = 65 ∧ put c 0 = none := by
  have h : (build sortedOps fibTable).map (fun c => ((codeMap c 0).1, put c 0)) = some (65, none) := by
    decide +kernel
  obtain ⟨c, hc, h⟩ := Option.map_eq_some_iff.1 h
  simp only [Prod.mk.injEq] at h
  exact ⟨c, hc, h.1, h.2⟩

/-- The hypotheses of the theorems are met by a concrete table: five symbols, one of them frequent. -/
example : ∃ c w w', build sortedOps [('a', 7), ('b', 1), ('c', 1), ('d', 2), ('e', 3)] = some c ∧
    putAll c ['b', 'a', 'e'] (BitStream.new []) = some w ∧
    readAll c 3 (BitStream.new w.data) = some (['b', 'a', 'e'], w') ∧ w'.bitPos = w.bitPos :=
  C30_lossless sortedOps_standard _ (by decide) (by decide) (by decide) ['b', 'a', 'e'] (by decide)

example : calcLengths sortedOps [7, 1, 1, 2, 3] = [1, 4, 4, 3, 2] := by decide +kernel

end Verif.Huffman
