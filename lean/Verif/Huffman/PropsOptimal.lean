import Verif.Huffman.Optimal
import Verif.Huffman.Props

/-!
Property theorems C49 (the Huffman code is optimal).

A code is any assignment of bit strings to symbols.  It is prefix-free if no code word is the beginning of the
code word of another symbol.
-/
set_option linter.unusedVariables false
set_option linter.unusedSimpArgs false

namespace Verif.Huffman
open Verif Spec

/-- Specification: the frequency-weighted length of a code on a table. -/
def totalLength {α : Type} (code : α → List Bool) (table : List (α × Nat)) : Nat :=
  (table.map fun e => e.2 * (code e.1).length).sum

/-- A prefix-free code satisfies Kraft's inequality. -/
theorem prefixFree_kraft {α : Type} {code : α → List Bool} {syms : List α} (hnd : syms.Nodup)
    (h : PrefixFree code syms) (D : Nat) (hD : ∀ s ∈ syms, (code s).length ≤ D) :
    kraft D (syms.map fun s => (code s).length) ≤ 2 ^ D := by
  have := kraft_le D (syms.map code) (by simpa using hD) (by
    rw [List.pairwise_map]
    refine List.Pairwise.imp_of_mem ?_ hnd
    intro a b ha hb hab
    exact ⟨fun hp => hab (h a ha b hb hp), fun hp => hab (h b hb a ha hp).symm⟩)
  rw [List.map_map] at this
  exact this

theorem exists_bound {α : Type} (f : α → Nat) (l : List α) : ∃ D, ∀ x ∈ l, f x ≤ D := by
  induction l with
  | nil => exact ⟨0, by simp⟩
  | cons a l ih =>
    obtain ⟨D, h⟩ := ih
    refine ⟨max D (f a), ?_⟩
    intro x hx
    simp only [List.mem_cons] at hx
    rcases hx with rfl | hx
    · omega
    · have := h x hx; omega

/-- **C49** Optimality of the lengths: no prefix-free code for the symbols has a smaller weighted length than the lengths
computed, whatever the order of equal weights in the heap.  (Sums of frequencies fit in 64 bits, zero is allowed.) -/
theorem C49_lengths {α : Type} {ops : HeapOps} (hops : Standard ops) (table : List (α × Nat))
    (h2 : 2 ≤ table.length) (hn : table.length ≤ 65536) (hnd : (table.map (·.1)).Nodup)
    (hs : (table.map (·.2)).sum < 2 ^ 64) (code : α → List Bool) (hc : PrefixFree code (table.map (·.1))) :
    ((table.zip (calcLengths ops (table.map (·.2)))).map fun e => e.1.2 * e.2).sum ≤ totalLength code table := by
  obtain ⟨D, hD⟩ := exists_bound (fun s => (code s).length) (table.map (·.1))
  have hk := prefixFree_kraft hnd hc D hD
  have := calcLengths_optimal hops (table.map (·.2)) (by simpa using h2) (by simpa using hn) hs
    ((table.map (·.1)).map fun s => (code s).length) (by simp) D
    (by intro l hl; obtain ⟨s, hs, rfl⟩ := List.mem_map.1 hl; exact hD s hs) hk
  have e : ((table.map (·.2)).zip ((table.map (·.1)).map fun s => (code s).length)) =
      table.map fun e => (e.2, (code e.1).length) := by
    rw [List.map_map, List.zip_map']; rfl
  rw [e] at this
  simp only [cost, List.map_map, List.zip_map_left] at this
  exact this

/-- The length of the code word of a symbol is the length computed for it. -/
theorem put_length {α : Type} [DecidableEq α] {c : Coder α} {ps : List (α × Nat)} {D : Nat}
    (hv : Valid c ps D) (hnd : (ps.map (·.1)).Nodup) {d : α} {l0 : Nat} (hd : (d, l0) ∈ ps)
    (h64 : ∀ e ∈ ps, e.2 ≤ 64) : ∃ bs, put c d = some bs ∧ bs.length = l0 := by
  obtain ⟨l, k, h1, h2, h3, h4⟩ := put_spec hv hd h64
  refine ⟨_, h4, ?_⟩
  have hm : (d, l) ∈ ps := (mem_row ps l d).1 (List.mem_of_getElem? h3)
  have : l = l0 := by
    have hinj : ∀ {ps : List (α × Nat)}, (ps.map (·.1)).Nodup → (d, l) ∈ ps → (d, l0) ∈ ps → l = l0 := by
      intro ps
      induction ps with
      | nil => intro _ h; simp at h
      | cons p ps ih =>
        intro hn ha hb
        simp only [List.map_cons, List.nodup_cons] at hn
        simp only [List.mem_cons] at ha hb
        rcases ha with ha | ha <;> rcases hb with hb | hb
        · rw [← hb] at ha; simpa using ha
        · exact absurd (List.mem_map_of_mem (f := (·.1)) hb) (by rw [← ha] at hn; exact hn.1)
        · exact absurd (List.mem_map_of_mem (f := (·.1)) ha) (by rw [← hb] at hn; exact hn.1)
        · exact ih hn.2 ha hb
    exact hinj hnd hm hd
  subst this
  have hb : ∀ x j, (bitsDown x j).length = j := by
    intro x j; induction j with
    | zero => rfl
    | succ j ih => simp [bitsDown, ih]
  exact hb _ _

/-- **C49** Optimality of the code: whenever no code is longer than 64 bits, the code words written have the least weighted
length among all prefix-free codes for the symbols of the table. -/
theorem C49_optimal {α : Type} [DecidableEq α] {ops : HeapOps} (hops : Standard ops) (table : List (α × Nat))
    (h2 : 2 ≤ table.length) (hn : table.length ≤ 65536) (hnd : (table.map (·.1)).Nodup)
    (hs : (table.map (·.2)).sum < 2 ^ 64) (h64 : ∀ l ∈ calcLengths ops (table.map (·.2)), l ≤ 64) :
    ∃ c, build ops table = some c ∧ (∀ d ∈ table.map (·.1), (put c d).isSome) ∧
      PrefixFree (fun d => (put c d).getD []) (table.map (·.1)) ∧
      ∀ code, PrefixFree code (table.map (·.1)) →
        totalLength (fun d => (put c d).getD []) table ≤ totalLength code table := by
  have hne : table ≠ [] := by intro e; rw [e] at h2; simp at h2
  have hf : ∀ e ∈ table, e.2 < 2 ^ 64 := fun e he => by
    have := le_sum_of_mem (List.mem_map_of_mem (f := (·.2)) he); omega
  obtain ⟨c, hc, hp1, hp2⟩ := C30_prefix_free_partial hops table hne hn hf h64
  refine ⟨c, hc, hp1, hp2, ?_⟩
  intro code hcode
  have h1 := C49_lengths hops table h2 hn hnd hs code hcode
  refine Nat.le_trans (Nat.le_of_eq ?_) h1
  obtain ⟨hl, hg⟩ := good_of (ops := ops) (freqs := table.map (·.2)) (by simpa using hne)
    (fun h2 => by
      obtain ⟨a, b, c⟩ := C30_complete hops (table.map (·.2)) h2 (by simpa using hn)
        (by intro f hf'; obtain ⟨e, he, rfl⟩ := List.mem_map.1 hf'; exact hf e he)
      exact ⟨a, b, fun l hl => (c l hl).1⟩)
  rw [List.length_map] at hl
  obtain ⟨c', D, hc', hv⟩ := build_valid (ops := ops) table hl hg
  rw [hc] at hc'
  cases hc'
  have hz1 : ((table.map (·.1)).zip (calcLengths ops (table.map (·.2)))).map (·.1) = table.map (·.1) :=
    List.map_fst_zip (by simp [hl])
  have hput : ∀ e ∈ table.zip (calcLengths ops (table.map (·.2))), ((put c e.1.1).getD []).length = e.2 := by
    intro e he
    have hm : (e.1.1, e.2) ∈ (table.map (·.1)).zip (calcLengths ops (table.map (·.2))) := by
      rw [List.zip_map_left]
      exact List.mem_map.2 ⟨e, he, rfl⟩
    obtain ⟨bs, b1, b2⟩ := put_length hv (by rw [hz1]; exact hnd) hm
      (by intro e he; exact h64 _ (List.of_mem_zip (a := e.1) (b := e.2) he).2)
    rw [b1]; exact b2
  have ht : table = (table.zip (calcLengths ops (table.map (·.2)))).map (·.1) := (List.map_fst_zip (by omega)).symm
  rw [totalLength]
  conv => lhs; rw [ht]
  rw [List.map_map]
  congr 1
  apply List.map_congr_left
  intro e he
  simp only [Function.comp, hput e he]

/-- Summing over a text is summing over its symbols with their numbers of occurrences. -/
theorem sum_by_count {α : Type} [DecidableEq α] (g : α → Nat) (syms : List α) (hnd : syms.Nodup) (xs : List α)
    (hxs : ∀ x ∈ xs, x ∈ syms) : (xs.map g).sum = (syms.map fun s => xs.count s * g s).sum := by
  have hz : ∀ l : List α, (l.map fun _ => 0).sum = 0 := by
    intro l; induction l with
    | nil => rfl
    | cons a l ih => simpa using ih
  induction xs with
  | nil => simp only [List.map_nil, List.sum_nil, List.count_nil, Nat.zero_mul, hz]
  | cons x xs ih =>
    have hx : x ∈ syms := hxs x (by simp)
    rw [List.map_cons, List.sum_cons, ih (fun y hy => hxs y (by simp [hy]))]
    clear ih hxs
    induction syms with
    | nil => simp at hx
    | cons s syms ih =>
      rw [List.nodup_cons] at hnd
      simp only [List.map_cons, List.sum_cons, List.count_cons]
      by_cases hxs : x = s
      · subst hxs
        have hrest : (syms.map fun s => (xs.count s + if (x == s) = true then 1 else 0) * g s) =
            syms.map fun s => xs.count s * g s := by
          apply List.map_congr_left
          intro t ht
          have : x ≠ t := fun e => hnd.1 (e ▸ ht)
          simp [this]
        rw [hrest]
        simp [Nat.add_mul]; omega
      · have hx' : x ∈ syms := by
          simp only [List.mem_cons] at hx
          exact hx.resolve_left hxs
        have := ih hnd.2 hx'
        simp only [List.count_cons] at this
        rw [if_neg (by simpa using hxs), ← this, Nat.add_zero]; omega

theorem putAll_bits {α : Type} [DecidableEq α] {c : Coder α} (xs : List α) (h : ∀ x ∈ xs, (put c x).isSome)
    (w : BitStream.W) : putAll c xs w = some (BitStream.putAll w (xs.flatMap fun x => (put c x).getD [])) := by
  induction xs generalizing w with
  | nil => rfl
  | cons x xs ih =>
    obtain ⟨bs, hb⟩ := Option.isSome_iff_exists.1 (h x (by simp))
    rw [putAll, hb, Option.bind_some, ih (fun y hy => h y (by simp [hy]))]
    simp [hb, putAll_append]

/-- **C49** Optimal compression: if the frequencies are the numbers of occurrences in a text, then the text is written
with no more bits than any prefix-free code needs for it. -/
theorem C49_text {α : Type} [DecidableEq α] {ops : HeapOps} (hops : Standard ops) (syms : List α) (hnd : syms.Nodup)
    (h2 : 2 ≤ syms.length) (hn : syms.length ≤ 65536) (xs : List α) (hxs : ∀ x ∈ xs, x ∈ syms)
    (hlen : xs.length < 2 ^ 64)
    (h64 : ∀ l ∈ calcLengths ops (syms.map fun s => xs.count s), l ≤ 64) :
    ∃ c w, build ops (syms.map fun s => (s, xs.count s)) = some c ∧ putAll c xs (BitStream.new []) = some w ∧
      ∀ code, PrefixFree code syms → w.bitPos ≤ (xs.flatMap code).length := by
  have e1 : (syms.map fun s => (s, xs.count s)).map (·.1) = syms := by
    rw [List.map_map]; exact List.map_id _
  have e2 : (syms.map fun s => (s, xs.count s)).map (·.2) = syms.map fun s => xs.count s := by
    rw [List.map_map]; rfl
  have hsum : (syms.map fun s => xs.count s).sum = xs.length := by
    have := sum_by_count (fun _ => 1) syms hnd xs hxs
    simp only [Nat.mul_one] at this
    rw [← this, List.map_const', List.sum_replicate_nat]; omega
  obtain ⟨c, hc, hp, _, hopt⟩ := C49_optimal hops (syms.map fun s => (s, xs.count s)) (by simpa using h2)
    (by simpa using hn) (by rw [e1]; exact hnd) (by rw [e2, hsum]; exact hlen) (by rw [e2]; exact h64)
  rw [e1] at hp hopt
  refine ⟨c, _, hc, putAll_bits xs (fun x hx => hp x (hxs x hx)) _, ?_⟩
  intro code hcode
  have hpos := (BitStream.written_putAll (xs.flatMap fun x => (put c x).getD []) (BitStream.new []) [] []
    (BitStream.written_new [])).pos
  rw [hpos, List.nil_append, List.length_flatMap, List.length_flatMap]
  have := hopt code hcode
  simp only [totalLength, List.map_map] at this
  have f := fun g : α → Nat => sum_by_count g syms hnd xs hxs
  rw [f (fun x => ((put c x).getD []).length), f (fun x => (code x).length)]
  exact this

/-- The text "abracadabra": the hypotheses hold, and 23 bits are written. -/
example : ∃ c w, build sortedOps (['a', 'b', 'c', 'd', 'r'].map fun s => (s, "abracadabra".toList.count s)) = some c ∧
    putAll c "abracadabra".toList (BitStream.new []) = some w ∧
    ∀ code, PrefixFree code ['a', 'b', 'c', 'd', 'r'] → w.bitPos ≤ ("abracadabra".toList.flatMap code).length :=
  C49_text sortedOps_standard _ (by decide) (by decide) (by decide) _ (by decide +kernel) (by decide +kernel)
    (by decide +kernel)

end Verif.Huffman
