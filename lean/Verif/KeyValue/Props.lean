import Verif.KeyValue.Lemmas

/-!
Property theorems C29 (binary lexicon).

`store l` is the store built from the list `l` of key/value pairs.  `MinimalPerfect h keys` says that
`h` maps the keys to distinct numbers below their number; `cstr` cuts at the first NUL.
-/
set_option linter.unusedVariables false

namespace Verif.KeyValue
open Verif Binary

/-- Adding all pairs and building. -/
def store (h fp : Str → Nat) (l : List (Str × Str)) : Option Store :=
  (Builder.empty.addAll l).bind (build h fp)

/-- The values fit the 32-bit positions of the string vector. -/
def Fits (l : List (Str × Str)) : Prop :=
  l.length < 2 ^ 32 ∧ (l.map (·.2.length)).sum < 2 ^ 32

theorem store_built (h fp : Str → Nat) (l : List (Str × Str)) (hf : Fits l)
    (hm : MinimalPerfect h (l.map fun e => cstr e.1)) :
    ∃ s, store h fp l = some s ∧ Built h fp (l.map fun e => cstr e.1) (l.map (·.2)) s := by
  have hlen : (l.map (·.2)).flatten.length = (l.map (·.2.length)).sum := by
    rw [List.length_flatten, List.map_map]; rfl
  obtain ⟨b, b1, b2, b3⟩ := addAll_spec l Builder.empty [] (StringVector.holds_empty (by omega))
    (by simp; exact hf.1) (by rw [List.nil_append, hlen]; exact hf.2)
  simp only [Builder.empty, List.nil_append] at b2 b3
  obtain ⟨s, s1, s2⟩ := build_spec h fp b (l.map (·.2)) b3 (by rw [b2]; simp) (by rw [b2]; exact hm)
    (by rw [b2]; intro k hk; simp at hk; obtain ⟨a, c, _, rfl⟩ := hk; exact cstr_cstr a)
    (by simp; exact hf.1) (by rw [hlen]; exact hf.2)
  refine ⟨s, ?_, b2 ▸ s2⟩
  rw [store, b1]; exact s1

/-- **C29** Every stored key gives exactly its value, for any minimal perfect hash and any
fingerprint. -/
theorem C29_get (h fp : Str → Nat) (l : List (Str × Str)) (hf : Fits l)
    (hm : MinimalPerfect h (l.map fun e => cstr e.1)) :
    ∃ s, store h fp l = some s ∧ ∀ k v, (k, v) ∈ l → get h fp s k = some (some v) := by
  obtain ⟨s, h1, h2⟩ := store_built h fp l hf hm
  refine ⟨s, h1, ?_⟩
  intro k v hkv
  obtain ⟨j, hj⟩ := List.mem_iff_getElem?.1 hkv
  have hk : (l.map fun e => cstr e.1)[j]? = some (cstr k) := by simp [hj]
  have hv : (l.map (·.2))[j]? = some v := by simp [hj]
  obtain ⟨ys, y1, y2, y3, y4⟩ := h2.strings
  have hmem := List.mem_of_getElem? hk
  have hg : getHash h fp s.fprints k = h (cstr k) := by
    simp [getHash, h2.fps _ hmem]
  have hlt := hm.2 _ hmem
  have hy := y4 j _ _ hk hv
  have hlen : (l.map (·.2)).flatten.length = (l.map (·.2.length)).sum := by
    rw [List.length_flatten, List.map_map]; rfl
  have hat := StringVector.holds_at (pb := 4) (by omega) y1
    (by rw [y3.length_eq]; simp; exact hf.1) (by rw [y3.flatten.length_eq, hlen]; exact hf.2) hy
  rw [get, hg, h2.len, if_neg (by omega), hat]
  rfl

/-- **C29** A query always has a defined outcome; it answers only for a stored key, or for a string
whose hash and fingerprint are both those of a stored key, and then with that key's value. -/
theorem C29_other_keys (h fp : Str → Nat) (l : List (Str × Str)) (hf : Fits l)
    (hm : MinimalPerfect h (l.map fun e => cstr e.1)) (s : Store) (hs : store h fp l = some s)
    (q : Str) :
    get h fp s q = some none ∨
    ∃ k v, (k, v) ∈ l ∧ h (cstr q) = h (cstr k) ∧ fp (cstr q) = fp (cstr k) ∧
      get h fp s q = some (some v) := by
  obtain ⟨s', h1, h2⟩ := store_built h fp l hf hm
  rw [hs] at h1; cases h1
  cases hi : s.fprints[h (cstr q)]? with
  | none => left; simp [get, getHash, hi]
  | some f =>
    by_cases hfp : fp (cstr q) = f
    · right
      have hlt := (List.getElem?_eq_some_iff.1 hi).1
      have : h (cstr q) ∈ (l.map fun e => cstr e.1).map h := mem_of_nodup_lt hm.1 (by
        intro x hx; rw [List.length_map]
        obtain ⟨k, hk, rfl⟩ := List.mem_map.1 hx; exact hm.2 k hk)
        (by rw [List.length_map, ← h2.len]; exact hlt)
      obtain ⟨k', hk', he⟩ := List.mem_map.1 this
      obtain ⟨e, he', rfl⟩ := List.mem_map.1 hk'
      refine ⟨e.1, e.2, he', he.symm, ?_, ?_⟩
      · have := h2.fps _ hk'
        rw [he, hi] at this
        simp at this; rw [hfp, this]
      · obtain ⟨s', h1', h3⟩ := C29_get h fp l hf hm
        rw [hs] at h1'; cases h1'
        have := h3 e.1 e.2 he'
        rw [← this]
        simp only [get, getHash, ← he, h2.fps _ hk']
        have : f = fp (cstr e.1) := by
          have := h2.fps _ hk'
          rw [he, hi] at this
          simpa using this
        rw [hfp, this]
        simp
    · left; simp [get, getHash, hi, hfp]

/-- **C29** A store with 32-bit fingerprints is loaded back unchanged. -/
theorem C29_save_load (h fp : Str → Nat) (hfp : ∀ k, fp k < 2 ^ 32) (l : List (Str × Str))
    (hf : Fits l) (hm : MinimalPerfect h (l.map fun e => cstr e.1)) (s : Store)
    (hs : store h fp l = some s) (rest : Str) : load (save s ++ rest) = some (s, rest) := by
  obtain ⟨s', h1, h2⟩ := store_built h fp l hf hm
  rw [hs] at h1; cases h1
  obtain ⟨ys, y1, y2, y3, y4⟩ := h2.strings
  have hlen : (l.map (·.2)).flatten.length = (l.map (·.2.length)).sum := by
    rw [List.length_flatten, List.map_map]; rfl
  have hn : ys.length < 256 ^ 4 := by rw [y3.length_eq]; simp; exact hf.1
  have hc : ys.flatten.length < 256 ^ 4 := by rw [y3.flatten.length_eq, hlen]; exact hf.2
  have hfps : ∀ f ∈ s.fprints, f < 256 ^ 4 := by
    intro f hf'
    obtain ⟨p, hp⟩ := List.mem_iff_getElem?.1 hf'
    have hlt := (List.getElem?_eq_some_iff.1 hp).1
    have : p ∈ (l.map fun e => cstr e.1).map h := mem_of_nodup_lt hm.1 (by
        intro x hx; rw [List.length_map]
        obtain ⟨k, hk, rfl⟩ := List.mem_map.1 hx; exact hm.2 k hk)
        (by rw [List.length_map, ← h2.len]; exact hlt)
    obtain ⟨k, hk, rfl⟩ := List.mem_map.1 this
    have := h2.fps k hk
    rw [hp] at this; simp at this; rw [this]; exact hfp k
  simp only [load, save, List.append_assoc]
  rw [getVector_putVector (inverse_int 4) s.fprints hfps (by rw [h2.len, ← y2]; omega)]
  simp only [Option.bind_eq_bind, Option.bind_some]
  rw [StringVector.load_save (by omega) y1 (by omega) (by omega) (by omega)]
  simp only [Option.bind_eq_bind, Option.bind_some]
  rw [StringVector.holds_size (by omega) y1 hn, h2.len, y2]
  simp

/-- A concrete case: two keys, a hash that swaps them; the hypotheses hold. -/
example : MinimalPerfect (fun k => if k = [97] then 1 else 0)
    ([([97], [1, 2]), ([98], [])].map fun e : Str × Str => cstr e.1) ∧
    Fits [([97], [1, 2]), ([98], [])] := by
  refine ⟨⟨by decide, by decide⟩, by decide, by decide⟩

end Verif.KeyValue
