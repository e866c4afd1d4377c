import Verif.KeyValue.Model
import Verif.StringVector.Lemmas
import Verif.ListAux

set_option linter.unusedVariables false
set_option linter.unusedSimpArgs false

namespace Verif.KeyValue
open Verif Binary

/-- `h` is a minimal perfect hash for `keys`: distinct values below the number of keys. -/
def MinimalPerfect (h : Str → Nat) (keys : List Str) : Prop :=
  (keys.map h).Nodup ∧ ∀ k ∈ keys, h k < keys.length

theorem cstr_cstr (s : Str) : cstr (cstr s) = cstr s := by
  simp only [cstr]
  induction s with
  | nil => rfl
  | cons a s ih =>
    simp only [List.takeWhile_cons]
    split
    · rename_i h; simp only [List.takeWhile_cons, h, if_true, ih]
    · rfl

theorem calcFprints_spec (h fp : Str → Nat) (n : Nat) (ks : List Str) (done : List Str)
    (fps : List Nat) (hnd : ((done ++ ks).map h).Nodup) (hb : ∀ k ∈ done ++ ks, h k < n)
    (hlen : fps.length ≤ n) (hdone : ∀ k ∈ done, fps[h k]? = some (fp k)) :
    (calcFprints h fp ks fps).length ≤ n ∧
      ∀ k ∈ done ++ ks, (calcFprints h fp ks fps)[h k]? = some (fp k) := by
  induction ks generalizing done fps with
  | nil => simpa [calcFprints] using ⟨hlen, hdone⟩
  | cons k ks ih =>
    have hk : h k < n := hb k (by simp)
    have e : done ++ k :: ks = (done ++ [k]) ++ ks := by simp
    rw [calcFprints, e]
    have hlen' : ((if h k ≥ fps.length then resize fps (h k + 1) else fps)).length ≤ n ∧
        h k < ((if h k ≥ fps.length then resize fps (h k + 1) else fps)).length := by
      split
      · simp [resize]; omega
      · omega
    apply ih (done ++ [k]) _ (by rw [← e]; exact hnd) (by rw [← e]; exact hb)
    · simp; exact hlen'.1
    · intro k' hk'
      simp only [List.mem_append, List.mem_singleton] at hk'
      rcases hk' with hk' | rfl
      · have hne : h k' ≠ h k := by
          intro he
          rw [List.map_append, List.map_cons, List.nodup_append] at hnd
          exact hnd.2.2 _ (List.mem_map_of_mem hk') (h k) (by simp) he
        rw [List.getElem?_set_ne (Ne.symm hne)]
        have h1 := hdone k' hk'
        split
        · rw [resize, List.getElem?_append_left]; exact h1
          exact (List.getElem?_eq_some_iff.1 h1).1
        · exact h1
      · rw [List.getElem?_set_self]; exact hlen'.2

theorem fprints_spec (h fp : Str → Nat) (keys : List Str) (hm : MinimalPerfect h keys) :
    (calcFprints h fp keys []).length = keys.length ∧
      ∀ k ∈ keys, (calcFprints h fp keys [])[h k]? = some (fp k) := by
  have hspec := calcFprints_spec h fp keys.length keys [] [] (by simpa using hm.1) (by simpa using hm.2)
    (by simp) (by simp)
  simp only [List.nil_append] at hspec
  refine ⟨?_, hspec.2⟩
  by_cases h0 : keys.length = 0
  · omega
  · have : keys.length - 1 ∈ keys.map h :=
      mem_of_nodup_lt hm.1 (by
        intro x hx; simp at hx ⊢; obtain ⟨k, hk, rfl⟩ := hx; exact hm.2 k hk)
        (by simp; omega)
    obtain ⟨k, hk, hk'⟩ := List.mem_map.1 this
    have h2 := (List.getElem?_eq_some_iff.1 (hspec.2 k hk)).1
    omega

theorem getHash_key {h fp : Str → Nat} {fps : List Nat} {k : Str} (hk : cstr k = k)
    (hf : fps[h k]? = some (fp k)) : getHash h fp fps k = h k := by
  simp [getHash, hk, hf]

theorem fillTable_spec (h fp : Str → Nat) (fps : List Nat) (keys : List Str) (n : Nat)
    (ks : List Str) (i : Nat) (t : List Nat) (hi : keys.drop i = ks)
    (hm : MinimalPerfect h keys) (hc : ∀ k ∈ keys, cstr k = k) (ht : t.length = keys.length)
    (hf : ∀ k ∈ keys, fps[h k]? = some (fp k))
    (hdone : ∀ j k, j < i → keys[j]? = some k → t[h k]? = some j) :
    ∃ t', fillTable h fp fps ks i t = some t' ∧ t'.length = keys.length ∧
      ∀ j k, keys[j]? = some k → t'[h k]? = some j := by
  induction ks generalizing i t with
  | nil =>
    refine ⟨t, rfl, ht, ?_⟩
    intro j k hjk
    apply hdone j k _ hjk
    have := (List.getElem?_eq_some_iff.1 hjk).1
    have : keys.length ≤ i := List.drop_eq_nil_iff.1 hi
    omega
  | cons k ks ih =>
    have hki : keys[i]? = some k := by
      have := congrArg (·[0]?) hi
      simpa using this
    have hmem : k ∈ keys := List.mem_of_getElem? hki
    have hg := getHash_key (hc k hmem) (hf k hmem)
    have hlt := hm.2 k hmem
    rw [fillTable, hg, if_pos (by omega)]
    apply ih (i + 1)
    · have := congrArg (List.drop 1) hi
      simpa using this
    · simpa using ht
    · intro j k' hj hjk
      by_cases hji : j = i
      · subst hji
        rw [hki] at hjk; cases hjk
        rw [List.getElem?_set_self]; omega
      · have hne : h k' ≠ h k := by
          intro he
          have hj' := (List.getElem?_eq_some_iff.1 hjk)
          have hi' := (List.getElem?_eq_some_iff.1 hki)
          obtain ⟨hj1, hj2⟩ := hj'
          obtain ⟨hi1, hi2⟩ := hi'
          have := (List.getElem_inj (i := j) (j := i) (h₀ := by simpa using hj1)
            (h₁ := by simpa using hi1) hm.1).1 (by simp [hj2, hi2, he])
          omega
        rw [List.getElem?_set_ne (Ne.symm hne)]
        exact hdone j k' (by omega) hjk

theorem pushValues_eq (values : StringVector.SV) (vals : List Str) (t : List Nat)
    (ht : ∀ i ∈ t, i < vals.length)
    (hv : ∀ (i : Nat) x, vals[i]? = some x → StringVector.at' 4 values i = some x)
    (sv : StringVector.SV) :
    pushValues values t sv = StringVector.pushAll 4 sv (t.map fun i => vals[i]?.getD []) := by
  induction t generalizing sv with
  | nil => rfl
  | cons i t ih =>
    have hi : i < vals.length := ht i (by simp)
    have h1 := hv i _ (List.getElem?_eq_getElem hi)
    simp only [pushValues, h1, List.map_cons, StringVector.pushAll, Option.bind_eq_bind,
      Option.bind_some, List.getElem?_eq_getElem hi, Option.getD_some]
    cases StringVector.pushBack 4 sv vals[i] with
    | none => rfl
    | some sv' => simp only [Option.bind_some]; exact ih (fun j hj => ht j (by simp [hj])) sv'

theorem addAll_spec (l : List (Str × Str)) (b : Builder) (vals : List Str)
    (hb : StringVector.Holds 4 b.values vals) (hn : (vals ++ l.map (·.2)).length < 256 ^ 4)
    (hc : (vals ++ l.map (·.2)).flatten.length < 256 ^ 4) :
    ∃ b', b.addAll l = some b' ∧ b'.keys = b.keys ++ l.map (fun e => cstr e.1) ∧
      StringVector.Holds 4 b'.values (vals ++ l.map (·.2)) := by
  induction l generalizing b vals with
  | nil => exact ⟨b, rfl, by simp, by simpa using hb⟩
  | cons e l ih =>
    obtain ⟨k, v⟩ := e
    have e1 : vals ++ ((k, v) :: l).map (·.2) = (vals ++ [v]) ++ l.map (·.2) := by simp
    rw [e1] at hn hc
    have hc' : vals.flatten.length < 256 ^ 4 := by
      simp only [List.flatten_append, List.length_append] at hc; omega
    obtain ⟨sv, h1, h2⟩ := StringVector.holds_pushBack (by omega) hb
      (by simp only [List.length_append, List.length_singleton] at hn; omega) hc' v
    obtain ⟨b', h3, h4, h5⟩ := ih ⟨b.keys ++ [cstr k], sv⟩ (vals ++ [v]) h2 hn hc
    refine ⟨b', ?_, ?_, ?_⟩
    · simp [Builder.addAll, Builder.add, h1]; exact h3
    · rw [h4]; simp
    · rw [e1]; exact h5

/-- What `build` produces. -/
structure Built (h fp : Str → Nat) (keys vals : List Str) (s : Store) : Prop where
  len : s.fprints.length = keys.length
  fps : ∀ k ∈ keys, s.fprints[h k]? = some (fp k)
  strings : ∃ ys, StringVector.Holds 4 s.strings ys ∧ ys.length = keys.length ∧
    ys.Perm vals ∧ ∀ (j : Nat) k v, keys[j]? = some k → vals[j]? = some v → ys[h k]? = some v

theorem build_spec (h fp : Str → Nat) (b : Builder) (vals : List Str)
    (hb : StringVector.Holds 4 b.values vals) (hl : b.keys.length = vals.length)
    (hm : MinimalPerfect h b.keys) (hcs : ∀ k ∈ b.keys, cstr k = k)
    (hn : vals.length < 256 ^ 4) (hc : vals.flatten.length < 256 ^ 4) :
    ∃ s, build h fp b = some s ∧ Built h fp b.keys vals s := by
  obtain ⟨f1, f2⟩ := fprints_spec h fp b.keys hm
  obtain ⟨t, t1, t2, t3⟩ := fillTable_spec h fp (calcFprints h fp b.keys []) b.keys 0 b.keys 0
    (List.replicate (calcFprints h fp b.keys []).length 0) (by simp) hm hcs (by simp [f1]) f2 (by omega)
  -- every cell of the table
  have hcell : ∀ p : Nat, p < b.keys.length → ∃ (j : Nat) (k : Str), b.keys[j]? = some k ∧ h k = p := by
    intro p hp
    have : p ∈ b.keys.map h := mem_of_nodup_lt hm.1 (by
        intro x hx; simp at hx ⊢; obtain ⟨k, hk, rfl⟩ := hx; exact hm.2 k hk) (by simpa using hp)
    obtain ⟨k, hk, rfl⟩ := List.mem_map.1 this
    obtain ⟨j, hj⟩ := List.mem_iff_getElem?.1 hk
    exact ⟨j, k, hj, rfl⟩
  have hperm : t.Perm (List.range vals.length) := by
    rw [List.perm_ext_iff_of_nodup]
    · intro a
      constructor
      · intro ha
        obtain ⟨p, hp⟩ := List.mem_iff_getElem?.1 ha
        have hp' := (List.getElem?_eq_some_iff.1 hp).1
        obtain ⟨j, k, hj, hk⟩ := hcell p (by omega)
        have := t3 j k hj
        rw [hk, hp] at this
        have hj' := (List.getElem?_eq_some_iff.1 hj).1
        simp at this; simp; omega
      · intro ha
        simp at ha
        have : b.keys[a]? = some (b.keys[a]'(by omega)) := List.getElem?_eq_getElem _
        exact List.mem_of_getElem? (t3 a _ this)
    · rw [List.nodup_iff_pairwise_ne, List.pairwise_iff_getElem]
      intro p p' hp hp' hlt heq
      obtain ⟨j, k, hj, hk⟩ := hcell p (by omega)
      obtain ⟨j', k', hj', hk'⟩ := hcell p' (by omega)
      have h1 := t3 j k hj
      have h2 := t3 j' k' hj'
      rw [hk, List.getElem?_eq_getElem hp] at h1
      rw [hk', List.getElem?_eq_getElem hp'] at h2
      simp at h1 h2
      have : j = j' := by rw [← h1, ← h2, heq]
      subst this
      rw [hj] at hj'; cases hj'
      omega
    · exact List.nodup_range
  have hvals : ∀ (i : Nat) x, vals[i]? = some x → StringVector.at' 4 b.values i = some x :=
    fun i x hx => StringVector.holds_at (by omega) hb hn hc hx
  have hpv := pushValues_eq b.values vals t (by
    intro i hi; have := hperm.mem_iff.1 hi; simpa using this) hvals StringVector.empty
  have hyp : (t.map fun i => vals[i]?.getD []).Perm vals := by
    refine (hperm.map _).trans ?_
    have : (List.range vals.length).map (fun i => vals[i]?.getD []) = vals := by
      apply List.ext_getElem?
      intro i
      by_cases hi : i < vals.length
      · simp [hi]
      · simp [hi]
    rw [this]
  obtain ⟨sv, s1, s2⟩ := StringVector.holds_pushAll (pb := 4) (by omega)
    (t.map fun i => vals[i]?.getD []) (StringVector.holds_empty (by omega))
    (by
      rw [List.nil_append]
      have := hyp.length_eq; omega)
    (by
      rw [List.nil_append]
      have := hyp.flatten.length_eq; omega)
  rw [List.nil_append] at s2
  refine ⟨⟨calcFprints h fp b.keys [], sv⟩, ?_, f1, f2, _, s2, ?_, hyp, ?_⟩
  · simp only [build, t1, Option.bind_eq_bind, Option.bind_some, hpv, s1]; rfl
  · simp [t2]
  · intro j k v hj hv
    have := t3 j k hj
    simp [this, hv]

end Verif.KeyValue
