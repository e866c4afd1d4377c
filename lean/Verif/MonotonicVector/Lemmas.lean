import Verif.MonotonicVector.Model
import Verif.Binary.Lemmas

set_option linter.unusedVariables false
set_option linter.unusedSimpArgs false

namespace Verif.MonotonicVector
open Binary

/-- Parameters of a usable instance: a step of at least 1 and `LenT` not wider than `PosT`. -/
structure Params.Ok (p : Params) : Prop where
  step : 0 < p.step
  len : p.lenBytes ≤ p.posBytes
  pos : 0 < p.posBytes

theorem Params.W_pos (p : Params) : 0 < p.W := Nat.pow_pos (by omega)

theorem Params.lmax_lt (p : Params) (h : p.Ok) : p.lmax < p.W := by
  have h1 : 256 ^ p.lenBytes ≤ 256 ^ p.posBytes := Nat.pow_le_pow_right (by omega) h.len
  have h2 : 0 < 256 ^ p.lenBytes := Nat.pow_pos (by omega)
  unfold lmax W; omega

/-- Shape of a vector holding `n` values, and its cell contents in range. -/
structure Shape (p : Params) (v : MV) (n : Nat) : Prop where
  q : ∃ q r, n = q * p.step + r ∧ r < p.step ∧
    (r = 0 → v.anchors.length = q ∧ v.diffs.length = q * (p.step - 1)) ∧
    (r ≠ 0 → v.anchors.length = q + 1 ∧ v.diffs.length + 1 = q * (p.step - 1) + r)
  rests : ∀ e ∈ v.rests, e.1 < v.diffs.length ∧ e.2 < p.W
  restsLen : v.rests.length ≤ v.diffs.length
  diffs : ∀ d ∈ v.diffs, d ≤ p.lmax
  anchors : ∀ a ∈ v.anchors, a < p.W

theorem Shape.len {p : Params} {v : MV} {n : Nat} (hp : p.Ok) (h : Shape p v n) :
    v.diffs.length + v.anchors.length = n := by
  obtain ⟨q, r, h1, h2, h3, h4⟩ := h.q
  have hs := hp.step
  have : q * p.step = q * (p.step - 1) + q := by
    obtain ⟨t, ht⟩ : ∃ t, p.step = t + 1 := ⟨p.step - 1, by omega⟩
    rw [ht]; simp [Nat.mul_add]
  by_cases hr : r = 0
  · have := h3 hr; omega
  · have := h4 hr; omega

theorem Shape.size {p : Params} {v : MV} {n : Nat} (hp : p.Ok) (h : Shape p v n) (hn : n < p.W) :
    size p v = n := by
  rw [MonotonicVector.size, h.len hp, Nat.mod_eq_of_lt hn]

theorem restAt_append (rests : List (Nat × Nat)) (e : Nat × Nat) (k : Nat) (h : k < e.1) :
    restAt (rests ++ [e]) k = restAt rests k := by
  simp only [restAt, List.find?_append]
  cases rests.find? (fun e => decide (k ≤ e.1)) with
  | some x => simp
  | none =>
    have h1 : k ≤ e.1 := by omega
    have h2 : ¬ e.1 = k := by omega
    simp [h1, h2]

theorem restAt_append_self (rests : List (Nat × Nat)) (e : Nat × Nat) (h : ∀ x ∈ rests, x.1 < e.1) :
    restAt (rests ++ [e]) e.1 = e.2 := by
  have : rests.find? (fun x => decide (e.1 ≤ x.1)) = none := by
    simp; intro a b hab; exact h _ hab
  simp [restAt, List.find?_append, this]

theorem restAt_none (rests : List (Nat × Nat)) (k : Nat) (h : ∀ x ∈ rests, x.1 < k) :
    restAt rests k = 0 := by
  have : rests.find? (fun x => decide (k ≤ x.1)) = none := by
    simp; intro a b hab; exact h _ hab
  simp [restAt, this]

/-- `v'` extends `v`. -/
structure Ext (v v' : MV) : Prop where
  diffs : v.diffs <+: v'.diffs
  anchors : v.anchors <+: v'.anchors
  rests : ∀ k, k < v.diffs.length → restAt v'.rests k = restAt v.rests k

theorem prefix_get {α : Type} {l l' : List α} (h : l <+: l') {i : Nat} {a : α} (ha : l[i]? = some a) :
    l'[i]? = some a := by
  obtain ⟨t, rfl⟩ := h
  rw [List.getElem?_append_left]; exact ha
  exact (List.getElem?_eq_some_iff.1 ha).1

theorem sumDiffs_ext {p : Params} {v v' : MV} (h : Ext v v') (k cnt j x : Nat)
    (hx : sumDiffs p v k cnt j = some x) : sumDiffs p v' k cnt j = some x := by
  induction cnt generalizing k j with
  | zero => simpa [sumDiffs] using hx
  | succ c ih =>
    simp only [sumDiffs] at hx ⊢
    cases hd : v.diffs[k]? with
    | none => simp [hd] at hx
    | some d =>
      rw [hd] at hx
      rw [prefix_get h.diffs hd]
      have hk := (List.getElem?_eq_some_iff.1 hd).1
      simp only [h.rests k hk]
      exact ih _ _ hx

theorem get_ext {p : Params} {v v' : MV} (h : Ext v v') (i x : Nat)
    (hx : get p v i = some x) : get p v' i = some x := by
  simp only [get] at hx ⊢
  cases ha : v.anchors[i / p.step]? with
  | none => simp [ha] at hx
  | some a =>
    rw [ha] at hx
    rw [prefix_get h.anchors ha]
    simp only at hx ⊢
    split
    · rename_i h0; rw [if_pos h0] at hx; exact sumDiffs_ext h _ _ _ _ hx
    · rename_i h0; rw [if_neg h0] at hx; exact hx

/-- One round of the loop. -/
def stepVal (p : Params) (v : MV) (k d j : Nat) : Nat :=
  if d = p.lmax then (j + d + restAt v.rests k) % p.W else (j + d) % p.W

theorem sumDiffs_snoc (p : Params) (v : MV) (k cnt j y d : Nat)
    (h : sumDiffs p v k cnt j = some y) (hd : v.diffs[k + cnt]? = some d) :
    sumDiffs p v k (cnt + 1) j = some (stepVal p v (k + cnt) d y) := by
  induction cnt generalizing k j with
  | zero =>
    simp [sumDiffs] at h hd ⊢
    simp [hd, h, stepVal]
  | succ c ih =>
    simp only [sumDiffs] at h
    cases hk : v.diffs[k]? with
    | none => simp [hk] at h
    | some e =>
      rw [hk] at h
      have := ih (k + 1) _ h (by rw [← hd]; congr 1; omega)
      rw [sumDiffs, hk]
      simp only
      rw [this]
      congr 2; omega

theorem sub_add_mod {W i last : Nat} (hi : i < W) (hl : last < W) :
    (last + (i + W - last) % W) % W = i := by
  by_cases h : last ≤ i
  · have : i + W - last = (i - last) + W := by omega
    rw [this, Nat.add_mod_right, Nat.mod_eq_of_lt (by omega : i - last < W)]
    rw [Nat.mod_eq_of_lt] <;> omega
  · rw [Nat.mod_eq_of_lt (by omega : i + W - last < W)]
    have : last + (i + W - last) = i + W := by omega
    rw [this, Nat.add_mod_right, Nat.mod_eq_of_lt hi]

/-- The vector holds the values `xs`. -/
structure Holds (p : Params) (v : MV) (xs : List Nat) : Prop where
  shape : Shape p v xs.length
  vals : ∀ i : Nat, ∀ x, xs[i]? = some x → get p v i = some x

theorem divmod {s q r : Nat} (hr : r < s) : (q * s + r) / s = q ∧ (q * s + r) % s = r := by
  have hs : 0 < s := by omega
  constructor
  · rw [Nat.add_comm, Nat.add_mul_div_right _ _ hs, Nat.div_eq_of_lt hr]; omega
  · rw [Nat.add_comm, Nat.add_mul_mod_self_right, Nat.mod_eq_of_lt hr]

theorem holds_pushBack {p : Params} (hp : p.Ok) {v : MV} {xs : List Nat} (h : Holds p v xs)
    (hxs : ∀ x ∈ xs, x < p.W) (hn : xs.length < p.W) (i : Nat) (hi : i < p.W) :
    ∃ v', pushBack p v i = some v' ∧ Holds p v' (xs ++ [i]) := by
  have hs := hp.step
  have hsz := h.shape.size hp hn
  have hlen := h.shape.len hp
  have hlm := p.lmax_lt hp
  obtain ⟨q, r, h1, h2, h3, h4⟩ := h.shape.q
  have hqs : (q + 1) * p.step = q * p.step + p.step := by rw [Nat.add_mul]; omega
  have hqt : (q + 1) * (p.step - 1) = q * (p.step - 1) + (p.step - 1) := by rw [Nat.add_mul]; omega
  obtain ⟨hdiv, hmod⟩ := divmod (q := q) h2
  have key : ∀ v', Ext v v' → Shape p v' (xs.length + 1) → get p v' xs.length = some i →
      Holds p v' (xs ++ [i]) := by
    intro v' he hsh hg
    refine ⟨by simpa using hsh, ?_⟩
    intro j x hx
    by_cases hj : j < xs.length
    · rw [List.getElem?_append_left hj] at hx
      exact get_ext he _ _ (h.vals j x hx)
    · rw [List.getElem?_append_right (by omega)] at hx
      have : j = xs.length := by
        have := (List.getElem?_eq_some_iff.1 hx).1
        simp at this; omega
      subst this
      simp at hx; subst hx; exact hg
  by_cases hr : r = 0
  · subst hr
    obtain ⟨ha, hd⟩ := h3 rfl
    have hz : size p v % p.step = 0 := by rw [hsz, h1]; exact hmod
    refine ⟨_, by rw [pushBack, if_pos hz], ?_⟩
    apply key
    · exact ⟨List.prefix_rfl, List.prefix_append .., fun _ _ => rfl⟩
    · refine ⟨?_, h.shape.rests, h.shape.restsLen, h.shape.diffs, ?_⟩
      · by_cases h1s : p.step = 1
        · refine ⟨q + 1, 0, by omega, by omega, fun _ => ?_, by simp⟩
          simp [ha, hd, h1s]
        · refine ⟨q, 1, by omega, by omega, by simp, fun _ => ?_⟩
          simp [ha, hd]
      · intro a; simp only [List.mem_append, List.mem_singleton]
        rintro (hx | hx)
        · exact h.shape.anchors _ hx
        · subst hx; exact hi
    · simp only [get]
      rw [h1, hdiv, hmod]
      simp [← ha]
  · obtain ⟨ha, hd⟩ := h4 hr
    have hz : ¬ size p v % p.step = 0 := by rw [hsz, h1, hmod]; exact hr
    have hpos : 0 < xs.length := by
      have : 0 < r := by omega
      omega
    have hback : ∃ last, back p v = some last ∧ last < p.W ∧ get p v (xs.length - 1) = some last := by
      have hx : xs[xs.length - 1]? = some (xs[xs.length - 1]'(by omega)) := List.getElem?_eq_getElem _
      have hb := h.vals _ _ hx
      refine ⟨_, ?_, hxs _ (List.getElem_mem (by omega)), hb⟩
      rw [back, hsz]
      have : (xs.length + p.W - 1) % p.W = xs.length - 1 := by
        have : xs.length + p.W - 1 = (xs.length - 1) + p.W := by omega
        rw [this, Nat.add_mod_right, Nat.mod_eq_of_lt (by omega)]
      rw [this]; exact hb
    obtain ⟨last, hb, hlW, hgl⟩ := hback
    -- the anchor and the loop so far
    have hm1 : xs.length - 1 = q * p.step + (r - 1) := by omega
    obtain ⟨hdiv1, hmod1⟩ := divmod (q := q) (r := r - 1) (s := p.step) (by omega)
    have hget1 : ∃ a, v.anchors[q]? = some a ∧
        sumDiffs p v (q * (p.step - 1)) (r - 1) a = some last := by
      rw [get, hm1, hdiv1, hmod1] at hgl
      cases hq : v.anchors[q]? with
      | none => simp [hq] at hgl
      | some a =>
        refine ⟨a, rfl, ?_⟩
        rw [hq] at hgl
        simp only at hgl
        split at hgl
        · exact hgl
        · rename_i h0
          have : r - 1 = 0 := by omega
          rw [this]; simpa [sumDiffs] using hgl
    obtain ⟨a, haq, hsum⟩ := hget1
    have hkd : q * (p.step - 1) + (r - 1) = v.diffs.length := by omega
    -- the common conclusion for the two ways to store the difference
    have final : ∀ v' d, Ext v v' → v'.diffs[v.diffs.length]? = some d →
        stepVal p v' v.diffs.length d last = i → get p v' xs.length = some i := by
      intro v' d he hd' hst
      have hs1 := sumDiffs_ext he _ _ _ _ hsum
      have hs2 := sumDiffs_snoc p v' _ _ _ _ d hs1 (by rw [hkd]; exact hd')
      rw [get, h1, hdiv, hmod, prefix_get he.anchors haq]
      simp only
      rw [if_pos hr]
      have : r - 1 + 1 = r := by omega
      rw [this] at hs2
      rw [hs2, hkd, hst]
    have shape' : ∀ v' : MV, v'.anchors = v.anchors → v'.diffs.length = v.diffs.length + 1 →
        (∀ e ∈ v'.rests, e.1 < v'.diffs.length ∧ e.2 < p.W) →
        v'.rests.length ≤ v'.diffs.length → (∀ d ∈ v'.diffs, d ≤ p.lmax) →
        Shape p v' (xs.length + 1) := by
      intro v' e1 e2 e3 e4 e5
      refine ⟨?_, e3, e4, e5, by rw [e1]; exact h.shape.anchors⟩
      by_cases hlast : r + 1 = p.step
      · refine ⟨q + 1, 0, by omega, by omega, fun _ => ?_, by simp⟩
        rw [e1, e2, ha]; omega
      · refine ⟨q, r + 1, by omega, by omega, by simp, fun _ => ?_⟩
        rw [e1, e2, ha]; omega
    have hsub := sub_add_mod (W := p.W) hi hlW
    rw [pushBack, if_neg hz, hb]
    simp only
    generalize hdiff : (i + p.W - last) % p.W = diff at *
    have hdW : diff < p.W := by rw [← hdiff]; exact Nat.mod_lt _ p.W_pos
    by_cases hle : diff ≤ p.lmax
    · rw [if_pos hle]
      refine ⟨_, rfl, ?_⟩
      have hrest0 : restAt v.rests v.diffs.length = 0 :=
        restAt_none _ _ (fun x hx => (h.shape.rests x hx).1)
      have he : Ext v { v with diffs := v.diffs ++ [diff] } :=
        ⟨List.prefix_append .., List.prefix_rfl, fun _ _ => rfl⟩
      apply key _ he
      · apply shape'
        · rfl
        · simp
        · intro e hx; have := h.shape.rests e hx; simp; omega
        · have := h.shape.restsLen; simp; omega
        · intro d; simp only [List.mem_append, List.mem_singleton]
          rintro (hx | hx)
          · exact h.shape.diffs _ hx
          · omega
      · apply final _ diff he
        · simp
        · simp only [stepVal, hrest0]
          split <;> simpa using hsub
    · rw [if_neg hle]
      refine ⟨_, rfl, ?_⟩
      have hdl : v.diffs.length % p.W = v.diffs.length := Nat.mod_eq_of_lt (by omega)
      have he : Ext v { v with rests := v.rests ++ [(v.diffs.length % p.W, diff - p.lmax)],
                               diffs := v.diffs ++ [p.lmax] } := by
        refine ⟨List.prefix_append .., List.prefix_rfl, fun k hk => ?_⟩
        apply restAt_append
        simp [hdl]; exact hk
      apply key _ he
      · apply shape'
        · rfl
        · simp
        · intro e; simp only [List.mem_append, List.mem_singleton]
          rintro (hx | hx)
          · have := h.shape.rests e hx; simp; omega
          · subst hx; simp [hdl]; omega
        · have := h.shape.restsLen; simp; omega
        · intro d; simp only [List.mem_append, List.mem_singleton]
          rintro (hx | hx)
          · exact h.shape.diffs _ hx
          · omega
      · apply final _ p.lmax he
        · simp
        · have hr2 : restAt (v.rests ++ [(v.diffs.length % p.W, diff - p.lmax)]) v.diffs.length
              = diff - p.lmax := by
            have := restAt_append_self v.rests (v.diffs.length, diff - p.lmax)
              (fun x hx => (h.shape.rests x hx).1)
            rw [hdl]; exact this
          simp only [stepVal, hr2, if_true]
          rw [← hsub]; congr 1; omega

theorem holds_empty {p : Params} (hp : p.Ok) : Holds p empty [] := by
  refine ⟨⟨⟨0, 0, by simp, hp.step, by simp [empty], by simp⟩, ?_, ?_, ?_, ?_⟩, ?_⟩ <;>
    simp [empty]

theorem holds_pushAll {p : Params} (hp : p.Ok) (ys : List Nat) {v : MV} {xs : List Nat}
    (h : Holds p v xs) (hx : ∀ x ∈ xs ++ ys, x < p.W) (hn : (xs ++ ys).length ≤ p.W) :
    ∃ v', pushAll p v ys = some v' ∧ Holds p v' (xs ++ ys) := by
  induction ys generalizing v xs with
  | nil => exact ⟨v, rfl, by simpa using h⟩
  | cons y ys ih =>
    simp at hn
    obtain ⟨v1, h1, h2⟩ := holds_pushBack hp h (fun x hx' => hx x (by simp [hx'])) (by omega) y
      (hx y (by simp))
    have := ih h2 (by simpa using hx) (by simp; omega)
    simpa [pushAll, h1] using this

theorem load_save {p : Params} (hp : p.Ok) {v : MV} {n : Nat} (h : Shape p v n) (hn : n < 2 ^ 64)
    (hW : n ≤ p.W) (r : Str) : load p (save p v ++ r) = some (v, r) := by
  have hlen := h.len hp
  have hrl := h.restsLen
  have hL : ∀ d ∈ v.diffs, d < 256 ^ p.lenBytes := by
    intro d hd; have := h.diffs d hd
    have h2 : 0 < 256 ^ p.lenBytes := Nat.pow_pos (by omega)
    unfold Params.lmax at this; omega
  have hA : ∀ a ∈ v.anchors, a < 256 ^ p.posBytes := h.anchors
  have hR : ∀ e ∈ v.rests, e.1 < 256 ^ p.posBytes ∧ e.2 < 256 ^ p.posBytes := by
    intro e he; have := h.rests e he
    refine ⟨?_, this.2⟩
    have : p.W = 256 ^ p.posBytes := rfl
    omega
  simp only [load, save, List.append_assoc]
  rw [getVector_putVector (inverse_int p.lenBytes) v.diffs hL (by omega)]
  simp only [Option.bind_eq_bind, Option.bind_some]
  rw [getVector_putVector (inverse_int p.posBytes) v.anchors hA (by omega)]
  simp only [Option.bind_eq_bind, Option.bind_some]
  rw [getVector_putVector (inverse_pair p.posBytes) v.rests hR (by omega)]
  simp

end Verif.MonotonicVector
