import Verif.Annot.Spec
set_option linter.unusedSimpArgs false
set_option linter.unusedVariables false

namespace Verif.Annot
open Verif

/-! ### Numbers of attributes -/

theorem number_lt {m : List Str} {a : Str} {i : Nat} (h : number m a = some i) : i < m.length := by
  induction m generalizing i with
  | nil => simp [number] at h
  | cons b m ih =>
    simp only [number] at h
    split at h
    · cases h; simp
    · rw [Option.map_eq_some_iff] at h
      obtain ⟨j, hj, rfl⟩ := h
      have := ih hj
      simp; omega

theorem number_get {m : List Str} {a : Str} {i : Nat} (h : number m a = some i) : m[i]? = some a := by
  induction m generalizing i with
  | nil => simp [number] at h
  | cons b m ih =>
    simp only [number] at h
    split at h
    · rename_i e; cases h; simp [e]
    · rw [Option.map_eq_some_iff] at h
      obtain ⟨j, hj, rfl⟩ := h
      simpa using ih hj

theorem number_none {m : List Str} {a : Str} : number m a = none ↔ a ∉ m := by
  induction m with
  | nil => simp [number]
  | cons b m ih =>
    simp only [number]
    split
    · rename_i e; simp [e]
    · rename_i e; simp [Option.map_eq_none_iff, ih, e]

theorem number_append {m : List Str} {a b : Str} {i : Nat} (h : number m a = some i) :
    number (m ++ [b]) a = some i := by
  induction m generalizing i with
  | nil => simp [number] at h
  | cons c m ih =>
    simp only [number, List.cons_append] at h ⊢
    split at h
    · rename_i e; cases h; simp [e]
    · rename_i e
      rw [Option.map_eq_some_iff] at h
      obtain ⟨j, hj, rfl⟩ := h
      simp [e, ih hj]

theorem number_append_self {m : List Str} {a : Str} (h : a ∉ m) : number (m ++ [a]) a = some m.length := by
  induction m with
  | nil => simp [number]
  | cons c m ih =>
    simp only [List.mem_cons, not_or] at h
    simp [number, h.1, ih h.2]

theorem number_append_other {m : List Str} {a b : Str} (h : a ∉ m) (hab : a ≠ b) : number (m ++ [b]) a = none := by
  rw [number_none]; simp [h, hab]

theorem number_of_get {m : List Str} (hn : m.Nodup) {a : Str} {i : Nat} (h : m[i]? = some a) : number m a = some i := by
  induction m generalizing i with
  | nil => simp at h
  | cons b m ih =>
    rw [List.nodup_cons] at hn
    cases i with
    | zero => simp at h; simp [number, h]
    | succ i =>
      simp at h
      have hm : a ∈ m := List.mem_of_getElem? h
      have : a ≠ b := by rintro rfl; exact hn.1 hm
      simp [number, this, ih hn.2 h]

theorem enter_eq (m : List Str) (a : Str) : enter m a = if a ∈ m then m else m ++ [a] := by
  unfold enter
  by_cases h : a ∈ m
  · have : number m a ≠ none := fun e => (number_none.1 e) h
    cases hn : number m a with
    | none => exact absurd hn this
    | some i => simp [h]
  · rw [number_none.2 h]; simp [h]

theorem enter_nodup {m : List Str} (hn : m.Nodup) (a : Str) : (enter m a).Nodup := by
  rw [enter_eq]; split
  · exact hn
  · rename_i h
    rw [List.nodup_append]
    exact ⟨hn, by simp, fun x hx y hy => by simp at hy; subst hy; rintro rfl; exact h hx⟩

/-! ### The representation of an item -/

/-- The item `it` of a manager with the attributes `m` is the abstract item `x`. -/
structure Rep (m : List Str) (it : Item) (x : AItem) : Prop where
  cat : it.cat = x.cat
  text : it.text = x.text
  bits : it.attributes.length = maxAttrs
  size : it.values.length ≤ m.length
  /-- the bits say which attributes have a value, and that value is in its place -/
  has : ∀ (i : Nat) a, m[i]? = some a → it.attributes.getD i false = (x.val a).isSome
  val : ∀ (i : Nat) a v, m[i]? = some a → x.val a = some v → it.values[i]? = some v
  /-- places without a value hold `NULL` -/
  gap : ∀ (i : Nat) a v, m[i]? = some a → x.val a = none → it.values[i]? = some v → v = .null
  /-- the last value in the vector is that of an attribute -/
  last : ∀ a, m[it.values.length - 1]? = some a → 0 < it.values.length → (x.val a).isSome
  /-- only attributes of the manager -/
  known : ∀ a v, x.val a = some v → a ∈ m
  /-- no bits beyond -/
  beyond : ∀ i : Nat, m.length ≤ i → it.attributes.getD i false = false

theorem Rep.new (m : List Str) (cat text : Str) : Rep m (Item.new cat text) ⟨cat, text, fun _ => none⟩ := by
  refine ⟨rfl, rfl, by simp [Item.new], by simp [Item.new], ?_, by simp, by simp [Item.new], by simp [Item.new], by simp, ?_⟩ <;>
  · intros
    simp only [Item.new, List.getD_eq_getElem?_getD, List.getElem?_replicate]
    split <;> simp

theorem Rep.withCat {m it x} (h : Rep m it x) (c : Str) : Rep m { it with cat := c } { x with cat := c } :=
  ⟨rfl, h.text, h.bits, h.size, h.has, h.val, h.gap, h.last, h.known, h.beyond⟩

theorem getElem?_append_one {m : List Str} {b : Str} {i : Nat} {a : Str} (h : (m ++ [b])[i]? = some a) :
    m[i]? = some a ∨ (i = m.length ∧ a = b) := by
  by_cases hi : i < m.length
  · rw [List.getElem?_append_left hi] at h; exact Or.inl h
  · rw [List.getElem?_append_right (by omega)] at h
    have : i - m.length = 0 := by
      have := (List.getElem?_eq_some_iff.1 h).1
      simp at this; omega
    rw [this] at h
    simp at h
    exact Or.inr ⟨by omega, h.symm⟩

/-- A new attribute in the manager does not matter. -/
theorem Rep.grow {m it x} (h : Rep m it x) (b : Str) (hb : b ∉ m) : Rep (m ++ [b]) it x := by
  have hx : x.val b = none := by
    cases e : x.val b with
    | none => rfl
    | some v => exact absurd (h.known b v e) hb
  refine ⟨h.cat, h.text, h.bits, by have := h.size; simp; omega, ?_, ?_, ?_, ?_, ?_, ?_⟩
  · intro i a hi
    rcases getElem?_append_one hi with hi | ⟨rfl, rfl⟩
    · exact h.has i a hi
    · rw [hx, h.beyond _ (Nat.le_refl _)]; rfl
  · intro i a v hi hv
    rcases getElem?_append_one hi with hi | ⟨rfl, rfl⟩
    · exact h.val i a v hi hv
    · rw [hx] at hv; cases hv
  · intro i a v hi hn hv
    rcases getElem?_append_one hi with hi | ⟨rfl, rfl⟩
    · exact h.gap i a v hi hn hv
    · have := (List.getElem?_eq_some_iff.1 hv).1
      have := h.size; omega
  · intro a hi hp
    rcases getElem?_append_one hi with hi | ⟨hl, rfl⟩
    · exact h.last a hi hp
    · have := h.size; omega
  · intro a v hv; simp [h.known a v hv]
  · intro i hi; exact h.beyond i (by simp at hi; omega)

theorem Rep.enter {m it x} (h : Rep m it x) (b : Str) : Rep (enter m b) it x := by
  rw [enter_eq]; split
  · exact h
  · rename_i hb; exact h.grow b hb

theorem getValue_rep {m it x} (h : Rep m it x) (hm : m.length ≤ maxAttrs) (a : Str) :
    getValue m it a = some ((x.val a).getD .null) := by
  unfold getValue
  split
  · rename_i e
    rw [number_none] at e
    cases ev : x.val a with
    | none => rfl
    | some v => exact absurd (h.known a v ev) e
  · rename_i i e
    have hi := number_lt e
    have hg := number_get e
    have hb : i < it.attributes.length := by rw [h.bits]; omega
    have hh := h.has i a hg
    rw [List.getD_eq_getElem?_getD, List.getElem?_eq_getElem hb] at hh
    rw [List.getElem?_eq_getElem hb]
    simp at hh
    rw [hh]
    cases ev : x.val a with
    | none => rfl
    | some v => simp [h.val i a v hg ev]

theorem valuesFrom_rep {it : Item} {x : AItem} : ∀ (l : List Str) (i : Nat),
    (∀ (j : Nat) a, l[j]? = some a → it.attributes[i + j]? = some (x.val a).isSome) →
    (∀ (j : Nat) a v, l[j]? = some a → x.val a = some v → it.values[i + j]? = some v) →
    valuesFrom it i l = some (x.pairs l) := by
  intro l
  induction l with
  | nil => intros; rfl
  | cons a l ih =>
    intro i hb hv
    have h0 := hb 0 a rfl
    have hv0 := hv 0 a
    have hih := ih (i + 1) (fun j b hj => by have := hb (j + 1) b (by simpa using hj); rw [← this]; congr 1; omega)
      (fun j b v hj hbv => by have := hv (j + 1) b v (by simpa using hj) hbv; rw [← this]; congr 1; omega)
    simp only [valuesFrom]
    simp only [Nat.add_zero] at h0 hv0
    rw [h0]
    cases e : x.val a with
    | none => simp [hih, AItem.pairs, e]
    | some v => simp [hih, hv0 v rfl e, AItem.pairs, e]

theorem getValues_rep {m it x} (h : Rep m it x) (hm : m.length ≤ maxAttrs) :
    getValuesAsZvalues m it = some (x.pairs m) := by
  unfold getValuesAsZvalues
  apply valuesFrom_rep
  · intro j a hj
    have hl := (List.getElem?_eq_some_iff.1 hj).1
    have hb : j < it.attributes.length := by rw [h.bits]; omega
    have hh := h.has j a hj
    rw [List.getD_eq_getElem?_getD] at hh
    rw [Nat.zero_add]
    rw [List.getElem?_eq_getElem hb] at hh ⊢
    simp at hh
    rw [hh]
  · intro j a v hj hv
    rw [Nat.zero_add]
    exact h.val j a v hj hv

theorem grow_length (vs : List ZVal) (n : Nat) : (Annot.grow vs n).length = max vs.length n := by
  unfold Annot.grow
  split
  · rw [List.length_append, List.length_replicate]; omega
  · omega

theorem grow_get {vs : List ZVal} {n i : Nat} : (Annot.grow vs n)[i]? = if i < vs.length then vs[i]? else if i < n then some .null else none := by
  unfold Annot.grow
  split
  · split
    · rename_i h; rw [List.getElem?_append_left h]
    · rename_i h
      rw [List.getElem?_append_right (by omega), List.getElem?_replicate]
      split <;> split <;> first | rfl | omega
  · split
    · rfl
    · rw [List.getElem?_eq_none (by omega)]; split
      · omega
      · rfl

/-- `setValue` when the attribute is in the manager. -/
theorem set_rep {m it x} (h : Rep m it x) (hn : m.Nodup) {i : Nat} {a : Str} (hi : m[i]? = some a) (hib : i < maxAttrs) (v : ZVal) :
    Rep m { it with values := (Annot.grow it.values (i + 1)).set i v, attributes := it.attributes.set i true } (x.put a v) := by
  have him := (List.getElem?_eq_some_iff.1 hi).1
  have huniq : ∀ (j : Nat) b, m[j]? = some b → (b = a ↔ j = i) := by
    intro j b hj
    constructor
    · rintro rfl
      have := number_of_get hn hj; rw [number_of_get hn hi] at this; simpa using this.symm
    · rintro rfl; rw [hi] at hj; simpa using hj.symm
  refine ⟨h.cat, h.text, by simp [h.bits], ?_, ?_, ?_, ?_, ?_, ?_, ?_⟩
  · simp only [List.length_set, grow_length]; have := h.size; omega
  · intro j b hj
    simp only [List.getD_eq_getElem?_getD, List.getElem?_set, AItem.put]
    by_cases e : j = i
    · subst e
      have := (huniq j b hj).2 rfl
      simp [this, h.bits, hib]
    · have : b ≠ a := fun hb => e ((huniq j b hj).1 hb)
      have hne : i ≠ j := fun hh => e hh.symm
      simp only [hne, if_false, this]
      have := h.has j b hj
      rwa [List.getD_eq_getElem?_getD] at this
  · intro j b w hj hw
    simp only [AItem.put] at hw
    rw [List.getElem?_set]
    by_cases e : j = i
    · subst e
      have hb := (huniq j b hj).2 rfl
      simp only [hb, if_true] at hw
      cases hw
      simp only [if_true, grow_length]
      rw [if_pos (by omega)]
    · have hb : b ≠ a := fun hb => e ((huniq j b hj).1 hb)
      have hne : i ≠ j := fun hh => e hh.symm
      simp only [hb, if_false] at hw
      simp only [hne, if_false]
      have hv := h.val j b w hj hw
      have := (List.getElem?_eq_some_iff.1 hv).1
      rw [grow_get, if_pos this]; exact hv
  · intro j b w hj hx hw
    simp only [AItem.put] at hx
    rw [List.getElem?_set] at hw
    by_cases e : j = i
    · subst e
      have hb := (huniq j b hj).2 rfl
      simp [hb] at hx
    · have hb : b ≠ a := fun hb => e ((huniq j b hj).1 hb)
      have hne : i ≠ j := fun hh => e hh.symm
      simp only [hb, if_false] at hx
      simp only [hne, if_false, grow_get] at hw
      split at hw
      · exact h.gap j b w hj hx hw
      · split at hw
        · simpa using hw.symm
        · cases hw
  · intro b hj hp
    simp only [List.length_set, grow_length] at hj hp
    simp only [AItem.put]
    by_cases e : b = a
    · simp [e]
    · simp only [e, if_false]
      by_cases hl : it.values.length ≤ i + 1
      · have : max it.values.length (i + 1) - 1 = i := by omega
        rw [this] at hj
        exact absurd ((huniq i b hj).2 rfl) e
      · have : max it.values.length (i + 1) - 1 = it.values.length - 1 := by omega
        rw [this] at hj
        exact h.last b hj (by omega)
  · intro b w hw
    simp only [AItem.put] at hw
    split at hw
    · rename_i e; rw [e]; exact List.mem_of_getElem? hi
    · exact h.known b w hw
  · intro j hj
    have hne : i ≠ j := by omega
    simp only [List.getD_eq_getElem?_getD, List.getElem?_set, hne, if_false]
    have := h.beyond j hj
    rwa [List.getD_eq_getElem?_getD] at this

theorem enter_number (m : List Str) (a : Str) : ∃ i, number (enter m a) a = some i := by
  rw [enter_eq]; split
  · rename_i h
    cases e : number m a with
    | none => exact absurd h (number_none.1 e)
    | some i => exact ⟨i, rfl⟩
  · rename_i h; exact ⟨_, number_append_self h⟩

/-- `setValue` succeeds as long as the number of attributes is within the bitset. -/
theorem setValue_rep {m it x} (h : Rep m it x) (hn : m.Nodup) (a : Str) (v : ZVal) (hm : (enter m a).length ≤ maxAttrs) :
    ∃ it', setValue m it a v = some (enter m a, it') ∧ Rep (enter m a) it' (x.put a v) := by
  obtain ⟨i, hi⟩ := enter_number m a
  have hil := number_lt hi
  have hr := set_rep (h.enter a) (enter_nodup hn a) (number_get hi) (by omega) v
  refine ⟨_, ?_, hr⟩
  have hb := h.bits
  unfold setValue
  simp only [hi, Option.bind_eq_bind, Option.bind_some]
  by_cases hl : it.values.length ≤ i
  · rw [if_pos hl]
    simp only [resize]
    rw [if_pos (by omega)]
    simp only [Option.bind_some]
    rw [if_pos (by omega)]
    rfl
  · rw [if_neg hl, if_pos (by omega)]
    have : Annot.grow it.values (i + 1) = it.values := by unfold Annot.grow; rw [if_neg (by omega)]
    rw [this]; rfl

/-- and only then, for a new attribute. -/
theorem setValue_full {m it x} (h : Rep m it x) (hn : m.Nodup) (a : Str) (v : ZVal) (hm0 : m.length ≤ maxAttrs)
    (hm : maxAttrs < (enter m a).length) : setValue m it a v = none := by
  have ha : a ∉ m := by
    intro ha; rw [enter_eq, if_pos ha] at hm; omega
  have hi : number (enter m a) a = some m.length := by
    rw [enter_eq, if_neg ha]; exact number_append_self ha
  have hl : (enter m a).length = m.length + 1 := by rw [enter_eq, if_neg ha]; simp
  have := h.size
  have := h.bits
  unfold setValue
  simp only [hi, Option.bind_eq_bind, Option.bind_some]
  rw [if_pos (by omega)]
  simp only [resize]
  rw [if_neg (by omega)]
  rfl

/-! ### `addValues` -/

theorem setAll_rep {m it} (hn : m.Nodup) (hm : m.length ≤ maxAttrs) : ∀ (avs : List (Str × ZVal)) (x : AItem) , Rep m it x →
    (∀ av ∈ avs, av.1 ∈ m) →
    ∃ it', setAll m it avs = some (m, it') ∧ Rep m it' (avs.foldl (fun x av => x.put av.1 av.2) x) := by
  intro avs
  induction avs generalizing it with
  | nil => intro x h _; exact ⟨it, rfl, h⟩
  | cons av avs ih =>
    intro x h hk
    obtain ⟨a, v⟩ := av
    have ha : a ∈ m := hk (a, v) (by simp)
    have he : enter m a = m := by rw [enter_eq, if_pos ha]
    obtain ⟨it', hs, hr⟩ := setValue_rep h hn a v (by rw [he]; exact hm)
    rw [he] at hs hr
    obtain ⟨it'', hs', hr'⟩ := ih (x.put a v) hr (fun av h => hk av (by simp [h]))
    exact ⟨it'', by simp [setAll, hs, hs'], hr'⟩

theorem foldl_put_cat (avs : List (Str × ZVal)) (x : AItem) :
    (avs.foldl (fun x av => x.put av.1 av.2) x).cat = x.cat ∧ (avs.foldl (fun x av => x.put av.1 av.2) x).text = x.text := by
  induction avs generalizing x with
  | nil => simp
  | cons av avs ih => simp only [List.foldl_cons]; exact ⟨(ih _).1, (ih _).2⟩

theorem foldl_put_val {y : AItem} (l : List Str) (x : AItem) (b : Str) :
    ((y.pairs l).foldl (fun x av => x.put av.1 av.2) x).val b = (if b ∈ l then y.val b else none).or (x.val b) := by
  induction l generalizing x with
  | nil => simp [AItem.pairs]
  | cons a l ih =>
    have hp : y.pairs (a :: l) = (match y.val a with | some v => [(a, v)] | none => []) ++ y.pairs l := by
      cases e : y.val a <;> simp [AItem.pairs, e]
    rw [hp, List.foldl_append]
    cases e : y.val a with
    | none =>
      simp only [List.foldl_nil]
      rw [ih]
      by_cases hb : b ∈ l
      · simp [hb]
      · by_cases hba : b = a
        · subst hba; simp [hb, e]
        · simp [hb, hba]
    | some v =>
      simp only [List.foldl_cons, List.foldl_nil]
      rw [ih]
      by_cases hba : b = a
      · subst hba
        simp only [List.mem_cons, true_or, if_true, e, AItem.put]
        split <;> simp
      · simp only [List.mem_cons, hba, false_or, AItem.put, if_false]

theorem addValues_rep {m it src x y} (h : Rep m it x) (hs : Rep m src y) (hn : m.Nodup) (hm : m.length ≤ maxAttrs) :
    ∃ it', addValues m it src = some (m, it') ∧ Rep m it' (x.over y) := by
  have hp : ∀ av ∈ y.pairs m, av.1 ∈ m := by
    intro av hav
    simp only [AItem.pairs, List.mem_filterMap, Option.map_eq_some_iff] at hav
    obtain ⟨a, ha, v, _, rfl⟩ := hav
    exact ha
  obtain ⟨it', h1, h2⟩ := setAll_rep hn hm (y.pairs m) x h hp
  refine ⟨it', by simp [addValues, getValues_rep hs hm, h1], ?_⟩
  have : (y.pairs m).foldl (fun x av => x.put av.1 av.2) x = x.over y := by
    have hc := foldl_put_cat (y.pairs m) x
    have hv : ((y.pairs m).foldl (fun x av => x.put av.1 av.2) x).val = (x.over y).val := by
      funext b
      rw [foldl_put_val]
      simp only [AItem.over]
      split
      · rfl
      · rename_i hb
        cases e : y.val b with
        | none => rfl
        | some v => exact absurd (hs.known b v e) hb
    generalize hz : (y.pairs m).foldl (fun x av => x.put av.1 av.2) x = z at *
    obtain ⟨zc, zt, zv⟩ := z
    simp only at hc hv
    simp [AItem.over] at hv ⊢
    exact ⟨hc.1, hc.2, hv⟩
  rw [← this]; exact h2

/-! ### Programs -/

/-- The state of a program is the abstract state. -/
structure SRep (s : State) (S : AState) : Prop where
  m : s.m = S.used
  nodup : s.m.Nodup
  size : s.m.length ≤ maxAttrs
  len : s.items.length = S.items.length
  items : ∀ (k : Nat) it x, s.items[k]? = some it → S.items[k]? = some x → Rep s.m it x

theorem SRep.get {s S} (h : SRep s S) (k : Nat) :
    (s.items[k]? = none ∧ S.items[k]? = none) ∨ ∃ it x, s.items[k]? = some it ∧ S.items[k]? = some x ∧ Rep s.m it x := by
  by_cases hk : k < s.items.length
  · have hk' : k < S.items.length := by rw [← h.len]; exact hk
    exact Or.inr ⟨s.items[k], S.items[k], by simp [hk], by simp [hk'], h.items k _ _ (by simp [hk]) (by simp [hk'])⟩
  · exact Or.inl ⟨List.getElem?_eq_none (by omega), List.getElem?_eq_none (by have := h.len; omega)⟩

theorem SRep.push {s S} (h : SRep s S) {it x} (hr : Rep s.m it x) :
    SRep { s with items := s.items ++ [it] } { S with items := S.items ++ [x] } := by
  refine ⟨h.m, h.nodup, h.size, by simp [h.len], ?_⟩
  intro k it' x' h1 h2
  simp only at h1 h2
  by_cases hk : k < s.items.length
  · rw [List.getElem?_append_left hk] at h1
    rw [List.getElem?_append_left (by rw [← h.len]; exact hk)] at h2
    exact h.items k _ _ h1 h2
  · rw [List.getElem?_append_right (by omega)] at h1
    rw [List.getElem?_append_right (by rw [← h.len]; omega), ← h.len] at h2
    have : k - s.items.length = 0 := by
      have := (List.getElem?_eq_some_iff.1 h1).1; simp at this; omega
    rw [this] at h1 h2
    simp at h1 h2
    subst h1 h2; exact hr

theorem SRep.put {s S} (h : SRep s S) {k : Nat} {it x} {m' : List Str} {u' : List Str} (hm : m' = u') (hn : m'.Nodup) (hl : m'.length ≤ maxAttrs)
    (hold : ∀ it x, Rep s.m it x → Rep m' it x) (hr : Rep m' it x) :
    SRep ⟨m', s.items.set k it⟩ ⟨u', S.items.set k x⟩ := by
  refine ⟨hm, hn, hl, by simp [h.len], ?_⟩
  intro j it' x' h1 h2
  simp only [List.getElem?_set] at h1 h2
  by_cases e : k = j
  · subst e
    simp only [if_true] at h1 h2
    split at h1
    · split at h2
      · simp at h1 h2; subst h1 h2; exact hr
      · cases h2
    · cases h1
  · simp only [e, if_false] at h1 h2
    exact hold _ _ (h.items j _ _ h1 h2)

/-- The attributes after an operation. -/
theorem step_rep {s S} (h : SRep s S) (op : Op) :
    (S.step op = none ∧ step s op = none) ∨
    (∃ S', S.step op = some S' ∧ S.used.length ≤ S'.used.length ∧
      ((maxAttrs < S'.used.length ∧ step s op = none) ∨ (S'.used.length ≤ maxAttrs ∧ ∃ s', step s op = some s' ∧ SRep s' S'))) := by
  cases op with
  | new c t =>
    exact Or.inr ⟨_, rfl, Nat.le_refl _, Or.inr ⟨h.m ▸ h.size, _, rfl, h.push (Rep.new _ c t)⟩⟩
  | copy k =>
    rcases h.get k with ⟨e1, e2⟩ | ⟨it, x, e1, e2, hr⟩
    · left; simp [AState.step, step, e1, e2]
    · exact Or.inr ⟨{ S with items := S.items ++ [x] }, by simp [AState.step, e2], Nat.le_refl _, Or.inr ⟨h.m ▸ h.size, _, by simp [step, e1], h.push hr⟩⟩
  | copyAs k c =>
    rcases h.get k with ⟨e1, e2⟩ | ⟨it, x, e1, e2, hr⟩
    · left; simp [AState.step, step, e1, e2]
    · exact Or.inr ⟨{ S with items := S.items ++ [{ x with cat := c }] }, by simp [AState.step, e2], Nat.le_refl _, Or.inr ⟨h.m ▸ h.size, _, by simp [step, e1], h.push (hr.withCat c)⟩⟩
  | setCat k c =>
    rcases h.get k with ⟨e1, e2⟩ | ⟨it, x, e1, e2, hr⟩
    · left; simp [AState.step, step, e1, e2]
    · exact Or.inr ⟨{ S with items := S.items.set k { x with cat := c } }, by simp [AState.step, e2], Nat.le_refl _, Or.inr ⟨h.m ▸ h.size, _, by simp [step, e1],
        h.put h.m h.nodup h.size (fun _ _ hr => hr) (hr.withCat c)⟩⟩
  | set k a v =>
    rcases h.get k with ⟨e1, e2⟩ | ⟨it, x, e1, e2, hr⟩
    · left; simp [AState.step, step, e1, e2]
    · right
      have he : enter s.m a = if a ∈ S.used then S.used else S.used ++ [a] := by rw [enter_eq, h.m]
      refine ⟨⟨enter s.m a, S.items.set k (x.put a v)⟩, by simp [AState.step, e2, he], ?_, ?_⟩
      · simp only [he]; split <;> simp
      · by_cases hl : (enter s.m a).length ≤ maxAttrs
        · right
          obtain ⟨it', h1, h2⟩ := setValue_rep hr h.nodup a v hl
          exact ⟨hl, ⟨enter s.m a, s.items.set k it'⟩, by simp [step, e1, h1],
            h.put rfl (enter_nodup h.nodup a) hl (fun _ _ hr => hr.enter a) h2⟩
        · left
          exact ⟨by simpa using hl, by simp [step, e1, setValue_full hr h.nodup a v h.size (by omega)]⟩
  | add t k =>
    rcases h.get t with ⟨e1, e2⟩ | ⟨it, x, e1, e2, hr⟩
    · left; simp [AState.step, step, e1, e2]
    · rcases h.get k with ⟨f1, f2⟩ | ⟨src, y, f1, f2, hs⟩
      · left; simp [AState.step, step, e1, e2, f1, f2]
      · right
        obtain ⟨it', h1, h2⟩ := addValues_rep hr hs h.nodup h.size
        exact ⟨{ S with items := S.items.set t (x.over y) }, by simp [AState.step, e2, f2], Nat.le_refl _,
          Or.inr ⟨h.m ▸ h.size, ⟨s.m, s.items.set t it'⟩, by simp [step, e1, f1, h1], h.put h.m h.nodup h.size (fun _ _ hr => hr) h2⟩⟩

theorem used_mono {S S' : AState} {op : Op} (h : S.step op = some S') : S.used.length ≤ S'.used.length := by
  cases op with
  | new c t => simp [AState.step] at h; subst h; simp
  | copy k => simp [AState.step] at h; obtain ⟨_, _, rfl⟩ := h; simp
  | copyAs k c => simp [AState.step] at h; obtain ⟨_, _, rfl⟩ := h; simp
  | setCat k c => simp [AState.step] at h; obtain ⟨_, _, rfl⟩ := h; simp
  | set k a v => simp [AState.step] at h; obtain ⟨_, _, rfl⟩ := h; simp only; split <;> simp
  | add t k =>
    simp only [AState.step, Option.bind_eq_some_iff, Option.map_eq_some_iff] at h
    obtain ⟨_, _, _, _, rfl⟩ := h; simp

theorem run_used_mono {ops : List Op} : ∀ {S S' : AState}, S.run ops = some S' → S.used.length ≤ S'.used.length := by
  induction ops with
  | nil => intro S S' h; simp [AState.run] at h; subst h; simp
  | cons op ops ih =>
    intro S S' h
    simp only [AState.run, Option.bind_eq_some_iff] at h
    obtain ⟨T, h1, h2⟩ := h
    exact Nat.le_trans (used_mono h1) (ih h2)

theorem run_rep {ops : List Op} : ∀ {s S}, SRep s S →
    (S.run ops = none ∧ run s ops = none) ∨
    (∃ S', S.run ops = some S' ∧
      ((maxAttrs < S'.used.length ∧ run s ops = none) ∨ (S'.used.length ≤ maxAttrs ∧ ∃ s', run s ops = some s' ∧ SRep s' S'))) := by
  induction ops with
  | nil => intro s S h; exact Or.inr ⟨S, rfl, Or.inr ⟨h.m ▸ h.size, s, rfl, h⟩⟩
  | cons op ops ih =>
    intro s S h
    simp only [AState.run, run]
    rcases step_rep h op with ⟨e1, e2⟩ | ⟨T, e1, _, ⟨hT, e2⟩ | ⟨hT, t, e2, ht⟩⟩
    · left; simp [e1, e2]
    · rw [e1, e2]
      simp only [Option.bind_some, Option.bind_none]
      cases e : T.run ops with
      | none => simp
      | some S' => exact Or.inr ⟨S', rfl, Or.inl ⟨Nat.lt_of_lt_of_le hT (run_used_mono e), by simp⟩⟩
    · rw [e1, e2]
      exact ih ht

theorem SRep.start : SRep State.empty ⟨[], []⟩ :=
  ⟨rfl, by simp [State.empty], by simp [State.empty], rfl, by simp [State.empty]⟩

end Verif.Annot
