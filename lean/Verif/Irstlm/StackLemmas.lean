import Verif.Irstlm.Stack
import Mathlib.Data.List.Nodup
import Mathlib.Data.List.GetD
import Mathlib.Tactic.Linarith

/-! # Lemmas about the stack of strings -/

namespace Verif.Irstlm

/-- The strings of a block, the last one first. -/
def flat (ss : List Str) : Str := ss.reverse.flatMap (· ++ [0])

@[simp] theorem flat_nil : flat [] = [] := rfl
@[simp] theorem flat_cons (s : Str) (ss : List Str) : flat (s :: ss) = flat ss ++ (s ++ [0]) := by simp [flat]

/-- A block with these strings. -/
def layout (size : Nat) (ss : List Str) : Str := flat ss ++ List.replicate (size - (flat ss).length) 0

/-- The pointers to the strings of the blocks. -/
def pointers : List (List Str) → List (Addr × Str)
  | [] => []
  | [] :: t => pointers t
  | (s :: r) :: t => (⟨t.length, (flat r).length⟩, s) :: pointers (r :: t)
termination_by bss => (bss.map fun b => b.length + 1).sum

@[simp] theorem pointers_nil : pointers [] = [] := by rw [pointers]
@[simp] theorem pointers_nil_cons (t) : pointers ([] :: t) = pointers t := by rw [pointers]
@[simp] theorem pointers_cons (s r t) :
    pointers ((s :: r) :: t) = (⟨t.length, (flat r).length⟩, s) :: pointers (r :: t) := by rw [pointers]

/-- What holds of the stack. -/
structure StackInv (size : Nat) (t : Strstack) (bss : List (List Str)) : Prop where
  sz : t.size = size
  blocks : t.blocks = bss.map (layout size)
  fits : ∀ ss ∈ bss, ss ≠ [] → (flat ss).length < size
  ne : bss ≠ []
  lower : ∀ ss ∈ bss.tail, ss ≠ []
  idx : t.idx = (flat (bss.headD [])).length
  cstr : ∀ ss ∈ bss, ∀ s ∈ ss, CString s

theorem mem_pointers {a : Addr} {s : Str} : ∀ {bss : List (List Str)}, (a, s) ∈ pointers bss →
    ∃ ss r, bss.reverse[a.block]? = Option.some ss ∧ (s :: r) <:+ ss ∧ a.offset = (flat r).length := by
  intro bss
  fun_induction pointers bss with
  | case1 => simp
  | case2 t ih =>
    intro h
    obtain ⟨ss, r, h1, h2, h3⟩ := ih h
    refine ⟨ss, r, ?_, h2, h3⟩
    rw [List.reverse_cons, List.getElem?_append_left]
    · exact h1
    · exact (List.getElem?_eq_some_iff.1 h1).1
  | case3 s' r t ih =>
    intro h
    rw [List.mem_cons] at h
    rcases h with h | h
    · cases h
      exact ⟨s :: r, r, by rw [List.reverse_cons]; simp, List.suffix_refl _, rfl⟩
    · obtain ⟨ss, r', h1, h2, h3⟩ := ih h
      rw [List.reverse_cons] at h1 ⊢
      by_cases hb : a.block < t.reverse.length
      · rw [List.getElem?_append_left hb] at h1
        exact ⟨ss, r', by rw [List.getElem?_append_left hb]; exact h1, h2, h3⟩
      · have hl := (List.getElem?_eq_some_iff.1 h1).1
        simp only [List.length_append, List.length_reverse, List.length_cons, List.length_nil] at hl hb
        have he : a.block = t.length := by omega
        rw [he] at h1 ⊢
        simp only [List.getElem?_append_right, List.length_reverse, Nat.le_refl, Nat.sub_self,
          List.getElem?_cons_zero, Option.some.injEq] at h1 ⊢
        subst h1
        exact ⟨_, r', rfl, h2.trans (List.suffix_cons _ _), h3⟩

theorem takeWhile_cstr {s : Str} (h : CString s) (l : Str) : (s ++ 0 :: l).takeWhile (· != 0) = s := by
  induction s with
  | nil => simp
  | cons c s ih =>
    simp only [CString, List.mem_cons, not_or] at h
    rw [List.cons_append, List.takeWhile_cons, if_pos (by simpa using fun e => h.1 e.symm), ih h.2]

theorem flat_suffix {s : Str} {r ss : List Str} (h : (s :: r) <:+ ss) : ∃ l, flat ss = flat r ++ (s ++ 0 :: l) := by
  obtain ⟨p, rfl⟩ := h
  refine ⟨p.reverse.flatMap (· ++ [0]), ?_⟩
  simp [flat]

theorem StackInv.read {size t bss a s} (h : StackInv size t bss) (hm : (a, s) ∈ pointers bss) :
    t.read a = Option.some s := by
  obtain ⟨ss, r, h1, h2, h3⟩ := mem_pointers hm
  unfold Strstack.read
  rw [h.blocks, ← List.map_reverse, List.getElem?_map, h1]
  simp only [Option.map_some, Option.some.injEq, layout, stringAt]
  obtain ⟨l, hl⟩ := flat_suffix h2
  rw [hl, h3, List.append_assoc, List.drop_left', List.append_assoc, List.cons_append]
  · exact takeWhile_cstr (h.cstr ss (List.mem_reverse.1 (List.mem_of_getElem? h1)) s (h2.subset (by simp))) _
  · rfl

/-- Pointers decrease. -/
theorem pointers_lt {a : Addr} {s : Str} {bss : List (List Str)} (h : (a, s) ∈ pointers bss) :
    a.block < bss.length ∧ (a.block + 1 = bss.length → a.offset < (flat (bss.headD [])).length) := by
  obtain ⟨ss, r, h1, h2, h3⟩ := mem_pointers h
  have hl := (List.getElem?_eq_some_iff.1 h1).1
  rw [List.length_reverse] at hl
  refine ⟨hl, fun he => ?_⟩
  have : ss = bss.headD [] := by
    cases bss with
    | nil => simp at hl
    | cons b t =>
      simp only [List.length_cons, Nat.add_right_cancel_iff] at he
      rw [List.reverse_cons, he] at h1
      simp only [List.getElem?_append_right, List.length_reverse, Nat.le_refl, Nat.sub_self,
          List.getElem?_cons_zero, Option.some.injEq] at h1
      simp [h1]
  rw [← this, h3]
  obtain ⟨l, hl⟩ := flat_suffix h2
  rw [hl]; simp

theorem pointers_nodup (bss : List (List Str)) : ((pointers bss).map Prod.fst).Nodup := by
  fun_induction pointers bss with
  | case1 => simp
  | case2 t ih => exact ih
  | case3 s r t ih =>
    rw [List.map_cons, List.nodup_cons]
    refine ⟨fun hm => ?_, ih⟩
    rw [List.mem_map] at hm
    obtain ⟨⟨a, s'⟩, hm, he⟩ := hm
    have := pointers_lt hm
    simp only at he
    subst he
    simp at this

theorem strcpy_layout {size : Nat} {s : Str} {ss : List Str} (h : (flat ss).length + s.length + 1 < size) :
    strcpy (layout size ss) (flat ss).length s = layout size (s :: ss) := by
  unfold strcpy layout
  rw [List.take_left', List.drop_append]
  · rw [List.drop_eq_nil_of_le (by omega), flat_cons]
    simp only [List.nil_append, List.append_assoc, List.drop_replicate, List.append_cancel_left_eq,
      List.length_append, List.length_cons, List.length_nil]
    rw [show (flat ss).length + s.length + 1 - (flat ss).length = s.length + 1 by omega]
    congr 1
    omega
  · rfl

theorem push_none {size t bss s} (h : StackInv size t bss) (hs : size ≤ s.length + 1) : t.push s = none := by
  unfold Strstack.push
  rw [if_pos (by rw [h.sz]; exact hs)]

theorem push_inv {size t bss s} (h : StackInv size t bss) (hc : CString s) (hs : s.length + 1 < size) :
    ∃ a u bss', t.push s = some (a, u) ∧ StackInv size u bss' ∧
      pointers bss' = (a, s) :: pointers bss := by
  unfold Strstack.push
  rw [if_neg (by rw [h.sz]; omega)]
  obtain ⟨b, l, hb⟩ : ∃ b l, bss = b :: l := List.exists_cons_of_ne_nil h.ne
  subst hb
  have hidx := h.idx
  simp only [List.headD_cons] at hidx
  by_cases hr : t.idx + s.length + 1 ≥ t.size
  · refine ⟨⟨(b :: l).length, 0⟩, { t with blocks := layout size [s] :: (b :: l).map (layout size), idx := s.length + 1, entries := t.entries + 1 }, [s] :: b :: l, ?_, ?_, ?_⟩
    · have := strcpy_layout (size := size) (s := s) (ss := []) (by simpa using hs)
      simp only [flat_nil, List.length_nil] at this
      have he : List.replicate size (0 : Byte) = layout size [] := by simp [layout]
      have hroom : t.room s.length =
          { t with blocks := layout size [] :: (b :: l).map (layout size), idx := 0 } := by
        rw [Strstack.room, if_pos hr, h.blocks, h.sz, he]
      simp only [hroom, this]
      simp
    · have hne : b ≠ [] := by
        rintro rfl
        simp only [flat_nil, List.length_nil] at hidx
        rw [hidx, h.sz] at hr; omega
      refine ⟨h.sz, rfl, ?_, by simp, ?_, by simp, ?_⟩
      · intro ss hss
        rw [List.mem_cons] at hss
        rcases hss with rfl | hss
        · intro _; simpa using hs
        · exact h.fits ss hss
      · intro ss hss
        simp only [List.tail_cons, List.mem_cons] at hss
        rcases hss with rfl | hss
        · exact hne
        · exact h.lower ss hss
      · intro ss hss
        rw [List.mem_cons] at hss
        rcases hss with rfl | hss
        · simpa using hc
        · exact h.cstr ss hss
    · simp
  · have hlt : (flat b).length + s.length + 1 < size := by rw [← hidx, ← h.sz]; omega
    refine ⟨⟨l.length, t.idx⟩, { t with blocks := layout size (s :: b) :: l.map (layout size), idx := t.idx + s.length + 1, entries := t.entries + 1 }, (s :: b) :: l, ?_, ?_, ?_⟩
    · have := strcpy_layout hlt
      have hroom : t.room s.length = t := by rw [Strstack.room, if_neg hr]
      simp only [hroom, h.blocks, List.map_cons, hidx, this]
      simp
    · refine ⟨h.sz, rfl, ?_, by simp, h.lower, ?_, ?_⟩
      · intro ss hss
        rw [List.mem_cons] at hss
        rcases hss with rfl | hss
        · intro _; simp only [flat_cons, List.length_append, List.length_cons, List.length_nil]; omega
        · exact h.fits ss (by simp [hss])
      · simp [hidx]; omega
      · intro ss hss
        rw [List.mem_cons] at hss
        rcases hss with rfl | hss
        · intro s' hs'
          rw [List.mem_cons] at hs'
          rcases hs' with rfl | hs'
          · exact hc
          · exact h.cstr b (by simp) s' hs'
        · exact h.cstr ss (by simp [hss])
    · simp [hidx]

/-! ## Going back -/

theorem backNonzero_eq {b : Str} {p : Nat} (hp : b.getD (p + 1) 0 ≠ 0) : ∀ j, p + 1 ≤ j →
    (∀ i, p + 1 < i → i ≤ j → b.getD i 0 = 0) → backNonzero b j = p
  | 0, h, _ => by omega
  | j + 1, h, hz => by
    rw [backNonzero]
    by_cases he : j = p
    · subst he; rw [if_pos hp]
    · rw [if_neg (by rw [hz (j + 1) (by omega) (by omega)]; simp)]
      exact backNonzero_eq hp j (by omega) fun i h1 h2 => hz i h1 (by omega)

theorem backZero_eq {b : Str} {p : Nat} (hp : b.getD (p + 1) 0 = 0) : ∀ j, p + 1 ≤ j →
    (∀ i, p + 1 < i → i ≤ j → b.getD i 0 ≠ 0) → backZero b j = p
  | 0, h, _ => by omega
  | j + 1, h, hz => by
    rw [backZero]
    by_cases he : j = p
    · subst he; rw [if_pos hp]
    · rw [if_neg (hz (j + 1) (by omega) (by omega))]
      exact backZero_eq hp j (by omega) fun i h1 h2 => hz i h1 (by omega)

theorem backZero_zero {b : Str} : ∀ j, (∀ i, 0 < i → i ≤ j → b.getD i 0 ≠ 0) → backZero b j = 0
  | 0, _ => rfl
  | j + 1, hz => by
    rw [backZero, if_neg (hz (j + 1) (by omega) (by omega))]
    exact backZero_zero j fun i h1 h2 => hz i h1 (by omega)

theorem getD_mem {s : Str} {i : Nat} (h : CString s) (hi : i < s.length) : s.getD i 0 ≠ 0 := by
  rw [List.getD_eq_getElem _ _ hi]
  intro he
  exact h (he ▸ List.getElem_mem hi)

theorem layout_string {size : Nat} {s : Str} {r : List Str} {i : Nat} (hi : i < s.length) :
    (layout size (s :: r)).getD ((flat r).length + i) 0 = s.getD i 0 := by
  unfold layout
  simp only [flat_cons, List.append_assoc]
  rw [List.getD_append_right _ _ _ _ (by omega), List.getD_append _ _ _ _ (by rw [show (flat r).length + i - (flat r).length = i by omega]; exact hi)]
  congr 1; omega

theorem layout_zero {size : Nat} {ss : List Str} {i : Nat} (hi : (flat ss).length ≤ i) :
    (layout size ss).getD i 0 = 0 := by
  unfold layout
  rw [List.getD_append_right _ _ _ _ hi]
  by_cases h : i - (flat ss).length < size - (flat ss).length
  · rw [List.getD_replicate _ h]
  · rw [List.getD_eq_default _ _ (by simpa using h)]

theorem layout_end {size : Nat} {s : Str} {r : List Str} :
    (layout size (s :: r)).getD ((flat r).length + s.length) 0 = 0 := by
  unfold layout
  simp only [flat_cons, List.append_assoc]
  rw [List.getD_append_right _ _ _ _ (by omega), List.getD_append_right _ _ _ _ (by omega)]
  simp

theorem lastString_layout {size : Nat} {s : Str} {r : List Str} {j : Nat}
    (hs : CString s) (hne : s ≠ []) (hr : ∀ s' ∈ r, CString s' ∧ s' ≠ [])
    (hone : r = [] → s.length ≠ 1) (hj : (flat r).length + s.length ≤ j) :
    lastString (layout size (s :: r)) j = (flat r).length := by
  have hl : 0 < s.length := List.length_pos_of_ne_nil hne
  cases r with
  | nil =>
    have hl2 : 2 ≤ s.length := by have := hone rfl; omega
    have hz : (flat ([] : List Str)).length = 0 := rfl
    have hget : ∀ i, i < s.length → (layout size [s]).getD i 0 ≠ 0 := fun i hi => by
      have := layout_string (size := size) (s := s) (r := []) hi
      rw [hz, Nat.zero_add] at this
      rw [this]; exact getD_mem hs hi
    have h1 : backNonzero (layout size [s]) j = s.length - 2 := by
      refine backNonzero_eq (hget _ (by omega)) j (by rw [hz] at hj; omega) fun i h1 h2 => ?_
      by_cases he : i = s.length
      · have := layout_end (size := size) (s := s) (r := [])
        rw [hz, Nat.zero_add] at this
        rw [he]; exact this
      · exact layout_zero (by simp; omega)
    have h2 : backZero (layout size [s]) (s.length - 2) = 0 :=
      backZero_zero _ fun i _ h => hget i (by omega)
    unfold lastString
    simp only [h1, h2]
    rw [if_neg (hget _ (by omega))]; simp
  | cons s' r' =>
    have hs' := hr s' (by simp)
    have hl' : 0 < s'.length := List.length_pos_of_ne_nil hs'.2
    have hA : (flat (s' :: r')).length = (flat r').length + s'.length + 1 := by simp; omega
    have hget : ∀ i, i < s.length → (layout size (s :: s' :: r')).getD ((flat (s' :: r')).length + i) 0 ≠ 0 :=
      fun i hi => by rw [layout_string hi]; exact getD_mem hs hi
    have hz : (layout size (s :: s' :: r')).getD ((flat r').length + s'.length) 0 = 0 := by
      unfold layout
      simp only [flat_cons, List.append_assoc]
      rw [List.getD_append_right _ _ _ _ (by omega), List.getD_append_right _ _ _ _ (by omega)]
      simp
    have h1 : backNonzero (layout size (s :: s' :: r')) j = (flat (s' :: r')).length + s.length - 2 := by
      refine backNonzero_eq ?_ j (by omega) fun i h1 h2 => ?_
      · have := hget (s.length - 1) (by omega)
        rw [show (flat (s' :: r')).length + s.length - 2 + 1 = (flat (s' :: r')).length + (s.length - 1) by omega]
        exact this
      · by_cases he : i = (flat (s' :: r')).length + s.length
        · rw [he]; exact layout_end
        · refine layout_zero ?_
          rw [flat_cons, List.length_append, List.length_append]
          simp only [List.length_cons, List.length_nil]; omega
    have h2 : backZero (layout size (s :: s' :: r')) ((flat (s' :: r')).length + s.length - 2) =
        (flat r').length + s'.length - 1 := by
      refine backZero_eq ?_ _ (by omega) fun i h1 h2 => ?_
      · rw [show (flat r').length + s'.length - 1 + 1 = (flat r').length + s'.length by omega]; exact hz
      · have := hget (i - (flat (s' :: r')).length) (by omega)
        rw [show (flat (s' :: r')).length + (i - (flat (s' :: r')).length) = i by omega] at this
        exact this
    unfold lastString
    simp only [h1, h2]
    rw [show (flat r').length + s'.length - 1 + 1 = (flat r').length + s'.length by omega, if_pos hz]
    omega

theorem separable_strings {s r t} (h : Separable (pointers ((s :: r) :: t))) :
    s ≠ [] ∧ (∀ s' ∈ r, s' ≠ []) ∧ (r = [] → s.length ≠ 1) := by
  rw [pointers_cons] at h
  refine ⟨(h _ List.mem_cons_self).1, ?_, ?_⟩
  · have h' : ∀ x ∈ pointers (r :: t), x.2 ≠ [] := fun x hx => (h x (by simp [hx])).1
    clear h
    induction r with
    | nil => simp
    | cons s' r ih =>
      rw [pointers_cons] at h'
      intro x hx
      rw [List.mem_cons] at hx
      rcases hx with rfl | hx
      · exact h' _ List.mem_cons_self
      · exact ih (fun y hy => h' y (by simp [hy])) x hx
  · rintro rfl
    exact (h _ List.mem_cons_self).2 rfl

theorem pointers_top {bss x l} (h : pointers bss = x :: l) (hne : bss ≠ []) (hlow : ∀ ss ∈ bss.tail, ss ≠ []) :
    ∃ s r t, x = (⟨t.length, (flat r).length⟩, s) ∧ l = pointers (r :: t) ∧
      (bss = (s :: r) :: t ∨ bss = [] :: (s :: r) :: t) := by
  match bss, hne with
  | (s :: r) :: t, _ =>
    rw [pointers_cons] at h
    cases h
    exact ⟨s, r, t, rfl, rfl, Or.inl rfl⟩
  | [] :: [], _ => simp at h
  | [] :: [] :: t, _ => exact absurd rfl (hlow [] (by simp))
  | [] :: (s :: r) :: t, _ =>
    rw [pointers_nil_cons, pointers_cons] at h
    cases h
    exact ⟨s, r, t, rfl, rfl, Or.inr rfl⟩

theorem take_layout {size : Nat} {s : Str} {r : List Str} :
    (layout size (s :: r)).take (flat r).length ++ List.replicate (size - (flat r).length) 0 = layout size r := by
  unfold layout
  rw [flat_cons, List.append_assoc, List.take_left' rfl]

theorem pop_inv {size t bss x l} (h : StackInv size t bss) (hp : pointers bss = x :: l)
    (hs : Separable (x :: l)) :
    ∃ bss', t.top = some x.1 ∧ t.pop.1 = some x.1 ∧ StackInv size t.pop.2 bss' ∧ pointers bss' = l ∧
      t.pop.2.entries = t.entries - 1 := by
  obtain ⟨s, r, u, rfl, rfl, hor⟩ := pointers_top hp h.ne h.lower
  rw [← pointers_cons] at hs
  obtain ⟨hs1, hs2, hs3⟩ := separable_strings hs
  have hmem : (s :: r) ∈ bss := by rcases hor with rfl | rfl <;> simp
  have hc : ∀ s' ∈ s :: r, CString s' := h.cstr _ hmem
  have hlast : ∀ j, (flat r).length + s.length ≤ j → lastString (layout size (s :: r)) j = (flat r).length :=
    fun j hj => lastString_layout (hc s (by simp)) hs1 (fun s' hs' => ⟨hc s' (by simp [hs']), hs2 s' hs'⟩) hs3 hj
  have hfit := h.fits _ hmem (by simp)
  rw [flat_cons, List.length_append, List.length_append] at hfit
  simp only [List.length_cons, List.length_nil] at hfit
  have hinv : ∀ e, StackInv size ⟨t.size, layout size r :: u.map (layout size), (flat r).length, e⟩ (r :: u) := by
    intro e
    refine ⟨h.sz, rfl, ?_, by simp, ?_, rfl, ?_⟩
    · intro ss hss hne
      rw [List.mem_cons] at hss
      rcases hss with rfl | hss
      · omega
      · exact h.fits ss (by rcases hor with rfl | rfl <;> simp [hss]) hne
    · intro ss hss
      refine h.lower ss ?_
      rw [List.tail_cons] at hss
      rcases hor with rfl | rfl <;> simp [hss]
    · intro ss hss
      rw [List.mem_cons] at hss
      rcases hss with rfl | hss
      · exact fun s' hs' => hc s' (by simp [hs'])
      · exact h.cstr ss (by rcases hor with rfl | rfl <;> simp [hss])
  rcases hor with rfl | rfl
  · have hidx : t.idx = (flat r).length + s.length + 1 := by
      rw [h.idx]; simp; omega
    have hne : t.idx ≠ 0 := by omega
    have hl := hlast t.idx (by omega)
    have hb := h.blocks
    rw [List.map_cons] at hb
    have hpop : t.pop = (some ⟨u.length, (flat r).length⟩,
        ⟨t.size, layout size r :: u.map (layout size), (flat r).length, t.entries - 1⟩) := by
      unfold Strstack.pop
      simp only [if_neg hne, hb, hl, h.sz, take_layout, List.length_map]
    refine ⟨r :: u, ?_, by rw [hpop], by rw [hpop]; exact hinv _, rfl, by rw [hpop]⟩
    unfold Strstack.top
    simp only [if_neg hne, hb, hl, List.length_map]
  · have hidx : t.idx = 0 := by rw [h.idx]; rfl
    have hl := hlast (size - 1) (by omega)
    have hb := h.blocks
    rw [List.map_cons, List.map_cons] at hb
    have hpop : t.pop = (some ⟨u.length, (flat r).length⟩,
        ⟨t.size, layout size r :: u.map (layout size), (flat r).length, t.entries - 1⟩) := by
      unfold Strstack.pop
      simp only [if_pos hidx, hb, List.tail_cons, h.sz, hl, take_layout, List.length_map]
    refine ⟨r :: u, ?_, by rw [hpop], by rw [hpop]; exact hinv _, rfl, by rw [hpop]⟩
    unfold Strstack.top
    simp only [if_pos hidx, hb, List.tail_cons, h.sz, hl, List.length_map]

theorem top_empty {size t bss} (h : StackInv size t bss) (hp : pointers bss = []) : t.top = none := by
  have : bss = [[]] := by
    match bss, h.ne, h.lower with
    | [] :: [], _, _ => rfl
    | [] :: b :: l, _, hl =>
      obtain ⟨s, r, rfl⟩ := List.exists_cons_of_ne_nil (hl b (by simp))
      simp at hp
    | (s :: r) :: l, _, _ => simp at hp
  subst this
  unfold Strstack.top
  rw [h.idx, h.blocks]; simp

theorem new_stack_inv (size : Nat) : StackInv size (Strstack.new size) [[]] := by
  refine ⟨rfl, by simp [Strstack.new, layout], by simp, by simp, by simp, rfl, by simp⟩

theorem stackReach_inv {size t l} (h : StackReach size t l) : ∃ bss, StackInv size t bss ∧ pointers bss = l ∧
    t.entries = l.length := by
  induction h with
  | start => exact ⟨[[]], new_stack_inv size, by simp, rfl⟩
  | @push t l s a u h hc hp ih =>
    obtain ⟨bss, hi, hl, he⟩ := ih
    by_cases hs : s.length + 1 < size
    · obtain ⟨a', u', bss', h1, h2, h3⟩ := push_inv hi hc hs
      have hent : u.entries = t.entries + 1 := by
        unfold Strstack.push at hp
        split at hp
        · cases hp
        · simp only at hp
          split at hp
          · cases hp
          · cases hp
            unfold Strstack.room; split <;> rfl
      rw [h1] at hp; cases hp
      exact ⟨bss', h2, by rw [h3, hl], by rw [hent, he]; simp⟩
    · rw [push_none hi (by omega)] at hp; cases hp
  | pop h hs ih =>
    obtain ⟨bss, hi, hl, he⟩ := ih
    obtain ⟨bss', _, _, h3, h4, h5⟩ := pop_inv hi hl hs
    exact ⟨bss', h3, h4, by rw [h5, he]; simp⟩

end Verif.Irstlm
