import Verif.Zval.TreeSpec
import Mathlib.Data.List.Basic

/-! # Lemmas about syntactic trees -/

namespace Verif.Zval

/-! ## Environments -/

theorem fetch_change (e : Env) (k k' : Z) (d : Option Z) :
    (e.change k d).fetch k' = if k' = k then d else e.fetch k' := by
  induction e with
  | nil =>
    by_cases c : k' = k
    · simp [Env.change, Env.fetch, c]
    · simp [Env.change, Env.fetch, c, Ne.symm c]
  | cons p e ih =>
    unfold Env.change
    by_cases c : p.1 = k
    · rw [if_pos c]
      by_cases c2 : k' = k
      · simp [Env.fetch, c2]
      · have : p.1 ≠ k' := by rw [c]; exact Ne.symm c2
        simp [Env.fetch, c2, Ne.symm c2, this]
    · rw [if_neg c]
      by_cases c2 : p.1 = k'
      · have : k' ≠ k := by rw [← c2]; exact c
        simp [Env.fetch, c2, this]
      · have := ih
        unfold Env.fetch at this ⊢
        simp only [List.find?_cons, c2, decide_false]
        exact this

theorem defined_change (e : Env) (k k' : Z) (d : Option Z) :
    (e.change k d).defined k' = if k' = k then true else e.defined k' := by
  induction e with
  | nil =>
    by_cases c : k' = k
    · simp [Env.change, Env.defined, c]
    · simp [Env.change, Env.defined, c, Ne.symm c]
  | cons p e ih =>
    unfold Env.change
    by_cases c : p.1 = k
    · rw [if_pos c]
      by_cases c2 : k' = k
      · simp [Env.defined, c2]
      · have : p.1 ≠ k' := by rw [c]; exact Ne.symm c2
        simp [Env.defined, c2, Ne.symm c2, this]
    · rw [if_neg c]
      by_cases c2 : p.1 = k'
      · have : k' ≠ k := by rw [← c2]; exact c
        simp [Env.defined, c2, this]
      · have := ih
        unfold Env.defined at this ⊢
        simp only [List.find?_cons, c2, decide_false]
        exact this

theorem mem_change {e : Env} {k : Z} {d : Option Z} {p : Z × Option Z} (hk : p.1 ≠ k) :
    p ∈ e.change k d ↔ p ∈ e := by
  induction e with
  | nil =>
    simp only [Env.change, List.mem_singleton, List.not_mem_nil, iff_false]
    rintro rfl
    exact hk rfl
  | cons q e ih =>
    unfold Env.change
    by_cases c : q.1 = k
    · rw [if_pos c, List.mem_cons, List.mem_cons]
      constructor
      · rintro (rfl | h)
        · exact absurd rfl hk
        · exact Or.inr h
      · rintro (rfl | h)
        · exact absurd c hk
        · exact Or.inr h
    · rw [if_neg c, List.mem_cons, List.mem_cons, ih]

theorem fetch_insert_of_ne (e : Env) (k k' : Z) (d : Option Z) (h : k' ≠ k) :
    (e.insert k d).fetch k' = e.fetch k' := by
  unfold Env.insert Env.fetch
  rw [List.find?_append]
  cases e.find? fun p => decide (p.1 = k') <;> simp [Ne.symm h]

theorem fetch_delete_of_ne (e : Env) (k k' : Z) (d : Option Z) (h : k' ≠ k) :
    (e.deleteAllKeyValue k d).fetch k' = e.fetch k' := by
  unfold Env.deleteAllKeyValue Env.fetch
  rw [List.find?_filter]
  congr 2
  funext p
  by_cases c : p.1 = k'
  · have : p.1 ≠ k := by rw [c]; exact h
    simp [c, h]
  · simp [c]

theorem fetch_some_mem {e : Env} {k v : Z} (h : e.fetch k = some v) : (k, some v) ∈ e := by
  unfold Env.fetch at h
  cases c : e.find? fun p => decide (p.1 = k) with
  | none => rw [c] at h; simp at h
  | some p =>
    rw [c, Option.bind_some] at h
    have h1 := List.mem_of_find?_eq_some c
    have h2 := List.find?_some c
    simp only [decide_eq_true_eq] at h2
    have : p = (k, some v) := Prod.ext h2 h
    rw [← this]; exact h1

/-! ## The heap -/

theorem subtree_setKid (h : Heap) (t i c q j : Nat) :
    (h.setKid t i c).subtree q j = if q = t ∧ j = i then some c else h.subtree q j := by
  unfold Heap.setKid Heap.subtree Heap.upd
  by_cases hq : q = t
  · subst hq
    simp only [if_true, true_and]
    rw [fetch_change]
    by_cases hj : j = i
    · subst hj; simp
    · have : (Z.int j) ≠ Z.int i := by simpa using hj
      rw [if_neg this, if_neg hj]
  · simp [hq]

theorem subtree_upd (h : Heap) (t : Nat) (f : Node → Node) (hf : ∀ n, (f n).env = n.env) (q j : Nat) :
    (h.upd t f).subtree q j = h.subtree q j := by
  unfold Heap.upd Heap.subtree
  by_cases hq : q = t
  · subst hq; simp [hf]
  · simp [hq]

theorem upd_same (h : Heap) (t : Nat) (f : Node → Node) : (h.upd t f) t = f (h t) := by
  simp [Heap.upd]

theorem upd_other (h : Heap) {t q : Nat} (f : Node → Node) (hq : q ≠ t) : (h.upd t f) q = h q := by
  simp [Heap.upd, hq]

/-- Only subtrees and their places are changed. -/
structure Keeps (h h' : Heap) : Prop where
  count : ∀ c, (h' c).count = (h c).count
  parent : ∀ c, (h' c).parent = (h c).parent
  label : ∀ c, (h' c).label = (h c).label
  category : ∀ c, (h' c).category = (h c).category
  equiv : ∀ c, (h' c).equiv = (h c).equiv
  fetch : ∀ c k, (∀ i, k ≠ Z.int i) → (h' c).env.fetch k = (h c).env.fetch k
  mem : ∀ c p, (∀ i, p.1 ≠ Z.int i) → (p ∈ (h' c).env ↔ p ∈ (h c).env)

theorem Keeps.refl (h : Heap) : Keeps h h :=
  ⟨fun _ => rfl, fun _ => rfl, fun _ => rfl, fun _ => rfl, fun _ => rfl, fun _ _ _ => rfl,
    fun _ _ _ => Iff.rfl⟩

theorem Keeps.trans {a b c : Heap} (h1 : Keeps a b) (h2 : Keeps b c) : Keeps a c :=
  ⟨fun x => (h2.count x).trans (h1.count x), fun x => (h2.parent x).trans (h1.parent x),
    fun x => (h2.label x).trans (h1.label x), fun x => (h2.category x).trans (h1.category x),
    fun x => (h2.equiv x).trans (h1.equiv x),
    fun x k hk => (h2.fetch x k hk).trans (h1.fetch x k hk),
    fun x p hp => (h2.mem x p hp).trans (h1.mem x p hp)⟩

theorem keeps_setKid (h : Heap) (t i c : Nat) : Keeps h (h.setKid t i c) := by
  unfold Heap.setKid Heap.upd
  refine ⟨?_, ?_, ?_, ?_, ?_, ?_, ?_⟩
  · intro q; by_cases e : q = t <;> simp [e]
  · intro q; by_cases e : q = t <;> simp [e]
  · intro q; by_cases e : q = t <;> simp [e]
  · intro q; by_cases e : q = t <;> simp [e]
  · intro q; by_cases e : q = t <;> simp [e]
  · intro q k hk
    by_cases e : q = t
    · simp only [e, if_true]
      rw [fetch_change, if_neg (hk i)]
    · simp [e]
  · intro q p hp
    by_cases e : q = t
    · simp only [e, if_true]
      exact mem_change (hp i)
    · simp [e]

theorem keeps_setNumber (h : Heap) (c i : Nat) : Keeps h (h.setNumber c i) := by
  unfold Heap.setNumber Heap.upd
  refine ⟨?_, ?_, ?_, ?_, ?_, ?_, ?_⟩
  · intro q; by_cases e : q = c <;> simp [e]
  · intro q; by_cases e : q = c <;> simp [e]
  · intro q; by_cases e : q = c <;> simp [e]
  · intro q; by_cases e : q = c <;> simp [e]
  · intro q; by_cases e : q = c <;> simp [e]
  · intro q k hk; by_cases e : q = c <;> simp [e]
  · intro q p hp; by_cases e : q = c <;> simp [e]

theorem number_setKid (h : Heap) (t i c q : Nat) : ((h.setKid t i c) q).number = (h q).number := by
  unfold Heap.setKid Heap.upd
  by_cases e : q = t <;> simp [e]

theorem number_setNumber (h : Heap) (c i q : Nat) :
    ((h.setNumber c i) q).number = if q = c then some i else (h q).number := by
  unfold Heap.setNumber Heap.upd
  by_cases e : q = c <;> simp [e]

theorem subtree_setNumber (h : Heap) (c i q j : Nat) :
    (h.setNumber c i).subtree q j = h.subtree q j := by
  unfold Heap.setNumber
  exact subtree_upd _ _ _ (by intro n; rfl) _ _

theorem getElem?_getD {l : List Nat} {i : Nat} (hi : i < l.length) : l[i]? = some (l.getD i 0) := by
  rw [List.getD_eq_getElem?_getD, List.getElem?_eq_getElem hi]
  rfl

theorem shiftUp_eq (t n : Nat) (L : Nat → Nat) : ∀ (k : Nat) (h : Heap),
    (∀ i, n ≤ i → i < n + k → h.subtree t i = some (L i)) →
    (∀ i j, n ≤ i → i < n + k → n ≤ j → j < n + k → L i = L j → i = j) →
    ∃ h', h.shiftUp t n k = some h' ∧ Keeps h h' ∧
      (∀ q i, h'.subtree q i =
        if q = t ∧ n < i ∧ i ≤ n + k then some (L (i - 1)) else h.subtree q i) ∧
      (∀ i, n ≤ i → i < n + k → (h' (L i)).number = some (i + 1)) ∧
      (∀ c, (∀ i, n ≤ i → i < n + k → c ≠ L i) → (h' c).number = (h c).number) := by
  intro k
  induction k with
  | zero =>
    intro h _ _
    refine ⟨h, rfl, Keeps.refl h, ?_, by intros; omega, by intros; rfl⟩
    intro q i
    rw [if_neg (by omega)]
  | succ k ih =>
    intro h hs hinj
    have hc := hs (n + k) (by omega) (by omega)
    obtain ⟨h', e1, e2, e3, e4, e5⟩ :=
      ih ((h.setKid t (n + k + 1) (L (n + k))).setNumber (L (n + k)) (n + k + 1))
        (by
          intro i h1 h2
          rw [subtree_setNumber, subtree_setKid, if_neg (by omega)]
          exact hs i h1 (by omega))
        (by intro i j a b c d; exact hinj i j a (by omega) c (by omega))
    refine ⟨h', ?_, ?_, ?_, ?_, ?_⟩
    · unfold Heap.shiftUp
      rw [hc, Option.bind_some]
      exact e1
    · exact ((keeps_setKid h _ _ _).trans (keeps_setNumber _ _ _)).trans e2
    · intro q i
      rw [e3]
      by_cases c1 : q = t ∧ n < i ∧ i ≤ n + k
      · rw [if_pos c1, if_pos (by omega)]
      · rw [if_neg c1, subtree_setNumber, subtree_setKid]
        by_cases c2 : q = t ∧ i = n + k + 1
        · rw [if_pos c2, if_pos (by omega)]
          have : i - 1 = n + k := by omega
          rw [this]
        · rw [if_neg c2, if_neg (by omega)]
    · intro i h1 h2
      by_cases c : i = n + k
      · subst c
        rw [e5 _ (by
          intro j j1 j2 e
          have := hinj (n + k) j (by omega) (by omega) j1 (by omega) e
          omega)]
        rw [number_setNumber, if_pos rfl]
      · exact e4 i h1 (by omega)
    · intro c hc
      rw [e5 c (by intro i i1 i2; exact hc i i1 (by omega)), number_setNumber,
        if_neg (hc (n + k) (by omega) (by omega)), number_setKid]

theorem shiftDown_eq (t : Nat) (L : Nat → Nat) : ∀ (k n : Nat) (h : Heap), 0 < n →
    (∀ i, n ≤ i → i < n + k → h.subtree t i = some (L i)) →
    (∀ i j, n ≤ i → i < n + k → n ≤ j → j < n + k → L i = L j → i = j) →
    ∃ h', h.shiftDown t n k = some h' ∧ Keeps h h' ∧
      (∀ q i, h'.subtree q i =
        if q = t ∧ n ≤ i + 1 ∧ i + 1 < n + k then some (L (i + 1)) else h.subtree q i) ∧
      (∀ i, n ≤ i → i < n + k → (h' (L i)).number = some (i - 1)) ∧
      (∀ c, (∀ i, n ≤ i → i < n + k → c ≠ L i) → (h' c).number = (h c).number) := by
  intro k
  induction k with
  | zero =>
    intro n h _ _ _
    refine ⟨h, rfl, Keeps.refl h, ?_, by intros; omega, by intros; rfl⟩
    intro q i
    rw [if_neg (by omega)]
  | succ k ih =>
    intro n h hn hs hinj
    have hc := hs n (by omega) (by omega)
    obtain ⟨h', e1, e2, e3, e4, e5⟩ :=
      ih (n + 1) ((h.setKid t (n - 1) (L n)).setNumber (L n) (n - 1)) (by omega)
        (by
          intro i h1 h2
          rw [subtree_setNumber, subtree_setKid, if_neg (by omega)]
          exact hs i (by omega) (by omega))
        (by intro i j a b c d; exact hinj i j (by omega) (by omega) (by omega) (by omega))
    refine ⟨h', ?_, ?_, ?_, ?_, ?_⟩
    · unfold Heap.shiftDown
      rw [hc, Option.bind_some]
      exact e1
    · exact ((keeps_setKid h _ _ _).trans (keeps_setNumber _ _ _)).trans e2
    · intro q i
      rw [e3]
      by_cases c1 : q = t ∧ n + 1 ≤ i + 1 ∧ i + 1 < n + 1 + k
      · rw [if_pos c1, if_pos (by omega)]
      · rw [if_neg c1, subtree_setNumber, subtree_setKid]
        by_cases c2 : q = t ∧ i = n - 1
        · rw [if_pos c2, if_pos (by omega)]
          have : i + 1 = n := by omega
          rw [this]
        · rw [if_neg c2, if_neg (by omega)]
    · intro i h1 h2
      by_cases c : i = n
      · subst c
        rw [e5 _ (by
          intro j j1 j2 e
          have := hinj i j (by omega) (by omega) (by omega) (by omega) e
          omega)]
        rw [number_setNumber, if_pos rfl]
      · exact e4 i (by omega) (by omega)
    · intro c hc
      rw [e5 c (by intro i i1 i2; exact hc i (by omega) (by omega)), number_setNumber,
        if_neg (hc n (by omega) (by omega)), number_setKid]

/-- The references are symbols. -/
def Tidy (h : Heap) : Prop := ∀ t c v, ((Z.tree c, v) : Z × Option Z) ∈ (h t).env → ∃ s, v = some (.sym s)

theorem Tidy.keeps {h h' : Heap} (ht : Tidy h) (k : Keeps h h') : Tidy h' := by
  intro t c v hm
  exact ht t c v ((k.mem t _ (by intro i; simp)).mp hm)

theorem Tidy.upd {h : Heap} (ht : Tidy h) (t : Nat) (f : Node → Node)
    (hf : ∀ n, (f n).env = n.env) : Tidy (h.upd t f) := by
  intro q c v hm
  refine ht q c v ?_
  unfold Heap.upd at hm
  split at hm
  · rwa [hf] at hm
  · exact hm

namespace Shows

variable {h : Heap} {F : Forest}

theorem get (sh : Shows h F) {t i c : Nat} (e : (F.kids t)[i]? = some c) : h.subtree t i = some c := by
  rw [sh.subtree t i (List.getElem?_eq_some_iff.mp e).1, e]

theorem root_iff (sh : Shows h F) (c : Nat) : F.Root c ↔ (h c).parent = none := by
  constructor
  · intro hr
    cases e : (h c).parent with
    | none => rfl
    | some t =>
      exfalso
      cases e2 : (h c).number with
      | none =>
        have := (sh.root c).mpr e2
        rw [e] at this
        simp at this
      | some i =>
        have := (sh.place c t i).mpr ⟨e, e2⟩
        exact hr t (List.mem_of_getElem? this)
  · intro hp t hm
    obtain ⟨i, hi⟩ := List.mem_iff_getElem?.mp hm
    have := ((sh.place c t i).mp hi).1
    rw [hp] at this
    simp at this

theorem unique (sh : Shows h F) {c t i t' i' : Nat} (e : (F.kids t)[i]? = some c)
    (e' : (F.kids t')[i']? = some c) : t = t' ∧ i = i' := by
  have h1 := (sh.place c t i).mp e
  have h2 := (sh.place c t' i').mp e'
  rw [h1.1, h1.2] at h2
  simpa using h2

end Shows

theorem insertIdx_length_append (l r : List Nat) (c : Nat) :
    (l ++ r).insertIdx l.length c = l ++ c :: r := by
  induction l with
  | nil => rfl
  | cons a l ih => simp [List.insertIdx_succ_cons, ih]

theorem insert_shows {h : Heap} {F : Forest} (sh : Shows h F) (ht : Tidy h) {t c : Nat}
    (hr : F.Root c) {n : Nat} (hn : n ≤ (F.kids t).length) :
    ∃ h', h.insertAsNth t c n = some h' ∧ Tidy h' ∧
      Shows h' (F.set t ((F.kids t).insertIdx n c) c none) := by
  have hp := (sh.root_iff c).mp hr
  have hnum := (sh.root c).mp hp
  have hcnt := sh.count t
  unfold Heap.insertAsNth
  rw [if_neg (by simp [hp, hnum])]
  simp only
  have ec : ((h.upd c fun x => { x with label := none }) t).count = (F.kids t).length := by
    rw [← hcnt]
    unfold Heap.upd
    by_cases e : t = c <;> simp [e]
  rw [ec]
  generalize hh2 : ((h.upd c fun x => { x with label := none }).upd t
      fun x => { x with count := (F.kids t).length + 1 }) = h2
  have s2 : ∀ q i, h2.subtree q i = h.subtree q i := by
    intro q i
    rw [← hh2, subtree_upd _ _ _ (by intro n; rfl), subtree_upd _ _ _ (by intro n; rfl)]
  have n2 : ∀ q, (h2 q).number = (h q).number ∧ (h2 q).parent = (h q).parent ∧
      (h2 q).label = (if q = c then none else (h q).label) ∧
      (h2 q).count = (if q = t then (F.kids t).length + 1 else (h q).count) := by
    intro q
    rw [← hh2]
    unfold Heap.upd
    by_cases e : q = t <;> by_cases e2 : q = c <;> simp [e, e2]
    · by_cases e3 : t = c <;> simp [e3]
    · by_cases e3 : t = c <;> simp_all
    · by_cases e3 : c = t <;> simp_all
  have t2 : Tidy h2 := by
    rw [← hh2]
    exact (ht.upd _ _ (by intro n; rfl)).upd _ _ (by intro n; rfl)
  have L : ∀ i, n ≤ i → i < n + ((F.kids t).length - n) →
      h2.subtree t i = some ((F.kids t).getD i 0) := by
    intro i h1 h2'
    rw [s2, sh.subtree t i (by omega)]
    exact getElem?_getD (by omega)
  have kd : ∀ i, i < (F.kids t).length → (F.kids t)[i]? = some ((F.kids t).getD i 0) := by
    intro i hi
    exact getElem?_getD hi
  obtain ⟨h3, e1, e2, e3, e4, e5⟩ := shiftUp_eq t n (fun i => (F.kids t).getD i 0)
    ((F.kids t).length - n) h2 L (by
      intro i j h1 h2' h3 h4 e
      have e : (F.kids t).getD i 0 = (F.kids t).getD j 0 := e
      have a := kd i (by omega)
      have b := kd j (by omega)
      rw [← e] at b
      exact (sh.unique a b).2)
  have hmin : min n (F.kids t).length = n := by omega
  rw [e1, Option.map_some, hmin]
  refine ⟨_, rfl, (t2.keeps (e2.trans (keeps_setKid h3 t n c))).upd _ _ (by intro n; rfl), ?_⟩
  -- the numbers of all trees
  have num : ∀ x i, x ≠ c → (h x).parent = some t → (h x).number = some i →
      (h3 x).number = some (if i < n then i else i + 1) := by
    intro x i _ hx1 hx2
    have hk := (sh.place x t i).mpr ⟨hx1, hx2⟩
    have hi : i < (F.kids t).length := (List.getElem?_eq_some_iff.mp hk).1
    by_cases ci : i < n
    · rw [if_pos ci, e5 x, (n2 x).1, hx2]
      intro j j1 j2 e
      have e : x = (F.kids t).getD j 0 := e
      have b := kd j (by omega)
      rw [← e] at b
      have := (sh.unique hk b).2
      omega
    · rw [if_neg ci]
      have := e4 i (by omega) (by omega)
      have e : (F.kids t).getD i 0 = x := by
        have := kd i hi
        rw [hk] at this
        simpa using this.symm
      simp only [e] at this
      exact this
  have num' : ∀ x, (h x).parent ≠ some t → (h3 x).number = (h x).number := by
    intro x hx
    rw [e5 x, (n2 x).1]
    intro j j1 j2 e
    have e : x = (F.kids t).getD j 0 := e
    have b := kd j (by omega)
    rw [← e] at b
    exact hx ((sh.place x t j).mp b).1
  have par : ∀ x, (h3 x).parent = (h x).parent := fun x => (e2.parent x).trans (n2 x).2.1
  have len : ((F.kids t).insertIdx n c).length = (F.kids t).length + 1 := by
    rw [List.length_insertIdx, if_pos hn]
  -- fields of the last heap
  have fin : ∀ x, ((((h3.setKid t n c).upd c fun x => { x with parent := some t, number := some n })) x)
      = if x = c then { (h3.setKid t n c) x with parent := some t, number := some n }
        else (h3.setKid t n c) x := by
    intro x
    unfold Heap.upd
    split <;> rfl
  have k3 := e2.trans (keeps_setKid h3 t n c)
  refine ⟨?_, ?_, ?_, ?_, ?_⟩
  · intro q
    have : ((((h3.setKid t n c).upd c fun x => { x with parent := some t, number := some n })) q).count
        = (h2 q).count := by
      rw [fin]
      split
      · exact k3.count q
      · exact k3.count q
    rw [this, (n2 q).2.2.2]
    unfold Forest.set
    simp only
    split
    · rw [len]
    · exact sh.count q
  · intro q i
    simp only [Forest.set]
    intro hi
    rw [subtree_upd _ _ _ (by intro n; rfl), subtree_setKid, e3, s2]
    by_cases hq : q = t
    · subst hq
      rw [if_pos rfl] at hi ⊢
      rw [len] at hi
      by_cases c1 : i = n
      · subst c1
        rw [if_pos ⟨rfl, rfl⟩, List.getElem?_insertIdx_self, if_pos (by omega)]
      · rw [if_neg (by omega)]
        by_cases c2 : i < n
        · rw [if_neg (by omega), List.getElem?_insertIdx_of_lt c2, sh.subtree q i (by omega)]
        · rw [if_pos (by omega), List.getElem?_insertIdx_of_gt (by omega)]
          exact (kd (i - 1) (by omega)).symm
    · rw [if_neg hq] at hi ⊢
      rw [if_neg (by tauto), if_neg (by tauto)]
      exact sh.subtree q i hi
  · intro x q i
    rw [fin]
    by_cases hx : x = c
    · subst hx
      rw [if_pos rfl]
      simp only [Option.some.injEq, Forest.set]
      constructor
      · intro hk
        by_cases hq : q = t
        · subst hq
          rw [if_pos rfl] at hk
          refine ⟨rfl, ?_⟩
          rcases Nat.lt_trichotomy i n with c1 | c1 | c1
          · rw [List.getElem?_insertIdx_of_lt c1] at hk
            exact absurd (List.mem_of_getElem? hk) (hr q)
          · exact c1.symm
          · rw [List.getElem?_insertIdx_of_gt c1] at hk
            exact absurd (List.mem_of_getElem? hk) (hr q)
        · rw [if_neg hq] at hk
          exact absurd (List.mem_of_getElem? hk) (hr q)
      · rintro ⟨rfl, rfl⟩
        rw [if_pos rfl, List.getElem?_insertIdx_self, if_pos (by omega)]
    · rw [if_neg hx, number_setKid, (keeps_setKid h3 t n c).parent, par]
      simp only [Forest.set]
      by_cases hq : q = t
      · subst hq
        rw [if_pos rfl]
        constructor
        · intro hk
          rcases Nat.lt_trichotomy i n with c1 | c1 | c1
          · rw [List.getElem?_insertIdx_of_lt c1] at hk
            have := (sh.place x q i).mp hk
            refine ⟨this.1, ?_⟩
            rw [num x i hx this.1 this.2, if_pos c1]
          · subst c1
            rw [List.getElem?_insertIdx_self, if_pos (by omega)] at hk
            simp only [Option.some.injEq] at hk
            exact absurd hk.symm hx
          · rw [List.getElem?_insertIdx_of_gt c1] at hk
            have := (sh.place x q (i - 1)).mp hk
            refine ⟨this.1, ?_⟩
            rw [num x (i - 1) hx this.1 this.2, if_neg (by omega)]
            congr 1; omega
        · rintro ⟨h1, h2⟩
          cases en : (h x).number with
          | none =>
            have := (sh.root x).mpr en
            rw [h1] at this
            simp at this
          | some j =>
            rw [num x j hx h1 en] at h2
            have hk := (sh.place x q j).mpr ⟨h1, en⟩
            simp only [Option.some.injEq] at h2
            by_cases cj : j < n
            · rw [if_pos cj] at h2
              subst h2
              rw [List.getElem?_insertIdx_of_lt cj]; exact hk
            · rw [if_neg cj] at h2
              subst h2
              rw [List.getElem?_insertIdx_of_gt (by omega)]; exact hk
      · rw [if_neg hq, sh.place x q i]
        by_cases hpt : (h x).parent = some t
        · rw [hpt]
          simp only [Option.some.injEq]
          constructor
          · rintro ⟨h1, -⟩; exact absurd h1.symm hq
          · rintro ⟨h1, -⟩; exact absurd h1.symm hq
        · rw [num' x hpt]
  · intro x
    rw [fin]
    by_cases hx : x = c
    · rw [if_pos hx]; simp
    · rw [if_neg hx, number_setKid, (keeps_setKid h3 t n c).parent, par]
      by_cases hpt : (h x).parent = some t
      · rw [hpt]
        cases en : (h x).number with
        | none =>
          have := (sh.root x).mpr en
          rw [hpt] at this
          simp at this
        | some j =>
          rw [num x j hx hpt en]; simp
      · rw [num' x hpt]; exact sh.root x
  · intro x
    have : ((((h3.setKid t n c).upd c fun x => { x with parent := some t, number := some n })) x).label
        = (h2 x).label := by
      rw [fin]
      split
      · exact k3.label x
      · exact k3.label x
    rw [this, (n2 x).2.2.1]
    simp only [Forest.set]
    split
    · rfl
    · exact sh.label x

end Verif.Zval
