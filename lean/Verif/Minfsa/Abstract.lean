import Verif.Minfsa.Model
import Mathlib.Tactic.ByContra
import Mathlib.Tactic.Tauto

/-! # The register and the path of the last word -/

namespace Verif.Minfsa

/-- The register. -/
abbrev Reg := List (Sig × Nat)

/-- A state on the path of the last word: its transitions but for the one along the path, and the
symbol that leads to it. -/
structure Node where
  id : Nat
  fin : Bool
  done : Row
  sym : Nat

/-- The words of a registered state. -/
inductive Acc (reg : Reg) : Nat → List Nat → Prop
  | nil {q : Nat} {r : Row} (h : ((true, r), q) ∈ reg) : Acc reg q []
  | cons {q : Nat} {b : Bool} {r : Row} {a t : Nat} {w : List Nat} (h : ((b, r), q) ∈ reg)
      (hx : (a, t) ∈ r) (hr : Acc reg t w) : Acc reg q (a :: w)

/-- The words of a state of the path that leave the path there. -/
def Own (reg : Reg) (x : Node) (w : List Nat) : Prop :=
  (w = [] ∧ x.fin = true) ∨ ∃ a t v, w = a :: v ∧ (a, t) ∈ x.done ∧ Acc reg t v

/-- The words of a path. -/
def PathAcc (reg : Reg) : List Node → List Nat → Prop
  | [], _ => False
  | [x], w => Own reg x w
  | x :: y :: l, w => Own reg x w ∨ ∃ v, w = y.sym :: v ∧ PathAcc reg (y :: l) v

/-- A way in the register. -/
inductive Reach (reg : Reg) : Nat → Nat → Prop
  | refl (q : Nat) : Reach reg q q
  | step {q s : Nat} {e : Sig × Nat} {d : Nat × Nat} (h : e ∈ reg) (he : e.2 = q) (hd : d ∈ e.1.2)
      (hr : Reach reg d.2 s) : Reach reg q s

def Known (reg : Reg) (t : Nat) : Prop := ∃ e ∈ reg, e.2 = t

/-- What is known of the register. -/
structure RegOK (reg : Reg) : Prop where
  ids : ∀ e ∈ reg, ∀ e' ∈ reg, e.2 = e'.2 → e = e'
  sigs : ∀ e ∈ reg, ∀ e' ∈ reg, e.1 = e'.1 → e = e'
  closed : ∀ e ∈ reg, ∀ d ∈ e.1.2, Known reg d.2
  rank : ∃ rank : Nat → Nat, ∀ e ∈ reg, ∀ d ∈ e.1.2, rank d.2 < rank e.2
  rows : ∀ e ∈ reg, e.1.2.Pairwise fun x y => x.1 < y.1
  useful : ∀ e ∈ reg, e.1.1 = true ∨ e.1.2 ≠ []

/-- What is known of the register and the path. -/
structure Inv (reg : Reg) (path : List Node) (n : Nat) : Prop where
  ok : RegOK reg
  below : ∀ e ∈ reg, e.2 < n
  ids : path.Pairwise fun x y => x.id < y.id
  idlt : ∀ x ∈ path, x.id < n
  apart : ∀ x ∈ path, ∀ e ∈ reg, e.2 ≠ x.id
  known : ∀ x ∈ path, ∀ d ∈ x.done, Known reg d.2
  sorted : ∀ x ∈ path, x.done.Pairwise fun x y => x.1 < y.1
  next : ∀ pre x y post, path = pre ++ x :: y :: post → ∀ d ∈ x.done, d.1 < y.sym
  i1 : ∀ x ∈ path, ∀ e ∈ reg, e.2 < x.id → ∀ d ∈ e.1.2, d.2 < x.id
  i2 : ∀ pre x post, path = pre ++ x :: post → ∀ e ∈ reg, x.id < e.2 →
    ∃ y ∈ x :: post, ∃ d ∈ y.done, Reach reg d.2 e.2
  nodup : (reg.map Prod.snd).Nodup
  count : reg.length + path.length = n

theorem Reach.trans {reg : Reg} {q s t : Nat} (h : Reach reg q s) (h' : Reach reg s t) :
    Reach reg q t := by
  induction h with
  | refl => exact h'
  | step h he hd _ ih => exact .step h he hd (ih h')

theorem Reach.mono {reg reg' : Reg} (hm : ∀ e ∈ reg, e ∈ reg') {q s : Nat} (h : Reach reg q s) :
    Reach reg' q s := by
  induction h with
  | refl => exact .refl _
  | step h he hd _ ih => exact .step (hm _ h) he hd ih

theorem Reach.rank {reg : Reg} {rank : Nat → Nat} (hr : ∀ e ∈ reg, ∀ d ∈ e.1.2, rank d.2 < rank e.2)
    {q s : Nat} (h : Reach reg q s) : rank s ≤ rank q := by
  induction h with
  | refl => exact Nat.le_refl _
  | step h he hd _ ih => have := hr _ h _ hd; rw [he] at this; omega

theorem Known.mono {reg reg' : Reg} (hm : ∀ e ∈ reg, e ∈ reg') {t : Nat} (h : Known reg t) :
    Known reg' t := by
  obtain ⟨e, h1, h2⟩ := h
  exact ⟨e, hm e h1, h2⟩

/-- Going down stays below a state of the path. -/
theorem Inv.reach_lt {reg : Reg} {path : List Node} {n : Nat} (h : Inv reg path n) {x : Node}
    (hx : x ∈ path) {q s : Nat} (hr : Reach reg q s) (hq : q < x.id) : s < x.id := by
  induction hr with
  | refl => exact hq
  | step he1 he2 hd _ ih => exact ih (h.i1 x hx _ he1 (by rw [he2]; exact hq) _ hd)

/-! ## A state leaves the path -/

/-- The target, the register and the number of states after the state leaves the path. -/
def regStep (reg : Reg) (n : Nat) (y : Node) : Nat × Reg × Nat :=
  match reg.lookup (y.fin, y.done) with
  | some e => (e, reg, n - 1)
  | none => (y.id, reg ++ [((y.fin, y.done), y.id)], n)

theorem lookup_some {α β : Type} [BEq α] [LawfulBEq α] {l : List (α × β)} {a : α} {b : β}
    (h : l.lookup a = some b) : (a, b) ∈ l := by
  induction l with
  | nil => simp at h
  | cons x l ih =>
    rw [List.lookup_cons] at h
    by_cases c : (a == x.1) = true
    · rw [c] at h
      simp only [Option.some.injEq] at h
      rw [beq_iff_eq] at c
      subst c; subst h
      simp
    · rw [Bool.not_eq_true] at c
      rw [c] at h
      exact List.mem_cons_of_mem _ (ih h)

theorem lookup_none {α β : Type} [BEq α] [LawfulBEq α] {l : List (α × β)} {a : α}
    (h : l.lookup a = none) : ∀ e ∈ l, e.1 ≠ a := by
  induction l with
  | nil => simp
  | cons x l ih =>
    rw [List.lookup_cons] at h
    by_cases c : (a == x.1) = true
    · rw [c] at h; simp at h
    · rw [Bool.not_eq_true] at c
      rw [c] at h
      intro e he
      rcases List.mem_cons.1 he with rfl | he
      · intro e; rw [e] at c; simp at c
      · exact ih h e he

theorem last_split {α : Type} {pre : List α} {x y : α} {a z : α} {b c : List α}
    (h : pre ++ [x, y] = b ++ a :: z :: c) : (c = [] ∧ a = x ∧ z = y ∧ b = pre) ∨
      ∃ c', c = c' ++ [y] ∧ pre ++ [x] = b ++ a :: z :: c' := by
  rcases List.eq_nil_or_concat c with rfl | ⟨c', u, rfl⟩
  · left
    obtain ⟨h1, h2⟩ := List.append_inj' h rfl
    simp only [List.cons.injEq, and_true] at h2
    exact ⟨rfl, h2.1.symm, h2.2.symm, h1.symm⟩
  · right
    rw [List.concat_eq_append] at h ⊢
    have e1 : pre ++ [x, y] = (pre ++ [x]) ++ [y] := by simp
    have e2 : b ++ a :: z :: (c' ++ [u]) = (b ++ a :: z :: c') ++ [u] := by simp
    rw [e1, e2] at h
    obtain ⟨h1, h2⟩ := List.append_inj' h rfl
    simp only [List.cons.injEq, and_true] at h2
    exact ⟨c', by rw [h2], h1⟩

theorem end_split {α : Type} {pre : List α} {x a : α} {b c : List α} (h : pre ++ [x] = b ++ a :: c) :
    (c = [] ∧ a = x ∧ b = pre) ∨ ∃ c', c = c' ++ [x] ∧ pre = b ++ a :: c' := by
  rcases List.eq_nil_or_concat c with rfl | ⟨c', u, rfl⟩
  · left
    obtain ⟨h1, h2⟩ := List.append_inj' h rfl
    simp only [List.cons.injEq, and_true] at h2
    exact ⟨rfl, h2.symm, h1.symm⟩
  · right
    rw [List.concat_eq_append] at h ⊢
    have e2 : b ++ a :: (c' ++ [u]) = (b ++ a :: c') ++ [u] := by simp
    rw [e2] at h
    obtain ⟨h1, h2⟩ := List.append_inj' h rfl
    simp only [List.cons.injEq, and_true] at h2
    exact ⟨c', by rw [h2], h1⟩

/-- The state along the path with the transition to the target. -/
def Node.close (x y : Node) (t : Nat) : Node := { x with done := x.done ++ [(y.sym, t)] }

theorem le_sum_mem (rank : Nat → Nat) (r : Row) (d : Nat × Nat) (hd : d ∈ r) :
    rank d.2 ≤ (r.map fun d => rank d.2).sum := by
  induction r with
  | nil => simp at hd
  | cons e r ih =>
    simp only [List.map_cons, List.sum_cons]
    rcases List.mem_cons.1 hd with rfl | hd
    · omega
    · have := ih hd; omega

/-- The last state is new: it is registered. -/
theorem Inv.register {reg : Reg} {pre : List Node} {x y : Node} {n : Nat}
    (h : Inv reg (pre ++ [x, y]) n) (hu : y.fin = true ∨ y.done ≠ [])
    (hn : ∀ e ∈ reg, e.1 ≠ (y.fin, y.done)) :
    Inv (reg ++ [((y.fin, y.done), y.id)]) (pre ++ [x.close y y.id]) n := by
  have hy : y ∈ pre ++ [x, y] := by simp
  have hx : x ∈ pre ++ [x, y] := by simp
  have hpre : ∀ z ∈ pre, z ∈ pre ++ [x, y] := fun z hz => by simp [hz]
  have hids := h.ids
  rw [List.pairwise_append] at hids
  have hxy : x.id < y.id := by
    have := hids.2.1
    simp only [List.pairwise_cons, List.mem_singleton, forall_eq] at this
    exact this.1
  have hprey : ∀ z ∈ pre, z.id < y.id := fun z hz => hids.2.2 z hz y (by simp)
  have hprex : ∀ z ∈ pre, z.id < x.id := fun z hz => hids.2.2 z hz x (by simp)
  have hm : ∀ e ∈ reg, e ∈ reg ++ [((y.fin, y.done), y.id)] := fun e he => by simp [he]
  have old : ∀ z, z ∈ pre ++ [x.close y y.id] → ∃ z' ∈ pre ++ [x], z'.id = z.id := by
    intro z hz
    rcases List.mem_append.1 hz with hz | hz
    · exact ⟨z, by simp [hz], rfl⟩
    · simp only [List.mem_singleton] at hz
      subst hz
      exact ⟨x, by simp, rfl⟩
  have oldlt : ∀ z, z ∈ pre ++ [x.close y y.id] → z.id < y.id := by
    intro z hz
    obtain ⟨z', h1, h2⟩ := old z hz
    rw [← h2]
    rcases List.mem_append.1 h1 with h1 | h1
    · exact hprey z' h1
    · simp only [List.mem_singleton] at h1; subst h1; exact hxy
  refine ⟨⟨?_, ?_, ?_, ?_, ?_, ?_⟩, ?_, ?_, ?_, ?_, ?_, ?_, ?_, ?_, ?_, ?_, by
    have := h.count
    simp only [List.length_append, List.length_cons, List.length_nil] at this ⊢
    omega⟩
  · intro e he e' he' hee
    simp only [List.mem_append, List.mem_singleton] at he he'
    rcases he with he | rfl <;> rcases he' with he' | rfl
    · exact h.ok.ids e he e' he' hee
    · exact absurd hee (h.apart y hy e he)
    · exact absurd hee.symm (h.apart y hy e' he')
    · rfl
  · intro e he e' he' hee
    simp only [List.mem_append, List.mem_singleton] at he he'
    rcases he with he | rfl <;> rcases he' with he' | rfl
    · exact h.ok.sigs e he e' he' hee
    · exact absurd hee (hn e he)
    · exact absurd hee.symm (hn e' he')
    · rfl
  · intro e he d hd
    simp only [List.mem_append, List.mem_singleton] at he
    rcases he with he | rfl
    · exact (h.ok.closed e he d hd).mono hm
    · exact (h.known y hy d hd).mono hm
  · obtain ⟨rank, hr⟩ := h.ok.rank
    refine ⟨fun q => if q = y.id then ((y.done.map fun d => rank d.2).sum + 1) else rank q, ?_⟩
    have ne : ∀ t, Known reg t → t ≠ y.id := by
      rintro t ⟨e, h1, rfl⟩
      exact h.apart y hy e h1
    intro e he d hd
    simp only [List.mem_append, List.mem_singleton] at he
    rcases he with he | rfl
    · simp only [ne _ (h.ok.closed e he d hd), h.apart y hy e he, if_false]
      exact hr e he d hd
    · simp only [ne _ (h.known y hy d hd), if_false, if_true]
      have := le_sum_mem rank y.done d hd
      omega
  · intro e he
    simp only [List.mem_append, List.mem_singleton] at he
    rcases he with he | rfl
    · exact h.ok.rows e he
    · exact h.sorted y hy
  · intro e he
    simp only [List.mem_append, List.mem_singleton] at he
    rcases he with he | rfl
    · exact h.ok.useful e he
    · exact hu
  · intro e he
    simp only [List.mem_append, List.mem_singleton] at he
    rcases he with he | rfl
    · exact h.below e he
    · exact h.idlt y hy
  · rw [List.pairwise_append]
    refine ⟨hids.1, by simp, fun z hz u hu => ?_⟩
    simp only [List.mem_singleton] at hu
    subst hu
    exact hprex z hz
  · intro z hz
    exact Nat.lt_trans (oldlt z hz) (h.idlt y hy)
  · intro z hz e he
    simp only [List.mem_append, List.mem_singleton] at he
    rcases he with he | rfl
    · obtain ⟨z', h1, h2⟩ := old z hz
      rw [← h2]
      refine h.apart z' ?_ e he
      simp only [List.mem_append, List.mem_cons, List.not_mem_nil, or_false] at h1 ⊢
      rcases h1 with h1 | h1 <;> simp [h1]
    · have := oldlt z hz
      simp only; omega
  · intro z hz d hd
    rcases List.mem_append.1 hz with hz | hz
    · exact (h.known z (hpre z hz) d hd).mono hm
    · simp only [List.mem_singleton] at hz
      subst hz
      simp only [Node.close, List.mem_append, List.mem_singleton] at hd
      rcases hd with hd | rfl
      · exact (h.known x hx d hd).mono hm
      · exact ⟨((y.fin, y.done), y.id), by simp, rfl⟩
  · intro z hz
    rcases List.mem_append.1 hz with hz | hz
    · exact h.sorted z (hpre z hz)
    · simp only [List.mem_singleton] at hz
      subst hz
      simp only [Node.close]
      rw [List.pairwise_append]
      refine ⟨h.sorted x hx, by simp, fun d hd u hu => ?_⟩
      simp only [List.mem_singleton] at hu
      subst hu
      exact h.next pre x y [] rfl d hd
  · intro pre' z u post hp d hd
    rcases end_split hp with ⟨hc, _⟩ | ⟨c', hc, hb⟩
    · cases hc
    · cases c' with
      | nil =>
        simp only [List.nil_append, List.cons.injEq] at hc
        obtain ⟨rfl, rfl⟩ := hc
        exact h.next pre' z x [y] (by rw [hb]; simp) d hd
      | cons u' c' =>
        simp only [List.cons_append, List.cons.injEq] at hc
        obtain ⟨rfl, rfl⟩ := hc
        exact h.next pre' z u (c' ++ [x, y]) (by rw [hb]; simp) d hd
  · intro z hz e he hlt d hd
    simp only [List.mem_append, List.mem_singleton] at he
    rcases he with he | rfl
    · obtain ⟨z', h1, h2⟩ := old z hz
      rw [← h2] at hlt ⊢
      refine h.i1 z' ?_ e he hlt d hd
      simp only [List.mem_append, List.mem_cons, List.not_mem_nil, or_false] at h1 ⊢
      rcases h1 with h1 | h1 <;> simp [h1]
    · have := oldlt z hz
      simp only at hlt
      omega
  · intro pre' z post hp e he hlt
    have hlast : ∃ post0, (x.close y y.id) ∈ z :: post ∧ pre ++ [x] = pre' ++ post0 ∧
        (∀ v ∈ post0, v = x ∨ v ∈ z :: post) ∧ ∃ z0 post1, post0 = z0 :: post1 ∧ z0.id = z.id := by
      rcases end_split hp with ⟨rfl, rfl, rfl⟩ | ⟨c', rfl, hb⟩
      · exact ⟨[x], by simp, rfl, by simp, x, [], rfl, rfl⟩
      · refine ⟨z :: c' ++ [x], by simp, by rw [hb]; simp, ?_, z, c' ++ [x], rfl, rfl⟩
        intro v hv
        simp only [List.cons_append, List.mem_cons, List.mem_append, List.mem_singleton,
          List.not_mem_nil, or_false] at hv ⊢
        rcases hv with rfl | hv | hv
        · simp
        · simp [hv]
        · simp [hv]
    obtain ⟨post0, h1, h2, h3, z0, post1, h4, h5⟩ := hlast
    simp only [List.mem_append, List.mem_singleton] at he
    have last : ∀ s, Reach (reg ++ [((y.fin, y.done), y.id)]) y.id s →
        ∃ u ∈ z :: post, ∃ d ∈ u.done, Reach (reg ++ [((y.fin, y.done), y.id)]) d.2 s := by
      intro s hs
      exact ⟨_, h1, (y.sym, y.id), by simp [Node.close], hs⟩
    rcases he with he | rfl
    · obtain ⟨u, k1, d, k2, k3⟩ := h.i2 pre' z0 (post1 ++ [y]) (by
        have : pre ++ [x, y] = (pre ++ [x]) ++ [y] := by simp
        rw [this, h2, h4]; simp) e he (by rw [h5]; exact hlt)
      have k1' : u = y ∨ u ∈ post0 := by
        rw [h4]
        simp only [List.mem_cons, List.mem_append, List.not_mem_nil, or_false] at k1 ⊢
        tauto
      rcases k1' with rfl | k1
      · exact last _ (.step (e := ((u.fin, u.done), u.id)) (by simp) rfl k2 (k3.mono hm))
      · rcases h3 u k1 with rfl | k1
        · exact ⟨_, h1, d, by simp [Node.close, k2], k3.mono hm⟩
        · exact ⟨u, k1, d, k2, k3.mono hm⟩
    · exact last _ (.refl _)
  · rw [List.map_append, List.nodup_append]
    refine ⟨h.nodup, by simp, ?_⟩
    intro a ha b hb
    simp only [List.map_cons, List.map_nil, List.mem_singleton] at hb
    obtain ⟨e, he, rfl⟩ := List.mem_map.1 ha
    rw [hb]
    exact h.apart y hy e he

/-- The last state is replaced: all registered states have smaller numbers. -/
theorem Inv.smaller {reg : Reg} {pre : List Node} {x y : Node} {n q : Nat}
    (h : Inv reg (pre ++ [x, y]) n) (hq : ((y.fin, y.done), q) ∈ reg) : ∀ e ∈ reg, e.2 < y.id := by
  have hy : y ∈ pre ++ [x, y] := by simp
  have i2 := h.i2 (pre ++ [x]) y [] (by simp)
  have hqy : q < y.id := by
    by_contra c
    have hne := h.apart y hy _ hq
    obtain ⟨u, k1, d, k2, k3⟩ := i2 _ hq (by simp only at *; omega)
    simp only [List.mem_singleton] at k1
    subst k1
    obtain ⟨rank, hr⟩ := h.ok.rank
    have a1 := hr _ hq d k2
    have a2 := k3.rank hr
    simp only at a1 a2
    omega
  intro e he
  by_contra c
  have hne := h.apart y hy e he
  obtain ⟨u, k1, d, k2, k3⟩ := i2 e he (by omega)
  simp only [List.mem_singleton] at k1
  subst k1
  have := h.reach_lt hy k3 (h.i1 u hy _ hq hqy d k2)
  omega

/-- The last state is replaced. -/
theorem Inv.replace {reg : Reg} {pre : List Node} {x y : Node} {n q : Nat}
    (h : Inv reg (pre ++ [x, y]) n) (hq : ((y.fin, y.done), q) ∈ reg) :
    Inv reg (pre ++ [x.close y q]) (n - 1) := by
  have hs := h.smaller hq
  have hy : y ∈ pre ++ [x, y] := by simp
  have hx : x ∈ pre ++ [x, y] := by simp
  have hpre : ∀ z ∈ pre, z ∈ pre ++ [x, y] := fun z hz => by simp [hz]
  have hids := h.ids
  rw [List.pairwise_append] at hids
  have hxy : x.id < y.id := by
    have := hids.2.1
    simp only [List.pairwise_cons, List.mem_singleton, forall_eq] at this
    exact this.1
  have hprey : ∀ z ∈ pre, z.id < y.id := fun z hz => hids.2.2 z hz y (by simp)
  have hprex : ∀ z ∈ pre, z.id < x.id := fun z hz => hids.2.2 z hz x (by simp)
  have hyn := h.idlt y hy
  have old : ∀ z, z ∈ pre ++ [x.close y q] → ∃ z' ∈ pre ++ [x], z'.id = z.id := by
    intro z hz
    rcases List.mem_append.1 hz with hz | hz
    · exact ⟨z, by simp [hz], rfl⟩
    · simp only [List.mem_singleton] at hz
      subst hz
      exact ⟨x, by simp, rfl⟩
  have oldlt : ∀ z, z ∈ pre ++ [x.close y q] → z.id < y.id := by
    intro z hz
    obtain ⟨z', h1, h2⟩ := old z hz
    rw [← h2]
    rcases List.mem_append.1 h1 with h1 | h1
    · exact hprey z' h1
    · simp only [List.mem_singleton] at h1; subst h1; exact hxy
  refine ⟨h.ok, ?_, ?_, ?_, ?_, ?_, ?_, ?_, ?_, ?_, h.nodup, by
    have := h.count
    simp only [List.length_append, List.length_cons, List.length_nil] at this ⊢
    omega⟩
  · intro e he
    have := hs e he
    omega
  · rw [List.pairwise_append]
    refine ⟨hids.1, by simp, fun z hz u hu => ?_⟩
    simp only [List.mem_singleton] at hu
    subst hu
    exact hprex z hz
  · intro z hz
    have := oldlt z hz
    omega
  · intro z hz e he
    obtain ⟨z', h1, h2⟩ := old z hz
    rw [← h2]
    refine h.apart z' ?_ e he
    simp only [List.mem_append, List.mem_cons, List.not_mem_nil, or_false] at h1 ⊢
    rcases h1 with h1 | h1 <;> simp [h1]
  · intro z hz d hd
    rcases List.mem_append.1 hz with hz | hz
    · exact h.known z (hpre z hz) d hd
    · simp only [List.mem_singleton] at hz
      subst hz
      simp only [Node.close, List.mem_append, List.mem_singleton] at hd
      rcases hd with hd | rfl
      · exact h.known x hx d hd
      · exact ⟨_, hq, rfl⟩
  · intro z hz
    rcases List.mem_append.1 hz with hz | hz
    · exact h.sorted z (hpre z hz)
    · simp only [List.mem_singleton] at hz
      subst hz
      simp only [Node.close]
      rw [List.pairwise_append]
      refine ⟨h.sorted x hx, by simp, fun d hd u hu => ?_⟩
      simp only [List.mem_singleton] at hu
      subst hu
      exact h.next pre x y [] rfl d hd
  · intro pre' z u post hp d hd
    rcases end_split hp with ⟨hc, _⟩ | ⟨c', hc, hb⟩
    · cases hc
    · cases c' with
      | nil =>
        simp only [List.nil_append, List.cons.injEq] at hc
        obtain ⟨rfl, rfl⟩ := hc
        exact h.next pre' z x [y] (by rw [hb]; simp) d hd
      | cons u' c' =>
        simp only [List.cons_append, List.cons.injEq] at hc
        obtain ⟨rfl, rfl⟩ := hc
        exact h.next pre' z u (c' ++ [x, y]) (by rw [hb]; simp) d hd
  · intro z hz e he hlt d hd
    obtain ⟨z', h1, h2⟩ := old z hz
    rw [← h2] at hlt ⊢
    refine h.i1 z' ?_ e he hlt d hd
    simp only [List.mem_append, List.mem_cons, List.not_mem_nil, or_false] at h1 ⊢
    rcases h1 with h1 | h1 <;> simp [h1]
  · intro pre' z post hp e he hlt
    have hlast : ∃ post0, (x.close y q) ∈ z :: post ∧ pre ++ [x] = pre' ++ post0 ∧
        (∀ v ∈ post0, v = x ∨ v ∈ z :: post) ∧ ∃ z0 post1, post0 = z0 :: post1 ∧ z0.id = z.id := by
      rcases end_split hp with ⟨rfl, rfl, rfl⟩ | ⟨c', rfl, hb⟩
      · exact ⟨[x], by simp, rfl, by simp, x, [], rfl, rfl⟩
      · refine ⟨z :: c' ++ [x], by simp, by rw [hb]; simp, ?_, z, c' ++ [x], rfl, rfl⟩
        intro v hv
        simp only [List.cons_append, List.mem_cons, List.mem_append, List.mem_singleton,
          List.not_mem_nil, or_false] at hv ⊢
        rcases hv with rfl | hv | hv
        · simp
        · simp [hv]
        · simp [hv]
    obtain ⟨post0, h1, h2, h3, z0, post1, h4, h5⟩ := hlast
    obtain ⟨u, k1, d, k2, k3⟩ := h.i2 pre' z0 (post1 ++ [y]) (by
      have : pre ++ [x, y] = (pre ++ [x]) ++ [y] := by simp
      rw [this, h2, h4]; simp) e he (by rw [h5]; exact hlt)
    have k1' : u = y ∨ u ∈ post0 := by
      rw [h4]
      simp only [List.mem_cons, List.mem_append, List.not_mem_nil, or_false] at k1 ⊢
      tauto
    rcases k1' with rfl | k1
    · exact ⟨_, h1, (u.sym, q), by simp [Node.close], .step hq rfl k2 k3⟩
    · rcases h3 u k1 with rfl | k1
      · exact ⟨_, h1, d, by simp [Node.close, k2], k3⟩
      · exact ⟨u, k1, d, k2, k3⟩

/-! ## Words -/

theorem acc_append {reg : Reg} (hr : RegOK reg) {e : Sig × Nat} (he : ¬ Known reg e.2) {q : Nat}
    (hq : Known reg q) (w : List Nat) : Acc (reg ++ [e]) q w ↔ Acc reg q w := by
  constructor
  · intro h
    induction h with
    | @nil q r h =>
      simp only [List.mem_append, List.mem_singleton] at h
      rcases h with h | rfl
      · exact .nil h
      · exact absurd hq he
    | @cons q b r a t w h hx _ ih =>
      simp only [List.mem_append, List.mem_singleton] at h
      rcases h with h | rfl
      · exact .cons h hx (ih (hr.closed _ h _ hx))
      · exact absurd hq he
  · intro h
    induction h with
    | nil h => exact .nil (List.mem_append_left _ h)
    | cons h hx _ ih => exact .cons (List.mem_append_left _ h) hx (ih (hr.closed _ h _ hx))

theorem acc_iff {reg : Reg} (hr : RegOK reg) {b : Bool} {r : Row} {q : Nat} (h : ((b, r), q) ∈ reg)
    (w : List Nat) : Acc reg q w ↔ (w = [] ∧ b = true) ∨ ∃ a t v, w = a :: v ∧ (a, t) ∈ r ∧ Acc reg t v := by
  constructor
  · intro ha
    cases ha with
    | nil h' =>
      have := hr.ids _ h _ h' rfl
      simp only [Prod.mk.injEq] at this
      exact .inl ⟨rfl, this.1.1⟩
    | cons h' hx ha =>
      have := hr.ids _ h _ h' rfl
      simp only [Prod.mk.injEq] at this
      exact .inr ⟨_, _, _, rfl, by rw [this.1.2]; exact hx, ha⟩
  · rintro (⟨rfl, rfl⟩ | ⟨a, t, v, rfl, hx, ha⟩)
    · exact .nil h
    · exact .cons h hx ha

/-- Two registered states with the same words are one. -/
theorem distinct {reg : Reg} (hr : RegOK reg) (e e' : Sig × Nat) (he : e ∈ reg) (he' : e' ∈ reg)
    (h : ∀ w, Acc reg e.2 w ↔ Acc reg e'.2 w) : e = e' := by
  obtain ⟨rank, hrank⟩ := hr.rank
  have live : ∀ n, ∀ e ∈ reg, rank e.2 ≤ n → ∃ w, Acc reg e.2 w := by
    intro n
    induction n with
    | zero =>
      intro e he hn
      obtain ⟨⟨b, r⟩, q⟩ := e
      rcases hr.useful _ he with hb | hb
      · simp only at hb; subst hb; exact ⟨[], .nil he⟩
      · cases r with
        | nil => simp at hb
        | cons d r =>
          have := hrank _ he d (by simp)
          simp only at this hn; omega
    | succ n ih =>
      intro e he hn
      obtain ⟨⟨b, r⟩, q⟩ := e
      rcases hr.useful _ he with hb | hb
      · simp only at hb; subst hb; exact ⟨[], .nil he⟩
      · cases r with
        | nil => simp at hb
        | cons d r =>
          have hlt := hrank _ he d (by simp)
          obtain ⟨e2, h1, h2⟩ := hr.closed _ he d (by simp)
          obtain ⟨w, hw⟩ := ih e2 h1 (by rw [h2]; simp only at hlt hn; omega)
          rw [h2] at hw
          exact ⟨d.1 :: w, .cons he (by simp) hw⟩
  have main : ∀ n, ∀ e ∈ reg, ∀ e' ∈ reg, rank e.2 ≤ n → (∀ w, Acc reg e.2 w ↔ Acc reg e'.2 w) →
      e = e' := by
    intro n
    induction n with
    | zero =>
      intro e he e' he' hn hw
      obtain ⟨⟨b, r⟩, q⟩ := e
      obtain ⟨⟨b', r'⟩, q'⟩ := e'
      have hr0 : r = [] := by
        cases r with
        | nil => rfl
        | cons d r =>
          have := hrank _ he d (by simp)
          simp only at this hn; omega
      subst hr0
      have hr0' : r' = [] := by
        cases r' with
        | nil => rfl
        | cons d r' =>
          exfalso
          obtain ⟨e2, h1, h2⟩ := hr.closed _ he' d (by simp)
          obtain ⟨w, hv⟩ := live _ e2 h1 (Nat.le_refl _)
          rw [h2] at hv
          have := (hw (d.1 :: w)).2 (.cons he' (by simp) hv)
          rw [acc_iff hr he] at this
          simp at this
      subst hr0'
      apply hr.sigs _ he _ he'
      have := hw []
      rw [acc_iff hr he, acc_iff hr he'] at this
      simp only [true_and, List.nil_eq, reduceCtorEq, false_and, exists_false, or_false] at this
      have : b = b' := by cases b <;> cases b' <;> simp_all
      simp [this]
    | succ n ih =>
      intro e he e' he' hn hw
      obtain ⟨⟨b, r⟩, q⟩ := e
      obtain ⟨⟨b', r'⟩, q'⟩ := e'
      apply hr.sigs _ he _ he'
      have hb : b = b' := by
        have := hw []
        rw [acc_iff hr he, acc_iff hr he'] at this
        simp only [true_and, List.nil_eq, reduceCtorEq, false_and, exists_false, or_false] at this
        cases b <;> cases b' <;> simp_all
      have s1 := hr.rows _ he
      have s2 := hr.rows _ he'
      have un : ∀ {r : Row} (_ : r.Pairwise fun x y => x.1 < y.1) {a t t' : Nat}, (a, t) ∈ r →
          (a, t') ∈ r → t = t' := by
        intro r hs a t t' h1 h2
        induction r with
        | nil => simp at h1
        | cons d r ih =>
          rw [List.pairwise_cons] at hs
          rcases List.mem_cons.1 h1 with k1 | k1 <;> rcases List.mem_cons.1 h2 with k2 | k2
          · rw [← k1] at k2; simp only [Prod.mk.injEq, true_and] at k2; exact k2.symm
          · have := hs.1 _ k2; rw [← k1] at this; simp at this
          · have := hs.1 _ k1; rw [← k2] at this; simp at this
          · exact ih hs.2 k1 k2
      have step : ∀ a t v, (a, t) ∈ r → (Acc reg t v ↔ Acc reg q (a :: v)) := by
        intro a t v hx
        rw [acc_iff hr he]
        simp only [reduceCtorEq, false_and, false_or, List.cons.injEq]
        constructor
        · intro ha; exact ⟨a, t, v, ⟨rfl, rfl⟩, hx, ha⟩
        · rintro ⟨a', t', v', ⟨rfl, rfl⟩, hx', ha⟩
          rw [un s1 hx hx']; exact ha
      have step' : ∀ a t v, (a, t) ∈ r' → (Acc reg t v ↔ Acc reg q' (a :: v)) := by
        intro a t v hx
        rw [acc_iff hr he']
        simp only [reduceCtorEq, false_and, false_or, List.cons.injEq]
        constructor
        · intro ha; exact ⟨a, t, v, ⟨rfl, rfl⟩, hx, ha⟩
        · rintro ⟨a', t', v', ⟨rfl, rfl⟩, hx', ha⟩
          rw [un s2 hx hx']; exact ha
      have same : ∀ a t t', (a, t) ∈ r → (a, t') ∈ r' → t = t' := by
        intro a t t' h1 h2
        obtain ⟨f, k1, k2⟩ := hr.closed _ he _ h1
        obtain ⟨f', k3, k4⟩ := hr.closed _ he' _ h2
        have hlt := hrank _ he _ h1
        simp only at k2 k4 hlt hn
        have := ih f k1 f' k3 (by rw [k2]; omega) fun v => by
          rw [k2, k4, step a t v h1, step' a t' v h2]; exact hw _
        rw [← k2, ← k4, this]
      have sub : ∀ d, d ∈ r ↔ d ∈ r' := by
        rintro ⟨a, t⟩
        constructor
        · intro hx
          obtain ⟨f, k1, k2⟩ := hr.closed _ he _ hx
          obtain ⟨v, hv⟩ := live _ f k1 (Nat.le_refl _)
          rw [k2] at hv
          have := (hw (a :: v)).1 ((step a t v hx).1 hv)
          rw [acc_iff hr he'] at this
          rcases this with ⟨h0, _⟩ | ⟨a', t', v', h0, hx', _⟩
          · simp at h0
          · simp only [List.cons.injEq] at h0
            obtain ⟨rfl, rfl⟩ := h0
            rw [same _ _ _ hx hx']; exact hx'
        · intro hx
          obtain ⟨f, k1, k2⟩ := hr.closed _ he' _ hx
          obtain ⟨v, hv⟩ := live _ f k1 (Nat.le_refl _)
          rw [k2] at hv
          have := (hw (a :: v)).2 ((step' a t v hx).1 hv)
          rw [acc_iff hr he] at this
          rcases this with ⟨h0, _⟩ | ⟨a', t', v', h0, hx', _⟩
          · simp at h0
          · simp only [List.cons.injEq] at h0
            obtain ⟨rfl, rfl⟩ := h0
            rw [← same _ _ _ hx' hx]; exact hx'
      have heq : r = r' := by
        clear step step' same hw s1 s2 hn ih
        have e1 := hr.rows _ he
        have e2 := hr.rows _ he'
        simp only at e1 e2
        clear he he'
        induction r generalizing r' with
        | nil =>
          cases r' with
          | nil => rfl
          | cons d r' => have := (sub d).2 (by simp); simp at this
        | cons d r ih =>
          cases r' with
          | nil => have := (sub d).1 (by simp); simp at this
          | cons d' r' =>
            rw [List.pairwise_cons] at e1 e2
            have hd : d = d' := by
              rcases List.mem_cons.1 ((sub d).1 (by simp)) with h1 | h1
              · exact h1
              · rcases List.mem_cons.1 ((sub d').2 (by simp)) with h2 | h2
                · exact h2.symm
                · have := e1.1 _ h2; have := e2.1 _ h1; omega
            subst hd
            congr 1
            refine ih r' (fun u => ?_) e1.2 e2.2
            constructor
            · intro hu
              rcases List.mem_cons.1 ((sub u).1 (by simp [hu])) with rfl | h1
              · have := e1.1 _ hu; omega
              · exact h1
            · intro hu
              rcases List.mem_cons.1 ((sub u).2 (by simp [hu])) with rfl | h1
              · have := e2.1 _ hu; omega
              · exact h1
      simp [hb, heq]
  exact main _ e he e' he' (Nat.le_refl _) h

theorem own_append {reg : Reg} (hr : RegOK reg) {e : Sig × Nat} (he : ¬ Known reg e.2) {x : Node}
    (hx : ∀ d ∈ x.done, Known reg d.2) (w : List Nat) : Own (reg ++ [e]) x w ↔ Own reg x w := by
  unfold Own
  refine or_congr Iff.rfl ?_
  constructor
  · rintro ⟨a, t, v, h1, h2, h3⟩
    exact ⟨a, t, v, h1, h2, (acc_append hr he (hx _ h2) v).1 h3⟩
  · rintro ⟨a, t, v, h1, h2, h3⟩
    exact ⟨a, t, v, h1, h2, (acc_append hr he (hx _ h2) v).2 h3⟩

theorem pathAcc_congr {reg reg' : Reg} (pre : List Node) {x x' : Node} {post post' : List Node}
    (hs : x'.sym = x.sym) (h : ∀ v, PathAcc reg' (x' :: post') v ↔ PathAcc reg (x :: post) v)
    (ho : ∀ z ∈ pre, ∀ v, Own reg' z v ↔ Own reg z v) (w : List Nat) :
    PathAcc reg' (pre ++ x' :: post') w ↔ PathAcc reg (pre ++ x :: post) w := by
  induction pre generalizing w with
  | nil => exact h w
  | cons z pre ih =>
    have ih' := fun w => ih (fun u hu => ho u (by simp [hu])) w
    cases pre with
    | nil =>
      simp only [List.cons_append, List.nil_append, PathAcc, ho z (by simp), hs] at ih' ⊢
      simp only [ih']
    | cons u pre =>
      simp only [List.cons_append, PathAcc, ho z (by simp)] at ih' ⊢
      simp only [ih']

theorem own_close (reg : Reg) (x y : Node) (t : Nat) (w : List Nat) :
    Own reg (x.close y t) w ↔ Own reg x w ∨ ∃ v, w = y.sym :: v ∧ Acc reg t v := by
  unfold Own Node.close
  simp only [List.mem_append, List.mem_singleton, Prod.mk.injEq]
  constructor
  · rintro (h | ⟨a, s, v, h1, h2 | ⟨rfl, rfl⟩, h3⟩)
    · exact .inl (.inl h)
    · exact .inl (.inr ⟨a, s, v, h1, h2, h3⟩)
    · exact .inr ⟨v, h1, h3⟩
  · rintro ((h | ⟨a, s, v, h1, h2, h3⟩) | ⟨v, h1, h3⟩)
    · exact .inl h
    · exact .inr ⟨a, s, v, h1, .inl h2, h3⟩
    · exact .inr ⟨_, _, v, h1, .inr ⟨rfl, rfl⟩, h3⟩

/-- A state leaves the path. -/
theorem regStep_spec {reg : Reg} {pre : List Node} {x y : Node} {n : Nat}
    (h : Inv reg (pre ++ [x, y]) n) (hu : y.fin = true ∨ y.done ≠ []) :
    Inv (regStep reg n y).2.1 (pre ++ [x.close y (regStep reg n y).1]) (regStep reg n y).2.2 ∧
      ∀ w, PathAcc (regStep reg n y).2.1 (pre ++ [x.close y (regStep reg n y).1]) w ↔
        PathAcc reg (pre ++ [x, y]) w := by
  have hy : y ∈ pre ++ [x, y] := by simp
  unfold regStep
  cases hl : reg.lookup (y.fin, y.done) with
  | some q =>
    have hq := lookup_some hl
    refine ⟨h.replace hq, fun w => pathAcc_congr (reg' := reg) (x := x) (x' := x.close y q) (post := [y]) (post' := []) pre rfl (fun v => ?_) (fun _ _ _ => Iff.rfl) w⟩
    simp only [PathAcc, own_close]
    refine or_congr Iff.rfl (exists_congr fun u => and_congr_right fun _ => ?_)
    rw [acc_iff h.ok hq]
    rfl
  | none =>
    have hn := lookup_none hl
    have hk : ¬ Known reg y.id := by
      rintro ⟨e, h1, h2⟩
      exact h.apart y hy e h1 h2
    have hinv := h.register hu hn
    refine ⟨hinv, fun w => pathAcc_congr (reg' := reg ++ [((y.fin, y.done), y.id)]) (x := x)
      (x' := x.close y y.id) (post := [y]) (post' := []) pre rfl (fun v => ?_) (fun z hz v => ?_) w⟩
    · simp only [PathAcc, own_close]
      rw [own_append h.ok hk fun d hd => h.known x (by simp) d hd]
      refine or_congr Iff.rfl (exists_congr fun u => and_congr_right fun _ => ?_)
      rw [acc_iff hinv.ok (b := y.fin) (r := y.done) (by simp)]
      rw [← own_append (e := ((y.fin, y.done), y.id)) h.ok hk (fun d hd => h.known y hy d hd) u]
      rfl
    · exact own_append h.ok hk (fun d hd => h.known z (by simp [hz]) d hd) v

/-! ## A new branch -/

theorem Inv.fin {reg : Reg} {pre : List Node} {z : Node} {n : Nat} (h : Inv reg (pre ++ [z]) n)
    (b : Bool) : Inv reg (pre ++ [{ z with fin := b }]) n := by
  have hz : z ∈ pre ++ [z] := by simp
  have split : ∀ {a : Node} {c d : List Node}, pre ++ [{ z with fin := b }] = c ++ a :: d →
      ∃ a' d', pre ++ [z] = c ++ a' :: d' ∧ a'.id = a.id ∧ a'.done = a.done ∧ a'.sym = a.sym ∧
        (∀ y ∈ a' :: d', ∃ y' ∈ a :: d, y'.done = y.done) ∧
        ∀ u d1, d = u :: d1 → ∃ u' d1', d' = u' :: d1' ∧ u'.sym = u.sym := by
    intro a c d hp
    rcases end_split hp with ⟨rfl, rfl, rfl⟩ | ⟨c', rfl, rfl⟩
    · exact ⟨z, [], rfl, rfl, rfl, rfl, by simp, by simp⟩
    · refine ⟨a, c' ++ [z], by simp, rfl, rfl, rfl, ?_, ?_⟩
      · intro y hy
        simp only [List.mem_cons, List.mem_append, List.not_mem_nil, or_false] at hy
        rcases hy with rfl | hy | rfl
        · exact ⟨y, by simp, rfl⟩
        · exact ⟨y, by simp [hy], rfl⟩
        · exact ⟨{ y with fin := b }, by simp, rfl⟩
      · intro u d1 hd
        cases c' with
        | nil =>
          simp only [List.nil_append, List.cons.injEq] at hd
          exact ⟨z, [], rfl, by rw [← hd.1]⟩
        | cons v c' =>
          simp only [List.cons_append, List.cons.injEq] at hd
          exact ⟨v, c' ++ [z], rfl, by rw [hd.1]⟩
  have old : ∀ u ∈ pre ++ [{ z with fin := b }], ∃ u' ∈ pre ++ [z], u'.id = u.id ∧ u'.done = u.done := by
    intro u hu
    rcases List.mem_append.1 hu with hu | hu
    · exact ⟨u, by simp [hu], rfl, rfl⟩
    · simp only [List.mem_singleton] at hu
      subst hu
      exact ⟨z, hz, rfl, rfl⟩
  refine ⟨h.ok, h.below, ?_, ?_, ?_, ?_, ?_, ?_, ?_, ?_, h.nodup, by
    have := h.count
    simp only [List.length_append, List.length_cons, List.length_nil] at this ⊢
    omega⟩
  · have := h.ids
    rw [List.pairwise_append] at this ⊢
    refine ⟨this.1, by simp, fun u hu v hv => ?_⟩
    simp only [List.mem_singleton] at hv
    subst hv
    exact this.2.2 u hu z (by simp)
  · intro u hu
    obtain ⟨u', h1, h2, _⟩ := old u hu
    rw [← h2]; exact h.idlt u' h1
  · intro u hu
    obtain ⟨u', h1, h2, _⟩ := old u hu
    rw [← h2]; exact h.apart u' h1
  · intro u hu
    obtain ⟨u', h1, _, h3⟩ := old u hu
    rw [← h3]; exact h.known u' h1
  · intro u hu
    obtain ⟨u', h1, _, h3⟩ := old u hu
    rw [← h3]; exact h.sorted u' h1
  · intro c a u d hp e he
    obtain ⟨a', d', k1, _, k3, _, _, k6⟩ := split hp
    obtain ⟨u', d1', k7, k8⟩ := k6 u d rfl
    subst k7
    rw [← k8]
    exact h.next c a' u' d1' k1 e (by rw [k3]; exact he)
  · intro u hu
    obtain ⟨u', h1, h2, _⟩ := old u hu
    rw [← h2]; exact h.i1 u' h1
  · intro c a d hp e he hlt
    obtain ⟨a', d', k1, k2, _, _, k5, _⟩ := split hp
    obtain ⟨y, m1, x, m2, m3⟩ := h.i2 c a' d' k1 e he (by rw [k2]; exact hlt)
    obtain ⟨y', m4, m5⟩ := k5 y m1
    exact ⟨y', m4, x, by rw [m5]; exact m2, m3⟩

theorem Inv.push {reg : Reg} {pre : List Node} {z : Node} {n c : Nat} (h : Inv reg (pre ++ [z]) n)
    (hc : ∀ d ∈ z.done, d.1 < c) : Inv reg (pre ++ [z] ++ [⟨n, false, [], c⟩]) (n + 1) := by
  refine ⟨h.ok, ?_, ?_, ?_, ?_, ?_, ?_, ?_, ?_, ?_, h.nodup, by
    have := h.count
    simp only [List.length_append, List.length_cons, List.length_nil] at this ⊢
    omega⟩
  · intro e he; have := h.below e he; omega
  · rw [List.pairwise_append]
    refine ⟨h.ids, by simp, fun u hu v hv => ?_⟩
    simp only [List.mem_singleton] at hv
    subst hv
    exact h.idlt u hu
  · intro u hu
    rcases List.mem_append.1 hu with hu | hu
    · have := h.idlt u hu; omega
    · simp only [List.mem_singleton] at hu; subst hu; simp
  · intro u hu e he
    rcases List.mem_append.1 hu with hu | hu
    · exact h.apart u hu e he
    · simp only [List.mem_singleton] at hu; subst hu
      have := h.below e he
      simp only; omega
  · intro u hu
    rcases List.mem_append.1 hu with hu | hu
    · exact h.known u hu
    · simp only [List.mem_singleton] at hu; subst hu; simp
  · intro u hu
    rcases List.mem_append.1 hu with hu | hu
    · exact h.sorted u hu
    · simp only [List.mem_singleton] at hu; subst hu; simp
  · intro b a u d hp e he
    rcases end_split hp with ⟨h0, _⟩ | ⟨c', h0, h1⟩
    · cases h0
    · cases c' with
      | nil =>
        simp only [List.nil_append, List.cons.injEq] at h0
        obtain ⟨rfl, rfl⟩ := h0
        obtain ⟨_, h2⟩ := List.append_inj' h1 rfl
        simp only [List.cons.injEq, and_true] at h2
        subst h2
        exact hc e he
      | cons v c' =>
        simp only [List.cons_append, List.cons.injEq] at h0
        obtain ⟨rfl, rfl⟩ := h0
        exact h.next b a u c' h1 e he
  · intro u hu e he hlt d hd
    rcases List.mem_append.1 hu with hu | hu
    · exact h.i1 u hu e he hlt d hd
    · simp only [List.mem_singleton] at hu; subst hu
      obtain ⟨e', h1, h2⟩ := h.ok.closed e he d hd
      simp only
      rw [← h2]
      exact h.below e' h1
  · intro b a d hp e he hlt
    rcases end_split hp with ⟨rfl, rfl, _⟩ | ⟨c', rfl, h1⟩
    · have := h.below e he
      simp only at hlt; omega
    · obtain ⟨y, m1, x, m2, m3⟩ := h.i2 b a c' h1 e he hlt
      refine ⟨y, ?_, x, m2, m3⟩
      simp only [List.mem_cons, List.mem_append] at m1 ⊢
      tauto

/-- The states of a branch. -/
def branch : Nat → List Nat → List Node
  | _, [] => []
  | n, c :: w => ⟨n, w.isEmpty, [], c⟩ :: branch (n + 1) w

theorem Inv.branch {reg : Reg} (w : List Nat) {pre : List Node} {z : Node} {n : Nat}
    (h : Inv reg (pre ++ [z]) n) (hc : ∀ c w', w = c :: w' → ∀ d ∈ z.done, d.1 < c) :
    Inv reg (pre ++ z :: Minfsa.branch n w) (n + w.length) := by
  induction w generalizing pre z n with
  | nil => exact h
  | cons c w ih =>
    have h1 := h.push (hc c w rfl)
    have h2 := h1.fin w.isEmpty
    have := ih h2 (by intro c' w' _ d hd; simp at hd)
    simp only [Minfsa.branch, List.length_cons]
    rw [show n + (w.length + 1) = n + 1 + w.length by omega]
    simpa using this

theorem pathAcc_branch {reg : Reg} (w : List Nat) (z : Node) (n : Nat) (hw : w ≠ []) (v : List Nat) :
    PathAcc reg (z :: branch n w) v ↔ Own reg z v ∨ v = w := by
  induction w generalizing z n v with
  | nil => simp at hw
  | cons c w ih =>
    simp only [branch, PathAcc]
    refine or_congr Iff.rfl ?_
    by_cases hw' : w = []
    · subst hw'
      simp only [branch, PathAcc, Own, List.isEmpty_nil, and_true, List.not_mem_nil, false_and, and_false,
        exists_false, or_false]
      constructor
      · rintro ⟨u, rfl, rfl⟩; rfl
      · rintro rfl; exact ⟨[], rfl, rfl⟩
    · have hf : w.isEmpty = false := by simpa using hw'
      constructor
      · rintro ⟨u, rfl, hu⟩
        rw [ih _ _ hw'] at hu
        rcases hu with hu | rfl
        · simp [Own, hf] at hu
        · rfl
      · rintro rfl
        exact ⟨w, rfl, (ih _ _ hw' _).2 (.inr rfl)⟩

theorem pathAcc_extend {reg : Reg} (pre : List Node) {z : Node} {post : List Node} {w : List Nat}
    (h : ∀ v, PathAcc reg (z :: post) v ↔ Own reg z v ∨ v = w) (v : List Nat) :
    PathAcc reg (pre ++ z :: post) v ↔
      PathAcc reg (pre ++ [z]) v ∨ v = (pre ++ [z]).tail.map Node.sym ++ w := by
  induction pre generalizing v with
  | nil =>
    rw [List.nil_append, List.nil_append, h]
    simp [PathAcc]
  | cons x pre ih =>
    cases pre with
    | nil =>
      simp only [List.cons_append, List.nil_append, PathAcc] at ih ⊢
      simp only [ih, List.tail_cons, List.map_cons, List.map_nil, List.cons_append, List.nil_append]
      constructor
      · rintro (h | ⟨u, rfl, h | h⟩)
        · exact .inl (.inl h)
        · exact .inl (.inr ⟨u, rfl, h⟩)
        · subst h; exact .inr rfl
      · rintro ((h | ⟨u, rfl, h⟩) | rfl)
        · exact .inl h
        · exact .inr ⟨u, rfl, .inl h⟩
        · exact .inr ⟨w, rfl, .inr rfl⟩
    | cons y pre =>
      simp only [List.cons_append, PathAcc] at ih ⊢
      simp only [ih, List.tail_cons, List.map_cons, List.cons_append]
      constructor
      · rintro (h | ⟨u, rfl, h | rfl⟩)
        · exact .inl (.inl h)
        · exact .inl (.inr ⟨u, rfl, h⟩)
        · exact .inr rfl
      · rintro ((h | ⟨u, rfl, h⟩) | rfl)
        · exact .inl h
        · exact .inr ⟨u, rfl, .inl h⟩
        · exact .inr ⟨_, rfl, .inr rfl⟩

end Verif.Minfsa
