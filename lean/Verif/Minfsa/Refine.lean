import Verif.Minfsa.Abstract

/-! # The tables hold the register and the path -/

namespace Verif.Minfsa

/-! ## Maps and sets -/

theorem lookup_mset {α : Type} (k : Nat) (v : α) (l : List (Nat × α)) (j : Nat) :
    (mset k v l).lookup j = if j = k then some v else l.lookup j := by
  induction l with
  | nil =>
    by_cases c : j = k
    · simp [mset, List.lookup_cons, c]
    · have : (j == k) = false := by simpa using c
      simp [mset, List.lookup_cons, c, this]
  | cons e l ih =>
    obtain ⟨i, u⟩ := e
    simp only [mset]
    by_cases c1 : k < i
    · rw [if_pos c1]
      by_cases c : j = k
      · simp [List.lookup_cons, c]
      · have : (j == k) = false := by simpa using c
        rw [List.lookup_cons, this, if_neg c]
    · rw [if_neg c1]
      by_cases c2 : k = i
      · rw [if_pos c2]
        subst c2
        by_cases c : j = k
        · simp [List.lookup_cons, c]
        · have : (j == k) = false := by simpa using c
          simp [List.lookup_cons, this, c]
      · rw [if_neg c2, List.lookup_cons, List.lookup_cons, ih]
        by_cases c : j = i
        · subst c
          simp [Ne.symm c2]
        · have : (j == i) = false := by simpa using c
          simp [this]

theorem mem_mset {α : Type} {k : Nat} {v : α} {l : List (Nat × α)} {e : Nat × α}
    (h : e ∈ mset k v l) : e = (k, v) ∨ e ∈ l := by
  induction l with
  | nil => simpa [mset] using h
  | cons f l ih =>
    obtain ⟨i, u⟩ := f
    simp only [mset] at h
    split at h
    · simpa using h
    · split at h
      · rcases List.mem_cons.1 h with h | h
        · exact .inl h
        · exact .inr (by simp [h])
      · rcases List.mem_cons.1 h with h | h
        · exact .inr (by simp [h])
        · rcases ih h with h | h
          · exact .inl h
          · exact .inr (by simp [h])

theorem keys_mset {α : Type} (k : Nat) (v : α) (l : List (Nat × α))
    (h : l.Pairwise fun x y => x.1 < y.1) : (mset k v l).Pairwise fun x y => x.1 < y.1 := by
  induction l with
  | nil => simp [mset]
  | cons f l ih =>
    obtain ⟨i, u⟩ := f
    rw [List.pairwise_cons] at h
    simp only [mset]
    split
    · rename_i c
      rw [List.pairwise_cons]
      refine ⟨?_, List.pairwise_cons.2 h⟩
      intro e he
      rcases List.mem_cons.1 he with rfl | he
      · exact c
      · have := h.1 e he; simp only at this ⊢; omega
    · split
      · rename_i c
        subst c
        exact List.pairwise_cons.2 ⟨h.1, h.2⟩
      · rename_i c1 c2
        rw [List.pairwise_cons]
        refine ⟨?_, ih h.2⟩
        intro e he
        rcases mem_mset he with rfl | he
        · simp only; omega
        · exact h.1 e he

theorem mset_end {k v : Nat} {l : Row} (h : ∀ e ∈ l, e.1 < k) : mset k v l = l ++ [(k, v)] := by
  induction l with
  | nil => rfl
  | cons f l ih =>
    obtain ⟨i, u⟩ := f
    have := h (i, u) (by simp)
    simp only at this
    simp only [mset]
    rw [if_neg (by omega), if_neg (by omega), ih fun e he => h e (by simp [he])]
    rfl

theorem lookup_filter {α : Type} (P : Nat → Bool) (l : List (Nat × α)) (j : Nat) :
    (l.filter fun e => P e.1).lookup j = if P j then l.lookup j else none := by
  induction l with
  | nil => simp
  | cons f l ih =>
    obtain ⟨i, u⟩ := f
    by_cases c : j = i
    · subst c
      by_cases hp : P j = true
      · simp [List.filter_cons, hp, List.lookup_cons]
      · simp only [List.filter_cons, hp] at ih ⊢
        simp [ih]
    · have hb : (j == i) = false := by simpa using c
      rw [List.lookup_cons, hb]
      by_cases hp : P i = true
      · simp only [List.filter_cons, hp, if_true, List.lookup_cons, hb, ih]
      · simp only [List.filter_cons, hp]
        simpa using ih

theorem lookup_iff {α : Type} {l : List (Nat × α)} (h : l.Pairwise fun x y => x.1 < y.1) (j : Nat)
    (v : α) : l.lookup j = some v ↔ (j, v) ∈ l := by
  refine ⟨lookup_some, fun hm => ?_⟩
  induction l with
  | nil => simp at hm
  | cons f l ih =>
    rw [List.pairwise_cons] at h
    rcases List.mem_cons.1 hm with rfl | hm
    · simp [List.lookup_cons]
    · have := h.1 _ hm
      have hb : (j == f.1) = false := by simp only [beq_eq_false_iff_ne]; simp only at this; omega
      rw [List.lookup_cons, hb]
      exact ih h.2 hm

theorem mem_sinsert (k : Nat) (l : List Nat) (j : Nat) : j ∈ sinsert k l ↔ j = k ∨ j ∈ l := by
  induction l with
  | nil => simp [sinsert]
  | cons i l ih =>
    simp only [sinsert]
    split
    · simp
    · split
      · rename_i c
        subst c
        simp
      · simp only [List.mem_cons, ih]
        tauto

theorem sort_sinsert (k : Nat) (l : List Nat) (h : l.Pairwise (· < ·)) : (sinsert k l).Pairwise (· < ·) := by
  induction l with
  | nil => simp [sinsert]
  | cons i l ih =>
    rw [List.pairwise_cons] at h
    simp only [sinsert]
    split
    · rename_i c
      rw [List.pairwise_cons]
      refine ⟨?_, List.pairwise_cons.2 h⟩
      intro e he
      rcases List.mem_cons.1 he with rfl | he
      · exact c
      · have := h.1 e he; omega
    · split
      · exact List.pairwise_cons.2 h
      · rename_i c1 c2
        rw [List.pairwise_cons]
        refine ⟨?_, ih h.2⟩
        intro e he
        rw [mem_sinsert] at he
        rcases he with rfl | he
        · omega
        · exact h.1 e he

/-! ## The tables -/

/-- The transition along the path. -/
def tailArc : List Node → Row
  | [] => []
  | y :: _ => [(y.sym, y.id)]

structure Rep (f : Fsa) (reg : Reg) (path : List Node) (n : Nat) : Prop where
  sig : f.sig = reg
  states : f.states = n
  keys : f.table.Pairwise fun x y => x.1 < y.1
  row : ∀ pre x post, path = pre ++ x :: post → f.table.lookup x.id = some (x.done ++ tailArc post)
  rest : ∀ q r, f.table.lookup q = some r → (∃ x ∈ path, x.id = q) ∨ ∃ b, ((b, r), q) ∈ reg
  ends : ∀ q, q ∈ f.ends ↔ (∃ x ∈ path, x.id = q ∧ x.fin = true) ∨
    ((∃ r, ((true, r), q) ∈ reg) ∧ (f.table.lookup q).isSome = true)
  endsort : f.ends.Pairwise (· < ·)
  arcs : ∀ p q a, .arc p q a ∈ f.out ↔
    ∃ b r, ((b, r), p) ∈ reg ∧ f.table.lookup p = none ∧ (a, q) ∈ r
  finals : ∀ q, .final q ∈ f.out ↔ (∃ r, ((true, r), q) ∈ reg) ∧ f.table.lookup q = none
  nodup : f.out.Nodup

theorem Inv.same {reg : Reg} {path : List Node} {n : Nat} (h : Inv reg path n) {x y : Node}
    (hx : x ∈ path) (hy : y ∈ path) (he : x.id = y.id) : x = y := by
  have hp := h.ids
  clear h
  induction path with
  | nil => simp at hx
  | cons z l ih =>
    rw [List.pairwise_cons] at hp
    rcases List.mem_cons.1 hx with k1 | k1 <;> rcases List.mem_cons.1 hy with k2 | k2
    · rw [k1, k2]
    · have := hp.1 y k2; rw [← k1] at this; omega
    · have := hp.1 x k1; rw [← k2] at this; omega
    · exact ih k1 k2 hp.2

theorem Inv.apart' {reg : Reg} {path : List Node} {n : Nat} (h : Inv reg path n) {x : Node}
    (hx : x ∈ path) {g : Sig} {q : Nat} (he : (g, q) ∈ reg) : q ≠ x.id := h.apart x hx (g, q) he

theorem Rep.register {f : Fsa} {reg : Reg} {pre : List Node} {x y : Node} {n : Nat}
    (hi : Inv reg (pre ++ [x, y]) n) (h : Rep f reg (pre ++ [x, y]) n) :
    Rep (f.register x.id y.id) (regStep reg n y).2.1 (pre ++ [x.close y (regStep reg n y).1])
        (regStep reg n y).2.2 ∧
      (f.register x.id y.id).traversed = f.traversed := by
  have hy : y ∈ pre ++ [x, y] := by simp
  have hx : x ∈ pre ++ [x, y] := by simp
  have rowy : f.table.lookup y.id = some y.done := by
    have := h.row (pre ++ [x]) y [] (by simp)
    simpa [tailArc] using this
  have rowx : f.table.lookup x.id = some (x.done ++ [(y.sym, y.id)]) := h.row pre x [y] rfl
  have hids := hi.ids
  rw [List.pairwise_append] at hids
  have hxy : x.id < y.id := by
    have := hids.2.1
    simp only [List.pairwise_cons, List.mem_singleton, forall_eq] at this
    exact this.1
  have hprey : ∀ z ∈ pre, z.id < y.id := fun z hz => hids.2.2 z hz y (by simp)
  have hprex : ∀ z ∈ pre, z.id < x.id := fun z hz => hids.2.2 z hz x (by simp)
  have ht : f.touch y.id = f := by simp [Fsa.touch, rowy]
  have hrow : f.row y.id = y.done := by simp [Fsa.row, rowy]
  have hrowx : f.row x.id = x.done ++ [(y.sym, y.id)] := by simp [Fsa.row, rowx]
  have hend : f.ends.contains y.id = y.fin := by
    rw [Bool.eq_iff_iff, List.contains_iff_mem, h.ends]
    constructor
    · rintro (⟨z, h1, h2, h3⟩ | ⟨⟨r, h1⟩, _⟩)
      · rw [← hi.same h1 hy h2]; exact h3
      · exact absurd rfl (hi.apart' hy h1)
    · intro hf
      exact .inl ⟨y, hy, rfl, hf⟩
  unfold Fsa.register regStep
  simp only [ht, hrow, hend, h.sig]
  cases hl : reg.lookup (y.fin, y.done) with
  | some e =>
    have hset : f.setLast x.id e = { f with table := mset x.id (x.done ++ [(y.sym, e)]) f.table } := by
      simp [Fsa.setLast, hrowx]
    have hl1 : ∀ q, (mset x.id (x.done ++ [(y.sym, e)]) f.table).lookup q =
        if q = x.id then some (x.done ++ [(y.sym, e)]) else f.table.lookup q := lookup_mset _ _ _
    have hdel : (f.setLast x.id e).delete y.id = { f with
        table := merase y.id (mset x.id (x.done ++ [(y.sym, e)]) f.table)
        ends := f.ends.filter (· != y.id), states := f.states - 1 } := by
      rw [hset]
      unfold Fsa.delete
      simp only
      rw [if_pos]
      rw [hl1, if_neg (by omega), rowy]
      rfl
    have hlk : ∀ q, (merase y.id (mset x.id (x.done ++ [(y.sym, e)]) f.table)).lookup q =
        if q = y.id then none else if q = x.id then some (x.done ++ [(y.sym, e)])
          else f.table.lookup q := by
      intro q
      unfold merase
      rw [lookup_filter (fun k => k != y.id), hl1]
      by_cases c : q = y.id <;> simp [c]
    have reglk : ∀ g q, (g, q) ∈ reg →
        (merase y.id (mset x.id (x.done ++ [(y.sym, e)]) f.table)).lookup q = f.table.lookup q := by
      intro g q hg
      rw [hlk, if_neg (hi.apart' hy hg), if_neg (hi.apart' hx hg)]
    simp only [hdel]
    refine ⟨⟨h.sig, by simp [h.states], ?_, ?_, ?_, ?_, ?_, ?_, ?_, h.nodup⟩, trivial⟩
    · exact List.Pairwise.filter _ (keys_mset _ _ _ h.keys)
    · intro pre' z post hp
      simp only [hlk]
      rcases end_split hp with ⟨rfl, rfl, rfl⟩ | ⟨c', rfl, rfl⟩
      · simp only [Node.close, tailArc, List.append_nil]
        rw [if_neg (by omega), if_pos (by trivial)]
      · have hz : z ∈ pre' ++ z :: c' := by simp
        have h1 := hprey z hz
        have h2 := hprex z hz
        rw [if_neg (by omega), if_neg (by omega), h.row pre' z (c' ++ [x, y]) (by simp)]
        cases c' <;> rfl
    · intro q r hq
      simp only [hlk] at hq
      by_cases c1 : q = y.id
      · rw [if_pos c1] at hq; simp at hq
      · rw [if_neg c1] at hq
        by_cases c2 : q = x.id
        · exact .inl ⟨x.close y e, by simp, c2.symm⟩
        · rw [if_neg c2] at hq
          rcases h.rest q r hq with ⟨z, h1, h2⟩ | h1
          · simp only [List.mem_append, List.mem_cons, List.not_mem_nil, or_false] at h1
            rcases h1 with h1 | rfl | rfl
            · exact .inl ⟨z, by simp [h1], h2⟩
            · exact absurd h2.symm c2
            · exact absurd h2.symm c1
          · exact .inr h1
    · intro q
      simp only [List.mem_filter, h.ends q, bne_iff_ne, ne_eq]
      constructor
      · rintro ⟨⟨z, h1, h2, h3⟩ | ⟨⟨r, h1⟩, h2⟩, hne⟩
        · simp only [List.mem_append, List.mem_cons, List.not_mem_nil, or_false] at h1
          rcases h1 with h1 | rfl | rfl
          · exact .inl ⟨z, by simp [h1], h2, h3⟩
          · exact .inl ⟨z.close y e, by simp, h2, h3⟩
          · exact absurd h2.symm hne
        · exact .inr ⟨⟨r, h1⟩, by rw [reglk _ _ h1]; exact h2⟩
      · rintro (⟨z, h1, h2, h3⟩ | ⟨⟨r, h1⟩, h2⟩)
        · rcases List.mem_append.1 h1 with h1 | h1
          · have := hprey z h1
            exact ⟨.inl ⟨z, by simp [h1], h2, h3⟩, by omega⟩
          · simp only [List.mem_singleton] at h1
            subst h1
            simp only [Node.close] at h2 h3
            exact ⟨.inl ⟨x, hx, h2, h3⟩, by omega⟩
        · rw [reglk _ _ h1] at h2
          exact ⟨.inr ⟨⟨r, h1⟩, h2⟩, hi.apart' hy h1⟩
    · exact List.Pairwise.filter _ h.endsort
    · intro p q a
      rw [h.arcs]
      refine exists_congr fun b => exists_congr fun r => and_congr_right fun h1 => ?_
      rw [reglk _ _ h1]
    · intro q
      rw [h.finals]
      refine and_congr_right fun ⟨r, h1⟩ => ?_
      rw [reglk _ _ h1]
  | none =>
    refine ⟨⟨rfl, h.states, h.keys, ?_, ?_, ?_, h.endsort, ?_, ?_, h.nodup⟩, rfl⟩
    · intro pre' z post hp
      rcases end_split hp with ⟨rfl, rfl, rfl⟩ | ⟨c', rfl, rfl⟩
      · simp only [Node.close, tailArc, List.append_nil]
        exact rowx
      · simp only
        rw [h.row pre' z (c' ++ [x, y]) (by simp)]
        cases c' <;> rfl
    · intro q r hq
      simp only at hq
      rcases h.rest q r hq with ⟨z, h1, h2⟩ | ⟨b, h1⟩
      · simp only [List.mem_append, List.mem_cons, List.not_mem_nil, or_false] at h1
        rcases h1 with h1 | rfl | rfl
        · exact .inl ⟨z, by simp [h1], h2⟩
        · exact .inl ⟨z.close y y.id, by simp, h2⟩
        · subst h2
          rw [rowy] at hq
          simp only [Option.some.injEq] at hq
          subst hq
          exact .inr ⟨z.fin, by simp⟩
      · exact .inr ⟨b, by simp [h1]⟩
    · intro q
      simp only [h.ends q]
      constructor
      · rintro (⟨z, h1, h2, h3⟩ | ⟨⟨r, h1⟩, h2⟩)
        · simp only [List.mem_append, List.mem_cons, List.not_mem_nil, or_false] at h1
          rcases h1 with h1 | rfl | rfl
          · exact .inl ⟨z, by simp [h1], h2, h3⟩
          · exact .inl ⟨z.close y y.id, by simp, h2, h3⟩
          · subst h2
            exact .inr ⟨⟨z.done, by simp [h3]⟩, by rw [rowy]; rfl⟩
        · exact .inr ⟨⟨r, by simp [h1]⟩, h2⟩
      · rintro (⟨z, h1, h2, h3⟩ | ⟨⟨r, h1⟩, h2⟩)
        · rcases List.mem_append.1 h1 with h1 | h1
          · exact .inl ⟨z, by simp [h1], h2, h3⟩
          · simp only [List.mem_singleton] at h1
            subst h1
            exact .inl ⟨x, hx, h2, h3⟩
        · simp only [List.mem_append, List.mem_singleton, Prod.mk.injEq] at h1
          rcases h1 with h1 | ⟨⟨h3, h4⟩, rfl⟩
          · exact .inr ⟨⟨r, h1⟩, h2⟩
          · exact .inl ⟨y, hy, rfl, h3.symm⟩
    · intro p q a
      simp only [h.arcs p q a]
      constructor
      · rintro ⟨b, r, h1, h2⟩
        exact ⟨b, r, by simp [h1], h2⟩
      · rintro ⟨b, r, h1, h2, h3⟩
        simp only [List.mem_append, List.mem_singleton, Prod.mk.injEq] at h1
        rcases h1 with h1 | ⟨_, rfl⟩
        · exact ⟨b, r, h1, h2, h3⟩
        · rw [rowy] at h2; simp at h2
    · intro q
      simp only [h.finals q]
      constructor
      · rintro ⟨⟨r, h1⟩, h2⟩
        exact ⟨⟨r, by simp [h1]⟩, h2⟩
      · rintro ⟨⟨r, h1⟩, h2⟩
        simp only [List.mem_append, List.mem_singleton, Prod.mk.injEq] at h1
        rcases h1 with h1 | ⟨_, rfl⟩
        · exact ⟨⟨r, h1⟩, h2⟩
        · rw [rowy] at h2; simp at h2

/-- The last state of a path is final and has no transitions. -/
def Leaf (l : List Node) : Prop := ∀ m z, l = m ++ [z] → z.done = [] ∧ z.fin = true

theorem Leaf.tail {x y : Node} {l : List Node} (h : Leaf (x :: y :: l)) : Leaf (y :: l) := by
  intro m z hm
  exact h (x :: m) z (by rw [hm]; rfl)

/-- `replace_or_register` takes the states after a state from the path. -/
theorem replaceOrRegister_spec (l : List Node) {pre : List Node} {x y : Node} {fuel : Nat} {f : Fsa}
    {reg : Reg} {n : Nat} (hi : Inv reg (pre ++ x :: y :: l) n) (hr : Rep f reg (pre ++ x :: y :: l) n)
    (hl : Leaf (y :: l)) (hf : l.length < fuel) :
    ∃ f' reg' t n', replaceOrRegister fuel x.id f = some f' ∧ Inv reg' (pre ++ [x.close y t]) n' ∧
      Rep f' reg' (pre ++ [x.close y t]) n' ∧ f'.traversed = f.traversed ∧
      ∀ w, PathAcc reg' (pre ++ [x.close y t]) w ↔ PathAcc reg (pre ++ x :: y :: l) w := by
  induction l generalizing pre x y fuel f reg n with
  | nil =>
    obtain ⟨fuel, rfl⟩ : ∃ k, fuel = k + 1 := ⟨fuel - 1, by simp at hf; omega⟩
    have rowx : f.table.lookup x.id = some (x.done ++ [(y.sym, y.id)]) := hr.row pre x [y] rfl
    have rowy : f.table.lookup y.id = some y.done := by
      have := hr.row (pre ++ [x]) y [] (by simp)
      simpa [tailArc] using this
    obtain ⟨hd, hfin⟩ := hl [] y rfl
    have htx : f.touch x.id = f := by simp [Fsa.touch, rowx]
    have hty : f.touch y.id = f := by simp [Fsa.touch, rowy]
    obtain ⟨i1, i2⟩ := regStep_spec hi (.inl hfin)
    obtain ⟨r1, r2⟩ := hr.register hi
    refine ⟨_, _, _, _, ?_, i1, r1, r2, i2⟩
    simp only [replaceOrRegister, htx]
    have : (f.row x.id).getLast? = some (y.sym, y.id) := by simp [Fsa.row, rowx]
    simp only [this, hty]
    have : f.row y.id = [] := by simp [Fsa.row, rowy, hd]
    simp [this]
  | cons z l ih =>
    obtain ⟨fuel, rfl⟩ : ∃ k, fuel = k + 1 := ⟨fuel - 1, by simp at hf; omega⟩
    have rowx : f.table.lookup x.id = some (x.done ++ [(y.sym, y.id)]) := hr.row pre x (y :: z :: l) rfl
    have rowy : f.table.lookup y.id = some (y.done ++ [(z.sym, z.id)]) :=
      hr.row (pre ++ [x]) y (z :: l) (by simp)
    have htx : f.touch x.id = f := by simp [Fsa.touch, rowx]
    have hty : f.touch y.id = f := by simp [Fsa.touch, rowy]
    have e1 : pre ++ x :: y :: z :: l = (pre ++ [x]) ++ y :: z :: l := by simp
    rw [e1] at hi hr
    obtain ⟨f1, reg1, t, n1, k1, k2, k3, k4, k5⟩ := ih hi hr hl.tail (by simpa using hf)
    have e2 : (pre ++ [x]) ++ [y.close z t] = pre ++ [x, y.close z t] := by simp
    rw [e2] at k2 k3
    obtain ⟨i1, i2⟩ := regStep_spec k2 (.inr (by simp [Node.close]))
    obtain ⟨r1, r2⟩ := k3.register k2
    refine ⟨_, _, _, _, ?_, i1, r1, r2.trans k4, ?_⟩
    · simp only [replaceOrRegister, htx]
      have : (f.row x.id).getLast? = some (y.sym, y.id) := by simp [Fsa.row, rowx]
      simp only [this, hty]
      have : f.row y.id ≠ [] := by simp [Fsa.row, rowy]
      simp only [this, ne_eq, not_false_eq_true, if_true, k1, Option.map_some]
      rfl
    · intro w
      have j1 := i2 w
      have j2 := k5 w
      rw [e2] at j2
      rw [e1]
      exact j1.trans j2

end Verif.Minfsa
