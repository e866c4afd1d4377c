import Verif.Minfsa.Grow
import Verif.Minfsa.Spec

/-! # All words -/

namespace Verif.Minfsa

/-- The tables after some words, the last of which is `u`. -/
structure Good (f : Fsa) (ws : List (List Nat)) (u : List Nat) (reg : Reg) (root : Node) (l : List Node)
    (n : Nat) : Prop where
  inv : Inv reg (root :: l) n
  rep : Rep f reg (root :: l) n
  id : root.id = 0
  fin : root.fin = false
  leaf : Leaf l
  empty : l = [] → root.done = []
  words : ∀ w, PathAcc reg (root :: l) w ↔ w ∈ ws
  last : l.map Node.sym = u

theorem good_start : Good .start [] [] [] ⟨0, false, [], 0⟩ [] 1 := by
  refine ⟨⟨⟨?_, ?_, ?_, ?_, ?_, ?_⟩, ?_, ?_, ?_, ?_, ?_, ?_, ?_, ?_, ?_, ?_, ?_⟩,
    ⟨rfl, rfl, ?_, ?_, ?_, ?_, ?_, ?_, ?_, ?_⟩, rfl, rfl, ?_, fun _ => rfl, ?_, rfl⟩
  · simp
  · simp
  · simp
  · exact ⟨fun _ => 0, by simp⟩
  · simp
  · simp
  · simp
  · simp
  · simp
  · simp
  · simp
  · simp
  · intro pre x y post h
    have := congrArg List.length h
    simp at this
    omega
  · simp
  · simp
  · simp
  · simp
  · simp [Fsa.start, Fsa.addState, mset]
  · intro pre x post h
    cases pre with
    | nil =>
      simp only [List.nil_append, List.cons.injEq] at h
      obtain ⟨rfl, rfl⟩ := h
      simp [Fsa.start, Fsa.addState, mset, tailArc]
    | cons y pre =>
      have := congrArg List.length h
      simp at this
  · intro q r h
    simp only [Fsa.start, Fsa.addState, mset] at h
    have := lookup_some h
    simp only [List.mem_singleton, Prod.mk.injEq] at this
    exact .inl ⟨⟨0, false, [], 0⟩, by simp, this.1.symm⟩
  · simp [Fsa.start, Fsa.addState]
  · simp [Fsa.start, Fsa.addState]
  · simp [Fsa.start, Fsa.addState]
  · simp [Fsa.start, Fsa.addState]
  · simp [Fsa.start, Fsa.addState]
  · intro m z h
    have := congrArg List.length h
    simp at this
  · intro w
    simp [PathAcc, Own]

theorem branch_ids (w : List Nat) (n : Nat) : ∀ x ∈ branch n w, n ≤ x.id := by
  induction w generalizing n with
  | nil => simp [branch]
  | cons c w ih =>
    intro x hx
    simp only [branch, List.mem_cons] at hx
    rcases hx with rfl | hx
    · exact Nat.le_refl _
    · have := ih (n + 1) x hx; omega

theorem branch_syms (w : List Nat) (n : Nat) : (branch n w).map Node.sym = w := by
  induction w generalizing n with
  | nil => rfl
  | cons c w ih => simp [branch, ih]

theorem branch_leaf (w : List Nat) (n : Nat) : Leaf (branch n w) := by
  induction w generalizing n with
  | nil =>
    intro m z h
    simp [branch] at h
  | cons c w ih =>
    intro m z h
    cases m with
    | nil =>
      simp only [branch, List.nil_append, List.cons.injEq] at h
      have hw : w = [] := by
        cases w with
        | nil => rfl
        | cons d w => simp [branch] at h
      subst hw
      rw [← h.1]
      exact ⟨rfl, rfl⟩
    | cons x m =>
      simp only [branch, List.cons_append, List.cons.injEq] at h
      exact ih (n + 1) m z h.2

theorem leaf_append {l b : List Node} (hb : b ≠ []) (h : Leaf b) : Leaf (l ++ b) := by
  intro m z hm
  rcases List.eq_nil_or_concat b with rfl | ⟨b', y, rfl⟩
  · simp at hb
  · rw [List.concat_eq_append] at hm h
    rw [← List.append_assoc] at hm
    obtain ⟨_, h2⟩ := List.append_inj' hm rfl
    simp only [List.cons.injEq, and_true] at h2
    subst h2
    exact h b' y rfl

/-- The end of `add_word`. -/
theorem grow_good {f : Fsa} {reg : Reg} {mid : List Node} {z root : Node} {l0 : List Node} {n : Nat}
    {rest : List Nat} {ws : List (List Nat)} (hi : Inv reg (mid ++ [z]) n) (hr : Rep f reg (mid ++ [z]) n)
    (ht : f.traversed = (mid ++ [z]).map Node.id) (hrest : rest ≠ [])
    (hc : ∀ c w', rest = c :: w' → ∀ d ∈ z.done, d.1 < c)
    (hroot : mid ++ [z] = root :: l0) (hid : root.id = 0) (hfin : root.fin = false)
    (hw : ∀ w, PathAcc reg (mid ++ [z]) w ↔ w ∈ ws) :
    Good (Fsa.addBranch { f with added := [] } z.id rest).purge
      (ws ++ [(mid ++ [z]).tail.map Node.sym ++ rest]) ((mid ++ [z]).tail.map Node.sym ++ rest) reg root
      (l0 ++ branch n rest) (n + rest.length) := by
  have hpath : mid ++ z :: branch n rest = root :: (l0 ++ branch n rest) := by
    rw [← List.cons_append, ← hroot]; simp
  have hr0 : Rep { f with added := [] } reg (mid ++ [z]) n := hr.congr rfl rfl rfl rfl rfl
  have hi2 := hi.branch rest hc
  have hr2 := addBranch_rep rest hrest hi hr0 hc
  obtain ⟨l', ha⟩ := addBranch_first rest hrest { f with added := [] } z.id rfl
  have hr3 := hr2.purge hi2 ha (by
    intro x hx hlt
    rw [addBranch_traversed]
    simp only
    rw [ht]
    have e : mid ++ z :: branch n rest = (mid ++ [z]) ++ branch n rest := by simp
    rw [e] at hx
    rcases List.mem_append.1 hx with hx | hx
    · exact List.mem_map.2 ⟨x, hx, rfl⟩
    · have := branch_ids rest n x hx
      have := hr0.states
      omega)
  have hb : branch n rest ≠ [] := by
    cases rest with
    | nil => simp at hrest
    | cons c w => simp [branch]
  have hacc := pathAcc_extend mid (pathAcc_branch (reg := reg) rest z n hrest)
  rw [hpath] at hi2 hr3
  refine ⟨hi2, hr3, hid, hfin, leaf_append hb (branch_leaf _ _), ?_, ?_, ?_⟩
  · intro h
    simp only [List.append_eq_nil_iff] at h
    exact absurd h.2 hb
  · intro w
    rw [← hpath, hacc, hw]
    simp
  · rw [List.map_append, branch_syms, hroot]
    rfl

theorem addWord_good {f : Fsa} {ws : List (List Nat)} {u w : List Nat} {reg : Reg} {root : Node}
    {l : List Node} {n : Nat} (h : Good f ws u reg root l n) (hu : u < w) :
    ∃ f' reg' root' l' n', f.addWord w = some f' ∧ Good f' (ws ++ [w]) w reg' root' l' n' := by
  have hleaf : ∀ m z, root :: l = m ++ [z] → z.done = [] := by
    intro m z hm
    cases m with
    | nil =>
      simp only [List.nil_append, List.cons.injEq] at hm
      rw [← hm.1]
      exact h.empty hm.2
    | cons x m =>
      simp only [List.cons_append, List.cons.injEq] at hm
      exact (h.leaf m z hm.2).1
  obtain ⟨mid, z, post, rest, k1, k2, k3, k4, k5⟩ :=
    deltaPrefix_spec (pre := []) l h.inv h.rep hleaf (by rw [h.last]; exact hu)
  rw [h.id] at k2
  simp only [List.map_nil, List.nil_append] at k2
  have hi := h.inv
  have hr := h.rep
  have hw := h.words
  rw [k1] at hi hr hw
  have rowz := hr.row mid z post rfl
  have hr1 : Rep { f with traversed := (mid ++ [z]).map Node.id } reg (mid ++ z :: post) n :=
    hr.congr rfl rfl rfl rfl rfl
  have htouch : Fsa.touch { f with traversed := (mid ++ [z]).map Node.id } z.id =
      { f with traversed := (mid ++ [z]).map Node.id } := by simp [Fsa.touch, rowz]
  have hrow : Fsa.row { f with traversed := (mid ++ [z]).map Node.id } z.id = z.done ++ tailArc post := by
    simp [Fsa.row, rowz]
  unfold Fsa.addWord
  rw [k2]
  simp only [Option.bind_some, htouch, hrow]
  cases post with
  | nil =>
    have hd := hleaf mid z k1
    have hg := grow_good (f := { f with traversed := (mid ++ [z]).map Node.id }) hi hr1 rfl k3
      (by intro c w' _ d hd'; rw [hd] at hd'; simp at hd') k1.symm h.id h.fin hw
    rw [← k4] at hg
    simp only [hd, tailArc, List.append_nil, ne_eq, not_true_eq_false, if_false, Option.map_some]
    exact ⟨_, _, _, _, _, rfl, hg⟩
  | cons y post =>
    have hl : Leaf (y :: post) := by
      intro m x hm
      have : root :: l = (mid ++ z :: m) ++ [x] := by rw [k1, hm]; simp
      cases mid with
      | nil =>
        simp only [List.nil_append, List.cons_append, List.cons.injEq] at this
        exact h.leaf m x this.2
      | cons v mid =>
        simp only [List.cons_append, List.cons.injEq] at this
        exact h.leaf (mid ++ z :: m) x this.2
    have hlen : post.length < f.states + 1 := by
      have := hi.count
      rw [hr.states]
      simp only [List.length_append, List.length_cons] at this
      omega
    obtain ⟨f2, reg2, t, n2, j1, j2, j3, j4, j5⟩ :=
      replaceOrRegister_spec post (fuel := f.states + 1) hi hr1 hl hlen
    have hne : z.done ++ tailArc (y :: post) ≠ [] := by simp [tailArc]
    simp only [hne, ne_eq, not_false_eq_true, if_true, j1, Option.map_some]
    obtain ⟨c, r, hc1, hc2⟩ := k5 y post rfl
    have hsyms : (mid ++ [z.close y t]).tail.map Node.sym = (mid ++ [z]).tail.map Node.sym := by
      cases mid <;> simp [Node.close]
    have hids : (mid ++ [z.close y t]).map Node.id = (mid ++ [z]).map Node.id := by
      simp [Node.close]
    have hrt : ∃ root' l0, mid ++ [z.close y t] = root' :: l0 ∧ root'.id = 0 ∧ root'.fin = false := by
      cases mid with
      | nil =>
        simp only [List.nil_append, List.cons.injEq] at k1
        exact ⟨_, _, rfl, by rw [← h.id, k1.1]; rfl, by rw [← h.fin, k1.1]; rfl⟩
      | cons v mid =>
        simp only [List.cons_append, List.cons.injEq] at k1
        exact ⟨_, _, rfl, by rw [← h.id, k1.1], by rw [← h.fin, k1.1]⟩
    obtain ⟨root', l0, hrt1, hrt2, hrt3⟩ := hrt
    have hnext := hi.next mid z y post rfl
    have hg := grow_good (f := f2) j2 j3 (by rw [j4, hids]) k3
      (by
        intro c' w' he d hd
        rw [hc1] at he
        simp only [List.cons.injEq] at he
        rw [← he.1]
        simp only [Node.close, List.mem_append, List.mem_singleton] at hd
        rcases hd with hd | rfl
        · have := hnext d hd; omega
        · exact hc2)
      hrt1 hrt2 hrt3 (fun w => (j5 w).trans (hw w))
    rw [hsyms, ← k4] at hg
    exact ⟨_, _, _, _, _, rfl, hg⟩

theorem addWords_good (more : List (List Nat)) {f : Fsa} {ws : List (List Nat)} {u : List Nat} {reg : Reg}
    {root : Node} {l : List Node} {n : Nat} (h : Good f ws u reg root l n)
    (hs : (u :: more).Pairwise (· < ·)) : ∃ f' reg' root' l' n', addWords more f = some f' ∧
      Good f' (ws ++ more) ((u :: more).getLast (by simp)) reg' root' l' n' := by
  induction more generalizing f ws u reg root l n with
  | nil => exact ⟨f, reg, root, l, n, rfl, by simpa using h⟩
  | cons w more ih =>
    rw [List.pairwise_cons] at hs
    obtain ⟨f1, reg1, root1, l1, n1, k1, k2⟩ := addWord_good h (hs.1 w (by simp))
    obtain ⟨f2, reg2, root2, l2, n2, k3, k4⟩ := ih k2 hs.2
    refine ⟨f2, reg2, root2, l2, n2, by simp [addWords, k1, k3], ?_⟩
    rw [List.getLast_cons (by simp)]
    simpa using k4

/-- The whole automaton. -/
structure Whole (ls : List Line) (ws : List (List Nat)) (reg : Reg) (root : Node) (n : Nat) : Prop where
  inv : Inv reg [root] n
  id : root.id = 0
  nodup : ls.Nodup
  arcs : ∀ p q a, .arc p q a ∈ ls ↔ (∃ b r, ((b, r), p) ∈ reg ∧ (a, q) ∈ r) ∨ (p = 0 ∧ (a, q) ∈ root.done)
  finals : ∀ q, .final q ∈ ls ↔ ∃ r, ((true, r), q) ∈ reg
  fin : root.fin = false
  words : ∀ w, Own reg root w ↔ w ∈ ws

theorem finalize_whole {f : Fsa} {ws : List (List Nat)} {u : List Nat} {reg : Reg} {root : Node}
    {l : List Node} {n : Nat} (h : Good f ws u reg root l n) (hu : u ≠ []) :
    ∃ ls reg' root' n', f.finalize = some ls ∧ Whole ls ws reg' root' n' := by
  obtain ⟨y, l, rfl⟩ : ∃ y l', l = y :: l' := by
    cases l with
    | nil => exact absurd h.last.symm hu
    | cons y l => exact ⟨y, l, rfl⟩
  have hlen : l.length < f.states + 1 := by
    have := h.inv.count
    rw [h.rep.states]
    simp only [List.length_cons] at this
    omega
  obtain ⟨f1, reg1, t, n1, j1, j2, j3, j4, j5⟩ :=
    replaceOrRegister_spec l (pre := []) (fuel := f.states + 1) h.inv h.rep h.leaf hlen
  rw [h.id] at j1
  simp only [List.nil_append] at j2 j3 j5
  generalize hx : root.close y t = x at *
  have hxid : x.id = 0 := by rw [← hx]; exact h.id
  have hxfin : x.fin = false := by rw [← hx]; exact h.fin
  have hxm : x ∈ [x] := by simp
  have rowx : f1.table.lookup x.id = some x.done := by
    have := j3.row [] x [] rfl
    simpa [tailArc] using this
  have uniq : ∀ {b b' : Bool} {r r' : Row} {q : Nat}, ((b, r), q) ∈ reg1 → ((b', r'), q) ∈ reg1 →
      b = b' ∧ r = r' := by
    intro b b' r r' q k1 k2
    have := j2.ok.ids _ k1 _ k2 rfl
    simp only [Prod.mk.injEq] at this
    exact this.1
  have regrow : ∀ {b : Bool} {r r' : Row} {q : Nat}, ((b, r), q) ∈ reg1 → f1.table.lookup q = some r' →
      r' = r := by
    intro b r r' q k1 k2
    rcases j3.rest q r' k2 with ⟨z, h3, h4⟩ | ⟨b', h3⟩
    · exact absurd h4.symm (j2.apart' h3 k1)
    · exact (uniq h3 k1).2
  have ends : ∀ q, q ∈ f1.ends ↔ (∃ r, ((true, r), q) ∈ reg1) ∧ (f1.table.lookup q).isSome = true := by
    intro q
    rw [j3.ends]
    constructor
    · rintro (⟨z, k1, _, k3⟩ | k1)
      · simp only [List.mem_singleton] at k1
        subst k1
        rw [hxfin] at k3
        simp at k3
      · exact k1
    · exact .inr
  refine ⟨f1.out ++ f1.table.flatMap arcLines ++ f1.ends.map .final, reg1, x, n1,
    by simp only [Fsa.finalize, j1, Option.map_some], ⟨j2, hxid, ?_, ?_, ?_, hxfin, ?_⟩⟩
  · rw [List.nodup_append, List.nodup_append]
    refine ⟨⟨j3.nodup, nodup_arcs j3.keys ?_, ?_⟩, nodup_finals j3.endsort, ?_⟩
    · rintro ⟨q, r⟩ he
      rw [← lookup_iff j3.keys] at he
      rcases j3.rest q r he with ⟨z, k1, k2⟩ | ⟨b, k1⟩
      · simp only [List.mem_singleton] at k1
        subst k1
        rw [← k2, rowx] at he
        simp only [Option.some.injEq] at he
        rw [← he]
        exact j2.sorted z hxm
      · exact j2.ok.rows _ k1
    · rintro a ha b hb rfl
      cases a with
      | final q => exact not_final_arcs hb
      | arc p q a =>
        rw [j3.arcs] at ha
        rw [mem_arcs] at hb
        obtain ⟨_, _, _, k1, _⟩ := ha
        obtain ⟨r, k2, _⟩ := hb
        rw [← lookup_iff j3.keys, k1] at k2
        simp at k2
    · rintro a ha b hb rfl
      obtain ⟨q, k1, rfl⟩ := List.mem_map.1 hb
      rcases List.mem_append.1 ha with ha | ha
      · rw [j3.finals] at ha
        rw [ends, ha.2] at k1
        simp at k1
      · exact not_final_arcs ha
  · intro p q a
    have hnf : Line.arc p q a ∈ f1.ends.map Line.final ↔ False := by simp
    rw [List.mem_append, List.mem_append, hnf, or_false, j3.arcs, mem_arcs]
    constructor
    · rintro (⟨b, r, k1, _, k3⟩ | ⟨r, k1, k2⟩)
      · exact .inl ⟨b, r, k1, k3⟩
      · rw [← lookup_iff j3.keys] at k1
        rcases j3.rest p r k1 with ⟨z, m1, m2⟩ | ⟨b, m1⟩
        · simp only [List.mem_singleton] at m1
          subst m1
          rw [← m2, rowx] at k1
          simp only [Option.some.injEq] at k1
          exact .inr ⟨by rw [← m2]; exact hxid, by rw [k1]; exact k2⟩
        · exact .inl ⟨b, r, m1, k2⟩
    · rintro (⟨b, r, k1, k2⟩ | ⟨rfl, k1⟩)
      · cases hl : f1.table.lookup p with
        | none => exact .inl ⟨b, r, k1, rfl, k2⟩
        | some r' =>
          refine .inr ⟨r, ?_, k2⟩
          rw [← lookup_iff j3.keys, hl, regrow k1 hl]
      · refine .inr ⟨x.done, ?_, k1⟩
        rw [← lookup_iff j3.keys, ← hxid, rowx]
  · intro q
    have : Line.final q ∈ f1.ends.map Line.final ↔ q ∈ f1.ends := by simp
    rw [List.mem_append, List.mem_append, this, j3.finals, ends]
    constructor
    · rintro ((⟨k1, _⟩ | k1) | ⟨k1, _⟩)
      · exact k1
      · exact absurd k1 not_final_arcs
      · exact k1
    · intro k1
      cases hl : f1.table.lookup q with
      | none => exact .inl (.inl ⟨k1, rfl⟩)
      | some r => exact .inr ⟨k1, rfl⟩
  · intro w
    have := (j5 w).trans (h.words w)
    simpa [PathAcc] using this

/-- The automaton of sorted words. -/
theorem minfsa_whole {ws : List (List Nat)} (hs : ws.Pairwise (· < ·)) (hne : ws ≠ [])
    (hw : [] ∉ ws) : ∃ ls reg root n, minfsa ws = some ls ∧ Whole ls ws reg root n := by
  have hs' : ([] :: ws).Pairwise (· < ·) := by
    rw [List.pairwise_cons]
    refine ⟨fun w hw' => ?_, hs⟩
    cases w with
    | nil => exact absurd hw' hw
    | cons c w => simp
  obtain ⟨f, reg, root, l, n, k1, k2⟩ := addWords_good ws good_start hs'
  have hlast : ([] :: ws).getLast (by simp) ≠ [] := by
    intro h
    rw [List.getLast_cons hne] at h
    exact hw (h ▸ List.getLast_mem hne)
  obtain ⟨ls, reg', root', n', k3, k4⟩ := finalize_whole k2 hlast
  exact ⟨ls, reg', root', n', by simp [minfsa, k1, k3], by simpa using k4⟩

end Verif.Minfsa
