import Verif.Minfsa.Refine

/-! # Adding a word -/

namespace Verif.Minfsa

theorem Rep.congr {f g : Fsa} {reg : Reg} {path : List Node} {n : Nat} (h : Rep f reg path n)
    (h1 : g.table = f.table) (h2 : g.ends = f.ends) (h3 : g.sig = f.sig) (h4 : g.states = f.states)
    (h5 : g.out = f.out) : Rep g reg path n :=
  ⟨by rw [h3]; exact h.sig, by rw [h4]; exact h.states, by rw [h1]; exact h.keys,
    by rw [h1]; exact h.row, by rw [h1]; exact h.rest, by rw [h1, h2]; exact h.ends,
    by rw [h2]; exact h.endsort, by rw [h1, h5]; exact h.arcs, by rw [h1, h5]; exact h.finals,
    by rw [h5]; exact h.nodup⟩

/-! ## The way along the last word -/

theorem sinsert_end {k : Nat} {l : List Nat} (h : ∀ j ∈ l, j < k) : sinsert k l = l ++ [k] := by
  induction l with
  | nil => rfl
  | cons j l ih =>
    have := h j (by simp)
    simp only [sinsert]
    rw [if_neg (by omega), if_neg (by omega), ih fun i hi => h i (by simp [hi])]
    rfl

theorem lookup_append_none {l : Row} {c s t : Nat} (h : ∀ d ∈ l, d.1 ≠ c) (hs : s ≠ c) :
    (l ++ [(s, t)]).lookup c = none := by
  induction l with
  | nil =>
    have : (c == s) = false := by simpa using hs.symm
    simp [List.lookup_cons, this]
  | cons d l ih =>
    have : (c == d.1) = false := by simpa using (h d (by simp)).symm
    rw [List.cons_append, List.lookup_cons, this]
    exact ih fun e he => h e (by simp [he])

theorem lookup_append_last {l : Row} {c t : Nat} (h : ∀ d ∈ l, d.1 ≠ c) :
    (l ++ [(c, t)]).lookup c = some t := by
  induction l with
  | nil => simp [List.lookup_cons]
  | cons d l ih =>
    have : (c == d.1) = false := by simpa using (h d (by simp)).symm
    rw [List.cons_append, List.lookup_cons, this]
    exact ih fun e he => h e (by simp [he])

theorem deltaPrefix_spec {f : Fsa} {reg : Reg} {n : Nat} (post : List Node) {pre : List Node} {x : Node}
    {w : List Nat} (hi : Inv reg (pre ++ x :: post) n) (hr : Rep f reg (pre ++ x :: post) n)
    (hl : ∀ m z, x :: post = m ++ [z] → z.done = []) (hw : post.map Node.sym < w) :
    ∃ mid z post' rest, x :: post = mid ++ z :: post' ∧
      f.deltaPrefix x.id w (pre.map Node.id) =
        some (z.id, rest, pre.map Node.id ++ (mid ++ [z]).map Node.id) ∧
      rest ≠ [] ∧ w = (mid ++ [z]).tail.map Node.sym ++ rest ∧
      ∀ y l, post' = y :: l → ∃ c r, rest = c :: r ∧ y.sym < c := by
  induction post generalizing pre x w with
  | nil =>
    cases w with
    | nil => simp at hw
    | cons c w =>
      have hd := hl [] x rfl
      have row := hr.row pre x [] rfl
      rw [hd] at row
      have hids := hi.ids
      rw [List.pairwise_append] at hids
      refine ⟨[], x, [], c :: w, rfl, ?_, by simp, by simp, by simp⟩
      simp only [Fsa.deltaPrefix, row, tailArc, List.nil_append, Option.bind_some, List.lookup_nil]
      rw [sinsert_end]
      · simp
      · intro j hj
        obtain ⟨z, hz, rfl⟩ := List.mem_map.1 hj
        exact hids.2.2 z hz x (by simp)
  | cons y l ih =>
    cases w with
    | nil => simp at hw
    | cons c w =>
      have row := hr.row pre x (y :: l) rfl
      have hn := hi.next pre x y l rfl
      have hids := hi.ids
      rw [List.pairwise_append] at hids
      have hs : sinsert x.id (pre.map Node.id) = pre.map Node.id ++ [x.id] := by
        apply sinsert_end
        intro j hj
        obtain ⟨z, hz, rfl⟩ := List.mem_map.1 hj
        exact hids.2.2 z hz x (by simp)
      rw [List.map_cons, List.cons_lt_cons_iff] at hw
      rcases hw with hw | ⟨rfl, hw⟩
      · refine ⟨[], x, y :: l, c :: w, rfl, ?_, by simp, by simp, ?_⟩
        · have : (x.done ++ [(y.sym, y.id)]).lookup c = none :=
            lookup_append_none (fun d hd => by have := hn d hd; omega) (by omega)
          simp only [Fsa.deltaPrefix, row, tailArc, Option.bind_some, this, hs]
          simp
        · intro y' l' he
          simp only [List.cons.injEq] at he
          exact ⟨c, w, rfl, by rw [← he.1]; exact hw⟩
      · have e : pre ++ x :: y :: l = (pre ++ [x]) ++ y :: l := by simp
        rw [e] at hi hr
        obtain ⟨mid, z, post', rest, k1, k2, k3, k4, k5⟩ := ih hi hr
          (fun m z hm => hl (x :: m) z (by rw [hm]; rfl)) hw
        refine ⟨x :: mid, z, post', rest, by rw [k1]; rfl, ?_, k3, ?_, k5⟩
        · have : (x.done ++ [(y.sym, y.id)]).lookup y.sym = some y.id :=
            lookup_append_last fun d hd => by have := hn d hd; omega
          simp only [Fsa.deltaPrefix, row, tailArc, Option.bind_some, this, hs]
          rw [List.map_append] at k2
          simp only [List.map_cons, List.map_nil] at k2
          rw [k2]
          simp
        · rw [k4]
          cases mid with
          | nil =>
            simp only [List.nil_append, List.cons.injEq] at k1
            simp [k1.1]
          | cons u mid =>
            simp only [List.cons_append, List.cons.injEq] at k1
            simp [k1.1]

/-! ## A new branch -/

theorem Rep.push {f : Fsa} {reg : Reg} {pre : List Node} {z : Node} {n c : Nat}
    (hi : Inv reg (pre ++ [z]) n) (h : Rep f reg (pre ++ [z]) n) (hc : ∀ d ∈ z.done, d.1 < c) :
    Rep (f.addState.addTransition z.id n c) reg (pre ++ [z] ++ [⟨n, false, [], c⟩]) (n + 1) := by
  have hz : z ∈ pre ++ [z] := by simp
  have hzn := hi.idlt z hz
  have hs := h.states
  have rowz : f.table.lookup z.id = some z.done := by
    have := h.row pre z [] rfl
    simpa [tailArc] using this
  have hrow : f.addState.row z.id = z.done := by
    simp only [Fsa.row, Fsa.addState, lookup_mset, hs]
    rw [if_neg (by omega), rowz]
    rfl
  have hfree : f.table.lookup n = none := by
    cases hl : f.table.lookup n with
    | none => rfl
    | some r =>
      rcases h.rest n r hl with ⟨x, h1, h2⟩ | ⟨b, h1⟩
      · have := hi.idlt x h1; omega
      · have := hi.below _ h1; simp only at this; omega
  have hlk : ∀ q, (f.addState.addTransition z.id n c).table.lookup q =
      if q = z.id then some (z.done ++ [(c, n)]) else if q = n then some [] else f.table.lookup q := by
    intro q
    simp only [Fsa.addTransition, lookup_mset, hrow, mset_end hc]
    simp only [Fsa.addState, lookup_mset, hs]
  have reglk : ∀ g q, (g, q) ∈ reg →
      (f.addState.addTransition z.id n c).table.lookup q = f.table.lookup q := by
    intro g q hg
    have := hi.below _ hg
    simp only at this
    rw [hlk, if_neg (hi.apart' hz hg), if_neg (by omega)]
  refine ⟨h.sig, by simp [Fsa.addTransition, Fsa.addState, hs], ?_, ?_, ?_, ?_, h.endsort, ?_, ?_, h.nodup⟩
  · exact keys_mset _ _ _ (keys_mset _ _ _ h.keys)
  · intro pre' x post hp
    rw [hlk]
    rcases end_split hp with ⟨rfl, rfl, rfl⟩ | ⟨c', rfl, hb⟩
    · simp only
      rw [if_neg (by omega), if_pos (by trivial)]
      rfl
    · rcases end_split hb with ⟨rfl, rfl, rfl⟩ | ⟨c2, rfl, rfl⟩
      · rw [if_pos rfl]
        rfl
      · have hx : x ∈ pre' ++ x :: c2 := by simp
        have hids := hi.ids
        rw [List.pairwise_append] at hids
        have h1 := hids.2.2 x hx z (by simp)
        rw [if_neg (by omega), if_neg (by omega), h.row pre' x (c2 ++ [z]) (by simp)]
        cases c2 <;> rfl
  · intro q r hq
    rw [hlk] at hq
    by_cases c1 : q = z.id
    · exact .inl ⟨z, by simp, c1.symm⟩
    · rw [if_neg c1] at hq
      by_cases c2 : q = n
      · exact .inl ⟨⟨n, false, [], c⟩, by simp, c2.symm⟩
      · rw [if_neg c2] at hq
        rcases h.rest q r hq with ⟨x, h1, h2⟩ | h1
        · exact .inl ⟨x, List.mem_append_left _ h1, h2⟩
        · exact .inr h1
  · intro q
    have he : (f.addState.addTransition z.id n c).ends = f.ends := rfl
    rw [he, h.ends]
    constructor
    · rintro (⟨x, h1, h2, h3⟩ | ⟨⟨r, h1⟩, h2⟩)
      · exact .inl ⟨x, List.mem_append_left _ h1, h2, h3⟩
      · exact .inr ⟨⟨r, h1⟩, by rw [reglk _ _ h1]; exact h2⟩
    · rintro (⟨x, h1, h2, h3⟩ | ⟨⟨r, h1⟩, h2⟩)
      · rcases List.mem_append.1 h1 with h1 | h1
        · exact .inl ⟨x, h1, h2, h3⟩
        · simp only [List.mem_singleton] at h1
          subst h1
          simp at h3
      · exact .inr ⟨⟨r, h1⟩, by rw [← reglk _ _ h1]; exact h2⟩
  · intro p q a
    have he : (f.addState.addTransition z.id n c).out = f.out := rfl
    rw [he, h.arcs]
    refine exists_congr fun b => exists_congr fun r => and_congr_right fun h1 => ?_
    rw [reglk _ _ h1]
  · intro q
    have he : (f.addState.addTransition z.id n c).out = f.out := rfl
    rw [he, h.finals]
    refine and_congr_right fun ⟨r, h1⟩ => ?_
    rw [reglk _ _ h1]

theorem Rep.setEnd {f : Fsa} {reg : Reg} {pre : List Node} {z : Node} {n : Nat}
    (h : Rep f reg (pre ++ [z]) n) : Rep (f.setEnd z.id) reg (pre ++ [{ z with fin := true }]) n := by
  refine ⟨h.sig, h.states, h.keys, ?_, ?_, ?_, sort_sinsert _ _ h.endsort, h.arcs, h.finals, h.nodup⟩
  · intro pre' x post hp
    rcases end_split hp with ⟨rfl, rfl, rfl⟩ | ⟨c', rfl, rfl⟩
    · exact h.row pre' z [] rfl
    · have := h.row pre' x (c' ++ [z]) (by simp)
      simp only [Fsa.setEnd]
      rw [this]
      cases c' <;> rfl
  · intro q r hq
    rcases h.rest q r hq with ⟨x, h1, h2⟩ | h1
    · rcases List.mem_append.1 h1 with h1 | h1
      · exact .inl ⟨x, by simp [h1], h2⟩
      · simp only [List.mem_singleton] at h1
        subst h1
        exact .inl ⟨{ x with fin := true }, by simp, h2⟩
    · exact .inr h1
  · intro q
    simp only [Fsa.setEnd, mem_sinsert, h.ends q]
    constructor
    · rintro (rfl | ⟨x, h1, h2, h3⟩ | h1)
      · exact .inl ⟨{ z with fin := true }, by simp, rfl, rfl⟩
      · rcases List.mem_append.1 h1 with h1 | h1
        · exact .inl ⟨x, by simp [h1], h2, h3⟩
        · simp only [List.mem_singleton] at h1
          subst h1
          exact .inl ⟨{ x with fin := true }, by simp, h2, rfl⟩
      · exact .inr h1
    · rintro (⟨x, h1, h2, h3⟩ | h1)
      · rcases List.mem_append.1 h1 with h1 | h1
        · exact .inr (.inl ⟨x, by simp [h1], h2, h3⟩)
        · simp only [List.mem_singleton] at h1
          subst h1
          exact .inl h2.symm
      · exact .inr (.inr h1)

theorem addBranch_rep {reg : Reg} (w : List Nat) (hw : w ≠ []) {f : Fsa} {pre : List Node} {z : Node}
    {n : Nat} (hi : Inv reg (pre ++ [z]) n) (h : Rep f reg (pre ++ [z]) n)
    (hc : ∀ c w', w = c :: w' → ∀ d ∈ z.done, d.1 < c) :
    Rep (f.addBranch z.id w) reg (pre ++ z :: branch n w) (n + w.length) := by
  induction w generalizing f pre z n with
  | nil => simp at hw
  | cons c w ih =>
    have hp := h.push hi (hc c w rfl)
    have hi2 := hi.push (hc c w rfl)
    have hs := h.states
    simp only [Fsa.addBranch, branch, List.length_cons]
    have hp' : Rep { f.addState.addTransition z.id f.states c with added := sinsert f.states f.added } reg
        (pre ++ [z] ++ [⟨n, false, [], c⟩]) (n + 1) := by
      rw [hs]
      exact hp.congr rfl rfl rfl rfl rfl
    rw [hs] at hp' ⊢
    by_cases hw' : w = []
    · subst hw'
      have := hp'.setEnd
      simpa [Fsa.addBranch, branch] using this
    · have := ih hw' hi2 hp' (by intro c' w' _ d hd; simp at hd)
      have hf : w.isEmpty = false := by simpa using hw'
      rw [hf, show n + (w.length + 1) = n + 1 + w.length by omega]
      simpa using this

theorem addBranch_traversed (w : List Nat) (f : Fsa) (q : Nat) :
    (f.addBranch q w).traversed = f.traversed := by
  induction w generalizing f q with
  | nil => rfl
  | cons c w ih => simp only [Fsa.addBranch]; rw [ih]; rfl

theorem addBranch_added (w : List Nat) (f : Fsa) (q m : Nat) (l : List Nat) (h : f.added = m :: l)
    (hm : m < f.states) : ∃ l', (f.addBranch q w).added = m :: l' := by
  induction w generalizing f q l with
  | nil => exact ⟨l, h⟩
  | cons c w ih =>
    simp only [Fsa.addBranch]
    refine ih _ _ (sinsert f.states l) ?_ ?_
    · simp only [h, sinsert]
      rw [if_neg (by omega), if_neg (by omega)]
    · simp [Fsa.addTransition, Fsa.addState]; omega

theorem addBranch_first (w : List Nat) (hw : w ≠ []) (f : Fsa) (q : Nat) (h : f.added = []) :
    ∃ l', (f.addBranch q w).added = f.states :: l' := by
  cases w with
  | nil => simp at hw
  | cons c w =>
    simp only [Fsa.addBranch]
    refine addBranch_added w _ _ f.states [] ?_ ?_
    · simp [h, sinsert]
    · simp [Fsa.addTransition, Fsa.addState]

/-! ## Purging -/

theorem nodup_arcs {l : List (Nat × Row)} (hk : l.Pairwise fun x y => x.1 < y.1)
    (hr : ∀ e ∈ l, e.2.Pairwise fun x y => x.1 < y.1) : (l.flatMap arcLines).Nodup := by
  induction l with
  | nil => simp
  | cons e l ih =>
    rw [List.pairwise_cons] at hk
    rw [List.flatMap_cons, List.nodup_append]
    refine ⟨?_, ih hk.2 fun x hx => hr x (by simp [hx]), ?_⟩
    · unfold arcLines
      have := hr e (by simp)
      rw [List.Nodup, List.pairwise_map]
      refine this.imp ?_
      intro x y hxy he
      simp only [Line.arc.injEq] at he
      omega
    · intro x hx y hy he
      subst he
      obtain ⟨e', h1, h2⟩ := List.mem_flatMap.1 hy
      obtain ⟨u, _, rfl⟩ := List.mem_map.1 hx
      obtain ⟨v, _, h3⟩ := List.mem_map.1 h2
      simp only [Line.arc.injEq] at h3
      have := hk.1 e' h1
      omega

theorem nodup_finals {l : List Nat} (h : l.Pairwise (· < ·)) : (l.map Line.final).Nodup := by
  rw [List.Nodup, List.pairwise_map]
  refine h.imp ?_
  intro a b hab he
  simp only [Line.final.injEq] at he
  omega

theorem mem_arcs {l : List (Nat × Row)} {p q a : Nat} :
    Line.arc p q a ∈ l.flatMap arcLines ↔ ∃ r, (p, r) ∈ l ∧ (a, q) ∈ r := by
  rw [List.mem_flatMap]
  constructor
  · rintro ⟨⟨p', r⟩, h1, h2⟩
    obtain ⟨⟨a', q'⟩, h3, h4⟩ := List.mem_map.1 h2
    simp only [Line.arc.injEq] at h4
    obtain ⟨rfl, rfl, rfl⟩ := h4
    exact ⟨r, h1, h3⟩
  · rintro ⟨r, h1, h2⟩
    exact ⟨_, h1, List.mem_map.2 ⟨_, h2, rfl⟩⟩

theorem not_final_arcs {l : List (Nat × Row)} {q : Nat} : Line.final q ∉ l.flatMap arcLines := by
  intro h
  obtain ⟨e, _, h2⟩ := List.mem_flatMap.1 h
  obtain ⟨d, _, h4⟩ := List.mem_map.1 h2
  simp at h4

theorem Rep.purge {f : Fsa} {reg : Reg} {path : List Node} {n m : Nat} {l : List Nat}
    (hi : Inv reg path n) (h : Rep f reg path n) (ha : f.added = m :: l)
    (ht : ∀ x ∈ path, x.id < m → x.id ∈ f.traversed) : Rep f.purge reg path n := by
  unfold Fsa.purge
  rw [ha]
  simp only
  generalize hP : (fun q : Nat => decide (q < m) && !f.traversed.contains q) = P
  have hPp : ∀ x ∈ path, P x.id = false := by
    intro x hx
    rw [← hP]
    by_cases c : x.id < m
    · have := ht x hx c
      simp [this]
    · simp [c]
  have e1 : (f.table.filter fun e => decide (e.1 < m) && !f.traversed.contains e.1) =
      f.table.filter fun e => P e.1 := by rw [← hP]
  have e2 : (f.table.filter fun e => !(decide (e.1 < m) && !f.traversed.contains e.1)) =
      f.table.filter fun e => !P e.1 := by rw [← hP]
  rw [e1, e2]
  have hlk : ∀ q, (f.table.filter fun e => !P e.1).lookup q =
      if P q then none else f.table.lookup q := by
    intro q
    rw [lookup_filter fun q => !P q]
    cases P q <;> simp
  have hold : ∀ q r, (q, r) ∈ (f.table.filter fun e => P e.1) ↔
      f.table.lookup q = some r ∧ P q = true := by
    intro q r
    rw [List.mem_filter, lookup_iff h.keys]
  have holdk : ∀ q, q ∈ (f.table.filter fun e => P e.1).map Prod.fst ↔
      (f.table.lookup q).isSome = true ∧ P q = true := by
    intro q
    constructor
    · intro hq
      obtain ⟨⟨q', r⟩, h1, rfl⟩ := List.mem_map.1 hq
      rw [hold] at h1
      exact ⟨by rw [h1.1]; rfl, h1.2⟩
    · rintro ⟨h1, h2⟩
      obtain ⟨r, hr⟩ := Option.isSome_iff_exists.1 h1
      exact List.mem_map.2 ⟨(q, r), (hold q r).2 ⟨hr, h2⟩, rfl⟩
  have holdreg : ∀ q r, f.table.lookup q = some r → P q = true → ∃ b, ((b, r), q) ∈ reg := by
    intro q r h1 h2
    rcases h.rest q r h1 with ⟨x, h3, h4⟩ | h3
    · have := hPp x h3
      rw [h4, h2] at this
      simp at this
    · exact h3
  have uniq : ∀ {b b' : Bool} {r r' : Row} {q : Nat}, ((b, r), q) ∈ reg → ((b', r'), q) ∈ reg →
      b = b' ∧ r = r' := by
    intro b b' r r' q k1 k2
    have := hi.ok.ids _ k1 _ k2 rfl
    simp only [Prod.mk.injEq] at this
    exact this.1
  have regrow : ∀ {b : Bool} {r r' : Row} {q : Nat}, ((b, r), q) ∈ reg → f.table.lookup q = some r' →
      r' = r := by
    intro b r r' q k1 k2
    rcases h.rest q r' k2 with ⟨x, h3, h4⟩ | ⟨b', h3⟩
    · exact absurd h4.symm (hi.apart' h3 k1)
    · exact (uniq h3 k1).2
  refine ⟨h.sig, h.states, ?_, ?_, ?_, ?_, ?_, ?_, ?_, ?_⟩
  · exact List.Pairwise.filter _ h.keys
  · intro pre x post hp
    rw [hlk, hPp x (by rw [hp]; simp)]
    exact h.row pre x post hp
  · intro q r hq
    rw [hlk] at hq
    split at hq
    · simp at hq
    · exact h.rest q r hq
  · intro q
    simp only [List.mem_filter, hlk]
    have hc : (!((f.table.filter fun e => P e.1).map Prod.fst).contains q) = true ↔
        ¬ ((f.table.lookup q).isSome = true ∧ P q = true) := by
      rw [← holdk]
      simp
    rw [hc, h.ends]
    constructor
    · rintro ⟨⟨x, h1, h2, h3⟩ | ⟨⟨r, h1⟩, h2⟩, hn⟩
      · exact .inl ⟨x, h1, h2, h3⟩
      · refine .inr ⟨⟨r, h1⟩, ?_⟩
        have : P q = false := by
          cases hq : P q with
          | false => rfl
          | true => exact absurd ⟨h2, hq⟩ hn
        simp [this, h2]
    · rintro (⟨x, h1, h2, h3⟩ | ⟨⟨r, h1⟩, h2⟩)
      · refine ⟨.inl ⟨x, h1, h2, h3⟩, ?_⟩
        rintro ⟨_, h4⟩
        rw [← h2, hPp x h1] at h4
        simp at h4
      · cases hq : P q with
        | false =>
          rw [hq] at h2
          exact ⟨.inr ⟨⟨r, h1⟩, by simpa using h2⟩, by simp⟩
        | true => rw [hq] at h2; simp at h2
  · exact List.Pairwise.filter _ h.endsort
  · intro p q a
    simp only [List.mem_append, mem_arcs, h.arcs, hlk]
    have hnf : ∀ l : List (Nat × Row), Line.arc p q a ∈ l.map (fun e => Line.final e.1) ↔ False := by
      intro l; simp
    rw [hnf, or_false]
    constructor
    · rintro (⟨b, r, h1, h2, h3⟩ | ⟨r, h1, h2⟩)
      · exact ⟨b, r, h1, by simp [h2], h3⟩
      · rw [hold] at h1
        obtain ⟨b, hb⟩ := holdreg p r h1.1 h1.2
        exact ⟨b, r, hb, by simp [h1.2], h2⟩
    · rintro ⟨b, r, h1, h2, h3⟩
      cases hl : f.table.lookup p with
      | none => exact .inl ⟨b, r, h1, rfl, h3⟩
      | some r' =>
        cases hp : P p with
        | false => rw [hp, hl] at h2; simp at h2
        | true =>
          refine .inr ⟨r, (hold p r).2 ⟨?_, hp⟩, h3⟩
          rw [hl, regrow h1 hl]
  · intro q
    simp only [List.mem_append, not_final_arcs, or_false, h.finals, hlk]
    have hm : Line.final q ∈ ((f.table.filter fun e => P e.1).filter fun e => f.ends.contains e.1).map
        (fun e => Line.final e.1) ↔ (f.table.lookup q).isSome = true ∧ P q = true ∧ q ∈ f.ends := by
      constructor
      · intro hq
        obtain ⟨⟨q', r⟩, h1, h2⟩ := List.mem_map.1 hq
        simp only [Line.final.injEq] at h2
        subst h2
        obtain ⟨h3, h4⟩ := List.mem_filter.1 h1
        rw [hold] at h3
        exact ⟨by rw [h3.1]; rfl, h3.2, by simpa using h4⟩
      · rintro ⟨h1, h2, h3⟩
        obtain ⟨r, hr⟩ := Option.isSome_iff_exists.1 h1
        exact List.mem_map.2 ⟨(q, r), List.mem_filter.2 ⟨(hold q r).2 ⟨hr, h2⟩, by simpa using h3⟩, rfl⟩
    rw [hm]
    constructor
    · rintro (⟨h1, h2⟩ | ⟨h1, h2, h3⟩)
      · exact ⟨h1, by simp [h2]⟩
      · refine ⟨?_, by simp [h2]⟩
        rw [h.ends] at h3
        rcases h3 with ⟨x, k1, k2, _⟩ | ⟨k1, _⟩
        · rw [← k2, hPp x k1] at h2; simp at h2
        · exact k1
    · rintro ⟨⟨r, h1⟩, h2⟩
      cases hl : f.table.lookup q with
      | none => exact .inl ⟨⟨r, h1⟩, rfl⟩
      | some r' =>
        cases hp : P q with
        | false => rw [hp, hl] at h2; simp at h2
        | true =>
          refine .inr ⟨rfl, rfl, ?_⟩
          rw [h.ends]
          exact .inr ⟨⟨r, h1⟩, by rw [hl]; rfl⟩
  · have hk : (f.table.filter fun e => P e.1).Pairwise fun x y => x.1 < y.1 :=
      List.Pairwise.filter _ h.keys
    rw [List.nodup_append, List.nodup_append]
    refine ⟨⟨h.nodup, nodup_arcs hk ?_, ?_⟩, ?_, ?_⟩
    · rintro ⟨q, r⟩ he
      rw [hold] at he
      obtain ⟨b, hb⟩ := holdreg q r he.1 he.2
      exact hi.ok.rows _ hb
    · rintro x hx y hy rfl
      cases x with
      | final q => exact not_final_arcs hy
      | arc p q a =>
        rw [h.arcs] at hx
        rw [mem_arcs] at hy
        obtain ⟨_, _, _, k1, _⟩ := hx
        obtain ⟨r, k2, _⟩ := hy
        rw [hold] at k2
        rw [k1] at k2
        simp at k2
    · have : ((f.table.filter fun e => P e.1).filter fun e => f.ends.contains e.1).map
          (fun e => Line.final e.1) =
          (((f.table.filter fun e => P e.1).filter fun e => f.ends.contains e.1).map Prod.fst).map
            Line.final := by simp
      rw [this]
      apply nodup_finals
      rw [List.pairwise_map]
      exact List.Pairwise.filter _ hk
    · rintro x hx y hy rfl
      obtain ⟨⟨q, r⟩, k1, rfl⟩ := List.mem_map.1 hy
      obtain ⟨k1, _⟩ := List.mem_filter.1 k1
      rw [hold] at k1
      rcases List.mem_append.1 hx with hx | hx
      · rw [h.finals] at hx
        have := hx.2
        simp only at this
        rw [k1.1] at this
        simp at this
      · exact not_final_arcs hx

end Verif.Minfsa
