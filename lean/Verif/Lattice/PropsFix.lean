import Verif.Lattice.FixLemmas

/-!
Property theorems C109 (inserting), C110 (erasing) and C111 (replacing text in a lattice).
-/
set_option linter.unusedVariables false
set_option linter.unusedSimpArgs false

namespace Verif.Lattice
open Verif Verif.Tags Verif.Tags.Spec Verif.Lattice.Spec

/-! ## Refuting readings of a concrete lattice -/

/-- All edges. -/
def edgesOf (s : State) : List Edge :=
  ((List.range s.implicit.length).filter (fun i => bitAt s.implicit i)).map .impl ++ (List.range s.edges.length).map .expl

/-- A search for a reading. -/
def readsB (s : State) : Nat → Vertex → Str → Vertex → Bool
  | 0, u, w, v => decide (w = []) && decide (u = v)
  | n + 1, u, w, v => (decide (w = []) && decide (u = v)) || (edgesOf s).any (fun e =>
      decide (s.src e = u) && match s.item e with
        | .ok it => it.text.isPrefixOf w && readsB s n (s.tgt e) (w.drop it.text.length) v
        | .error _ => false)

theorem mem_edgesOf {s : State} {e : Edge} (h : Present s e) : e ∈ edgesOf s := by
  cases e with
  | impl i =>
    have hb := present_impl.1 h
    have hl : i < s.implicit.length := by
      by_contra hc
      simp [bitAt, List.getD_eq_getElem?_getD, List.getElem?_eq_none (Nat.le_of_not_lt hc)] at hb
    simp [edgesOf, hl, hb]
  | expl k => simp [edgesOf, present_expl.1 h]

theorem readsB_of {s : State} (hne : (edgesOf s).all (fun e => match s.item e with | .ok it => !it.text.isEmpty | .error _ => true) = true)
    {u v : Vertex} {w : Str} (h : Reads s u w v) : ∀ n, w.length ≤ n → readsB s n u w v = true := by
  induction h with
  | nil => intro n _; cases n <;> simp [readsB]
  | @cons e it w v he ht hit _ ih =>
    intro n hn
    have hmem := mem_edgesOf he
    have h1 := List.all_eq_true.1 hne e hmem
    rw [hit] at h1
    have hpos : 0 < it.text.length := by
      rw [List.length_pos_iff]
      intro h0; simp [h0] at h1
    rw [List.length_append] at hn
    cases n with
    | zero => omega
    | succ n =>
      unfold readsB
      rw [Bool.or_eq_true]
      right
      rw [List.any_eq_true]
      refine ⟨e, hmem, ?_⟩
      rw [hit]
      simp [ih n (by omega)]

/-! ## Samples -/

/-- The text "ab". -/
def fix0 : State := appendString initial [97, 98]
/-- … with the first symbol edge. -/
def fix1 : State := (addEdge fix0 { src := 0, tgt := 1, item := ⟨[39, 97], [], []⟩, tags := symbolTag }).2
/-- … with both symbol edges. -/
def fix2 : State := (addEdge fix1 { src := 1, tgt := 2, item := ⟨[39, 98], [], []⟩, tags := symbolTag }).2
/-- … with "z" as another reading of "b". -/
def fix3 : State := (addEdge fix2 { src := 1, tgt := 2, item := symbolItem [122], tags := symbolTag }).2

theorem fix0_reachable : Lattice.Spec.Reachable fix0 := reachable_append .refl _
theorem fix1_reachable : Lattice.Spec.Reachable fix1 := reachable_add fix0_reachable (made_symbol fix0_reachable) (by decide +kernel)
theorem fix2_reachable : Lattice.Spec.Reachable fix2 := reachable_add fix1_reachable (made_symbol fix1_reachable) (by decide +kernel)
theorem fix3_reachable : Lattice.Spec.Reachable fix3 := reachable_add fix2_reachable (made_symbol fix2_reachable) (by decide +kernel)

theorem wf_a : Utf8.Spec.WellFormed [97] := ⟨[97], by simp [Utf8.Spec.Scalar], by decide +kernel⟩
theorem fix2_b : SymbolsAt fix2 1 [98] 2 := by
  have h : SymbolsAt fix2 (1 + (Utf8.Spec.encode 98).length) [] 2 :=
    .nil (i := 2) ⟨[97, 98], by simp [Utf8.Spec.Scalar], by decide +kernel⟩ (by decide +kernel)
  exact .cons (by exact wf_a) (by simp [Utf8.Spec.Scalar]) (by decide +kernel) (present_impl.2 (by decide +kernel)) h
theorem fix2_a : SymbolsAt fix2 0 [97] 1 := by
  have h : SymbolsAt fix2 (0 + (Utf8.Spec.encode 97).length) [] 1 := .nil (i := 1) wf_a (by decide +kernel)
  exact .cons ⟨[], by simp, by decide +kernel⟩ (by simp [Utf8.Spec.Scalar]) (by decide +kernel) (present_impl.2 (by decide +kernel)) h

/-- `addSymbols` keeps order. -/
theorem orderly_add {s s' : State} {a : Args} {r : Except Exn Edge} (h : Run Orderly initial s) (hm : a.tags = symbolTag)
    (ht : a.item.text = [] ∨ Present s (.impl a.src.toNat)) (he : addEdge s a = (r, s')) (hr : r ≠ .error .undefined) : Run Orderly initial s' := by
  refine .step h ?_ (.add (hm ▸ made_symbol (run_steps h)) he hr)
  intro b hb _ _
  cases hb with
  | add => exact ht

theorem fix2_orderly : Run Orderly initial fix2 := by
  have h0 : Run Orderly initial fix0 := .step .refl (by intro a ha; cases ha) .append
  have h1 : Run Orderly initial fix1 := orderly_add h0 rfl (Or.inl rfl) (Prod.ext rfl rfl) (by decide +kernel)
  exact orderly_add h1 rfl (Or.inl rfl) (Prod.ext rfl rfl) (by decide +kernel)

/-! ## C109 -/

/-- Text inserted at a text position can be read there, followed by the first symbol that could be read there and
everything that came after it; everything that could be read can still be read.

Missing: the other symbols that could be read at the position (`C109_alternatives_false`), the end of the text
(`C109_end_false`, `C109_end_cycle`) and the empty text (`C109_empty_false`). -/
theorem C109_insert_partial {s : State} (hr : Lattice.Spec.Reachable s) {here : Vertex} (h0 : 0 ≤ here)
    (hv : s.validVertex here = true) {d : Edge} {ds : List Edge} {it : Item} (hd : (outEdges s here symbolMask).1 = d :: ds)
    (hit : s.item d = .ok it) {text : Str} (hw : Utf8.Spec.WellFormed text) (hne : text ≠ []) :
    ∃ s', correctionInsert s here text = (.ok (), s') ∧ Steps s s' ∧ KeepsReadings s s' ∧
      ∀ w v, Reads s (s.tgt d) w v → Reads s' here (text ++ it.text ++ w) v := by
  have hi := reachable_inv' hr
  obtain ⟨cs, hcs, rfl⟩ := hw
  have hne' : cs ≠ [] := by rintro rfl; simp [Utf8.Spec.encodeAll] at hne
  obtain ⟨s1, v, h1, hk1, hr1, hval, ho1, _, hn1⟩ := insert_loop cs (o := none) hcs hr (Nat.le_refl _) hv (Or.inr h0)
  obtain ⟨hlt, hout, hvvc⟩ := hn1 hne'
  obtain ⟨ds', hd'⟩ : ∃ ds', (outEdges s1 here symbolMask).1 = d :: ds' := by
    obtain ⟨t, ht⟩ := ho1 here
    rw [hd] at ht
    exact ⟨_, ht.symm⟩
  obtain ⟨hp, _, _⟩ := outs_present hi (by rw [hd]; simp : d ∈ (outEdges s here symbolMask).1)
  have hi1 := hk1.inv hi
  have htv := present_validTgt hi hp
  obtain ⟨s2, h2, hk2, hr2⟩ := insert_join (hk1.reachable hr) hd' (by rw [hk1.item hi hp]; exact hit) hval (by omega)
    (by
      rw [hk1.tgt hi hp]
      simp only [State.validVertex, Bool.and_eq_true, decide_eq_true_eq] at htv
      omega) hout hvvc
  have hk := hk1.trans hk2
  refine ⟨s2, ?_, hk.steps, hk.readings hi, ?_⟩
  · unfold correctionInsert
    rw [if_pos hv, h1]
    simp only [hne', if_false]
    exact h2
  · intro w v' hw'
    rw [hk1.tgt hi hp] at hr2
    exact reads_append (reads_append (hk2.readings hi1 _ _ _ hr1) hr2) (hk.readings hi _ _ _ hw')

example : Lattice.Spec.Reachable fix2 ∧ fix2.validVertex 1 = true ∧ (outEdges fix2 1 symbolMask).1 = .impl 1 :: [] ∧
    fix2.item (.impl 1) = .ok ⟨[39, 98], [98], []⟩ ∧ Utf8.Spec.WellFormed [120, 121] ∧ Reads fix2 (fix2.tgt (.impl 1)) [] 2 :=
  ⟨fix2_reachable, by decide +kernel, by decide +kernel, by decide +kernel, ⟨[120, 121], by simp [Utf8.Spec.Scalar], by decide +kernel⟩,
    by rw [show fix2.tgt (.impl 1) = 2 from by decide +kernel]; exact .nil⟩

/-- Text inserted where two symbols could be read can only be read before the first of them. -/
theorem C109_alternatives_false : ∃ (s s' : State) (here : Vertex) (text : Str) (d : Edge) (it : Item), Lattice.Spec.Reachable s ∧ 0 ≤ here ∧
    d ∈ (outEdges s here symbolMask).1 ∧ s.item d = .ok it ∧ Utf8.Spec.WellFormed text ∧ text ≠ [] ∧
    correctionInsert s here text = (.ok (), s') ∧ Reads s here it.text (s.tgt d) ∧ ¬ Reads s' here (text ++ it.text) (s.tgt d) := by
  refine ⟨fix3, (correctionInsert fix3 1 [120]).2, 1, [120], .expl 0, symbolItem [122], fix3_reachable, by omega, by decide +kernel,
    by decide +kernel, ⟨[120], by simp [Utf8.Spec.Scalar], by decide +kernel⟩, by simp, Prod.ext (by decide +kernel) rfl, ?_, ?_⟩
  · exact reads_single (e := .expl 0) (present_expl.2 (by decide +kernel)) (by
      rw [show fix3.tags (.expl 0) = symbolTag from by decide +kernel]; exact fun _ h => h) (by decide +kernel)
  · intro h
    have := readsB_of (by decide +kernel) h 2 (by decide +kernel)
    revert this
    decide +kernel

/-- At a place where no symbol could be read (such as the end of the text), inserting one character throws
`LoopEdgeException`, … -/
theorem C109_end_loop {s : State} (hr : Lattice.Spec.Reachable s) {here : Vertex} (hv : s.validVertex here = true)
    (hd : (outEdges s here symbolMask).1 = []) {c : Nat} (hc : Utf8.Spec.Scalar c) :
    (correctionInsert s here (Utf8.Spec.encode c)).1 = .error .loopEdge := by
  have hi := reachable_inv' hr
  obtain ⟨s1, h1, hk1, hl1, hr1, ho1, hv1, hvvc1⟩ := insert_round hr hv (Or.inl hd) (Utf8.Spec.encode c)
  have hloop : insertLoop (Utf8.Spec.encode c).length s here none (Utf8.Spec.encode c) = (.ok (some (addLooseVertex s).1), s1) := by
    have hpos := encode_length_pos c
    generalize hn : (Utf8.Spec.encode c).length = n
    cases n with
    | zero => omega
    | succ n =>
      have hnext : Utf8.validateNext (Utf8.Spec.encode c) = .ok (c, []) := by
        have := next_cons hc []; rwa [List.append_nil] at this
      rw [insertLoop.eq_2, if_neg (Utf8.encode_ne_nil c), hnext]
      simp only [Utf8.append_eq_encode c (Utf8.scalar_lt hc), h1]
      cases n <;> simp [insertLoop]
  have hout : (outEdges s1 here symbolMask).1 = [.expl s.edges.length] := by rw [ho1, hd]; simp
  unfold correctionInsert
  rw [if_pos hv, hloop]
  simp only
  have hi1 := hk1.inv hi
  obtain ⟨hk2, hvvc⟩ := query_state (s := s1) here
  generalize hq : (outEdges s1 here symbolMask).2 = s2 at hk2 hvvc
  have hpair : outEdges s1 here symbolMask = ([.expl s.edges.length], s2) := Prod.ext hout hq
  obtain ⟨hp, hsrc, _⟩ := outs_present hi1 (by rw [hout]; simp : Edge.expl s.edges.length ∈ (outEdges s1 here symbolMask).1)
  have hkey : ((s1.entry s.edges.length).key, Edge.expl s.edges.length) ∈ s1.vvc := hi1.vvcAll _ (present_expl.1 hp)
  have htgt : s1.tgt (.expl s.edges.length) = (addLooseVertex s).1 := by
    obtain ⟨_, h3⟩ := hi1.vvcExpl _ _ (by rw [hvvc1]; simp :
      ((⟨here, (addLooseVertex s).1, symbolItem (Utf8.Spec.encode c)⟩ : Key), Edge.expl s.edges.length) ∈ s1.vvc)
    have := congrArg Key.tgt h3
    simpa [State.tgt, Entry.key] using this.symm
  have hval : s2.validVertex (addLooseVertex s).1 = true := by
    have := present_validTgt hi1 hp
    rw [htgt] at this
    exact hk2.validVertex hi1 this
  unfold insertJoin
  rw [hpair]
  simp only [State.item]
  rw [C02_loop_rejected s2 _ hval (by simp [State.validSequence, Sequence.empty]) (by simp only; rw [hk2.tgt hi1 hp, htgt])]

/-- … although the character has been added. -/
theorem C109_end_false : ∃ (s s' : State) (text : Str), Lattice.Spec.Reachable s ∧ Utf8.Spec.WellFormed text ∧ text ≠ [] ∧
    correctionInsert s s.text.length text = (.error .loopEdge, s') ∧ s'.edges ≠ s.edges := by
  refine ⟨fix2, (correctionInsert fix2 2 [120]).2, [120], fix2_reachable, ⟨[120], by simp [Utf8.Spec.Scalar], by decide +kernel⟩, by simp,
    Prod.ext (by decide +kernel) rfl, ?_⟩
  intro h
  have := congrArg List.length h
  revert this
  decide +kernel

example : Lattice.Spec.Reachable fix2 ∧ fix2.validVertex 2 = true ∧ (outEdges fix2 2 symbolMask).1 = [] ∧ Utf8.Spec.Scalar 120 :=
  ⟨fix2_reachable, by decide +kernel, by decide +kernel, by simp [Utf8.Spec.Scalar]⟩

/-- Inserting two or more characters there makes a cycle: the edge that should go back to the text goes back to the first
inserted vertex. -/
theorem C109_end_cycle {s : State} (hr : Lattice.Spec.Reachable s) {here : Vertex} (hv : s.validVertex here = true)
    (hd : (outEdges s here symbolMask).1 = []) {c : Nat} {cs : List Nat} (hc : Utf8.Spec.Scalar c) (hcs : ∀ x ∈ cs, Utf8.Spec.Scalar x)
    (hne : cs ≠ []) :
    ∃ s' v, correctionInsert s here (Utf8.Spec.encodeAll (c :: cs)) = (.ok (), s') ∧ Steps s s' ∧ Reads s' here (Utf8.Spec.encode c) v ∧
      Reads s' v (Utf8.Spec.encodeAll cs ++ Utf8.Spec.encode c) v := by
  have hi := reachable_inv' hr
  obtain ⟨s1, h1, hk1, hl1, hr1, ho1, hv1, hvvc1⟩ := insert_round hr hv (Or.inl hd) (Utf8.Spec.encode c)
  have hi1 := hk1.inv hi
  have hval1 : s1.validVertex (addLooseVertex s).1 = true := by
    have := loose_valid s
    simp only [State.validVertex, Bool.and_eq_true, decide_eq_true_eq] at this ⊢
    rw [hl1, hk1.text]; exact this
  have hpos := encode_length_pos c
  obtain ⟨n, hn⟩ : ∃ n, (Utf8.Spec.encodeAll (c :: cs)).length = n + 1 := by
    rw [encodeAll_cons, List.length_append]; exact ⟨(Utf8.Spec.encode c).length - 1 + (Utf8.Spec.encodeAll cs).length, by omega⟩
  have hn' : (Utf8.Spec.encodeAll cs).length ≤ n := by rw [encodeAll_cons, List.length_append] at hn; omega
  obtain ⟨s2, v, h2, hk2, hr2, hval2, ho2, _, hn2⟩ := insert_loop cs (n := n) (s := s1) (f := (addLooseVertex s).1)
    (o := some (addLooseVertex s).1) hcs (hk1.reachable hr) hn' hval1 (Or.inl hv1)
  obtain ⟨hlt, hout, hvvc⟩ := hn2 hne
  have hne2 : Utf8.Spec.encodeAll (c :: cs) ≠ [] := by rw [encodeAll_cons]; simp [Utf8.encode_ne_nil]
  have hloop : insertLoop (Utf8.Spec.encodeAll (c :: cs)).length s here none (Utf8.Spec.encodeAll (c :: cs)) = (.ok (some v), s2) := by
    rw [hn, insertLoop.eq_2, if_neg hne2, encodeAll_cons, next_cons hc]
    simp only [Utf8.append_eq_encode c (Utf8.scalar_lt hc), h1, h2, hne, if_false]
  have hi2 := hk2.inv hi1
  have ho1' : (outEdges s1 here symbolMask).1 = [.expl s.edges.length] := by rw [ho1, hd]; simp
  obtain ⟨ds', hd'⟩ : ∃ ds', (outEdges s2 here symbolMask).1 = .expl s.edges.length :: ds' := by
    obtain ⟨t, ht⟩ := ho2 here
    rw [ho1'] at ht
    exact ⟨_, ht.symm⟩
  obtain ⟨hp, _, _⟩ := outs_present hi1 (by rw [ho1']; simp : Edge.expl s.edges.length ∈ (outEdges s1 here symbolMask).1)
  have hent : s1.tgt (.expl s.edges.length) = (addLooseVertex s).1 ∧ s1.item (.expl s.edges.length) = .ok (symbolItem (Utf8.Spec.encode c)) := by
    obtain ⟨_, h3⟩ := hi1.vvcExpl _ _ (by rw [hvvc1]; simp :
      ((⟨here, (addLooseVertex s).1, symbolItem (Utf8.Spec.encode c)⟩ : Key), Edge.expl s.edges.length) ∈ s1.vvc)
    have e1 := congrArg Key.tgt h3
    have e2 := congrArg Key.item h3
    simp only [Entry.key] at e1 e2
    exact ⟨by simp only [State.tgt]; exact e1.symm, by simp only [State.item, ← e2]⟩
  obtain ⟨s3, h3, hk3, hr3⟩ := insert_join (hk2.reachable (hk1.reachable hr)) hd'
    (by rw [hk2.item hi1 hp]; exact hent.2) hval2 (by omega)
    (by
      rw [hk2.tgt hi1 hp, hent.1]
      simp only [State.validVertex, Bool.and_eq_true, decide_eq_true_eq] at hval1
      omega) hout hvvc
  refine ⟨s3, (addLooseVertex s).1, ?_, (hk1.trans (hk2.trans hk3)).steps, (hk2.trans hk3).readings hi1 _ _ _ hr1, ?_⟩
  · unfold correctionInsert
    rw [if_pos hv, hloop]
    exact h3
  · rw [hk2.tgt hi1 hp, hent.1] at hr3
    exact reads_append (hk3.readings hi2 _ _ _ hr2) hr3

/-- Inserting nothing uses a variable that has not been initialised, unless nothing can be read at the position. -/
theorem C109_empty_undefined (s : State) (here : Vertex) (hd : (outEdges s here symbolMask).1 ≠ []) :
    (correctionInsert s here []).1 = .error .undefined := by
  unfold correctionInsert
  split
  · have : insertLoop ([] : Str).length s here none [] = (.ok none, s) := by simp [insertLoop]
    rw [this]
    simp only
    unfold insertJoin
    split
    · rename_i s1 h; rw [h] at hd; simp at hd
    · rfl
  · rfl

theorem C109_empty_false : ∃ (s : State) (here : Vertex), Lattice.Spec.Reachable s ∧ s.validVertex here = true ∧
    (correctionInsert s here []).1 = .error .undefined :=
  ⟨fix2, 0, fix2_reachable, by decide +kernel, by decide +kernel⟩

/-! ## C110 -/

/-- After erasing a range of characters that is followed by a character, this character can be read at the beginning of
the range, followed by everything that came after it; everything that could be read can still be read.

Missing: the end of the text (`C110_end_false`), and other symbols after the range (`C110_alternatives_false`). -/
theorem C110_erase_partial {s : State} (hr : Lattice.Spec.Reachable s) {i j k c : Nat} {cs : List Nat} (hcs : cs ≠ [])
    (h : SymbolsAt s i cs j) (hn : SymbolsAt s j [c] k) :
    ∃ s', correctionErase s i j = (.ok (), s') ∧ Steps s s' ∧ KeepsReadings s s' ∧
      ∀ w v, Reads s k w v → Reads s' i (Utf8.Spec.encode c ++ w) v := by
  have hi := reachable_inv' hr
  obtain ⟨s', h1, hk, h2⟩ := erase_ok hr hcs h hn
  exact ⟨s', h1, hk.steps, hk.readings hi, fun w v hw => reads_append h2 (hk.readings hi _ _ _ hw)⟩

example : Lattice.Spec.Reachable fix2 ∧ SymbolsAt fix2 0 [97] 1 ∧ SymbolsAt fix2 1 [98] 2 := ⟨fix2_reachable, fix2_a, fix2_b⟩

/-- A range that is not followed by a symbol (such as one at the end of the text) cannot be erased. -/
theorem C110_end {s : State} (hr : Lattice.Spec.Reachable s) {u v : Vertex} (hne : u ≠ v) (hv : s.validVertex v = true)
    (hd : (outEdges s v symbolMask).1 = []) : ∃ s', correctionErase s u v = (.error .wrongVertex, s') ∧ SameView s s' := by
  have hi := reachable_inv' hr
  have h2 : (outEdges s v symbolMask).2 = addTagMaskIndex s symbolMask := rfl
  have hpair : outEdges s v symbolMask = ([], addTagMaskIndex s symbolMask) := Prod.ext hd h2
  have hview := view_register hi (m := symbolMask) rfl
  have hpair2 : outEdges (addTagMaskIndex s symbolMask) v symbolMask = ([], addTagMaskIndex s symbolMask) :=
    Prod.ext (by rw [hview.maskOuts]; exact hd) (by
      rw [show (outEdges (addTagMaskIndex s symbolMask) v symbolMask).2 = addTagMaskIndex (addTagMaskIndex s symbolMask) symbolMask from rfl]
      exact register_twice s)
  refine ⟨_, ?_, hview⟩
  unfold correctionErase
  rw [if_neg hne, if_pos hv, hpair]
  simp only
  unfold eraseFallback
  rw [hpair2]

theorem C110_end_false : ∃ (s s' : State) (i j : Nat) (cs : List Nat), Lattice.Spec.Reachable s ∧ cs ≠ [] ∧ SymbolsAt s i cs j ∧
    correctionErase s i j = (.error .wrongVertex, s') :=
  ⟨fix2, (correctionErase fix2 1 2).2, 1, 2, [98], fix2_reachable, by simp, fix2_b, Prod.ext (by decide +kernel) rfl⟩

example : (1 : Vertex) ≠ 2 ∧ fix2.validVertex 2 = true ∧ (outEdges fix2 2 symbolMask).1 = [] := by decide +kernel

/-- If two symbols could be read after the range, only the first can be read at its beginning. -/
theorem C110_alternatives_false : ∃ (s s' : State) (u v : Vertex) (d : Edge) (it : Item), Lattice.Spec.Reachable s ∧
    d ∈ (outEdges s v symbolMask).1 ∧ s.item d = .ok it ∧ correctionErase s u v = (.ok (), s') ∧ ¬ Reads s' u it.text (s.tgt d) := by
  refine ⟨fix3, (correctionErase fix3 0 1).2, 0, 1, .expl 0, symbolItem [122], fix3_reachable, by decide +kernel, by decide +kernel,
    Prod.ext (by decide +kernel) rfl, ?_⟩
  intro h
  have := readsB_of (by decide +kernel) h 1 (by decide +kernel)
  revert this
  decide +kernel

/-! ## C111 -/

/-- A range of characters can be replaced by as many other characters.  The history of the lattice has to be orderly
(`C111_disorder_false`). -/
theorem C111_replace_partial {s : State} (hr : Run Orderly initial s) {i j : Nat} {old new : List Nat} (h : SymbolsAt s i old j)
    (hnew : ∀ c ∈ new, Utf8.Spec.Scalar c) (hlen : new.length = old.length) :
    ∃ s', correctionReplace s i j (Utf8.Spec.encodeAll new) = (.ok (), s') ∧ Steps s s' ∧ KeepsReadings s s' ∧
      ∀ w v, Reads s j w v → Reads s' i (Utf8.Spec.encodeAll new ++ w) v := by
  have hr' := run_steps hr
  have hi := reachable_inv' hr'
  obtain ⟨n', m, s1, h1, hn1, hk1, hx1, hr1, hs1⟩ := replace_loop new (n := (Utf8.Spec.encodeAll new).length) (rest := [])
    (text := Utf8.Spec.encodeAll new) hnew hr' (textless_run hr) (by simp) h (by omega)
  rw [hlen, List.drop_length] at hs1
  have hm : m = j := by cases hs1; rfl
  subst hm
  rw [List.append_nil] at h1
  refine ⟨s1, ?_, hk1.steps, hk1.readings hi, fun w v hw => reads_append hr1 (hk1.readings hi _ _ _ hw)⟩
  unfold correctionReplace
  have h2 : replaceLoop n' s1 m m [] (Utf8.Spec.encodeAll new) = (.ok (), s1) := by
    cases n' <;> simp [replaceLoop, correctionErase]
  rw [h1, h2]

example : Run Orderly initial fix2 ∧ SymbolsAt fix2 1 [98] 2 ∧ ∀ c ∈ [122], Utf8.Spec.Scalar c :=
  ⟨fix2_orderly, fix2_b, by simp [Utf8.Spec.Scalar]⟩

/-- … or by fewer characters if a character follows. -/
theorem C111_shorter_partial {s : State} (hr : Run Orderly initial s) {i j k c : Nat} {old new : List Nat} (h : SymbolsAt s i old j)
    (hn : SymbolsAt s j [c] k) (hnew : ∀ c ∈ new, Utf8.Spec.Scalar c) (hlen : new.length < old.length) :
    ∃ s', correctionReplace s i j (Utf8.Spec.encodeAll new) = (.ok (), s') ∧ Steps s s' ∧ KeepsReadings s s' ∧
      ∀ w v, Reads s k w v → Reads s' i (Utf8.Spec.encodeAll new ++ Utf8.Spec.encode c ++ w) v := by
  have hr' := run_steps hr
  have hi := reachable_inv' hr'
  obtain ⟨n', m, s1, h1, hn1, hk1, hx1, hr1, hs1⟩ := replace_loop new (n := (Utf8.Spec.encodeAll new).length) (rest := [])
    (text := Utf8.Spec.encodeAll new) hnew hr' (textless_run hr) (by simp) h (by omega)
  obtain ⟨s2, h2, hk2, hr2⟩ := erase_ok (hk1.reachable hr') (by
    intro h0
    have := congrArg List.length h0
    rw [List.length_drop, List.length_nil] at this
    omega) hs1 (hk1.symbols hi hn)
  rw [List.append_nil] at h1
  have hk := hk1.trans hk2
  refine ⟨s2, ?_, hk.steps, hk.readings hi, fun w v hw => reads_append (reads_append (hk2.readings (hk1.inv hi) _ _ _ hr1) hr2) (hk.readings hi _ _ _ hw)⟩
  unfold correctionReplace
  have h3 : replaceLoop n' s1 m j [] (Utf8.Spec.encodeAll new) = correctionErase s1 m j := by
    cases n' <;> simp [replaceLoop]
  rw [h1, h3, h2]

example : Run Orderly initial fix2 ∧ SymbolsAt fix2 0 [97] 1 ∧ SymbolsAt fix2 1 [98] 2 ∧ ([] : List Nat).length < [97].length :=
  ⟨fix2_orderly, fix2_a, fix2_b, by simp⟩

/-- At the end of the text it fails, after changing the lattice. -/
theorem C111_shorter_false : ∃ (s s' : State) (i j : Nat) (old new : List Nat), Run Orderly initial s ∧ SymbolsAt s i old j ∧
    (∀ c ∈ new, Utf8.Spec.Scalar c) ∧ new.length < old.length ∧ correctionReplace s i j (Utf8.Spec.encodeAll new) = (.error .wrongVertex, s') ∧
    ∃ u w v, Reads s' u w v ∧ ¬ Reads s u w v := by
  have hab : SymbolsAt fix2 0 [97, 98] 2 := by
    have h : SymbolsAt fix2 (0 + (Utf8.Spec.encode 97).length) [98] 2 := fix2_b
    exact .cons ⟨[], by simp, by decide +kernel⟩ (by simp [Utf8.Spec.Scalar]) (by decide +kernel) (present_impl.2 (by decide +kernel)) h
  refine ⟨fix2, (correctionReplace fix2 0 2 (Utf8.Spec.encodeAll [120])).2, 0, 2, [97, 98], [120], fix2_orderly, hab, by simp [Utf8.Spec.Scalar], by simp,
    Prod.ext (by decide +kernel) rfl, 0, [120], 1, ?_, ?_⟩
  · exact reads_single (s := (correctionReplace fix2 0 2 (Utf8.Spec.encodeAll [120])).2) (e := .expl 0) (it := symbolItem [120]) (present_expl.2 (by decide +kernel)) (by
      rw [show (correctionReplace fix2 0 2 (Utf8.Spec.encodeAll [120])).2.tags (.expl 0) = symbolTag from by decide +kernel]; exact fun _ h => h) (by decide +kernel)
  · intro h
    have := readsB_of (by decide +kernel) h 1 (by decide +kernel)
    revert this
    decide +kernel

/-- Replacing by more characters: the first ones take the places of the old ones, but then the whole text (not the rest
of it) is inserted. -/
theorem C111_longer {s : State} (hr : Run Orderly initial s) {i j k c : Nat} {old new rest : List Nat} (h : SymbolsAt s i old j)
    (hn : SymbolsAt s j [c] k) (hnew : ∀ c ∈ new ++ rest, Utf8.Spec.Scalar c) (hlen : new.length = old.length) (hrest : rest ≠ []) :
    ∃ s', correctionReplace s i j (Utf8.Spec.encodeAll (new ++ rest)) = (.ok (), s') ∧ Steps s s' ∧ KeepsReadings s s' ∧
      ∀ w v, Reads s k w v →
        Reads s' i (Utf8.Spec.encodeAll new ++ (Utf8.Spec.encodeAll (new ++ rest) ++ Utf8.Spec.encode c ++ w)) v := by
  have hr' := run_steps hr
  have hi := reachable_inv' hr'
  obtain ⟨n', m, s1, h1, hn1, hk1, hx1, hr1, hs1⟩ := replace_loop new (n := (Utf8.Spec.encodeAll (new ++ rest)).length)
    (rest := Utf8.Spec.encodeAll rest) (text := Utf8.Spec.encodeAll (new ++ rest)) (fun x hx => hnew x (by simp [hx])) hr' (textless_run hr)
    (by rw [encodeAll_append]) h (by omega)
  rw [hlen, List.drop_length] at hs1
  have hm : m = j := by cases hs1; rfl
  subst hm
  rw [← encodeAll_append] at h1
  have hi1 := hk1.inv hi
  have hne : Utf8.Spec.encodeAll rest ≠ [] := by
    cases rest with
    | nil => exact absurd rfl hrest
    | cons x xs => rw [encodeAll_cons]; simp [Utf8.encode_ne_nil]
  obtain ⟨hmk, hkl, hlt⟩ := symbols_le hn
  have hlt := hlt (by simp)
  have hn' := hk1.symbols hi hn
  cases hn' with
  | cons hw hc hpre hp hnil =>
    cases hnil with
    | nil hw' hl' =>
    obtain ⟨a1, a2, a3, a4, a5, a6⟩ := at_char hw hc hpre
    obtain ⟨ds, hd⟩ := impl_outs hp
    have hl1 : s1.text.length = s.text.length := by rw [hk1.text]
    obtain ⟨s2, h2, hst, hkeep, hread⟩ := C109_insert_partial (hk1.reachable hr') (here := (m : Int)) (by omega)
      (by simp only [State.validVertex, Bool.and_eq_true, decide_eq_true_eq]; omega) hd a4 (text := Utf8.Spec.encodeAll (new ++ rest))
      ⟨_, hnew, rfl⟩ (by rw [encodeAll_append]; simp [hne])
    refine ⟨s2, ?_, steps_trans hk1.steps hst, fun u w v hw => hkeep _ _ _ (hk1.readings hi _ _ _ hw), ?_⟩
    · unfold correctionReplace
      have h3 : replaceLoop n' s1 m m (Utf8.Spec.encodeAll rest) (Utf8.Spec.encodeAll (new ++ rest)) =
          correctionInsert s1 m (Utf8.Spec.encodeAll (new ++ rest)) := by
        cases n' with
        | zero =>
          exact absurd (List.length_eq_zero_iff.1 (Nat.le_zero.1 hn1)) hne
        | succ n' => rw [replaceLoop.eq_2, if_neg hne, if_pos rfl]
      rw [h1, h3, h2]
    · intro w v hw0
      refine reads_append (hkeep _ _ _ hr1) ?_
      apply hread
      rw [a3]
      exact hk1.readings hi _ _ _ hw0

example : Run Orderly initial fix2 ∧ SymbolsAt fix2 0 [97] 1 ∧ SymbolsAt fix2 1 [98] 2 ∧ [120].length = [97].length ∧
    ∀ c ∈ [120] ++ [121], Utf8.Spec.Scalar c :=
  ⟨fix2_orderly, fix2_a, fix2_b, by simp, by simp [Utf8.Spec.Scalar]⟩

/-- Replacing "a" in "ab" by "xy" does not give "xyb". -/
theorem C111_longer_false : ∃ (s s' : State) (i j k c : Nat) (old new : List Nat), Run Orderly initial s ∧ SymbolsAt s i old j ∧
    SymbolsAt s j [c] k ∧ old ≠ [] ∧ (∀ c ∈ new, Utf8.Spec.Scalar c) ∧ correctionReplace s i j (Utf8.Spec.encodeAll new) = (.ok (), s') ∧
    ¬ Reads s' i (Utf8.Spec.encodeAll new ++ Utf8.Spec.encode c) k := by
  refine ⟨fix2, (correctionReplace fix2 0 1 (Utf8.Spec.encodeAll [120, 121])).2, 0, 1, 2, 98, [97], [120, 121], fix2_orderly, fix2_a, fix2_b, by simp,
    by simp [Utf8.Spec.Scalar], Prod.ext (by decide +kernel) rfl, ?_⟩
  intro h
  have := readsB_of (by decide +kernel) h 3 (by decide +kernel)
  revert this
  decide +kernel

/-- "z" has been added as the symbol of the first character of "ab" (it is read as "a" nevertheless). -/
def mess1 : State := (addEdge fix0 { src := 0, tgt := 1, item := symbolItem [122], tags := symbolTag }).2
theorem mess1_reachable : Lattice.Spec.Reachable mess1 := reachable_add fix0_reachable (made_symbol fix0_reachable) (by decide +kernel)

/-- Nothing can be replaced where nothing can be read: the exception says that the vertex is wrong. -/
theorem C111_nothing (s : State) (u v : Vertex) (hne : u ≠ v) (hu : s.validVertex u = true) (hd : (outEdges s u symbolMask).1 = [])
    (c : Nat) (hc : Utf8.Spec.Scalar c) (text : Str) :
    (correctionReplace s u v (Utf8.Spec.encode c ++ text)).1 = .error .wrongVertex := by
  have hpair : outEdges s u symbolMask = ([], addTagMaskIndex s symbolMask) := Prod.ext hd rfl
  have hlen : Utf8.Spec.encode c ++ text ≠ [] := by
    have := Utf8.encode_ne_nil c
    simp [this]
  obtain ⟨n, hn⟩ : ∃ n, (Utf8.Spec.encode c ++ text).length = n + 1 := ⟨_, (Nat.succ_pred_eq_of_pos (List.length_pos_iff.2 hlen)).symm⟩
  unfold correctionReplace
  rw [hn, replaceLoop, if_neg hlen, if_neg hne, (Utf8.validateNext_iff _ c text).2 ⟨hc, rfl⟩]
  simp only
  rw [if_pos hu, hpair]

example : (2 : Vertex) ≠ 1 ∧ fix2.validVertex 2 = true ∧ (outEdges fix2 2 symbolMask).1 = [] := by decide +kernel

/-- In a lattice with another history a correction may have no effect. -/
theorem C111_disorder_false : ∃ (s s' : State) (i j : Nat) (old new : List Nat), Lattice.Spec.Reachable s ∧ SymbolsAt s i old j ∧
    (∀ c ∈ new, Utf8.Spec.Scalar c) ∧ new.length = old.length ∧ correctionReplace s i j (Utf8.Spec.encodeAll new) = (.ok (), s') ∧
    ¬ Reads s' i (Utf8.Spec.encodeAll new) j := by
  have ha : SymbolsAt mess1 0 [97] 1 := by
    have h : SymbolsAt mess1 (0 + (Utf8.Spec.encode 97).length) [] 1 := .nil (i := 1) wf_a (by decide +kernel)
    exact .cons ⟨[], by simp, by decide +kernel⟩ (by simp [Utf8.Spec.Scalar]) (by decide +kernel) (present_impl.2 (by decide +kernel)) h
  refine ⟨mess1, (correctionReplace mess1 0 1 (Utf8.Spec.encodeAll [122])).2, 0, 1, [97], [122], mess1_reachable, ha, by simp [Utf8.Spec.Scalar], by simp,
    Prod.ext (by decide +kernel) rfl, ?_⟩
  intro h
  have := readsB_of (by decide +kernel) h 1 (by decide +kernel)
  revert this
  decide +kernel

end Verif.Lattice
