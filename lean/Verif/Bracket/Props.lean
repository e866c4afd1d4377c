import Verif.Bracket.Lemmas
import Verif.Bracket.Order
import Verif.Bracket.Pattern
import Verif.Server.Handler

/-!
Property theorems C62-C65: the bracketing writer.
-/
set_option linter.unusedSimpArgs false
set_option linter.unusedVariables false
namespace Verif.Bracket
open Verif
open Verif.Server (ascii)

/-! ### C62: brackets in the text -/

/-- **C62.** The output is the text with the brackets of all edges in it: without the brackets it is the text; the opening brackets of the
edges from `i` to `j` are there in order and the closing brackets in the opposite order.  Here edges may cross. -/
theorem C62_complete_partial (c : Cells) (text : Str) (syms : List Str) (h : Symbols text syms) (hc : OnSymbols c syms) :
    ∃ ts, write c text = ts.flatMap Tok.bytes ∧ plain ts = text ∧
      (∀ i j, openedAt i j ts = c i j) ∧ (∀ i j, closedAt i j ts = (c i j).reverse) :=
  ⟨toks c text, write_eq h hc, plain_toks c text, opened_toks h hc, closed_toks h hc⟩

/-- **C62.** If no two edges cross, the brackets are nested, and the brackets of an edge are around exactly its text. -/
theorem C62_nested_partial (c : Cells) (text : Str) (syms : List Str) (h : Symbols text syms) (hc : OnSymbols c syms)
    (hn : NonCrossing c) :
    ∃ ts, write c text = ts.flatMap Tok.bytes ∧ plain ts = text ∧ Nested 0 text.length ts ∧
      (∀ i j, openedAt i j ts = c i j) ∧ (∀ i j, closedAt i j ts = (c i j).reverse) :=
  ⟨toks c text, write_eq h hc, plain_toks c text, toks_nested hn text, opened_toks h hc, closed_toks h hc⟩

/-- The text `aąb` (four bytes) with two edges from 0 to 3 and one from 1 to 3. -/
def sampleCells : Cells := fun i j =>
  if i = 0 ∧ j = 3 then [(ascii "(", ascii ")"), (ascii "<", ascii ">")] else if i = 1 ∧ j = 3 then [(ascii "[", ascii "]")] else []

def sampleText : Str := [97, 196, 133, 98]

example : Symbols sampleText [[97], [196, 133], [98]] ∧ OnSymbols sampleCells [[97], [196, 133], [98]] ∧ NonCrossing sampleCells ∧
    write sampleCells sampleText = ascii "(<a[" ++ [196, 133] ++ ascii "]>)b" := by
  refine ⟨⟨rfl, ?_⟩, ?_, ?_, by decide +kernel⟩
  · intro s hs
    simp only [List.mem_cons, List.not_mem_nil, or_false] at hs
    rcases hs with rfl | rfl | rfl
    · exact ⟨97, [], rfl, by decide⟩
    · exact ⟨196, [133], rfl, by decide⟩
    · exact ⟨98, [], rfl, by decide⟩
  · intro i j hij
    unfold sampleCells at hij
    split at hij
    · rename_i h; exact ⟨by omega, ⟨0, by simp [h.1]⟩, ⟨2, by simp [h.2]⟩⟩
    · split at hij
      · rename_i h; exact ⟨by omega, ⟨1, by simp [h.1]⟩, ⟨2, by simp [h.2]⟩⟩
      · exact absurd rfl hij
  · intro i k j l h1 h2 h3
    by_cases hl : l = 3
    · left
      unfold sampleCells
      rw [if_neg (by omega), if_neg (by omega)]
    · right
      unfold sampleCells
      rw [if_neg (by omega), if_neg (by omega)]

theorem matched_cons (st : List Byte) (b : Byte) (s : Str) : matched st (b :: s) =
    if b = 40 then matched (41 :: st) s
    else if b = 91 then matched (93 :: st) s
    else if b = 41 ∨ b = 93 then (match st with
      | [] => false
      | c :: st => b = c && matched st s)
    else matched st s := by
  cases st <;> rfl

/-- Matching brackets in nested pieces can be skipped. -/
theorem matched_nested {i j : Nat} {ts : List Tok} (h : Nested i j ts)
    (ho : ∀ a b l, Tok.opn a b l ∈ ts → l = (ascii "(", ascii ")") ∨ l = (ascii "[", ascii "]"))
    (hc : ∀ b, Tok.chr b ∈ ts → b ≠ 40 ∧ b ≠ 41 ∧ b ≠ 91 ∧ b ≠ 93) (st : List Byte) (rest : Str) :
    matched st (ts.flatMap Tok.bytes ++ rest) = matched st rest := by
  induction h generalizing st rest with
  | nil i => rfl
  | chr i b =>
    have := hc b (by simp)
    show matched st (b :: rest) = _
    rw [matched_cons, if_neg this.1, if_neg this.2.2.1, if_neg (fun h => h.elim this.2.1 this.2.2.2)]
  | node l h ih =>
    have hi := fun st rest => ih (fun a b l hm => ho a b l (by simp [hm])) (fun b hm => hc b (by simp [hm])) st rest
    have e : ∀ ts : List Tok, ∀ i j, (Tok.opn i j l :: ts ++ [Tok.cls i j l]).flatMap Tok.bytes ++ rest =
        l.1 ++ (ts.flatMap Tok.bytes ++ (l.2 ++ rest)) := by
      intro ts i j; simp [Tok.bytes]
    rw [e]
    rcases ho _ _ l (List.mem_append_left _ List.mem_cons_self) with rfl | rfl
    · show matched st (40 :: (List.flatMap Tok.bytes _ ++ (ascii ")" ++ rest))) = _
      rw [matched_cons, if_pos rfl, hi]
      show matched (41 :: st) (41 :: rest) = _
      rw [matched_cons]
      simp
    · show matched st (91 :: (List.flatMap Tok.bytes _ ++ (ascii "]" ++ rest))) = _
      rw [matched_cons, if_neg (by decide), if_pos rfl, hi]
      show matched (93 :: st) (93 :: rest) = _
      rw [matched_cons]
      simp
  | append h1 h2 ih1 ih2 =>
    rw [List.flatMap_append, List.append_assoc,
      ih1 (fun a b l hm => ho a b l (by simp [hm])) (fun b hm => hc b (by simp [hm])),
      ih2 (fun a b l hm => ho a b l (by simp [hm])) (fun b hm => hc b (by simp [hm]))]

/-- Two edges of the text `abc` that cross: from 0 to 2 and from 1 to 3. -/
def crossing : Cells := fun i j =>
  if i = 0 ∧ j = 2 then [(ascii "(", ascii ")")] else if i = 1 ∧ j = 3 then [(ascii "[", ascii "]")] else []

/-- **C62 fails** when edges cross: the output is `(a[b)c]`, which is not nested. -/
theorem C62_crossing_false :
    ∃ (c : Cells) (text : Str) (syms : List Str), Symbols text syms ∧ OnSymbols c syms ∧
      ¬ ∃ ts, write c text = ts.flatMap Tok.bytes ∧ plain ts = text ∧ Nested 0 text.length ts ∧
        (∀ i j, openedAt i j ts = c i j) ∧ (∀ i j, closedAt i j ts = (c i j).reverse) := by
  refine ⟨crossing, ascii "abc", [ascii "a", ascii "b", ascii "c"], ⟨rfl, ?_⟩, ?_, ?_⟩
  · intro s hs
    simp only [List.mem_cons, List.not_mem_nil, or_false] at hs
    rcases hs with rfl | rfl | rfl
    · exact ⟨97, [], rfl, by decide⟩
    · exact ⟨98, [], rfl, by decide⟩
    · exact ⟨99, [], rfl, by decide⟩
  · intro i j hij
    unfold crossing at hij
    split at hij
    · rename_i h; exact ⟨by omega, ⟨0, by simp [h.1]⟩, ⟨2, by rw [h.2]; decide⟩⟩
    · split at hij
      · rename_i h; exact ⟨by omega, ⟨1, by rw [h.1]; decide⟩, ⟨3, by rw [h.2]; decide⟩⟩
      · exact absurd rfl hij
  · rintro ⟨ts, h1, h2, h3, h4, _⟩
    have ho : ∀ a b l, Tok.opn a b l ∈ ts → l = (ascii "(", ascii ")") ∨ l = (ascii "[", ascii "]") := by
      intro a b l hm
      have : l ∈ openedAt a b ts := List.mem_flatMap.2 ⟨_, hm, by simp⟩
      rw [h4] at this
      unfold crossing at this
      split at this
      · exact Or.inl (List.mem_singleton.1 this)
      · split at this
        · exact Or.inr (List.mem_singleton.1 this)
        · cases this
    have hc : ∀ b, Tok.chr b ∈ ts → b ≠ 40 ∧ b ≠ 41 ∧ b ≠ 91 ∧ b ≠ 93 := by
      intro b hm
      have : b ∈ plain ts := List.mem_flatMap.2 ⟨_, hm, by simp⟩
      rw [h2] at this
      have hb : b = 97 ∨ b = 98 ∨ b = 99 := by
        have e : ascii "abc" = [97, 98, 99] := by decide
        rw [e] at this
        simpa using this
      rcases hb with rfl | rfl | rfl <;> decide
    have hm := matched_nested h3 ho hc [] []
    rw [List.append_nil, ← h1] at hm
    have e : matched [] (write crossing (ascii "abc")) = false := by decide +kernel
    rw [e] at hm
    revert hm
    decide

/-- **C62 fails** for edges of no length: nothing is printed for them. -/
theorem C62_point_false : ∃ (c : Cells) (text : Str), c 1 1 = [(ascii "(", ascii ")")] ∧ write c text = text :=
  ⟨fun i j => if i = 1 ∧ j = 1 then [(ascii "(", ascii ")")] else [], ascii "ab", rfl, by decide +kernel⟩

/-! ### C63: the order of brackets at the same places -/

/-- **C63.** If edges are made from earlier edges, putting the brackets in order ends; nothing is lost. -/
theorem C63_ends (l : List Epd) (h : Founded l) : ∃ f l', arrange f l 0 1 = some l' ∧ l'.Perm l := by
  obtain ⟨rk, h⟩ := h
  exact arrange_ends rk l 0 1 (by omega) h

/-- **C63.** When it ends, an edge never has its brackets inside those of the edge it was made from, unless these two are the first. -/
theorem C63_order_partial (f : Nat) (l l' : List Epd) (h : arrange f l 0 1 = some l') :
    l'.Perm l ∧ ∀ (a b : Nat) x y, a < b → l'[a]? = some x → l'[b]? = some y → MadeFrom y x → a = 0 ∧ b = 1 := by
  refine ⟨arrange_perm f l 0 1 l' h, fun a b x y hab hx hy hm => ?_⟩
  refine arrange_ordered f l 0 1 l' h ?_ a b hab ((madeFrom_iff l' a b).2 ⟨x, y, hx, hy, hm⟩)
  intro a' b' hab hlt
  omega

/-- **C63.** Two pairs of brackets are always put in the right order. -/
theorem C63_two_partial (f : Nat) (l l' : List Epd) (hl : l.length ≤ 2) (hf : Founded l) (h : arrange f l 0 1 = some l') :
    ∀ (a b : Nat) x y, a < b → l'[a]? = some x → l'[b]? = some y → ¬ MadeFrom y x := by
  intro a b x y hab hx hy hm
  have hp := arrange_perm f l 0 1 l' h
  obtain ⟨rfl, rfl⟩ := (C63_order_partial f l l' h).2 a b x y hab hx hy hm
  have hlen : l'.length = l.length := hp.length_eq
  have h1 := (List.getElem?_eq_some_iff.1 hy).1
  obtain ⟨rk, hrk⟩ := hf
  match l, hl with
  | [], _ => rw [List.length_nil] at hlen; omega
  | [u], _ => simp at hlen; omega
  | [u, v], _ =>
    have hl' : l' = [u, v] ∨ l' = [v, u] := by
      match l', hlen with
      | [p, q], _ =>
        have hmem : p = u ∨ p = v := by simpa using hp.mem_iff.1 (List.mem_cons_self (a := p) (l := [q]))
        rcases hmem with rfl | rfl
        · have := (List.perm_cons p).1 hp
          rw [List.singleton_perm_singleton] at this
          exact Or.inl (by rw [this])
        · have h2 : [p, q].Perm [p, u] := hp.trans (List.Perm.swap p u [])
          have := (List.perm_cons p).1 h2
          rw [List.singleton_perm_singleton] at this
          exact Or.inr (by rw [this])
    cases f with
    | zero => cases h
    | succ f =>
      rw [arrange, if_neg (by simp), if_neg (by simp)] at h
      cases hmf : madeFrom [u, v] 0 1 with
      | true =>
        rw [hmf, if_pos rfl] at h
        have hvu : MadeFrom v u := by
          obtain ⟨x', y', e1, e2, hm'⟩ := (madeFrom_iff _ _ _).1 hmf
          simp only [List.getElem?_cons_zero, List.getElem?_cons_succ, Option.some.injEq] at e1 e2
          rw [e1, e2]; exact hm'
        have hlt := hrk u (by simp) v (by simp) hvu
        have hsw : swapAt [u, v] 0 1 = [v, u] := rfl
        rw [hsw] at h
        have hend : l' = [v, u] := by
          cases f with
          | zero => cases h
          | succ f =>
            rw [arrange, if_neg (by simp), if_pos (by simp)] at h
            cases f with
            | zero => cases h
            | succ f =>
              rw [arrange, if_neg (by simp), if_pos (by simp)] at h
              cases f with
              | zero => cases h
              | succ f =>
                rw [arrange, if_pos (by simp)] at h
                injection h with h
                exact h.symm
        subst hend
        simp only [List.getElem?_cons_zero, List.getElem?_cons_succ, Option.some.injEq] at hx hy
        subst hx hy
        have := hrk v (by simp) u (by simp) hm
        omega
      | false =>
        have hk : ∀ a' b', a' < b' → madeFrom [u, v] a' b' = false := by
          intro a' b' hab'
          by_cases e : a' = 0 ∧ b' = 1
          · rw [e.1, e.2]; exact hmf
          · cases hc : madeFrom [u, v] a' b' with
            | false => rfl
            | true =>
              obtain ⟨_, _, _, e2, _⟩ := (madeFrom_iff _ _ _).1 hc
              have := (List.getElem?_eq_some_iff.1 e2).1
              simp at this
              omega
        rw [hmf] at h
        have hkeep := arrange_keep f [u, v] 0 2 l' (by omega) h hk
        subst hkeep
        have := (madeFrom_iff [u, v] 0 1).2 ⟨x, y, hx, hy, hm⟩
        rw [hmf] at this
        cases this

/-- **C63.** Brackets that are in order stay as they are. -/
theorem C63_keep (f : Nat) (l l' : List Epd) (h : arrange f l 0 1 = some l')
    (hk : ∀ (a b : Nat) x y, a < b → l[a]? = some x → l[b]? = some y → ¬ MadeFrom y x) : l' = l := by
  refine arrange_keep f l 0 1 l' (by omega) h (fun a b hab => ?_)
  cases hm : madeFrom l a b with
  | false => rfl
  | true =>
    obtain ⟨x, y, hx, hy, h⟩ := (madeFrom_iff l a b).1 hm
    exact absurd h (hk a b x y hab hx hy)

/-- Edges 0, 1 and 2; 2 is made from 0, and 1 is made from 2. -/
def sampleEpds : List Epd :=
  [⟨some 0, none, (ascii "<a>", ascii "</a>")⟩, ⟨some 1, some 2, (ascii "<b>", ascii "</b>")⟩,
   ⟨some 2, some 0, (ascii "<c>", ascii "</c>")⟩]

theorem sampleEpds_founded : Founded sampleEpds := by
  refine ⟨fun x => if x.source = some 0 then 0 else if x.source = some 2 then 1 else 2, ?_⟩
  intro x hx y hy ⟨e, h1, h2⟩
  simp only [sampleEpds, List.mem_cons, List.not_mem_nil, or_false] at hx hy
  rcases hx with rfl | rfl | rfl <;> rcases hy with rfl | rfl | rfl <;> simp at h1 h2 ⊢ <;> omega

/-- **C63 fails** for three pairs: after a swap the first two are not compared again.  Edge 1 is made from 2, but its brackets are inside. -/
theorem C63_three_false :
    ∃ f l l', Founded l ∧ arrange f l 0 1 = some l' ∧
      ∃ x y, l'[0]? = some x ∧ l'[1]? = some y ∧ MadeFrom y x := by
  refine ⟨20, sampleEpds, [⟨some 2, some 0, (ascii "<c>", ascii "</c>")⟩, ⟨some 1, some 2, (ascii "<b>", ascii "</b>")⟩,
    ⟨some 0, none, (ascii "<a>", ascii "</a>")⟩], sampleEpds_founded, by decide +kernel, _, _, rfl, rfl, 2, rfl, rfl⟩

example : arrange 20 (sampleEpds.take 1 ++ sampleEpds.drop 2) 0 1 = some (sampleEpds.drop 2 ++ sampleEpds.take 1) := by decide +kernel

/-! ### C64: edges in a set -/

/-- **C64.** The comparison of edges: no edge is below itself, and of two edges that differ, one is below the other. -/
theorem C64_total_partial (x y : Keys) : x.less x = false ∧ (x ≠ y → x.less y = true ∨ y.less x = true) := by
  refine ⟨by simp [Keys.less], fun h => ?_⟩
  apply Decidable.by_contra
  intro hc
  apply h
  simp only [not_or, Keys.less, Bool.or_eq_true, decide_eq_true_eq] at hc
  obtain ⟨x1, x2, x3, x4, x5, x6, x7, x8⟩ := x
  obtain ⟨y1, y2, y3, y4, y5, y6, y7, y8⟩ := y
  simp only [Keys.mk.injEq] at hc ⊢
  omega

/-- **C64.** If edges differ in one field at most, or one is at most the other in every field, at most one is below the other. -/
theorem C64_asymmetric_partial (x y : Keys)
    (h : x.category ≤ y.category ∧ x.text ≤ y.text ∧ x.score ≤ y.score ∧ x.tags ≤ y.tags ∧ x.av ≤ y.av ∧ x.role ≤ y.role ∧
      x.begin_ ≤ y.begin_ ∧ x.end_ ≤ y.end_) : y.less x = false := by
  simp only [Keys.less, Bool.or_eq_false_iff, decide_eq_false_iff_not]
  omega

/-- **C64 fails.** Two edges can each be below the other, so this is not an order, and a set of edges has no defined behaviour. -/
theorem C64_order_false : ∃ x y : Keys, x.less y = true ∧ y.less x = true :=
  ⟨⟨0, 1, 0, 0, 0, 0, 0, 0⟩, ⟨1, 0, 0, 0, 0, 0, 0, 0⟩, by decide, by decide⟩

/-- **C64 fails.** Nor is it transitive. -/
theorem C64_transitive_false : ∃ x y z : Keys, x.less y = true ∧ y.less z = true ∧ x.less z = false :=
  ⟨⟨1, 0, 0, 0, 0, 0, 0, 0⟩, ⟨0, 1, 0, 0, 0, 0, 0, 0⟩, ⟨1, 0, 0, 0, 0, 0, 0, 0⟩, by decide, by decide, by decide⟩

/-! ### C65: patterns -/

variable {D : Type} [DecidableEq D]

/-- **C65.** Printing edges with patterns gives for each edge and each pattern the concatenation of what its parts stand for: tags,
category, text, attributes, score, role or the character itself. -/
theorem C65_patterns_partial (st : Style D) (f : Nat) (ps : List (List Item)) (es : List (Edge D))
    (hf : ∀ p ∈ ps, ∀ it ∈ p, it.Fits) (hs : ∀ p ∈ ps, ∀ it ∈ p, it.isStar = false) (hfuel : ∀ p ∈ ps, (unparse p).length < f)
    (hd : ∀ d ∈ es, InOrder d.av)
    (ha : Item.all ∉ ps.flatten ∨ ∀ d ∈ es, ∀ br k, Item.attr br k ∈ ps.flatten → k ∈ d.av.map Prod.fst) :
    print st f 1 (ps.map unparse) es = some (es.map (fun d => ps.map (meaning st d))) := by
  rw [print]
  refine mapM_some _ _ _ (fun d hde => ?_)
  have h0 : Attrs d (∀ k, named k ps.flatten → k ∈ d.av.map Prod.fst) (⟨[], d.av, noFields st, [], []⟩ : St D) :=
    ⟨fun _ => rfl, fun _ => rfl⟩
  have ho := afterAll_out (st := st) (hd d hde) ps h0 (fun h => h)
    (ha.elim Or.inr (fun h => Or.inl (fun k ⟨br, hk⟩ => h d hde br k hk)))
  have hsep := afterAll_sep (st := st) (d := d) ps hs (⟨[], d.av, noFields st, [], []⟩ : St D)
  unfold printEdge
  rw [expandAll_items st d f ps hf hfuel]
  simp only [Option.bind_eq_bind, Option.bind_some]
  rw [hsep.2, if_pos rfl, ho]

open Classical in
/-- **C65.** With a list `%*(sep)(sub)` in the first pattern: the place of the list has what `sub` gives for all edges that have the same
fields as the edge, as far as these fields are named in the patterns, with the separator between. -/
theorem C65_list_partial (st : Style D) (f : Nat) (pre post q sub : List Item) (br : Byte) (sep : Str) (es : List (Edge D))
    (hf : ∀ it ∈ pre ++ Item.star br sep (unparse sub) :: post ++ q ++ sub, it.Fits)
    (hs : ∀ it ∈ pre ++ post ++ q ++ sub, it.isStar = false) (hsub : sub ≠ [])
    (hfuel : (unparse (pre ++ Item.star br sep (unparse sub) :: post)).length < f ∧ (unparse q).length < f ∧ (unparse sub).length < f)
    (hd : ∀ d ∈ es, InOrder d.av)
    (ha : Item.all ∉ pre ++ post ++ q ++ sub ∨ ∀ d ∈ es, ∀ b k, Item.attr b k ∈ pre ++ post ++ q ++ sub → k ∈ d.av.map Prod.fst)
    (hp : ∀ d ∈ es, (37 : Byte) ∉ meaning st d pre ∧ (37 : Byte) ∉ meaning st d q) :
    print st f 2 [unparse (pre ++ Item.star br sep (unparse sub) :: post), unparse q] es =
      some (es.map (fun d => [meaning st d pre ++
        sepBy sep ((es.filter (fun e => decide (∀ it ∈ pre ++ post ++ q, it.same st d e))).map (meaning st · sub)) ++ meaning st d post,
        meaning st d q])) := by
  rw [print]
  refine mapM_some _ _ _ (fun d hde => ?_)
  generalize hps : [pre ++ Item.star br sep (unparse sub) :: post, q] = ps
  have hpf : ps.flatten = pre ++ Item.star br sep (unparse sub) :: post ++ q := by subst hps; simp
  have hmem : ∀ it, it.isStar = false → it ∈ ps.flatten → it ∈ pre ++ post ++ q := by
    intro it hi hm
    rw [hpf] at hm
    simp only [List.mem_append, List.mem_cons] at hm ⊢
    rcases hm with (h | h | h) | h
    · exact Or.inl (Or.inl h)
    · rw [h] at hi; cases hi
    · exact Or.inl (Or.inr h)
    · exact Or.inr h
  have h0 : Attrs d (∀ k, named k ps.flatten → k ∈ d.av.map Prod.fst) (⟨[], d.av, noFields st, [], []⟩ : St D) :=
    ⟨fun _ => rfl, fun _ => rfl⟩
  have ho := afterAll_out (st := st) (hd d hde) ps h0 (fun h => h) (by
    rcases ha with ha | ha
    · exact Or.inr (fun h => ha (List.mem_append_left _ (hmem _ rfl h)))
    · exact Or.inl (fun k ⟨b, hk⟩ => ha d hde b k (List.mem_append_left _ (hmem _ rfl hk))))
  have hinv := afterAll_inv (hd d hde) ps
    (Inv.start st d (hd d hde) (⟨[], d.av, noFields st, [], []⟩ : St D) rfl rfl)
  rw [List.nil_append] at hinv
  have hsep : (afterAll st d (⟨[], d.av, noFields st, [], []⟩ : St D) ps).2.sep = sep ∧
      (afterAll st d (⟨[], d.av, noFields st, [], []⟩ : St D) ps).2.sub = unparse sub := by
    subst hps
    have hq := after_sep st d { (pre ++ Item.star br sep (unparse sub) :: post).foldl (after st d) ⟨[], d.av, noFields st, [], []⟩ with out := [] }
      q (fun it h => hs it (by simp [h]))
    have hpo := after_sep st d (after st d (pre.foldl (after st d) ⟨[], d.av, noFields st, [], []⟩) (Item.star br sep (unparse sub)))
      post (fun it h => hs it (by simp [h]))
    simp only [afterAll]
    rw [hq.1, hq.2]
    simp only [List.foldl_append, List.foldl_cons]
    rw [hpo.1, hpo.2]
    exact ⟨rfl, rfl⟩
  have hex := expandAll_items st d f ps (by
      subst hps
      intro p hp it hit
      simp only [List.mem_cons, List.not_mem_nil, or_false] at hp
      rcases hp with rfl | rfl
      · exact hf it (List.mem_append_left _ (List.mem_append_left _ hit))
      · exact hf it (List.mem_append_left _ (List.mem_append_right _ hit))) (by
      subst hps
      intro p hp
      simp only [List.mem_cons, List.not_mem_nil, or_false] at hp
      rcases hp with rfl | rfl
      · exact hfuel.1
      · exact hfuel.2.1) (⟨[], d.av, noFields st, [], []⟩ : St D)
  have hmap : [unparse (pre ++ Item.star br sep (unparse sub) :: post), unparse q] = ps.map unparse := by subst hps; rfl
  unfold printEdge
  rw [hmap, hex]
  simp only [Option.bind_eq_bind, Option.bind_some]
  have hne : unparse sub ≠ [] := by
    cases sub with
    | nil => exact absurd rfl hsub
    | cons it sub =>
      intro e
      have h1 := unparse_pos it
      have h2 := congrArg List.length e
      have h3 : unparse (it :: sub) = it.unparse ++ unparse sub := rfl
      rw [h3, List.length_append, List.length_nil] at h2
      omega
  rw [hsep.2, if_neg hne, hsep.1, ho]
  have hfil : es.filter (agrees st (afterAll st d (⟨[], d.av, noFields st, [], []⟩ : St D) ps).2.used) =
      es.filter (fun e => decide (∀ it ∈ pre ++ post ++ q, it.same st d e)) := by
    refine List.filter_congr (fun e _ => ?_)
    have := agrees_iff (hd d hde) hinv e
    rw [Bool.eq_iff_iff, this, decide_eq_true_eq]
    constructor
    · intro h it hit
      refine h it ?_
      rw [hpf]
      simp only [List.mem_append, List.mem_cons] at hit ⊢
      rcases hit with (h | h) | h
      · exact Or.inl (Or.inl h)
      · exact Or.inl (Or.inr (Or.inr h))
      · exact Or.inr h
    · intro h it hit
      cases hst : it.isStar with
      | false => exact h it (hmem it hst hit)
      | true =>
        cases it with
        | star => trivial
        | _ => cases hst
  rw [hfil]
  have hsubp := C65_patterns_partial st f [sub] (es.filter (fun e => decide (∀ it ∈ pre ++ post ++ q, it.same st d e)))
    (by intro p hp it hit; rw [List.mem_singleton.1 hp] at hit; exact hf it (List.mem_append_right _ hit))
    (by intro p hp it hit; rw [List.mem_singleton.1 hp] at hit; exact hs it (List.mem_append_right _ hit))
    (by intro p hp; rw [List.mem_singleton.1 hp]; exact hfuel.2.2)
    (fun e he => hd e (List.mem_of_mem_filter he))
    (by
      simp only [List.flatten_cons, List.flatten_nil, List.append_nil]
      rcases ha with ha | ha
      · exact Or.inl (fun h => ha (List.mem_append_right _ h))
      · exact Or.inr (fun e he b k hk => ha e (List.mem_of_mem_filter he) b k (List.mem_append_right _ hk)))
  simp only [List.map_cons, List.map_nil] at hsubp
  rw [hsubp]
  simp only [Option.bind_some]
  subst hps
  have hjoin : ∀ l : List (Edge D), (l.map (fun d => [meaning st d sub])).map (fun x => x.headD []) = l.map (meaning st · sub) := by
    intro l; rw [List.map_map]; rfl
  rw [hjoin, joined_eq]
  simp only [List.map_cons, List.map_nil]
  have e1 : meaning st d (pre ++ Item.star br sep (unparse sub) :: post) =
      meaning st d pre ++ ([37, 42, 42, 42, 42, 42] ++ meaning st d post) := by
    rw [meaning_append]; rfl
  rw [e1, replaceStar_eq _ _ _ (hp d hde).1, replaceStar_none _ _ (hp d hde).2]

/-- Tags separated by `,`, attributes by `;` and `=`. -/
def plainStyle : Style Nat := ⟨ascii ",", ascii ";", ascii "=", 0, Verif.Server.decimal⟩

def edgeA : Edge Nat := ⟨[ascii "token"], ascii "subst", ascii "ala", [(ascii "case", ascii "nom")], 0, []⟩
def edgeB : Edge Nat := ⟨[ascii "form"], ascii "subst", ascii "Ala", [(ascii "case", ascii "gen")], 0, []⟩
def edgeC : Edge Nat := ⟨[ascii "form"], ascii "verb", ascii "al", [], 0, ascii "head"⟩

/-- The pattern `<%c %*(|)(%t/%a[case])>`, and `>`. -/
def samplePre : List Item := [.lit 60, .cat, .lit 32]
def sampleSub : List Item := [.text, .lit 47, .attr 91 (ascii "case")]

example : unparse (samplePre ++ [.star 40 (ascii "|") (unparse sampleSub)]) = ascii "<%c %*(|)(%t/%a[case])" := by decide +kernel

example : print plainStyle 60 2 [ascii "<%c %*(|)(%t/%a[case])", ascii ">"] [edgeA, edgeB, edgeC] =
    some [[ascii "<subst ala/nom|Ala/gen", ascii ">"], [ascii "<subst ala/nom|Ala/gen", ascii ">"], [ascii "<verb al/", ascii ">"]] := by
  decide +kernel

example : (∀ it ∈ samplePre ++ Item.star 40 (ascii "|") (unparse sampleSub) :: [] ++ [Item.lit 62] ++ sampleSub, it.Fits) ∧
    (∀ it ∈ samplePre ++ [] ++ [Item.lit 62] ++ sampleSub, it.isStar = false) ∧ Item.all ∉ samplePre ++ [] ++ [Item.lit 62] ++ sampleSub ∧
    (∀ d ∈ [edgeA, edgeB, edgeC], InOrder d.av) ∧
    (∀ d ∈ [edgeA, edgeB, edgeC], (37 : Byte) ∉ meaning plainStyle d samplePre ∧ (37 : Byte) ∉ meaning plainStyle d [Item.lit 62]) := by
  refine ⟨?_, by decide +kernel, by decide +kernel, ?_, by decide +kernel⟩
  · intro it hit
    simp only [samplePre, sampleSub, List.cons_append, List.nil_append, List.mem_cons, List.not_mem_nil, or_false] at hit
    rcases hit with rfl | rfl | rfl | rfl | rfl | rfl | rfl | rfl
    · exact (by decide : (60 : Byte) ≠ 37)
    · trivial
    · exact (by decide : (32 : Byte) ≠ 37)
    · exact (by decide +kernel : partner 40 ∉ ascii "|" ∧ partner 40 ∉ unparse [Item.text, .lit 47, .attr 91 (ascii "case")])
    · exact (by decide : (62 : Byte) ≠ 37)
    · trivial
    · exact (by decide : (47 : Byte) ≠ 37)
    · exact (by decide +kernel : partner 91 ∉ ascii "case")
  · intro d hd
    simp only [List.mem_cons, List.not_mem_nil, or_false] at hd
    rcases hd with rfl | rfl | rfl
    · exact List.pairwise_singleton ..
    · exact List.pairwise_singleton ..
    · exact List.Pairwise.nil

/-- **C65 fails.** Printing the pattern `(x)%*(` never ends: the brackets of the list are looked for from the beginning again. -/
theorem C65_loop_false : ∃ p : Str, ∀ (f : Nat) (s : St Nat), expand plainStyle edgeA p f s 0 = none := by
  refine ⟨ascii "(x)%*(", ?_⟩
  have hloop : ∀ (f : Nat) (s : St Nat), expand plainStyle edgeA (ascii "(x)%*(") f s 3 = none := by
    intro f
    induction f with
    | zero => intro s; rfl
    | succ f ih =>
      intro s
      rw [expand, if_pos (by decide)]
      have e : (step plainStyle edgeA (ascii "(x)%*(") s 3).2 = 3 := by rfl
      rw [e, ih]
  intro f s
  cases f with
  | zero => rfl
  | succ f =>
    rw [expand, if_pos (by decide)]
    have e : (step plainStyle edgeA (ascii "(x)%*(") s 0).2 = 1 := by rfl
    rw [e]
    generalize (step plainStyle edgeA (ascii "(x)%*(") s 0).1 = s
    cases f with
    | zero => rfl
    | succ f =>
      rw [expand, if_pos (by decide)]
      have e : (step plainStyle edgeA (ascii "(x)%*(") s 1).2 = 2 := by rfl
      rw [e]
      generalize (step plainStyle edgeA (ascii "(x)%*(") s 1).1 = s
      cases f with
      | zero => rfl
      | succ f =>
        rw [expand, if_pos (by decide)]
        have e : (step plainStyle edgeA (ascii "(x)%*(") s 2).2 = 3 := by rfl
        rw [e, hloop]

/-- **C65 fails.** Asking for an attribute that an edge does not have puts it among the attributes that are printed later. -/
theorem C65_missing_false :
    ∃ (p : List Item) (d : Edge Nat), (∀ it ∈ p, it.Fits) ∧ InOrder d.av ∧
      print plainStyle 20 1 [unparse p] [d] = some [[ascii "x="]] ∧ meaning plainStyle d p = [] := by
  refine ⟨[.attr 40 (ascii "x"), .all], edgeC, ?_, List.Pairwise.nil, by decide +kernel, by decide +kernel⟩
  intro it hit
  simp only [List.mem_cons, List.not_mem_nil, or_false] at hit
  rcases hit with rfl | rfl
  · exact (by decide +kernel : partner 40 ∉ ascii "x")
  · trivial

/-- **C65 fails.** A list with an empty pattern is printed as its internal name. -/
theorem C65_empty_false : print plainStyle 20 2 [ascii "%*(,)()"] [edgeA] = some [[ascii "%*****"]] := by decide +kernel

/-- **C65 fails.** Text with `%*****` in it is taken for the place of the list. -/
theorem C65_text_false :
    print plainStyle 20 2 [ascii "%t%*(,)(%c)"] [{ edgeA with text := ascii "%*****" }] = some [[ascii "subst%*****"]] := by decide +kernel

/-- **C65 fails.** Roles are not compared, although they are named: both edges are listed under the role of the first. -/
theorem C65_role_false :
    print plainStyle 30 2 [ascii "%r:%*(,)(%t)"] [edgeC, { edgeA with role := ascii "mod" }] =
      some [[ascii "head:al,ala"], [ascii "mod:al,ala"]] := by decide +kernel

end Verif.Bracket
