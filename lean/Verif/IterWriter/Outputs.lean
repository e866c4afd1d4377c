import Verif.IterWriter.Groups

/-!
Helper lemmas for Props.lean: the texts that are put out.
-/
set_option linter.unusedSimpArgs false
set_option linter.unusedVariables false
namespace Verif.IterWriter
open Verif

/-! ### The simple output -/

/-- Adding a word. -/
def glue (sep m w : Str) : Str := (if m ≠ [] then m ++ sep else m) ++ w

theorem glue_ne {sep m w : Str} (h : w ≠ []) : glue sep m w ≠ [] := by
  unfold glue
  intro he
  exact h (List.append_eq_nil_iff.mp he).2

theorem glue_fold (sep : Str) (ws : List Str) (m : Str) (hm : m ≠ []) (hw : ∀ w ∈ ws, w ≠ []) :
    ws.foldl (glue sep) m = m ++ ws.flatMap (fun v => sep ++ v) := by
  induction ws generalizing m with
  | nil => simp
  | cons w ws ih =>
    rw [List.foldl_cons, ih _ (glue_ne (hw w (by simp))) (fun v hv => hw v (List.mem_cons_of_mem _ hv))]
    simp [glue, hm]

theorem glue_between (sep : Str) (ws : List Str) (hw : ∀ w ∈ ws, w ≠ []) : ws.foldl (glue sep) [] = between sep ws := by
  cases ws with
  | nil => rfl
  | cons w ws =>
    rw [List.foldl_cons]
    have : glue sep [] w = w := by simp [glue]
    rw [this, glue_fold sep ws w (hw w (by simp)) (fun v hv => hw v (List.mem_cons_of_mem _ hv))]
    rfl

theorem between_ne {sep : Str} {ws : List Str} (h : ws ≠ []) (hw : ∀ w ∈ ws, w ≠ []) : between sep ws ≠ [] := by
  cases ws with
  | nil => exact absurd rfl h
  | cons w ws =>
    intro he
    exact hw w (by simp) (List.append_eq_nil_iff.mp he).1

/-- Edges of vertices, without those that print nothing. -/
def altTexts (c : Seps) (ls : List (List (Edge Str))) : List Str :=
  (ls.filter (fun l => !l.isEmpty)).map (fun l => between c.altSep (l.map Edge.item))

theorem puts_simple (c : Seps) (ws : List Str) (s : Simple) (ho : s.altOpen = true) :
    (ws.map Ev.put).foldl (Simple.step c) s = { s with alt := ws.foldl (glue c.altSep) s.alt } := by
  induction ws generalizing s with
  | nil => rfl
  | cons w ws ih =>
    rw [List.map_cons, List.foldl_cons]
    have h1 : Simple.step c s (.put w) = { s with alt := glue c.altSep s.alt w } := by
      show s.put c w = _
      unfold Simple.put
      rw [ho]
      rfl
    rw [h1, ih]
    · rfl
    · exact ho

theorem alt_simple (c : Seps) (l : List (Edge Str)) (hl : l ≠ []) (hi : ∀ e ∈ l, e.item ≠ []) (s : Simple) (ho : s.altOpen = false)
    (ha : s.alt = []) :
    (alternative l).foldl (Simple.step c) s = { s with block := glue c.sep s.block (between c.altSep (l.map Edge.item)) } := by
  have hw : ∀ w ∈ l.map Edge.item, w ≠ [] := by
    intro w hw
    obtain ⟨e, he, rfl⟩ := List.mem_map.mp hw
    exact hi e he
  have hne : l.isEmpty = false := by cases l; exact absurd rfl hl; rfl
  unfold alternative
  rw [hne]
  simp only [Bool.false_eq_true, if_false]
  rw [List.foldl_append, List.foldl_append]
  have h1 : [Ev.openAlt].foldl (Simple.step c) s = { s with alt := [], altOpen := true } := by
    show s.openAlt c = _
    unfold Simple.openAlt
    rw [ho]
    rfl
  have h2 : l.map (fun e => Ev.put e.item) = (l.map Edge.item).map Ev.put := by rw [List.map_map]; rfl
  rw [h1, h2, puts_simple c _ _ rfl, glue_between _ _ hw]
  have hb : between c.altSep (l.map Edge.item) ≠ [] := between_ne (by simpa using hl) hw
  show Simple.closeAlt c _ = _
  unfold Simple.closeAlt
  simp only [ne_eq, hb, not_false_eq_true, if_true]
  cases s
  simp only at ho ha
  subst ho; subst ha
  rfl

theorem alts_simple (c : Seps) (ls : List (List (Edge Str))) (hi : ∀ l ∈ ls, ∀ e ∈ l, e.item ≠ []) (s : Simple) (ho : s.altOpen = false)
    (ha : s.alt = []) :
    (ls.flatMap alternative).foldl (Simple.step c) s = { s with block := (altTexts c ls).foldl (glue c.sep) s.block } := by
  induction ls generalizing s with
  | nil => rfl
  | cons l ls ih =>
    rw [List.flatMap_cons, List.foldl_append]
    cases l with
    | nil =>
      rw [show (alternative ([] : List (Edge Str))).foldl (Simple.step c) s = s from rfl,
        ih (fun l h => hi l (List.mem_cons_of_mem _ h)) s ho ha]
      rfl
    | cons e l =>
      rw [alt_simple c (e :: l) (by simp) (hi _ (by simp)) s ho ha, ih (fun l h => hi l (List.mem_cons_of_mem _ h))]
      · rfl
      · exact ho
      · exact ha

theorem altTexts_ne (c : Seps) (ls : List (List (Edge Str))) (hi : ∀ l ∈ ls, ∀ e ∈ l, e.item ≠ []) : ∀ w ∈ altTexts c ls, w ≠ [] := by
  intro w hw
  unfold altTexts at hw
  obtain ⟨l, hl, rfl⟩ := List.mem_map.mp hw
  rw [List.mem_filter] at hl
  refine between_ne ?_ ?_
  · intro he
    rw [List.map_eq_nil_iff] at he
    rw [he] at hl
    simp at hl
  · intro w hw
    obtain ⟨e, he, rfl⟩ := List.mem_map.mp hw
    exact hi l hl.1 e he

theorem contains_self (x : Str) : contains x x = true := by
  cases x with
  | nil => rfl
  | cons a x => simp [contains]

/-- Between two groups. -/
structure SInv (sep : Str) (t : Str) (s : Simple) : Prop where
  alt : s.alt = []
  altOpen : s.altOpen = false
  block : s.block = []
  closed : s.opened t = false
  first : s.main = [] → s.seps = []
  later : s.seps = [] ∨ s.seps = sep

theorem group_simple (c : Seps) {t sep : Str} (hs : c.of t = some sep) (ls : List (List (Edge Str)))
    (hi : ∀ l ∈ ls, ∀ e ∈ l, e.item ≠ []) (s : Simple) (h : SInv sep t s) :
    let s' := ([Ev.openGroup t] ++ ls.flatMap alternative ++ [Ev.closeGroup t]).foldl (Simple.step c) s
    SInv sep t s' ∧ s'.main = (if between c.sep (altTexts c ls) = [] then s.main else glue sep s.main (between c.sep (altTexts c ls))) := by
  intro s'
  have h1 : [Ev.openGroup t].foldl (Simple.step c) s =
      { s with seps := (if s.main ≠ [] then sep else []), opened := fun u => if u = t then true else s.opened u } := by
    show s.openGroup c t = _
    unfold Simple.openGroup
    rw [hs]
    simp only [h.closed, Bool.false_eq_true, if_false]
    congr 1
    by_cases hm : s.main = []
    · rw [h.first hm]; simp [hm]
    · simp only [ne_eq, hm, not_false_eq_true, true_and, if_true]
      rcases h.later with hl | hl
      · rw [hl]
        cases sep with
        | nil => rfl
        | cons a x => simp [contains]
      · rw [hl, contains_self]; simp
  have hs' : s' = Simple.closeGroup c { s with seps := (if s.main ≠ [] then sep else []), opened := fun u => if u = t then true else s.opened u, block := between c.sep (altTexts c ls) } t := by
    show ([Ev.openGroup t] ++ ls.flatMap alternative ++ [Ev.closeGroup t]).foldl (Simple.step c) s = _
    rw [List.foldl_append, List.foldl_append, h1, alts_simple c ls hi]
    · show Simple.closeGroup c _ t = _
      simp only [h.block]
      rw [glue_between _ _ (altTexts_ne c ls hi)]
    · exact h.altOpen
    · exact h.alt
  rw [hs']
  unfold Simple.closeGroup
  simp only [hs]
  by_cases hb : between c.sep (altTexts c ls) = []
  · simp only [hb, ne_eq, not_true_eq_false, if_false, if_true]
    refine ⟨⟨h.alt, h.altOpen, rfl, by simp, ?_, ?_⟩, trivial⟩
    · intro hm
      show (if ¬ s.main = [] then sep else []) = []
      rw [if_neg (by simpa using hm)]
    · show (if ¬ s.main = [] then sep else []) = [] ∨ _
      by_cases hm : s.main = []
      · left; rw [if_neg (by simpa using hm)]
      · right; rw [if_pos hm]
  · simp only [hb, ne_eq, not_false_eq_true, if_false, if_true]
    refine ⟨⟨h.alt, h.altOpen, rfl, by simp, fun _ => rfl, .inl rfl⟩, ?_⟩
    unfold glue
    by_cases hm : s.main = [] <;> simp [hm]

theorem groups_simple (c : Seps) {t sep : Str} (hs : c.of t = some sep) (lss : List (List (List (Edge Str))))
    (hi : ∀ ls ∈ lss, ∀ l ∈ ls, ∀ e ∈ l, e.item ≠ []) (s : Simple) (h : SInv sep t s) :
    let s' := (lss.flatMap (fun ls => [Ev.openGroup t] ++ ls.flatMap alternative ++ [Ev.closeGroup t])).foldl (Simple.step c) s
    SInv sep t s' ∧
      s'.main = (((lss.map (fun ls => between c.sep (altTexts c ls))).filter (fun w => !w.isEmpty)).foldl (glue sep) s.main) := by
  induction lss generalizing s with
  | nil => exact ⟨h, rfl⟩
  | cons ls lss ih =>
    rw [List.flatMap_cons, List.foldl_append]
    obtain ⟨a, b⟩ := group_simple c hs ls (hi ls (by simp)) s h
    obtain ⟨a', b'⟩ := ih (fun ls h => hi ls (List.mem_cons_of_mem _ h)) _ a
    refine ⟨a', ?_⟩
    rw [b', b, List.map_cons]
    by_cases hb : between c.sep (altTexts c ls) = []
    · rw [if_pos hb, List.filter_cons_of_neg (by rw [hb]; simp)]
    · rw [if_neg hb, List.filter_cons_of_pos (by simpa using hb)]
      rfl

/-! ### The JSON output -/

theorem commas_cons (a : Str) (l : List Str) (h : l ≠ []) : commas (a :: l) = a ++ [44] ++ commas l := by
  cases l with
  | nil => exact absurd rfl h
  | cons b l => rfl

theorem main_fold (ws : List Str) (s : Json) (h : s.count ≠ 0) :
    (ws.foldl Json.printMain s).out = s.out ++ ws.flatMap (fun w => [44] ++ w) ∧ (ws.foldl Json.printMain s).cur = s.cur ∧
      (ws.foldl Json.printMain s).stack = s.stack := by
  induction ws generalizing s with
  | nil => simp
  | cons w ws ih =>
    rw [List.foldl_cons]
    obtain ⟨a, b, c⟩ := ih (s.printMain w) (by simp [Json.printMain])
    refine ⟨?_, b, c⟩
    rw [a]
    simp [Json.printMain, h]

theorem commas_flat (w : Str) (ws : List Str) : commas (w :: ws) = w ++ ws.flatMap (fun v => [44] ++ v) := by
  induction ws generalizing w with
  | nil => simp [commas]
  | cons v ws ih =>
    rw [commas_cons w _ (by simp), ih v]
    simp

theorem main_fold0 (ws : List Str) (s : Json) (h : s.count = 0) : (ws.foldl Json.printMain s).out = s.out ++ commas ws := by
  cases ws with
  | nil => simp [commas]
  | cons w ws =>
    rw [List.foldl_cons, (main_fold ws (s.printMain w) (by simp [Json.printMain])).1, commas_flat]
    simp [Json.printMain, h]

theorem puts_json (ws : List Str) (s : Json) (a : List Str) (h : s.cur = some a) :
    (ws.map Ev.put).foldl Json.step s = { s with cur := some (a ++ ws) } := by
  induction ws generalizing s a with
  | nil => simp [← h]
  | cons w ws ih =>
    rw [List.map_cons, List.foldl_cons]
    have h1 : Json.step s (.put w) = { s with cur := some (a ++ [w]) } := by
      show s.push w = _
      unfold Json.push
      rw [h]
    rw [h1, ih _ _ rfl]
    simp

/-- Texts of alternatives. -/
def altJson (ls : List (List (Edge Str))) : List Str :=
  (ls.filter (fun l => !l.isEmpty)).map (fun l => arrayText true (l.map Edge.item))

theorem arrayText_ne {f : Bool} {a : List Str} (h : a ≠ []) (hw : ∀ w ∈ a, w ≠ []) : arrayText f a ≠ [] := by
  unfold arrayText
  split
  · exact hw _ (by simp)
  · rw [if_neg h]; simp

theorem close_json (s : Json) : [Ev.closeAlt].foldl Json.step s = s.closeArray true := rfl

theorem alt_json (l : List (Edge Str)) (hl : l ≠ []) (hi : ∀ e ∈ l, e.item ≠ []) (s : Json) (hs : s.cur = none → s.stack = []) :
    (alternative l).foldl Json.step s = s.push (arrayText true (l.map Edge.item)) := by
  have hne : l.isEmpty = false := by cases l; exact absurd rfl hl; rfl
  have hw : ∀ w ∈ l.map Edge.item, w ≠ [] := by
    intro w hw
    obtain ⟨e, he, rfl⟩ := List.mem_map.mp hw
    exact hi e he
  have hm : l.map Edge.item ≠ [] := by simpa using hl
  have ht := arrayText_ne (f := true) hm hw
  unfold alternative
  rw [hne]
  simp only [Bool.false_eq_true, if_false]
  rw [List.foldl_append, List.foldl_append]
  have h2 : l.map (fun e => Ev.put e.item) = (l.map Edge.item).map Ev.put := by rw [List.map_map]; rfl
  rw [h2]
  cases hc : s.cur with
  | some a =>
    have h1 : [Ev.openAlt].foldl Json.step s = { s with cur := some [], stack := a :: s.stack } := by
      show s.openArray = _
      unfold Json.openArray; rw [hc]
    rw [h1, puts_json _ _ [] rfl]
    rw [close_json]
    unfold Json.closeArray Json.push
    rw [hc]
    simp only [List.nil_append, ne_eq, hm, not_false_eq_true, ht, and_self, if_true]
  | none =>
    have h1 : [Ev.openAlt].foldl Json.step s = { s with cur := some [] } := by
      show s.openArray = _
      unfold Json.openArray; rw [hc]
    rw [h1, puts_json _ _ [] rfl]
    rw [close_json]
    unfold Json.closeArray Json.push
    rw [hc, hs hc]
    simp only [List.nil_append, ne_eq, hm, not_false_eq_true, if_true]
    unfold Json.printMain
    cases s
    simp only at hc hs
    subst hc
    rw [hs rfl]

theorem push_cur (s : Json) (w : Str) : ((s.push w).cur = none ↔ s.cur = none) ∧ (s.push w).stack = s.stack := by
  unfold Json.push
  cases h : s.cur <;> simp [Json.printMain, h]

theorem alts_json (ls : List (List (Edge Str))) (hi : ∀ l ∈ ls, ∀ e ∈ l, e.item ≠ []) (s : Json) (hs : s.cur = none → s.stack = []) :
    (ls.flatMap alternative).foldl Json.step s = (altJson ls).foldl Json.push s := by
  induction ls generalizing s with
  | nil => rfl
  | cons l ls ih =>
    rw [List.flatMap_cons, List.foldl_append]
    cases l with
    | nil =>
      rw [show (alternative ([] : List (Edge Str))).foldl Json.step s = s from rfl, ih (fun l h => hi l (List.mem_cons_of_mem _ h)) s hs]
      rfl
    | cons e l =>
      rw [alt_json (e :: l) (by simp) (hi _ (by simp)) s hs, ih (fun l h => hi l (List.mem_cons_of_mem _ h)) _ ?_]
      · rfl
      · intro h
        obtain ⟨a, b⟩ := push_cur s (arrayText true (List.map Edge.item (e :: l)))
        rw [b]; exact hs (a.mp h)

theorem push_none (ws : List Str) (s : Json) (h : s.cur = none) : ws.foldl Json.push s = ws.foldl Json.printMain s := by
  induction ws generalizing s with
  | nil => rfl
  | cons w ws ih =>
    rw [List.foldl_cons, List.foldl_cons]
    have : s.push w = s.printMain w := by unfold Json.push; rw [h]
    rw [this]
    exact ih _ h

theorem push_some (ws : List Str) (s : Json) (a : List Str) (h : s.cur = some a) :
    ws.foldl Json.push s = { s with cur := some (a ++ ws) } := by
  induction ws generalizing s a with
  | nil => simp [← h]
  | cons w ws ih =>
    rw [List.foldl_cons]
    have : s.push w = { s with cur := some (a ++ [w]) } := by unfold Json.push; rw [h]
    rw [this, ih _ _ rfl]
    simp

/-- The text of a group, if something is in it. -/
def groupJson (ls : List (List (Edge Str))) : List Str :=
  if (altJson ls).isEmpty then [] else [arrayText false (altJson ls)]

theorem group_json (t : Str) (ls : List (List (Edge Str))) (hi : ∀ l ∈ ls, ∀ e ∈ l, e.item ≠ []) (s : Json) (hc : s.cur = none)
    (hst : s.stack = []) :
    ([Ev.openGroup t] ++ ls.flatMap alternative ++ [Ev.closeGroup t]).foldl Json.step s = (groupJson ls).foldl Json.printMain s := by
  rw [List.foldl_append, List.foldl_append]
  have h1 : [Ev.openGroup t].foldl Json.step s = { s with cur := some [] } := by
    show s.openArray = _
    unfold Json.openArray; rw [hc]
  rw [h1, alts_json ls hi _ (fun h => by cases h), push_some _ _ [] rfl]
  show Json.closeArray false _ = _
  unfold Json.closeArray
  simp only [hst, List.nil_append]
  unfold groupJson
  cases ha : altJson ls with
  | nil =>
    simp
    cases s; simp only at hc hst; subst hc; subst hst; rfl
  | cons w ws =>
    simp [Json.printMain]
    exact ⟨hc.symm, hst⟩

theorem groups_json (t : Str) (lss : List (List (List (Edge Str)))) (hi : ∀ ls ∈ lss, ∀ l ∈ ls, ∀ e ∈ l, e.item ≠ []) (s : Json)
    (hc : s.cur = none) (hst : s.stack = []) :
    (lss.flatMap (fun ls => [Ev.openGroup t] ++ ls.flatMap alternative ++ [Ev.closeGroup t])).foldl Json.step s =
      (lss.flatMap groupJson).foldl Json.printMain s := by
  induction lss generalizing s with
  | nil => rfl
  | cons ls lss ih =>
    rw [List.flatMap_cons, List.foldl_append, group_json t ls (hi ls (by simp)) s hc hst, List.flatMap_cons, List.foldl_append]
    have hp : ∀ ws : List Str, ∀ s : Json, s.cur = none → s.stack = [] → (ws.foldl Json.printMain s).cur = none ∧ (ws.foldl Json.printMain s).stack = [] := by
      intro ws
      induction ws with
      | nil => intro s a b; exact ⟨a, b⟩
      | cons w ws ih => intro s a b; exact ih _ a b
    obtain ⟨a, b⟩ := hp (groupJson ls) s hc hst
    exact ih (fun ls h => hi ls (List.mem_cons_of_mem _ h)) _ a b

/-! ### JSON texts -/

theorem blank_nil : Blank [] := fun b h => by cases h

theorem isJson_ne {v : Val} {t : Str} (h : IsJson v t) : t ≠ [] := by
  cases h <;> simp

theorem items_commas {A : Type} (val : A → Val) (txt : A → Str) (l : List A) (h : ∀ a ∈ l, IsJson (val a) (txt a)) :
    Items (l.map val) (commas (l.map txt)) := by
  induction l with
  | nil => exact .nil blank_nil
  | cons a l ih =>
    cases l with
    | nil =>
      have := Items.one blank_nil blank_nil (h a (by simp))
      simpa [commas] using this
    | cons b l =>
      have := Items.cons blank_nil blank_nil (h a (by simp)) (ih (fun x hx => h x (List.mem_cons_of_mem _ hx)))
      simpa [commas] using this

/-- Values and texts go together. -/
inductive Both : List Val → List Str → Prop
  | nil : Both [] []
  | cons {v : Val} {t : Str} {vs : List Val} {ts : List Str} : IsJson v t → Both vs ts → Both (v :: vs) (t :: ts)

theorem Both.append {a c : List Val} {b d : List Str} (h : Both a b) (h' : Both c d) : Both (a ++ c) (b ++ d) := by
  induction h with
  | nil => exact h'
  | cons h1 _ ih => exact .cons h1 ih

theorem both_items {vs : List Val} {ts : List Str} (h : Both vs ts) : Items vs (commas ts) := by
  induction h with
  | nil => exact .nil blank_nil
  | @cons v t vs ts h1 h2 ih =>
    cases h2 with
    | nil =>
      have := Items.one blank_nil blank_nil h1
      simpa [commas] using this
    | cons h3 h4 =>
      have := Items.cons blank_nil blank_nil h1 ih
      simpa [commas] using this

theorem both_map {A : Type} (val : A → Val) (txt : A → Str) (l : List A) (h : ∀ a ∈ l, IsJson (val a) (txt a)) :
    Both (l.map val) (l.map txt) := by
  induction l with
  | nil => exact .nil
  | cons a l ih => exact .cons (h a (by simp)) (ih (fun x hx => h x (List.mem_cons_of_mem _ hx)))

theorem both_alt (val : Str → Val) (ls : List (List (Edge Str))) (h : ∀ l ∈ ls, ∀ e ∈ l, IsJson (val e.item) e.item) :
    Both (ls.flatMap (altVal val)) (altJson ls) := by
  induction ls with
  | nil => exact .nil
  | cons l ls ih =>
    have ih' := ih (fun l hl => h l (List.mem_cons_of_mem _ hl))
    have h1 := h l (by simp)
    match l with
    | [] => exact ih'
    | [e] =>
      exact .cons (h1 e (by simp)) ih'
    | e :: f :: l =>
      refine .cons ?_ ih'
      have hb := both_items (both_map (fun e : Edge Str => val e.item) Edge.item (e :: f :: l) h1)
      have := IsJson.arr hb
      show IsJson (.arr _) (arrayText true _)
      simpa [arrayText] using this

theorem both_group (cfg : Config) (out : Int → List (Edge Str)) (val : Str → Val) (vs : List Int)
    (h : ∀ v ∈ vs, ∀ e ∈ chosen cfg (out v), IsJson (val e.item) e.item) :
    Both (groupVal cfg out val vs) (groupJson (vs.map (fun v => chosen cfg (out v)))) := by
  have hb := both_alt val (vs.map (fun v => chosen cfg (out v))) (by
    intro l hl e he
    obtain ⟨v, hv, rfl⟩ := List.mem_map.mp hl
    exact h v hv e he)
  rw [List.flatMap_map] at hb
  unfold groupVal groupJson
  simp only
  generalize vs.flatMap (fun v => altVal val (chosen cfg (out v))) = a at hb ⊢
  generalize altJson _ = b at hb ⊢
  cases hb with
  | nil => exact .nil
  | cons h1 h2 =>
    refine .cons ?_ .nil
    have := IsJson.arr (both_items (Both.cons h1 h2))
    simpa [arrayText] using this

theorem both_groups (cfg : Config) (out : Int → List (Edge Str)) (val : Str → Val) (segs : List (List Int))
    (h : ∀ vs ∈ segs, ∀ v ∈ vs, ∀ e ∈ chosen cfg (out v), IsJson (val e.item) e.item) :
    Both (segs.flatMap (groupVal cfg out val)) (segs.flatMap (fun vs => groupJson (vs.map (fun v => chosen cfg (out v))))) := by
  induction segs with
  | nil => exact .nil
  | cons vs segs ih =>
    rw [List.flatMap_cons, List.flatMap_cons]
    exact (both_group cfg out val vs (h vs (by simp))).append (ih (fun vs hv => h vs (List.mem_cons_of_mem _ hv)))

theorem escape_cons (b : Byte) (s : Str) : escapeByte 34 (escapeByte 92 (b :: s)) =
    (if b = 92 then [92, 92] else if b = 34 then [92, 34] else [b]) ++ escapeByte 34 (escapeByte 92 s) := by
  unfold escapeByte
  rw [List.flatMap_cons, List.flatMap_append]
  congr 1
  by_cases h1 : b = 92
  · subst h1; decide
  · rw [if_neg h1, if_neg h1]
    by_cases h2 : b = 34
    · subst h2; decide
    · simp [h2]

theorem escape_chars (s a : Str) (h : Chars a (escapeByte 34 (escapeByte 92 s))) : NoControl s ∧ a = s := by
  induction s generalizing a with
  | nil =>
    cases h
    exact ⟨fun b hb => (by cases hb), rfl⟩
  | cons b s ih =>
    rw [escape_cons] at h
    by_cases h1 : b = 92
    · subst h1
      rw [if_pos rfl] at h
      cases h with
      | plain _ _ h3 _ => exact absurd rfl h3
      | backslash h' =>
        obtain ⟨h2, rfl⟩ := ih _ h'
        refine ⟨?_, rfl⟩
        intro c hc
        rcases List.mem_cons.mp hc with rfl | hc
        · decide
        · exact h2 c hc
    · rw [if_neg h1] at h
      by_cases h2 : b = 34
      · subst h2
        rw [if_pos rfl] at h
        cases h with
        | plain _ _ h3 _ => exact absurd rfl h3
        | quote h' =>
          obtain ⟨h2, rfl⟩ := ih _ h'
          refine ⟨?_, rfl⟩
          intro c hc
          rcases List.mem_cons.mp hc with rfl | hc
          · decide
          · exact h2 c hc
      · rw [if_neg h2] at h
        generalize hr : escapeByte 34 (escapeByte 92 s) = r at h ih
        have hx : ∀ x : Str, [b] ++ r = 92 :: x → False := by
          intro x hx
          injection hx with hx
          exact h1 hx
        generalize hy : [b] ++ r = y at h hx
        cases h with
        | nil => simp at hy
        | plain h3 h4 h5 h' =>
          injection hy with hy1 hy2
          subst hy1
          subst hy2
          obtain ⟨h6, rfl⟩ := ih _ h'
          refine ⟨?_, rfl⟩
          intro c hc
          rcases List.mem_cons.mp hc with rfl | hc
          · exact h3
          · exact h6 c hc
        | quote _ => exact (hx _ rfl).elim
        | backslash _ => exact (hx _ rfl).elim
        | slash _ => exact (hx _ rfl).elim
        | b _ => exact (hx _ rfl).elim
        | f _ => exact (hx _ rfl).elim
        | n _ => exact (hx _ rfl).elim
        | r _ => exact (hx _ rfl).elim
        | t _ => exact (hx _ rfl).elim

theorem chars_escape (s : Str) (h : NoControl s) : Chars s (escapeByte 34 (escapeByte 92 s)) := by
  induction s with
  | nil => exact .nil
  | cons b s ih =>
    have ih' := ih (fun c hc => h c (List.mem_cons_of_mem _ hc))
    have hb := h b (by simp)
    rw [escape_cons]
    by_cases h1 : b = 92
    · subst h1
      exact .backslash ih'
    · rw [if_neg h1]
      by_cases h2 : b = 34
      · subst h2
        exact .quote ih'
      · rw [if_neg h2]
        exact .plain hb h2 h1 ih'

theorem fields_commas (l : List (Str × Str)) (h : ∀ p ∈ l, NoControl p.1 ∧ NoControl p.2) :
    Fields (l.map (fun p => (p.1, .str p.2))) (commas (l.map (fun p => hashValue p.1 p.2))) := by
  induction l with
  | nil => exact .nil blank_nil
  | cons p l ih =>
    have hp := h p (by simp)
    have h1 := chars_escape p.1 hp.1
    have h2 := IsJson.str (chars_escape p.2 hp.2)
    cases l with
    | nil =>
      have := Fields.one blank_nil blank_nil blank_nil blank_nil h1 h2
      simpa [commas, hashValue, quote] using this
    | cons q l =>
      have := Fields.cons blank_nil blank_nil blank_nil blank_nil h1 h2 (ih (fun x hx => h x (List.mem_cons_of_mem _ hx)))
      simpa [commas, hashValue, quote] using this

end Verif.IterWriter
