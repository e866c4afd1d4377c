import Verif.Xml.Parse
import Verif.Xml.Process
set_option linter.unusedSimpArgs false
set_option linter.unusedVariables false

/-! C89–C94: sentences with XML tags and syntax trees. -/
namespace Verif.Xml
open Verif Verif.Server

/-! ### C89 -/

/-- **C89** `unescape` returns a string exactly if the input is a way to write it. -/
theorem C89_unescape (e t : Str) : unescape e = .ok t ↔ Encodes t e := unescape_ok

example : unescape (ascii "a&lt;b &amp;&quot;") = .ok (ascii "a<b &\"") := by decide +kernel
example : Encodes (ascii "<b") (ascii "&lt;b") :=
  .named (ascii "lt") 60 (by decide +kernel) (.plain 98 (by decide) .nil)

/-- **C89** Given enough rounds, an exception is thrown exactly if some `&` is followed by something that is no
name of a character. -/
theorem C89_throws (e : Str) (n : Nat) (hn : e.length < n) : unescapeIn n e = some (.error .exception) ↔ Unknown e := by
  refine ⟨fun h => ?_, fun h => loop_unknown h n hn⟩
  rcases classify e.length e (le_refl _) with ⟨t, ht⟩ | h' | h'
  · rw [unescapeIn, loop_encodes e e.length e t 0 n [] (le_refl _) rfl ht hn] at h
    simp at h
  · exact h'
  · rw [unescapeIn, loop_unfinished h'] at h
    simp at h

example : Unknown (ascii "a&nbsp;b") :=
  ⟨ascii "a", ascii "a", ascii "nbsp", ascii ";b", .plain 97 (by decide) .nil, by decide +kernel, by decide +kernel,
    by decide +kernel, by
      intro c
      simp only [names, List.mem_cons, Prod.mk.injEq, not_or, List.not_mem_nil, not_false_eq_true, and_true, not_and]
      refine ⟨?_, ?_, ?_, ?_, ?_, ?_, ?_, ?_, ?_, ?_⟩ <;> exact fun h => absurd h (by decide +kernel)⟩

/-- **C89** The loop never ends exactly if the string ends in a name without its semicolon. -/
theorem C89_diverges (e : Str) : (∀ n, unescapeIn n e = none) ↔ Unfinished e := by
  refine ⟨fun h => ?_, fun h n => loop_unfinished h n []⟩
  have h := h (e.length + 1)
  rcases classify e.length e (le_refl _) with ⟨t, ht⟩ | h' | h'
  · rw [unescapeIn, loop_encodes e e.length e t 0 _ [] (le_refl _) rfl ht (by omega)] at h
    simp at h
  · rw [loop_unknown h' _ (by omega)] at h
    simp at h
  · exact h'

/-- **C89** The number of rounds does not matter, if it is greater than the length. -/
theorem C89_rounds (e : Str) (n : Nat) (hn : e.length < n) :
    (unescapeIn n e).getD (.error .diverges) = unescape e := by
  rw [unescape]
  rcases classify e.length e (le_refl _) with ⟨t, ht⟩ | h' | h'
  · rw [unescapeIn, unescapeIn, loop_encodes e e.length e t 0 _ [] (le_refl _) rfl ht hn,
      loop_encodes e e.length e t 0 _ [] (le_refl _) rfl ht (by omega)]
  · rw [loop_unknown h' _ hn, loop_unknown h' _ (by omega)]
  · rw [unescapeIn, unescapeIn, loop_unfinished h', loop_unfinished h']

theorem escape_encodes : ∀ s : Str, Encodes s (escape s) := by
  intro s
  induction s with
  | nil => exact .nil
  | cons c s ih =>
    rw [escape, List.flatMap_cons]
    split
    · rename_i h; subst h; exact .named (ascii "amp") 38 (by decide +kernel) ih
    · split
      · rename_i h; subst h; exact .named (ascii "lt") 60 (by decide +kernel) ih
      · split
        · rename_i h; subst h; exact .named (ascii "gt") 62 (by decide +kernel) ih
        · rename_i h _ _; exact .plain c h ih

/-- **C89** What was escaped in the usual way is restored. -/
theorem C89_escape (s : Str) : unescape (escape s) = .ok s := (C89_unescape _ _).2 (escape_encodes s)

example : escape (ascii "a<b&c") = ascii "a&lt;b&amp;c" := by decide +kernel

/-- `unescape` does not always end: `&lt` without the semicolon is read again and again. -/
theorem C89_ends_false : ¬∀ e : Str, ∃ n r, unescapeIn n e = some r := by
  intro h
  obtain ⟨n, r, h⟩ := h (ascii "&lt")
  rw [(C89_diverges (ascii "&lt")).2 ⟨[], [], ascii "lt", 60, .nil, by decide +kernel, by decide +kernel⟩ n] at h
  simp at h

/-! ### C90 -/

/-- **C90** `TokenizeXml` cuts the line into tags and texts; a tag that is not closed is left out together with the
text before it. -/
theorem C90_tokens_partial (line : Str) (ts : List Str) : tokenizeXml line = ts ↔ Cut line ts := cut_iff line ts

/-- **C90** Nothing is lost exactly if there is a `>` behind each `<`.
Missing: other lines, see `C90_lost_false`. -/
theorem C90_whole_partial (line : Str) : (tokenizeXml line).flatten = line ↔ ∀ a b, line = a ++ 60 :: b → 62 ∈ b :=
  whole_iff line

example : tokenizeXml (ascii "a<b>c d</b>e") = [ascii "a", ascii "<b>", ascii "c d", ascii "</b>", ascii "e"] := by
  decide +kernel

/-- The text before a tag that is not closed is lost too. -/
theorem C90_lost_false : ¬∀ text rest : Str, 60 ∉ text → text ≠ [] →
    (tokenizeXml (text ++ 60 :: rest)).head? = some text := by
  intro h
  have := h (ascii "a") (ascii "b") (by decide +kernel) (by decide +kernel)
  revert this
  decide +kernel

/-! ### C91 -/

/-- **C91** The value that `ParseXmlTagAttribute` returns, for all tags and names. -/
theorem C91_value (tag name v : Str) : attrValue tag name = v ↔ HasAttr tag name v := attrValue_iff tag name v

/-- **C91** The value of an attribute in a list of attributes.
Missing: empty values, values that end in `=` and names that end in the name sought, see `C91_empty_false`,
`C91_equals_false`, `C91_suffix_false`. -/
theorem C91_list_partial {n v : Str} (hn : IsName n) (hv : IsValue v) (l l' : List (Str × Str))
    (h : ∀ x ∈ l, Harmless n x) : attrValue (attrsText (l ++ (n, v) :: l')) n = v := attrs_value hn hv l l' h

/-- **C91** An attribute that is not in the list. -/
theorem C91_absent_partial {n : Str} (hn : IsName n) (l : List (Str × Str)) (h : ∀ x ∈ l, Harmless n x) :
    attrValue (attrsText l) n = [] := attrs_none hn l h

example : attrsText [(ascii "span", ascii "0-3"), (ascii "label", ascii "NP")] = ascii "span=\"0-3\" label=\"NP\"" := by
  decide +kernel
example : IsName (ascii "label") ∧ IsValue (ascii "NP") := by
  refine ⟨⟨by decide +kernel, by decide +kernel⟩, by decide +kernel, by decide +kernel, by decide +kernel⟩
theorem harmless_span : Harmless (ascii "label") (ascii "span", ascii "0-3") := by
  refine ⟨⟨by decide +kernel, by decide +kernel⟩, ⟨by decide +kernel, by decide +kernel, by decide +kernel⟩,
    by decide +kernel, ?_⟩
  intro y h
  have := congrArg List.length h
  rw [List.length_append] at this
  have e1 : (ascii "span").length = 4 := by decide +kernel
  have e2 : (ascii "label").length = 5 := by decide +kernel
  simp only at this
  omega
example : attrValue (ascii "span=\"0-3\" label=\"NP\"") (ascii "label") = ascii "NP" := by decide +kernel

/-- An empty value is not read as one: the search for the quote begins behind its first character. -/
theorem C91_empty_false : ¬∀ (n v : Str) (l' : List (Str × Str)), IsName n → 34 ∉ v →
    attrValue (attrsText ((n, v) :: l')) n = v := by
  intro h
  have := h (ascii "label") [] [(ascii "span", ascii "1")] ⟨by decide +kernel, by decide +kernel⟩ (by decide)
  revert this
  decide +kernel

/-- A name that ends in the name sought is taken for it. -/
theorem C91_suffix_false : ¬∀ (n v : Str) (l : List (Str × Str)), IsName n → (∀ x ∈ l, x.1 ≠ n) →
    attrValue (attrsText l) n = [] := by
  intro h
  have := h (ascii "label") [] [(ascii "mylabel", ascii "1")] ⟨by decide +kernel, by decide +kernel⟩ (by decide +kernel)
  revert this
  decide +kernel

/-- So is a value that ends in the name and `=`. -/
theorem C91_equals_false : ¬∀ (n v : Str) (l l' : List (Str × Str)), IsName n → IsValue v →
    (∀ x ∈ l, IsName x.1 ∧ IsValue x.2 ∧ ∀ y, x.1 ≠ y ++ n) → attrValue (attrsText (l ++ (n, v) :: l')) n = v := by
  intro h
  have := h (ascii "label") (ascii "NP") [(ascii "span", ascii "label=")] [] ⟨by decide +kernel, by decide +kernel⟩
    ⟨by decide +kernel, by decide +kernel, by decide +kernel⟩ (by
      intro x hx
      rw [List.mem_singleton] at hx
      subst hx
      exact ⟨harmless_span.1, ⟨by decide +kernel, by decide +kernel, by decide +kernel⟩, harmless_span.2.2.2⟩)
  revert this
  decide +kernel

/-! ### C92 -/

/-- **C92** A line with tags is accepted exactly if it is cut into the tokens of a sequence of texts and elements,
properly nested, each element with a node; the result is the text of the items, their nodes and the labels
of those that cover the whole sentence.
Missing: `Cut` leaves out the end of a line whose last tag is not closed, see `C92_lost_false`. -/
theorem C92_process_partial (u : Bool) (line : Str) (hl : 60 ∈ line) (o : Output) : process u line = .ok o ↔
    ∃ ts its ns, Cut line ts ∧ Written u its ts ∧ its.nodes 0 = some ns ∧
      o = ⟨its.line, ns, (ns.filter (fun n => n.first = 0 ∧ n.last + 1 = its.count)).map (·.label)⟩ :=
  process_iff u line hl o

/-- **C92** The words of the line left are those of its texts, in their order; the positions of nodes count them. -/
theorem C92_words (its : Items) : words its.line = its.texts.flatMap words ∧ its.count = (words its.line).length := by
  have h : words its.line = its.texts.flatMap words := by
    rw [Items.line, words_fold, words_nil, List.nil_append]
  exact ⟨h, by rw [h, count_texts]⟩

/-- **C92** A line without tags is left as it is. -/
theorem C92_plain (u : Bool) (line : Str) (hl : 60 ∉ line) : process u line = .ok ⟨line, [], []⟩ := by
  rw [process, if_pos ((find_none_iff line).2 hl)]

example : process true (ascii "<s label=\"S\"><n label=\"NP\"> a &amp; b </n>c<x span=\"0-1\"/></s>") =
    .ok ⟨ascii " a & b c", [⟨0, 2, ascii "NP"⟩, ⟨0, 1, []⟩, ⟨0, 3, ascii "S"⟩], [ascii "S"]⟩ := by decide +kernel

/-- **C92** A tag opened and closed at once is accepted only with a span. -/
theorem C92_single {u : Bool} {line : Str} {o : Output} (h : process u line = .ok o) (hl : 60 ∈ line)
    {tok name content : Str} (hs : Single tok name content) (ht : ∃ ts, Cut line ts ∧ tok ∈ ts) :
    ∃ v, v ≠ [] ∧ HasAttr content (ascii "span") v := by
  obtain ⟨ts, its, ns, hc, hw, hn, rfl⟩ := (process_iff u line hl o).1 h
  obtain ⟨ts', hc', hmem⟩ := ht
  have : ts' = ts := by rw [← (cut_iff line ts').2 hc', (cut_iff line ts).2 hc]
  subst this
  have hbody : ∀ body body', Inside tok body → Inside tok body' → body = body' := by
    intro b b' h1 h2
    rw [← inside_trim h1, ← inside_trim h2]
  obtain ⟨s, hs1, hs2, hs3, hs4⟩ := hs
  have key : ∀ {its ts p ns}, Written u its ts → its.nodes p = some ns → tok ∈ ts →
      ∃ v, v ≠ [] ∧ HasAttr content (ascii "span") v := by
    intro its ts p ns hw
    induction hw generalizing p ns with
    | nil => intro _ hm; simp at hm
    | text htxt _ _ ih =>
      intro hn hm
      rcases List.mem_cons.1 hm with rfl | hm
      · exfalso
        have := inside_head hs1
        apply htxt.2
        exact List.mem_of_mem_head? this
      · exact ih hn hm
    | elem hop _ _ _ hcl _ ih1 ih2 =>
      intro hn hm
      rw [Items.nodes] at hn
      split at hn
      · rename_i e1 e2 e3
        rcases List.mem_cons.1 hm with rfl | hm
        · exfalso
          obtain ⟨body, b1, b2, b3, b4⟩ := hop
          rw [hbody _ _ b1 hs1] at b3
          simp at b3
        · rcases List.mem_append.1 hm with hm | hm
          · exact ih1 e1 hm
          · rcases List.mem_cons.1 hm with rfl | hm
            · exfalso
              obtain ⟨s', c', b1, b2, b3⟩ := hcl
              have := hbody _ _ b1 hs1
              cases s with
              | nil => exact hs2 rfl
              | cons y s =>
                simp only [List.cons_append, List.cons.injEq] at this
                rw [this.2] at b2
                simp at b2
            · exact ih2 e3 hm
      · simp at hn
    | @single tok' name' content' label span rest ts' hsi _ hspan _ ih =>
      intro hn hm
      rw [Items.nodes] at hn
      split at hn
      · rename_i e1 e2
        rcases List.mem_cons.1 hm with rfl | hm
        · obtain ⟨s', b1, b2, b3, b4⟩ := hsi
          have := hbody _ _ b1 hs1
          rw [List.append_left_inj] at this
          subst this
          have hcc : content' = content := by
            have h1 := (divided_iff _ _ _).1 b4
            have h2 := (divided_iff _ _ _).1 hs4
            rw [h1.2, h2.2]
          subst hcc
          refine ⟨span, ?_, hspan⟩
          rintro rfl
          simp [nodeOf] at e1
        · exact ih e2 hm
      · simp at hn
  exact key hw hn hmem

/-- The text after a `<` that is not followed by `>` is dropped without notice. -/
theorem C92_lost_false : ¬∀ (line : Str) (o : Output), process false line = .ok o → 60 ∈ line →
    ∃ its, Written false its (tokenizeXml line) ∧ o.line = its.line ∧ ∀ w, w ≠ [] → 60 ∉ w → w <:+ line →
      ∃ t ∈ its.texts, w <:+: t := by
  intro h
  have hp : process false (ascii "a <b> c </b> 1 < 2") = .ok ⟨ascii "a  c ", [⟨1, 1, []⟩], []⟩ := by decide +kernel
  obtain ⟨its, hw, hline, hall⟩ := h _ _ hp (by decide +kernel)
  obtain ⟨t, ht, hwt⟩ := hall (ascii "2") (by decide +kernel) (by decide +kernel) (by decide +kernel)
  have h2 : (50 : Byte) ∈ its.line := by
    have hin : ∀ (l : List Str) (a : Str), (∃ t ∈ l, (50 : Byte) ∈ t) ∨ 50 ∈ a → 50 ∈ l.foldl glue a := by
      intro l
      induction l with
      | nil => rintro a (⟨t, ht, _⟩ | h); · simp at ht
               exact h
      | cons x l ih =>
        rintro a h
        rw [List.foldl_cons]
        apply ih
        rcases h with ⟨t, ht, h⟩ | h
        · rcases List.mem_cons.1 ht with rfl | ht
          · right; unfold glue; split <;> simp [h]
          · left; exact ⟨t, ht, h⟩
        · right; unfold glue; split <;> simp [h]
    exact hin _ _ (Or.inl ⟨t, ht, hwt.subset (by decide +kernel)⟩)
  rw [← hline] at h2
  revert h2
  decide +kernel

/-- Without tags the escaped characters are not restored. -/
theorem C92_escaped_false : ¬∀ (line t : Str), Encodes t line → ∃ o, process true line = .ok o ∧ o.line = t := by
  intro h
  obtain ⟨o, h1, h2⟩ := h (ascii "&lt;") (ascii "<") (.named (ascii "lt") 60 (by decide +kernel) .nil)
  rw [C92_plain true _ (by decide +kernel)] at h1
  simp only [Except.ok.injEq] at h1
  subst h1
  revert h2
  decide +kernel

/-! ### C93 -/

/-- **C93** `ConnectNodes` finds the tree whose nodes were added: its root, the parents and the children of all the
nodes, in their order.
Missing: several roots, nodes with a word of their own before their first child, see `C93_roots_false`,
`C93_gap_false`. -/
theorem C93_connect_partial (label : Str) (i : Forest) (p : Nat) (h : (Forest.node label i .nil).Regular) :
    ∃ l id, connect ((Forest.node label i .nil).nodes p) = .ok l ∧ l.top = some id ∧
      Shows ((Forest.node label i .nil).nodes p) l none [id] p (.node label i .nil) := connect_tree label i p h

/-- `[S [NP [D w] [N w]] [VP [V w] w]]`. -/
def sample : Forest :=
  .node (ascii "NP") (.node (ascii "D") (.word .nil) (.node (ascii "N") (.word .nil) .nil))
    (.node (ascii "VP") (.node (ascii "V") (.word .nil) (.word .nil)) .nil)

example : (Forest.node (ascii "S") sample .nil).Regular := by
  simp [sample, Forest.Regular, Forest.width, Forest.size]

/-- With two roots a null pointer is followed. -/
theorem C93_roots_false : ¬∀ f : Forest, f.Regular → ∃ l, connect (f.nodes 0) = .ok l := by
  intro h
  obtain ⟨l, h⟩ := h (.node [] (.word .nil) (.node [] (.word .nil) .nil))
    (by simp [Forest.Regular, Forest.width, Forest.size])
  have : (match connect ((Forest.node [] (.word .nil) (.node [] (.word .nil) .nil)).nodes 0) with
    | .ok _ => false | .error e => decide (e = .undefined)) = true := by decide +kernel
  rw [h] at this
  simp at this

/-- In `[a [b w [c w]]]` the node `c` becomes a child of `a`. -/
theorem C93_gap_false : ¬∀ (label : Str) (i : Forest), (∀ x ∈ (Forest.node label i .nil).nodes 0, x.first ≤ x.last) →
    ∃ l id, connect ((Forest.node label i .nil).nodes 0) = .ok l ∧
      Shows ((Forest.node label i .nil).nodes 0) l none [id] 0 (.node label i .nil) := by
  intro h
  obtain ⟨l, id, h1, h2⟩ := h (ascii "a") (.node (ascii "b") (.word (.node (ascii "c") (.word .nil) .nil)) .nil)
    (by decide +kernel)
  have hc : (match connect ((Forest.node (ascii "a") (.node (ascii "b") (.word (.node (ascii "c") (.word .nil) .nil)) .nil) .nil).nodes 0) with
    | .ok l => decide (l.children 1 = [] ∧ l.children 2 = [1, 0]) | .error _ => false) = true := by decide +kernel
  rw [h1] at hc
  simp only [decide_eq_true_eq] at hc
  obtain ⟨id1, ids1, e1, e2, _, e3, _⟩ := h2
  obtain ⟨id2, ids2, f1, f2, _, f3, f4⟩ := e3
  have hn : (Forest.node (ascii "a") (.node (ascii "b") (.word (.node (ascii "c") (.word .nil) .nil)) .nil) .nil).nodes 0 =
    [⟨1, 1, ascii "c"⟩, ⟨0, 1, ascii "b"⟩, ⟨0, 1, ascii "a"⟩] := by decide +kernel
  rw [hn] at e2
  have hid : id1 = 2 := by
    match id1, e2 with
    | 0, e2 => exact absurd e2 (by decide +kernel)
    | 1, e2 => exact absurd e2 (by decide +kernel)
    | 2, _ => rfl
    | n + 3, e2 => simp at e2
  subst hid
  rw [hc.2] at f1
  have h4 : ids2 = [] := f4
  rw [h4] at f1
  simp at f1

/-! ### C94 -/

/-- **C94** If each word has a node of its own, `Parse` ends, and it returns the split points of all the spans of at
least two words over which there is a node, shorter spans first.
Missing: words without nodes, see `C94_ends_false`. -/
theorem C94_parse_partial {n : Nat} {nodes : List Node} (hw : OfWords n nodes) (fuel : Nat) (hf : n < fuel) :
    ∃ ps rs, parse fuel nodes = some rs ∧ ps.Pairwise SpanBefore ∧
      (∀ a b, (a, b) ∈ ps ↔ Spanned nodes a b ∧ a + 2 ≤ b) ∧
      List.Forall₂ (fun ab pts => Splits nodes ab.1 ab.2 pts) ps rs := parse_spec hw fuel hf

/-- **C94** A span is split in one way only. -/
theorem C94_unique {nodes : List Node} {a b : Nat} {l l' : List Nat} (h : Splits nodes a b l) (h' : Splits nodes a b l') :
    l = l' := splits_unique h h'

/-- **C94** For the nodes of trees the spans are split where the children meet, those of the lowest node over the
span. -/
theorem C94_tree_partial {f : Forest} (hf : f.Covered) (fuel : Nat) (hfuel : f.width < fuel) :
    ∃ ps rs, parse fuel (f.nodes 0) = some rs ∧ ps.Pairwise SpanBefore ∧
      (∀ a b, (a, b) ∈ ps ↔ Spanned (f.nodes 0) a b ∧ a + 2 ≤ b) ∧
      List.Forall₂ (fun ab pts => ∃ l i, At f 0 l i ab.1 ∧ ab.1 + i.width = ab.2 ∧ 2 ≤ i.items ∧ pts = i.bounds ab.1) ps rs :=
  parse_tree hf fuel hfuel

/-- `[S [NP [D w] [N w]] [VP [V w] [N w] [P w]]]`. -/
def sampleTree : Forest :=
  .node (ascii "S") (.node (ascii "NP") (.node (ascii "D") (.word .nil) (.node (ascii "N") (.word .nil) .nil))
    (.node (ascii "VP") (.node (ascii "V") (.word .nil) (.node (ascii "N") (.word .nil) (.node (ascii "P") (.word .nil) .nil))) .nil)) .nil

example : sampleTree.Covered := by simp [sampleTree, Forest.Covered]
example : OfWords 5 (sampleTree.nodes 0) := covered_ofWords sampleTree (by simp [sampleTree, Forest.Covered])
example : parse 6 (sampleTree.nodes 0) = some [[0, 1, 2], [2, 3, 4, 5], [0, 2, 5]] := by decide +kernel

/-- Otherwise the search may go on for ever: here a node covers two words, the first one of which has no
node. -/
theorem C94_ends_false : ¬∀ nodes : List Node, (∀ x ∈ nodes, x.first ≤ x.last) → ∃ fuel rs, parse fuel nodes = some rs := by
  intro h
  obtain ⟨fuel, rs, h⟩ := h [⟨0, 1, []⟩, ⟨1, 1, []⟩] (by decide)
  have hs : (spans (index [⟨0, 1, []⟩, ⟨1, 1, []⟩]).length).filter
    (fun p => hasNode (index [⟨0, 1, []⟩, ⟨1, 1, []⟩]) p.1 (p.1 + p.2 - 1)) = [(0, 2)] := by decide +kernel
  have hl : ∀ n, splitLoop (index [⟨0, 1, []⟩, ⟨1, 1, []⟩]) 0 2 n (0, [0], 1) = none := by
    intro n
    induction n with
    | zero => rfl
    | succ n ih =>
      rw [splitLoop, if_pos (by omega)]
      have : splitDown (index [⟨0, 1, []⟩, ⟨1, 1, []⟩]) 0 (2 - 1) (0, [0], 1) = (0, [0], 1) := by decide +kernel
      rw [this, ih]
  rw [parse] at h
  rw [hs, List.mapM_cons, hl] at h
  simp at h

end Verif.Xml
