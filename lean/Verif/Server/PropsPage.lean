import Verif.Server.Site
import Verif.Server.MultipartLemmas
import Verif.Server.PropsHandler

/-!
C50: generated text in pages.
-/
set_option linter.unusedVariables false
set_option linter.unusedSimpArgs false

namespace Verif.Server.Site
open Mpfd (find find_some_iff find_none_iff)

/-! ### Pages -/

/-- A page with places for generated text: what stands before each place, the code of the generator, and what comes
after the last place. -/
structure Page where
  places : List (Str × Str)
  rest : Str

/-- A place for generated text: `<!--#psis code -->`. -/
def Spec.place (code : Str) : Str := ascii "<!--#psis " ++ code ++ ascii " -->"

/-- The page as it is stored. -/
def Page.source (p : Page) : Str := p.places.flatMap (fun x => x.1 ++ Spec.place x.2) ++ p.rest

/-- The texts contain no `<!--#psis`, the codes no `-->`. -/
structure Page.Ok (p : Page) : Prop where
  text : ∀ x ∈ p.places, ¬ ascii "<!--#psis" <:+: x.1
  code : ∀ x ∈ p.places, ¬ ascii "-->" <:+: x.2
  rest : ¬ ascii "<!--#psis" <:+: p.rest

/-- The page with the texts in their places: each generator is called once, from first to last, with the data the one
before has left; a place whose code is unknown stays empty. -/
def Page.filled (includes : Str → Option (Data → Data × Str)) : Data → List (Str × Str) → Str → Data × Str
  | d, [], rest => (d, rest)
  | d, (text, code) :: l, rest =>
    match includes code with
    | some f => ((filled includes (f d).1 l rest).1, text ++ (f d).2 ++ (filled includes (f d).1 l rest).2)
    | none => ((filled includes d l rest).1, text ++ (filled includes d l rest).2)

/-! ### Searching -/

/-- No proper end of `pat` is a beginning of it. -/
def Unbordered (pat : Str) : Prop := ∀ k < pat.length, 0 < k → ¬ pat.drop k <+: pat

instance (pat : Str) : Decidable (Unbordered pat) := by unfold Unbordered; infer_instance

theorem infix_iff_drop {pat s : Str} (hp : pat ≠ []) : pat <:+: s ↔ ∃ n, pat <+: s.drop n := by
  constructor
  · rintro ⟨a, b, rfl⟩
    exact ⟨a.length, by simp⟩
  · rintro ⟨n, h⟩
    exact h.isInfix.trans (List.drop_suffix n s).isInfix

theorem find_absent {pat s : Str} (hp : pat ≠ []) (h : ¬ pat <:+: s) : find pat s = none := by
  rw [find_none_iff hp]
  intro n hn
  exact h ((infix_iff_drop hp).2 ⟨n, hn⟩)

theorem find_unbordered {pat : Str} (hp : pat ≠ []) (hu : Unbordered pat) {t : Str} (h : ¬ pat <:+: t) (r : Str) :
    find pat (t ++ pat ++ r) = some t.length := by
  rw [find_some_iff hp]
  refine ⟨by simp, ?_⟩
  intro m hm hpre
  rw [List.append_assoc, List.drop_append_of_le_length (by omega)] at hpre
  by_cases hl : pat.length ≤ (t.drop m).length
  · exact h ((infix_iff_drop hp).2 ⟨m, List.prefix_of_prefix_length_le hpre (List.prefix_append _ _) hl⟩)
  · have hk : (t.drop m).length = t.length - m := by simp
    have h2 : pat.drop (t.drop m).length <+: pat ++ r := by
      obtain ⟨w, hw⟩ := hpre
      have := congrArg (List.drop (t.drop m).length) hw
      rw [List.drop_append_of_le_length (by omega), List.drop_left] at this
      exact ⟨w, this⟩
    refine hu (t.drop m).length (by omega) (by omega) ?_
    exact List.prefix_of_prefix_length_le h2 (List.prefix_append _ _) (by simp)

theorem find_close (x : Str) : find closeTag (ascii "<!--#psis " ++ x) = (find closeTag x).map (· + 10) := by
  have e : ascii "<!--#psis " ++ x = 60 :: 33 :: 45 :: 45 :: 35 :: 112 :: 115 :: 105 :: 115 :: 32 :: x := rfl
  have e2 : closeTag = [45, 45, 62] := rfl
  rw [e, e2]
  simp only [find, List.isPrefixOf]
  cases find [45, 45, 62] x <;> simp

theorem find_code {code : Str} (h : ¬ ascii "-->" <:+: code) (r : Str) :
    find closeTag (Spec.place code ++ r) = some (code.length + 11) := by
  have h1 : ¬ closeTag <:+: code ++ [32] := by
    rw [List.infix_concat_iff]
    rintro (⟨w, hw⟩ | h2)
    · have := congrArg List.getLast? hw
      rw [show closeTag = [45, 45] ++ [62] from rfl, ← List.append_assoc] at this
      simp at this
    · exact h h2
  have h2 := find_unbordered (pat := closeTag) (by decide) (by decide) h1 r
  have : Spec.place code ++ r = ascii "<!--#psis " ++ (code ++ [32] ++ closeTag ++ r) := by
    simp only [Spec.place, List.append_assoc]; rfl
  rw [this, find_close, h2]
  simp

/-! ### The theorems -/

theorem include_place (fs : Functions) (d : Data) {t code : Str} (ht : ¬ ascii "<!--#psis" <:+: t)
    (hc : ¬ ascii "-->" <:+: code) (r : Str) : «include» fs d (t ++ Spec.place code ++ r) =
      ((«include» fs (generate fs code d).1 r).1, t ++ (generate fs code d).2 ++ («include» fs (generate fs code d).1 r).2) := by
  have e1 : find openTag (t ++ Spec.place code ++ r) = some t.length := by
    have := find_unbordered (pat := openTag) (by decide) (by decide) ht ([32] ++ code ++ ascii " -->" ++ r)
    rw [← this]; congr 1
    simp only [Spec.place, List.append_assoc]; rfl
  have e2 : (t ++ Spec.place code ++ r).drop t.length = Spec.place code ++ r := by simp
  have e3 := find_code hc r
  have e4 : includeCode (Spec.place code ++ r) (code.length + 11 + 3) = code := by
    rw [includeCode, if_pos (by omega)]
    have : (Spec.place code ++ r).drop 10 = code ++ (ascii " -->" ++ r) := by
      rw [Spec.place, List.append_assoc, List.append_assoc, List.drop_append_of_le_length (by decide)]
      rfl
    rw [this]; simp
  have e5 : (t ++ Spec.place code ++ r).drop (t.length + (code.length + 11) + 3) = r := by
    have : (t ++ Spec.place code).length = t.length + (code.length + 11) + 3 := by
      simp [Spec.place, ascii]; omega
    rw [← this]; simp
  have e6 : (t ++ Spec.place code ++ r).take t.length = t := by simp
  rw [«include»]
  split
  · rename_i h; rw [e1] at h; cases h
  · rename_i p h
    rw [e1] at h; cases h
    rw [e2]
    split
    · rename_i h; rw [e3] at h; cases h
    · rename_i q h
      rw [e3] at h; cases h
      rw [e4, e5, e6]

/-- **C50**: every place of a page is filled with the text of its generator, the generators are called once each in the
order of the places, and nothing else of the page is changed; what a generator writes is not searched for places. -/
theorem C50_filled (fs : Functions) (d : Data) (p : Page) (h : p.Ok) :
    «include» fs d p.source = Page.filled fs.includes d p.places p.rest := by
  obtain ⟨l, rest⟩ := p
  obtain ⟨h1, h2, h3⟩ := h
  simp only [Page.source] at *
  induction l generalizing d with
  | nil =>
    have := find_absent (pat := openTag) (by decide) h3
    rw [«include»]
    split
    · simp [Page.filled]
    · rename_i q hq
      simp [this] at hq
  | cons x l ih =>
    obtain ⟨t, code⟩ := x
    have ht := h1 (t, code) (by simp)
    have hc := h2 (t, code) (by simp)
    rw [List.flatMap_cons, List.append_assoc, include_place fs d ht hc,
      ih _ (fun x hx => h1 x (by simp [hx])) (fun x hx => h2 x (by simp [hx]))]
    cases e : fs.includes code with
    | none => simp [Page.filled, generate, e]
    | some f => simp [Page.filled, generate, e]

/-- A page with a known and an unknown generator; the text of the known one looks like a place. -/
def samplePage : Page := ⟨[(ascii "<p>", ascii "name"), (ascii "</p> -->", ascii "none")], ascii "<!-- end -->"⟩

/-- The only generator gives what the session has for `user`, and counts. -/
def sampleFunctions : Functions where
  includes := fun c => if c = ascii "name" then
    some (fun d => (d.set (ascii "n") (ascii "1"), d (ascii "user") ++ Spec.place (ascii "name"))) else none
  actions := fun _ => none

example : samplePage.Ok := ⟨by decide, by decide, by decide⟩

example : («include» sampleFunctions (fun _ => ascii "X") samplePage.source).2 =
    ascii "<p>X<!--#psis name --></p> --><!-- end -->" := by
  rw [C50_filled _ _ _ ⟨by decide, by decide, by decide⟩]
  decide +kernel

/-- **C50**: a page without `<!--#psis`, or with no `-->` after the first one, is left as it is. -/
theorem C50_unchanged (fs : Functions) (d : Data) (s : Str)
    (h : ∀ t r, s = t ++ ascii "<!--#psis" ++ r → ¬ ascii "-->" <:+: r) : «include» fs d s = (d, s) := by
  rw [«include»]
  split
  · rfl
  · rename_i p hp
    split
    · rfl
    · rename_i q hq
      exfalso
      obtain ⟨w, hw⟩ := ((find_some_iff (by decide) _ _).1 hp).1
      have e : s = s.take p ++ ascii "<!--#psis" ++ w := by
        rw [List.append_assoc, show ascii "<!--#psis" ++ w = s.drop p from hw, List.take_append_drop]
      refine h _ _ e ?_
      rw [← hw] at hq
      have e2 : openTag ++ w = 60 :: 33 :: 45 :: 45 :: 35 :: 112 :: 115 :: 105 :: 115 :: w := rfl
      have e3 : closeTag = [45, 45, 62] := rfl
      rw [e2, e3] at hq
      simp only [find, List.isPrefixOf] at hq
      cases e4 : find [45, 45, 62] w with
      | none => simp [e4] at hq
      | some n =>
        have := ((find_some_iff (pat := [45, 45, 62]) (by decide) _ _).1 e4).1
        exact (infix_iff_drop (pat := ascii "-->") (by decide)).2 ⟨n, this⟩

example : «include» sampleFunctions (fun _ => []) (ascii "--> <!--#psis name - ->") =
    ((fun _ => []), ascii "--> <!--#psis name - ->") := by
  apply C50_unchanged
  intro t r e hr
  have h1 : r <:+ ascii "--> <!--#psis name - ->" := ⟨_, e.symm⟩
  have h2 : r.length + 9 ≤ 23 := by
    have := congrArg List.length e
    simp [ascii] at this
    omega
  have h3 : r = (ascii "--> <!--#psis name - ->").drop ((ascii "--> <!--#psis name - ->").length - r.length) :=
    List.suffix_iff_eq_drop.1 h1
  have h4 : r.length ≤ 14 := by omega
  have : ∀ n ≤ 14, ¬ ascii "-->" <:+: (ascii "--> <!--#psis name - ->").drop ((ascii "--> <!--#psis name - ->").length - n) := by
    decide
  rw [h3] at hr
  exact this _ h4 hr

/-- **C50** (disagreement): without the blank before `-->` the last character of the code is lost; with no code at all
the rest of the page is taken for it. -/
theorem C50_code_false (fs : Functions) (d : Data) :
    (generate fs (ascii "nam") d = (d, ascii "wrong") → «include» fs d (ascii "<!--#psis name-->") = (d, ascii "wrong")) ∧
    (generate fs (ascii "-> rest") d = (d, ascii "wrong") → «include» fs d (ascii "<!--#psis--> rest") = (d, ascii "wrong rest")) := by
  constructor
  · intro h
    have e1 : find openTag (ascii "<!--#psis name-->") = some 0 := by decide
    have e2 : find closeTag ((ascii "<!--#psis name-->").drop 0) = some 14 := by decide
    have e3 : includeCode ((ascii "<!--#psis name-->").drop 0) (14 + 3) = ascii "nam" := by decide
    have e4 : (ascii "<!--#psis name-->").drop (0 + 14 + 3) = [] := by decide
    rw [«include»]
    split
    · rename_i h; rw [e1] at h; cases h
    · rename_i p h1; rw [e1] at h1; cases h1
      split
      · rename_i h; rw [e2] at h; cases h
      · rename_i q h2; rw [e2] at h2; cases h2
        simp only [e3, e4, h]
        rw [«include»]
        rfl
  · intro h
    have e1 : find openTag (ascii "<!--#psis--> rest") = some 0 := by decide
    have e2 : find closeTag ((ascii "<!--#psis--> rest").drop 0) = some 9 := by decide
    have e3 : includeCode ((ascii "<!--#psis--> rest").drop 0) (9 + 3) = ascii "-> rest" := by decide
    have e4 : (ascii "<!--#psis--> rest").drop (0 + 9 + 3) = ascii " rest" := by decide
    rw [«include»]
    split
    · rename_i h; rw [e1] at h; cases h
    · rename_i p h1; rw [e1] at h1; cases h1
      split
      · rename_i h; rw [e2] at h; cases h
      · rename_i q h2; rw [e2] at h2; cases h2
        simp only [e3, e4, h]
        rw [«include»]
        rfl

/-- **C50**: the length in the header of an answer is the length of the page with its generated texts. -/
theorem C50_length {fs : Functions} {root : Str} {files : Str → Option Str} {d d' : Data} {r : Request} {rep : Reply}
    (h : answer fs root files d r = some (d', rep)) : ∃ v t, rep.headers = [⟨ascii "Content-Length", v⟩, ⟨ascii "Content-Type", t⟩] ∧
      v ≠ [] ∧ (∀ c ∈ v, Spec.Digit c) ∧ Spec.number v = rep.content.length := by
  unfold answer at h
  cases e : checkForAction fs d r with
  | none => simp [e] at h
  | some x =>
    simp only [e, Option.some.injEq, Prod.mk.injEq] at h
    obtain ⟨_, rfl⟩ := h
    exact ⟨_, _, rfl, (number_decimal _).2.2, (number_decimal _).2.1, (number_decimal _).1⟩

example : ∃ d' rep, answer sampleFunctions (ascii "/w") (fun f => if f = ascii "/w/a.html" then some samplePage.source else none)
    (fun _ => ascii "X") { method := ascii "GET", uri := ascii "/a.html" } = some (d', rep) ∧
    rep.content = ascii "<p>X<!--#psis name --></p> --><!-- end -->" := ⟨_, _, rfl, by decide +kernel⟩

end Verif.Server.Site
