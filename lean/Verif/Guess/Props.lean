import Verif.Guess.Lemmas

/-! Properties C95–C97: the language guesser. -/
set_option linter.unusedVariables false
set_option linter.unusedSimpArgs false

namespace Verif.Guess
open Verif Verif.Server Verif.Utf8

/-- For the examples. -/
instance (c : Nat) : Decidable (Spec.Scalar c) := by unfold Spec.Scalar; infer_instance

/-- Two languages for the examples. -/
def exLetters (l : Language) : List Nat := if l.name = ascii "pl" then [0x105, 0x142] else [0xE4]
def exPl : Language := ⟨ascii "pl", fun i => if i = 1 then 1 else 0, Spec.encodeAll [0x105, 0x142]⟩
def exDe : Language := ⟨ascii "de", fun _ => 0, Spec.encodeAll [0xE4]⟩

theorem exLetters_ok : ∀ l ∈ [exDe, exPl], Letters l (exLetters l) := by
  intro l hl
  simp only [List.mem_cons, List.not_mem_nil, or_false] at hl
  rcases hl with rfl | rfl
  · exact ⟨by decide, by decide⟩
  · exact ⟨by decide, by decide⟩

theorem exTables_ok : ∀ l ∈ [exDe, exPl], ∀ i < 512, 0 ≤ l.table i ∧ l.table i ≤ 1 := by
  intro l hl i _
  simp only [List.mem_cons, List.not_mem_nil, or_false] at hl
  rcases hl with rfl | rfl
  · exact ⟨le_refl _, zero_le_one⟩
  · simp only [exPl]; split <;> norm_num

theorem exNames_ok : ∀ l ∈ [exDe, exPl], l.name ≠ unknown := by
  decide +kernel

/-! ### C95: letters of a language -/

/-- **C95** for a valid text the method of letters returns the first language such that the text has words (runs of
characters other than a space) and each word has one of the letters of the language; `unknown` if there is none. -/
theorem C95_letters (letters : Language → List Nat) (langs : List Language) (hl : ∀ l ∈ langs, Letters l (letters l))
    (cps : List Nat) (hc : ∀ c ∈ cps, Spec.Scalar c) :
    ∃ name, byLetters (Spec.encodeAll cps) langs = some name ∧
      ((∃ pre lang post, langs = pre ++ lang :: post ∧ lang.name = name ∧ Marked (letters lang) cps ∧
          ∀ l ∈ pre, ¬Marked (letters l) cps) ∨
        (name = unknown ∧ ∀ l ∈ langs, ¬Marked (letters l) cps)) :=
  byLetters_spec letters hc langs hl

example : Marked [0x105, 0x142] [0x6D, 0x105, 32, 32, 0x142] ∧ ¬Marked [0x105, 0x142] [0x6D, 0x105, 32, 0x61] := by
  unfold Marked; decide +kernel
example : byLetters (Spec.encodeAll [0x6D, 0x105]) [exDe, exPl] = some (ascii "pl") := by
  obtain ⟨name, h1, h2⟩ := C95_letters exLetters _ exLetters_ok [0x6D, 0x105] (by decide)
  have hd : ¬Marked (exLetters exDe) [0x6D, 0x105] := by unfold Marked; decide +kernel
  have hp : Marked (exLetters exPl) [0x6D, 0x105] := by unfold Marked; decide +kernel
  rcases h2 with ⟨pre, lang, post, e, en, hm, _⟩ | ⟨_, h⟩
  · have hmem : lang ∈ [exDe, exPl] := by rw [e]; simp
    simp only [List.mem_cons, List.not_mem_nil, or_false] at hmem
    rcases hmem with rfl | rfl
    · exact absurd hm hd
    · rw [h1, ← en]; rfl
  · exact absurd hp (h exPl (by simp))

/-- **C95** a text that is not valid UTF-8 is never judged: the exception is thrown as soon as some language has
letters. -/
theorem C95_invalid (text : Str) (langs : List Language) (h : ¬Spec.WellFormed text)
    (hl : ∃ l ∈ langs, l.letters ≠ []) : byLetters text langs = none := by
  rw [byLetters_invalid h, if_pos hl]

example : ¬Spec.WellFormed [0x61, 0xFF] ∧ ∃ l ∈ [exDe, exPl], l.letters ≠ [] := by
  refine ⟨?_, exDe, by simp, by decide⟩
  rw [← C21_isValid_iff]; decide +kernel

/-! ### C96: bigrams -/

/-- **C96** the counts: in each cell the number of bigrams of the text that belong to it, the last bigram of the text
left out.  Capital letters of ASCII count as small ones, and the overflow of 32 bits does not matter. -/
theorem C96_counts_partial (cps : List Nat) (h : ∀ c ∈ cps, Spec.Scalar c)
    (h1 : cps.length = 1 → (Spec.encodeAll cps).length = 1) :
    countBigrams (Spec.encodeAll cps) =
      some (fun i => ((bigrams cps).dropLast.filter (fun p => place p = i)).length) :=
  count_encode h h1

example : (∀ c ∈ [0x41, 0x105, 0x41, 0x105], Spec.Scalar c) ∧ place (0x61, 0x105) = place (0x41, 0x105) ∧
    (bigrams [0x41, 0x105, 0x41, 0x105]).dropLast = [(0x41, 0x105), (0x105, 0x41)] := by decide

/-- **C96** what is compared are the shares of the cells; the language returned is the nearest one, the first of
several equally near, for all languages with frequencies between 0 and 1. -/
theorem C96_nearest_partial (langs : List Language) (hl : langs ≠ [])
    (ht : ∀ l ∈ langs, ∀ i < 512, 0 ≤ l.table i ∧ l.table i ≤ 1) (cps : List Nat) (h : ∀ c ∈ cps, Spec.Scalar c)
    (hne : cps ≠ []) (h1 : cps.length = 1 → (Spec.encodeAll cps).length = 1) :
    ∃ name, byBigrams langs (Spec.encodeAll cps) = some name ∧ Nearest (share (bigrams cps).dropLast) langs name :=
  byBigrams_nearest hl ht h hne h1

example : [exDe, exPl] ≠ [] ∧ (∀ l ∈ [exDe, exPl], ∀ i < 512, 0 ≤ l.table i ∧ l.table i ≤ 1) ∧
    (∀ c ∈ [0x61, 0x62, 0x63], Spec.Scalar c) := ⟨by simp, exTables_ok, by decide⟩

/-- **C96** is false as it stands: the last bigram is not counted; for a text of two letters nothing is. -/
theorem C96_last_false : ¬∀ cps : List Nat, (∀ c ∈ cps, Spec.Scalar c) → 2 ≤ cps.length →
    countBigrams (Spec.encodeAll cps) = some (fun i => ((bigrams cps).filter (fun p => place p = i)).length) := by
  intro h
  have a := h [0x61, 0x62] (by decide) (by decide)
  rw [C96_counts_partial [0x61, 0x62] (by decide) (by decide)] at a
  have b := congrFun (Option.some.inj a) (place (0x61, 0x62))
  exact absurd b (by decide)

/-- **C96** a text of a single character of several bytes is long enough for the check of the length in bytes, but has
no second character: the exception is thrown. -/
theorem C96_single (c : Nat) (h : Spec.Scalar c) (h1 : 1 < (Spec.encode c).length) :
    countBigrams (Spec.encodeAll [c]) = none := count_single h h1

example : Spec.Scalar 0xE9 ∧ 1 < (Spec.encode 0xE9).length := by decide

theorem C96_single_false : ¬∀ text : Str, Spec.WellFormed text → ∃ t, countBigrams text = some t := by
  intro h
  obtain ⟨t, ht⟩ := h (Spec.encodeAll [0xE9]) ⟨[0xE9], by decide, rfl⟩
  rw [C96_single 0xE9 (by decide) (by decide)] at ht
  simp at ht

/-! ### C97: the guess -/

/-- **C97** the answer is the forced language, a language of the guesser, or the default one; `unknown` only if the
default is `none`. -/
theorem C97_answer (g : Guesser) (text name : Str) (h : guess g text = some name) :
    (g.forced ≠ [] ∧ name = g.forced) ∨ (g.forced = [] ∧
      ((∃ l ∈ g.languages, l.name = name) ∨ name = g.default_ ∨ (name = unknown ∧ g.default_ = noneLanguage))) := by
  by_cases hf : g.forced = []
  · exact Or.inr ⟨hf, guess_mem hf h⟩
  · left
    rw [guess, if_pos hf] at h
    exact ⟨hf, (Option.some.inj h).symm⟩

/-- **C97** a forced language is the answer for all texts, valid or not. -/
theorem C97_forced (g : Guesser) (text : Str) (h : g.forced ≠ []) : guess g text = some g.forced := by
  rw [guess, if_pos h]

example : guess ⟨[exPl], true, defaultDefault, ascii "pl"⟩ [0xFF] = some (ascii "pl") :=
  C97_forced _ _ (by decide)

/-- **C97** a short text marked by letters is of the first language whose letters mark it. -/
theorem C97_letters (g : Guesser) (hf : g.forced = []) (letters : Language → List Nat)
    (hl : ∀ l ∈ g.languages, Letters l (letters l)) (cps : List Nat) (hc : ∀ c ∈ cps, Spec.Scalar c)
    (hlen : (Spec.encodeAll cps).length < 24) (pre post : List Language) (lang : Language)
    (hlangs : g.languages = pre ++ lang :: post) (hpre : ∀ l ∈ pre, ¬Marked (letters l) cps)
    (hm : Marked (letters lang) cps) (hu : lang.name ≠ unknown) : guess g (Spec.encodeAll cps) = some lang.name := by
  obtain ⟨name, h1, h2⟩ := C95_letters letters g.languages hl cps hc
  have : name = lang.name := by
    rcases h2 with ⟨pre', lang', post', e1, e2, e3, e4⟩ | ⟨_, h⟩
    · rw [hlangs] at e1
      rcases List.append_eq_append_iff.1 e1 with ⟨a, ha, hb⟩ | ⟨a, ha, hb⟩
      · cases a with
        | nil => simp at hb; rw [← e2, hb.1]
        | cons x xs =>
          simp only [List.cons_append, List.cons.injEq] at hb
          exact absurd hm (e4 lang (by rw [ha, hb.1]; simp))
      · cases a with
        | nil => simp at hb; rw [← e2, hb.1]
        | cons x xs =>
          simp only [List.cons_append, List.cons.injEq] at hb
          exact absurd e3 (hpre lang' (by rw [ha, hb.1]; simp))
    · exact absurd hm (h lang (by rw [hlangs]; simp))
  subst this
  exact guess_step hf (by rw [if_pos (show _ < minLength from hlen)]; exact h1) hu

example : guess ⟨[exDe, exPl], false, defaultDefault, []⟩ (Spec.encodeAll [0x6D, 0x105]) = some (ascii "pl") :=
  C97_letters _ rfl exLetters exLetters_ok [0x6D, 0x105] (by decide) (by decide) [exDe] [] exPl rfl
    (by unfold Marked; decide +kernel) (by unfold Marked; decide +kernel) (by decide)

/-- **C97** a short text not marked gets the default language, `unknown` if that is `none`; unless a language is
forced. -/
theorem C97_default (g : Guesser) (hf : g.forced = []) (hforce : g.force = false) (letters : Language → List Nat)
    (hl : ∀ l ∈ g.languages, Letters l (letters l)) (cps : List Nat) (hc : ∀ c ∈ cps, Spec.Scalar c)
    (hlen : (Spec.encodeAll cps).length < 24) (hm : ∀ l ∈ g.languages, ¬Marked (letters l) cps) :
    guess g (Spec.encodeAll cps) = some (if g.default_ = noneLanguage then unknown else g.default_) := by
  obtain ⟨name, h1, h2⟩ := C95_letters letters g.languages hl cps hc
  have : name = unknown := by
    rcases h2 with ⟨pre', lang', post', e1, e2, e3, e4⟩ | ⟨h, _⟩
    · exact absurd e3 (hm lang' (by rw [e1]; simp))
    · exact h
  subst this
  rw [guess, if_neg (by simp [hf]), if_pos (show _ < minLength from hlen), h1]
  dsimp only
  rw [if_neg (by simp [hforce])]
  by_cases hd : g.default_ = noneLanguage <;> simp [hd]

example : guess ⟨[exDe, exPl], false, defaultDefault, []⟩ (Spec.encodeAll [0x61]) = some (ascii "xx") := by
  have := C97_default ⟨[exDe, exPl], false, defaultDefault, []⟩ rfl rfl exLetters exLetters_ok [0x61] (by decide)
    (by decide) (by unfold Marked; decide +kernel)
  rw [this, if_neg (by decide)]; rfl

/-- **C97** a text of at least 24 bytes is of the nearest language. -/
theorem C97_bigrams (g : Guesser) (hf : g.forced = []) (hne : g.languages ≠ [])
    (ht : ∀ l ∈ g.languages, ∀ i < 512, 0 ≤ l.table i ∧ l.table i ≤ 1) (hu : ∀ l ∈ g.languages, l.name ≠ unknown)
    (cps : List Nat) (hc : ∀ c ∈ cps, Spec.Scalar c) (hlen : 24 ≤ (Spec.encodeAll cps).length) :
    ∃ name, guess g (Spec.encodeAll cps) = some name ∧ Nearest (share (bigrams cps).dropLast) g.languages name := by
  have hcps : cps ≠ [] := by rintro rfl; simp [Spec.encodeAll] at hlen
  have hone : cps.length ≠ 1 := by
    intro h
    obtain ⟨c, rfl⟩ := List.length_eq_one_iff.1 h
    have : (Spec.encodeAll [c]).length ≤ 4 := by
      simp only [Spec.encodeAll, List.flatMap_cons, List.flatMap_nil, List.append_nil]
      unfold Spec.encode
      repeat' split
      all_goals simp
    omega
  obtain ⟨name, h1, h2⟩ := C96_nearest_partial g.languages hne ht cps hc hcps (fun h => absurd h hone)
  refine ⟨name, guess_step hf (by rw [if_neg (by simp only [minLength]; omega)]; exact h1) ?_, h2⟩
  obtain ⟨l, hl, he⟩ := nearest_mem h2
  rw [← he]
  exact hu l hl

example : ([exDe, exPl] ≠ []) ∧ (∀ l ∈ [exDe, exPl], l.name ≠ unknown) ∧
    24 ≤ (Spec.encodeAll (List.replicate 13 0x105)).length := ⟨by simp, exNames_ok, by decide⟩

/-- **C97** a text that is not valid UTF-8 is not judged if there is a language with letters and none is forced. -/
theorem C97_invalid (g : Guesser) (hf : g.forced = []) (hl : ∃ l ∈ g.languages, l.letters ≠ []) (text : Str)
    (h : ¬Spec.WellFormed text) : guess g text = none := by
  rw [guess, if_neg (by simp [hf])]
  by_cases hlen : text.length < minLength
  · rw [if_pos (show _ < minLength from hlen), C95_invalid text g.languages h hl]
  · rw [if_neg hlen, byBigrams, if_neg (by simp only [minLength] at hlen; omega),
      countBigrams_invalid h (by simp only [minLength] at hlen; omega)]

/-- **C97** with `--force` the answer for a valid text is one of the languages, unless the text is a single character
of several bytes; an empty text is of the first language, a short one not marked of the nearest. -/
theorem C97_force_partial (g : Guesser) (hf : g.forced = []) (hforce : g.force = true) (hne : g.languages ≠ [])
    (ht : ∀ l ∈ g.languages, ∀ i < 512, 0 ≤ l.table i ∧ l.table i ≤ 1) (hu : ∀ l ∈ g.languages, l.name ≠ unknown)
    (letters : Language → List Nat) (hl : ∀ l ∈ g.languages, Letters l (letters l))
    (cps : List Nat) (hc : ∀ c ∈ cps, Spec.Scalar c)
    (h1 : g.languages.length ≠ 1 → cps.length = 1 → (Spec.encodeAll cps).length = 1) :
    ∃ name, guess g (Spec.encodeAll cps) = some name ∧ (∃ l ∈ g.languages, l.name = name) ∧
      (cps = [] → g.languages.head?.map (·.name) = some name) ∧
      (cps ≠ [] → (∀ l ∈ g.languages, ¬Marked (letters l) cps) →
        Nearest (share (bigrams cps).dropLast) g.languages name) := by
  by_cases hlen : (Spec.encodeAll cps).length < 24
  · by_cases hm : ∃ l ∈ g.languages, Marked (letters l) cps
    · obtain ⟨name, h2, h3⟩ := C95_letters letters g.languages hl cps hc
      have : ∃ l ∈ g.languages, l.name = name := by
        rcases h3 with ⟨pre', lang', post', e1, e2, e3, e4⟩ | ⟨_, h⟩
        · exact ⟨lang', by rw [e1]; simp, e2⟩
        · obtain ⟨l, hl', hm'⟩ := hm
          exact absurd hm' (h l hl')
      obtain ⟨l, hl', he⟩ := this
      refine ⟨name, guess_step hf (by rw [if_pos (show _ < minLength from hlen)]; exact h2) (by rw [← he]; exact hu l hl'), ⟨l, hl', he⟩, ?_, ?_⟩
      · rintro rfl
        obtain ⟨l, _, hw, _⟩ := hm
        exact absurd (by simp [words, List.splitOnP_nil]) hw
      · intro _ hn
        obtain ⟨l, hl', hm'⟩ := hm
        exact absurd hm' (hn l hl')
    · have hm' : ∀ l ∈ g.languages, ¬Marked (letters l) cps := fun l hl' h => hm ⟨l, hl', h⟩
      obtain ⟨name, h2, h3⟩ := C95_letters letters g.languages hl cps hc
      have : name = unknown := by
        rcases h3 with ⟨pre', lang', post', e1, e2, e3, e4⟩ | ⟨h, _⟩
        · exact absurd e3 (hm' lang' (by rw [e1]; simp))
        · exact h
      subst this
      have hstep : ∀ name, name ≠ unknown → forceGuess g (Spec.encodeAll cps) = some name →
          guess g (Spec.encodeAll cps) = some name := by
        intro name hn hg
        rw [guess, if_neg (by simp [hf]), if_pos (show _ < minLength from hlen), h2]
        dsimp only
        rw [if_pos ⟨rfl, hforce⟩, hg]
        simp [hn]
      obtain ⟨langs, force, default_, forced⟩ := g
      match langs, hne with
      | [lang], _ =>
        refine ⟨lang.name, hstep _ (hu lang (by simp)) rfl, ⟨lang, by simp, rfl⟩, fun _ => rfl, fun _ _ => ?_⟩
        exact ⟨[], lang, [], rfl, rfl, by simp, by simp⟩
      | lang :: lang2 :: rest, _ =>
        have hfg : forceGuess ⟨lang :: lang2 :: rest, force, default_, forced⟩ (Spec.encodeAll cps) =
            match byBigrams (lang :: lang2 :: rest) (Spec.encodeAll cps) with
            | none => none
            | some l => some (if l = unknown then lang.name else l) := by
          rw [forceGuess]
          dsimp only
          rw [if_pos (show _ < minLength from hlen)]
          rfl
        by_cases hcps : cps = []
        · subst hcps
          refine ⟨lang.name, hstep _ (hu lang (by simp)) ?_, ⟨lang, by simp, rfl⟩, fun _ => rfl, fun h => absurd rfl h⟩
          rw [hfg]
          rfl
        · obtain ⟨name, h4, h5⟩ := C96_nearest_partial (lang :: lang2 :: rest) (by simp) ht cps hc hcps
            (h1 (by simp))
          obtain ⟨l, hl', he⟩ := nearest_mem h5
          have hn : name ≠ unknown := by rw [← he]; exact hu l hl'
          refine ⟨name, hstep _ hn ?_, ⟨l, hl', he⟩, fun h => absurd h hcps, fun _ _ => h5⟩
          rw [hfg, h4]
          simp [hn]
  · obtain ⟨name, h2, h3⟩ := C97_bigrams g hf hne ht hu cps hc (by omega)
    refine ⟨name, h2, nearest_mem h3, ?_, fun _ _ => h3⟩
    rintro rfl
    simp [Spec.encodeAll] at hlen

example : ∃ name, guess ⟨[exDe, exPl], true, defaultDefault, []⟩ (Spec.encodeAll [0x61, 0x62, 0x63]) = some name := by
  obtain ⟨name, h, _⟩ := C97_force_partial ⟨[exDe, exPl], true, defaultDefault, []⟩ rfl rfl (by simp) exTables_ok
    exNames_ok exLetters exLetters_ok [0x61, 0x62, 0x63] (by decide) (by decide)
  exact ⟨name, h⟩

/-- **C97** is false as it stands: with `--force`, the text `é` makes the guesser throw. -/
theorem C97_force_false : guess ⟨[exDe, exPl], true, defaultDefault, []⟩ (Spec.encodeAll [0xE9]) = none := by
  obtain ⟨name, h2, h3⟩ := C95_letters exLetters [exDe, exPl] exLetters_ok [0xE9] (by decide)
  have hm : ∀ l ∈ [exDe, exPl], ¬Marked (exLetters l) [0xE9] := by unfold Marked; decide +kernel
  have : name = unknown := by
    rcases h3 with ⟨pre', lang', post', e1, e2, e3, e4⟩ | ⟨h, _⟩
    · exact absurd e3 (hm lang' (by rw [e1]; simp))
    · exact h
  subst this
  rw [guess, if_neg (by simp), if_pos (by decide), h2]
  dsimp only
  rw [if_pos ⟨rfl, rfl⟩]
  have : byBigrams [exDe, exPl] (Spec.encodeAll [0xE9]) = none := by
    rw [byBigrams, if_neg (by decide), C96_single 0xE9 (by decide) (by decide)]
  have hf : forceGuess ⟨[exDe, exPl], true, defaultDefault, []⟩ (Spec.encodeAll [0xE9]) = none := by
    rw [forceGuess]
    dsimp only
    rw [if_pos (by decide), this]
  rw [hf]

theorem inj_of_nodup : ∀ known : List Language, (known.map (·.name)).Nodup → ∀ {a b}, a ∈ known → b ∈ known →
    a.name = b.name → a = b := by
  intro known
  induction known with
  | nil => intro _ a b ha; simp at ha
  | cons x xs ih =>
    intro hn a b ha hb he
    rw [List.map_cons, List.nodup_cons] at hn
    rcases List.mem_cons.1 ha with rfl | ha' <;> rcases List.mem_cons.1 hb with rfl | hb'
    · rfl
    · exact absurd (by rw [he]; exact List.mem_map_of_mem hb') hn.1
    · exact absurd (by rw [← he]; exact List.mem_map_of_mem ha') hn.1
    · exact ih hn.2 ha' hb' he

/-- **C97** `--only-langs`: the guesser is made exactly if all languages named are known; it has them in the order
given (all known languages if none is named).  The case of `--force` with one language is left out. -/
theorem C97_create_partial (known : List Language) (hk : (known.map (·.name)).Nodup) (force : Bool)
    (default_ : Option Str) (selected : List Str) (hs : force = true → selected.length ≠ 1) (g : Guesser) :
    create known force default_ (some selected) = some g ↔
      ∃ ls : List Language, ls.map (·.name) = selected ∧ (∀ l ∈ ls, l ∈ known) ∧
        g = ⟨if selected = [] then known else ls, force, default_.getD (ascii "xx"), []⟩ := by
  have hsel : ∀ ls, selectLoop known selected = some ls ↔ ls.map (·.name) = selected ∧ ∀ l ∈ ls, l ∈ known := by
    intro ls
    rw [selectLoop_iff]
    clear hs
    induction ls generalizing selected with
    | nil => cases selected <;> simp
    | cons l ls ih =>
      cases selected with
      | nil => simp
      | cons s ss =>
        rw [List.forall₂_cons, ih]
        have hfind : known.find? (fun l => l.name == s) = some l ↔ l.name = s ∧ l ∈ known := by
          constructor
          · intro h
            exact ⟨by simpa using List.find?_some h, List.mem_of_find?_eq_some h⟩
          · rintro ⟨rfl, hm⟩
            cases hf : known.find? (fun l' => l'.name == l.name) with
            | none =>
              have := List.find?_eq_none.1 hf l hm
              simp at this
            | some l' =>
              have a := List.find?_some hf
              have b := List.mem_of_find?_eq_some hf
              simp only [beq_iff_eq] at a
              rw [inj_of_nodup known hk b hm a]
        rw [hfind]
        simp only [List.map_cons, List.cons.injEq, List.mem_cons, forall_eq_or_imp]
        tauto
  have hc : create known force default_ (some selected) =
      (selectLanguages known selected).map (fun ls => ⟨ls, force, default_.getD (ascii "xx"), []⟩) := by
    unfold create
    dsimp only
    split
    · rename_i s
      exact absurd rfl (hs rfl)
    · rfl
  rw [hc]
  have hsl : ∀ ls', selectLanguages known selected = some ls' ↔
      ∃ ls, selectLoop known selected = some ls ∧ ls' = if selected = [] then known else ls := by
    intro ls'
    unfold selectLanguages
    cases hl : selectLoop known selected with
    | none => simp
    | some ls =>
      have := (hsel ls).1 hl
      cases ls with
      | nil =>
        have : selected = [] := by simpa using this.1.symm
        simp [this, eq_comm]
      | cons x xs =>
        have : selected ≠ [] := by rintro rfl; simp at this
        simp [this, eq_comm]
  rw [Option.map_eq_some_iff]
  constructor
  · rintro ⟨ls', h1, rfl⟩
    obtain ⟨ls, h2, rfl⟩ := (hsl ls').1 h1
    exact ⟨ls, ((hsel ls).1 h2).1, ((hsel ls).1 h2).2, rfl⟩
  · rintro ⟨ls, h1, h2, rfl⟩
    exact ⟨_, (hsl _).2 ⟨ls, (hsel ls).2 ⟨h1, h2⟩, rfl⟩, rfl⟩

example : (([exDe, exPl] : List Language).map (·.name)).Nodup ∧
    ∃ ls : List Language, ls.map (·.name) = [ascii "pl"] ∧ ∀ l ∈ ls, l ∈ [exDe, exPl] :=
  ⟨by decide +kernel, [exPl], rfl, by simp⟩

/-- **C97** is false as it stands: with `--force` and one language the name is not checked; texts are said to be in a
language nobody knows. -/
theorem C97_unknown_false : ∃ g, create [exDe, exPl] true none (some [ascii "zz"]) = some g ∧
    (∀ text, guess g text = some (ascii "zz")) ∧ ∀ l ∈ [exDe, exPl], l.name ≠ ascii "zz" :=
  ⟨⟨[exDe, exPl], true, defaultDefault, ascii "zz"⟩, rfl, fun text => C97_forced _ text (by decide), by decide +kernel⟩

end Verif.Guess
