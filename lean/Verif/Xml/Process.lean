import Verif.Xml.Words

set_option linter.unusedVariables false
set_option linter.unusedSimpArgs false

namespace Verif.Xml
open Verif Verif.Server

theorem blank_iff (c : Byte) : blank c = true ↔ isBlank c := by
  simp [blank, isBlank, or_assoc]

theorem dropWhile_all {p : Byte → Bool} : ∀ {l : Str} (m : Str), (∀ c ∈ l, p c = true) →
    (l ++ m).dropWhile p = m.dropWhile p := by
  intro l
  induction l with
  | nil => intro m _; rfl
  | cons c l ih =>
    intro m h
    rw [List.cons_append, List.dropWhile_cons_of_pos (h c (by simp)), ih m (fun x hx => h x (by simp [hx]))]

theorem dropWhile_stop {p : Byte → Bool} {m : Str} (h : ∀ c ∈ m.head?, p c = false) : m.dropWhile p = m := by
  cases m with
  | nil => rfl
  | cons c m => rw [List.dropWhile_cons_of_neg]; simp [h c (by simp)]

theorem trim_eq {l b r : Str} (hl : ∀ c ∈ l, blank c = true) (hr : ∀ c ∈ r, blank c = true) (hb : b ≠ [])
    (h1 : ∀ c ∈ b.head?, blank c = false) (h2 : ∀ c ∈ b.getLast?, blank c = false) : trim (l ++ b ++ r) = b := by
  rw [trim, List.reverse_append, dropWhile_all _ (by simpa using hr)]
  rw [dropWhile_stop (m := (l ++ b).reverse), List.reverse_reverse, dropWhile_all _ hl, dropWhile_stop h1]
  intro c hc
  rw [List.head?_reverse, List.getLast?_append_of_ne_nil _ hb] at hc
  exact h2 c hc

theorem trim_parts (s : Str) : ∃ l r, (∀ c ∈ l, blank c = true) ∧ (∀ c ∈ r, blank c = true) ∧ s = l ++ trim s ++ r ∧
    (∀ c ∈ (trim s).head?, blank c = false) ∧ (∀ c ∈ (trim s).getLast?, blank c = false) := by
  have ht : ∀ (s : Str), ∀ c ∈ s.takeWhile blank, blank c = true := fun s c hc =>
    List.all_eq_true.1 (List.all_takeWhile (p := blank) (l := s)) c hc
  have h1 := List.takeWhile_append_dropWhile (p := blank) (l := s.reverse)
  have h2 := List.takeWhile_append_dropWhile (p := blank) (l := ((s.reverse.dropWhile blank).reverse))
  refine ⟨((s.reverse.dropWhile blank).reverse).takeWhile blank, (s.reverse.takeWhile blank).reverse, ht _,
    by simpa using ht s.reverse, ?_, ?_, ?_⟩
  · rw [trim, h2]
    have := congrArg List.reverse h1
    rw [List.reverse_append, List.reverse_reverse] at this
    exact this.symm
  · intro c hc
    have h3 := List.head?_dropWhile_not (p := blank) (l := (s.reverse.dropWhile blank).reverse)
    rw [trim] at hc
    rw [Option.mem_def] at hc
    rw [hc] at h3
    simpa using h3
  · intro c hc
    rw [trim] at hc
    generalize hg : (s.reverse.dropWhile blank) = g at h2 hc
    have h3 := List.head?_dropWhile_not (p := blank) (l := s.reverse)
    rw [hg] at h3
    by_cases he : g.reverse.dropWhile blank = []
    · rw [he] at hc; simp at hc
    · have h4 := congrArg List.getLast? h2
      rw [List.getLast?_append_of_ne_nil _ he, List.getLast?_reverse] at h4
      rw [Option.mem_def] at hc
      rw [← h4, hc] at h3
      simpa using h3

theorem trimXml_tag (b : Str) : trimXml (60 :: b ++ [62]) = b := by
  have hl : (60 :: b ++ [62] : Str).getLast? = some 62 := by
    rw [List.getLast?_concat]
  rw [trimXml, if_neg (by simp), if_pos ⟨by simp, hl⟩]
  simp

theorem inside_trim {tok body : Str} (h : Inside tok body) : trim (trimXml tok) = body := by
  obtain ⟨h0, h1, h2, l, r, hl, hr, rfl⟩ := h
  have : (60 :: l ++ body ++ r ++ [62] : Str) = 60 :: (l ++ body ++ r) ++ [62] := by simp
  rw [this, trimXml_tag]
  refine trim_eq (fun c hc => (blank_iff c).2 (hl c hc)) (fun c hc => (blank_iff c).2 (hr c hc)) h0 ?_ ?_
  · intro c hc
    have := h1 c hc
    rw [← blank_iff] at this
    simpa using this
  · intro c hc
    have := h2 c hc
    rw [← blank_iff] at this
    simpa using this

theorem trim_inside {tok : Str} (h : IsTag tok) (hne : trim (trimXml tok) ≠ []) : Inside tok (trim (trimXml tok)) := by
  obtain ⟨b, rfl, _⟩ := h
  rw [trimXml_tag] at hne ⊢
  obtain ⟨l, r, hl, hr, e, h1, h2⟩ := trim_parts b
  refine ⟨hne, ?_, ?_, l, r, fun c hc => (blank_iff c).1 (hl c hc), fun c hc => (blank_iff c).1 (hr c hc), ?_⟩
  · intro c hc
    rw [← blank_iff, h1 c hc]; simp
  · intro c hc
    rw [← blank_iff, h2 c hc]; simp
  · conv_lhs => rw [e]
    simp

theorem inside_head {tok body : Str} (h : Inside tok body) : tok.head? = some 60 := by
  obtain ⟨_, _, _, l, r, _, _, rfl⟩ := h
  simp

theorem divided_iff (s name content : Str) : Divided s name content ↔
    name = s.takeWhile (fun c => c != 32) ∧ content = (s.dropWhile (fun c => c != 32)).drop 1 := by
  constructor
  · rintro ⟨h1, ⟨rfl, rfl⟩ | rfl⟩
    · have hall : ∀ c ∈ s, (c != 32) = true := by
        intro c hc
        simp only [bne_iff_ne, ne_eq]
        rintro rfl
        exact h1 hc
      have ht := List.takeWhile_append_of_pos (l₂ := []) hall
      have hd := dropWhile_all [] hall
      rw [List.append_nil] at ht hd
      rw [ht, hd]
      simp
    · have hall : ∀ c ∈ name, (c != 32) = true := by
        intro c hc
        simp only [bne_iff_ne, ne_eq]
        rintro rfl
        exact h1 hc
      rw [dropWhile_all _ hall, List.takeWhile_append_of_pos hall]
      simp
  · rintro ⟨rfl, rfl⟩
    have ht : ∀ c ∈ s.takeWhile (fun c => c != 32), (c != 32) = true := fun c hc =>
      List.all_eq_true.1 (List.all_takeWhile (p := fun c => c != 32) (l := s)) c hc
    refine ⟨fun h => by simpa using ht 32 h, ?_⟩
    have h1 := List.takeWhile_append_dropWhile (p := fun c => c != 32) (l := s)
    have h3 := List.head?_dropWhile_not (p := fun c => c != 32) (l := s)
    generalize s.dropWhile (fun c => c != 32) = d at h1 h3
    cases d with
    | nil => left; exact ⟨by simpa using h1.symm, rfl⟩
    | cons x d =>
      have : x = 32 := by simpa using h3
      subst this
      right
      exact h1.symm

/-- The nodes of a tag that is complete. -/
theorem complete_some {S : List Opened} {cl : Str} {wp : Nat} {ns : List Node} {name content : Str} {p : Nat} {n : Node}
    (h : nodeOf (attrValue content (ascii "label")) (attrValue content (ascii "span")) p wp = some n) :
    complete ⟨⟨name, p, content⟩ :: S, cl, wp, ns⟩ name = .ok ⟨S, cl, wp, ns ++ [n]⟩ := by
  rw [complete]
  dsimp only
  rw [if_neg (by simp), spanOf]
  rw [nodeOf] at h
  generalize attrValue content (ascii "span") = sp at h ⊢
  generalize attrValue content (ascii "label") = lb at h ⊢
  by_cases hs : sp = []
  · rw [if_pos hs] at h
    rw [if_pos (by simp [hs])]
    dsimp only
    split at h
    · rename_i hlt
      rw [if_neg (by omega)]
      simp only [Option.some.injEq] at h
      rw [h]
    · simp at h
  · rw [if_neg hs] at h
    rw [if_neg (by simpa using hs), tokenize_dash]
    generalize (sp.splitOnP (fun c => c = 45)).filter (fun w => !w.isEmpty) = ps at h ⊢
    rcases ps with _ | ⟨i, _ | ⟨j, _ | ⟨k, ps⟩⟩⟩
    · simp at h
    · dsimp only at h ⊢
      cases ha : atoi i with
      | error e => rw [ha] at h; simp [Except.toOption] at h
      | ok a =>
        rw [ha] at h
        simp only [Except.toOption, Option.map_some, Option.some.injEq] at h
        subst h
        simp [bind, Except.bind]
    · dsimp only at h ⊢
      cases ha : atoi i with
      | error e => rw [ha] at h; simp at h
      | ok a =>
        cases hb : atoi j with
        | error e => rw [ha, hb] at h; simp at h
        | ok b =>
          rw [ha, hb] at h
          dsimp only at h
          split at h
          · rename_i hc
            simp only [Option.some.injEq] at h
            subst h
            simp only [bind, Except.bind]
            rw [if_pos (by omega)]
            dsimp only
            rw [if_neg (by omega)]
            simp
          · simp at h
    · simp at h

theorem complete_ok {st st' : State} {name : Str} (h : complete st name = .ok st') :
    ∃ p content S n, st.stack = ⟨name, p, content⟩ :: S ∧
      nodeOf (attrValue content (ascii "label")) (attrValue content (ascii "span")) p st.wordPos = some n := by
  rw [complete] at h
  split at h
  · simp at h
  · rename_i o S ho
    split at h
    · simp at h
    · rename_i hname
      simp only [ne_eq, not_not] at hname
      obtain ⟨nm, p, content⟩ := o
      simp only at hname h
      subst hname
      refine ⟨p, content, S, ?_⟩
      simp only [ho, true_and]
      rw [spanOf] at h
      rw [nodeOf]
      generalize attrValue content (ascii "span") = sp at h ⊢
      generalize attrValue content (ascii "label") = lb at h ⊢
      by_cases hs : sp = []
      · rw [if_pos (by simp [hs])] at h
        dsimp only at h
        split at h
        · simp at h
        · rename_i hlt
          rw [if_pos hs, if_pos (by omega)]
          exact ⟨_, rfl⟩
      · rw [if_neg (by simpa using hs), tokenize_dash] at h
        rw [if_neg hs]
        generalize (sp.splitOnP (fun c => c = 45)).filter (fun w => !w.isEmpty) = ps at h ⊢
        rcases ps with _ | ⟨i, _ | ⟨j, _ | ⟨k, ps⟩⟩⟩
        · simp at h
        · dsimp only at h ⊢
          cases ha : atoi i with
          | error e => rw [ha] at h; simp [bind, Except.bind] at h
          | ok a => simp [Except.toOption]
        · dsimp only at h ⊢
          cases ha : atoi i with
          | error e => rw [ha] at h; simp [bind, Except.bind] at h
          | ok a =>
            cases hb : atoi j with
            | error e => rw [ha, hb] at h; simp [bind, Except.bind] at h
            | ok b =>
              rw [ha, hb] at h
              simp only [bind, Except.bind] at h
              by_cases hc : b + 1 < 2147483648
              · rw [if_pos hc] at h
                dsimp only at h
                split at h
                · simp at h
                · rename_i hlt
                  dsimp only
                  rw [if_pos (by omega)]
                  exact ⟨_, rfl⟩
              · rw [if_neg hc] at h
                simp at h
        · simp at h

theorem addTag_open {tok name content : Str} (h : Opening tok name content) (st : State) :
    addTag st tok = .ok { st with stack := ⟨name, st.wordPos, content⟩ :: st.stack } := by
  obtain ⟨body, h1, h2, h3, h4⟩ := h
  obtain ⟨e1, e2⟩ := (divided_iff _ _ _).1 h4
  rw [addTag, inside_trim h1]
  dsimp only
  rw [if_neg (by simpa using h1.1), if_neg (by simp [h2]), if_neg h2, if_neg h3, if_neg h2, if_neg h3, ← e1, ← e2]

theorem addTag_close {tok name : Str} (h : Closing tok name) (st : State) : addTag st tok = complete st name := by
  obtain ⟨s, content, h1, h2, h3⟩ := h
  obtain ⟨e1, e2⟩ := (divided_iff _ _ _).1 h3
  have hl : (47 :: s : Str).getLast? ≠ some 47 := by
    cases s with
    | nil => simp at h2
    | cons x s =>
      rw [List.getLast?_cons_cons]
      intro e
      rw [e] at h2
      simp at h2
  rw [addTag, inside_trim h1]
  dsimp only
  rw [if_neg (by simp), if_neg (by simp [hl]), if_pos (by simp), if_neg hl, if_pos (by simp), List.drop_one, List.tail_cons, ← e1]

theorem addTag_single {tok name content : Str} (h : Single tok name content) (st : State) :
    addTag st tok = complete { st with stack := ⟨name, st.wordPos, content⟩ :: st.stack } name := by
  obtain ⟨s, h1, h0, h2, h3⟩ := h
  obtain ⟨e1, e2⟩ := (divided_iff _ _ _).1 h3
  have hh : (s ++ [47] : Str).head? ≠ some 47 := by
    cases s with
    | nil => exact absurd rfl h0
    | cons x s => simpa using h2
  have hl : (s ++ [47] : Str).getLast? = some 47 := List.getLast?_concat
  rw [addTag, inside_trim h1]
  dsimp only
  rw [if_neg (by simp), if_neg (fun h => hh h.1), if_neg hh, if_pos hl, if_neg hh, if_pos hl]
  have : (s ++ [47] : Str).take ((s ++ [47] : Str).length - 1) = s := by simp
  rw [this, ← e1, ← e2]

theorem addTag_cases {tok : Str} {st st' : State} (ht : IsTag tok) (h : addTag st tok = .ok st') :
    (∃ name content, Opening tok name content) ∨ (∃ name, Closing tok name) ∨
    (∃ name content, Single tok name content) := by
  by_cases hne : trim (trimXml tok) = []
  · rw [addTag] at h
    dsimp only at h
    rw [if_pos (by simp [hne])] at h
    simp at h
  · have hi := trim_inside ht hne
    rw [addTag] at h
    dsimp only at h
    rw [if_neg (by simpa using hne)] at h
    generalize trim (trimXml tok) = body at hi hne h
    by_cases hc : body.head? = some 47
    · right; left
      cases body with
      | nil => simp at hc
      | cons x s =>
        simp only [List.head?_cons, Option.some.injEq] at hc
        subst hc
        have hl : (47 :: s : Str).getLast? ≠ some 47 := by
          intro hl
          rw [if_pos ⟨by simp, hl⟩] at h
          simp at h
        refine ⟨s.takeWhile (fun c => c != 32), s, (s.dropWhile (fun c => c != 32)).drop 1, hi, ?_,
          (divided_iff _ _ _).2 ⟨rfl, rfl⟩⟩
        cases s with
        | nil => simp at hl
        | cons y s =>
          rw [List.getLast?_cons_cons] at hl
          cases hy : (y :: s : Str).getLast? with
          | none => simp at hy
          | some z => rw [hy] at hl; simpa using hl
    · by_cases hu : body.getLast? = some 47
      · right; right
        obtain ⟨s, rfl⟩ := List.getLast?_eq_some_iff.1 hu
        refine ⟨_, _, s, hi, ?_, ?_, (divided_iff _ _ _).2 ⟨rfl, rfl⟩⟩
        · rintro rfl; simp at hc
        · intro hs
          cases s with
          | nil => simp at hs
          | cons y s => simp at hs hc; exact hc hs
      · left
        exact ⟨_, _, body, hi, hc, hu, (divided_iff _ _ _).2 ⟨rfl, rfl⟩⟩

theorem decoded_iff (u : Bool) (t tok : Str) :
    (if u then unescape tok else Except.ok tok) = Except.ok t ↔ Decoded u t tok := by
  cases u with
  | true => simp only [if_true]; rw [unescape_ok]; simp [Decoded]
  | false => simp [Decoded, eq_comm]

theorem decoded_head {u : Bool} {t tok : Str} (h : Decoded u t tok) :
    t.head? = some 32 ↔ tok.head? = some 32 := by
  cases u with
  | false => simp [Decoded] at h; rw [h]
  | true =>
    simp only [Decoded, if_true] at h
    cases h with
    | nil => rfl
    | plain c hc _ => rfl
    | named name c hc _ =>
      have : ∀ x ∈ names, x.2 ≠ 32 := by decide +kernel
      have h1 := this _ hc
      simp at h1
      simp [h1]

theorem addText_ok {u : Bool} {st : State} {t tok : Str} (h : Decoded u t tok) :
    addText u st tok = .ok { st with clean := glue st.clean t, wordPos := (words (glue st.clean t)).length } := by
  rw [addText]
  rw [(decoded_iff u t tok).2 h]
  dsimp only
  have hg : (if st.clean.length > 0 ∧ st.clean.getLast? ≠ some 32 ∧ tok.head? ≠ some 32 then st.clean ++ [32]
      else st.clean) ++ t = glue st.clean t := by
    rw [glue]
    have hiff : (st.clean = [] ∨ st.clean.getLast? = some 32 ∨ t.head? = some 32) ↔
        ¬(st.clean.length > 0 ∧ st.clean.getLast? ≠ some 32 ∧ tok.head? ≠ some 32) := by
      rw [decoded_head h]
      have : st.clean.length > 0 ↔ ¬ st.clean = [] := by
        rw [gt_iff_lt, List.length_pos_iff]
      rw [this]
      tauto
    by_cases hc : (st.clean.length > 0 ∧ st.clean.getLast? ≠ some 32 ∧ tok.head? ≠ some 32)
    · rw [if_pos hc, if_neg (by rw [hiff]; exact fun hn => hn hc)]
      simp
    · rw [if_neg hc, if_pos (by rw [hiff]; exact hc)]
  rw [hg, tokenize_words]

theorem addText_decoded {u : Bool} {st st' : State} {tok : Str} (h : addText u st tok = .ok st') :
    ∃ t, Decoded u t tok := by
  rw [addText] at h
  cases hd : (if u then unescape tok else Except.ok tok) with
  | error e => rw [hd] at h; simp at h
  | ok t => exact ⟨t, (decoded_iff u t tok).1 hd⟩

/-- The state after items. -/
def update (st : State) (its : Items) (ns : List Node) : State :=
  { stack := st.stack, clean := its.texts.foldl glue st.clean, wordPos := st.wordPos + its.count,
    nodes := st.nodes ++ ns }

theorem wordPos_update {st : State} (h : st.wordPos = (words st.clean).length) (its : Items) (ns : List Node) :
    (update st its ns).wordPos = (words (update st its ns).clean).length := by
  simp only [update]
  rw [words_fold, List.length_append, ← h, count_texts]

theorem process_written {u : Bool} {its : Items} {ts : List Str} (hw : Written u its ts) :
    ∀ (st : State) (ns : List Node) (more : List Str), its.nodes st.wordPos = some ns →
      st.wordPos = (words st.clean).length →
      processLoop u (ts ++ more) st = processLoop u more (update st its ns) := by
  induction hw with
  | nil =>
    intro st ns more hn hp
    simp only [Items.nodes, Option.some.injEq] at hn
    subst hn
    simp [update, Items.texts, Items.count]
  | @text t tok rest ts hit hd _ ih =>
    intro st ns more hn hp
    rw [List.cons_append, processLoop]
    have hhead : tok.head? ≠ some 60 := by
      intro hh
      exact hit.2 (List.mem_of_mem_head? hh)
    rw [if_neg hhead, addText_ok hd]
    dsimp only
    have hwp : (words (glue st.clean t)).length = st.wordPos + (words t).length := by
      rw [words_glue, List.length_append, hp]
    rw [ih _ ns more (by rw [Items.nodes] at hn; rw [← hn]; dsimp only; rw [hwp]) rfl]
    congr 1
    simp only [update, Items.texts, Items.count, List.foldl_cons, hwp]
    congr 1
    omega
  | @elem tok tok' name content label span inside rest ts ts' ho hl hs _ hc _ ih1 ih2 =>
    intro st ns more hn hp
    rw [Items.nodes] at hn
    split at hn
    case h_2 => simp at hn
    case h_1 a n b ha hnode hb =>
      simp only [Option.some.injEq] at hn
      subst hn
      rw [List.cons_append, processLoop]
      have hh : tok.head? = some 60 := by
        obtain ⟨body, hi, _⟩ := ho
        exact inside_head hi
      have hh' : tok'.head? = some 60 := by
        obtain ⟨s, _, hi, _⟩ := hc
        exact inside_head hi
      rw [if_pos hh, addTag_open ho]
      dsimp only
      rw [List.append_assoc, List.cons_append, ih1 { st with stack := ⟨name, st.wordPos, content⟩ :: st.stack } a _ ha hp, processLoop, if_pos hh', addTag_close hc]
      rw [← (attrValue_iff _ _ _).2 hl, ← (attrValue_iff _ _ _).2 hs] at hnode
      have := complete_some (S := st.stack) (cl := inside.texts.foldl glue st.clean) (ns := st.nodes ++ a)
        (name := name) hnode
      simp only [update]
      rw [this]
      dsimp only
      rw [ih2 _ b more hb ?_]
      · simp only [update, Items.texts, Items.count, List.foldl_append, List.append_assoc, List.cons_append,
          List.nil_append]
        congr 2
        omega
      · dsimp only
        rw [words_fold, List.length_append, ← hp, count_texts]
  | @single tok name content label span rest ts hsg hl hs _ ih =>
    intro st ns more hn hp
    rw [Items.nodes] at hn
    split at hn
    case h_2 => simp at hn
    case h_1 n b hnode hb =>
      simp only [Option.some.injEq] at hn
      subst hn
      have hh : tok.head? = some 60 := by
        obtain ⟨s, hi, _⟩ := hsg
        exact inside_head hi
      rw [List.cons_append, processLoop, if_pos hh, addTag_single hsg]
      rw [← (attrValue_iff _ _ _).2 hl, ← (attrValue_iff _ _ _).2 hs] at hnode
      have := complete_some (S := st.stack) (cl := st.clean) (ns := st.nodes) (name := name) hnode
      rw [this]
      dsimp only
      rw [ih { st with nodes := st.nodes ++ [n] } b more hb hp]
      simp only [update, Items.texts, Items.count, List.append_assoc, List.cons_append, List.nil_append]

theorem process_sound (u : Bool) : ∀ (m : Nat) (toks : List Str) (st st' : State), toks.length ≤ m →
    (∀ t ∈ toks, IsTag t ∨ IsText t) → st.wordPos = (words st.clean).length →
    processLoop u toks st = .ok st' → st'.stack.length ≤ st.stack.length →
    ∃ its ts1 ts2 ns, toks = ts1 ++ ts2 ∧ Written u its ts1 ∧ its.nodes st.wordPos = some ns ∧
      (ts2 = [] ∨ ∃ tok name ts3, ts2 = tok :: ts3 ∧ Closing tok name) := by
  intro m
  induction m with
  | zero =>
    intro toks st st' hm _ _ _ _
    have : toks = [] := List.eq_nil_of_length_eq_zero (by omega)
    subst this
    exact ⟨.nil, [], [], [], rfl, .nil, rfl, Or.inl rfl⟩
  | succ m ih =>
    intro toks st st' hm hall hp h hst
    cases toks with
    | nil => exact ⟨.nil, [], [], [], rfl, .nil, rfl, Or.inl rfl⟩
    | cons tok toks =>
      have hall' : ∀ t ∈ toks, IsTag t ∨ IsText t := fun t ht => hall t (List.mem_cons_of_mem _ ht)
      have hm' : toks.length ≤ m := by simp at hm; omega
      rw [processLoop] at h
      rcases hall tok (by simp) with ht | ht
      · have hh : tok.head? = some 60 := by obtain ⟨b, rfl, _⟩ := ht; simp
        rw [if_pos hh] at h
        cases hadd : addTag st tok with
        | error e => rw [hadd] at h; simp at h
        | ok st1 =>
          rw [hadd] at h
          dsimp only at h
          rcases addTag_cases ht hadd with ⟨name, content, ho⟩ | ⟨name, hc⟩ | ⟨name, content, hsg⟩
          · -- an element is opened
            rw [addTag_open ho] at hadd
            simp only [Except.ok.injEq] at hadd
            subst hadd
            obtain ⟨its1, ts1, ts2, ns1, rfl, hw1, hn1, hend⟩ := ih toks
              { st with stack := ⟨name, st.wordPos, content⟩ :: st.stack } st' hm' hall' hp h
              (by simp; omega)
            rw [process_written hw1 { st with stack := ⟨name, st.wordPos, content⟩ :: st.stack } ns1 ts2 hn1 hp] at h
            rcases hend with rfl | ⟨tok', name', ts3, rfl, hcl⟩
            · exfalso
              rw [processLoop] at h
              simp only [Except.ok.injEq] at h
              subst h
              simp [update] at hst
              omega
            · have hh' : tok'.head? = some 60 := by
                obtain ⟨s, _, hi, _⟩ := hcl
                exact inside_head hi
              rw [processLoop, if_pos hh', addTag_close hcl] at h
              cases hcomp : complete (update { st with stack := ⟨name, st.wordPos, content⟩ :: st.stack } its1 ns1) name' with
              | error e => rw [hcomp] at h; simp at h
              | ok st2 =>
                obtain ⟨p, content', S, n, hstack, hnode⟩ := complete_ok hcomp
                simp only [update, List.cons.injEq, Opened.mk.injEq] at hstack
                obtain ⟨⟨rfl, rfl, rfl⟩, rfl⟩ := hstack
                have hcs := complete_some (S := st.stack) (cl := its1.texts.foldl glue st.clean)
                  (ns := st.nodes ++ ns1) (name := name) hnode
                simp only [update] at hcomp hcs
                rw [hcs] at hcomp
                simp only [Except.ok.injEq] at hcomp
                simp only [update] at h
                rw [hcs] at h
                dsimp only at h
                have hp2 : st.wordPos + its1.count = (words (its1.texts.foldl glue st.clean)).length := by
                  rw [words_fold, List.length_append, ← hp, count_texts]
                obtain ⟨its2, ts1', ts2', ns2, rfl, hw2, hn2, hend2⟩ := ih ts3 _ st'
                  (by simp at hm'; omega)
                  (fun t ht => hall' t (by simp [ht])) (by exact hp2) h (by exact hst)
                refine ⟨.elem (attrValue content (ascii "label")) (attrValue content (ascii "span")) its1 its2,
                  tok :: (ts1 ++ tok' :: ts1'), ts2', ns1 ++ n :: ns2, by simp,
                  .elem ho ((attrValue_iff _ _ _).1 rfl) ((attrValue_iff _ _ _).1 rfl) hw1 hcl hw2, ?_, hend2⟩
                have hn1' : its1.nodes st.wordPos = some ns1 := hn1
                have hn2' : its2.nodes (st.wordPos + its1.count) = some ns2 := hn2
                have hnode' : nodeOf (attrValue content (ascii "label")) (attrValue content (ascii "span")) st.wordPos
                  (st.wordPos + its1.count) = some n := hnode
                rw [Items.nodes, hn1', hnode', hn2']
          · exact ⟨.nil, [], tok :: toks, [], rfl, .nil, rfl, Or.inr ⟨tok, name, toks, rfl, hc⟩⟩
          · rw [addTag_single hsg] at hadd
            obtain ⟨p, content', S, n, hstack, hnode⟩ := complete_ok hadd
            simp only [List.cons.injEq, Opened.mk.injEq, true_and] at hstack
            obtain ⟨⟨rfl, rfl⟩, rfl⟩ := hstack
            rw [complete_some hnode] at hadd
            simp only [Except.ok.injEq] at hadd
            subst hadd
            obtain ⟨its2, ts1', ts2', ns2, rfl, hw2, hn2, hend2⟩ := ih toks _ st' hm' hall' (by exact hp) h (by exact hst)
            refine ⟨.single (attrValue content (ascii "label")) (attrValue content (ascii "span")) its2,
              tok :: ts1', ts2', n :: ns2, by simp,
              .single hsg ((attrValue_iff _ _ _).1 rfl) ((attrValue_iff _ _ _).1 rfl) hw2, ?_, hend2⟩
            have hn2' : its2.nodes st.wordPos = some ns2 := hn2
            have hnode' : nodeOf (attrValue content (ascii "label")) (attrValue content (ascii "span")) st.wordPos
              st.wordPos = some n := hnode
            rw [Items.nodes, hnode', hn2']
      · have hh : tok.head? ≠ some 60 := fun hh => ht.2 (List.mem_of_mem_head? hh)
        rw [if_neg hh] at h
        cases hadd : addText u st tok with
        | error e => rw [hadd] at h; simp at h
        | ok st1 =>
          rw [hadd] at h
          dsimp only at h
          obtain ⟨t, hd⟩ := addText_decoded hadd
          rw [addText_ok hd] at hadd
          simp only [Except.ok.injEq] at hadd
          subst hadd
          obtain ⟨its2, ts1', ts2', ns2, rfl, hw2, hn2, hend2⟩ := ih toks _ st' hm' hall' rfl h (by exact hst)
          refine ⟨.text t its2, tok :: ts1', ts2', ns2, by simp, .text ht hd hw2, ?_, hend2⟩
          rw [Items.nodes]
          rw [← hn2]
          dsimp only
          rw [words_glue, List.length_append, hp]

theorem find_none_iff (s : Str) : find s 60 0 = none ↔ 60 ∉ s := by
  constructor
  · intro h hm
    rcases split_at 60 s with h1 | ⟨a, b, rfl, ha⟩
    · exact h1 hm
    · rw [find_some (a := a) (b := b) (by simp) ha] at h
      simp at h
  · intro h
    exact find_none (by simpa using h)

theorem process_iff (u : Bool) (line : Str) (hl : 60 ∈ line) (o : Output) : process u line = .ok o ↔
    ∃ ts its ns, Cut line ts ∧ Written u its ts ∧ its.nodes 0 = some ns ∧
      o = ⟨its.line, ns, (ns.filter (fun n => n.first = 0 ∧ n.last + 1 = its.count)).map (·.label)⟩ := by
  have hf : ¬find line 60 0 = none := by rw [find_none_iff]; simpa using hl
  have h0 : ({} : State).wordPos = (words ({} : State).clean).length := by simp [words_nil]
  constructor
  · intro h
    have hcut := (cut_iff line _).1 rfl
    rw [process, if_neg hf] at h
    cases hp : processLoop u (tokenizeXml line) {} with
    | error e => rw [hp] at h; simp at h
    | ok st =>
      rw [hp] at h
      dsimp only at h
      split at h
      · simp at h
      · rename_i hst
        simp only [Except.ok.injEq] at h
        subst h
        obtain ⟨its, ts1, ts2, ns, he, hw, hn, hend⟩ := process_sound u _ _ {} st (le_refl _) hcut.1.1 h0 hp
          (by omega)
        rw [he] at hp
        rw [process_written hw {} ns ts2 hn h0] at hp
        rcases hend with rfl | ⟨tok, name, ts3, rfl, hcl⟩
        · rw [processLoop] at hp
          simp only [Except.ok.injEq] at hp
          subst hp
          rw [List.append_nil] at he
          refine ⟨ts1, its, ns, he ▸ hcut, hw, hn, ?_⟩
          simp [update, Items.line]
        · exfalso
          have hh' : tok.head? = some 60 := by
            obtain ⟨s, _, hi, _⟩ := hcl
            exact inside_head hi
          rw [processLoop, if_pos hh', addTag_close hcl] at hp
          simp [complete, update] at hp
  · rintro ⟨ts, its, ns, hcut, hw, hn, rfl⟩
    rw [process, if_neg hf, (cut_iff line ts).2 hcut]
    have := process_written hw {} ns [] hn h0
    rw [List.append_nil] at this
    rw [this, processLoop]
    simp [update, Items.line]

end Verif.Xml
