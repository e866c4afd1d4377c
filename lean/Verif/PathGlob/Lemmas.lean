import Verif.PathGlob.Spec
import Verif.Glob.Lemmas

/-! Helper lemmas for `Props.lean`. -/
set_option linter.unusedVariables false
set_option linter.unusedSimpArgs false

namespace Verif.PathGlob
open Verif Spec

theorem mem_toList (name : Str) (node : Node) (es : Entries) :
    (name, node) ∈ es.toList ↔ Member name node es := by
  constructor
  · intro h
    match es with
    | .nil => simp [Entries.toList] at h
    | .cons n o rest =>
      simp only [Entries.toList, List.mem_cons, Prod.mk.injEq] at h
      rcases h with ⟨rfl, rfl⟩ | h
      · exact .here
      · exact .there ((mem_toList name node rest).1 h)
  · intro h
    induction h with
    | here => simp [Entries.toList]
    | there _ ih => simp [Entries.toList, ih]

theorem At.append {a b c : Node} {p q : List Str} (h : At a p b) (h' : At b q c) :
    At a (p ++ q) c := by
  induction h with
  | here => exact h'
  | there hm _ ih => exact .there hm (ih h')

theorem At.split {a c : Node} {p q : List Str} (h : At a (p ++ q) c) :
    ∃ b, At a p b ∧ At b q c := by
  induction p generalizing a with
  | nil => exact ⟨a, .here, h⟩
  | cons n p ih =>
    generalize hp : n :: p ++ q = r at h
    cases h with
    | here => simp at hp
    | there hm h' =>
      simp at hp; obtain ⟨rfl, rfl⟩ := hp
      obtain ⟨b, h1, h2⟩ := ih h'
      exact ⟨b, .there hm h1, h2⟩

mutual
theorem mem_descDirs (node : Node) (p : List Str) (es : Entries) :
    (p, es) ∈ descDirs node ↔ p ≠ [] ∧ At node p (.dir es) := by
  match node with
  | .file =>
    simp only [descDirs, List.not_mem_nil, false_iff, not_and]
    intro hp h; cases h
  | .other =>
    simp only [descDirs, List.not_mem_nil, false_iff, not_and]
    intro hp h; cases h
  | .dir es' =>
    simp only [descDirs]
    exact mem_descDirsIn es' p es
theorem mem_descDirsIn (es0 : Entries) (p : List Str) (es : Entries) :
    (p, es) ∈ descDirsIn es0 ↔ p ≠ [] ∧ At (.dir es0) p (.dir es) := by
  match es0 with
  | .nil =>
    simp only [descDirsIn, List.not_mem_nil, false_iff, not_and]
    intro hp h
    cases h with
    | here => exact hp rfl
    | there hm _ => cases hm
  | .cons name node rest =>
    have ih1 := mem_descDirs node
    have ih2 := mem_descDirsIn rest p es
    simp only [descDirsIn, List.mem_append, List.mem_map, ih2, Prod.mk.injEq]
    constructor
    · rintro ((h | ⟨⟨q, es1⟩, h, rfl, rfl⟩) | ⟨h1, h2⟩)
      · split at h
        · simp at h
          obtain ⟨rfl, rfl⟩ := h
          refine ⟨by simp, .there .here ?_⟩
          match node with
          | .dir es1 => exact .here
          | .file => simp [Node.isDir] at *
          | .other => simp [Node.isDir] at *
        · simp at h
      · refine ⟨by simp, .there .here ?_⟩
        exact ((ih1 q es1).1 h).2
      · refine ⟨h1, ?_⟩
        cases h2 with
        | here => exact absurd rfl h1
        | there hm h3 => exact .there (.there hm) h3
    · rintro ⟨h1, h2⟩
      cases h2 with
      | here => exact absurd rfl h1
      | @there _ n child q _ hm h3 =>
        cases hm with
        | here =>
          left
          by_cases hq : q = []
          · subst hq
            cases h3
            left; simp [Node.isDir, Node.entries]
          · right
            exact ⟨(q, es), (ih1 q es).2 ⟨hq, h3⟩, rfl, rfl⟩
        | there hm => right; exact ⟨h1, .there hm h3⟩
end

theorem matches_nil {m : Str → Str → Bool} {p : List Str} (h : Matches m [] p) : p = [] := by
  cases h; rfl

theorem matches_star {m : Str → Str → Bool} {gs p : List Str} (hgs : gs ≠ [])
    (h : Matches m ([42, 42] :: gs) p) : ∃ ds q, p = ds ++ q ∧ Matches m gs q := by
  generalize hg : ([42, 42] : Str) :: gs = g0 at h
  cases h with
  | nil => simp at hg
  | @dirs segs ds q _ h => simp at hg; subst hg; exact ⟨ds, q, rfl, h⟩
  | final => simp at hg; exact absurd hg hgs
  | seg h1 => simp at hg; exact absurd hg.1.symm h1

theorem matches_last {m : Str → Str → Bool} {p : List Str} (h : Matches m [[42, 42]] p) :
    p ≠ [] := by
  generalize hg : [([42, 42] : Str)] = g0 at h
  cases h with
  | nil => simp at hg
  | dirs h _ => simp at hg; exact absurd hg h
  | final h => exact h
  | seg h1 => simp

theorem matches_seg {m : Str → Str → Bool} {g : Str} {gs p : List Str} (hg : g ≠ [42, 42])
    (h : Matches m (g :: gs) p) : ∃ n q, p = n :: q ∧ m g n = true ∧ Matches m gs q := by
  generalize hgs : g :: gs = g0 at h
  cases h with
  | nil => simp at hgs
  | dirs => simp at hgs; exact absurd hgs.1 hg
  | final => simp at hgs; exact absurd hgs.1 hg
  | @seg g' segs n q h1 h2 h3 =>
    simp at hgs; obtain ⟨rfl, rfl⟩ := hgs; exact ⟨n, q, rfl, h2, h3⟩

theorem at_file_nonempty {es : Entries} {p : List Str} (h : At (.dir es) p .file) : p ≠ [] := by
  rintro rfl; cases h

theorem at_file_prefix_dir {a b : Node} {p q : List Str} (h : At b q .file) (hq : q ≠ []) :
    ∃ es, b = .dir es := by
  cases h with
  | here => exact absurd rfl hq
  | there => exact ⟨_, rfl⟩

theorem matches_ne_nil {m : Str → Str → Bool} {gs p : List Str} (h : Matches m gs p)
    (hg : gs ≠ []) : p ≠ [] := by
  induction h with
  | nil => exact absurd rfl hg
  | dirs h1 h ih =>
    intro e; simp at e; exact ih h1 e.2
  | final h => exact h
  | seg => simp

theorem mem_findMatching (m : Str → Str → Bool) (gs : List Str) (hg : gs ≠ [])
    (hl : gs.getLast? ≠ some [42, 42]) (es : Entries) (p : List Str) :
    p ∈ findMatching m gs es ↔ At (.dir es) p .file ∧ Matches m gs p := by
  induction gs generalizing es p with
  | nil => exact absurd rfl hg
  | cons g gs ih =>
    have hl' : gs ≠ [] → gs.getLast? ≠ some [42, 42] := by
      intro h
      match gs with
      | [] => exact absurd rfl h
      | a :: gs => simpa using hl
    simp only [findMatching]
    by_cases h1 : g = starStar
    · subst h1
      have hgs : gs ≠ [] := by
        rintro rfl; simp [starStar] at hl
      have ih' := fun es p => ih hgs (hl' hgs) es p
      simp only [if_true, List.mem_append, List.mem_flatMap, List.mem_map, ih']
      constructor
      · rintro (⟨h2, h3⟩ | ⟨⟨dp, des⟩, hd, q, ⟨h2, h3⟩, rfl⟩)
        · exact ⟨h2, .dirs (ds := []) hgs h3⟩
        · have := (mem_descDirsIn es dp des).1 hd
          exact ⟨At.append this.2 h2, .dirs hgs h3⟩
      · rintro ⟨h2, h3⟩
        obtain ⟨ds, q, rfl, h4⟩ := matches_star hgs h3
        by_cases hds : ds = []
        · subst hds; left; exact ⟨by simpa using h2, h4⟩
        · right
          obtain ⟨b, hb1, hb2⟩ := At.split h2
          have hq := matches_ne_nil h4 hgs
          obtain ⟨es', rfl⟩ := at_file_prefix_dir (a := b) (p := ds) hb2 hq
          exact ⟨(ds, es'), (mem_descDirsIn es ds es').2 ⟨hds, hb1⟩, q, ⟨hb2, h4⟩, rfl⟩
    · simp only [h1, if_false, List.mem_flatMap]
      constructor
      · rintro ⟨⟨n, node⟩, hm, hp⟩
        rw [mem_toList] at hm
        split at hp
        · rename_i hmn
          match node with
          | .dir es' =>
            simp only [List.mem_map] at hp
            obtain ⟨q, hq, rfl⟩ := hp
            by_cases hgs : gs = []
            · subst hgs; simp [findMatching] at hq
            · obtain ⟨h2, h3⟩ := (ih hgs (hl' hgs) es' q).1 hq
              exact ⟨.there hm h2, .seg h1 hmn h3⟩
          | .file =>
            simp only at hp
            split at hp
            · rename_i hgs; subst hgs
              simp at hp; subst hp
              exact ⟨.there hm .here, .seg h1 hmn .nil⟩
            · simp at hp
          | .other => simp at hp
        · simp at hp
      · rintro ⟨h2, h3⟩
        obtain ⟨n, q, rfl, hmn, h4⟩ := matches_seg h1 h3
        cases h2 with
        | @there _ _ child _ _ hm h5 =>
          refine ⟨(n, child), (mem_toList _ _ _).2 hm, ?_⟩
          dsimp only at *
          rw [if_pos hmn]
          by_cases hgs : gs = []
          · subst hgs
            have := matches_nil h4; subst this
            cases h5; simp
          · have hq := matches_ne_nil h4 hgs
            obtain ⟨es', rfl⟩ := at_file_prefix_dir (a := child) (p := [n]) h5 hq
            simp only [List.mem_map]
            exact ⟨q, (ih hgs (hl' hgs) es' q).2 ⟨h5, h4⟩, rfl⟩

theorem get_iff {es : Entries} (hd : ∀ name a b, Member name a es → Member name b es → a = b)
    (name : Str) (node : Node) : es.get name = some node ↔ Member name node es := by
  constructor
  · intro h
    clear hd
    match es with
    | .nil => simp [Entries.get] at h
    | .cons n o rest =>
      simp only [Entries.get] at h
      split at h
      · rename_i e; subst e; simp at h; subst h; exact .here
      · exact .there ((get_iff_aux rest name node) h)
  · intro h
    have key : ∀ (es : Entries) (node : Node), Member name node es → ∃ a, es.get name = some a ∧ Member name a es := by
      intro es node h
      induction h with
      | here => exact ⟨node, by simp [Entries.get], .here⟩
      | @there n o rest h ih =>
        by_cases e : n = name
        · subst e; exact ⟨o, by simp [Entries.get], .here⟩
        · obtain ⟨a, h1, h2⟩ := ih
          exact ⟨a, by simp [Entries.get, e, h1], .there h2⟩
    obtain ⟨a, h1, h2⟩ := key es node h
    rw [h1, hd name a node h2 h]
where
  get_iff_aux (es : Entries) (name : Str) (node : Node) (h : es.get name = some node) :
      Member name node es := by
    match es with
    | .nil => simp [Entries.get] at h
    | .cons n o rest =>
      simp only [Entries.get] at h
      split at h
      · rename_i e; subst e; simp at h; subst h; exact .here
      · exact .there (get_iff_aux rest name node h)

theorem at_iff {root : Node} (hd : Distinct root) (p : List Str) (node : Node) :
    root.at p = some node ↔ At root p node := by
  induction p generalizing root with
  | nil =>
    constructor
    · intro h; simp [Node.at] at h; subst h; exact .here
    · intro h; cases h; simp [Node.at]
  | cons n p ih =>
    cases hd with
    | file =>
      simp only [Node.at, reduceCtorEq, false_iff]
      intro h; cases h
    | other =>
      simp only [Node.at, reduceCtorEq, false_iff]
      intro h; cases h
    | @dir es h1 h2 =>
      simp only [Node.at]
      constructor
      · intro h
        split at h
        · rename_i c hc
          have hm := (get_iff h1 n c).1 hc
          exact .there hm ((ih (h2 n c hm)).1 h)
        · simp at h
      · intro h
        cases h with
        | @there _ _ child _ _ hm h3 =>
          rw [(get_iff h1 n child).2 hm]
          exact (ih (h2 n child hm)).2 h3

/-- A completed final `**`. -/
theorem matches_complete {m : Str → Str → Bool} (hstar : ∀ n, m [42] n = true) (gs p : List Str)
    (hl : gs.getLast? = some [42, 42]) : Matches m (gs ++ [[42]]) p ↔ Matches m gs p := by
  induction gs generalizing p with
  | nil => simp at hl
  | cons g gs ih =>
    by_cases hg : g = [42, 42]
    · subst hg
      match gs with
      | [] =>
        constructor
        · intro h
          exact .final (matches_ne_nil h (by simp))
        · intro h
          have hp := matches_last h
          have e : p = p.dropLast ++ [p.getLast hp] := (List.dropLast_concat_getLast hp).symm
          rw [e]
          exact .dirs (by simp) (.seg (by decide) (hstar _) .nil)
      | a :: gs =>
        have ih' := fun p => ih p (by simpa using hl)
        constructor
        · intro h
          obtain ⟨ds, q, rfl, h1⟩ := matches_star (by simp) h
          exact .dirs (by simp) ((ih' q).1 h1)
        · intro h
          obtain ⟨ds, q, rfl, h1⟩ := matches_star (by simp) h
          exact .dirs (by simp) ((ih' q).2 h1)
    · have hgs : gs ≠ [] := by
        rintro rfl; simp at hl; exact hg hl
      have ih' := fun p => ih p (by
        match gs with
        | [] => exact absurd rfl hgs
        | a :: gs => simpa using hl)
      constructor
      · intro h
        obtain ⟨n, q, rfl, h1, h2⟩ := matches_seg hg h
        exact .seg hg h1 ((ih' q).1 h2)
      · intro h
        obtain ⟨n, q, rfl, h1, h2⟩ := matches_seg hg h
        exact .seg hg h1 ((ih' q).2 h2)

/-- Segments without wildcards in front. -/
theorem matches_fixed {m : Str → Str → Bool}
    (hfix : ∀ g n, Glob.isFixed g = true → (m g n = true ↔ n = g)) (pre gs p : List Str)
    (hpre : ∀ g ∈ pre, Glob.isFixed g = true) :
    Matches m (pre ++ gs) p ↔ ∃ q, p = pre ++ q ∧ Matches m gs q := by
  induction pre generalizing p with
  | nil => simp
  | cons g pre ih =>
    have hg : g ≠ [42, 42] := by
      rintro rfl
      exact absurd (hpre _ (List.mem_cons_self ..)) (by decide)
    have hgf := hpre g (List.mem_cons_self ..)
    have ih' := fun p => ih p (fun g hg => hpre g (List.mem_cons_of_mem _ hg))
    constructor
    · intro h
      obtain ⟨n, q, rfl, h1, h2⟩ := matches_seg hg h
      obtain ⟨r, rfl, h3⟩ := (ih' q).1 h2
      rw [(hfix g n hgf).1 h1]
      exact ⟨r, rfl, h3⟩
    · rintro ⟨q, rfl, h⟩
      exact .seg hg ((hfix g g hgf).2 rfl) ((ih' _).2 ⟨q, rfl, h⟩)

theorem mem_allMatchingFiles {m : Str → Str → Bool}
    (hfix : ∀ g n, Glob.isFixed g = true → (m g n = true ↔ n = g)) (hstar : ∀ n, m [42] n = true)
    {root : Node} (hd : Distinct root) (segs p : List Str) :
    p ∈ allMatchingFiles m segs root ↔ At root p .file ∧ Matches m segs p := by
  have hsplit : segs = fixedPrefix segs ++ segs.dropWhile Glob.isFixed := by
    simp [fixedPrefix, List.takeWhile_append_dropWhile]
  have hpre : ∀ g ∈ fixedPrefix segs, Glob.isFixed g = true := by
    intro g hg; exact List.all_eq_true.1 (List.all_takeWhile (p := Glob.isFixed) (l := segs)) g hg
  have hM : ∀ q, Matches m (segmentGlobs segs) q ↔ Matches m (segs.dropWhile Glob.isFixed) q := by
    intro q
    simp only [segmentGlobs]
    split
    · rename_i hl; exact matches_complete hstar _ _ hl
    · rfl
  have hM2 : Matches m segs p ↔ ∃ q, p = fixedPrefix segs ++ q ∧ Matches m (segmentGlobs segs) q := by
    conv => lhs; rw [hsplit]
    rw [matches_fixed hfix _ _ _ hpre]
    simp only [hM]
  have hl : (segmentGlobs segs).getLast? ≠ some [42, 42] := by
    simp only [segmentGlobs]
    split
    · simp
    · rename_i h; exact h
  rw [hM2]
  simp only [allMatchingFiles]
  constructor
  · intro h
    split at h
    · simp at h
    · rename_i node hn
      have hat := (at_iff hd _ _).1 hn
      split at h
      · rename_i hg
        split at h
        · simp at h; subst h
          exact ⟨hat, [], by simp, by rw [hg]; exact .nil⟩
        · simp at h
      · rename_i hg
        split at h
        · rename_i es
          simp only [List.mem_map] at h
          obtain ⟨q, hq, rfl⟩ := h
          obtain ⟨h1, h2⟩ := (mem_findMatching m _ hg hl es q).1 hq
          exact ⟨At.append hat h1, q, rfl, h2⟩
        · simp at h
  · rintro ⟨h1, q, rfl, h2⟩
    obtain ⟨b, hb1, hb2⟩ := At.split h1
    rw [(at_iff hd _ _).2 hb1]
    dsimp only
    by_cases hg : segmentGlobs segs = []
    · rw [if_pos hg]
      rw [hg] at h2
      have := matches_nil h2; subst this
      cases hb2; simp
    · rw [if_neg hg]
      have hq := matches_ne_nil h2 hg
      obtain ⟨es', rfl⟩ := at_file_prefix_dir (a := b) (p := q) hb2 hq
      simp only [List.mem_map]
      exact ⟨q, (mem_findMatching m _ hg hl es' q).2 ⟨hb2, h2⟩, rfl⟩

end Verif.PathGlob
