import Verif.Symal.Grow

/-!
Property theorems C85 (union, intersection and the two directions) and C86 (growing).
-/
set_option linter.unusedVariables false
set_option linter.unusedSimpArgs false

namespace Verif.Symal
open Verif Verif.Server Spec

/-- The points of a sentence for which a condition holds, as links. -/
theorem listed {P : Link → Prop} {l : List Point} (hn : l.Nodup) (hr : ∀ p ∈ l, 1 ≤ p.1 ∧ 1 ≤ p.2) (h : ∀ k, point k ∈ l ↔ P k) :
    (l.map link).Nodup ∧ ∀ k, k ∈ l.map link ↔ P k := by
  constructor
  · refine List.pairwise_map.2 (hn.imp_of_mem ?_)
    intro a b ha hb hab heq
    apply hab
    have := congrArg point heq
    rwa [point_link (hr a ha).1 (hr a ha).2, point_link (hr b hb).1 (hr b hb).2] at this
  · intro k
    rw [← h, List.mem_map]
    constructor
    · rintro ⟨p, hp, rfl⟩
      rwa [point_link (hr p hp).1 (hr p hp).2]
    · intro hk
      exact ⟨_, hk, link_point k⟩

/-- The points of the direct alignment with a condition. -/
theorem direct_points (x : Input) (c : Nat → Prop) [DecidablePred c] (hc : ∀ j, c j → x.a j ≠ 0) :
    ∃ l : List Point, (upTo x.m).flatMap (fun j => if c j then shown (x.a j) j else []) = l.flatMap (fun k => shown k.1 k.2) ∧
      l.Nodup ∧ (∀ p ∈ l, 1 ≤ p.1 ∧ 1 ≤ p.2) ∧ ∀ p : Point, p ∈ l ↔ 1 ≤ p.2 ∧ p.2 ≤ x.m ∧ c p.2 ∧ x.a p.2 = p.1 := by
  refine ⟨_, flatMap_if (upTo x.m) c (fun j => (x.a j, j)), ?_, ?_, ?_⟩
  · refine List.pairwise_map.2 (((nodup_upTo x.m).filter _).imp ?_)
    intro a b hab h
    exact hab (Prod.ext_iff.1 h).2
  · intro p hp
    simp only [List.mem_map, List.mem_filter, mem_upTo, decide_eq_true_eq] at hp
    obtain ⟨j, ⟨h1, h2⟩, rfl⟩ := hp
    have := hc j h2
    exact ⟨by dsimp only; omega, h1.1⟩
  · intro p
    simp only [List.mem_map, List.mem_filter, mem_upTo, decide_eq_true_eq]
    constructor
    · rintro ⟨j, ⟨h1, h2⟩, rfl⟩
      exact ⟨h1.1, h1.2, h2, rfl⟩
    · rintro ⟨h1, h2, h3, h4⟩
      exact ⟨p.2, ⟨⟨h1, h2⟩, h3⟩, Prod.ext h4 rfl⟩

/-- The points of the inverse alignment with a condition. -/
theorem inverse_points (x : Input) (c : Nat → Prop) [DecidablePred c] (hc : ∀ i, c i → x.b i ≠ 0) :
    ∃ l : List Point, (upTo x.n).flatMap (fun i => if c i then shown i (x.b i) else []) = l.flatMap (fun k => shown k.1 k.2) ∧
      l.Nodup ∧ (∀ p ∈ l, 1 ≤ p.1 ∧ 1 ≤ p.2) ∧ ∀ p : Point, p ∈ l ↔ 1 ≤ p.1 ∧ p.1 ≤ x.n ∧ c p.1 ∧ x.b p.1 = p.2 := by
  refine ⟨_, flatMap_if (upTo x.n) c (fun i => (i, x.b i)), ?_, ?_, ?_⟩
  · refine List.pairwise_map.2 (((nodup_upTo x.n).filter _).imp ?_)
    intro a b hab h
    exact hab (Prod.ext_iff.1 h).1
  · intro p hp
    simp only [List.mem_map, List.mem_filter, mem_upTo, decide_eq_true_eq] at hp
    obtain ⟨j, ⟨h1, h2⟩, rfl⟩ := hp
    have := hc j h2
    exact ⟨h1.1, by dsimp only; omega⟩
  · intro p
    simp only [List.mem_map, List.mem_filter, mem_upTo, decide_eq_true_eq]
    constructor
    · rintro ⟨j, ⟨h1, h2⟩, rfl⟩
      exact ⟨h1.1, h1.2, h2, rfl⟩
    · rintro ⟨h1, h2, h3, h4⟩
      exact ⟨p.1, ⟨⟨h1, h2⟩, h3⟩, Prod.ext rfl h4⟩

/-! ## C85 -/

/-- **C85** Source to target: a line with the links of the direct alignment, each once. -/
theorem C85_srctotgt (x : Input) : ∃ ls, Line ls (printSrcToTgt x) ∧ ls.Nodup ∧ ∀ l, l ∈ ls ↔ Direct x l := by
  obtain ⟨l, h1, h2, h3, h4⟩ := direct_points x (fun j => x.a j ≠ 0) (fun _ h => h)
  obtain ⟨g1, g2⟩ := listed (P := Direct x) h2 h3 (by
    intro k
    rw [h4]
    simp only [point, Direct]
    constructor
    · rintro ⟨a, b, c, d⟩; exact ⟨by omega, d⟩
    · rintro ⟨a, b⟩; exact ⟨by omega, by omega, by omega, b⟩)
  exact ⟨_, by unfold printSrcToTgt; rw [h1]; exact line_ok l, g1, g2⟩

/-- **C85** Target to source: a line with the links of the inverse alignment, each once. -/
theorem C85_tgttosrc (x : Input) : ∃ ls, Line ls (printTgtToSrc x) ∧ ls.Nodup ∧ ∀ l, l ∈ ls ↔ Inverse x l := by
  obtain ⟨l, h1, h2, h3, h4⟩ := inverse_points x (fun i => x.b i ≠ 0) (fun _ h => h)
  obtain ⟨g1, g2⟩ := listed (P := Inverse x) h2 h3 (by
    intro k
    rw [h4]
    simp only [point, Inverse]
    constructor
    · rintro ⟨a, b, c, d⟩; exact ⟨by omega, d⟩
    · rintro ⟨a, b⟩; exact ⟨by omega, by omega, by omega, b⟩)
  exact ⟨_, by unfold printTgtToSrc; rw [h1]; exact line_ok l, g1, g2⟩

/-- **C85** Intersection: a line with the links of both alignments, each once. -/
theorem C85_intersect {x : Input} (hx : Proper x) : ∃ ls, Line ls (printIntersect x) ∧ ls.Nodup ∧ ∀ l, l ∈ ls ↔ Direct x l ∧ Inverse x l := by
  obtain ⟨l, h1, h2, h3, h4⟩ := direct_points x (fun j => x.a j ≠ 0 ∧ x.b (x.a j) = j) (fun _ h => h.1)
  obtain ⟨g1, g2⟩ := listed (P := fun l => Direct x l ∧ Inverse x l) h2 h3 (by
    intro k
    rw [h4]
    simp only [point, Direct, Inverse]
    constructor
    · rintro ⟨a, b, ⟨c, e⟩, d⟩
      have := hx.1 (k.source + 1) a b
      rw [d] at e
      exact ⟨⟨by omega, d⟩, by omega, e⟩
    · rintro ⟨⟨a, b⟩, c, d⟩; exact ⟨by omega, by omega, ⟨by omega, by rw [b]; exact d⟩, b⟩)
  exact ⟨_, by unfold printIntersect; rw [h1]; exact line_ok l, g1, g2⟩

/-- **C85** Union: a line with the links of one alignment or the other, each once. -/
theorem C85_union {x : Input} (hx : Proper x) : ∃ ls, Line ls (printUnion x) ∧ ls.Nodup ∧ ∀ l, l ∈ ls ↔ Direct x l ∨ Inverse x l := by
  obtain ⟨l, h1, h2, h3, h4⟩ := direct_points x (fun j => x.a j ≠ 0) (fun _ h => h)
  obtain ⟨l', h1', h2', h3', h4'⟩ := inverse_points x (fun i => x.b i ≠ 0 ∧ x.a (x.b i) ≠ i) (fun _ h => h.1)
  obtain ⟨g1, g2⟩ := listed (P := fun l => Direct x l ∨ Inverse x l) (l := l ++ l') (by
      refine List.nodup_append.2 ⟨h2, h2', ?_⟩
      rintro p hp q hq rfl
      have a := (h4 p).1 hp
      have b := (h4' p).1 hq
      have c := b.2.2.1.2
      rw [b.2.2.2] at c
      exact c a.2.2.2) (by
      intro p hp
      rcases List.mem_append.1 hp with hp | hp
      · exact h3 p hp
      · exact h3' p hp) (by
    intro k
    rw [List.mem_append, h4, h4']
    simp only [point, Direct, Inverse]
    constructor
    · rintro (⟨a, b, c, d⟩ | ⟨a, b, ⟨c, e⟩, d⟩)
      · exact .inl ⟨by omega, d⟩
      · exact .inr ⟨by omega, d⟩
    · rintro (⟨a, b⟩ | ⟨a, b⟩)
      · exact .inl ⟨by omega, by omega, by omega, b⟩
      · by_cases hd : x.a (k.source + 1) = k.target + 1
        · have := hx.2 (k.target + 1) (by omega) (by omega)
          exact .inl ⟨by omega, by omega, by omega, hd⟩
        · exact .inr ⟨by omega, by omega, ⟨by omega, by rw [b]; exact hd⟩, b⟩)
  exact ⟨_, by unfold printUnion; rw [h1, h1', ← List.flatMap_append]; exact line_ok _, g1, g2⟩

/-- Three source words and four target words. -/
def sample : Input := ⟨3, 4, fun j => [0, 1, 3, 3].getD j 0, fun i => [0, 1, 1, 2, 3].getD i 0⟩

example : Proper sample := by
  constructor
  · intro j h1 h2
    have h2 : j ≤ 3 := h2
    have : j = 1 ∨ j = 2 ∨ j = 3 := by omega
    rcases this with rfl | rfl | rfl <;> decide
  · intro j h1 h2
    have h2 : j ≤ 4 := h2
    have : j = 1 ∨ j = 2 ∨ j = 3 ∨ j = 4 := by omega
    rcases this with rfl | rfl | rfl | rfl <;> decide

example : printUnion sample = ascii "0-0 1-2 2-2 0-1 2-3\n" ∧ printIntersect sample = ascii "0-0 1-2\n" ∧
    printSrcToTgt sample = ascii "0-0 1-2 2-2\n" ∧ printTgtToSrc sample = ascii "0-0 0-1 1-2 2-3\n" ∧
    printGrow sample false false false 50 = some (ascii "0-0 0-1 1-2 2-2 2-3\n") := by decide +kernel

/-! ## C86 -/

/-- **C86** Growing ends; what is printed is a line with links, each once, and they make up an alignment
as it is defined: from the intersection neighbours from the union are added that link a new word,
until there are none, and then, if asked for, other links of the union that link new words. -/
theorem C86_grow {x : Input} (hx : Proper x) (diagonal final both : Bool) :
    ∃ n, ∀ fuel ≥ n, ∃ s ls, printGrow x diagonal final both fuel = some s ∧ Line ls s ∧ ls.Nodup ∧
      Symmetrized x diagonal final both (· ∈ ls) := by
  obtain ⟨h1, h2, h3⟩ := fill_ok x hx
  refine ⟨uncovered x (fill x).1 + (x.n + 1) * (x.m + 1) + 2, fun fuel hf => ?_⟩
  obtain ⟨s, g1, g2, g3⟩ := grow_ok hx (d := diagonal) fuel h1 hf
  have e0 : links (fill x).1 = fun l => Direct x l ∧ Inverse x l := by
    funext l
    apply propext
    unfold links
    rw [h2]
    constructor
    · rintro ⟨⟨c1, c2, c3, c4, _⟩, c5, c6⟩
      simp only [point] at c1 c2 c3 c4 c5 c6
      exact ⟨⟨by omega, c5⟩, ⟨by omega, c6⟩⟩
    · rintro ⟨a, b⟩
      exact ⟨(union_iff hx l).1 (.inl a), a.2, b.2⟩
  have out : ∀ s1 : State, Inv x s1 → (s1.points.map link).Nodup ∧ (fun l => l ∈ s1.points.map link) = links s1 := by
    intro s1 hs1
    obtain ⟨a, b⟩ := listed (P := links s1) hs1.sorted.nodup (fun p hp => ⟨(hs1.union p hp).1, (hs1.union p hp).2.2.1⟩) (fun k => Iff.rfl)
    exact ⟨a, funext fun l => propext (b l)⟩
  unfold printGrow growPoints
  rw [g1]
  dsimp only
  rw [e0] at g3
  cases final with
  | false =>
    obtain ⟨a, b⟩ := out s g2
    refine ⟨_, _, rfl, line_ok _, a, links s, g3, ?_⟩
    exact b
  | true =>
    obtain ⟨f1, U, f2, f3⟩ := finals_ok hx (both := both) g2 h3
    obtain ⟨a, b⟩ := out _ f1
    refine ⟨_, _, rfl, line_ok _, a, links s, g3, ?_⟩
    rw [if_pos rfl]
    refine ⟨U, f2, ?_⟩
    show Saturated _ U (fun l => l ∈ (finals both (fill x).2 s).points.map link)
    rw [b]
    exact f3

theorem chain_sub {ok : (Link → Prop) → Link → Prop} {S T : Link → Prop} (h : Chain ok S T) : (∀ l, S l → T l) ∧ ∀ l, T l → S l ∨ ∃ V, ok V l := by
  induction h with
  | refl => exact ⟨fun _ h => h, fun _ h => .inl h⟩
  | @step T l _ h1 ih =>
    refine ⟨fun k hk => .inl (ih.1 k hk), ?_⟩
    rintro k (hk | rfl)
    · exact ih.2 k hk
    · exact .inr ⟨_, h1⟩

/-- **C86** What is printed lies between the intersection and the union ("you will never introduce more
points than the union alignment"), in the order of target positions. -/
theorem C86_between {x : Input} (hx : Proper x) {diagonal final both : Bool} {fuel : Nat} {s : Str} (hs : printGrow x diagonal final both fuel = some s) :
    ∃ ls, Line ls s ∧ (∀ l, Direct x l → Inverse x l → l ∈ ls) ∧ (∀ l ∈ ls, Direct x l ∨ Inverse x l) ∧
      ls.Pairwise (fun k l => k.target < l.target ∨ (k.target = l.target ∧ k.source < l.source)) := by
  have key : ∃ s1, Inv x s1 ∧ s = fixed (s1.points.flatMap (fun k => shown k.1 k.2)) := by
    obtain ⟨h1, h2, h3⟩ := fill_ok x hx
    unfold printGrow growPoints at hs
    cases hg : grow x (neighbors diagonal) fuel (fill x).1 with
    | none => rw [hg] at hs; simp at hs
    | some s0 =>
      have hinv : ∀ (f : Nat) (q s0 : State), Inv x q → grow x (neighbors diagonal) f q = some s0 → Inv x s0 := by
        intro f
        induction f with
        | zero => intro q s0 _ h; simp [grow] at h
        | succ f ih =>
          intro q s0 hq h
          rw [grow] at h
          cases hsc : scan x (neighbors diagonal) f (q, false) q.points.head? with
          | none => rw [hsc] at h; simp at h
          | some r =>
            obtain ⟨s1, added⟩ := r
            rw [hsc] at h
            have hs1 : Inv x s1 := by
              have : ∀ (f : Nat) (q r : State × Bool) (k? : Option Point), Inv x q.1 → (∀ k, k? = some k → k ∈ q.1.points) →
                  scan x (neighbors diagonal) f q k? = some r → Inv x r.1 := by
                intro f
                induction f with
                | zero =>
                  intro q r k? hq hk h
                  cases k? with
                  | none => simp [scan] at h; rw [← h]; exact hq
                  | some k => simp [scan] at h
                | succ f ih =>
                  intro q r k? hq hk h
                  cases k? with
                  | none => simp [scan] at h; rw [← h]; exact hq
                  | some k =>
                    rw [scan] at h
                    have hv := (visit_ok hx (d := diagonal) (neighbors diagonal) hq (hk k rfl) (fun o ho => ho)).1
                    exact ih _ r _ hv.inv (fun k' hk' => (after_some hk').1) h
              exact this f (q, false) (s1, added) _ hq (fun k hk => List.mem_of_head? hk) hsc
            dsimp only at h
            split at h
            · exact ih s1 s0 hs1 h
            · cases h; exact hs1
      rw [hg] at hs
      dsimp only at hs
      have h0 := hinv fuel _ s0 h1 hg
      cases final with
      | false => exact ⟨s0, h0, by simpa using hs.symm⟩
      | true => exact ⟨_, (finals_ok hx (both := both) h0 h3).1, by simpa using hs.symm⟩
  obtain ⟨s1, h1, rfl⟩ := key
  have hr : ∀ p ∈ s1.points, 1 ≤ p.1 ∧ 1 ≤ p.2 := fun p hp => ⟨(h1.union p hp).1, (h1.union p hp).2.2.1⟩
  obtain ⟨a, b⟩ := listed (P := links s1) h1.sorted.nodup hr (fun k => Iff.rfl)
  refine ⟨_, line_ok _, ?_, ?_, ?_⟩
  · intro l hd hi
    rw [b]
    exact h1.inter _ _ ((union_iff hx l).1 (.inl hd)) hd.2 hi.2
  · intro l hl
    rw [b] at hl
    exact (union_iff hx l).2 (h1.union _ hl)
  · refine List.pairwise_map.2 (h1.sorted.imp_of_mem ?_)
    intro p q hp hq hpq
    rw [less_iff] at hpq
    have := hr p hp
    have := hr q hq
    simp only [link]
    omega

/-- **C86** With final steps (and not only for two new words) each word with a link in the union has a link. -/
theorem C86_covered {x : Input} {diagonal : Bool} {S : Link → Prop} (h : Symmetrized x diagonal true false S) {l : Link}
    (hl : Direct x l ∨ Inverse x l) : CoversSource S l.source ∧ CoversTarget S l.target := by
  obtain ⟨T, h1, h2⟩ := h
  rw [if_pos rfl] at h2
  obtain ⟨U, ⟨h2, h3⟩, h4, h5⟩ := h2
  have mono : ∀ {l : Link}, ¬ New U l → ¬ New S l := by
    intro l hn hn'
    apply hn
    rcases hn' with h | h
    · exact .inl fun ⟨k, a, b⟩ => h ⟨k, (chain_sub h4).1 k a, b⟩
    · exact .inr fun ⟨k, a, b⟩ => h ⟨k, (chain_sub h4).1 k a, b⟩
  have : ¬ New S l := by
    rcases hl with hl | hl
    · intro hn
      exact h5 l ⟨hl, by rw [if_neg (by simp)]; exact hn⟩
    · apply mono
      intro hn
      exact h3 l ⟨hl, by rw [if_neg (by simp)]; exact hn⟩
  unfold New at this
  exact ⟨Classical.not_not.1 fun h => this (.inl h), Classical.not_not.1 fun h => this (.inr h)⟩

example : ∃ S l, Symmetrized sample true true false S ∧ Inverse sample l ∧ ¬ Direct sample l := by
  have hx : Proper sample := by
    constructor
    · intro j h1 h2
      have h2 : j ≤ 3 := h2
      have : j = 1 ∨ j = 2 ∨ j = 3 := by omega
      rcases this with rfl | rfl | rfl <;> decide
    · intro j h1 h2
      have h2 : j ≤ 4 := h2
      have : j = 1 ∨ j = 2 ∨ j = 3 ∨ j = 4 := by omega
      rcases this with rfl | rfl | rfl | rfl <;> decide
  obtain ⟨n, h⟩ := C86_grow hx true true false
  obtain ⟨s, ls, _, _, _, h⟩ := h n (Nat.le_refl _)
  exact ⟨_, ⟨2, 3⟩, h, ⟨by decide, by decide⟩, by unfold Direct; decide⟩

end Verif.Symal
