import Verif.Pipeline.Aliaser
import Mathlib.Data.List.Induction

/-!
C57: names that stand for processors.
-/
set_option linter.unusedSimpArgs false
set_option linter.unusedVariables false
namespace Verif.Pipeline

/-- `a` was declared to stand for `d`. -/
def Stands (ops : List AliasOp) (a d : Str) : Prop := AliasOp.add a d ∈ ops

/-- `a` was declared to be an alias. -/
def Declared (ops : List AliasOp) (a : Str) : Prop := AliasOp.void a ∈ ops ∨ ∃ d, AliasOp.add a d ∈ ops

/-- `d` is reached from `a` in `k` steps. -/
inductive Chain (ops : List AliasOp) : Nat → Str → Str → Prop
  | refl {a} : Chain ops 0 a a
  | step {k a b c} : Stands ops a b → Chain ops k b c → Chain ops (k + 1) a c

theorem mem_insertSet {x y : Str} {s : List Str} : y ∈ insertSet x s ↔ y = x ∨ y ∈ s := by
  unfold insertSet
  split
  · constructor
    · exact Or.inr
    · rintro (rfl | h)
      · assumption
      · exact h
  · simp [or_comm]

theorem after_snoc (ops : List AliasOp) (o : AliasOp) : Aliaser.after (ops ++ [o]) = (Aliaser.after ops).step o := by
  simp [Aliaser.after]

/-- What the maps say after the calls. -/
theorem after_spec (ops : List AliasOp) : (∀ a, (Aliaser.after ops).isAlias a = true ↔ Declared ops a) ∧
    (∀ a d, d ∈ ((Aliaser.after ops).dests a).getD [] ↔ Stands ops a d) ∧
    ∀ a d, a ∈ (Aliaser.after ops).sources d ↔ Stands ops a d := by
  induction ops using List.reverseRecOn with
  | nil => simp [Aliaser.after, Aliaser.isAlias, Declared, Stands]
  | append_singleton ops o ih =>
    obtain ⟨h1, h2, h3⟩ := ih
    rw [after_snoc]
    cases o with
    | add x y =>
      refine ⟨?_, ?_, ?_⟩
      · intro a
        simp only [Aliaser.step, Aliaser.addAlias, Aliaser.isAlias]
        by_cases ha : a = x
        · subst ha
          simp [Declared]
        · simp only [if_neg ha]
          rw [← Aliaser.isAlias, h1]
          simp [Declared, ha]
      · intro a d
        simp only [Aliaser.step, Aliaser.addAlias]
        by_cases ha : a = x
        · subst ha
          simp [mem_insertSet, h2, Stands, or_comm]
        · simp only [if_neg ha, h2]
          simp [Stands, ha]
      · intro a d
        simp only [Aliaser.step, Aliaser.addAlias]
        by_cases hd : d = y
        · subst hd
          simp [mem_insertSet, h3, Stands, or_comm]
        · simp only [if_neg hd, h3]
          simp [Stands, hd]
    | void x =>
      refine ⟨?_, ?_, ?_⟩
      · intro a
        simp only [Aliaser.step, Aliaser.addVoidAlias, Aliaser.isAlias]
        have := h1 a
        simp only [Aliaser.isAlias] at this
        by_cases ha : a = x
        · subst ha
          by_cases hb : ((Aliaser.after ops).dests a).isSome = false
          · simp [hb, Declared]
          · simp only [hb, and_false, if_false]
            simp only [Bool.not_eq_false] at hb
            simp [hb, Declared]
        · simp only [ha, false_and, if_false, this]
          simp [Declared, ha]
      · intro a d
        simp only [Aliaser.step, Aliaser.addVoidAlias]
        split
        · rename_i hc
          obtain ⟨rfl, hc⟩ := hc
          have := h2 a d
          simp only [Aliaser.isAlias, Option.isSome_eq_false_iff, Option.isNone_iff_eq_none] at hc
          rw [hc] at this
          simpa [Stands] using this
        · rw [h2]; simp [Stands]
      · intro a d
        simp only [Aliaser.step, Aliaser.addVoidAlias, h3]
        simp [Stands]

theorem findDests_mem (ops : List AliasOp) (k : Nat) : ∀ (a : Str) (acc : List Str) (x : Str),
    x ∈ (Aliaser.after ops).findDests k a acc ↔ x ∈ acc ∨ (¬ Declared ops x ∧ ∃ j ≤ k, Chain ops j a x) := by
  obtain ⟨h1, h2, _⟩ := after_spec ops
  induction k with
  | zero =>
    intro a acc x
    rw [Aliaser.findDests]
    cases hd : (Aliaser.after ops).dests a with
    | none =>
      have hn : ¬ Declared ops a := by rw [← h1]; simp [Aliaser.isAlias, hd]
      simp only [mem_insertSet]
      constructor
      · rintro (rfl | h)
        · exact Or.inr ⟨hn, 0, Nat.le_refl _, .refl⟩
        · exact Or.inl h
      · rintro (h | ⟨_, j, hj, hc⟩)
        · exact Or.inr h
        · have : j = 0 := by omega
          subst this
          cases hc
          exact Or.inl rfl
    | some ds =>
      have hn : Declared ops a := by rw [← h1]; simp [Aliaser.isAlias, hd]
      simp only
      constructor
      · exact Or.inl
      · rintro (h | ⟨hx, j, hj, hc⟩)
        · exact h
        · have : j = 0 := by omega
          subst this
          cases hc
          exact absurd hn hx
  | succ k ih =>
    have all : ∀ (ds acc : List Str) (x : Str), x ∈ loopDests ((Aliaser.after ops).findDests k) ds acc ↔
        x ∈ acc ∨ (¬ Declared ops x ∧ ∃ d ∈ ds, ∃ j ≤ k, Chain ops j d x) := by
      intro ds
      induction ds with
      | nil => intro acc x; simp [loopDests]
      | cons d ds ihd =>
        intro acc x
        rw [loopDests, ihd, ih]
        constructor
        · rintro ((h | ⟨h, h'⟩) | ⟨h, e, he, h'⟩)
          · exact Or.inl h
          · exact Or.inr ⟨h, d, by simp, h'⟩
          · exact Or.inr ⟨h, e, by simp [he], h'⟩
        · rintro (h | ⟨h, e, he, h'⟩)
          · exact Or.inl (Or.inl h)
          · rcases List.mem_cons.1 he with rfl | he
            · exact Or.inl (Or.inr ⟨h, h'⟩)
            · exact Or.inr ⟨h, e, he, h'⟩
    intro a acc x
    rw [Aliaser.findDests]
    cases hd : (Aliaser.after ops).dests a with
    | none =>
      have hn : ¬ Declared ops a := by rw [← h1]; simp [Aliaser.isAlias, hd]
      simp only [mem_insertSet]
      constructor
      · rintro (rfl | h)
        · exact Or.inr ⟨hn, 0, Nat.zero_le _, .refl⟩
        · exact Or.inl h
      · rintro (h | ⟨_, j, hj, hc⟩)
        · exact Or.inr h
        · cases hc with
          | refl => exact Or.inl rfl
          | step hs _ => exact absurd (Or.inr ⟨_, hs⟩) hn
    | some ds =>
      have hn : Declared ops a := by rw [← h1]; simp [Aliaser.isAlias, hd]
      have hds : ∀ d, d ∈ ds ↔ Stands ops a d := by intro d; rw [← h2, hd]; simp
      simp only [all]
      constructor
      · rintro (h | ⟨h, d, hd', j, hj, hc⟩)
        · exact Or.inl h
        · exact Or.inr ⟨h, j + 1, by omega, .step ((hds d).1 hd') hc⟩
      · rintro (h | ⟨h, j, hj, hc⟩)
        · exact Or.inl h
        · cases hc with
          | refl => exact absurd hn h
          | step hs hc => exact Or.inr ⟨h, _, (hds _).2 hs, _, by omega, hc⟩

/-- **C57**: after any declarations, a name stands for exactly the names that are no aliases and are reached from it in at
most five steps.  (Missing: longer chains, see `C57_long_false`.) -/
theorem C57_destinations_partial (ops : List AliasOp) (a x : Str) :
    x ∈ (Aliaser.after ops).destinations a ↔ ¬ Declared ops x ∧ ∃ k ≤ 5, Chain ops k a x := by
  rw [Aliaser.destinations, findDests_mem]
  simp

/-- The declarations have no circle: there is a rank that goes down. -/
def NoCircle (ops : List AliasOp) : Prop := ∃ rank : Str → Nat, ∀ a d, Stands ops a d → rank d < rank a

theorem Chain.snoc {ops : List AliasOp} {k : Nat} {a b c : Str} (h : Chain ops k a b) (hs : Stands ops b c) : Chain ops (k + 1) a c := by
  induction h with
  | refl => exact .step hs .refl
  | step h _ ih => exact .step h (ih hs)

/-- The last step of a chain. -/
theorem Chain.last {ops : List AliasOp} {k : Nat} {a c : Str} (h : Chain ops (k + 1) a c) : ∃ b, Chain ops k a b ∧ Stands ops b c := by
  generalize hk : k + 1 = n at h
  induction h generalizing k with
  | refl => cases hk
  | @step k' a b c hs hc ih =>
    have hk : k = k' := by omega
    subst hk
    cases k with
    | zero => cases hc; exact ⟨a, .refl, hs⟩
    | succ k =>
      obtain ⟨b', h1, h2⟩ := ih rfl
      exact ⟨b', .step hs h1, h2⟩

/-- The depth of what stands above a name. -/
theorem findAliases_mem (ops : List AliasOp) (depth : Str → Nat) (hdep : ∀ a d, Stands ops a d → depth a < depth d) (n : Nat) :
    ∀ (x : Str) (acc : List Str), depth x < n → ∃ r, (Aliaser.after ops).findAliases n x acc = some r ∧
      ∀ y, y ∈ r ↔ y ∈ acc ∨ (Declared ops y ∧ ∃ j, Chain ops j y x) := by
  obtain ⟨h1, _, h3⟩ := after_spec ops
  induction n with
  | zero => intro x acc h; omega
  | succ n ih =>
    have all : ∀ (ds acc : List Str), (∀ d ∈ ds, depth d < n) → ∃ r, loopAliases ((Aliaser.after ops).findAliases n) ds acc = some r ∧
        ∀ y, y ∈ r ↔ y ∈ acc ∨ (Declared ops y ∧ ∃ d ∈ ds, ∃ j, Chain ops j y d) := by
      intro ds
      induction ds with
      | nil => intro acc _; exact ⟨acc, by rw [loopAliases], by simp⟩
      | cons d ds ihd =>
        intro acc hb
        obtain ⟨r, e1, e2⟩ := ih d acc (hb d (by simp))
        obtain ⟨r', e3, e4⟩ := ihd r (fun e he => hb e (by simp [he]))
        refine ⟨r', by rw [loopAliases, e1]; exact e3, ?_⟩
        intro y
        rw [e4, e2]
        constructor
        · rintro ((h | ⟨h, h'⟩) | ⟨h, e, he, h'⟩)
          · exact Or.inl h
          · exact Or.inr ⟨h, d, by simp, h'⟩
          · exact Or.inr ⟨h, e, by simp [he], h'⟩
        · rintro (h | ⟨h, e, he, h'⟩)
          · exact Or.inl (Or.inl h)
          · rcases List.mem_cons.1 he with rfl | he
            · exact Or.inl (Or.inr ⟨h, h'⟩)
            · exact Or.inr ⟨h, e, he, h'⟩
    intro x acc hx
    rw [Aliaser.findAliases]
    obtain ⟨r, e1, e2⟩ := all ((Aliaser.after ops).sources x) (if (Aliaser.after ops).isAlias x then insertSet x acc else acc) (by
      intro d hd
      have := hdep d x ((h3 d x).1 hd)
      omega)
    refine ⟨r, e1, ?_⟩
    intro y
    rw [e2]
    have hself : y ∈ (if (Aliaser.after ops).isAlias x then insertSet x acc else acc) ↔ y ∈ acc ∨ (Declared ops y ∧ y = x) := by
      split
      · rename_i hi
        rw [mem_insertSet]
        constructor
        · rintro (rfl | h)
          · exact Or.inr ⟨(h1 _).1 hi, rfl⟩
          · exact Or.inl h
        · rintro (h | ⟨_, h⟩)
          · exact Or.inr h
          · exact Or.inl h
      · rename_i hi
        constructor
        · exact Or.inl
        · rintro (h | ⟨h, rfl⟩)
          · exact h
          · exact absurd ((h1 _).2 h) hi
    rw [hself]
    constructor
    · rintro ((h | ⟨h, rfl⟩) | ⟨h, d, hd, j, hc⟩)
      · exact Or.inl h
      · exact Or.inr ⟨h, 0, .refl⟩
      · exact Or.inr ⟨h, j + 1, hc.snoc ((h3 d x).1 hd)⟩
    · rintro (h | ⟨h, j, hc⟩)
      · exact Or.inl (Or.inl h)
      · cases j with
        | zero => cases hc; exact Or.inl (Or.inr ⟨h, rfl⟩)
        | succ j =>
          obtain ⟨b, h4, h5⟩ := hc.last
          exact Or.inr ⟨h, b, (h3 b x).2 h5, j, h4⟩

/-- Without a circle there is a depth too: the number of names is finite. -/
theorem depth_of (ops : List AliasOp) (h : NoCircle ops) : ∃ depth : Str → Nat, ∀ a d, Stands ops a d → depth a < depth d := by
  obtain ⟨rank, hr⟩ := h
  obtain ⟨M, hM⟩ : ∃ M, ∀ a d, Stands ops a d → rank a ≤ M := by
    clear hr
    induction ops with
    | nil => exact ⟨0, by simp [Stands]⟩
    | cons o ops ih =>
      obtain ⟨M, hM⟩ := ih
      cases o with
      | add x y =>
        refine ⟨max M (rank x), ?_⟩
        intro a d h
        simp only [Stands, List.mem_cons] at h
        rcases h with h | h
        · cases h; omega
        · have := hM a d h; omega
      | void x =>
        refine ⟨M, ?_⟩
        intro a d h
        simp only [Stands, List.mem_cons] at h
        rcases h with h | h
        · cases h
        · exact hM a d h
  refine ⟨fun x => M - rank x, ?_⟩
  intro a d h
  have := hr a d h
  have := hM a d h
  show M - rank a < M - rank d
  omega

/-- **C57** (the other way): after declarations without a circle, the aliases of a name are exactly the aliases from which
it is reached, in any number of steps.  (Missing: declarations with a circle, see `C57_circle_false`.) -/
theorem C57_aliases_partial (ops : List AliasOp) (h : NoCircle ops) (x : Str) :
    ∃ N, ∀ n ≥ N, ∃ r, (Aliaser.after ops).aliases n x = some r ∧ ∀ y, y ∈ r ↔ Declared ops y ∧ ∃ k, Chain ops k y x := by
  obtain ⟨depth, hd⟩ := depth_of ops h
  refine ⟨depth x + 1, fun n hn => ?_⟩
  obtain ⟨r, h1, h2⟩ := findAliases_mem ops depth hd n x [] (by omega)
  exact ⟨r, h1, by simpa using h2⟩

/-- Declarations as in framework/main_factories_keeper.cpp 96-109: aliases of aliases, and `spell-check` (6) for `spell` (5), which
stands for nothing. -/
example : (Aliaser.after [.add [1] [2], .add [1] [3], .add [3] [4], .void [5], .add [6] [5]]).destinations [1] = [[2], [4]] ∧
    (Aliaser.after [.add [1] [2], .add [1] [3], .add [3] [4], .void [5], .add [6] [5]]).destinations [6] = [] ∧
    (Aliaser.after [.add [1] [2], .add [1] [3], .add [3] [4], .void [5], .add [6] [5]]).aliases 9 [4] = some [[3], [1]] := by
  decide +kernel

/-- These declarations have no circle. -/
example : NoCircle [.add [1] [2], .add [1] [3], .add [3] [4], .void [5], .add [6] [5]] := by
  refine ⟨fun s => if s = [1] then 2 else if s = [3] ∨ s = [6] then 1 else 0, ?_⟩
  intro a d h
  simp only [Stands, List.mem_cons, AliasOp.add.injEq, reduceCtorEq, List.not_mem_nil, or_false, false_or] at h
  rcases h with ⟨rfl, rfl⟩ | ⟨rfl, rfl⟩ | ⟨rfl, rfl⟩ | ⟨rfl, rfl⟩ <;> decide

/-- A chain of six aliases stands for nothing, although its end is reached. -/
theorem C57_long_false : ∃ ops a x, NoCircle ops ∧ ¬ Declared ops x ∧ (∃ k, Chain ops k a x) ∧
    x ∉ (Aliaser.after ops).destinations a := by
  refine ⟨[.add [1] [2], .add [2] [3], .add [3] [4], .add [4] [5], .add [5] [6], .add [6] [7]], [1], [7], ?_, ?_, ⟨6, ?_⟩, by decide +kernel⟩
  · refine ⟨fun s => 10 - (s.headD 0).toNat, ?_⟩
    intro a d h
    simp only [Stands, List.mem_cons, AliasOp.add.injEq, reduceCtorEq, List.not_mem_nil, or_false, false_or] at h
    rcases h with ⟨rfl, rfl⟩ | ⟨rfl, rfl⟩ | ⟨rfl, rfl⟩ | ⟨rfl, rfl⟩ | ⟨rfl, rfl⟩ | ⟨rfl, rfl⟩ <;> decide
  · simp [Declared]
  · refine .step (b := [2]) ?_ (.step (b := [3]) ?_ (.step (b := [4]) ?_ (.step (b := [5]) ?_ (.step (b := [6]) ?_ (.step (b := [7]) ?_ .refl))))) <;>
      simp [Stands]

/-- With a circle the aliases of a name are looked for without end: reaching the limit is only reported. -/
theorem C57_circle_false : ∃ ops x, ∀ n, (Aliaser.after ops).aliases n x = none := by
  refine ⟨[.add [1] [1]], [1], ?_⟩
  have key : ∀ n acc, (Aliaser.after [.add [1] [1]]).findAliases n [1] acc = none := by
    intro n
    induction n with
    | zero => intro acc; rw [Aliaser.findAliases]
    | succ n ih =>
      intro acc
      rw [Aliaser.findAliases, show (Aliaser.after [.add [1] [1]]).sources [1] = [[1]] by decide +kernel, loopAliases, ih]
  exact fun n => key n []

end Verif.Pipeline
