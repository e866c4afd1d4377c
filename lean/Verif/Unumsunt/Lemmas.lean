import Verif.Unumsunt.Spec
import Verif.Annot.Lemmas
import Verif.ListAux
import Mathlib.Data.List.Forall2
set_option linter.unusedSimpArgs false
set_option linter.unusedVariables false

namespace Verif.Unumsunt
open Verif Verif.Annot
open Verif.Server (ascii)

/-! ### The same with abstract items -/

def aAssign (x : AItem) (arg whole value : Str) : AItem :=
  if arg = catMarker then
    if whole.head? = some 36 then { x with cat := shows x value.tail } else { x with cat := value }
  else x.put arg (meaning x value)

def aCommand (x : AItem) (c : Str × Str) : AItem × List AItem :=
  match alternatives c.2 with
  | [] => (x, [])
  | v :: vs => (aAssign x c.1 c.2 v, vs.map (aAssign (aAssign x c.1 c.2 v) c.1 c.2))

def aCommands (x : AItem) : List (Str × Str) → AItem × List AItem
  | [] => (x, [])
  | c :: cs => ((aCommands (aCommand x c).1 cs).1, (aCommand x c).2 ++ (aCommands (aCommand x c).1 cs).2)

def aVisit (r : Rule) : Option AItem → Option AItem × List AItem
  | none => (none, [])
  | some x => if Fits r x then (if r.isSkip then none else some (aCommands x r.commands).1, (aCommands x r.commands).2) else (some x, [])

def aLoop (r : Rule) : Nat → List (Option AItem) → List (Option AItem) → Option (List (Option AItem))
  | _, done, [] => some done
  | 0, _, _ :: _ => none
  | fuel + 1, done, s :: todo => aLoop r fuel (done ++ [(aVisit r s).1]) (todo ++ (aVisit r s).2.map some)

/-! ### The state of the manager -/

/-- The manager has room for the attributes `U`. -/
structure MOk (U m : List Str) : Prop where
  nodup : m.Nodup
  sub : ∀ a ∈ m, a ∈ U
  size : U.length ≤ 128

theorem MOk.length {U m} (h : MOk U m) : m.length ≤ maxAttrs := Nat.le_trans (nodup_length_le' h.nodup h.sub) h.size

/-- Going from a manager to a later one. -/
structure Later (U m m' : List Str) : Prop where
  ok : MOk U m'
  keeps : ∀ it x, Rep m it x → Rep m' it x

theorem Later.refl {U m} (h : MOk U m) : Later U m m := ⟨h, fun _ _ r => r⟩

theorem Later.trans {U m m' m''} (h : Later U m m') (k : Later U m' m'') : Later U m m'' :=
  ⟨k.ok, fun it x r => k.keeps it x (h.keeps it x r)⟩

theorem MOk.enter {U m} (h : MOk U m) {a : Str} (ha : a ∈ U) : Later U m (enter m a) := by
  refine ⟨⟨enter_nodup h.nodup a, ?_, h.size⟩, fun it x r => r.enter a⟩
  intro b hb
  rw [enter_eq] at hb
  split at hb
  · exact h.sub b hb
  · simp only [List.mem_append, List.mem_singleton] at hb
    rcases hb with hb | rfl
    · exact h.sub b hb
    · exact ha

theorem put_rep {U m it x} (h : MOk U m) (hr : Rep m it x) {a : Str} (ha : a ∈ U) (v : ZVal) :
    ∃ m' it', put (m, it) a v = .ok (m', it') ∧ Later U m m' ∧ Rep m' it' (x.put a v) := by
  have hl := h.enter ha
  obtain ⟨it', h1, h2⟩ := setValue_rep hr h.nodup a v hl.ok.length
  exact ⟨_, it', by simp [put, h1, orFail], hl, h2⟩

theorem getValueAsString_rep {U m it x} (h : MOk U m) (hr : Rep m it x) (a : Str) :
    getValueAsString m it a = some (shows x a) := by
  simp [getValueAsString, getValue_rep hr h.length, shows]

theorem conditionsOk_rep {U m it x} (h : MOk U m) (hr : Rep m it x) (cs : List (Str × Str)) :
    conditionsOk m it cs = .ok (decide (∀ c ∈ cs, Holds x c)) := by
  induction cs with
  | nil => simp [conditionsOk]
  | cons c cs ih =>
    obtain ⟨a, v⟩ := c
    simp only [conditionsOk]
    by_cases ha : a = catMarker
    · rw [if_pos ha]
      have ha' : a = ascii "CAT" := ha
      by_cases hv : v = it.cat
      · have : Holds x (a, v) := by simp [Holds, ha', hv, hr.cat]
        rw [if_neg (by simp [hv]), ih]
        congr 1
        simp [this]
      · rw [if_pos hv]
        have : ¬ Holds x (a, v) := by simp [Holds, ha']; rw [← hr.cat]; exact fun e => hv e.symm
        congr 1
        simp [this]
    · rw [if_neg ha, getValueAsString_rep h hr]
      have ha' : ¬ a = ascii "CAT" := ha
      simp only [orFail, bind, Except.bind]
      by_cases hv : shows x a = v
      · have : Holds x (a, v) := by simp [Holds, ha', hv]
        rw [if_neg (by simp [hv]), ih]
        congr 1
        simp [this]
      · rw [if_pos hv]
        have : ¬ Holds x (a, v) := by simp [Holds, ha', hv]
        congr 1
        simp [this]

theorem satisfied_rep {U m it x} (h : MOk U m) (hr : Rep m it x) (r : Rule) :
    satisfied r m it = .ok (decide (Fits r x)) := by
  have hw : wordsOk r it = decide (r.words = [] ∨ x.text.takeWhile (· ≠ 43) ∈ r.words) := by
    have hb : beforePlus it.text = x.text.takeWhile (· ≠ 43) := by
      rw [hr.text]; unfold beforePlus; congr 1; funext c
      by_cases e : c = 43 <;> simp [e]
    simp only [wordsOk, hb]
    cases e : r.words with
    | nil => simp
    | cons w ws => simp
  unfold satisfied
  rw [hw]
  by_cases h1 : r.words = [] ∨ x.text.takeWhile (· ≠ 43) ∈ r.words
  · simp only [h1, decide_true, if_true, conditionsOk_rep h hr, Fits, true_and]
  · simp only [h1, decide_false, Bool.false_eq_true, if_false, Fits, false_and]

/-- The command does not take a reference out of an empty alternative. -/
def SoundCmd (c : Str × Str) : Prop := c.1 = catMarker → c.2.head? = some 36 → [] ∉ alternatives c.2

theorem assign_rep {U m it x} (h : MOk U m) (hr : Rep m it x) {arg whole value : Str} (ha : arg ≠ catMarker → arg ∈ U)
    (hs : arg = catMarker → whole.head? = some 36 → value ≠ []) :
    ∃ m' it', assign (m, it) arg whole value = .ok (m', it') ∧ Later U m m' ∧ Rep m' it' (aAssign x arg whole value) := by
  unfold assign aAssign
  by_cases hc : arg = catMarker
  · simp only [if_pos hc]
    by_cases hd : whole.head? = some 36
    · simp only [if_pos hd]
      cases value with
      | nil => exact absurd rfl (hs hc hd)
      | cons b value =>
        refine ⟨m, _, ?_, Later.refl h, hr.withCat _⟩
        simp [substr1, getValueAsString_rep h hr, orFail, bind, Except.bind, pure, Except.pure]
    · simp only [if_neg hd]
      exact ⟨m, _, rfl, Later.refl h, hr.withCat _⟩
  · simp only [if_neg hc]
    have hU := ha hc
    unfold meaning
    by_cases hd : value.head? = some 36
    · cases value with
      | nil => simp at hd
      | cons b value =>
        obtain ⟨m', it', h1, h2, h3⟩ := put_rep h hr hU ((x.val value).getD .null)
        refine ⟨m', it', ?_, h2, by simpa [hd] using h3⟩
        simp only [hd, if_true, substr1, getValue_rep hr h.length, orFail, bind, Except.bind]
        exact h1
    · simp only [if_neg hd]
      by_cases h0 : value = ascii "0"
      · simp only [if_pos h0]; exact put_rep h hr hU _
      · simp only [if_neg h0]
        by_cases h1 : value = ascii "-1"
        · simp only [if_pos h1]; exact put_rep h hr hU _
        · simp only [if_neg h1]; exact put_rep h hr hU _

theorem forall2_later {U m m'} (h : Later U m m') {its : List Item} {xs : List AItem} (hr : List.Forall₂ (Rep m) its xs) :
    List.Forall₂ (Rep m') its xs := hr.imp (fun it x r => h.keeps it x r)

theorem copies_rep {U it x arg whole} (ha : arg ≠ catMarker → arg ∈ U) : ∀ (vs : List Str) {m}, MOk U m → Rep m it x →
    (∀ v ∈ vs, arg = catMarker → whole.head? = some 36 → v ≠ []) →
    ∃ m' its, copies m it arg whole vs = .ok (m', its) ∧ Later U m m' ∧ List.Forall₂ (Rep m') its (vs.map (aAssign x arg whole)) := by
  intro vs
  induction vs with
  | nil => intro m h hr hs; exact ⟨m, [], rfl, Later.refl h, List.Forall₂.nil⟩
  | cons v vs ih =>
    intro m h hr hs
    obtain ⟨m', it', h1, h2, h3⟩ := assign_rep h hr ha (hs v (by simp))
    obtain ⟨m'', its, k1, k2, k3⟩ := ih h2.ok (h2.keeps _ _ hr) (fun w hw => hs w (by simp [hw]))
    exact ⟨m'', it' :: its, by simp [copies, h1, k1, bind, Except.bind, pure, Except.pure], h2.trans k2,
      List.Forall₂.cons (k2.keeps _ _ h3) k3⟩

theorem command_rep {U m it x} (h : MOk U m) (hr : Rep m it x) (c : Str × Str) (ha : c.1 ≠ catMarker → c.1 ∈ U) (hs : SoundCmd c) :
    ∃ m' it' its, command (m, it) c = .ok ((m', it'), its) ∧ Later U m m' ∧ Rep m' it' (aCommand x c).1 ∧
      List.Forall₂ (Rep m') its (aCommand x c).2 := by
  unfold command aCommand
  cases e : alternatives c.2 with
  | nil => exact ⟨m, it, [], rfl, Later.refl h, hr, List.Forall₂.nil⟩
  | cons v vs =>
    have hs' : ∀ w ∈ v :: vs, c.1 = catMarker → c.2.head? = some 36 → w ≠ [] := by
      intro w hw h1 h2 h3
      exact hs h1 h2 (by rw [e, ← h3]; exact hw)
    obtain ⟨m', it', h1, h2, h3⟩ := assign_rep (whole := c.2) (value := v) h hr ha (hs' v (by simp))
    obtain ⟨m'', its, k1, k2, k3⟩ := copies_rep (whole := c.2) ha vs h2.ok h3 (fun w hw => hs' w (by simp [hw]))
    exact ⟨m'', it', its, by simp [h1, k1, bind, Except.bind, pure, Except.pure], h2.trans k2, k2.keeps _ _ h3, k3⟩

theorem commands_rep {U} : ∀ (cs : List (Str × Str)) {m it x}, MOk U m → Rep m it x →
    (∀ c ∈ cs, c.1 ≠ catMarker → c.1 ∈ U) → (∀ c ∈ cs, SoundCmd c) →
    ∃ m' it' its, commands (m, it) cs = .ok ((m', it'), its) ∧ Later U m m' ∧ Rep m' it' (aCommands x cs).1 ∧
      List.Forall₂ (Rep m') its (aCommands x cs).2 := by
  intro cs
  induction cs with
  | nil => intro m it x h hr _ _; exact ⟨m, it, [], rfl, Later.refl h, hr, List.Forall₂.nil⟩
  | cons c cs ih =>
    intro m it x h hr ha hs
    obtain ⟨m', it', its, h1, h2, h3, h4⟩ := command_rep h hr c (ha c (by simp)) (hs c (by simp))
    obtain ⟨m'', it'', its', k1, k2, k3, k4⟩ := ih h2.ok h3 (fun c hc => ha c (by simp [hc])) (fun c hc => hs c (by simp [hc]))
    refine ⟨m'', it'', its ++ its', by simp [commands, h1, k1, bind, Except.bind, pure, Except.pure], h2.trans k2, k3, ?_⟩
    exact List.rel_append (forall2_later k2 h4) k4

/-- A slot represents an abstract slot. -/
def SlotRep (m : List Str) : Option Item → Option AItem → Prop
  | none, none => True
  | some it, some x => Rep m it x
  | _, _ => False

theorem SlotRep.later {U m m'} (h : Later U m m') {s a} (hr : SlotRep m s a) : SlotRep m' s a := by
  cases s <;> cases a <;> simp only [SlotRep] at hr ⊢
  exact h.keeps _ _ hr

/-- What is needed of a rule. -/
structure ROk (U : List Str) (r : Rule) : Prop where
  attrs : ∀ c ∈ r.commands, c.1 ≠ catMarker → c.1 ∈ U
  sound : ∀ c ∈ r.commands, SoundCmd c

theorem visit_rep {U m r} (h : MOk U m) (hro : ROk U r) {s a} (hr : SlotRep m s a) :
    ∃ m' s' its, visit r m s = .ok (m', s', its) ∧ Later U m m' ∧ SlotRep m' s' (aVisit r a).1 ∧ List.Forall₂ (Rep m') its (aVisit r a).2 := by
  cases s with
  | none =>
    cases a with
    | none => exact ⟨m, none, [], rfl, Later.refl h, trivial, List.Forall₂.nil⟩
    | some x => exact absurd hr (by simp [SlotRep])
  | some it =>
    cases a with
    | none => exact absurd hr (by simp [SlotRep])
    | some x =>
      have hr : Rep m it x := hr
      simp only [visit, satisfied_rep h hr, bind, Except.bind, aVisit]
      by_cases hf : Fits r x
      · obtain ⟨m', it', its, h1, h2, h3, h4⟩ := commands_rep r.commands h hr hro.attrs hro.sound
        simp only [hf, decide_true, if_true, h1, pure, Except.pure]
        refine ⟨m', _, its, rfl, h2, ?_, h4⟩
        cases r.isSkip
        · exact h3
        · trivial
      · simp only [hf, decide_false, Bool.false_eq_true, if_false, pure, Except.pure]
        exact ⟨m, some it, [], rfl, Later.refl h, hr, List.Forall₂.nil⟩

theorem map_some_rep {m} {its : List Item} {xs : List AItem} (h : List.Forall₂ (Rep m) its xs) :
    List.Forall₂ (SlotRep m) (its.map some) (xs.map some) := by
  induction h with
  | nil => exact List.Forall₂.nil
  | cons h _ ih => exact List.Forall₂.cons h ih

theorem applyLoop_rep {U r} (hro : ROk U r) : ∀ (fuel : Nat) {m done todo adone atodo}, MOk U m →
    List.Forall₂ (SlotRep m) done adone → List.Forall₂ (SlotRep m) todo atodo →
    (aLoop r fuel adone atodo = none ∧ applyLoop r fuel m done todo = .error .fuel) ∨
    (∃ res m' items, aLoop r fuel adone atodo = some res ∧ applyLoop r fuel m done todo = .ok (m', items) ∧ Later U m m' ∧
      List.Forall₂ (SlotRep m') items res) := by
  intro fuel
  induction fuel with
  | zero =>
    intro m done todo adone atodo h hd ht
    cases ht with
    | nil => right; exact ⟨adone, m, done, by simp [aLoop], by simp [applyLoop], Later.refl h, hd⟩
    | cons h1 h2 => left; simp [aLoop, applyLoop]
  | succ fuel ih =>
    intro m done todo adone atodo h hd ht
    cases ht with
    | nil => right; exact ⟨adone, m, done, by simp [aLoop], by simp [applyLoop], Later.refl h, hd⟩
    | cons h1 h2 =>
      obtain ⟨m', s', its, v1, v2, v3, v4⟩ := visit_rep h hro h1
      simp only [aLoop, applyLoop, v1, bind, Except.bind]
      have hd' := List.rel_append (hd.imp (fun _ _ r => SlotRep.later v2 r)) (List.Forall₂.cons v3 List.Forall₂.nil)
      have ht' := List.rel_append (h2.imp (fun _ _ r => SlotRep.later v2 r)) (map_some_rep v4)
      rcases ih v2.ok hd' ht' with ⟨e1, e2⟩ | ⟨res, m'', items, e1, e2, e3, e4⟩
      · left; exact ⟨e1, e2⟩
      · right; exact ⟨res, m'', items, e1, e2, v2.trans e3, e4⟩

/-! ### Alternatives -/

theorem alternatives_ne (v : Str) : alternatives v ≠ [] := by
  cases v with
  | nil => simp [alternatives]
  | cons c v =>
    simp only [alternatives]
    split
    · simp
    · split <;> simp

theorem alternatives_plain {v : Str} (h : 124 ∉ v) : alternatives v = [v] := by
  induction v with
  | nil => rfl
  | cons c v ih =>
    simp only [List.mem_cons, not_or] at h
    simp only [alternatives, ih h.2]
    rw [if_neg (fun e => h.1 e.symm)]

theorem alternatives_append {w : Str} (h : 124 ∉ w) (v : Str) : alternatives (w ++ 124 :: v) = w :: alternatives v := by
  induction w with
  | nil =>
    simp only [List.nil_append, alternatives]
    cases e : alternatives v with
    | nil => exact absurd e (alternatives_ne v)
    | cons a as => simp
  | cons c w ih =>
    simp only [List.mem_cons, not_or] at h
    simp only [List.cons_append, alternatives, ih h.2]
    rw [if_neg (fun e => h.1 e.symm)]

theorem alternatives_of {v : Str} {vs : List Str} (h : Alternatives v vs) : alternatives v = vs := by
  obtain ⟨h1, h2, h3⟩ := h
  subst h3
  induction vs with
  | nil => exact absurd rfl h1
  | cons w vs ih =>
    cases vs with
    | nil => simp [List.intercalate]; exact alternatives_plain (h2 w (by simp))
    | cons u us =>
      have := ih (by simp) (fun x hx => h2 x (by simp [hx]))
      have e : [124].intercalate (w :: u :: us) = w ++ 124 :: [124].intercalate (u :: us) := by
        simp [List.intercalate, List.intersperse]
      rw [e, alternatives_append (h2 w (by simp)), this]

theorem alternatives_two {v : Str} (h : 124 ∈ v) : ∃ a b t, alternatives v = a :: b :: t := by
  induction v with
  | nil => simp at h
  | cons c v ih =>
    simp only [alternatives]
    cases e : alternatives v with
    | nil => exact absurd e (alternatives_ne v)
    | cons w ws =>
      simp only
      by_cases hc : c = 124
      · rw [if_pos hc]; exact ⟨[], w, ws, rfl⟩
      · rw [if_neg hc]
        have hm : 124 ∈ v := by
          rcases List.mem_cons.1 h with h | h
          · exact absurd h.symm hc
          · exact h
        obtain ⟨a, b, t, hab⟩ := ih hm
        rw [hab] at e
        cases e
        exact ⟨_, b, t, rfl⟩

/-! ### Abstract results -/

theorem aCommand_plain {x : AItem} {c : Str × Str} (h : Plain c) : aCommand x c = (obey x c, []) := by
  simp only [aCommand, alternatives_plain h, List.map_nil, aAssign, obey]
  have : catMarker = ascii "CAT" := rfl
  rw [this]
  by_cases h1 : c.1 = ascii "CAT"
  · simp only [if_pos h1]
    by_cases h2 : c.2.head? = some 36
    · simp only [if_pos h2]
    · simp only [if_neg h2]
  · simp only [if_neg h1]

theorem aCommands_plain {cs : List (Str × Str)} (h : ∀ c ∈ cs, Plain c) : ∀ x, aCommands x cs = (obeyAll x cs, []) := by
  induction cs with
  | nil => intro x; rfl
  | cons c cs ih =>
    intro x
    simp only [aCommands, aCommand_plain (h c (by simp)), ih (fun c hc => h c (by simp [hc])), obeyAll, List.foldl_cons, List.append_nil]

theorem aCommands_append (as bs : List (Str × Str)) : ∀ x, aCommands x (as ++ bs) =
    ((aCommands (aCommands x as).1 bs).1, (aCommands x as).2 ++ (aCommands (aCommands x as).1 bs).2) := by
  induction as with
  | nil => intro x; simp [aCommands]
  | cons c as ih => intro x; simp [aCommands, ih]

theorem soundCmd_plain {c : Str × Str} (h : Plain c) : SoundCmd c := by
  intro _ h2 h3
  rw [alternatives_plain h] at h3
  simp at h3
  rw [h3] at h2; simp at h2

/-- With slots that give nothing new, the loop goes through them once. -/
theorem aLoop_quiet (r : Rule) : ∀ (todo : List (Option AItem)) (fuel : Nat) (done : List (Option AItem)), todo.length ≤ fuel →
    (∀ s ∈ todo, (aVisit r s).2 = []) → aLoop r fuel done todo = some (done ++ todo.map (fun s => (aVisit r s).1)) := by
  intro todo
  induction todo with
  | nil => intro fuel done _ _; cases fuel <;> simp [aLoop]
  | cons s todo ih =>
    intro fuel done hl hq
    cases fuel with
    | zero => simp at hl
    | succ fuel =>
      simp only [aLoop, hq s (by simp), List.map_nil, List.append_nil]
      rw [ih fuel _ (by simpa using hl) (fun s hs => hq s (by simp [hs]))]
      simp

/-- If what is new is quiet, it is put at the end. -/
theorem aLoop_copies (r : Rule) : ∀ (todo : List (Option AItem)) (fuel : Nat) (done new : List (Option AItem)),
    todo.length + new.length + (todo.flatMap (fun s => (aVisit r s).2)).length ≤ fuel →
    (∀ s ∈ new, (aVisit r s).2 = []) →
    (∀ s ∈ todo, ∀ x ∈ (aVisit r s).2, (aVisit r (some x)).2 = []) →
    aLoop r fuel done (todo ++ new) = some (done ++ todo.map (fun s => (aVisit r s).1) ++ new.map (fun s => (aVisit r s).1) ++
      (todo.flatMap (fun s => (aVisit r s).2)).map (fun x => (aVisit r (some x)).1)) := by
  intro todo
  induction todo with
  | nil =>
    intro fuel done new hl hn _
    simp only [List.nil_append, List.map_nil, List.flatMap_nil, List.append_nil]
    exact aLoop_quiet r new fuel done (by simpa using hl) hn
  | cons s todo ih =>
    intro fuel done new hl hn hc
    cases fuel with
    | zero => simp at hl
    | succ fuel =>
      simp only [List.cons_append, aLoop]
      rw [List.append_assoc, ih fuel _ (new ++ (aVisit r s).2.map some)]
      · simp [List.map_append, Function.comp_def]
      · simp only [List.length_cons, List.flatMap_cons, List.length_append, List.length_map] at hl ⊢
        omega
      · intro t ht
        simp only [List.mem_append, List.mem_map] at ht
        rcases ht with ht | ⟨x, hx, rfl⟩
        · exact hn t ht
        · exact hc s (by simp) x hx
      · exact fun t ht => hc t (by simp [ht])

/-- If every slot of a kind gives a new slot of that kind, the loop never ends. -/
theorem aLoop_endless (r : Rule) (P : AItem → Prop) (hP : ∀ x, P x → ∃ y ∈ (aVisit r (some x)).2, P y) :
    ∀ (fuel : Nat) (done todo : List (Option AItem)), (∃ x, some x ∈ todo ∧ P x) → aLoop r fuel done todo = none := by
  intro fuel
  induction fuel with
  | zero =>
    rintro done todo ⟨x, hx, _⟩
    cases todo with
    | nil => simp at hx
    | cons s todo => simp [aLoop]
  | succ fuel ih =>
    rintro done todo ⟨x, hx, hp⟩
    cases todo with
    | nil => simp at hx
    | cons s todo =>
      simp only [aLoop]
      apply ih
      rcases List.mem_cons.1 hx with e | e
      · obtain ⟨y, hy, hpy⟩ := hP x hp
        rw [← e]
        exact ⟨y, by simp [hy], hpy⟩
      · exact ⟨x, by simp [e], hp⟩

/-! ### What commands leave as it is -/

theorem aAssign_text (x : AItem) (a w v : Str) : (aAssign x a w v).text = x.text := by
  unfold aAssign; split
  · split <;> rfl
  · rfl

theorem aAssign_cat (x : AItem) {a : Str} (w v : Str) (h : a ≠ catMarker) : (aAssign x a w v).cat = x.cat := by
  unfold aAssign; rw [if_neg h]; rfl

theorem aAssign_val (x : AItem) {a : Str} (w v : Str) {b : Str} (h : b ≠ a) : (aAssign x a w v).val b = x.val b := by
  unfold aAssign; split
  · split <;> rfl
  · simp [AItem.put, h]

/-- Two items agree for a rule: as to text and what its conditions ask for. -/
def Agree (r : Rule) (x y : AItem) : Prop :=
  x.text = y.text ∧ ∀ c ∈ r.conditions, (c.1 = ascii "CAT" → x.cat = y.cat) ∧ (c.1 ≠ ascii "CAT" → x.val c.1 = y.val c.1)

theorem Agree.refl (r : Rule) (x : AItem) : Agree r x x := ⟨rfl, fun _ _ => ⟨fun _ => rfl, fun _ => rfl⟩⟩

theorem Agree.trans {r x y z} (h : Agree r x y) (k : Agree r y z) : Agree r x z :=
  ⟨h.1.trans k.1, fun c hc => ⟨fun e => ((h.2 c hc).1 e).trans ((k.2 c hc).1 e), fun e => ((h.2 c hc).2 e).trans ((k.2 c hc).2 e)⟩⟩

theorem Agree.fits {r x y} (h : Agree r x y) (hf : Fits r x) : Fits r y := by
  refine ⟨by rw [← h.1]; exact hf.1, ?_⟩
  intro c hc
  have := hf.2 c hc
  obtain ⟨h1, h2⟩ := h.2 c hc
  unfold Holds at this ⊢
  by_cases e : c.1 = ascii "CAT"
  · rw [if_pos e] at this ⊢; rw [← h1 e]; exact this
  · rw [if_neg e] at this ⊢; unfold shows at this ⊢; rw [← h2 e]; exact this

theorem aAssign_agree {r : Rule} {a : Str} (h : ∀ c ∈ r.conditions, c.1 ≠ a) (x : AItem) (w v : Str) : Agree r x (aAssign x a w v) := by
  refine ⟨(aAssign_text x a w v).symm, fun c hc => ⟨?_, ?_⟩⟩
  · intro e
    exact (aAssign_cat x w v (fun e' => h c hc (by rw [e, e']; rfl))).symm
  · intro _
    exact (aAssign_val x w v (h c hc)).symm

theorem aCommands_agree {r : Rule} : ∀ (cs : List (Str × Str)), (∀ d ∈ cs, ∀ c ∈ r.conditions, c.1 ≠ d.1) → ∀ x,
    Agree r x (aCommands x cs).1 ∧ ∀ y ∈ (aCommands x cs).2, Agree r x y := by
  intro cs
  induction cs with
  | nil => intro _ x; exact ⟨Agree.refl r x, by simp [aCommands]⟩
  | cons d cs ih =>
    intro h x
    have hd := h d (by simp)
    have h1 : Agree r x (aCommand x d).1 ∧ ∀ y ∈ (aCommand x d).2, Agree r x y := by
      unfold aCommand
      split
      · exact ⟨Agree.refl r x, by simp⟩
      · refine ⟨aAssign_agree hd _ _ _, ?_⟩
        intro y hy
        simp only [List.mem_map] at hy
        obtain ⟨v, _, rfl⟩ := hy
        exact (aAssign_agree hd _ _ _).trans (aAssign_agree hd _ _ _)
    have h2 := ih (fun e he => h e (by simp [he])) (aCommand x d).1
    simp only [aCommands]
    refine ⟨h1.1.trans h2.1, ?_⟩
    intro y hy
    rcases List.mem_append.1 hy with hy | hy
    · exact h1.2 y hy
    · exact h1.1.trans (h2.2 y hy)

theorem aCommands_new {cs : List (Str × Str)} (h : ∃ c ∈ cs, 124 ∈ c.2) : ∀ x, (aCommands x cs).2 ≠ [] := by
  induction cs with
  | nil => simp at h
  | cons d cs ih =>
    intro x
    simp only [aCommands]
    by_cases hd : 124 ∈ d.2
    · obtain ⟨a, b, t, e⟩ := alternatives_two hd
      have : (aCommand x d).2 ≠ [] := by simp [aCommand, e]
      simp [this]
    · have : ∃ c ∈ cs, 124 ∈ c.2 := by
        obtain ⟨c, hc, hv⟩ := h
        rcases List.mem_cons.1 hc with rfl | hc
        · exact absurd hv hd
        · exact ⟨c, hc, hv⟩
      simp [ih this]

/-! ### Conversion -/

theorem find_lookup (l : List (Str × Str)) (k : Str) : find l k = l.lookup k := by
  induction l with
  | nil => rfl
  | cons e l ih =>
    unfold find at ih ⊢
    simp only [List.find?_cons, List.lookup]
    by_cases h : e.1 = k
    · have : (k == e.1) = true := by simp [h]
      simp [h]
    · have : (k == e.1) = false := by simp; exact fun e' => h e'.symm
      simp [h, this, ih]

theorem convertValues_rep {U} (maps : Maps) : ∀ (avs : List (Str × ZVal)) {m it x}, MOk U m → Rep m it x →
    (∀ av ∈ avs, mapped maps.attrs av.1 ∈ U) →
    ∃ m' it', convertValues maps (m, it) avs = .ok (m', it') ∧ Later U m m' ∧
      Rep m' it' (avs.foldl (fun x av => x.put (mapped maps.attrs av.1) (mappedValue maps.vals av.2)) x) := by
  intro avs
  induction avs with
  | nil => intro m it x h hr _; exact ⟨m, it, rfl, Later.refl h, hr⟩
  | cons av avs ih =>
    intro m it x h hr hU
    obtain ⟨a, v⟩ := av
    obtain ⟨m', it', h1, h2, h3⟩ := put_rep h hr (hU (a, v) (by simp)) (mappedValue maps.vals v)
    obtain ⟨m'', it'', k1, k2, k3⟩ := ih h2.ok h3 (fun av hav => hU av (by simp [hav]))
    refine ⟨m'', it'', ?_, h2.trans k2, k3⟩
    have : convertValues maps (m, it) ((a, v) :: avs) =
        (put (m, it) (mapped maps.attrs a) (mappedValue maps.vals v)).bind (fun mi => convertValues maps mi avs) := by
      simp only [convertValues, find_lookup, mapped, mappedValue, bind]
      cases maps.attrs.lookup a <;> cases maps.vals.lookup (zvalueToString v) <;> rfl
    rw [this, h1]
    exact k1

end Verif.Unumsunt
