import Verif.Unumsunt.Lemmas
import Verif.Unumsunt.Parse
import Mathlib.Data.List.Induction
set_option linter.unusedSimpArgs false
set_option linter.unusedVariables false

/-! C77–C80: the tagset converter.  Items are given with what they stand for: `Rep m it x` (of the area `Annot`, where it is
shown of all items a program can make) says that the item `it` under the manager `m` has the category, the text and the
attributes of `x`; `SlotRep` says so of slots. -/
namespace Verif.Unumsunt
open Verif Verif.Annot
open Verif.Server (ascii)

theorem seen_of_rep {m : List Str} (hm : m.length ≤ maxAttrs) {s : Option Item} {a : Option AItem} (h : SlotRep m s a) : Seen m s a := by
  cases s <;> cases a <;> simp only [SlotRep, Seen] at h ⊢
  exact ⟨h.cat, h.text, fun a => getValue_rep h hm a, getValues_rep h hm, h.known⟩

theorem mem_targets {cs : List (Str × Str)} {c : Str × Str} (h : c ∈ cs) (hc : c.1 ≠ catMarker) : c.1 ∈ targets cs := by
  simp only [targets, List.mem_filter, List.mem_map]
  exact ⟨⟨c, h, rfl⟩, by simpa [catMarker] using hc⟩

/-! ### C77 -/

theorem apply_plain {U m r} {items : List (Option Item)} {xs : List (Option AItem)} (h : MOk U m) (hU : ∀ c ∈ r.commands, c.1 ≠ catMarker → c.1 ∈ U)
    (hr : List.Forall₂ (SlotRep m) items xs) (hp : ∀ c ∈ r.commands, Plain c) {fuel : Nat} (hf : items.length ≤ fuel) :
    ∃ m' items', apply r fuel m items = .ok (m', items') ∧ Later U m m' ∧ List.Forall₂ (SlotRep m') items' (xs.map (·.bind (use r))) := by
  have hv : ∀ s, aVisit r s = (s.bind (use r), []) := by
    intro s
    cases s with
    | none => rfl
    | some x =>
      simp only [aVisit, aCommands_plain hp, use, Option.bind_some]
      by_cases hx : Fits r x
      · simp only [if_pos hx]
      · simp only [if_neg hx]
  have hq := aLoop_quiet r xs fuel [] (by rw [← hr.length_eq]; exact hf) (fun s _ => by rw [hv])
  rcases applyLoop_rep (r := r) ⟨hU, fun c hc => soundCmd_plain (hp c hc)⟩ fuel h (List.Forall₂.nil) hr with ⟨e1, _⟩ | ⟨res, m', items', e1, e2, e3, e4⟩
  · rw [e1] at hq; cases hq
  · rw [e1] at hq
    cases hq
    refine ⟨m', items', e2, e3, ?_⟩
    simpa [hv] using e4

theorem applyAll_plain {U fuel} : ∀ (rules : List Rule) {m} {items : List (Option Item)} {xs : List (Option AItem)}, MOk U m →
    (∀ r ∈ rules, ∀ c ∈ r.commands, c.1 ≠ catMarker → c.1 ∈ U) → List.Forall₂ (SlotRep m) items xs → (∀ r ∈ rules, ∀ c ∈ r.commands, Plain c) →
    items.length ≤ fuel →
    ∃ m' items', applyAll fuel rules m items = .ok (m', items') ∧ Later U m m' ∧ List.Forall₂ (SlotRep m') items' (xs.map (·.bind (useAll rules))) := by
  intro rules
  induction rules with
  | nil =>
    intro m items xs h _ hr _ _
    refine ⟨m, items, rfl, Later.refl h, ?_⟩
    have : (fun x : Option AItem => x.bind (useAll [])) = id := by
      funext x; cases x <;> rfl
    rw [this, List.map_id]; exact hr
  | cons r rules ih =>
    intro m items xs h hU hr hp hf
    obtain ⟨m', items', h1, h2, h3⟩ := apply_plain h (hU r (by simp)) hr (hp r (by simp)) hf
    have hl : items'.length ≤ fuel := by rw [h3.length_eq, List.length_map, ← hr.length_eq]; exact hf
    obtain ⟨m'', items'', k1, k2, k3⟩ := ih h2.ok (fun r hr => hU r (by simp [hr])) h3 (fun r hr => hp r (by simp [hr])) hl
    refine ⟨m'', items'', ?_, h2.trans k2, ?_⟩
    · simp only [applyAll, h1, bind, Except.bind]; exact k1
    · rw [List.map_map] at k3
      have : ((fun x : Option AItem => x.bind (useAll rules)) ∘ fun x : Option AItem => x.bind (use r)) = fun x : Option AItem => x.bind (useAll (r :: rules)) := by
        funext x; cases x <;> rfl
      rw [this] at k3; exact k3

/-- **C77** Rules without alternatives are used for each item of the vector by itself: applying them comes to an end
without failure (if there is room for their attributes), the items stay where they are, an item to which a rule does not
fit is not changed by it, one to which it fits is changed by its commands in their order, or removed if the rule says so. -/
theorem C77_rules {rules : List Rule} {m : List Str} {items : List (Option Item)} {xs : List (Option AItem)} (hm : m.Nodup)
    (hr : List.Forall₂ (SlotRep m) items xs) (hroom : Room m (rules.flatMap fun r => targets r.commands))
    (hp : ∀ r ∈ rules, ∀ c ∈ r.commands, Plain c) {fuel : Nat} (hf : items.length ≤ fuel) :
    ∃ m' items', applyAll fuel rules m items = .ok (m', items') ∧ List.Forall₂ (Seen m') items' (xs.map (·.bind (useAll rules))) := by
  obtain ⟨U, h1, h2, h3⟩ := hroom
  have hU : ∀ r ∈ rules, ∀ c ∈ r.commands, c.1 ≠ catMarker → c.1 ∈ U := fun r hr c hc hcc =>
    h3 _ (List.mem_flatMap.2 ⟨r, hr, mem_targets hc hcc⟩)
  obtain ⟨m', items', k1, k2, k3⟩ := applyAll_plain rules ⟨hm, h2, h1⟩ hU hr hp hf
  exact ⟨m', items', k1, k3.imp (fun _ _ h => seen_of_rep k2.ok.length h)⟩

/-- Commands none of which has a reference: each attribute gets the last value assigned to it. -/
theorem obeyAll_constants (x : AItem) (cs : List (Str × Str)) (h : ∀ c ∈ cs, c.2.head? ≠ some 36 ∧ c.2 ≠ ascii "0" ∧ c.2 ≠ ascii "-1") :
    (obeyAll x cs).text = x.text ∧
    (obeyAll x cs).cat = (((cs.filter fun c => c.1 = ascii "CAT").getLast?).map (·.2)).getD x.cat ∧
    ∀ a, a ≠ ascii "CAT" →
      (obeyAll x cs).val a = ((((cs.filter fun c => c.1 = a).getLast?).map fun c => ofString c.2)).or (x.val a) := by
  induction cs using List.reverseRecOn with
  | nil => simp [obeyAll]
  | append_singleton cs c ih =>
    obtain ⟨i1, i2, i3⟩ := ih (fun d hd => h d (by simp [hd]))
    obtain ⟨c1, c2, c3⟩ := h c (by simp)
    have he : obeyAll x (cs ++ [c]) = obey (obeyAll x cs) c := by simp [obeyAll]
    rw [he]
    by_cases hc : c.1 = ascii "CAT"
    · simp only [obey, if_pos hc, if_neg c1]
      refine ⟨i1, ?_, ?_⟩
      · simp [List.filter_append, hc]
      · intro a ha
        have : ¬ c.1 = a := fun e => ha (e ▸ hc)
        simpa [List.filter_append, this] using i3 a ha
    · simp only [obey, if_neg hc, AItem.put, meaning, if_neg c1, if_neg c2, if_neg c3]
      refine ⟨i1, ?_, ?_⟩
      · simpa [List.filter_append, hc] using i2
      · intro a ha
        by_cases e : a = c.1
        · simp [List.filter_append, e]
        · have : ¬ c.1 = a := fun e' => e e'.symm
          simpa [List.filter_append, this, e] using i3 a ha

/-- **C77** A rule that fits, with words and numbers for values: afterwards the category is the last one assigned, each
attribute has the last value assigned to it, read as `setValue` reads strings, and the rest is as it was. -/
theorem C77_constants {r : Rule} {m : List Str} {it : Item} {x : AItem} (hm : m.Nodup) (hr : Rep m it x)
    (hroom : Room m (targets r.commands)) (hfit : Fits r x) (hs : r.isSkip = false)
    (hp : ∀ c ∈ r.commands, 124 ∉ c.2 ∧ c.2.head? ≠ some 36 ∧ c.2 ≠ ascii "0" ∧ c.2 ≠ ascii "-1") :
    ∃ m' it', apply r 1 m [some it] = .ok (m', [some it']) ∧ it'.text = x.text ∧
      it'.cat = (((r.commands.filter fun c => c.1 = ascii "CAT").getLast?).map (·.2)).getD x.cat ∧
      ∀ a, a ≠ ascii "CAT" → getValue m' it' a =
        some (match (r.commands.filter fun c => c.1 = a).getLast? with
          | some c => ofString c.2
          | none => (x.val a).getD .null) := by
  obtain ⟨U, h1, h2, h3⟩ := hroom
  obtain ⟨m', items', k1, k2, k3⟩ := apply_plain (r := r) (items := [some it]) (xs := [some x]) (U := U) ⟨hm, h2, h1⟩
    (fun c hc hcc => h3 _ (mem_targets hc hcc)) (List.Forall₂.cons hr List.Forall₂.nil) (fun c hc => (hp c hc).1) (fuel := 1) (by simp)
  simp only [List.map_cons, List.map_nil, Option.bind_some, use, if_pos hfit, hs, Bool.false_eq_true, if_false] at k3
  cases k3 with
  | cons e e' =>
    cases e'
    rename_i s
    cases s with
    | none => exact absurd e (by simp [SlotRep])
    | some it' =>
      have e : Rep m' it' (obeyAll x r.commands) := e
      obtain ⟨o1, o2, o3⟩ := obeyAll_constants x r.commands (fun c hc => (hp c hc).2)
      refine ⟨m', it', k1, by rw [e.text, o1], by rw [e.cat, o2], fun a ha => ?_⟩
      rw [getValue_rep e k2.ok.length, o3 a ha]
      cases (r.commands.filter fun c => c.1 = a).getLast? <;> simp

/-- The categories and values of the items of a result. -/
def shown (e : Except Err (List Str × List (Option Item))) : List (Str × List (Str × Str)) :=
  match e with
  | .ok (m, items) => (items.filterMap id).map fun it => (it.cat, (getValues m it).getD [])
  | .error _ => []

/-- An item with the category `c` and the text `w`, and a rule for it. -/
def plainRule : Rule := ⟨[ascii "w"], [(ascii "CAT", ascii "c"), (ascii "A", ascii "fail")], [(ascii "A", ascii "x"), (ascii "CAT", ascii "d")], false, 0⟩

theorem rep_start : List.Forall₂ (SlotRep []) [some (Item.new (ascii "c") (ascii "w+z"))] [some ⟨ascii "c", ascii "w+z", fun _ => none⟩] :=
  List.Forall₂.cons (show SlotRep [] (some _) (some _) from Rep.new [] _ _) List.Forall₂.nil

theorem plain_fits : Fits plainRule ⟨ascii "c", ascii "w+z", fun _ => none⟩ :=
  ⟨by decide, by intro c hc; simp [plainRule] at hc; rcases hc with rfl | rfl <;> decide⟩

example : Room [] (targets plainRule.commands) := ⟨[ascii "A"], by decide, by decide, by decide⟩

example : (∀ c ∈ plainRule.commands, Plain c) ∧ shown (apply plainRule 1 [] [some (Item.new (ascii "c") (ascii "w+z"))]) =
    [(ascii "d", [(ascii "A", ascii "x")])] := ⟨by unfold Plain; decide, by decide +kernel⟩

/-- **C77** A condition asks for how a value is printed: an attribute with the value `any` does not satisfy the condition
that it is `any`, nor one with the value `007` the condition that it is `007`. -/
theorem C77_condition_false (x : AItem) :
    (∀ a, a ≠ ascii "CAT" → ¬ Holds (x.put a (ofString (ascii "any"))) (a, ascii "any")) ∧
    (∀ a, a ≠ ascii "CAT" → ¬ Holds (x.put a (ofString (ascii "007"))) (a, ascii "007")) := by
  constructor
  · intro a ha h
    have h' : toString (ofString (ascii "any")) = ascii "any" := by
      simpa [Holds, ha, shows, AItem.put] using h
    revert h'; decide +kernel
  · intro a ha h
    have h' : toString (ofString (ascii "007")) = ascii "007" := by
      simpa [Holds, ha, shows, AItem.put] using h
    revert h'; decide +kernel

/-! ### C78 -/

theorem aAssign_again {y : AItem} {arg whole v w : Str} (hw : arg = catMarker → whole.head? ≠ some 36)
    (hv : w.head? = some 36 → arg ≠ catMarker ∧ w.tail ≠ arg) :
    aAssign (aAssign y arg whole v) arg whole w = obey y (arg, w) := by
  by_cases hc : arg = catMarker
  · have hc' : arg = ascii "CAT" := hc
    have h1 : ¬ whole.head? = some 36 := hw hc
    have h2 : ¬ w.head? = some 36 := fun e => (hv e).1 hc
    simp only [aAssign, if_pos hc, if_neg h1, obey, if_pos hc', if_neg h2]
  · have hc' : ¬ arg = ascii "CAT" := hc
    simp only [aAssign, if_neg hc, obey, if_neg hc']
    have : meaning (y.put arg (meaning y v)) w = meaning y w := by
      unfold meaning
      by_cases h : w.head? = some 36
      · simp only [if_pos h, AItem.put, if_neg (hv h).2]
      · simp only [if_neg h]
    rw [this]
    simp only [AItem.put]
    congr 1
    funext b
    by_cases hb : b = arg <;> simp [hb]

theorem aAssign_first {y : AItem} {arg whole v : Str} (hw : arg = catMarker → whole.head? ≠ some 36)
    (hv : v.head? = some 36 → arg ≠ catMarker) : aAssign y arg whole v = obey y (arg, v) := by
  by_cases hc : arg = catMarker
  · have hc' : arg = ascii "CAT" := hc
    have h1 : ¬ whole.head? = some 36 := hw hc
    have h2 : ¬ v.head? = some 36 := fun e => hv e hc
    simp only [aAssign, if_pos hc, if_neg h1, obey, if_pos hc', if_neg h2]
  · have hc' : ¬ arg = ascii "CAT" := hc
    simp only [aAssign, if_neg hc, obey, if_neg hc']

theorem head_alternatives {v w : Str} {ws : List Str} (h : alternatives v = w :: ws) (hd : v.head? = some 36) : w.head? = some 36 := by
  cases v with
  | nil => simp at hd
  | cons c v =>
    simp at hd
    subst hd
    simp only [alternatives] at h
    cases e : alternatives v with
    | nil => exact absurd e (alternatives_ne v)
    | cons u us => rw [e] at h; simp at h; rw [← h.1]; rfl

/-- **C78** A rule with one command that has alternatives `v`, `vs`, commands `pre` before and `post` after it, when no new
item fits the rule again: an item that fits is changed in place by `pre`, the first alternative and `post`; behind all items
there come, for each item that fitted and each of the other alternatives, the item changed by `pre` and that alternative.
(References among the alternatives may not be in commands for the category or refer to the attribute that is changed.) -/
theorem C78_alternatives {r : Rule} {pre post : List (Str × Str)} {arg whole v : Str} {vs : List Str}
    (hc : r.commands = pre ++ (arg, whole) :: post) (hpre : ∀ c ∈ pre, Plain c) (hpost : ∀ c ∈ post, Plain c)
    (halt : Alternatives whole (v :: vs)) (hs : r.isSkip = false)
    (href : ∀ w ∈ v :: vs, w.head? = some 36 → arg ≠ ascii "CAT" ∧ w.tail ≠ arg)
    {m : List Str} {items : List (Option Item)} {xs : List (Option AItem)} (hm : m.Nodup)
    (hr : List.Forall₂ (SlotRep m) items xs) (hroom : Room m (targets r.commands))
    (hnew : ∀ x, some x ∈ xs → Fits r x → ∀ w ∈ vs, ¬ Fits r (obey (obeyAll x pre) (arg, w)))
    {fuel : Nat} (hf : items.length * (vs.length + 1) ≤ fuel) :
    ∃ m' items', apply r fuel m items = .ok (m', items') ∧
      List.Forall₂ (Seen m') items'
        (xs.map (fun s => s.map fun x => if Fits r x then obeyAll (obey (obeyAll x pre) (arg, v)) post else x) ++
         ((xs.filterMap id).filter fun x => Fits r x).flatMap fun x => vs.map fun w => some (obey (obeyAll x pre) (arg, w))) := by
  obtain ⟨U, h1, h2, h3⟩ := hroom
  have ha := alternatives_of halt
  have hw : arg = catMarker → whole.head? ≠ some 36 := fun h e => (href v (by simp) (head_alternatives ha e)).1 h
  have hcmd : ∀ y, aCommand y (arg, whole) = (obey y (arg, v), vs.map fun w => obey y (arg, w)) := by
    intro y
    simp only [aCommand, ha]
    rw [aAssign_first hw (fun e => (href v (by simp) e).1)]
    congr 1
    apply List.map_congr_left
    intro w hwm
    rw [← aAssign_first hw (fun e => (href v (by simp) e).1)]
    exact aAssign_again hw (href w (by simp [hwm]))
  have hcmds : ∀ x, aCommands x r.commands = (obeyAll (obey (obeyAll x pre) (arg, v)) post, vs.map fun w => obey (obeyAll x pre) (arg, w)) := by
    intro x
    rw [hc, aCommands_append, aCommands_plain hpre]
    simp only [aCommands, hcmd, aCommands_plain hpost, List.nil_append, List.append_nil]
  have hv : ∀ x, aVisit r (some x) = (some (if Fits r x then obeyAll (obey (obeyAll x pre) (arg, v)) post else x),
      if Fits r x then vs.map fun w => obey (obeyAll x pre) (arg, w) else []) := by
    intro x
    simp only [aVisit, hcmds, hs]
    by_cases hx : Fits r x
    · simp only [if_pos hx, Bool.false_eq_true, if_false]
    · simp only [if_neg hx]
  have hlen : ∀ l : List (Option AItem), (l.flatMap fun s => (aVisit r s).2).length ≤ l.length * vs.length := by
    intro l
    induction l with
    | nil => simp
    | cons s l ih =>
      have : (aVisit r s).2.length ≤ vs.length := by
        cases s with
        | none => simp [aVisit]
        | some x => rw [hv]; by_cases hx : Fits r x <;> simp [hx]
      simp only [List.flatMap_cons, List.length_append, List.length_cons, Nat.succ_mul]
      omega
  have hnot : ∀ s ∈ xs, ∀ y ∈ (aVisit r s).2, ¬ Fits r y := by
    intro s hs y hy
    cases s with
    | none => simp [aVisit] at hy
    | some x =>
      rw [hv] at hy
      by_cases hx : Fits r x
      · simp only [if_pos hx, List.mem_map] at hy
        obtain ⟨w, hw, rfl⟩ := hy
        exact hnew x hs hx w hw
      · simp [hx] at hy
  have hquiet := aLoop_copies r xs fuel [] [] (by
      have := hlen xs
      have hl := hr.length_eq
      rw [Nat.mul_add] at hf
      simp only [List.length_nil]
      rw [hl] at hf
      omega) (by simp) (by
      intro s hs y hy
      have := hnot s hs y hy
      rw [hv]; simp [this])
  rw [List.append_nil] at hquiet
  have hro : ROk U r := by
    refine ⟨fun c hcc hne => h3 _ (mem_targets hcc hne), ?_⟩
    intro c hcc
    rw [hc] at hcc
    simp only [List.mem_append, List.mem_cons] at hcc
    rcases hcc with hcc | rfl | hcc
    · exact soundCmd_plain (hpre c hcc)
    · intro e1 e2; exact absurd e2 (hw e1)
    · exact soundCmd_plain (hpost c hcc)
  rcases applyLoop_rep hro fuel ⟨hm, h2, h1⟩ (List.Forall₂.nil) hr with ⟨e1, _⟩ | ⟨res, m', items', e1, e2, e3, e4⟩
  · rw [e1] at hquiet; cases hquiet
  · rw [e1] at hquiet
    cases hquiet
    refine ⟨m', items', e2, ?_⟩
    have e5 := e4.imp (fun _ _ h => seen_of_rep e3.ok.length h)
    convert e5 using 1
    simp only [List.nil_append, List.map_nil, List.append_nil]
    congr 1
    · apply List.map_congr_left
      intro s _
      cases s with
      | none => rfl
      | some x => rw [hv]; rfl
    · have : ∀ y ∈ xs.flatMap (fun s => (aVisit r s).2), (aVisit r (some y)).1 = some y := by
        intro y hy
        obtain ⟨s, hs, hy⟩ := List.mem_flatMap.1 hy
        have := hnot s hs y hy
        rw [hv]; simp [this]
      rw [List.map_congr_left this]
      clear * - hv
      induction xs with
      | nil => rfl
      | cons s xs ih =>
        cases s with
        | none => simpa [aVisit] using ih
        | some x =>
          have ih' : ∀ l, l = xs.filterMap id → (l.filter fun x => decide (Fits r x)).flatMap (fun x => vs.map fun w => some (obey (obeyAll x pre) (arg, w))) =
              (xs.flatMap fun s => (aVisit r s).2).map (fun y => some y) := by rintro _ rfl; exact ih
          have e : List.filterMap id (some x :: xs) = x :: xs.filterMap id := rfl
          rw [e, List.flatMap_cons, List.map_append, hv]
          by_cases hx : Fits r x
          · rw [List.filter_cons_of_pos (by simpa using hx), List.flatMap_cons, ih' _ rfl]
            simp [hx]
          · rw [List.filter_cons_of_neg (by simpa using hx), ih' _ rfl]
            simp [hx]

/-- **C78** The copies are visited again.  If the conditions of a rule do not ask for what its commands change, and one
command has alternatives, then applying it does not end for a vector with an item that fits, however long it runs. -/
theorem C78_endless_false {r : Rule} (hdis : ∀ d ∈ r.commands, ∀ c ∈ r.conditions, c.1 ≠ d.1) (halt : ∃ c ∈ r.commands, 124 ∈ c.2)
    (hcat : ∀ c ∈ r.commands, c.1 = ascii "CAT" → c.2.head? ≠ some 36)
    {m : List Str} {items : List (Option Item)} {xs : List (Option AItem)} (hm : m.Nodup)
    (hr : List.Forall₂ (SlotRep m) items xs) (hroom : Room m (targets r.commands)) (hfit : ∃ x, some x ∈ xs ∧ Fits r x) (fuel : Nat) :
    apply r fuel m items = .error .fuel := by
  obtain ⟨U, h1, h2, h3⟩ := hroom
  have hro : ROk U r := ⟨fun c hcc hne => h3 _ (mem_targets hcc hne), fun c hcc e1 e2 => absurd e2 (hcat c hcc e1)⟩
  have hend := aLoop_endless r (Fits r) (by
    intro x hx
    simp only [aVisit, if_pos hx]
    obtain ⟨y, hy⟩ := List.exists_mem_of_ne_nil _ (aCommands_new halt x)
    exact ⟨y, hy, ((aCommands_agree r.commands hdis x).2 y hy).fits hx⟩) fuel [] xs hfit
  rcases applyLoop_rep hro fuel ⟨hm, h2, h1⟩ (List.Forall₂.nil) hr with ⟨_, e⟩ | ⟨res, m', items', e1, _⟩
  · exact e
  · rw [hend] at e1; cases e1

/-- A rule like those in `data/pl.u`. -/
def twoRule : Rule := ⟨[ascii "w"], [(ascii "CAT", ascii "c")], [(ascii "CAT", ascii "c|d")], false, 1⟩

example : Alternatives (ascii "c|d") [ascii "c", ascii "d"] ∧
    (∀ x, Fits twoRule x → ∀ w ∈ [ascii "d"], ¬ Fits twoRule (obey (obeyAll x []) (ascii "CAT", w))) ∧
    shown (apply twoRule 2 [] [some (Item.new (ascii "c") (ascii "w+z"))]) = [(ascii "c", []), (ascii "d", [])] := by
  refine ⟨⟨by simp, by decide, by decide⟩, ?_, by decide +kernel⟩
  intro x _ w hw h
  simp only [List.mem_singleton] at hw
  subst hw
  have := h.2 (ascii "CAT", ascii "c") (by simp [twoRule])
  have h36 : ¬ (ascii "d").head? = some 36 := by decide
  simp only [obeyAll, List.foldl_nil, obey, Holds, if_true, if_neg h36] at this
  revert this; decide

/-- A rule that never ends for an item it fits. -/
def endlessRule : Rule := ⟨[], [(ascii "CAT", ascii "c")], [(ascii "A", ascii "x|y")], false, 1⟩

example (fuel : Nat) : apply endlessRule fuel [] [some (Item.new (ascii "c") (ascii "w+z"))] = .error .fuel :=
  C78_endless_false (by decide) ⟨(ascii "A", ascii "x|y"), by simp [endlessRule], by decide⟩ (by decide) (by simp) rep_start
    ⟨[ascii "A"], by decide, by decide, by decide⟩ ⟨⟨ascii "c", ascii "w+z", fun _ => none⟩, by simp, by
      refine ⟨by decide, ?_⟩
      intro c hc; simp [endlessRule] at hc; subst hc; decide⟩ fuel

/-- The attribute `A` is absent: it reads as `fail`. -/
def lacksA : List (Str × Str) := [(ascii "A", ascii "fail")]

/-- A command after the alternatives. -/
def restRule : Rule := ⟨[], lacksA, [(ascii "A", ascii "x|y"), (ascii "B", ascii "1")], false, 1⟩

/-- **C78** Commands after the one with the alternatives are not used for the other alternatives. -/
theorem C78_rest_false : shown (apply restRule 5 [] [some (Item.new (ascii "c") (ascii "w"))]) =
    [(ascii "c", [(ascii "A", ascii "x"), (ascii "B", ascii "1")]), (ascii "c", [(ascii "A", ascii "y")])] := by
  decide +kernel

/-- **C78** Whether the category is taken from an attribute is decided by the first character of all the alternatives: in
`CAT = b|$A` the second is taken as it is, in `CAT = $A|b` the letter of the second is taken for the sign. -/
theorem C78_category_false : ∃ it : Item, getValues [ascii "A"] it = some [(ascii "A", ascii "x")] ∧
    shown (apply ⟨[], [(ascii "CAT", ascii "c")], [(ascii "CAT", ascii "b|$A")], false, 1⟩ 5 [ascii "A"] [some it]) =
      [(ascii "b", [(ascii "A", ascii "x")]), (ascii "$A", [(ascii "A", ascii "x")])] ∧
    shown (apply ⟨[], [(ascii "CAT", ascii "c")], [(ascii "CAT", ascii "$A|b")], false, 1⟩ 5 [ascii "A"] [some it]) =
      [(ascii "x", [(ascii "A", ascii "x")]), (ascii "fail", [(ascii "A", ascii "x")])] :=
  ⟨⟨ascii "c", ascii "w", [.sym (ascii "x")], true :: List.replicate 127 false⟩, by decide +kernel, by decide +kernel, by decide +kernel⟩

/-- **C78** The other alternatives are computed after the first was assigned: with `A = y|$A` the second is not the old
value of `A`. -/
theorem C78_reference_false : ∃ it : Item, getValues [ascii "A"] it = some [(ascii "A", ascii "x")] ∧
    shown (apply ⟨[], [(ascii "A", ascii "x")], [(ascii "A", ascii "y|$A")], false, 1⟩ 5 [ascii "A"] [some it]) =
      [(ascii "c", [(ascii "A", ascii "y")]), (ascii "c", [(ascii "A", ascii "y")])] :=
  ⟨⟨ascii "c", ascii "w", [.sym (ascii "x")], true :: List.replicate 127 false⟩, by decide +kernel, by decide +kernel⟩

/-! ### C79 -/

theorem foldl_converted (maps : Maps) (avs : List (Str × ZVal)) : ∀ x : AItem,
    avs.foldl (fun x av => x.put (mapped maps.attrs av.1) (mappedValue maps.vals av.2)) x =
      ⟨x.cat, x.text, fun b => (((avs.filter fun av => mapped maps.attrs av.1 = b).getLast?).map fun av => mappedValue maps.vals av.2).or (x.val b)⟩ := by
  induction avs using List.reverseRecOn with
  | nil => intro x; simp
  | append_singleton avs av ih =>
    intro x
    rw [List.foldl_append, ih]
    simp only [List.foldl_cons, List.foldl_nil, AItem.put]
    congr 1
    funext b
    by_cases hb : b = mapped maps.attrs av.1
    · simp [List.filter_append, hb]
    · have : ¬ mapped maps.attrs av.1 = b := fun e => hb e.symm
      simp [List.filter_append, hb, this]

theorem convertItem_rep {U m src x} (maps : Maps) (h : MOk U m) (hr : Rep m src x) (hU : ∀ a ∈ m, mapped maps.attrs a ∈ U) :
    ∃ m' it', convertItem maps m src = .ok (m', it') ∧ Later U m m' ∧ Rep m' it' (converted maps m x) := by
  have hp : ∀ av ∈ x.pairs m, mapped maps.attrs av.1 ∈ U := by
    intro av hav
    simp only [AItem.pairs, List.mem_filterMap, Option.map_eq_some_iff] at hav
    obtain ⟨a, ha, v, _, rfl⟩ := hav
    exact hU a ha
  obtain ⟨m', it', h1, h2, h3⟩ := convertValues_rep maps (x.pairs m) h (Rep.new m (mapped maps.cats x.cat) x.text) hp
  refine ⟨m', it', ?_, h2, ?_⟩
  · simp only [convertItem, find_lookup, getValues_rep hr h.length, orFail, bind, Except.bind]
    rw [hr.cat, hr.text]
    exact h1
  · rw [foldl_converted] at h3
    simpa [converted] using h3

/-- **C79** What an edge is converted to by maps and rules without alternatives: nothing if a rule removes it, otherwise one
item.  Its category is the one mapped, its text is the same, each attribute has the mapped value of the last attribute that
is mapped to it, and then the rules are used one after another. -/
theorem C79_convert {maps : Maps} {rules : List Rule} {m : List Str} {src : Item} {x : AItem} (hm : m.Nodup) (hr : Rep m src x)
    (hroom : Room m (m.map (mapped maps.attrs) ++ rules.flatMap fun r => targets r.commands))
    (hp : ∀ r ∈ rules, ∀ c ∈ r.commands, Plain c) {fuel : Nat} (hf : 0 < fuel) :
    ∃ m' items, convert maps rules fuel m src = .ok (m', items) ∧
      List.Forall₂ (fun it y => Seen m' (some it) (some y)) items (useAll rules (converted maps m x)).toList := by
  obtain ⟨U, h1, h2, h3⟩ := hroom
  have hU : ∀ r ∈ rules, ∀ c ∈ r.commands, c.1 ≠ catMarker → c.1 ∈ U := fun r hr c hc hcc =>
    h3 _ (List.mem_append_right _ (List.mem_flatMap.2 ⟨r, hr, mem_targets hc hcc⟩))
  obtain ⟨m1, it1, c1, c2, c3⟩ := convertItem_rep maps ⟨hm, h2, h1⟩ hr (fun a ha => h3 _ (by simp only [List.mem_append, List.mem_map]; left; exact ⟨a, ha, rfl⟩))
  obtain ⟨m', items', k1, k2, k3⟩ := applyAll_plain (fuel := fuel) rules c2.ok hU (List.Forall₂.cons (show SlotRep m1 (some it1) (some _) from c3) List.Forall₂.nil) hp
    (by simp; omega)
  simp only [List.map_cons, List.map_nil, Option.bind_some] at k3
  cases k3 with
  | cons e e' =>
    cases e'
    rename_i s
    have e := seen_of_rep k2.ok.length e
    refine ⟨m', [s].filterMap id, ?_, ?_⟩
    · simp only [convert, c1, k1, bind, Except.bind, pure, Except.pure]
    · generalize useAll rules (converted maps m x) = y at e
      cases s <;> cases y <;> simp only [Seen] at e
      · exact List.Forall₂.nil
      · exact List.Forall₂.cons e List.Forall₂.nil

theorem getLast?_unique {α : Type} {l : List α} {p : α → Bool} {a : α} (ha : a ∈ l) (hp : p a = true) (hu : ∀ b ∈ l, p b = true → b = a) :
    (l.filter p).getLast? = some a := by
  have hm : a ∈ l.filter p := List.mem_filter.2 ⟨ha, hp⟩
  have hne : l.filter p ≠ [] := List.ne_nil_of_mem hm
  rw [List.getLast?_eq_getLast_of_ne_nil hne]
  have := List.getLast_mem hne
  obtain ⟨h1, h2⟩ := List.mem_filter.1 this
  rw [hu _ h1 h2]

/-- **C79** If no two attributes of an item are mapped to the same one, the converted item has, for every attribute of the
item, the mapped attribute with the mapped value, and nothing else.  The property says this of all items; those with two
attributes that are mapped to one are missing, see `C79_collision_false`. -/
theorem C79_renamed_partial {maps : Maps} {m : List Str} {src : Item} {x : AItem} (hm : m.Nodup) (hr : Rep m src x)
    (hroom : Room m (m.map (mapped maps.attrs)))
    (hinj : ∀ a b, (x.val a).isSome → (x.val b).isSome → mapped maps.attrs a = mapped maps.attrs b → a = b) :
    ∃ m' it, convert maps [] 1 m src = .ok (m', [it]) ∧ it.cat = mapped maps.cats x.cat ∧ it.text = x.text ∧
      (∀ a v, x.val a = some v → getValue m' it (mapped maps.attrs a) = some (mappedValue maps.vals v)) ∧
      (∃ l, getValuesAsZvalues m' it = some l ∧
        ∀ b w, (b, w) ∈ l ↔ ∃ a v, x.val a = some v ∧ b = mapped maps.attrs a ∧ w = mappedValue maps.vals v) := by
  obtain ⟨m', items, h1, h2⟩ := C79_convert (rules := []) (fuel := 1) hm hr (by simpa using hroom) (by simp) (by simp)
  simp only [useAll, Option.toList_some] at h2
  cases h2 with
  | cons e e' =>
    cases e'
    rename_i it
    obtain ⟨e1, e2, e3, e4, e5⟩ := e
    have key : ∀ a v, x.val a = some v → (converted maps m x).val (mapped maps.attrs a) = some (mappedValue maps.vals v) := by
      intro a v hv
      simp only [converted]
      have hin : (a, v) ∈ x.pairs m := by
        simp only [AItem.pairs, List.mem_filterMap, Option.map_eq_some_iff]
        exact ⟨a, hr.known a v hv, v, hv, rfl⟩
      rw [getLast?_unique (a := (a, v)) hin (by simp)]
      · rfl
      · intro b hb hp
        simp only [AItem.pairs, List.mem_filterMap, Option.map_eq_some_iff] at hb
        obtain ⟨b', _, w, hw, rfl⟩ := hb
        simp only [decide_eq_true_eq] at hp
        have : b' = a := hinj b' a (by simp [hw]) (by simp [hv]) hp
        subst this
        rw [hv] at hw; cases hw; rfl
    have hback : ∀ b w, (converted maps m x).val b = some w → ∃ a v, x.val a = some v ∧ b = mapped maps.attrs a ∧ w = mappedValue maps.vals v := by
      intro b w h
      simp only [converted, Option.map_eq_some_iff] at h
      obtain ⟨av, hav, rfl⟩ := h
      have := List.mem_of_getLast? hav
      obtain ⟨g1, g2⟩ := List.mem_filter.1 this
      simp only [AItem.pairs, List.mem_filterMap, Option.map_eq_some_iff] at g1
      obtain ⟨a, _, v, hv, rfl⟩ := g1
      exact ⟨a, v, hv, (of_decide_eq_true g2).symm, rfl⟩
    refine ⟨m', it, h1, e1, e2, ?_, _, e4, ?_⟩
    · intro a v hv
      rw [e3, key a v hv]; rfl
    · intro b w
      constructor
      · intro h
        simp only [AItem.pairs, List.mem_filterMap, Option.map_eq_some_iff] at h
        obtain ⟨b', _, w', hw', e⟩ := h
        cases e
        exact hback b w hw'
      · rintro ⟨a, v, hv, rfl, rfl⟩
        simp only [AItem.pairs, List.mem_filterMap, Option.map_eq_some_iff]
        exact ⟨_, e5 _ _ (key a v hv), _, key a v hv, rfl⟩

/-- Two attributes, one of which is mapped. -/
def someMaps : Maps := ⟨[(ascii "c", ascii "d")], [(ascii "A", ascii "X")], [(ascii "1", ascii "one")]⟩

example : shown ((convert someMaps [] 1 [ascii "A", ascii "B"]
    ⟨ascii "c", [], [.int 1, .any], true :: true :: List.replicate 126 false⟩).map fun r => (r.1, r.2.map some)) =
    [(ascii "d", [(ascii "B", ascii "nil"), (ascii "X", ascii "one")])] := by decide +kernel

/-- **C79** If two attributes are mapped to the same one, a value is lost; which one depends on the order in which the
manager saw them. -/
theorem C79_collision_false :
    (∃ it, getValues [ascii "A", ascii "X"] it = some [(ascii "A", ascii "1"), (ascii "X", ascii "2")] ∧
      shown ((convert ⟨[], [(ascii "A", ascii "X")], []⟩ [] 1 [ascii "A", ascii "X"] it).map fun r => (r.1, r.2.map some)) =
        [([], [(ascii "X", ascii "2")])]) ∧
    (∃ it, getValues [ascii "X", ascii "A"] it = some [(ascii "X", ascii "2"), (ascii "A", ascii "1")] ∧
      shown ((convert ⟨[], [(ascii "A", ascii "X")], []⟩ [] 1 [ascii "X", ascii "A"] it).map fun r => (r.1, r.2.map some)) =
        [([], [(ascii "X", ascii "1")])]) :=
  ⟨⟨⟨[], [], [.int 1, .int 2], true :: true :: List.replicate 126 false⟩, by decide +kernel, by decide +kernel⟩,
   ⟨⟨[], [], [.int 2, .int 1], true :: true :: List.replicate 126 false⟩, by decide +kernel, by decide +kernel⟩⟩

/-- **C79** The special values are not mapped by the words by which they are written: `@val nil x` does nothing to an
attribute that reads as `nil`. -/
theorem C79_special_false : ∃ it, getValues [ascii "A"] it = some [(ascii "A", ascii "nil")] ∧
    shown ((convert ⟨[], [], [(ascii "nil", ascii "x"), (ascii "any", ascii "x")]⟩ [] 1 [ascii "A"] it).map fun r => (r.1, r.2.map some)) =
      [([], [(ascii "A", ascii "nil")])] :=
  ⟨⟨[], [], [.any], true :: List.replicate 127 false⟩, by decide +kernel, by decide +kernel⟩

/-! ### C80 -/

theorem forall2_sets {ds : List Str} {cmds : List (Str × Str)} (h : List.Forall₂ WritesCmd ds (cmds.map fun c => .set c.1 c.2)) :
    List.Forall₂ (fun s c => WritesEq s c.1 c.2) ds cmds := by
  induction cmds generalizing ds with
  | nil => cases h; exact List.Forall₂.nil
  | cons c cmds ih => cases h with | cons h1 h2 => exact List.Forall₂.cons h1 (ih h2)

theorem readRule_parts {line : Str} {conds : List Cond} {cmds : List Cmd} (h : WritesRule line conds cmds) :
    ∃ base ds, base.conditions = eqs conds ∧ (∀ w, w ∈ base.words ↔ HasWord conds w) ∧ base = base.withCommands [] ∧
      List.Forall₂ WritesCmd ds cmds ∧
      readRule line = (addCmds ([], base) ds).map (fun q => q.1 ++ [q.2]) := by
  obtain ⟨cs, ds, hc, hd, h1, h2, rfl⟩ := h
  obtain ⟨l, k1, k2⟩ := addConds_eq h1 Rule.new
  refine ⟨cs.foldl addCond Rule.new, ds, by rw [k1]; simp [Rule.new], ?_, by rw [k1]; rfl, h2, ?_⟩
  · intro w; rw [k1, k2]; simp [Rule.new]
  · have hcs : cs ≠ [] := by rintro rfl; cases h1; exact hc rfl
    have hds : ds ≠ [] := by rintro rfl; cases h2; exact hd rfl
    have a1 : ∀ t ∈ cs, t ≠ [] ∧ ∀ c ∈ t, c ≠ 44 ∧ c ≠ 62 := by
      intro t ht
      obtain ⟨i, hi, rfl⟩ := List.mem_iff_getElem.1 ht
      exact writesCond_ok (List.Forall₂.get h1 hi (by rw [← h1.length_eq]; exact hi))
    have a2 : ∀ t ∈ ds, t ≠ [] ∧ ∀ c ∈ t, c ≠ 44 := by
      intro t ht
      obtain ⟨i, hi, rfl⟩ := List.mem_iff_getElem.1 ht
      exact writesCmd_ok (List.Forall₂.get h2 hi (by rw [← h2.length_eq]; exact hi))
    simp only [readRule, parseRule_eq hcs hds a1 a2]
    cases addCmds ([], List.foldl addCond Rule.new cs) ds <;> rfl

/-- **C80** A line with conditions and assignments is read as rules with all of its conditions and words, whose commands
one after another are those of the line: as long as at most one command has alternatives, one rule; each other command with
alternatives begins a further rule with the same conditions. -/
theorem C80_split {line : Str} {conds : List Cond} {cmds : List (Str × Str)} (h : WritesRule line conds (cmds.map fun c => .set c.1 c.2)) :
    ∃ rules, readRule line = some rules ∧ (rules.flatMap (·.commands)) = cmds ∧
      (∀ r ∈ rules, Says r conds r.commands false ∧ branching r.commands ≤ 1) ∧
      (∀ r ∈ rules.dropLast, branching r.commands = 1) ∧
      (∀ r ∈ rules.tail, ∃ c cs, r.commands = c :: cs ∧ 124 ∈ c.2) := by
  obtain ⟨base, ds, h1, h2, h3, h4, h5⟩ := readRule_parts h
  obtain ⟨rs, r, k1, k2⟩ := addCmds_set (forall2_sets h4) (r := base) [] [] (by simp [branching])
  rw [← h3] at k1
  rw [k1] at h5
  obtain ⟨g1, g2, g', t, g3, g4⟩ := group_spec cmds [] (by simp [branching])
  refine ⟨(group [] cmds).map base.withCommands, ?_, ?_, ?_, ?_, ?_⟩
  · rw [h5]; simpa using k2
  · have := group_flatten [] cmds
    rw [List.flatMap_map]
    simpa [Rule.withCommands, List.flatMap_id'] using this
  · intro r hr
    obtain ⟨g, hg, rfl⟩ := List.mem_map.1 hr
    exact ⟨⟨h1, h2, rfl, rfl⟩, g1 g hg⟩
  · intro r hr
    rw [← List.map_dropLast] at hr
    obtain ⟨g, hg, rfl⟩ := List.mem_map.1 hr
    exact g2 g hg
  · intro r hr
    rw [← List.map_tail] at hr
    obtain ⟨g, hg, rfl⟩ := List.mem_map.1 hr
    rw [g3] at hg
    exact g4 g hg

theorem readRule_single {line : Str} {conds : List Cond} {cmds : List (Str × Str)} (h : WritesRule line conds (cmds.map fun c => .set c.1 c.2))
    (hb : branching cmds ≤ 1) : ∃ r, readRule line = some [r] ∧ Says r conds cmds false := by
  obtain ⟨base, ds, h1, h2, h3, h4, h5⟩ := readRule_parts h
  obtain ⟨rs, r, k1, k2⟩ := addCmds_set (forall2_sets h4) (r := base) [] [] (by simp [branching])
  rw [← h3] at k1
  rw [k1] at h5
  rw [group_one (by simpa using hb)] at k2
  refine ⟨base.withCommands cmds, ?_, h1, h2, rfl, rfl⟩
  rw [h5]; simpa using k2

/-- **C80** Lines with rules, each with at most one command that has alternatives, are read as these rules, in their order. -/
theorem C80_lines {lines : List Str} {rules : List (List Cond × List (Str × Str))}
    (h : List.Forall₂ (fun l r => WritesLine l r.1 r.2) lines rules) (hb : ∀ r ∈ rules, branching r.2 ≤ 1) :
    ∃ c, readLines Config.empty lines = some c ∧ List.Forall₂ (fun r s => Says r s.1 s.2 false) c.rules rules := by
  have key : ∀ c0 : Config, ∃ c new, readLines c0 lines = some c ∧ c.rules = c0.rules ++ new ∧ List.Forall₂ (fun r s => Says r s.1 s.2 false) new rules := by
    induction h with
    | nil => intro c0; exact ⟨c0, [], rfl, by simp, List.Forall₂.nil⟩
    | @cons l r lines rules hl _ ih =>
      intro c0
      obtain ⟨p, q, l', rfl, hp, hq, hh, ht, hw⟩ := hl
      obtain ⟨rule, r1, r2⟩ := readRule_single hw (hb r (by simp))
      have hne : l' ≠ [] := by
        rintro rfl
        have : readRule [] = none := by decide
        rw [this] at r1; cases r1
      have htr : trim (p ++ l' ++ q) = l' := trim_pad hp hq (fun c hc => (hh c hc).1) ht hne
      obtain ⟨b, l'', rfl⟩ := List.exists_cons_of_ne_nil hne
      obtain ⟨c, new, i1, i2, i3⟩ := ih (fun s hs => hb s (by simp [hs])) { c0 with rules := c0.rules ++ [rule] }
      refine ⟨c, rule :: new, ?_, by rw [i2]; simp, List.Forall₂.cons r2 i3⟩
      have hb' := hh b rfl
      rw [readLines, htr]
      simp only [List.isEmpty_cons, Bool.false_eq_true, if_false, readLine, if_neg hb'.2.1, if_neg hb'.2.2, r1, Option.map_some]
      exact i1
  obtain ⟨c, new, h1, h2, h3⟩ := key Config.empty
  refine ⟨c, h1, ?_⟩
  rw [h2]; simpa [Config.empty] using h3

theorem addCmds_append (as bs : List Str) : ∀ rs, addCmds rs (as ++ bs) = (addCmds rs as).bind fun rs' => addCmds rs' bs := by
  induction as with
  | nil => intro rs; rfl
  | cons a as ih =>
    intro rs
    simp only [List.cons_append, addCmds]
    cases addCmd rs a with
    | none => rfl
    | some rs' => exact ih rs'

/-- **C80** A line that ends with `SKIP` is read as a rule that removes the items it fits. -/
theorem C80_skip {line : Str} {conds : List Cond} {cmds : List (Str × Str)} (h : WritesRule line conds (cmds.map (fun c => .set c.1 c.2) ++ [.skip]))
    (hb : branching cmds ≤ 1) : ∃ r, readRule line = some [r] ∧ Says r conds [] true := by
  obtain ⟨base, ds, h1, h2, h3, h4, h5⟩ := readRule_parts h
  obtain ⟨ds1, ds2, e1, e2, rfl⟩ : ∃ ds1 ds2, List.Forall₂ WritesCmd ds1 (cmds.map fun c => .set c.1 c.2) ∧ List.Forall₂ WritesCmd ds2 [Cmd.skip] ∧ ds = ds1 ++ ds2 := by
    have hl := h4.length_eq
    simp at hl
    refine ⟨ds.take cmds.length, ds.drop cmds.length, ?_, ?_, by simp⟩
    · have := List.forall₂_take cmds.length h4
      rw [List.take_append_of_le_length (by simp)] at this
      rwa [List.take_of_length_le (l := List.map _ cmds) (by simp)] at this
    · have := List.forall₂_drop cmds.length h4
      rw [List.drop_append_of_le_length (by simp)] at this
      rwa [List.drop_of_length_le (l := List.map _ cmds) (by simp), List.nil_append] at this
  obtain ⟨rs, r, k1, k2⟩ := addCmds_set (forall2_sets e1) (r := base) [] [] (by simp [branching])
  rw [group_one (by simpa using hb)] at k2
  simp only [List.nil_append, List.map_cons, List.map_nil] at k2
  have : rs = [] ∧ r = base.withCommands cmds := by
    cases rs with
    | nil => simpa using k2
    | cons a rs => simp at k2
  obtain ⟨rfl, rfl⟩ := this
  rw [← h3] at k1
  cases e2 with
  | cons e3 e4 =>
    cases e4
    obtain ⟨p, q, hp, hq, rfl⟩ := e3
    have ht : trim (p ++ ascii "SKIP" ++ q) = ascii "SKIP" :=
      trim_pad hp hq (by intro c hc; simp [ascii] at hc; subst hc; unfold Space; decide) (by intro c hc; simp [ascii] at hc; subst hc; unfold Space; decide) (by simp [ascii])
    refine ⟨(base.withCommands cmds).makeSkip, ?_, h1, h2, rfl, rfl⟩
    rw [h5, addCmds_append, k1]
    simp only [Option.bind_some, addCmds, addCmd, ht, if_true, List.nil_append]
    rfl

/-- A line as in `data/pl.u`. -/
example : WritesRule (ascii "CAT = c, w z >> A= 1|2,CAT =d") [.eq (ascii "CAT") (ascii "c"), .words [ascii "w", ascii "z"]]
    ([(ascii "A", ascii "1|2"), (ascii "CAT", ascii "d")].map fun c => .set c.1 c.2) := by
  have tok : ∀ t : Str, t ≠ [] → (∀ c ∈ t, c ≠ 44 ∧ c ≠ 61 ∧ c ≠ 62 ∧ isSpace c = false) → Token t := by
    intro t h1 h2
    refine ⟨h1, fun c hc => ⟨(h2 c hc).1, (h2 c hc).2.1, (h2 c hc).2.2.1⟩, fun c hc h => ?_, fun c hc h => ?_⟩
    · have := (h2 c (List.mem_of_head? hc)).2.2.2
      rw [(isSpace_iff' c).2 h] at this; cases this
    · have := (h2 c (List.mem_of_getLast? hc)).2.2.2
      rw [(isSpace_iff' c).2 h] at this; cases this
  have pad : ∀ s : Str, (∀ c ∈ s, isSpace c = true) → Pad s := fun s h c hc => (isSpace_iff' c).1 (h c hc)
  have word : ∀ w : Str, (∀ c ∈ w, isSpace c = false ∧ c ≠ 44 ∧ c ≠ 61 ∧ c ≠ 62) → ∀ c ∈ w, ¬ Space c ∧ c ≠ 44 ∧ c ≠ 61 ∧ c ≠ 62 := by
    intro w h c hc
    refine ⟨fun hs => ?_, (h c hc).2⟩
    have := (h c hc).1
    rw [(isSpace_iff' c).2 hs] at this; cases this
  refine ⟨[ascii "CAT = c", ascii " w z "], [ascii " A= 1|2", ascii "CAT =d"], by simp, by simp, ?_, ?_, by decide⟩
  · refine List.Forall₂.cons ⟨[], ascii " ", ascii " ", [], by decide, pad _ (by decide), pad _ (by decide), pad _ (by decide), pad _ (by decide), tok _ (by decide) (by decide), tok _ (by decide) (by decide)⟩
      (List.Forall₂.cons ⟨by simp, ?_⟩ List.Forall₂.nil)
    exact WritesWords.cons (p := ascii " ") (w := ascii "w") (s := ascii " z ") (pad _ (by decide)) (by decide) (word _ (by decide))
      (Or.inr ⟨32, ascii "z ", by decide, Or.inl (by decide)⟩)
      (WritesWords.cons (p := ascii " ") (w := ascii "z") (s := ascii " ") (pad _ (by decide)) (by decide) (word _ (by decide))
        (Or.inr ⟨32, [], by decide, Or.inl (by decide)⟩) (WritesWords.nil (pad _ (by decide))))
  · exact List.Forall₂.cons ⟨ascii " ", [], ascii " ", [], by decide, pad _ (by decide), pad _ (by decide), pad _ (by decide), pad _ (by decide), tok _ (by decide) (by decide), tok _ (by decide) (by decide)⟩
      (List.Forall₂.cons ⟨[], ascii " ", [], [], by decide, pad _ (by decide), pad _ (by decide), pad _ (by decide), pad _ (by decide), tok _ (by decide) (by decide), tok _ (by decide) (by decide)⟩ List.Forall₂.nil)

/-- **C80** The rules a line is split into do not do together what the line says: the first one can make the conditions
false that the second one has too.  Here `X` should be 1 or 2 for each category. -/
theorem C80_split_false : ∃ rules, readRule (ascii "CAT = a >> CAT = b|c, X = 1|2") = some rules ∧ rules.length = 2 ∧
    shown (applyAll 10 rules [] [some (Item.new (ascii "a") [])]) = [(ascii "b", []), (ascii "c", [])] :=
  ⟨(readRule (ascii "CAT = a >> CAT = b|c, X = 1|2")).getD [], by decide +kernel, by decide +kernel, by decide +kernel⟩

/-- **C80** Reading stops at the first blank line, whatever follows; the rules after it are ignored without a message. -/
theorem C80_blank_false : (∀ (c : Config) (ls rest : List Str) (b : Str), (∀ l ∈ ls, trim l ≠ []) → trim b = [] → readLines c (ls ++ b :: rest) = readLines c ls) ∧
    (readLines Config.empty [ascii "CAT = a >> SKIP", [], ascii "CAT = b >> SKIP"]).map (·.rules.length) = some 1 ∧
    (readLines Config.empty [ascii "CAT = a >> SKIP", [], ascii "no rule"]).map (·.rules.length) = some 1 := by
  refine ⟨?_, by decide +kernel, by decide +kernel⟩
  intro c ls rest b hls hb
  induction ls generalizing c with
  | nil => simp [readLines, hb]
  | cons l ls ih =>
    have hl := hls l (by simp)
    simp only [List.cons_append, readLines]
    rw [if_neg (by simpa using hl), if_neg (by simpa using hl)]
    cases readLine c (trim l) with
    | none => rfl
    | some c' => exact ih c' (fun l hl => hls l (by simp [hl]))

end Verif.Unumsunt
