import Verif.Fsa.Incremental
import Verif.Fsa.Pack

/-!
The incremental construction on lists of states: invariant and steps.
-/
set_option linter.unusedVariables false
set_option linter.unusedSimpArgs false

namespace Verif.Fsa
open BinSpec

/-- The arcs of a state. -/
def ar (A : Abs) (p : Nat) : List (Sym × Nat) := (A[p]?.map (·.2)).getD []
/-- Whether it is an end state. -/
def fi (A : Abs) (p : Nat) : Bool := (A[p]?.map (·.1)).getD false
/-- Both. -/
def sg (A : Abs) (p : Nat) : Bool × List (Sym × Nat) := (fi A p, ar A p)

/-- The operations on lists of states, with room for less than `cap` arcs. -/
def absOps (cap : Nat) : Ops Abs where
  empty := []
  size := List.length
  addState := fun A _ => (A.length, A ++ [(false, [])])
  addArc := fun A p arc => if p < A.length ∧ arcCount A + 1 < cap then
    some (A.modify p (fun s => (s.1, insertSorted (arcLt natLt) arc s.2))) else none
  setEnd := fun A p => if p < A.length then some (A.modify p (fun s => (true, s.2))) else none
  deleteLast := fun A => if A = [] then none else some A.dropLast
  isEnd := fun A p => (A[p]?).map (·.1)
  arcs := fun A p => (A[p]?).map (·.2)
  delta := fun A p x => if p < A.length then
    some ((checkFound x ((ar A p).dropWhile (fun arc => arcLt natLt arc (x, 0)))).head?.map (·.2)) else none
  setLastDest := fun A p q => if p < A.length ∧ ar A p ≠ [] then
    some (A.modify p (fun s => (s.1, setLast q s.2))) else none

/-- The words that lead from a state to an end state. -/
def Acc (A : Abs) : Nat → List Sym → Prop
  | p, [] => fi A p = true
  | p, x :: w => ∃ q, (x, q) ∈ ar A p ∧ Acc A q w

/-- Reachability. -/
inductive Rch (A : Abs) : Nat → Nat → Prop
  | refl (p) : Rch A p p
  | step {p a r} : a ∈ ar A p → Rch A a.2 r → Rch A p r

/-! ### Access after changes -/

theorem sg_append_left (A B : Abs) {p : Nat} (h : p < A.length) : sg (A ++ B) p = sg A p := by
  simp [sg, fi, ar, List.getElem?_append_left h]

theorem ar_eq (A : Abs) (p : Nat) : ar A p = (sg A p).2 := rfl
theorem fi_eq (A : Abs) (p : Nat) : fi A p = (sg A p).1 := rfl

theorem sg_out {A : Abs} {p : Nat} (h : A.length ≤ p) : sg A p = (false, []) := by
  simp [sg, fi, ar, List.getElem?_eq_none h]

theorem sg_modify (A : Abs) (f : Bool × List (Sym × Nat) → Bool × List (Sym × Nat)) {p : Nat} (h : p < A.length) (q : Nat) :
    sg (A.modify p f) q = if q = p then f (sg A p) else sg A q := by
  by_cases hq : q = p
  · subst hq
    rw [if_pos rfl]
    simp [sg, fi, ar, List.getElem?_modify, List.getElem?_eq_getElem h]
  · rw [if_neg hq]
    have hne : ¬ p = q := fun e => hq e.symm
    simp [sg, fi, ar, List.getElem?_modify, hne]

theorem sg_dropLast (A : Abs) {p : Nat} (h : p + 1 < A.length) : sg A.dropLast p = sg A p := by
  have : A.dropLast[p]? = A[p]? := by
    rw [List.getElem?_dropLast, if_pos (by omega)]
  simp only [sg, fi, ar, this]

theorem get_sg {A : Abs} {p : Nat} (h : p < A.length) : A[p]? = some (sg A p) := by
  simp [sg, fi, ar, List.getElem?_eq_getElem h]

theorem sig_abs {cap : Nat} {A : Abs} {p : Nat} (h : p < A.length) : sig (absOps cap) A p = some (sg A p) := by
  show (match A[p]?.map (·.1), A[p]?.map (·.2) with | some f, some l => some (f, l) | _, _ => none) = _
  rw [get_sg h]; rfl

theorem equiv_iff {a b : Bool × List (Sym × Nat)} : equiv a b = true ↔ a = b := by
  have ho := listLt_order (arcLt_order natLt_order)
  unfold equiv
  constructor
  · intro h
    split at h
    · simp at h
    · rename_i hf
      simp only [ne_eq, not_not] at hf
      simp only [Bool.and_eq_true, Bool.not_eq_true', Bool.not_eq_eq_eq_not, Bool.not_true] at h
      exact Prod.ext hf (ho.tri _ _ h.1 h.2)
  · rintro rfl
    simp [ho.irrefl]

/-! ### The invariant -/

/-- The registered states (in the order of registration). -/
structure Glob (A : Abs) (Reg : List Nat) : Prop where
  lt : ∀ r ∈ Reg, r < A.length
  nodup : Reg.Nodup
  arcs : ∀ R1 t R2, Reg = R1 ++ t :: R2 → ∀ a ∈ ar A t, a.2 ∈ R1
  sigs : ∀ s ∈ Reg, ∀ t ∈ Reg, sg A s = sg A t → s = t
  sorted : ∀ p, (ar A p).Pairwise (fun a b => a.1 < b.1)
  useful : ∀ r ∈ Reg, ∃ w, Acc A r w

/-- `r` can be reached from `c` by registered states. -/
def Good (A : Abs) (Reg : List Nat) (c r : Nat) : Prop := ∃ a ∈ ar A c, a.2 ∈ Reg ∧ Rch A a.2 r

/-- The registered states before `c` only have arcs to states before `c`. -/
def Shut (A : Abs) (Reg : List Nat) (c : Nat) : Prop := ∀ t ∈ Reg, t < c → ∀ a ∈ ar A t, a.2 < c

/-- The states of the last word (not registered), from the one before `d` to the first. -/
def Below (A : Abs) (Reg : List Nat) : Nat → List Nat → List Sym → Prop
  | d, [], [] => d = 0
  | d, c :: cs, x :: xs => c < d ∧ (∃ init, ar A c = init ++ [(x, d)] ∧ ∀ a ∈ init, a.2 ∈ Reg) ∧
      (∀ r ∈ Reg, c < r → r < d → Good A Reg c r) ∧ Shut A Reg c ∧ Below A Reg c cs xs
  | _, [], _ :: _ => False
  | _, _ :: _, [] => False

/-- The automaton while the construction goes on: registered states, and the states `c`, `cs` of the last
word (`xs` in reverse order). -/
structure Inv (A : Abs) (Reg : List Nat) (c : Nat) (cs : List Nat) (xs : List Sym) : Prop where
  glob : Glob A Reg
  cover : ∀ s, s < A.length ↔ s ∈ Reg ∨ s ∈ c :: cs
  disj : ∀ s ∈ c :: cs, s ∉ Reg
  below : Below A Reg c cs xs
  head : ∀ a ∈ ar A c, a.2 ∈ Reg
  good : ∀ r ∈ Reg, c < r → Good A Reg c r
  shut : Shut A Reg c

theorem Glob.arcs_mem {A : Abs} {Reg : List Nat} (h : Glob A Reg) {t : Nat} (ht : t ∈ Reg) :
    ∀ a ∈ ar A t, a.2 ∈ Reg := by
  obtain ⟨R1, R2, rfl⟩ := List.append_of_mem ht
  intro a ha
  exact List.mem_append_left _ (h.arcs R1 t R2 rfl a ha)

theorem below_length {A : Abs} {Reg : List Nat} {cs : List Nat} : ∀ {d : Nat} {xs : List Sym},
    Below A Reg d cs xs → cs.length = xs.length := by
  induction cs with
  | nil => intro d xs h; cases xs with | nil => rfl | cons => exact h.elim
  | cons c cs ih =>
    intro d xs h
    cases xs with
    | nil => exact h.elim
    | cons x xs => simp [ih h.2.2.2.2]

theorem below_lt {A : Abs} {Reg : List Nat} {cs : List Nat} : ∀ {d : Nat} {xs : List Sym},
    Below A Reg d cs xs → ∀ s ∈ cs, s < d := by
  induction cs with
  | nil => intro d xs h s hs; simp at hs
  | cons c cs ih =>
    intro d xs h s hs
    cases xs with
    | nil => exact h.elim
    | cons x xs =>
      simp only [List.mem_cons] at hs
      rcases hs with rfl | hs
      · exact h.1
      · exact Nat.lt_trans (ih h.2.2.2.2 s hs) h.1

theorem below_drop {A : Abs} {Reg : List Nat} {ds : List Nat} : ∀ {d : Nat} {p : Nat} {cs : List Nat}
    {ys xs : List Sym}, ys.length = ds.length + 1 →
    Below A Reg d (ds ++ p :: cs) (ys ++ xs) → Below A Reg p cs xs := by
  induction ds with
  | nil =>
    intro d p cs ys xs hl h
    match ys, hl with
    | [y], _ => exact h.2.2.2.2
  | cons e ds ih =>
    intro d p cs ys xs hl h
    match ys, hl with
    | y :: ys, hl => exact ih (by simpa using hl) h.2.2.2.2

/-- The last part of the chain above `p`. -/
theorem below_last {A : Abs} {Reg : List Nat} {ds : List Nat} {c d p : Nat} {cs : List Nat} {ys xs : List Sym}
    {y : Sym} (hl : ys.length = ds.length + 1) (h : Below A Reg c (ds ++ d :: p :: cs) (ys ++ y :: xs)) :
    Below A Reg d (p :: cs) (y :: xs) := below_drop (cs := p :: cs) (xs := y :: xs) hl h

/-- A change that leaves the states of a list alone. -/
def Agree (A A' : Abs) (S : List Nat) : Prop := ∀ s ∈ S, sg A' s = sg A s

theorem Agree.ar {A A' : Abs} {S : List Nat} (h : Agree A A' S) {s : Nat} (hs : s ∈ S) : ar A' s = ar A s :=
  congrArg Prod.snd (h s hs)
theorem Agree.fi {A A' : Abs} {S : List Nat} (h : Agree A A' S) {s : Nat} (hs : s ∈ S) : fi A' s = fi A s :=
  congrArg Prod.fst (h s hs)

theorem rch_frame {A A' : Abs} {Reg : List Nat} (hm : ∀ t ∈ Reg, ∀ a ∈ ar A t, a.2 ∈ Reg) (h : Agree A A' Reg)
    {d r : Nat} (hr : Rch A d r) : d ∈ Reg → Rch A' d r := by
  induction hr with
  | refl p => intro _; exact .refl p
  | step ha _ ih =>
    intro hd
    exact .step (by rw [h.ar hd]; exact ha) (ih (hm _ hd _ ha))

theorem acc_frame {A A' : Abs} {Reg : List Nat} (hm : ∀ t ∈ Reg, ∀ a ∈ ar A t, a.2 ∈ Reg) (h : Agree A A' Reg)
    (w : List Sym) : ∀ {d : Nat}, d ∈ Reg → (Acc A' d w ↔ Acc A d w) := by
  induction w with
  | nil => intro d hd; simp only [Acc, h.fi hd]
  | cons x w ih =>
    intro d hd
    simp only [Acc, h.ar hd]
    constructor
    · rintro ⟨q, h1, h2⟩; exact ⟨q, h1, (ih (hm _ hd _ h1)).1 h2⟩
    · rintro ⟨q, h1, h2⟩; exact ⟨q, h1, (ih (hm _ hd _ h1)).2 h2⟩

theorem glob_frame {A A' : Abs} {Reg : List Nat} (g : Glob A Reg) (h : Agree A A' Reg)
    (hlt : ∀ r ∈ Reg, r < A'.length) (hs : ∀ p, p ∉ Reg → (ar A' p).Pairwise (fun a b => a.1 < b.1)) :
    Glob A' Reg := by
  refine ⟨hlt, g.nodup, ?_, ?_, ?_, ?_⟩
  · intro R1 t R2 e
    rw [h.ar (by rw [e]; simp)]
    exact g.arcs R1 t R2 e
  · intro s hs t ht
    rw [h s hs, h t ht]; exact g.sigs s hs t ht
  · intro p
    by_cases hp : p ∈ Reg
    · rw [h.ar hp]; exact g.sorted p
    · exact hs p hp
  · intro r hr
    obtain ⟨w, hw⟩ := g.useful r hr
    exact ⟨w, (acc_frame (fun t ht => g.arcs_mem ht) h w hr).2 hw⟩

theorem good_frame {A A' : Abs} {Reg : List Nat} (g : Glob A Reg) (h : Agree A A' Reg) {c r : Nat}
    (hc : ∀ a ∈ ar A c, a.2 ∈ Reg → a ∈ ar A' c) (hg : Good A Reg c r) : Good A' Reg c r := by
  obtain ⟨a, h1, h2, h3⟩ := hg
  exact ⟨a, hc a h1 h2, h2, rch_frame (fun t ht => g.arcs_mem ht) h h3 h2⟩

theorem shut_frame {A A' : Abs} {Reg : List Nat} (h : Agree A A' Reg) {c : Nat} (hs : Shut A Reg c) : Shut A' Reg c := by
  intro t ht hlt a ha
  rw [h.ar ht] at ha
  exact hs t ht hlt a ha

theorem below_frame {A A' : Abs} {Reg : List Nat} (g : Glob A Reg) (h : Agree A A' Reg) {cs : List Nat} :
    ∀ {d : Nat} {xs : List Sym}, Agree A A' cs → Below A Reg d cs xs → Below A' Reg d cs xs := by
  induction cs with
  | nil => intro d xs _ hb; cases xs with | nil => exact hb | cons => exact hb.elim
  | cons c cs ih =>
    intro d xs hcs hb
    cases xs with
    | nil => exact hb.elim
    | cons x xs =>
      obtain ⟨b1, ⟨init, b2, b3⟩, b4, b5, b6⟩ := hb
      have hc := hcs.ar (s := c) (by simp)
      refine ⟨b1, ⟨init, by rw [hc, b2], b3⟩, ?_, shut_frame h b5, ih (fun s hs => hcs s (by simp [hs])) b6⟩
      intro r hr h1 h2
      exact good_frame g h (fun a ha _ => by rw [hc]; exact ha) (b4 r hr h1 h2)

/-- One more registered state, after the chain. -/
theorem below_reg {A : Abs} {Reg : List Nat} {n : Nat} {cs : List Nat} : ∀ {d : Nat} {xs : List Sym}, d ≤ n →
    Below A Reg d cs xs → Below A (Reg ++ [n]) d cs xs := by
  induction cs with
  | nil => intro d xs _ hb; cases xs with | nil => exact hb | cons => exact hb.elim
  | cons c cs ih =>
    intro d xs hd hb
    cases xs with
    | nil => exact hb.elim
    | cons x xs =>
      obtain ⟨b1, ⟨init, b2, b3⟩, b4, b5, b6⟩ := hb
      refine ⟨b1, ⟨init, b2, fun a ha => List.mem_append_left _ (b3 a ha)⟩, ?_, ?_, ih (by omega) b6⟩
      · intro r hr h1 h2
        simp only [List.mem_append, List.mem_singleton] at hr
        rcases hr with hr | rfl
        · obtain ⟨a, i1, i2, i3⟩ := b4 r hr h1 h2
          exact ⟨a, i1, List.mem_append_left _ i2, i3⟩
        · omega
      · intro t ht hlt a ha
        simp only [List.mem_append, List.mem_singleton] at ht
        rcases ht with ht | rfl
        · exact b5 t ht hlt a ha
        · omega

/-- A change at `d` that adds the words of `Q`, seen from the first state. -/
theorem acc_lift {A A' : Abs} {Reg : List Nat} (g : Glob A Reg) (h : Agree A A' Reg) {cs : List Nat} :
    ∀ {d : Nat} {xs : List Sym} (Q : List Sym → Prop), Agree A A' cs → Below A Reg d cs xs →
    (∀ v, Acc A' d v ↔ Acc A d v ∨ Q v) →
    ∀ v, Acc A' 0 v ↔ Acc A 0 v ∨ ∃ u, v = xs.reverse ++ u ∧ Q u := by
  induction cs with
  | nil =>
    intro d xs Q _ hb hQ v
    cases xs with
    | nil =>
      have : d = 0 := hb
      subst this
      rw [hQ]; simp
    | cons => exact hb.elim
  | cons c cs ih =>
    intro d xs Q hcs hb hQ v
    cases xs with
    | nil => exact hb.elim
    | cons x xs =>
      obtain ⟨b1, ⟨init, b2, b3⟩, b4, b5, b6⟩ := hb
      have hstep : ∀ v, Acc A' c v ↔ Acc A c v ∨ ∃ u, v = x :: u ∧ Q u := by
        intro v
        cases v with
        | nil => simp only [Acc, hcs.fi (s := c) (by simp)]; simp
        | cons y v =>
          simp only [Acc, hcs.ar (s := c) (by simp), b2, List.mem_append, List.mem_singleton, Prod.mk.injEq]
          constructor
          · rintro ⟨q, h1 | ⟨rfl, rfl⟩, h2⟩
            · exact .inl ⟨q, .inl h1, (acc_frame (fun t ht => g.arcs_mem ht) h v (b3 _ h1)).1 h2⟩
            · rcases (hQ v).1 h2 with h3 | h3
              · exact .inl ⟨q, .inr ⟨rfl, rfl⟩, h3⟩
              · exact .inr ⟨v, rfl, h3⟩
          · rintro (⟨q, h1 | ⟨rfl, rfl⟩, h2⟩ | ⟨u, e, hu⟩)
            · exact ⟨q, .inl h1, (acc_frame (fun t ht => g.arcs_mem ht) h v (b3 _ h1)).2 h2⟩
            · exact ⟨q, .inr ⟨rfl, rfl⟩, (hQ v).2 (.inl h2)⟩
            · simp only [List.cons.injEq] at e
              obtain ⟨rfl, rfl⟩ := e
              exact ⟨d, .inr ⟨rfl, rfl⟩, (hQ v).2 (.inr hu)⟩
      have := ih (fun v => ∃ u, v = x :: u ∧ Q u) (fun s hs => hcs s (by simp [hs])) b6 hstep v
      rw [this]
      simp only [List.reverse_cons, List.append_assoc, List.singleton_append]
      constructor
      · rintro (h1 | ⟨_, rfl, u, rfl, hu⟩)
        · exact .inl h1
        · exact .inr ⟨u, rfl, hu⟩
      · rintro (h1 | ⟨u, rfl, hu⟩)
        · exact .inl h1
        · exact .inr ⟨_, rfl, u, rfl, hu⟩

/-! ### A state of the chain is registered or replaced -/

/-- The entries of the register. -/
def RegOk (h : Bool × List (Sym × Nat) → Nat) (A : Abs) (reg : List Entry) (Reg : List Nat) : Prop :=
  reg.map (·.2) = Reg ∧ ∀ e ∈ reg, e.1 = h (sg A e.2)

theorem regOk_frame {h : Bool × List (Sym × Nat) → Nat} {A A' : Abs} {reg : List Entry} {Reg : List Nat}
    (hr : RegOk h A reg Reg) (ha : Agree A A' Reg) : RegOk h A' reg Reg := by
  refine ⟨hr.1, ?_⟩
  intro e he
  rw [ha e.2 (by rw [← hr.1]; exact List.mem_map_of_mem he)]
  exact hr.2 e he

theorem regFind_abs {cap : Nat} {h : Bool × List (Sym × Nat) → Nat} {A : Abs} {x : Bool × List (Sym × Nat)} {reg : List Entry}
    (hh : ∀ e ∈ reg, e.1 = h (sg A e.2)) (hlt : ∀ e ∈ reg, e.2 < A.length) :
    ∃ r, regFind (absOps cap) h A x reg = some r ∧
      match r with
      | some t => t ∈ reg.map (·.2) ∧ sg A t = x
      | none => ∀ t ∈ reg.map (·.2), sg A t ≠ x := by
  induction reg with
  | nil => exact ⟨none, rfl, by simp⟩
  | cons e reg ih =>
    obtain ⟨r, e1, e2⟩ := ih (fun e he => hh e (by simp [he])) (fun e he => hlt e (by simp [he]))
    unfold regFind
    by_cases hx : e.1 = h x
    · rw [if_pos hx, sig_abs (hlt e (by simp))]
      dsimp only
      by_cases hq : equiv (sg A e.2) x = true
      · rw [if_pos hq]
        exact ⟨_, rfl, by simp, equiv_iff.1 hq⟩
      · rw [if_neg hq]
        refine ⟨r, e1, ?_⟩
        cases r with
        | some t => exact ⟨by simp only [List.map_cons, List.mem_cons]; exact .inr e2.1, e2.2⟩
        | none =>
          intro t ht
          simp only [List.map_cons, List.mem_cons] at ht
          rcases ht with rfl | ht
          · exact fun he => hq (equiv_iff.2 he)
          · exact e2 t ht
    · rw [if_neg hx]
      refine ⟨r, e1, ?_⟩
      cases r with
      | some t => exact ⟨by simp only [List.map_cons, List.mem_cons]; exact .inr e2.1, e2.2⟩
      | none =>
        intro t ht
        simp only [List.map_cons, List.mem_cons] at ht
        rcases ht with rfl | ht
        · intro he
          apply hx
          rw [hh e (by simp), he]
        · exact e2 t ht

theorem rch_lt {A : Abs} {Reg : List Nat} (g : Glob A Reg) {c : Nat} (hs : Shut A Reg c) {d r : Nat} (hr : Rch A d r) :
    d ∈ Reg → d < c → r < c := by
  induction hr with
  | refl p => intro _ h; exact h
  | step ha _ ih => intro hd hlt; exact ih (g.arcs_mem hd _ ha) (hs _ hd hlt _ ha)

theorem rch_idx {A : Abs} {Reg : List Nat} (g : Glob A Reg) {d r : Nat} (hr : Rch A d r) :
    d ∈ Reg → Reg.idxOf r ≤ Reg.idxOf d := by
  induction hr with
  | refl p => intro _; exact Nat.le_refl _
  | step ha _ ih =>
    intro hd
    have h1 := ih (g.arcs_mem hd _ ha)
    have h2 := idx_lt g hd ha
    omega
where
  idx_lt {A : Abs} {Reg : List Nat} (g : Glob A Reg) {t : Nat} (ht : t ∈ Reg) {a : Sym × Nat} (ha : a ∈ ar A t) :
      Reg.idxOf a.2 < Reg.idxOf t := by
    obtain ⟨R1, R2, rfl⟩ := List.append_of_mem ht
    have h1 := g.arcs R1 t R2 rfl a ha
    have hn := g.nodup
    rw [List.nodup_append] at hn
    have ht1 : t ∉ R1 := fun hm => hn.2.2 t hm t (by simp) rfl
    rw [List.idxOf_append_of_mem h1, List.idxOf_append_of_notMem ht1]
    have := List.idxOf_lt_length_of_mem h1
    omega

/-- If the state is equivalent to a registered one, it is the last state. -/
theorem last_of_equiv {A : Abs} {Reg : List Nat} {c : Nat} {cs : List Nat} {xs : List Sym} (hI : Inv A Reg c cs xs)
    {t : Nat} (ht : t ∈ Reg) (e : sg A t = sg A c) : A.length = c + 1 := by
  have hcl : c < A.length := (hI.cover c).2 (by simp)
  by_contra hne
  -- the last state is registered
  have hr : A.length - 1 ∈ Reg := by
    rcases (hI.cover (A.length - 1)).1 (by omega) with h | h
    · exact h
    · simp only [List.mem_cons] at h
      rcases h with h | h
      · omega
      · have := below_lt hI.below _ h; omega
  have hta : ar A t = ar A c := congrArg Prod.snd e
  obtain ⟨a, h1, h2, h3⟩ := hI.good _ hr (by omega)
  have htc : t ≠ c := by rintro rfl; exact hI.disj t (by simp) ht
  rcases Nat.lt_or_gt_of_ne htc with hlt | hgt
  · have ha : a.2 < c := hI.shut t ht hlt a (by rw [hta]; exact h1)
    have := rch_lt hI.glob hI.shut h3 h2 ha
    omega
  · obtain ⟨b, i1, i2, i3⟩ := hI.good t ht hgt
    have j1 := rch_idx hI.glob i3 i2
    have j2 := rch_idx.idx_lt hI.glob ht (a := b) (by rw [hta]; exact i1)
    omega

theorem acc_sg {A : Abs} {s t : Nat} (e : sg A s = sg A t) (w : List Sym) : Acc A s w ↔ Acc A t w := by
  cases w with
  | nil => simp only [Acc, fi_eq, e]
  | cons x w => simp only [Acc, ar_eq, e]

/-- What a step of the replacement keeps. -/
structure Kept (A A' : Abs) (p : Nat) : Prop where
  /-- The symbols of the arcs. -/
  syms : (ar A' p).map (·.1) = (ar A p).map (·.1)
  acc : ∀ v, Acc A' 0 v ↔ Acc A 0 v
  count : arcCount A' ≤ arcCount A
  /-- Earlier states are not changed. -/
  low : ∀ s, s < p → sg A' s = sg A s

theorem count_modify {A : Abs} {p : Nat} (hp : p < A.length) (f : Bool × List (Sym × Nat) → Bool × List (Sym × Nat)) :
    arcCount (A.modify p f) + (ar A p).length = arcCount A + (f (sg A p)).2.length := by
  obtain ⟨A1, s, A2, rfl, rfl⟩ := split_at hp
  have hs : sg (A1 ++ s :: A2) A1.length = s := by simp [sg, fi, ar]
  rw [modify_split, ar_eq, hs, pack_split.1, pack_split.1]
  omega

theorem count_dropLast (A : Abs) : arcCount A.dropLast ≤ arcCount A := by
  rcases List.eq_nil_or_concat A with rfl | ⟨B, s, rfl⟩
  · simp
  · rw [List.concat_eq_append, List.dropLast_concat, arcCount_append]; omega

theorem setLast_append (l : List (Sym × Nat)) (x : Sym) (d q : Nat) : setLast q (l ++ [(x, d)]) = l ++ [(x, q)] := by
  simp [setLast]

theorem pop {cap : Nat} {h : Bool × List (Sym × Nat) → Nat} {A : Abs} {reg : List Entry} {Reg : List Nat} {c p : Nat}
    {cs : List Nat} {x : Sym} {xs : List Sym} (hI : Inv A Reg c (p :: cs) (x :: xs)) (hreg : RegOk h A reg Reg)
    (hu : fi A c = true ∨ ar A c ≠ []) :
    ∃ A' reg' Reg', rorEnd (absOps cap) h A reg p c = some (A', reg') ∧ RegOk h A' reg' Reg' ∧ Inv A' Reg' p cs xs ∧
      ar A' p ≠ [] ∧ Kept A A' p := by
  have hcl : c < A.length := (hI.cover c).2 (by simp)
  have hpl : p < A.length := (hI.cover p).2 (by simp)
  obtain ⟨b1, ⟨init, b2, b3⟩, b4, b5, b6⟩ := hI.below
  have hpReg : p ∉ Reg := hI.disj p (by simp)
  have hcReg : c ∉ Reg := hI.disj c (by simp)
  have hm : ∀ t ∈ Reg, ∀ a ∈ ar A t, a.2 ∈ Reg := fun t ht => hI.glob.arcs_mem ht
  unfold rorEnd
  rw [sig_abs hcl]
  dsimp only
  obtain ⟨r, hf, hrf⟩ := regFind_abs (cap := cap) (x := sg A c) hreg.2
    (fun e he => hI.glob.lt _ (by rw [← hreg.1]; exact List.mem_map_of_mem he))
  rw [hreg.1] at hrf
  rw [hf]
  cases r with
  | some t =>
    obtain ⟨htR, hts⟩ := hrf
    have hlast := last_of_equiv hI htR hts
    dsimp only
    have e1 : (absOps cap).setLastDest A p t = some (A.modify p (fun s => (s.1, setLast t s.2))) :=
      if_pos ⟨hpl, by rw [b2]; simp⟩
    rw [e1]
    dsimp only
    have hne : A.modify p (fun s => (s.1, setLast t s.2)) ≠ [] := by
      intro e; have := congrArg List.length e; simp at this; rw [this] at hpl; simp at hpl
    have e2 : (absOps cap).deleteLast (A.modify p (fun s => (s.1, setLast t s.2))) =
        some (A.modify p (fun s => (s.1, setLast t s.2))).dropLast := if_neg hne
    rw [e2]
    dsimp only
    generalize hA' : (A.modify p (fun s => (s.1, setLast t s.2))).dropLast = A'
    have hlen : A'.length = c := by rw [← hA']; simp [hlast]
    have hsg : ∀ s, s ≠ c → s ≠ p → s < A.length → sg A' s = sg A s := by
      intro s h1 h2 h3
      rw [← hA', sg_dropLast _ (by simp; omega), sg_modify _ _ hpl, if_neg h2]
    have hsp : sg A' p = (fi A p, init ++ [(x, t)]) := by
      rw [← hA', sg_dropLast _ (by simp; omega), sg_modify _ _ hpl, if_pos rfl]
      show (fi A p, setLast t (ar A p)) = _
      rw [b2, setLast_append]
    have hag : Agree A A' Reg := fun s hs => hsg s (fun e => hcReg (e ▸ hs)) (fun e => hpReg (e ▸ hs)) (hI.glob.lt s hs)
    have hagc : Agree A A' cs := by
      intro s hs
      have h1 := below_lt b6 s hs
      exact hsg s (by omega) (by omega) (by omega)
    have hap : ar A' p = init ++ [(x, t)] := by rw [ar_eq, hsp]
    refine ⟨A', reg, Reg, rfl, regOk_frame hreg hag, ?_, ?_, ?_⟩
    · refine ⟨?_, ?_, ?_, below_frame hI.glob hag hagc b6, ?_, ?_, shut_frame hag b5⟩
      · refine glob_frame hI.glob hag ?_ ?_
        · intro r hr
          have := hI.glob.lt r hr
          have : r ≠ c := fun e => hcReg (e ▸ hr)
          omega
        · intro s hs
          by_cases hsl : s < A.length
          · by_cases hsp' : s = p
            · rw [hsp', hap]
              have := hI.glob.sorted p
              rw [b2] at this
              rw [List.pairwise_append] at this ⊢
              refine ⟨this.1, by simp, ?_⟩
              intro a ha b hb
              simp only [List.mem_singleton] at hb
              subst hb
              exact this.2.2 a ha (x, c) (by simp)
            · by_cases hsc : s = c
              · have : ar A' s = [] := by rw [ar_eq, sg_out (by omega)]
                rw [this]; exact List.Pairwise.nil
              · have : ar A' s = ar A s := congrArg Prod.snd (hsg s hsc hsp' hsl)
                rw [this]; exact hI.glob.sorted s
          · have : ar A' s = [] := by rw [ar_eq, sg_out (by omega)]
            rw [this]; exact List.Pairwise.nil
      · intro s
        have hc := hI.cover s
        simp only [List.mem_cons] at hc ⊢
        rw [hlen]
        constructor
        · intro hs
          rcases hc.1 (by omega) with h1 | h1 | h1
          · exact .inl h1
          · omega
          · exact .inr h1
        · rintro (h1 | h1 | h1)
          · have h2 := hI.glob.lt s h1
            have : s ≠ c := fun e => hcReg (e ▸ h1)
            omega
          · omega
          · have := below_lt b6 s h1; omega
      · intro s hs; exact hI.disj s (List.mem_cons_of_mem _ hs)
      · intro a ha
        rw [hap] at ha
        simp only [List.mem_append, List.mem_singleton] at ha
        rcases ha with ha | rfl
        · exact b3 a ha
        · exact htR
      · intro r hr hlt
        have hrl := hI.glob.lt r hr
        have hrc : r ≠ c := fun e => hcReg (e ▸ hr)
        refine good_frame hI.glob hag ?_ (b4 r hr hlt (by omega))
        intro a ha haR
        rw [b2] at ha
        rw [hap]
        simp only [List.mem_append, List.mem_singleton] at ha ⊢
        rcases ha with ha | rfl
        · exact .inl ha
        · exact absurd haR hcReg
    · rw [hap]; simp
    · refine ⟨?_, ?_, ?_, fun s hs => hsg s (by omega) (by omega) (by omega)⟩
      · rw [hap, b2]; simp
      · have hp : ∀ v, Acc A' p v ↔ Acc A p v ∨ False := by
          intro v
          rw [or_false]
          cases v with
          | nil => simp only [Acc]; rw [fi_eq, hsp]
          | cons y v =>
            simp only [Acc, hap, b2, List.mem_append, List.mem_singleton, Prod.mk.injEq]
            have htv : Acc A' t v ↔ Acc A c v := (acc_frame hm hag v htR).trans (acc_sg hts v)
            constructor
            · rintro ⟨q, h1 | ⟨rfl, rfl⟩, h2⟩
              · exact ⟨q, .inl h1, (acc_frame hm hag v (b3 _ h1)).1 h2⟩
              · exact ⟨c, .inr ⟨rfl, rfl⟩, htv.1 h2⟩
            · rintro ⟨q, h1 | ⟨rfl, rfl⟩, h2⟩
              · exact ⟨q, .inl h1, (acc_frame hm hag v (b3 _ h1)).2 h2⟩
              · exact ⟨t, .inr ⟨rfl, rfl⟩, htv.2 h2⟩
        intro v
        have := acc_lift hI.glob hag (fun _ => False) hagc b6 hp v
        simpa using this
      · rw [← hA']
        refine Nat.le_trans (count_dropLast _) ?_
        have := count_modify hpl (fun s => (s.1, setLast t s.2))
        have e : (setLast t (sg A p).2).length = (ar A p).length := by
          rw [← ar_eq, b2, setLast_append]; simp
        dsimp only at this
        omega
  | none =>
    have hno := hrf
    dsimp only
    refine ⟨A, reg ++ [(h (sg A c), c)], Reg ++ [c], rfl, ?_, ?_, by rw [b2]; simp, ⟨rfl, fun _ => Iff.rfl, Nat.le_refl _, fun _ _ => rfl⟩⟩
    · refine ⟨by simp [hreg.1], ?_⟩
      intro e he
      simp only [List.mem_append, List.mem_singleton] at he
      rcases he with he | rfl
      · exact hreg.2 e he
      · rfl
    · refine ⟨?_, ?_, ?_, below_reg (Nat.le_of_lt b1) b6, ?_, ?_, ?_⟩
      · refine ⟨?_, ?_, ?_, ?_, hI.glob.sorted, ?_⟩
        · intro r hr
          simp only [List.mem_append, List.mem_singleton] at hr
          rcases hr with hr | rfl
          · exact hI.glob.lt r hr
          · exact hcl
        · rw [List.nodup_append]
          refine ⟨hI.glob.nodup, by simp, ?_⟩
          intro a ha b hb
          simp only [List.mem_singleton] at hb
          subst hb
          rintro rfl
          exact hcReg ha
        · intro R1 t R2 e a ha
          rcases List.eq_nil_or_concat R2 with rfl | ⟨R3, z, rfl⟩
          · have := List.append_inj' e (by simp)
            obtain ⟨e1, e2⟩ := this
            simp only [List.cons.injEq, and_true] at e2
            subst e2
            rw [← e1]; exact hI.head a ha
          · rw [List.concat_eq_append, ← List.cons_append, ← List.append_assoc] at e
            have := List.append_inj' e (by simp)
            exact hI.glob.arcs R1 t R3 this.1 a ha
        · intro s hs t ht e
          simp only [List.mem_append, List.mem_singleton] at hs ht
          rcases hs with hs | rfl <;> rcases ht with ht | rfl
          · exact hI.glob.sigs s hs t ht e
          · exact absurd e (hno s hs)
          · exact absurd e.symm (hno t ht)
          · rfl
        · intro r hr
          simp only [List.mem_append, List.mem_singleton] at hr
          rcases hr with hr | rfl
          · exact hI.glob.useful r hr
          · rcases hu with hu | hu
            · exact ⟨[], hu⟩
            · obtain ⟨a, ha⟩ := List.exists_mem_of_ne_nil _ hu
              obtain ⟨w, hw⟩ := hI.glob.useful _ (hI.head a ha)
              exact ⟨a.1 :: w, a.2, ha, hw⟩
      · intro s
        rw [hI.cover s]
        simp only [List.mem_cons, List.mem_append, List.mem_singleton, List.not_mem_nil, or_false]
        constructor
        · rintro (h1 | h1 | h1 | h1) <;> simp [h1]
        · rintro ((h1 | h1) | h1 | h1) <;> simp [h1]
      · intro s hs hsR
        simp only [List.mem_append, List.mem_singleton] at hsR
        rcases hsR with hsR | rfl
        · exact hI.disj s (List.mem_cons_of_mem _ hs) hsR
        · simp only [List.mem_cons] at hs
          rcases hs with rfl | hs
          · omega
          · have := below_lt b6 _ hs; omega
      · intro a ha
        rw [b2] at ha
        simp only [List.mem_append, List.mem_singleton] at ha ⊢
        rcases ha with ha | rfl
        · exact .inl (b3 a ha)
        · exact .inr rfl
      · intro r hr hlt
        simp only [List.mem_append, List.mem_singleton] at hr
        rcases hr with hr | rfl
        · rcases Nat.lt_trichotomy r c with h1 | h1 | h1
          · obtain ⟨a, i1, i2, i3⟩ := b4 r hr hlt h1
            exact ⟨a, i1, List.mem_append_left _ i2, i3⟩
          · exact absurd (h1 ▸ hr) hcReg
          · obtain ⟨a, i1, i2, i3⟩ := hI.good r hr h1
            exact ⟨(x, c), by rw [b2]; simp, by simp, .step i1 i3⟩
        · exact ⟨(x, r), by rw [b2]; simp, by simp, .refl _⟩
      · intro t ht hlt a ha
        simp only [List.mem_append, List.mem_singleton] at ht
        rcases ht with ht | rfl
        · exact b5 t ht hlt a ha
        · omega

end Verif.Fsa
