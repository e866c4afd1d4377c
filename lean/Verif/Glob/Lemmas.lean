import Verif.Glob.Model
import Verif.Glob.Spec
import Verif.Utf8.Lemmas

/-! Helper lemmas for `Props.lean`: byte-level relations bounding the matcher from both sides. -/
set_option linter.unusedVariables false
set_option linter.unusedSimpArgs false

namespace Verif.Glob
open Verif

/-- Upper bound: what a successful run of the matcher guarantees (`*` may stand for any bytes). -/
inductive MB : Str → Str → Prop
  | nil : MB [] []
  | star {g u v} : MB g v → MB (42 :: g) (u ++ v)
  | quest {g s cp s'} : Utf8.next s = some (cp, s') → MB g s' → MB (63 :: g) s
  | lit {b g s} : b ≠ 42 → b ≠ 63 → MB g s → MB (b :: g) (b :: s)

/-- Lower bound: the intended meaning on encoded text. -/
inductive MC : Str → Str → Prop
  | nil : MC [] []
  | star {g cs v} : (∀ c ∈ cs, Utf8.Spec.Scalar c) → MC g v → MC (42 :: g) (Utf8.Spec.encodeAll cs ++ v)
  | quest {g c s} : Utf8.Spec.Scalar c → MC g s → MC (63 :: g) (Utf8.Spec.encode c ++ s)
  | lit {b g s} : b ≠ 42 → b ≠ 63 → MC g s → MC (b :: g) (b :: s)

/-! ### soundness -/

theorem finish_MB {g : Str} (h : finish g = true) : MB g [] := by
  induction g with
  | nil => exact .nil
  | cons b g ih =>
    simp only [finish] at h
    split at h
    · rename_i hb; subst hb
      exact .star (u := []) (ih h)
    · simp at h

theorem loop2_sound (mp cp g s : Str) (h : g.length ≤ mp.length)
    (ht : loop2 mp cp g s h = some true) : MB g s ∨ ∃ v, v <:+ cp ∧ MB mp v := by
  fun_induction loop2 mp cp g s h with
  | case1 mp cp g h => simp at ht; exact Or.inl (finish_MB ht)
  | case2 mp b g h h' => simp at ht; exact Or.inr ⟨[], List.suffix_refl _, finish_MB ht⟩
  | case3 mp b g h d cp' h' ih =>
    right
    rcases ih ht with h1 | ⟨v, hv, h1⟩
    · exact ⟨_, List.suffix_refl _, h1⟩
    · exact ⟨v, hv.trans (List.suffix_cons _ _), h1⟩
  | case4 mp cp b g h h' =>
    left
    have := MB.star (u := b :: g) MB.nil
    simpa using this
  | case5 mp cp b g g' hg h h' ih =>
    left
    rcases ih ht with h1 | ⟨v, ⟨u, hu⟩, h1⟩
    · exact .star (u := []) h1
    · have := MB.star (u := b :: u) h1
      simpa [hu] using this
  | case6 => simp at ht
  | case7 mp cp b g g' cp' s'' hn h hx h' ih =>
    rcases ih ht with h1 | h1
    · exact Or.inl (.quest hn h1)
    · exact Or.inr h1
  | case8 mp cp g x g' h h1 h2 h' ih =>
    rcases ih ht with h3 | h3
    · exact Or.inl (.lit h1 h2 h3)
    · exact Or.inr h3
  | case9 mp b g x g' h h1 h2 h3 h' =>
    simp at ht; exact Or.inr ⟨[], List.suffix_refl _, finish_MB ht⟩
  | case10 mp b g x g' h h1 h2 h3 d cp' h' ih =>
    right
    rcases ih ht with h1 | ⟨v, hv, h1⟩
    · exact ⟨_, List.suffix_refl _, h1⟩
    · exact ⟨v, hv.trans (List.suffix_cons _ _), h1⟩

theorem loop1_sound (g s : Str) (ht : loop1 g s = some true) : MB g s := by
  fun_induction loop1 g s with
  | case1 g => simp at ht; exact finish_MB ht
  | case2 => simp at ht
  | case3 c s' g' =>
    rw [loop2] at ht
    simp only [B.star, if_true] at ht
    split at ht
    · rename_i hg
      subst hg
      have := MB.star (u := c :: s') MB.nil
      simpa using this
    · rcases loop2_sound _ _ _ _ _ ht with h1 | ⟨v, ⟨u, hu⟩, h1⟩
      · exact .star (u := []) h1
      · have := MB.star (u := c :: u) h1
        simpa [hu] using this
  | case4 => simp at ht
  | case5 => simp at ht
  | case6 c s' g' cp s'' hn _ _ ih => exact .quest hn (ih ht)
  | case7 c s' x g' h1 h2 h3 ih =>
    have : x = c := by
      by_cases hx : x = c
      · exact hx
      · exact absurd ⟨hx, h3⟩ h2
    subst this
    exact .lit h1 h3 (ih ht)

/-! ### completeness -/

/-- Every lead byte is followed by its trail bytes. -/
def Local (s : Str) : Prop := ∀ b t, (b :: t) <:+ s →
  Utf8.sequenceLength b ≤ t.length + 1 ∧
    ∀ c ∈ t.take (Utf8.sequenceLength b - 1), Utf8.isTrail c = true

theorem Local.suffix {s t : Str} (h : Local s) (ht : t <:+ s) : Local t :=
  fun b r hr => h b r (hr.trans ht)

theorem next_drop {b : Byte} {t : Str} (h : Utf8.sequenceLength b ≤ t.length + 1) :
    ∃ cp, Utf8.next (b :: t) = some (cp, t.drop (Utf8.sequenceLength b - 1)) := by
  have hle := Utf8.seqLen_le b
  have hc : Utf8.sequenceLength b = 0 ∨ Utf8.sequenceLength b = 1 ∨ Utf8.sequenceLength b = 2 ∨
    Utf8.sequenceLength b = 3 ∨ Utf8.sequenceLength b = 4 := by omega
  rcases hc with e | e | e | e | e
  · exact ⟨b.toNat, by simp [Utf8.next, e]⟩
  · exact ⟨b.toNat, by simp [Utf8.next, e]⟩
  · match t with
    | [] => simp [e] at h
    | b1 :: t => exact ⟨_, by simp only [Utf8.next, e]; rfl⟩
  · match t with
    | [] => simp [e] at h
    | [b1] => simp [e] at h
    | b1 :: b2 :: t => exact ⟨_, by simp only [Utf8.next, e]; rfl⟩
  · match t with
    | [] => simp [e] at h
    | [b1] => simp [e] at h
    | [b1, b2] => simp [e] at h
    | b1 :: b2 :: b3 :: t => exact ⟨_, by simp only [Utf8.next, e]; rfl⟩

/-- Stepping over one character never jumps over a later character boundary. -/
theorem next_suffix {s v : Str} {x : Byte} {p : Str} (hl : Local s) (hv : v ≠ [])
    (hs : s = v ++ x :: p) (hx : Utf8.isTrail x = false) :
    ∃ cp s', Utf8.next s = some (cp, s') ∧ (x :: p) <:+ s' := by
  match v with
  | [] => exact absurd rfl hv
  | b :: v =>
    subst hs
    obtain ⟨h1, h2⟩ := hl b (v ++ x :: p) (List.suffix_refl _)
    obtain ⟨cp, hn⟩ := next_drop h1
    refine ⟨cp, _, hn, ?_⟩
    have hlen : Utf8.sequenceLength b - 1 ≤ v.length := by
      rcases Nat.lt_or_ge v.length (Utf8.sequenceLength b - 1) with hlt | hge
      · have hmem : x ∈ (v ++ x :: p).take (Utf8.sequenceLength b - 1) := by
          rw [List.take_append]
          apply List.mem_append_right
          obtain ⟨k, hk⟩ : ∃ k, Utf8.sequenceLength b - 1 - v.length = k + 1 :=
            ⟨Utf8.sequenceLength b - 1 - v.length - 1, by omega⟩
          rw [hk]; simp
        have := h2 x hmem
        rw [hx] at this; simp at this
      · exact hge
    rw [List.drop_append_of_le_length hlen]
    exact List.suffix_append _ _

theorem suffix_cons_cases {p : Str} {c : Byte} {s : Str} (h : p <:+ c :: s) : p = c :: s ∨ p <:+ s := by
  rcases h with ⟨u, hu⟩
  match u with
  | [] => left; simpa using hu
  | a :: u => right; simp at hu; exact ⟨u, hu.2⟩

theorem MC_nil {g : Str} (h : MC g []) : finish g = true := by
  generalize hs : ([] : Str) = s at h
  induction h with
  | nil => rfl
  | @star g cs v h1 h2 ih =>
    have := List.append_eq_nil_iff.1 hs.symm
    simp [finish, ih this.2.symm]
  | @quest g c s h1 h2 ih =>
    have := List.append_eq_nil_iff.1 hs.symm
    exact absurd this.1 (Utf8.encode_ne_nil c)
  | lit => simp at hs

theorem MC_nil_left {p : Str} (h : MC [] p) : p = [] := by
  cases h; rfl

theorem MC_star {g p : Str} (h : MC (42 :: g) p) : ∃ v, v <:+ p ∧ MC g v := by
  generalize hg : (42 : Byte) :: g = g0 at h
  cases h with
  | nil => simp at hg
  | @star g' cs v h1 h2 =>
    simp at hg; subst hg
    exact ⟨v, List.suffix_append _ _, h2⟩
  | quest => simp at hg
  | lit h1 h2 h3 => simp at hg; exact absurd hg.1.symm h1

theorem MC_quest {g p : Str} (h : MC (63 :: g) p) :
    ∃ c s, Utf8.Spec.Scalar c ∧ p = Utf8.Spec.encode c ++ s ∧ MC g s := by
  generalize hg : (63 : Byte) :: g = g0 at h
  cases h with
  | nil => simp at hg
  | star => simp at hg
  | @quest g' c s h1 h2 =>
    simp at hg; subst hg
    exact ⟨c, s, h1, rfl, h2⟩
  | lit h1 h2 h3 => simp at hg; exact absurd hg.1.symm h2

theorem MC_lit {b : Byte} {g p : Str} (h1 : b ≠ 42) (h2 : b ≠ 63) (h : MC (b :: g) p) :
    ∃ s, p = b :: s ∧ MC g s := by
  generalize hg : b :: g = g0 at h
  cases h with
  | nil => simp at hg
  | star => simp at hg; exact absurd hg.1 h1
  | quest => simp at hg; exact absurd hg.1 h2
  | @lit b' g' s _ _ h3 =>
    simp at hg; obtain ⟨rfl, rfl⟩ := hg
    exact ⟨s, rfl, h3⟩

theorem loop2_complete (mp cp g s : Str) (h : g.length ≤ mp.length) (hs : Local s) (hcp : Local cp)
    (hm : ∃ p0 p, MC mp p0 ∧ MC g p ∧ p <:+ s ∧ (p0 <:+ cp ∨ p = s)) :
    loop2 mp cp g s h = some true := by
  fun_induction loop2 mp cp g s h with
  | case1 mp cp g h =>
    obtain ⟨p0, p, h0, h1, h2, _⟩ := hm
    have : p = [] := by simpa using h2
    subst this
    simp [MC_nil h1]
  | case2 mp b g h h' =>
    obtain ⟨p0, p, h0, h1, h2, h3⟩ := hm
    have := MC_nil_left h1; subst this
    rcases h3 with h3 | h3
    · have : p0 = [] := by simpa using h3
      subst this; simp [MC_nil h0]
    · simp at h3
  | case3 mp b g h d cp' h' ih =>
    obtain ⟨p0, p, h0, h1, h2, h3⟩ := hm
    have := MC_nil_left h1; subst this
    rcases h3 with h3 | h3
    · refine ih hcp (hcp.suffix (List.suffix_cons _ _)) ⟨p0, p0, h0, h0, h3, ?_⟩
      rcases suffix_cons_cases h3 with h4 | h4
      · exact Or.inr h4
      · exact Or.inl h4
    · simp at h3
  | case4 => rfl
  | case5 mp cp b g g' hg h h' ih =>
    obtain ⟨p0, p, h0, h1, h2, h3⟩ := hm
    obtain ⟨v, hv, h4⟩ := MC_star h1
    have hv' := hv.trans h2
    refine ih hs (hs.suffix (List.suffix_cons _ _)) ⟨v, v, h4, h4, hv', ?_⟩
    rcases suffix_cons_cases hv' with h5 | h5
    · exact Or.inr h5
    · exact Or.inl h5
  | case6 mp cp b g g' hn h hx h' =>
    have := (hs b g (List.suffix_refl _)).1
    obtain ⟨cp', hn'⟩ := next_drop this
    rw [hn'] at hn; simp at hn
  | case7 mp cp b g g' cp1 s'' hn h hx h' ih =>
    obtain ⟨p0, p, h0, h1, h2, h3⟩ := hm
    obtain ⟨c, r, hc, rfl, h4⟩ := MC_quest h1
    have hsuf : s'' <:+ b :: g := by
      have := (hs b g (List.suffix_refl _)).1
      obtain ⟨cp', hn'⟩ := next_drop this
      rw [hn'] at hn; simp at hn
      rw [← hn.2]
      exact (List.drop_suffix _ _).trans (List.suffix_cons _ _)
    by_cases hp : Utf8.Spec.encode c ++ r = b :: g
    · have hn2 := Utf8.next_encode c (Utf8.scalar_lt hc) r
      rw [hp, hn] at hn2
      simp at hn2
      obtain ⟨_, rfl⟩ := hn2
      exact ih (hs.suffix hsuf) hcp ⟨p0, s'', h0, h4, List.suffix_refl _, Or.inr rfl⟩
    · rcases h3 with h3 | h3
      · obtain ⟨x, t, he, hx1, _, _⟩ := Utf8.encode_shape c (Utf8.scalar_lt hc)
        obtain ⟨u, hu⟩ := h2
        have hu0 : u ≠ [] := by
          rintro rfl; exact hp (by simpa using hu)
        rw [he] at hu
        obtain ⟨cp2, s2, hn2, hs2⟩ := next_suffix (p := t ++ r) hs hu0 hu.symm hx1
        rw [hn] at hn2; simp at hn2
        obtain ⟨_, rfl⟩ := hn2
        refine ih (hs.suffix hsuf) hcp ⟨p0, r, h0, h4, ?_, Or.inl h3⟩
        exact ((List.suffix_append t r).trans (List.suffix_cons _ _)).trans hs2
      · exact absurd h3 hp
  | case8 mp cp g x g' h h1 h2 h' ih =>
    obtain ⟨p0, p, h0, h3, h4, h5⟩ := hm
    obtain ⟨r, rfl, h6⟩ := MC_lit h1 h2 h3
    have hg : g <:+ x :: g := List.suffix_cons _ _
    rcases suffix_cons_cases h4 with h7 | h7
    · simp at h7; subst h7
      exact ih (hs.suffix hg) hcp ⟨p0, r, h0, h6, List.suffix_refl _, Or.inr rfl⟩
    · rcases h5 with h5 | h5
      · exact ih (hs.suffix hg) hcp ⟨p0, r, h0, h6, (List.suffix_cons _ _).trans h7, Or.inl h5⟩
      · simp at h5; subst h5
        exact ih (hs.suffix hg) hcp ⟨p0, r, h0, h6, List.suffix_refl _, Or.inr rfl⟩
  | case9 mp b g x g' h h1 h2 h3 h' =>
    obtain ⟨p0, p, h0, h4, h5, h6⟩ := hm
    obtain ⟨r, rfl, h7⟩ := MC_lit h1 h2 h4
    rcases h6 with h6 | h6
    · have : p0 = [] := by simpa using h6
      subst this; simp [MC_nil h0]
    · simp at h6; exact absurd h6.1 h3
  | case10 mp b g x g' h h1 h2 h3 d cp' h' ih =>
    obtain ⟨p0, p, h0, h4, h5, h6⟩ := hm
    obtain ⟨r, rfl, h7⟩ := MC_lit h1 h2 h4
    rcases h6 with h6 | h6
    · refine ih hcp (hcp.suffix (List.suffix_cons _ _)) ⟨p0, p0, h0, h0, h6, ?_⟩
      rcases suffix_cons_cases h6 with h8 | h8
      · exact Or.inr h8
      · exact Or.inl h8
    · simp at h6; exact absurd h6.1 h3

theorem next_suffix_of_local {b : Byte} {g s' : Str} {cp : Nat} (hs : Local (b :: g))
    (hn : Utf8.next (b :: g) = some (cp, s')) : s' <:+ b :: g := by
  have := (hs b g (List.suffix_refl _)).1
  obtain ⟨cp', hn'⟩ := next_drop this
  rw [hn'] at hn; simp at hn
  rw [← hn.2]
  exact (List.drop_suffix _ _).trans (List.suffix_cons _ _)

theorem loop2_defined (mp cp g s : Str) (h : g.length ≤ mp.length) (hs : Local s) (hcp : Local cp) :
    (loop2 mp cp g s h).isSome := by
  fun_induction loop2 mp cp g s h with
  | case1 => rfl
  | case2 => rfl
  | case3 mp b g h d cp' h' ih => exact ih hcp (hcp.suffix (List.suffix_cons _ _))
  | case4 => rfl
  | case5 mp cp b g g' hg h h' ih => exact ih hs (hs.suffix (List.suffix_cons _ _))
  | case6 mp cp b g g' hn h hx h' =>
    have := (hs b g (List.suffix_refl _)).1
    obtain ⟨cp', hn'⟩ := next_drop this
    rw [hn'] at hn; simp at hn
  | case7 mp cp b g g' cp1 s'' hn h hx h' ih => exact ih (hs.suffix (next_suffix_of_local hs hn)) hcp
  | case8 mp cp g x g' h h1 h2 h' ih => exact ih (hs.suffix (List.suffix_cons _ _)) hcp
  | case9 => rfl
  | case10 mp b g x g' h h1 h2 h3 d cp' h' ih => exact ih hcp (hcp.suffix (List.suffix_cons _ _))

theorem loop1_defined (g s : Str) (hs : Local s) : (loop1 g s).isSome := by
  fun_induction loop1 g s with
  | case1 => rfl
  | case2 => rfl
  | case3 c s' g' => exact loop2_defined _ _ _ _ _ hs (hs.suffix (List.nil_suffix))
  | case4 => rfl
  | case5 c s' g' hn =>
    have := (hs c s' (List.suffix_refl _)).1
    obtain ⟨cp', hn'⟩ := next_drop this
    rw [hn'] at hn; simp at hn
  | case6 c s' g' cp s'' hn _ _ ih => exact ih (hs.suffix (next_suffix_of_local hs hn))
  | case7 c s' x g' h1 h2 h3 ih => exact ih (hs.suffix (List.suffix_cons _ _))

theorem loop1_complete (g s : Str) (hs : Local s) (hm : MC g s) : loop1 g s = some true := by
  fun_induction loop1 g s with
  | case1 g => simp [MC_nil hm]
  | case2 c s' => have := MC_nil_left hm; simp at this
  | case3 c s' g' =>
    exact loop2_complete _ _ _ _ _ hs (hs.suffix List.nil_suffix)
      ⟨c :: s', c :: s', hm, hm, List.suffix_refl _, Or.inr rfl⟩
  | case4 c s' x g' h1 h2 =>
    obtain ⟨r, hr, _⟩ := MC_lit h1 h2.2 hm
    simp at hr; exact absurd hr.1.symm h2.1
  | case5 c s' g' hn =>
    have := (hs c s' (List.suffix_refl _)).1
    obtain ⟨cp', hn'⟩ := next_drop this
    rw [hn'] at hn; simp at hn
  | case6 c s' g' cp s'' hn _ _ ih =>
    obtain ⟨c', r, hc, hr, h4⟩ := MC_quest hm
    have hsuf := next_suffix_of_local hs hn
    have hn2 := Utf8.next_encode c' (Utf8.scalar_lt hc) r
    rw [← hr, hn] at hn2
    simp at hn2; obtain ⟨_, rfl⟩ := hn2
    exact ih (hs.suffix hsuf) h4
  | case7 c s' x g' h1 h2 h3 ih =>
    obtain ⟨r, hr, h4⟩ := MC_lit h1 h3 hm
    simp at hr; obtain ⟨rfl, rfl⟩ := hr
    exact ih (hs.suffix (List.suffix_cons _ _)) h4

/-! ### encoded text -/

theorem local_encodeAll (cs : List Nat) (h : ∀ c ∈ cs, Utf8.Spec.Scalar c) :
    Local (Utf8.Spec.encodeAll cs) := by
  induction cs with
  | nil => intro b t ht; simp [Utf8.Spec.encodeAll] at ht
  | cons c cs ih =>
    intro b t ht
    obtain ⟨x, tr, he, _, htr, hlen⟩ := Utf8.encode_shape c (Utf8.scalar_lt (h c (by simp)))
    have ih' := ih (fun c' hc => h c' (by simp [hc]))
    simp only [Utf8.Spec.encodeAll, List.flatMap_cons, he, List.cons_append] at ht ih'
    rcases suffix_cons_cases ht with h1 | h1
    · simp at h1; obtain ⟨rfl, rfl⟩ := h1
      rw [hlen]
      refine ⟨by simp, ?_⟩
      intro c' hc'
      simp at hc'
      exact htr c' hc'
    · -- inside the trail bytes or in the rest
      have key : ∀ tr : Str, (∀ c ∈ tr, Utf8.isTrail c = true) →
          (b :: t) <:+ tr ++ List.flatMap Utf8.Spec.encode cs →
          Utf8.sequenceLength b ≤ t.length + 1 ∧
            ∀ c ∈ t.take (Utf8.sequenceLength b - 1), Utf8.isTrail c = true := by
        intro tr
        induction tr with
        | nil => intro _ h2; exact ih' b t (by simpa using h2)
        | cons y tr ihr =>
          intro hy h2
          rcases suffix_cons_cases (by simpa using h2) with h3 | h3
          · simp at h3; obtain ⟨rfl, rfl⟩ := h3
            have h4 := (Utf8.isTrail_iff b).1 (hy b (by simp))
            have h0 : Utf8.sequenceLength b = 0 := (Utf8.seqLen_0 b).2 (Or.inl h4)
            simp [h0]
          · exact ihr (fun c hc => hy c (by simp [hc])) h3
      exact key tr htr h1

theorem encode_lit {c : Nat} (hc : Utf8.Spec.Scalar c) (h1 : c ≠ 42) (h2 : c ≠ 63) :
    ∀ b ∈ Utf8.Spec.encode c, b ≠ 42 ∧ b ≠ 63 := by
  have hlt := Utf8.scalar_lt hc
  intro b hb
  have tb : ∀ n, n < 256 → (Utf8.Spec.byte n).toNat = n := by
    intro n hn; simp only [Utf8.Spec.byte, Utf8.toNat_ofNat]; omega
  have hne : ∀ n, n < 256 → n ≠ 42 → n ≠ 63 → b = Utf8.Spec.byte n → b ≠ 42 ∧ b ≠ 63 := by
    intro n hn h1 h2 e
    have h3 := tb n hn
    constructor
    · rintro rfl
      rw [← e] at h3; exact h1 (by simpa using h3.symm)
    · rintro rfl
      rw [← e] at h3; exact h2 (by simpa using h3.symm)
  unfold Utf8.Spec.encode at hb
  repeat' split at hb
  all_goals simp only [List.mem_cons, List.not_mem_nil, or_false] at hb
  · exact hne c (by omega) h1 h2 hb
  · rcases hb with hb | hb <;> exact hne _ (by omega) (by omega) (by omega) hb
  · rcases hb with hb | hb | hb <;> exact hne _ (by omega) (by omega) (by omega) hb
  · rcases hb with hb | hb | hb | hb <;> exact hne _ (by omega) (by omega) (by omega) hb

theorem MC_lits {x g s : Str} (hx : ∀ b ∈ x, b ≠ 42 ∧ b ≠ 63) (h : MC g s) : MC (x ++ g) (x ++ s) := by
  induction x with
  | nil => exact h
  | cons b x ih =>
    have := hx b (by simp)
    exact .lit this.1 this.2 (ih (fun c hc => hx c (by simp [hc])))

theorem encode_star : Utf8.Spec.encode 42 = [42] := rfl
theorem encode_quest : Utf8.Spec.encode 63 = [63] := rfl

theorem MC_of_matches {g n : List Nat} (hg : ∀ c ∈ g, Utf8.Spec.Scalar c)
    (hn : ∀ c ∈ n, Utf8.Spec.Scalar c) (h : Spec.Matches g n) :
    MC (Utf8.Spec.encodeAll g) (Utf8.Spec.encodeAll n) := by
  induction h with
  | nil => exact .nil
  | @star g run s h ih =>
    simp only [Utf8.Spec.encodeAll, List.flatMap_cons, List.flatMap_append, encode_star]
    exact .star (fun c hc => hn c (by simp [hc]))
      (ih (fun c hc => hg c (by simp [hc])) (fun c hc => hn c (by simp [hc])))
  | @quest g c s h ih =>
    simp only [Utf8.Spec.encodeAll, List.flatMap_cons, encode_quest]
    exact .quest (hn c (by simp))
      (ih (fun c hc => hg c (by simp [hc])) (fun c hc => hn c (by simp [hc])))
  | @lit c g s h1 h2 h ih =>
    simp only [Utf8.Spec.encodeAll, List.flatMap_cons]
    exact MC_lits (encode_lit (hg c (by simp)) h1 h2)
      (ih (fun c hc => hg c (by simp [hc])) (fun c hc => hn c (by simp [hc])))

/-- Reading a multi-byte literal at the byte level. -/
theorem MB_lits {x g s : Str} (hx : ∀ b ∈ x, b ≠ 42 ∧ b ≠ 63) (h : MB (x ++ g) s) :
    ∃ r, s = x ++ r ∧ MB g r := by
  induction x generalizing s with
  | nil => exact ⟨s, rfl, h⟩
  | cons b x ih =>
    have hb := hx b (by simp)
    generalize hg : b :: x ++ g = g0 at h
    cases h with
    | nil => simp at hg
    | star => simp at hg; exact absurd hg.1 hb.1
    | quest => simp at hg; exact absurd hg.1 hb.2
    | @lit b' g' s _ _ h3 =>
      simp at hg; obtain ⟨rfl, rfl⟩ := hg
      obtain ⟨r, rfl, hr⟩ := ih (fun c hc => hx c (by simp [hc])) h3
      exact ⟨r, rfl, hr⟩

theorem MB_star {g s : Str} (h : MB (42 :: g) s) : ∃ u v, s = u ++ v ∧ MB g v := by
  generalize hg : (42 : Byte) :: g = g0 at h
  cases h with
  | nil => simp at hg
  | @star g' u v h2 => simp at hg; subst hg; exact ⟨u, v, rfl, h2⟩
  | quest => simp at hg
  | lit h1 h2 h3 => simp at hg; exact absurd hg.1.symm h1

theorem MB_quest {g s : Str} (h : MB (63 :: g) s) :
    ∃ cp s', Utf8.next s = some (cp, s') ∧ MB g s' := by
  generalize hg : (63 : Byte) :: g = g0 at h
  cases h with
  | nil => simp at hg
  | star => simp at hg
  | @quest g' s cp s' h1 h2 => simp at hg; subst hg; exact ⟨cp, s', h1, h2⟩
  | lit h1 h2 h3 => simp at hg; exact absurd hg.1.symm h2

/-- A suffix of encoded text is some trail bytes followed by encoded text. -/
theorem suffix_encodeAll (cs : List Nat) (h : ∀ c ∈ cs, Utf8.Spec.Scalar c) (t v : Str)
    (ht : ∀ b ∈ t, Utf8.isTrail b = true)
    (hv : v <:+ t ++ Utf8.Spec.encodeAll cs) :
    ∃ t' cs', (∀ b ∈ t', Utf8.isTrail b = true) ∧ cs' <:+ cs ∧ v = t' ++ Utf8.Spec.encodeAll cs' := by
  induction cs generalizing t with
  | nil =>
    simp [Utf8.Spec.encodeAll] at hv
    exact ⟨v, [], fun b hb => ht b (hv.subset hb), List.suffix_refl _, by simp [Utf8.Spec.encodeAll]⟩
  | cons c cs ih =>
    induction t with
    | nil =>
      obtain ⟨x, tr, he, _, htr, _⟩ := Utf8.encode_shape c (Utf8.scalar_lt (h c (by simp)))
      simp only [Utf8.Spec.encodeAll, List.flatMap_cons, List.nil_append] at hv
      rw [he] at hv
      rcases suffix_cons_cases hv with h1 | h1
      · refine ⟨[], c :: cs, by simp, List.suffix_refl _, ?_⟩
        simp only [Utf8.Spec.encodeAll, List.flatMap_cons, List.nil_append, he]
        exact h1
      · obtain ⟨t', cs', h2, h3, h4⟩ := ih (fun c hc => h c (by simp [hc])) tr htr h1
        exact ⟨t', cs', h2, h3.trans (List.suffix_cons _ _), h4⟩
    | cons b t iht =>
      rcases suffix_cons_cases hv with h1 | h1
      · exact ⟨b :: t, c :: cs, ht, List.suffix_refl _, h1⟩
      · exact iht (fun b hb => ht b (by simp [hb])) h1

/-- A literal character at the front of (partial) encoded text forces a boundary. -/
theorem lit_boundary {c : Nat} (hc : Utf8.Spec.Scalar c) {t : Str}
    (ht : ∀ b ∈ t, Utf8.isTrail b = true) {n : List Nat} (hn : ∀ c ∈ n, Utf8.Spec.Scalar c) {r : Str}
    (h : t ++ Utf8.Spec.encodeAll n = Utf8.Spec.encode c ++ r) :
    t = [] ∧ ∃ n', n = c :: n' ∧ r = Utf8.Spec.encodeAll n' := by
  obtain ⟨x, tr, he, hx, _, _⟩ := Utf8.encode_shape c (Utf8.scalar_lt hc)
  match t with
  | b :: t =>
    rw [he] at h; simp at h
    have := ht b (by simp)
    rw [h.1, hx] at this; simp at this
  | [] =>
    refine ⟨rfl, ?_⟩
    match n with
    | [] =>
      simp [Utf8.Spec.encodeAll] at h
      exact absurd h.1 (Utf8.encode_ne_nil c)
    | d :: n =>
      have hd := hn d (by simp)
      have h1 := Utf8.next_encode c (Utf8.scalar_lt hc) r
      have h2 := Utf8.next_encode d (Utf8.scalar_lt hd) (Utf8.Spec.encodeAll n)
      simp only [List.nil_append, Utf8.Spec.encodeAll, List.flatMap_cons] at h h2
      rw [h, h1] at h2
      simp at h2
      exact ⟨n, by rw [h2.1], by simpa [Utf8.Spec.encodeAll] using h2.2⟩

theorem matches_of_MB {g n : List Nat} (hg : ∀ c ∈ g, Utf8.Spec.Scalar c)
    (hn : ∀ c ∈ n, Utf8.Spec.Scalar c) (hq : Spec.NoStarQuest g) {t : Str}
    (ht : ∀ b ∈ t, Utf8.isTrail b = true) (hb : t ≠ [] → ∀ g', g ≠ 63 :: g')
    (h : MB (Utf8.Spec.encodeAll g) (t ++ Utf8.Spec.encodeAll n)) : Spec.Matches g n := by
  induction g generalizing n t with
  | nil =>
    simp only [Utf8.Spec.encodeAll, List.flatMap_nil] at h
    generalize hs : t ++ List.flatMap Utf8.Spec.encode n = s at h
    cases h
    match n with
    | [] => exact .nil
    | d :: n =>
      simp at hs
      exact absurd hs.2.1 (Utf8.encode_ne_nil d)
  | cons c g ih =>
    have hg' : ∀ c ∈ g, Utf8.Spec.Scalar c := fun c hc => hg c (by simp [hc])
    have hq' : Spec.NoStarQuest g := by
      intro p q e; exact hq (c :: p) q (by simp [e])
    by_cases h1 : c = 42
    · subst h1
      simp only [Utf8.Spec.encodeAll, List.flatMap_cons, encode_star] at h
      obtain ⟨u, v, huv, hv⟩ := MB_star h
      obtain ⟨t', n', ht', ⟨run, hrun⟩, rfl⟩ := suffix_encodeAll n hn t v ht ⟨u, huv.symm⟩
      have hn' : ∀ c ∈ n', Utf8.Spec.Scalar c := fun c hc => hn c (by rw [← hrun]; simp [hc])
      rw [← hrun]
      refine .star (ih hg' hn' hq' ht' ?_ hv)
      rintro _ g' rfl
      exact hq [] g' rfl
    · by_cases h2 : c = 63
      · subst h2
        have ht0 : t = [] := by
          by_cases h0 : t = []
          · exact h0
          · exact absurd rfl (hb h0 g)
        subst ht0
        simp only [Utf8.Spec.encodeAll, List.flatMap_cons, encode_quest] at h
        obtain ⟨cp, s', hnx, h3⟩ := MB_quest h
        match n with
        | [] => simp [Utf8.next] at hnx
        | d :: n =>
          have := Utf8.next_encode d (Utf8.scalar_lt (hn d (by simp))) (Utf8.Spec.encodeAll n)
          simp only [List.nil_append, List.flatMap_cons, Utf8.Spec.encodeAll] at hnx this
          rw [hnx] at this
          simp at this
          obtain ⟨_, rfl⟩ := this
          exact .quest (ih hg' (fun c hc => hn c (by simp [hc])) hq' (t := []) (by simp) (by simp) h3)
      · simp only [Utf8.Spec.encodeAll, List.flatMap_cons] at h
        have hc := hg c (by simp)
        obtain ⟨r, hr, h3⟩ := MB_lits (encode_lit hc h1 h2) h
        obtain ⟨rfl, n', rfl, rfl⟩ := lit_boundary hc ht hn hr
        exact .lit h1 h2 (ih hg' (fun c hc => hn c (by simp [hc])) hq' (t := []) (by simp) (by simp) h3)

/-- For names of ASCII characters every byte position is a boundary. -/
theorem matches_of_MB_ascii {g n : List Nat} (hg : ∀ c ∈ g, Utf8.Spec.Scalar c)
    (hn : ∀ c ∈ n, c < 128) (h : MB (Utf8.Spec.encodeAll g) (Utf8.Spec.encodeAll n)) :
    Spec.Matches g n := by
  have hsc : ∀ {n : List Nat}, (∀ c ∈ n, c < 128) → ∀ c ∈ n, Utf8.Spec.Scalar c := by
    intro n hn c hc
    have := hn c hc
    simp [Utf8.Spec.Scalar]; omega
  have hntr : ∀ {n : List Nat}, (∀ c ∈ n, c < 128) → ∀ b ∈ Utf8.Spec.encodeAll n,
      Utf8.isTrail b = false := by
    intro n hn b hb
    simp only [Utf8.Spec.encodeAll, List.mem_flatMap] at hb
    obtain ⟨c, hc, hb⟩ := hb
    have := hn c hc
    simp [Utf8.Spec.encode, this] at hb
    subst hb
    rw [Bool.eq_false_iff, ne_eq, Utf8.isTrail_iff]
    simp only [Utf8.Spec.byte, Utf8.toNat_ofNat]
    omega
  induction g generalizing n with
  | nil =>
    simp only [Utf8.Spec.encodeAll, List.flatMap_nil] at h
    generalize hs : List.flatMap Utf8.Spec.encode n = s at h
    cases h
    match n with
    | [] => exact .nil
    | d :: n =>
      simp at hs
      exact absurd hs.1 (Utf8.encode_ne_nil d)
  | cons c g ih =>
    have hg' : ∀ c ∈ g, Utf8.Spec.Scalar c := fun c hc => hg c (by simp [hc])
    by_cases h1 : c = 42
    · subst h1
      simp only [Utf8.Spec.encodeAll, List.flatMap_cons, encode_star] at h
      obtain ⟨u, v, huv, hv⟩ := MB_star h
      obtain ⟨t', n', ht', ⟨run, hrun⟩, hv'⟩ :=
        suffix_encodeAll n (hsc hn) [] v (by simp) (by simpa [Utf8.Spec.encodeAll] using ⟨u, huv.symm⟩)
      have hn' : ∀ c ∈ n', c < 128 := fun c hc => hn c (by rw [← hrun]; simp [hc])
      have : t' = [] := by
        match t' with
        | [] => rfl
        | b :: t' =>
          have h5 := ht' b (by simp)
          have h6 := hntr hn b (by
            simp only [Utf8.Spec.encodeAll]
            rw [huv, hv']; simp)
          rw [h5] at h6; simp at h6
      subst this
      simp at hv'
      subst hv'
      rw [← hrun]
      exact .star (ih hg' hn' hv)
    · by_cases h2 : c = 63
      · subst h2
        simp only [Utf8.Spec.encodeAll, List.flatMap_cons, encode_quest] at h
        obtain ⟨cp, s', hnx, h3⟩ := MB_quest h
        match n with
        | [] => simp [Utf8.next] at hnx
        | d :: n =>
          have := Utf8.next_encode d (Utf8.scalar_lt (hsc hn d (by simp))) (Utf8.Spec.encodeAll n)
          simp only [List.flatMap_cons, Utf8.Spec.encodeAll] at hnx this
          rw [hnx] at this
          simp at this
          obtain ⟨_, rfl⟩ := this
          exact .quest (ih hg' (fun c hc => hn c (by simp [hc])) h3)
      · simp only [Utf8.Spec.encodeAll, List.flatMap_cons] at h
        have hc := hg c (by simp)
        obtain ⟨r, hr, h3⟩ := MB_lits (encode_lit hc h1 h2) h
        obtain ⟨_, n', rfl, rfl⟩ := lit_boundary (t := []) hc (by simp) (hsc hn) hr
        exact .lit h1 h2 (ih hg' (fun c hc => hn c (by simp [hc])) h3)

end Verif.Glob
