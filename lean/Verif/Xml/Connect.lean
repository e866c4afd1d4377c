import Verif.Xml.Index

set_option linter.unusedVariables false
set_option linter.unusedSimpArgs false

namespace Verif.Xml
open Verif Verif.Server

/-- The nodes of a forest, parents before children; `k` is the number of the first one. -/
def pre : Nat → Nat → Forest → List (Nat × Nat × Nat)
  | _, _, .nil => []
  | p, k, .word r => pre (p + 1) k r
  | p, k, .node _ i r => (p, p + i.width - 1, k + i.size) :: (pre p k i ++ pre (p + i.width) (k + i.size + 1) r)

def preIds : Nat → Forest → List Nat
  | _, .nil => []
  | k, .word r => preIds k r
  | k, .node _ i r => (k + i.size) :: (preIds k i ++ preIds (k + i.size + 1) r)

theorem pre_ids : ∀ (f : Forest) (p k : Nat), (pre p k f).map (fun x => x.2.2) = preIds k f := by
  intro f
  induction f with
  | nil => intros; rfl
  | word r ih => intro p k; exact ih (p + 1) k
  | node l i r ih1 ih2 => intro p k; simp [pre, preIds, ih1, ih2]

theorem nodes_length : ∀ (f : Forest) (p : Nat), (f.nodes p).length = f.size := by
  intro f
  induction f with
  | nil => intros; rfl
  | word r ih => intro p; exact ih (p + 1)
  | node l i r ih1 ih2 => intro p; simp [Forest.nodes, Forest.size, ih1, ih2]; omega

theorem pre_bounds : ∀ (f : Forest) (p k : Nat), f.Regular → ∀ x ∈ pre p k f,
    p ≤ x.1 ∧ x.1 ≤ x.2.1 ∧ x.2.1 < p + f.width ∧ k ≤ x.2.2 ∧ x.2.2 < k + f.size := by
  intro f
  induction f with
  | nil => intro p k _ x hx; simp [pre] at hx
  | word r ih =>
    intro p k h x hx
    have := ih (p + 1) k h x hx
    simp only [Forest.width, Forest.size]
    omega
  | node l i r ih1 ih2 =>
    intro p k h x hx
    simp only [Forest.Regular] at h
    obtain ⟨h1, _, h3, h4⟩ := h
    simp only [Forest.width, Forest.size]
    rcases List.mem_cons.1 hx with rfl | hx
    · simp only; omega
    · rcases List.mem_append.1 hx with hx | hx
      · have := ih1 p k h3 x hx; omega
      · have := ih2 _ _ h4 x hx; omega

theorem pre_sorted : ∀ (f : Forest) (p k : Nat), f.Regular → (pre p k f).Pairwise Before := by
  intro f
  induction f with
  | nil => intro p k _; simp [pre]
  | word r ih => intro p k h; exact ih (p + 1) k h
  | node l i r ih1 ih2 =>
    intro p k h
    simp only [Forest.Regular] at h
    obtain ⟨h1, _, h3, h4⟩ := h
    rw [pre, List.pairwise_cons, List.pairwise_append]
    refine ⟨?_, ih1 p k h3, ih2 _ _ h4, ?_⟩
    · intro y hy
      rcases List.mem_append.1 hy with hy | hy
      · have := pre_bounds i p k h3 y hy
        unfold Before
        simp only
        omega
      · have := pre_bounds r _ _ h4 y hy
        unfold Before
        simp only
        omega
    · intro x hx y hy
      have h5 := pre_bounds i p k h3 x hx
      have h6 := pre_bounds r _ _ h4 y hy
      unfold Before
      omega

theorem pre_perm : ∀ (f : Forest) (p k : Nat),
    (pre p k f).Perm (((f.nodes p).zipIdx k).map (fun x => (x.1.first, x.1.last, x.2))) := by
  intro f
  induction f with
  | nil => intros; simp [pre, Forest.nodes]
  | word r ih => intro p k; exact ih (p + 1) k
  | node l i r ih1 ih2 =>
    intro p k
    rw [pre, Forest.nodes, List.zipIdx_append, List.map_append, List.zipIdx_cons, List.map_cons, nodes_length]
    exact (((ih1 p k).append (ih2 _ _)).cons _).trans List.perm_middle.symm

theorem visit_forest (f : Forest) (p : Nat) (h : f.Regular) : visitOrder (index (f.nodes p)) = preIds 0 f := by
  rw [order_eq (pre_sorted f p 0 h) (pre_perm f p 0), pre_ids]

/-- From `a` the ancestors that end before `p` lead to `q`. -/
inductive Climbs (nodes : List Node) (parent : Nat → Option Nat) (q p : Nat) : Nat → Prop
  | here {a : Nat} : parent a = some q → a < q → Climbs nodes parent q p a
  | up {a b : Nat} {y : Node} : parent a = some b → a < b → b < q → nodes[b]? = some y → y.last < p →
      Climbs nodes parent q p b → Climbs nodes parent q p a

theorem Climbs.lt {nodes parent q p a} (h : Climbs nodes parent q p a) : a < q := by
  cases h with
  | here _ h => exact h
  | up _ h1 h2 => omega

theorem Climbs.mono {nodes parent q p p' a} (h : Climbs nodes parent q p a) (hp : p ≤ p') :
    Climbs nodes parent q p' a := by
  induction h with
  | here h1 h2 => exact .here h1 h2
  | up h1 h2 h3 h4 h5 _ ih => exact .up h1 h2 h3 h4 (by omega) ih

theorem Climbs.trans {nodes parent q q' p a} {y : Node} (h : Climbs nodes parent q p a) (hy : nodes[q]? = some y)
    (hl : y.last < p) (hlt : q < q') (h' : parent q = some q') : Climbs nodes parent q' p a := by
  induction h with
  | here h1 h2 => exact .up h1 h2 hlt hy hl (.here h' hlt)
  | up h1 h2 h3 h4 h5 _ ih => exact .up h1 h2 (by omega) h4 h5 ih

theorem climb_spec {nodes parent q p a stop} {y : Node} (h : Climbs nodes parent q p a) (hy : nodes[q]? = some y)
    (hs : stop ≤ y.last) (hp : p ≤ stop) : ∀ fuel, q - a < fuel → climb nodes parent stop fuel (parent a) = .ok q := by
  induction h with
  | here h1 h2 =>
    intro fuel hf
    obtain ⟨n, rfl⟩ : ∃ n, fuel = n + 1 := ⟨fuel - 1, by omega⟩
    rw [h1]
    simp only [climb, hy]
    rw [if_neg (by omega)]
  | up h1 h2 h3 h4 h5 _ ih =>
    intro fuel hf
    obtain ⟨n, rfl⟩ : ∃ n, fuel = n + 1 := ⟨fuel - 1, by omega⟩
    rw [h1]
    simp only [climb, h4]
    rw [if_pos (by omega)]
    exact ih n (by omega)

/-- `Shows`, with the numbers between two bounds. -/
def ShowsIn (nodes : List Node) (l : Links) (lo hi : Nat) : Option Nat → List Nat → Nat → Forest → Prop
  | par, ids, p, .nil => ids = []
  | par, ids, p, .word r => ShowsIn nodes l lo hi par ids (p + 1) r
  | par, ids, p, .node label i r =>
    ∃ id ids', ids = id :: ids' ∧ lo ≤ id ∧ id < hi ∧ nodes[id]? = some ⟨p, p + i.width - 1, label⟩ ∧
      l.parent id = par ∧
      ShowsIn nodes l lo hi (some id) (l.children id) p i ∧ ShowsIn nodes l lo hi par ids' (p + i.width) r

theorem ShowsIn.shows {nodes l lo hi} : ∀ (f : Forest) {par ids p}, ShowsIn nodes l lo hi par ids p f →
    Shows nodes l par ids p f := by
  intro f
  induction f with
  | nil => intro _ _ _ h; exact h
  | word r ih => intro _ _ _ h; exact ih h
  | node label i r ih1 ih2 =>
    rintro par ids p ⟨id, ids', h1, _, _, h2, h3, h4, h5⟩
    exact ⟨id, ids', h1, h2, h3, ih1 h4, ih2 h5⟩

theorem ShowsIn.congr {nodes l l' lo hi lo' hi'} (hlo : lo' ≤ lo) (hhi : hi ≤ hi')
    (h : ∀ id, lo ≤ id → id < hi → l'.parent id = l.parent id ∧ l'.children id = l.children id) :
    ∀ (f : Forest) {par ids p}, ShowsIn nodes l lo hi par ids p f → ShowsIn nodes l' lo' hi' par ids p f := by
  intro f
  induction f with
  | nil => intro _ _ _ h; exact h
  | word r ih => intro _ _ _ h; exact ih h
  | node label i r ih1 ih2 =>
    rintro par ids p ⟨id, ids', h1, h6, h7, h2, h3, h4, h5⟩
    obtain ⟨e1, e2⟩ := h id h6 h7
    refine ⟨id, ids', h1, by omega, by omega, h2, by rw [e1, h3], ?_, ih2 h5⟩
    rw [e2]
    exact ih1 h4

theorem ShowsIn.none {nodes l lo hi par} : ∀ (f : Forest) (p : Nat), f.size = 0 → ShowsIn nodes l lo hi par [] p f := by
  intro f
  induction f with
  | nil => intro p _; rfl
  | word r ih => intro p h; exact ih (p + 1) h
  | node label i r ih1 ih2 => intro p h; simp [Forest.size] at h

theorem preIds_none : ∀ (f : Forest) (k : Nat), f.size = 0 → preIds k f = [] := by
  intro f
  induction f with
  | nil => intros; rfl
  | word r ih => intro k h; exact ih k h
  | node label i r ih1 ih2 => intro k h; simp [Forest.size] at h

theorem connect_forest (nodes : List Node) : ∀ (f : Forest) (p k q prev : Nat) (y : Node) (l : Links) (more : List Nat),
    f.Regular → (∀ i, i < f.size → nodes[k + i]? = (f.nodes p)[i]?) →
    nodes[q]? = some y → p + f.width ≤ y.last + 1 → k + f.size ≤ q →
    ((prev = q ∧ y.first = p ∧ ∀ r, f = .word r → r.size = 0) ∨
      (Climbs nodes l.parent q p prev ∧ prev < k ∧ ∃ z, nodes[prev]? = some z ∧ z.first < p)) →
    (∀ i, k ≤ i → i < k + f.size → l.children i = []) →
    ∃ l' prev' ids, connectLoop nodes (preIds k f ++ more) (some prev) l = connectLoop nodes more (some prev') l' ∧
      l'.top = l.top ∧ (∀ i, ¬(k ≤ i ∧ i < k + f.size) → l'.parent i = l.parent i) ∧
      (∀ i, ¬(k ≤ i ∧ i < k + f.size) → i ≠ q → l'.children i = l.children i) ∧
      l'.children q = l.children q ++ ids ∧ ShowsIn nodes l' k (k + f.size) (some q) ids p f ∧
      (f.size = 0 → prev' = prev) ∧
      (0 < f.size → Climbs nodes l'.parent q (p + f.width) prev' ∧ k ≤ prev' ∧ prev' < k + f.size ∧
        ∃ z, nodes[prev']? = some z ∧ z.first < p + f.width) := by
  intro f
  induction f with
  | nil =>
    intro p k q prev y l more _ _ _ _ _ _ _
    exact ⟨l, prev, [], rfl, rfl, fun _ _ => rfl, fun _ _ _ => rfl, by simp, rfl, fun _ => rfl,
      fun h => absurd h (by simp [Forest.size])⟩
  | word r ih =>
    intro p k q prev y l more hreg hnodes hq hw hk hprev hfresh
    by_cases hs : (Forest.word r).size = 0
    · refine ⟨l, prev, [], by rw [preIds_none _ _ hs]; rfl, rfl, fun _ _ => rfl, fun _ _ _ => rfl, by simp,
        ShowsIn.none _ _ hs, fun _ => rfl, fun h => by omega⟩
    · have hc : Climbs nodes l.parent q p prev ∧ prev < k ∧ ∃ z, nodes[prev]? = some z ∧ z.first < p := by
        rcases hprev with ⟨_, _, h⟩ | h
        · exact absurd (h r rfl) hs
        · exact h
      obtain ⟨hc, hlt, z, hz, hzp⟩ := hc
      have hwd : (Forest.word r).width = r.width + 1 := rfl
      obtain ⟨l', prev', ids, h1, h2, h3, h4, h5, h6, h7, h8⟩ := ih (p + 1) k q prev y l more hreg hnodes hq
        (by omega) hk (Or.inr ⟨hc.mono (by omega), hlt, z, hz, by omega⟩) hfresh
      refine ⟨l', prev', ids, h1, h2, h3, h4, h5, h6, h7, ?_⟩
      intro hpos
      obtain ⟨e1, e2, e3, z', e4, e5⟩ := h8 hpos
      exact ⟨e1.mono (by omega), e2, e3, z', e4, by omega⟩
  | node label i r ih1 ih2 =>
    intro p k q prev y l more hreg hnodes hq hw hk hprev hfresh
    simp only [Forest.Regular] at hreg
    obtain ⟨r1, r2, r3, r4⟩ := hreg
    simp only [Forest.width, Forest.size] at hw hk hfresh hnodes ⊢
    have hlen := nodes_length i p
    have hid : nodes[k + i.size]? = some ⟨p, p + i.width - 1, label⟩ := by
      rw [hnodes i.size (by omega), Forest.nodes, List.getElem?_append_right (by omega), hlen]
      simp
    have hn1 : ∀ j, j < i.size → nodes[k + j]? = (i.nodes p)[j]? := by
      intro j hj
      rw [hnodes j (by omega), Forest.nodes, List.getElem?_append_left (by omega)]
    have hn2 : ∀ j, j < r.size → nodes[k + i.size + 1 + j]? = (r.nodes (p + i.width))[j]? := by
      intro j hj
      have := hnodes (i.size + 1 + j) (by omega)
      rw [show k + i.size + 1 + j = k + (i.size + 1 + j) by omega, this, Forest.nodes,
        List.getElem?_append_right (by omega), hlen, show i.size + 1 + j - i.size = j + 1 by omega]
      simp
    have hqlt : q < nodes.length := by
      have := List.getElem?_eq_some_iff.1 hq
      exact this.1
    -- the node itself
    have hone : connectOne nodes (some prev) (k + i.size) l = .ok (link l q (k + i.size)) := by
      rw [connectOne]
      rcases hprev with ⟨rfl, hf, _⟩ | ⟨hc, hlt, z, hz, hzp⟩
      · simp only [hq, hid]
        rw [if_pos hf]
      · simp only [hz, hid]
        rw [if_neg (by omega), climb_spec hc hq (by omega) (by omega) _ (by omega)]
    generalize hidk : k + i.size = id at hid hone hn2
    have hl1p : ∀ x, x ≠ id → (link l q id).parent x = l.parent x := by
      intro x hx; simp [link, hx]
    have hl1id : (link l q id).parent id = some q := by simp [link]
    have hl1c : ∀ x, x ≠ q → (link l q id).children x = l.children x := by
      intro x hx; simp [link, hx]
    have hl1q : (link l q id).children q = l.children q ++ [id] := by simp [link]
    -- what is inside
    obtain ⟨l2, prev2, ids2, a1, a2, a3, a4, a5, a6, a7, a8⟩ := ih1 p k id id ⟨p, p + i.width - 1, label⟩
      (link l q id) (preIds (id + 1) r ++ more) r3 hn1 hid (by simp only; omega) (by omega)
      (Or.inl ⟨rfl, rfl, by
        rintro r' rfl
        exact r2⟩)
      (by
        intro j hj1 hj2
        rw [hl1c j (by omega)]
        exact hfresh j (by omega) (by omega))
    have hpid : l2.parent id = some q := by rw [a3 id (by omega), hl1id]
    have hclimb : Climbs nodes l2.parent q (p + i.width) prev2 ∧ prev2 < id + 1 ∧
        ∃ z, nodes[prev2]? = some z ∧ z.first < p + i.width := by
      by_cases hs : i.size = 0
      · rw [a7 hs]
        exact ⟨.here hpid (by omega), by omega, _, hid, by simp only; omega⟩
      · obtain ⟨b1, b2, b3, b4⟩ := a8 (by omega)
        exact ⟨b1.trans hid (by simp only; omega) (by omega) hpid, by omega, b4⟩
    -- what follows
    obtain ⟨l3, prev3, ids3, c1, c2, c3, c4, c5, c6, c7, c8⟩ := ih2 (p + i.width) (id + 1) q prev2 y l2 more r4 hn2 hq
      (by omega) (by omega) (Or.inr hclimb)
      (by
        intro j hj1 hj2
        rw [a4 j (by omega) (by omega), hl1c j (by omega)]
        exact hfresh j (by omega) (by omega))
    refine ⟨l3, prev3, id :: ids3, ?_, ?_, ?_, ?_, ?_, ?_, ?_, ?_⟩
    · rw [preIds, hidk, List.cons_append, connectLoop, hone]
      dsimp only
      rw [List.append_assoc, a1, c1]
    · rw [c2, a2]; rfl
    · intro j hj
      rw [c3 j (by omega), a3 j (by omega), hl1p j (by omega)]
    · intro j hj hjq
      rw [c4 j (by omega) hjq, a4 j (by omega) (by omega), hl1c j hjq]
    · rw [c5, a4 q (by omega) (by omega), hl1q]; simp
    · refine ⟨id, ids3, rfl, by omega, by omega, hid, by rw [c3 id (by omega), hpid], ?_, ?_⟩
      · have he : l3.children id = ids2 := by
          rw [c4 id (by omega) (by omega), a5, hl1c id (by omega), hfresh id (by omega) (by omega)]
          simp
        rw [he]
        refine a6.congr (le_refl _) (by omega) ?_
        intro j hj1 hj2
        exact ⟨c3 j (by omega), c4 j (by omega) (by omega)⟩
      · exact c6.congr (by omega) (by omega) (fun _ _ _ => ⟨rfl, rfl⟩)
    · intro h; omega
    · intro _
      by_cases hs : r.size = 0
      · rw [c7 hs]
        obtain ⟨b1, b2, z, b3, b4⟩ := hclimb
        -- nothing follows: the links of `l2` lead up as those of `l3`
        have hpar : ∀ j, j ≤ id → l3.parent j = l2.parent j := fun j hj => c3 j (by omega)
        have hall : ∀ j, l3.parent j = l2.parent j := fun j => c3 j (by omega)
        have heq : l3.parent = l2.parent := funext hall
        rw [heq]
        refine ⟨b1.mono (by omega), ?_, by omega, z, b3, by omega⟩
        by_cases hs' : i.size = 0
        · rw [a7 hs']; omega
        · have := (a8 (by omega)).2.1; omega
      · obtain ⟨b1, b2, b3, z, b4, b5⟩ := c8 (by omega)
        refine ⟨?_, by omega, by omega, z, b4, by omega⟩
        rw [← Nat.add_assoc]
        exact b1

/-- The tree is rebuilt. -/
theorem connect_tree (label : Str) (i : Forest) (p : Nat) (h : (Forest.node label i .nil).Regular) :
    ∃ l id, connect ((Forest.node label i .nil).nodes p) = .ok l ∧ l.top = some id ∧
      Shows ((Forest.node label i .nil).nodes p) l none [id] p (.node label i .nil) := by
  have hvisit := visit_forest (.node label i .nil) p h
  generalize hN : (Forest.node label i .nil).nodes p = nodes at hvisit ⊢
  simp only [Forest.Regular] at h
  obtain ⟨r1, r2, r3, _⟩ := h
  have hlen := nodes_length i p
  have hNe : nodes = i.nodes p ++ [⟨p, p + i.width - 1, label⟩] := by rw [← hN]; simp [Forest.nodes]
  have hid : nodes[i.size]? = some ⟨p, p + i.width - 1, label⟩ := by
    rw [hNe, List.getElem?_append_right (by omega), hlen]; simp
  have hn1 : ∀ j, j < i.size → nodes[0 + j]? = (i.nodes p)[j]? := by
    intro j hj
    rw [hNe, Nat.zero_add, List.getElem?_append_left (by omega)]
  obtain ⟨l2, prev2, ids2, a1, a2, a3, a4, a5, a6, a7, a8⟩ := connect_forest nodes i p 0 i.size i.size
    ⟨p, p + i.width - 1, label⟩ { top := some i.size, parent := fun _ => none, children := fun _ => [] } [] r3 hn1 hid
    (by simp only; omega) (by omega) (Or.inl ⟨rfl, rfl, by rintro r' rfl; exact r2⟩) (fun _ _ _ => rfl)
  refine ⟨l2, i.size, ?_, by rw [a2], i.size, [], rfl, hid, by rw [a3 _ (by omega)], ?_, rfl⟩
  · rw [connect, hvisit, preIds, connectLoop, connectOne]
    dsimp only
    rw [preIds, Nat.zero_add]
    have : (fun x => if x = i.size then none else none : Nat → Option Nat) = fun _ => none := by
      funext x; simp
    rw [this]
    exact a1
  · rw [a5]
    exact a6.shows

end Verif.Xml
