import Verif.Limit.Lemmas

/-!
Property theorems C25 (limit checker).
-/
namespace Verif.Limit
open Spec

/-- The declarations made by a history, in order. -/
def declared : List Op → List (Int × Int)
  | [] => []
  | .add a l :: ops => (a, l) :: declared ops
  | .addUnlimited a :: ops => (a, 2147483647) :: declared ops
  | _ :: ops => declared ops

/-- The absolute limit in force after a history. -/
def absoluteAfter (l : Int) : List Op → Int
  | [] => l
  | .setAbsolute l' :: ops => absoluteAfter l' ops
  | _ :: ops => absoluteAfter l ops

theorem run_inv (ops : List Op) (c : Checker) (ds : List (Int × Int)) (absolute : Int)
    (h : Inv c ds absolute) : Inv (run c ops) (ds ++ declared ops) (absoluteAfter absolute ops) := by
  induction ops generalizing c ds absolute with
  | nil => simpa [run, declared, absoluteAfter] using h
  | cons op ops ih =>
    cases op with
    | setAbsolute l =>
      exact ih _ ds l ⟨h.sorted, h.groups, rfl⟩
    | add a l =>
      have := ih _ _ _ (inv_add h a l)
      simpa [run, declared, absoluteAfter, step] using this
    | addUnlimited a =>
      have := ih _ _ _ (inv_add h a intMax)
      simpa [run, declared, absoluteAfter, step, addUnlimitedSpec, intMax] using this
    | query a v => exact ih _ ds absolute (inv_query h a v)

/-- **C25** After any history of declarations, absolute-limit changes and queries, `isAllowed`
answers according to the smallest declared bound not below the argument (the first declared
among equal bounds), or the absolute limit if there is none.  Earlier queries play no role. -/
theorem C25_isAllowed (l0 : Int) (ops : List Op) (argument value : Int) :
    (isAllowed (run (initWith l0) ops) argument value).1 = true ↔
      Allowed (declared ops) (absoluteAfter l0 ops) argument value := by
  have h0 : Inv (initWith l0) [] l0 := ⟨fun _ => by simp [initWith, Sorted], .refl _, rfl⟩
  have := run_inv ops _ _ _ h0
  simp only [List.nil_append] at this
  exact isAllowed_spec this argument value

/-- **C25** a checker without declared limits allows everything an `int` can hold. -/
theorem C25_default (argument value : Int) (h : value ≤ 2147483647) :
    (isAllowed init argument value).1 = true := by
  simp [isAllowed, init, findSpec, intMax, h]

/-- **C25** the order of declarations with distinct bounds does not matter. -/
theorem C25_order_irrelevant (l0 : Int) (ops ops' : List Op)
    (hp : (declared ops).Perm (declared ops')) (hd : ((declared ops).map Prod.fst).Nodup)
    (ha : absoluteAfter l0 ops = absoluteAfter l0 ops') (argument value : Int) :
    (isAllowed (run (initWith l0) ops) argument value).1
      = (isAllowed (run (initWith l0) ops') argument value).1 := by
  rw [Bool.eq_iff_iff, C25_isAllowed, C25_isAllowed, ha]
  have key : ∀ {ds ds' : List (Int × Int)}, ds.Perm ds' → (ds.map Prod.fst).Nodup →
      ∀ b l, Governs ds argument b l → Governs ds' argument b l := by
    intro ds ds' hp hd b l ⟨pre, post, e, h1, h2, h3⟩
    have hm : (b, l) ∈ ds' := hp.mem_iff.1 (by rw [e]; simp)
    obtain ⟨pre', post', e'⟩ := List.append_of_mem hm
    refine ⟨pre', post', e', h1, fun d hd hda => h2 d (hp.mem_iff.2 hd) hda, ?_⟩
    have hd' : (ds'.map Prod.fst).Nodup := (hp.map _).nodup_iff.1 hd
    rw [e'] at hd'
    simp only [List.map_append, List.map_cons] at hd'
    intro d hd2 heq
    have := (List.nodup_append.1 hd').2.2 d.1 (List.mem_map_of_mem hd2) b (by simp)
    exact this heq
  have hd2 : ((declared ops').map Prod.fst).Nodup := (hp.map _).nodup_iff.1 hd
  constructor
  · rintro (⟨b, l, hg, hv⟩ | ⟨hn, hv⟩)
    · exact Or.inl ⟨b, l, key hp hd b l hg, hv⟩
    · exact Or.inr ⟨fun d hd => hn d (hp.mem_iff.2 hd), hv⟩
  · rintro (⟨b, l, hg, hv⟩ | ⟨hn, hv⟩)
    · exact Or.inl ⟨b, l, key hp.symm hd2 b l hg, hv⟩
    · exact Or.inr ⟨fun d hd => hn d (hp.mem_iff.1 hd), hv⟩

/-- The documented example (limit_checker.hpp 17-29), declared out of order with a query in
between: argument 25 is governed by the bound 30 with limit 20. -/
example :
    let ops := [Op.add 100 12, .add 20 30, .query 15 31, .add 30 20, .addUnlimited 10]
    (isAllowed (run (initWith 8) ops) 25 20).1 = true ∧
    (isAllowed (run (initWith 8) ops) 25 21).1 = false ∧
    (isAllowed (run (initWith 8) ops) 5 1000000).1 = true ∧
    (isAllowed (run (initWith 8) ops) 101 9).1 = false := by decide

end Verif.Limit
