import Verif.Zval.Model

/-!
# What a hash table is for

A table is a bag of values: a value that has been put and not deleted since is
found under its keys.  An environment is a map as long as nothing is inserted
under a key that is there.
-/

namespace Verif.Zval

/-- `Allowed same bag calls answers`: the answers are such as a bag that holds
`bag` at the beginning may give.  Which of several values of a key is found or
removed is left open. -/
inductive Allowed {K V : Type} (same : K → V → Bool) :
    List V → List (Call K V) → List (Answer V) → Prop where
  | done {bag : List V} : Allowed same bag [] []
  | put {bag v cs as} : Allowed same (v :: bag) cs as →
      Allowed same bag (.put v :: cs) (.nothing :: as)
  | found {bag k v cs as} : v ∈ bag → same k v = true → Allowed same bag cs as →
      Allowed same bag (.get k :: cs) (.one (some v) :: as)
  | missing {bag k cs as} : (∀ v ∈ bag, same k v = false) → Allowed same bag cs as →
      Allowed same bag (.get k :: cs) (.one none :: as)
  | all {bag k vs cs as} : vs.Perm (bag.filter (same k)) → Allowed same bag cs as →
      Allowed same bag (.all k :: cs) (.many vs :: as)
  | removed {bag k v rest cs as} : same k v = true → bag.Perm (v :: rest) →
      Allowed same rest cs as → Allowed same bag (.remove k :: cs) (.one (some v) :: as)
  | notRemoved {bag k cs as} : (∀ v ∈ bag, same k v = false) → Allowed same bag cs as →
      Allowed same bag (.remove k :: cs) (.one none :: as)
  | deleted {bag k p cs as} :
      Allowed same (bag.filter fun v => !(same k v && p v)) cs as →
      Allowed same bag (.deleteAll k p :: cs) (.nothing :: as)

/-- `EnvAllowed bag calls answers`: the same for an environment, which is a bag of
keys with values. -/
inductive EnvAllowed {K W : Type} [DecidableEq K] [DecidableEq W] :
    List (K × W) → List (EnvCall K W) → List (EnvAnswer W) → Prop where
  | done {bag : List (K × W)} : EnvAllowed bag [] []
  | fetched {bag s d cs as} : (s, d) ∈ bag → EnvAllowed bag cs as →
      EnvAllowed bag (.fetch s :: cs) (.value (some d) :: as)
  | missing {bag s cs as} : (∀ d, (s, d) ∉ bag) → EnvAllowed bag cs as →
      EnvAllowed bag (.fetch s :: cs) (.value none :: as)
  | isDefined {bag s d cs as} : (s, d) ∈ bag → EnvAllowed bag cs as →
      EnvAllowed bag (.defined s :: cs) (.truth true :: as)
  | undefined {bag s cs as} : (∀ d, (s, d) ∉ bag) → EnvAllowed bag cs as →
      EnvAllowed bag (.defined s :: cs) (.truth false :: as)
  | changed {bag s d d0 rest cs as} : bag.Perm ((s, d0) :: rest) →
      EnvAllowed ((s, d) :: rest) cs as → EnvAllowed bag (.change s d :: cs) (.nothing :: as)
  | added {bag s d cs as} : (∀ d, (s, d) ∉ bag) → EnvAllowed ((s, d) :: bag) cs as →
      EnvAllowed bag (.change s d :: cs) (.nothing :: as)
  | inserted {bag s d cs as} : EnvAllowed ((s, d) :: bag) cs as →
      EnvAllowed bag (.insert s d :: cs) (.nothing :: as)
  | deletedPair {bag s d cs as} : EnvAllowed (bag.filter fun p => decide (p ≠ (s, d))) cs as →
      EnvAllowed bag (.deleteAllKeyValue s d :: cs) (.nothing :: as)
  | deletedKey {bag s cs as} : EnvAllowed (bag.filter fun p => decide (p.1 ≠ s)) cs as →
      EnvAllowed bag (.deleteAllKey s :: cs) (.nothing :: as)
  | removed {bag s d rest cs as} : bag.Perm ((s, d) :: rest) → EnvAllowed rest cs as →
      EnvAllowed bag (.remove s :: cs) (.value (some d) :: as)
  | notRemoved {bag s cs as} : (∀ d, (s, d) ∉ bag) → EnvAllowed bag cs as →
      EnvAllowed bag (.remove s :: cs) (.value none :: as)

/-- A map with another value under one key. -/
def assign {K W : Type} [DecidableEq K] (m : K → Option W) (s : K) (d : Option W) : K → Option W :=
  fun k => if k = s then d else m k

/-- The answers of a map. -/
def mapAnswers {K W : Type} [DecidableEq K] [DecidableEq W] :
    (K → Option W) → List (EnvCall K W) → List (EnvAnswer W)
  | _, [] => []
  | m, .fetch s :: cs => .value (m s) :: mapAnswers m cs
  | m, .defined s :: cs => .truth (m s).isSome :: mapAnswers m cs
  | m, .change s d :: cs => .nothing :: mapAnswers (assign m s (some d)) cs
  | m, .insert s d :: cs => .nothing :: mapAnswers (assign m s (some d)) cs
  | m, .deleteAllKeyValue s d :: cs =>
    .nothing :: mapAnswers (if m s = some d then assign m s none else m) cs
  | m, .deleteAllKey s :: cs => .nothing :: mapAnswers (assign m s none) cs
  | m, .remove s :: cs => .value (m s) :: mapAnswers (assign m s none) cs

/-- Nothing is inserted under a key that is there. -/
def InsertsNew {K W : Type} [DecidableEq K] [DecidableEq W] :
    (K → Option W) → List (EnvCall K W) → Prop
  | _, [] => True
  | m, .fetch _ :: cs => InsertsNew m cs
  | m, .defined _ :: cs => InsertsNew m cs
  | m, .change s d :: cs => InsertsNew (assign m s (some d)) cs
  | m, .insert s d :: cs => m s = none ∧ InsertsNew (assign m s (some d)) cs
  | m, .deleteAllKeyValue s d :: cs => InsertsNew (if m s = some d then assign m s none else m) cs
  | m, .deleteAllKey s :: cs => InsertsNew (assign m s none) cs
  | m, .remove s :: cs => InsertsNew (assign m s none) cs

/-- The position after `n` steps of the loops of `put_` and `get_`: from `h1 % size`
by `h2` at a time, in `unsigned int`s. -/
def position (size h1 : Nat) : Nat → Nat
  | 0 => h1 % size
  | n + 1 => (position size h1 n + (h1 ||| 1)) % 2 ^ 32 % size

end Verif.Zval
