import Verif.Pipeline.Model
import Mathlib.Data.List.Forall2

/-!
What it means that a pipeline is complete, written down without the algorithm.
-/
namespace Verif.Pipeline.Spec

variable {P : Type} (env : Env P)

/-- `q` provides all the tags `T`. -/
def Provides (q : P) (T : List Str) : Prop := ∀ t ∈ T, t ∈ env.provided q

/-- Every list of tags a processor requires is provided by a processor before it. -/
def Fulfilled (r : List P) : Prop :=
  ∀ pre p post, r = pre ++ p :: post → ∀ T ∈ env.required p, ∃ q ∈ pre, Provides env q T

/-- `q` is `p` set to work in the language `l`. -/
inductive Speaks (l : Str) (p : P) : P → Prop
  | neutral : env.handling p = .independent ∨ env.handling p = .guesser → Speaks l p p
  | one : env.handling p = .one → l ∈ env.languages p → Speaks l p p
  | clone : env.handling p = .dependent → l ∈ env.languages p → Speaks l p (env.clone p l)

/-- The languages an alternative has to be multiplied by: one of its processors depends on the language, or two of
them are made for different languages. -/
def Multilingual (alt : List P) : Prop :=
  (∃ p ∈ alt, env.handling p = .dependent) ∨
    ∃ p ∈ alt, ∃ q ∈ alt, env.handling p = .one ∧ env.handling q = .one ∧ env.languages p ≠ env.languages q

/-- What stands in the pipeline for an alternative that was asked for: one of its elements, or one for each language. -/
def Chosen (langs : List Str) (alt seg : List P) : Prop :=
  (¬ Multilingual env alt ∧ ∃ p ∈ alt, seg = [p]) ∨
    (Multilingual env alt ∧ List.Forall₂ (fun l q => ∃ p ∈ alt, Speaks env l p q) langs seg)

/-- `q` is made of a factory that offers the tags `T`. -/
def Offered (q : P) (T : List Str) : Prop :=
  ∃ f ∈ env.factories, (∀ t ∈ T, t ∈ f.provided) ∧ (q = f.default ∨ ∃ l, q = f.withLang l)

/-- In a sequence whose elements are marked (asked for or not), an element that was not asked for has a reason: a later
processor requires tags that its factory offers; and where nothing was yet inserted for that, no processor provided
them. -/
def Needed (m : List (P × Bool)) : Prop :=
  ∀ pre q post, m = pre ++ (q, false) :: post → ∃ p ∈ post.map Prod.fst, ∃ T ∈ env.required p, Offered env q T ∧
    ∃ a b, pre = a ++ b ∧ (∀ x ∈ a, ¬ Provides env x.1 T) ∧ ∀ x ∈ b, x.2 = false

/-- The factories keep the rules about languages: a processor for one language has one, and setting the language makes
a processor for that language. -/
structure Sane : Prop where
  one : ∀ p, env.handling p = .one → ∃ l, env.languages p = [l]
  clone : ∀ p l, env.handling p = .dependent → l ∈ env.languages p →
    env.handling (env.clone p l) = .one ∧ env.languages (env.clone p l) = [l]
  lang : ∀ f ∈ env.factories, env.handling f.default = .dependent → ∀ l ∈ env.languages f.default,
    env.handling (f.withLang l) = .one ∧ env.languages (f.withLang l) = [l]

end Verif.Pipeline.Spec
