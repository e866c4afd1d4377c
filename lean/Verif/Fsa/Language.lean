import Verif.Fsa.Model

/-!
Model of the enumeration of the words of an automaton, `language_rec` and `language` in
`tools/datastructures/psi_query/fsa_algorithms.hpp` lines 977–1000.
-/
namespace Verif.Fsa
open Verif

/-- `language_rec`, fsa_algorithms.hpp 977-993: what is written to the iterator.  A word that is longer
than `maxDepth` ends the recursion, so that fuel for the symbols that can be added is enough. -/
def Fsa.languageRec (a : Fsa) (maxDepth : Nat) : Nat → Nat → List Sym → List (List Sym)
  | 0, _, _ => []
  | fuel + 1, p, word =>
    if word.length > maxDepth then []
    else (if a.isEnd p then [word] else []) ++
      (a.arcs p).flatMap fun arc => a.languageRec maxDepth fuel arc.2 (word ++ [arc.1])

/-- `language`, fsa_algorithms.hpp 995-1000. -/
def Fsa.language (a : Fsa) (maxDepth : Nat) : List (List Sym) :=
  a.starts.flatMap fun p => a.languageRec maxDepth (maxDepth + 1) p []

end Verif.Fsa
